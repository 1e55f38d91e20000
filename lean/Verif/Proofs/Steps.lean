import Verif.Model.Steps
import Verif.Spec.Steps
import Verif.Proofs.PyDict
set_option linter.unusedSectionVars false
namespace Verif.Steps
open Verif Verif.Spec.Steps
variable {A : Type} [DecidableEq A] {P : Type} [DecidableEq P]

/-! ### inner and outer steps -/

theorem genSize_append (l1 l2 : List (Dim A)) : genSize (l1 ++ l2) = genSize l1 * genSize l2 := by
  induction l1 with
  | nil => simp [genSize]
  | cons d ds ih => simp [genSize, ih, Nat.mul_assoc]

theorem genSize_reverse (l : List (Dim A)) : genSize l.reverse = genSize l := by
  induction l with
  | nil => rfl
  | cons d ds ih =>
    rw [List.reverse_cons, genSize_append, ih]
    simp [genSize, Nat.mul_comm]

theorem consume_spec {as s s' : List A} (h : consume as s = some s') :
    (∀ a ∈ as, a ∈ s) ∧ (∀ b, b ∈ s' ↔ b ∈ s ∧ b ∉ as) := by
  induction as generalizing s with
  | nil => simp [consume] at h; subst h; simp
  | cons a as ih =>
    unfold consume at h
    split at h
    · rename_i ha
      obtain ⟨h1, h2⟩ := ih h
      refine ⟨?_, ?_⟩
      · intro b hb
        simp only [List.mem_cons] at hb
        rcases hb with rfl | hb
        · exact ha
        · exact (List.mem_filter.1 (h1 b hb)).1
      · intro b
        rw [h2]
        simp only [List.mem_filter, decide_eq_true_eq, List.mem_cons, not_or]
        exact ⟨fun ⟨⟨x, y⟩, z⟩ => ⟨x, y, z⟩, fun ⟨x, y, z⟩ => ⟨⟨x, y⟩, z⟩⟩
    · cases h

theorem outerSteps_none {M : List A} {ds : List (Dim A)}
    (h : ∀ d ∈ ds, ∀ a ∈ d.axes, a ∉ M) : outerSteps M ds = genSize ds := by
  induction ds with
  | nil => rfl
  | cons d ds ih =>
    have : d.axes.any (fun a => decide (a ∈ M)) = false := by
      rw [List.any_eq_false]; intro a ha; simpa using h d (by simp) a ha
    simp [outerSteps, genSize, this, ih (fun d' hd' => h d' (by simp [hd']))]

theorem inner_mul_outer (M : List A) (ds : List (Dim A)) (s : List A)
    (hne : ∀ d ∈ ds, d.axes ≠ [])
    (hnd : ds.Pairwise (fun d d' => ∀ a ∈ d.axes, a ∉ d'.axes))
    (hs : ∀ d ∈ ds, ∀ a ∈ d.axes, (a ∈ M ↔ a ∈ s)) (n : Nat)
    (h : innerSteps ds s = some n) : n * outerSteps M ds = genSize ds := by
  induction ds generalizing s n with
  | nil => simp [innerSteps] at h; subst h; simp [outerSteps, genSize]
  | cons d ds ih =>
    unfold innerSteps at h
    by_cases hbr : d.axes ≠ [] ∧ s = []
    · rw [if_pos hbr] at h
      simp at h; subst h
      rw [outerSteps_none, Nat.one_mul]
      intro d' hd' a ha hm
      have := (hs d' hd' a ha).1 hm
      rw [hbr.2] at this; simp at this
    · rw [if_neg hbr] at h
      cases hc : consume d.axes s with
      | none => simp [hc] at h
      | some s' =>
        simp only [hc, Option.map_eq_some_iff] at h
        obtain ⟨n', hn', rfl⟩ := h
        obtain ⟨hsub, hs'⟩ := consume_spec hc
        have hany : d.axes.any (fun a => decide (a ∈ M)) = true := by
          obtain ⟨a, ha⟩ := List.exists_mem_of_ne_nil _ (hne d (by simp))
          rw [List.any_eq_true]
          exact ⟨a, ha, by simpa using (hs d (by simp) a ha).2 (hsub a ha)⟩
        have := ih s' (fun d' h' => hne d' (by simp [h'])) (List.pairwise_cons.1 hnd).2 (by
          intro d' hd' a ha
          rw [hs', hs d' (by simp [hd']) a ha]
          have := (List.pairwise_cons.1 hnd).1 d' hd'
          constructor
          · intro hm; exact ⟨hm, fun hd => this a hd ha⟩
          · exact fun hm => hm.1) n' hn'
        simp only [outerSteps, hany, if_true, genSize]
        rw [Nat.mul_assoc, this]

theorem innerSteps_pos {ds : List (Dim A)} {s : List A} {n : Nat} (hpos : ∀ d ∈ ds, 0 < d.size)
    (h : innerSteps ds s = some n) : 0 < n := by
  induction ds generalizing s n with
  | nil => simp [innerSteps] at h; omega
  | cons d ds ih =>
    unfold innerSteps at h
    split at h
    · simp at h; omega
    · split at h
      · cases h
      · simp only [Option.map_eq_some_iff] at h
        obtain ⟨n', hn', rfl⟩ := h
        exact Nat.mul_pos (hpos d (by simp)) (ih (fun d' h' => hpos d' (by simp [h'])) hn')

theorem outerSteps_pos {M : List A} {ds : List (Dim A)} (hpos : ∀ d ∈ ds, 0 < d.size) :
    0 < outerSteps M ds := by
  induction ds with
  | nil => simp [outerSteps]
  | cons d ds ih =>
    have := ih (fun d' h' => hpos d' (by simp [h']))
    unfold outerSteps
    split
    · exact this
    · exact Nat.mul_pos (hpos d (by simp)) this

/-! ### lists of ints -/

theorem sum_repeatList (l : List Int) (n : Nat) : (repeatList l n).sum = (n : Int) * l.sum := by
  induction n with
  | zero => simp [repeatList]
  | succ n ih =>
    rw [repeatList, List.sum_append, ih]
    rw [Int.natCast_succ, Int.add_mul, Int.one_mul, Int.add_comm]

theorem mem_repeatList {l : List Int} {n : Nat} {x : Int} (h : x ∈ repeatList l n) : x ∈ l := by
  induction n with
  | zero => simp [repeatList] at h
  | succ n ih =>
    rw [repeatList, List.mem_append] at h
    exact h.elim id ih

theorem sum_replicate (n : Nat) (k : Int) : (List.replicate n k).sum = (n : Int) * k := by
  induction n with
  | zero => simp
  | succ n ih =>
    rw [List.replicate_succ, List.sum_cons, ih, Int.natCast_succ, Int.add_mul, Int.one_mul,
      Int.add_comm]

theorem sum_nonneg {l : List Int} (h : ∀ x ∈ l, 0 < x) : 0 ≤ l.sum := by
  induction l with
  | nil => simp
  | cons a l ih =>
    have h1 := h a (by simp)
    have h2 := ih (fun x hx => h x (by simp [hx]))
    rw [List.sum_cons]; omega

theorem sum_split {l : List Int} {i : Nat} (h : i < l.length) :
    l = l.take i ++ l[i] :: l.drop (i + 1) := by
  rw [← List.drop_eq_getElem_cons h, List.take_append_drop]

theorem sum_take_succ {l : List Int} {i : Nat} (h : i < l.length) :
    (l.take (i + 1)).sum = (l.take i).sum + l[i] := by
  rw [List.take_succ_eq_append_getElem h, List.sum_append]
  simp

theorem sum_take_le {l : List Int} (hp : ∀ x ∈ l, 0 < x) (i : Nat) : (l.take i).sum ≤ l.sum := by
  have : l.sum = (l.take i).sum + (l.drop i).sum := by
    rw [← List.sum_append, List.take_append_drop]
  have := sum_nonneg (l := l.drop i) (fun x hx => hp x (List.mem_of_mem_drop hx))
  omega

theorem sum_take_lt {l : List Int} (hp : ∀ x ∈ l, 0 < x) {i : Nat} (h : i < l.length) :
    (l.take i).sum < l.sum := by
  have h1 := sum_take_succ h
  have h2 := sum_take_le hp (i + 1)
  have h3 := hp l[i] (List.getElem_mem h)
  omega

theorem sum_take_mono {l : List Int} (hp : ∀ x ∈ l, 0 < x) {i j : Nat} (h : i ≤ j) :
    (l.take i).sum ≤ (l.take j).sum := by
  have := sum_take_le (l := l.take j) (fun x hx => hp x (List.mem_of_mem_take hx)) i
  rw [List.take_take, Nat.min_eq_left h] at this
  exact this

theorem sum_take_lt_lt {l : List Int} (hp : ∀ x ∈ l, 0 < x) {i j : Nat} (h : i < j)
    (hj : j ≤ l.length) : (l.take i).sum < (l.take j).sum := by
  have := sum_take_lt (l := l.take j) (fun x hx => hp x (List.mem_of_mem_take hx)) (i := i)
    (by rw [List.length_take]; omega)
  rw [List.take_take, Nat.min_eq_left (by omega)] at this
  exact this

theorem prefixSums_getElem? (l : List Int) (i : Nat) :
    (prefixSums l)[i]? = if i < l.length then some (l.take (i + 1)).sum else none := by
  unfold prefixSums
  by_cases h : i < l.length <;> simp [h]

theorem prefixSums_length (l : List Int) : (prefixSums l).length = l.length := by simp [prefixSums]

/-! ### the breakpoint index -/

theorem bpLoop_spec (p : Int) (l : List Int) (i : Nat) (h : ∃ b ∈ l, p < b) :
    ∃ j, bpLoop p l i = some (i + j) ∧ (∃ b, l[j]? = some b ∧ p < b) ∧
      ∀ j' < j, ∀ b, l[j']? = some b → b ≤ p := by
  induction l generalizing i with
  | nil => simp at h
  | cons b bs ih =>
    unfold bpLoop
    by_cases hb : p ≥ b
    · rw [if_pos hb]
      have : ∃ b' ∈ bs, p < b' := by
        obtain ⟨b', hb', hlt⟩ := h
        simp only [List.mem_cons] at hb'
        rcases hb' with rfl | hb'
        · omega
        · exact ⟨b', hb', hlt⟩
      obtain ⟨j, h1, h2, h3⟩ := ih (i + 1) this
      refine ⟨j + 1, by rw [h1]; congr 1; omega, by simpa using h2, ?_⟩
      intro j' hj' b' hb'
      cases j' with
      | zero => simp at hb'; omega
      | succ j' => exact h3 j' (by omega) b' (by simpa using hb')
    · rw [if_neg hb]
      exact ⟨0, rfl, ⟨b, by simp, by omega⟩, by intro j' hj'; omega⟩

theorem getBreakpointIndex_spec {parts : List Int} (hp : ∀ x ∈ parts, 0 < x) {p : Int}
    (h0 : 0 ≤ p) (h1 : p < parts.sum) :
    ∃ j, getBreakpointIndex (prefixSums parts) p = some j ∧ j < parts.length ∧
      (parts.take j).sum ≤ p ∧ p < (parts.take (j + 1)).sum := by
  have hne : parts ≠ [] := by rintro rfl; simp at h1; omega
  have hlen : 0 < parts.length := List.length_pos_iff.2 hne
  have hlast : (prefixSums parts).getLast? = some parts.sum := by
    rw [List.getLast?_eq_getElem?, prefixSums_length, prefixSums_getElem?, if_pos (by omega),
      show parts.length - 1 + 1 = parts.length by omega, List.take_length]
  unfold getBreakpointIndex
  rw [hlast]
  dsimp only
  rw [if_neg (by omega)]
  obtain ⟨j, e, ⟨b, hb, hlt⟩, hle⟩ := bpLoop_spec p (prefixSums parts) 0
    ⟨parts.sum, List.mem_of_getLast? hlast, h1⟩
  rw [prefixSums_getElem?] at hb
  split at hb
  · rename_i hj
    refine ⟨j, by simpa using e, hj, ?_, ?_⟩
    · cases j with
      | zero => simpa using h0
      | succ j =>
        have := hle j (by omega) _ (by rw [prefixSums_getElem?, if_pos (by omega)])
        exact this
    · simp only [Option.some.injEq] at hb
      omega
  · cases hb

/-! ### windows -/

theorem contiguous_append {a b c : Int} {l : List Window} {w : Window}
    (h : Contiguous a l b) (hw : w.1 = b) (hp : 0 < w.2) (hc : c = b + w.2) :
    Contiguous a (l ++ [w]) c := by
  induction l generalizing a with
  | nil =>
    simp only [Contiguous] at h
    obtain ⟨s, n⟩ := w
    simp only [List.nil_append, Contiguous] at *
    omega
  | cons x xs ih =>
    obtain ⟨s, n⟩ := x
    simp only [List.cons_append, Contiguous] at *
    exact ⟨h.1, h.2.1, ih h.2.2⟩

/-- A scan cut into `parts`, with the current run ending at the end of segment `i`. -/
structure WFAt (s : Scan P) (parts : List Int) (i : Nat) : Prop where
  total : s.total = parts.sum
  pos : ∀ x ∈ parts, 0 < x
  mode : (s.useBp = true ∧ s.spr = parts ∧ s.bpSteps = prefixSums parts ∧ s.bpIndex = i) ∨
    (s.useBp = false ∧ s.bpIndex = 0 ∧ ∃ k n, s.spr = [k] ∧ parts = List.replicate n k)
  lt : i < parts.length
  cfg : s.configured = (parts.take (i + 1)).sum

theorem WFAt.cfg_le {s : Scan P} {parts : List Int} {i : Nat} (h : WFAt s parts i) :
    s.configured ≤ s.total := by
  rw [h.cfg, h.total]; exact sum_take_le h.pos _

theorem WFAt.cfg_pos {s : Scan P} {parts : List Int} {i : Nat} (h : WFAt s parts i) :
    0 < s.configured := by
  rw [h.cfg]
  have := sum_take_lt_lt h.pos (i := 0) (j := i + 1) (by omega) (by have := h.lt; omega)
  simpa using this

theorem segEnd_of_index {parts : List Int} {j : Nat} (hj : j < parts.length) {p : Int}
    (h1 : (parts.take j).sum ≤ p) (h2 : p < (parts.take (j + 1)).sum) :
    SegEnd parts p (parts.take (j + 1)).sum := by
  rw [sum_take_succ hj] at h2 ⊢
  exact ⟨parts.take j, parts[j], parts.drop (j + 1), sum_split hj, h1, h2, rfl⟩

/-- `do_pause` on a well-formed scan, for a step inside it. -/
theorem doPause_spec {s : Scan P} {parts : List Int} {i : Nat} (h : WFAt s parts i) {p : Int}
    (h0 : 0 ≤ p) (h1 : p < s.total) :
    ∃ e s' j, doPause s p = .ok (s', (p, e - p)) ∧ SegEnd parts p e ∧ WFAt s' parts j ∧
      s'.configured = e ∧ s'.completed = p ∧ s'.progress = s.progress ∧
      (parts.take j).sum ≤ p ∧ p < (parts.take (j + 1)).sum := by
  rw [h.total] at h1
  obtain ⟨j, hj, hlt, hle, hgt⟩ := getBreakpointIndex_spec h.pos h0 h1
  have hseg := segEnd_of_index hlt hle hgt
  rcases h.mode with ⟨hb, hspr, hbs, hidx⟩ | ⟨hb, hidx, k, n, hspr, hrep⟩
  · refine ⟨(parts.take (j + 1)).sum,
      { s with completed := p, configured := (parts.take (j + 1)).sum, bpIndex := j }, j, ?_,
      hseg, ?_, rfl, rfl, rfl, hle, hgt⟩
    · unfold doPause
      rw [hb, if_pos rfl, hbs, hj]
      dsimp only
      rw [prefixSums_getElem?, if_pos hlt]
      dsimp only
      rw [if_neg (by omega), Int.fmod_eq_emod_of_nonneg _ (by omega), Int.emod_eq_of_lt h0 hgt]
      have : p + ((parts.take (j + 1)).sum - p) = (parts.take (j + 1)).sum := by omega
      rw [this]
    · exact ⟨h.total, h.pos, Or.inl ⟨hb, hspr, hbs, rfl⟩, hlt, rfl⟩
  · -- all segments have the same size
    have hk : 0 < k := by
      apply h.pos
      rw [hrep]
      have : n ≠ 0 := by
        rintro rfl; rw [hrep] at hlt; simp at hlt
      simp [this]
    have hn : j < n := by rw [hrep] at hlt; simpa using hlt
    have ht : ∀ m ≤ n, (parts.take m).sum = (m : Int) * k := by
      intro m hm
      rw [hrep, List.take_replicate, sum_replicate, Nat.min_eq_left hm]
    rw [ht j (by omega)] at hle
    have htj := ht (j + 1) (by omega)
    rw [htj] at hgt hseg
    have hmod : Int.fmod p k = p - (j : Int) * k := by
      rw [Int.fmod_eq_emod_of_nonneg _ (by omega)]
      have hdiv : p / k = j := by
        apply Int.le_antisymm
        · have : p / k < (j : Int) + 1 := by
            apply Int.ediv_lt_of_lt_mul hk
            have : (((j + 1 : Nat)) : Int) = (j : Int) + 1 := by omega
            rw [this] at hgt
            exact hgt
          omega
        · exact (Int.le_ediv_iff_mul_le hk).2 hle
      have := Int.mul_ediv_add_emod p k
      rw [hdiv, Int.mul_comm] at this
      omega
    have htodo : ((j + 1 : Nat) : Int) * k - p = k - Int.fmod p k := by
      rw [hmod]
      have : ((j + 1 : Nat) : Int) * k = (j : Int) * k + k := by
        rw [Int.natCast_succ, Int.add_mul, Int.one_mul]
      omega
    refine ⟨((j + 1 : Nat) : Int) * k,
      { s with completed := p, configured := ((j + 1 : Nat) : Int) * k }, j, ?_, hseg, ?_,
      rfl, rfl, rfl, by rw [ht j (by omega)]; exact hle, by rw [htj]; exact hgt⟩
    · unfold doPause
      rw [hb, if_neg (by simp), hspr, hidx]
      dsimp only [List.getElem?_cons_zero]
      rw [if_neg (by omega), htodo]
      have : p + (k - Int.fmod p k) = ((j + 1 : Nat) : Int) * k := by omega
      rw [this]
    · exact ⟨h.total, h.pos, Or.inr ⟨hb, hidx, k, n, hspr, hrep⟩, hlt, by rw [htj]⟩

/-- The end of `do_run` on a well-formed scan that is not at its end. -/
theorem postRun_more {s : Scan P} {parts : List Int} {i : Nat} (h : WFAt s parts i)
    (hlt : s.configured < s.total) :
    ∃ (hi : i + 1 < parts.length) (s' : Scan P),
      postRun s = .ok (s', some (s.configured, parts[i + 1])) ∧ WFAt s' parts (i + 1) ∧
      s'.completed = s.configured ∧ s'.configured = s.configured + parts[i + 1] ∧
      s'.progress = s.progress := by
  have hi : i + 1 < parts.length := by
    have := h.lt
    by_cases e : i + 1 = parts.length
    · have hc := h.cfg
      rw [e, List.take_length, ← h.total] at hc
      omega
    · omega
  have hcfg' : s.configured + parts[i + 1] = (parts.take (i + 1 + 1)).sum := by
    rw [sum_take_succ hi, h.cfg]
  rcases h.mode with ⟨hb, hspr, hbs, hidx⟩ | ⟨hb, hidx, k, n, hspr, hrep⟩
  · refine ⟨hi, { s with
      completed := s.configured, configured := s.configured + parts[i + 1], bpIndex := i + 1 }, ?_, ⟨h.total, h.pos, Or.inl ⟨hb, hspr, hbs, rfl⟩, hi, hcfg'⟩, rfl, rfl, rfl⟩
    unfold postRun
    simp only [hlt, if_true, hb, hspr, hidx, List.getElem?_eq_getElem hi]
  · have hk : parts[i + 1] = k := by simp [hrep]
    refine ⟨hi, { s with
      completed := s.configured, configured := s.configured + parts[i + 1], bpIndex := 0 }, ?_,
        ⟨h.total, h.pos, Or.inr ⟨hb, rfl, k, n, hspr, hrep⟩, hi, hcfg'⟩, rfl, rfl, rfl⟩
    unfold postRun
    simp [hlt, hb, hspr, hidx, hk]

/-- The end of `do_run` at the end of the scan. -/
theorem postRun_last {s : Scan P} (hlt : ¬ s.configured < s.total) :
    postRun s = .ok ({ s with completed := s.configured }, none) := by
  unfold postRun; simp [hlt]

/-! ### progress -/

theorem foldl_min_le (xs : List Int) (x : Int) :
    xs.foldl min x ≤ x ∧ ∀ y ∈ xs, xs.foldl min x ≤ y := by
  induction xs generalizing x with
  | nil => simp
  | cons a xs ih =>
    have := ih (min x a)
    simp only [List.foldl_cons, List.mem_cons]
    refine ⟨by omega, ?_⟩
    rintro y (rfl | hy)
    · omega
    · exact this.2 y hy

theorem foldl_min_mem (xs : List Int) (x : Int) : xs.foldl min x = x ∨ xs.foldl min x ∈ xs := by
  induction xs generalizing x with
  | nil => simp
  | cons a xs ih =>
    simp only [List.foldl_cons, List.mem_cons]
    rcases ih (min x a) with h | h
    · rw [h]
      by_cases hx : x ≤ a
      · left; omega
      · right; left; omega
    · right; right; exact h

theorem listMin_spec {l : List Int} {m : Int} (h : listMin l = some m) :
    m ∈ l ∧ ∀ x ∈ l, m ≤ x := by
  cases l with
  | nil => simp [listMin] at h
  | cons x xs =>
    simp only [listMin, Option.some.injEq] at h
    subst h
    have h1 := foldl_min_le xs x
    have h2 := foldl_min_mem xs x
    refine ⟨?_, ?_⟩
    · rcases h2 with h2 | h2
      · rw [h2]; simp
      · simp [h2]
    · intro y hy
      simp only [List.mem_cons] at hy
      rcases hy with rfl | hy
      · exact h1.1
      · exact h1.2 y hy

theorem mem_values_set (d : Dict P Int) (p : P) (n : Int) : n ∈ Dict.values (Dict.set d p n) := by
  have : Dict.get? (Dict.set d p n) p = some n := Dict.get?_set_self ..
  exact List.mem_map.2 ⟨(p, n), Dict.get?_mem this, rfl⟩

theorem updateCompleted_frame (s : Scan P) (p : P) (n : Int) :
    let s' := updateCompleted s p n
    s'.total = s.total ∧ s'.configured = s.configured ∧ s'.spr = s.spr ∧ s'.useBp = s.useBp ∧
    s'.bpSteps = s.bpSteps ∧ s'.bpIndex = s.bpIndex ∧
    s.completed ≤ s'.completed ∧ (s'.completed = s.completed ∨ s'.completed ≤ n) := by
  intro s'
  show _
  simp only [s', updateCompleted]
  split
  · simp
  · rename_i m hm
    have := (listMin_spec hm).2 n (mem_values_set ..)
    split
    · simp; omega
    · simp

theorem WFAt.updateCompleted {s : Scan P} {parts : List Int} {i : Nat} (h : WFAt s parts i) (p : P)
    (n : Int) : WFAt (updateCompleted s p n) parts i := by
  obtain ⟨h1, h2, h3, h4, h5, h6, -⟩ := updateCompleted_frame s p n
  exact ⟨h1.trans h.total, h.pos, by rw [h3, h4, h5, h6]; exact h.mode, h.lt, h2.trans h.cfg⟩

end Verif.Steps
