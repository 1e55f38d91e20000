import Verif.Spec.Seq
import Mathlib.Tactic.Linarith
import Mathlib.Tactic.Ring
import Mathlib.Tactic.NormNum
/-!
C37: "Cutting sequencer rows into tables gives tables that fit in the hardware and whose concatenation
expands to the same pulses in the same order with the same total duration; the tables are loaded
alternately into the inactive sequencer."
-/
set_option linter.unusedVariables false
namespace Verif.Props.DoubleBuffer
open Verif.Seq Verif.Spec.Seq

theorem expand_append (a b : List Row) : expand (a ++ b) = expand a ++ expand b := by simp [expand]

theorem expand_cons (r : Row) (b : List Row) : expand (r :: b) = expandRow r ++ expand b := by simp [expand]

theorem expandRow_ne (r : Row) : expandRow r ≠ [] := by
  unfold expandRow
  split
  · simp
  · rename_i h; intro hc; exact h (List.replicate_eq_nil_iff _ |>.1 hc)

theorem withSwitch_append (a b : List Out) (hb : b ≠ []) : withSwitch (a ++ b) = a ++ withSwitch b := by
  induction a with
  | nil => rfl
  | cons x a ih =>
    cases hab : a ++ b with
    | nil => simp at hab; exact absurd hab.2 hb
    | cons y l =>
      rw [List.cons_append, hab]
      have : withSwitch (x :: y :: l) = x :: withSwitch (y :: l) := by cases x <;> rfl
      rw [this, ← hab, ih, List.cons_append]

theorem calc_append (a b : List Row) : calcDuration (a ++ b) = calcDuration a + calcDuration b := by
  induction a with
  | nil => simp [calcDuration]
  | cons r a ih => simp only [List.cons_append, calcDuration, ih]; ring

theorem cutLast_append (a : List Row) (r : Row) :
    cutLast (a ++ [r]) = a ++ [{ r with time2 := r.time2 - switchDelay }] := by
  induction a with
  | nil => rfl
  | cons x a ih =>
    cases hab : a ++ [r] with
    | nil => simp at hab
    | cons y l =>
      rw [List.cons_append, hab]
      show x :: cutLast (y :: l) = _
      rw [← hab, ih, List.cons_append]

theorem cut_spec (a : List Row) (r : Row) (h1 : r.repeats = 1) :
    withSwitch (expand (cutLast (a ++ [r]))) = expand (a ++ [r]) := by
  rw [cutLast_append, expand_append, withSwitch_append, expand_append]
  · congr 1
    simp [expand, expandRow, h1, withSwitch, pulseOf, switchDelay]
  · simp [expand, expandRow_ne]

/-- What a table made by cutting rows `r` has to satisfy -/
structure Cut (size : Nat) (r t rem : List Row) : Prop where
  same : withSwitch (expand t) ++ expand rem = expand r
  fits : t.length ≤ size
  ne : t ≠ []
  shorter : rem.length + size ≤ r.length + 1 ∨ rem = []
  full : t.length = size ∨ (r.length < size ∧ rem = [])
  last : (∃ init x, t = init ++ [x] ∧ x.repeats = 1) ∨ (t = r ∧ rem = [] ∧ EndsForever r)
  nz : (∀ x ∈ r, x.repeats ≠ 0) → ∀ x ∈ rem, x.repeats ≠ 0
  ends : EndsForever r → rem = [] ∨ EndsForever rem
  bound : ∀ (m : Int) (k : Nat), 1 ≤ k → (∀ x ∈ r, 6 ≤ x.time2 ∧ x.time2 ≤ m ∧ x.repeats ≤ k) →
    (∀ x ∈ t, 0 ≤ x.time2 ∧ x.time2 ≤ m ∧ x.repeats ≤ k) ∧ (∀ x ∈ rem, 6 ≤ x.time2 ∧ x.time2 ≤ m ∧ x.repeats ≤ k)

theorem replicate_split (n : Nat) (x : Out) (h : 1 < n) :
    ([x] : List Out) ++ List.replicate (n - 1) x = List.replicate n x := by
  obtain ⟨m, rfl⟩ : ∃ m, n = m + 1 := ⟨n - 1, by omega⟩
  simp [List.replicate_succ]

theorem replicate_split' (n : Nat) (x : Out) (h : 1 < n) :
    List.replicate (n - 1) x ++ ([x] : List Out) = List.replicate n x := by
  obtain ⟨m, rfl⟩ : ∃ m, n = m + 1 := ⟨n - 1, by omega⟩
  simp [List.replicate_succ']

theorem expand_last_split (f : Row) (h : 1 < f.repeats) :
    expand [{ f with repeats := f.repeats - 1 }] ++ expand [{ f with repeats := 1 }] = expand [f] := by
  have h1 : f.repeats - 1 ≠ 0 := by omega
  have h2 : f.repeats ≠ 0 := by omega
  simp only [expand, List.flatMap_cons, List.flatMap_nil, List.append_nil, expandRow, h1, h2, if_false]
  exact replicate_split' _ _ h

theorem expand_first_split (f : Row) (h : 1 < f.repeats) :
    expand [{ f with repeats := 1 }] ++ expand [{ f with repeats := f.repeats - 1 }] = expand [f] := by
  have h1 : f.repeats - 1 ≠ 0 := by omega
  have h2 : f.repeats ≠ 0 := by omega
  simp only [expand, List.flatMap_cons, List.flatMap_nil, List.append_nil, expandRow, h1, h2, if_false]
  exact replicate_split _ _ h

/-- either rows with no continuous loop, or ending with one -/
def Good (r : List Row) : Prop := (∀ x ∈ r, x.repeats ≠ 0) ∨ EndsForever r

theorem ends_of_append {a b : List Row} (h : EndsForever (a ++ b)) (hb : b ≠ []) :
    EndsForever b ∧ ∀ x ∈ a, x.repeats ≠ 0 := by
  obtain ⟨i, l, h1, h2, h3⟩ := h
  obtain ⟨b', y, rfl⟩ : ∃ b' y, b = b' ++ [y] := ⟨b.dropLast, b.getLast hb, (List.dropLast_append_getLast hb).symm⟩
  rw [← List.append_assoc] at h1
  obtain ⟨h4, h5⟩ := List.append_inj' h1 rfl
  simp only [List.cons.injEq, and_true] at h5
  subst h5
  refine ⟨⟨b', y, rfl, h2, ?_⟩, ?_⟩
  · intro r hr; exact h3 r (by rw [← h4]; simp [hr])
  · intro r hr; exact h3 r (by rw [← h4]; simp [hr])

theorem ends_ne {a : List Row} (h : EndsForever a) : a ≠ [] := by
  obtain ⟨i, l, h1, _⟩ := h
  rw [h1]; simp

theorem split_spec (r : Rows) (count : Nat) (hc : 1 ≤ count) (hne : r.rows ≠ []) (hg : Good r.rows) :
    ∃ t rem, split r count = .ok (t, rem) ∧ Cut count r.rows t.rows rem.rows ∧ rem.dur = calcDuration rem.rows := by
  obtain ⟨init, last, hr⟩ : ∃ i x, r.rows = i ++ [x] :=
    ⟨r.rows.dropLast, r.rows.getLast hne, (List.dropLast_append_getLast hne).symm⟩
  have hlast : r.rows.getLast? = some last := by rw [hr]; simp
  have hnz : ∀ x ∈ init, x.repeats ≠ 0 := by
    intro x hx
    rcases hg with hg | ⟨i, l, h1, _, h3⟩
    · exact hg x (by rw [hr]; simp [hx])
    · rw [hr] at h1
      obtain ⟨h4, h5⟩ := List.append_inj' h1 rfl
      exact h3 x (h4 ▸ hx)
  have hEnds : EndsForever r.rows → last.repeats = 0 := by
    rintro ⟨i, l, h1, h2, _⟩
    rw [hr] at h1
    obtain ⟨h4, h5⟩ := List.append_inj' h1 rfl
    simp only [List.cons.injEq, and_true] at h5
    rw [h5]; exact h2
  have hEnds' : last.repeats = 0 → EndsForever r.rows := fun h => ⟨init, last, hr, h, hnz⟩
  have hws : last.repeats = 0 → withSwitch (expand r.rows) = expand r.rows := by
    intro h
    rw [hr, expand_append, withSwitch_append]
    · simp [expand, expandRow, h, withSwitch]
    · simp [expand, expandRow_ne]
  simp only [split, hlast]
  by_cases hlen : count ≤ r.rows.length
  · rw [if_pos hlen]
    obtain ⟨final, hf⟩ : ∃ f, r.rows[count - 1]? = some f := by
      rw [← Option.isSome_iff_exists]; simp; omega
    rw [hf]
    dsimp only
    have hsplit : r.rows = r.rows.take (count - 1) ++ final :: r.rows.drop count := by
      conv_lhs => rw [← List.take_append_drop (count - 1) r.rows]
      congr 1
      obtain ⟨h1, h2⟩ := List.getElem?_eq_some_iff.1 hf
      rw [List.drop_eq_getElem_cons h1, h2]
      congr 2; omega
    have htake : r.rows.take count = r.rows.take (count - 1) ++ [final] := by
      obtain ⟨m, rfl⟩ : ∃ m, count = m + 1 := ⟨count - 1, by omega⟩
      simp only [Nat.add_sub_cancel] at hf ⊢
      rw [List.take_add_one, hf]; rfl
    have hlt : (r.rows.take (count - 1)).length = count - 1 := by
      rw [List.length_take]; omega
    by_cases h0 : final.repeats = 0
    · rw [if_pos h0]
      have hcl : r.rows.length = count := by
        by_cases hd : r.rows.drop count = []
        · have := List.drop_eq_nil_iff.1 hd
          omega
        · exfalso
          have hm : final ∈ init := by
            obtain ⟨d, y, hd'⟩ : ∃ d y, r.rows.drop count = d ++ [y] :=
              ⟨_, _, (List.dropLast_append_getLast hd).symm⟩
            rw [hd', ← List.cons_append, ← List.append_assoc, hr] at hsplit
            obtain ⟨h4, h5⟩ := List.append_inj' hsplit rfl
            rw [h4]; simp
          exact hnz _ hm h0
      rw [if_pos hcl]
      have hl0 : last.repeats = 0 := by
        have hm : final ∈ r.rows := by rw [hsplit]; simp
        rw [hr] at hm
        rcases List.mem_append.1 hm with hm | hm
        · exact absurd h0 (hnz _ hm)
        · simp at hm; rw [← hm]; exact h0
      refine ⟨r, {}, rfl, ⟨?_, ?_, ?_, ?_, ?_, ?_, ?_, ?_, ?_⟩, rfl⟩
      · rw [hws hl0]; simp [expand]
      · omega
      · exact hne
      · right; rfl
      · left; exact hcl
      · right; exact ⟨rfl, rfl, hEnds' hl0⟩
      · intro _ x hx; cases hx
      · intro _; left; rfl
      · intro m k hk hb
        refine ⟨fun x hx => ?_, fun x hx => by cases hx⟩
        have := hb x hx
        exact ⟨by omega, this.2.1, this.2.2⟩
    · rw [if_neg h0]
      have hends : EndsForever r.rows → r.rows.drop count = [] ∨ EndsForever (r.rows.drop count) := by
        intro h
        by_cases hd : r.rows.drop count = []
        · exact Or.inl hd
        · right
          rw [← List.take_append_drop count r.rows] at h
          exact (ends_of_append h hd).1
      by_cases h1 : final.repeats = 1
      · rw [if_pos h1]
        refine ⟨_, _, rfl, ⟨?_, ?_, ?_, ?_, ?_, ?_, ?_, ?_, ?_⟩, rfl⟩
        · simp only [Rows.mk']
          rw [htake, cut_spec _ _ h1, ← expand_append, List.append_assoc, List.singleton_append, ← hsplit]
        · simp only []; rw [htake, cutLast_append]; simp [hlt]; omega
        · simp only []; rw [htake, cutLast_append]; simp
        · left; simp [Rows.mk']; omega
        · left; simp only []; rw [htake, cutLast_append]; simp [hlt]; omega
        · left; simp only []; rw [htake, cutLast_append]; exact ⟨_, _, rfl, h1⟩
        · intro h x hx; exact h x (List.mem_of_mem_drop hx)
        · exact hends
        · intro m k hk hb
          simp only [Rows.mk']
          rw [htake, cutLast_append]
          refine ⟨fun x hx => ?_, fun x hx => hb x (List.mem_of_mem_drop hx)⟩
          rcases List.mem_append.1 hx with hx | hx
          · have := hb x (List.mem_of_mem_take hx)
            exact ⟨by omega, this.2.1, this.2.2⟩
          · simp at hx; subst hx
            have := hb final (by rw [hsplit]; simp)
            simp only [switchDelay]
            exact ⟨by omega, by omega, this.2.2⟩
      · rw [if_neg h1]
        have h2 : 1 < final.repeats := by omega
        refine ⟨_, _, rfl, ⟨?_, ?_, ?_, ?_, ?_, ?_, ?_, ?_, ?_⟩, ?_⟩
        · simp only [extend, Rows.mk']
          rw [cut_spec _ _ rfl, expand_append, expand_append [_], ← List.append_assoc,
            List.append_assoc (expand (List.take _ _)), expand_first_split final h2]
          conv_rhs => rw [hsplit]
          rw [expand_append, expand_cons, List.append_assoc]; simp [expand]
        · simp only []; rw [cutLast_append]; simp [hlt]; omega
        · simp only []; rw [cutLast_append]; simp
        · left; simp [Rows.mk', extend]; omega
        · left; simp only []; rw [cutLast_append]; simp [hlt]; omega
        · left; simp only []; rw [cutLast_append]; exact ⟨_, _, rfl, rfl⟩
        · intro h x hx
          simp only [extend, Rows.mk', List.singleton_append, List.mem_cons] at hx
          rcases hx with rfl | hx
          · simp only []; omega
          · exact h x (List.mem_of_mem_drop hx)
        · intro h
          right
          simp only [extend, Rows.mk', List.singleton_append]
          rcases hends h with hd | hd
          · exfalso
            rw [hd, hr] at hsplit
            obtain ⟨h4, h5⟩ := List.append_inj' hsplit rfl
            simp only [List.cons.injEq, and_true] at h5
            rw [h5] at hEnds
            exact h0 (hEnds h)
          · obtain ⟨i, l, h3, h4, h5⟩ := hd
            refine ⟨_ :: i, l, by rw [h3]; rfl, h4, ?_⟩
            intro x hx
            rcases List.mem_cons.1 hx with rfl | hx
            · simp only []; omega
            · exact h5 x hx
        · intro m k hk hb
          simp only [extend, Rows.mk']
          rw [cutLast_append]
          have hfin := hb final (by rw [hsplit]; simp)
          refine ⟨fun x hx => ?_, fun x hx => ?_⟩
          · rcases List.mem_append.1 hx with hx | hx
            · have := hb x (List.mem_of_mem_take hx)
              exact ⟨by omega, this.2.1, this.2.2⟩
            · simp at hx; subst hx
              simp only [switchDelay]
              exact ⟨by omega, by omega, by omega⟩
          · rw [List.singleton_append, List.mem_cons] at hx
            rcases hx with rfl | hx
            · exact ⟨hfin.1, hfin.2.1, by simp only []; omega⟩
            · exact hb x (List.mem_of_mem_drop hx)
        · simp only [extend, Rows.mk', calc_append]
  · rw [if_neg hlen]
    by_cases h0 : last.repeats = 0
    · rw [if_pos h0]
      refine ⟨r, {}, rfl, ⟨?_, ?_, ?_, ?_, ?_, ?_, ?_, ?_, ?_⟩, rfl⟩
      · rw [hws h0]; simp [expand]
      · omega
      · exact hne
      · right; rfl
      · right; exact ⟨by omega, rfl⟩
      · right; exact ⟨rfl, rfl, hEnds' h0⟩
      · intro _ x hx; cases hx
      · intro _; left; rfl
      · intro m k hk hb
        refine ⟨fun x hx => ?_, fun x hx => by cases hx⟩
        have := hb x hx
        exact ⟨by omega, this.2.1, this.2.2⟩
    · rw [if_neg h0]
      have hl : init.length + 1 = r.rows.length := by rw [hr]; simp
      have hbl : ∀ (m : Int) (k : Nat), (∀ x ∈ r.rows, 6 ≤ x.time2 ∧ x.time2 ≤ m ∧ x.repeats ≤ k) →
          (6 ≤ last.time2 ∧ last.time2 ≤ m ∧ last.repeats ≤ k) ∧ ∀ x ∈ init, 0 ≤ x.time2 ∧ x.time2 ≤ m ∧ x.repeats ≤ k := by
        intro m k hb
        refine ⟨hb last (by rw [hr]; simp), fun x hx => ?_⟩
        have := hb x (by rw [hr]; simp [hx])
        exact ⟨by omega, this.2.1, this.2.2⟩
      by_cases h1 : last.repeats > 1
      · rw [if_pos h1]
        have hdl : r.rows.dropLast = init := by rw [hr]; simp
        rw [hdl]
        refine ⟨_, _, rfl, ⟨?_, ?_, ?_, ?_, ?_, ?_, ?_, ?_, ?_⟩, rfl⟩
        · rw [cut_spec _ _ rfl, List.append_assoc, expand_append, expand_append, expand_last_split last h1, hr,
            expand_append]
          simp [expand]
        · rw [cutLast_append]; simp; omega
        · rw [cutLast_append]; simp
        · right; rfl
        · right; exact ⟨by omega, rfl⟩
        · left; rw [cutLast_append]; exact ⟨_, _, rfl, rfl⟩
        · intro _ x hx; cases hx
        · intro _; left; rfl
        · intro m k hk hb
          obtain ⟨h3, h4⟩ := hbl m k hb
          rw [cutLast_append]
          refine ⟨fun x hx => ?_, fun x hx => by cases hx⟩
          rcases List.mem_append.1 hx with hx | hx
          · rcases List.mem_append.1 hx with hx | hx
            · exact h4 x hx
            · simp at hx; subst hx; exact ⟨by simp only []; omega, h3.2.1, by simp only []; omega⟩
          · simp at hx; subst hx
            simp only [switchDelay]
            exact ⟨by omega, by omega, by omega⟩
      · rw [if_neg h1]
        have h2 : last.repeats = 1 := by omega
        refine ⟨_, _, rfl, ⟨?_, ?_, ?_, ?_, ?_, ?_, ?_, ?_, ?_⟩, rfl⟩
        · rw [hr, cut_spec _ _ h2]; simp [expand]
        · rw [hr, cutLast_append]; simp; omega
        · rw [hr, cutLast_append]; simp
        · right; rfl
        · right; exact ⟨by omega, rfl⟩
        · left; rw [hr, cutLast_append]; exact ⟨_, _, rfl, h2⟩
        · intro _ x hx; cases hx
        · intro _; left; rfl
        · intro m k hk hb
          obtain ⟨h3, h4⟩ := hbl m k hb
          rw [hr, cutLast_append]
          refine ⟨fun x hx => ?_, fun x hx => by cases hx⟩
          rcases List.mem_append.1 hx with hx | hx
          · exact h4 x hx
          · simp at hx; subst hx
            simp only [switchDelay]
            exact ⟨by omega, by omega, h3.2.2⟩


theorem ticks_append (a b : List Out) : ticks (a ++ b) = ticks a + ticks b := by simp [ticks]

theorem ticks_expandRow (r : Row) : (ticks (expandRow r) : ℚ) = (r.repeats : ℚ) * ((r.time1 + r.time2 : Int) : ℚ) := by
  unfold expandRow
  split
  · rename_i h; simp [h, ticks, outTicks]
  · simp [ticks, outTicks, pulseOf, List.map_replicate, List.sum_replicate]

/-- the running total is the duration of the pulses -/
theorem calc_eq (rows : List Row) : calcDuration rows = (ticks (expand rows) : ℚ) := by
  induction rows with
  | nil => simp [calcDuration, expand, ticks]
  | cons r rs ih =>
    rw [expand_cons, ticks_append, calcDuration, ih]
    push_cast [ticks_expandRow]
    ring

/-- a table that hands over to the other sequencer -/
def EndsOnce (t : List Row) : Prop := ∃ init x, t = init ++ [x] ∧ x.repeats = 1

/-- every table ends once, or the last one of all goes on for ever -/
def Chain (ts : List (List Row)) (rem : List Row) : Prop :=
  (∀ t ∈ ts, EndsOnce t) ∨ (rem = [] ∧ ∃ ts' f, ts = ts' ++ [f] ∧ EndsForever f ∧ ∀ t ∈ ts', EndsOnce t)

theorem good_rem {size : Nat} {r t rem : List Row} (h : Cut size r t rem) (hg : Good r) : Good rem := by
  rcases hg with hg | hg
  · exact Or.inl (h.nz hg)
  · rcases h.ends hg with h | h
    · rw [h]; exact Or.inl (fun x hx => by cases hx)
    · exact Or.inr h

structure Loop (size : Nat) (r : List Row) (ts : List (List Row)) (rem : List Row) : Prop where
  same : (ts.flatMap fun t => withSwitch (expand t)) ++ expand rem = expand r
  fits : ∀ t ∈ ts, t.length ≤ size ∧ t ≠ []
  left : rem.length ≤ size
  full : ∀ t ∈ ts, t.length = size ∨ withSwitch (expand t) = expand r
  chain : Chain ts rem
  nz : (∀ x ∈ r, x.repeats ≠ 0) → ∀ x ∈ rem, x.repeats ≠ 0
  ends : EndsForever r → rem = [] ∨ EndsForever rem
  bound : ∀ (m : Int) (k : Nat), 1 ≤ k → (∀ x ∈ r, 6 ≤ x.time2 ∧ x.time2 ≤ m ∧ x.repeats ≤ k) →
    (∀ t ∈ ts, ∀ x ∈ t, 0 ≤ x.time2 ∧ x.time2 ≤ m ∧ x.repeats ≤ k) ∧
      (∀ x ∈ rem, 6 ≤ x.time2 ∧ x.time2 ≤ m ∧ x.repeats ≤ k)


theorem full_of_long {size : Nat} (hs : 2 ≤ size) {fuel : Nat} {r : Rows} {ts : List (List Row)} {rem : Rows}
    (hl : r.rows.length > size) (hg : Good r.rows) (hne : r.rows ≠ []) (h : cutLoop size fuel r = .ok (ts, rem)) :
    ∀ t ∈ ts, t.length = size := by
  induction fuel generalizing r ts rem with
  | zero => simp [cutLoop] at h
  | succ fuel ih =>
    obtain ⟨t, rm, h1, h2, h3⟩ := split_spec r size (by omega) hne hg
    simp only [cutLoop, h1] at h
    have ht : t.rows.length = size := by
      rcases h2.full with h | ⟨h, _⟩
      · exact h
      · omega
    by_cases hle : rm.rows.length ≤ size
    · rw [if_pos hle] at h
      simp only [Except.ok.injEq, Prod.mk.injEq] at h
      rw [← h.1]; simpa using ht
    · rw [if_neg hle] at h
      have hne' : rm.rows ≠ [] := by intro h; rw [h] at hle; simp at hle
      cases hc : cutLoop size fuel rm with
      | error e => rw [hc] at h; cases h
      | ok p =>
        obtain ⟨ts', rem'⟩ := p
        rw [hc] at h
        simp only [Except.ok.injEq, Prod.mk.injEq] at h
        rw [← h.1]
        intro x hx
        rcases List.mem_cons.1 hx with rfl | hx
        · exact ht
        · exact ih (by omega) (good_rem h2 hg) hne' hc x hx

theorem cutLoop_spec (size : Nat) (hs : 2 ≤ size) (fuel : Nat) (r : Rows) (hf : r.rows.length < fuel)
    (hne : r.rows ≠ []) (hg : Good r.rows) :
    ∃ ts rem, cutLoop size fuel r = .ok (ts, rem) ∧ Loop size r.rows ts rem.rows ∧ ts ≠ [] ∧
      rem.dur = calcDuration rem.rows := by
  induction fuel generalizing r with
  | zero => omega
  | succ fuel ih =>
    obtain ⟨t, rem, h1, h2, h3⟩ := split_spec r size (by omega) hne hg
    simp only [cutLoop, h1]
    by_cases hl : rem.rows.length ≤ size
    · rw [if_pos hl]
      refine ⟨_, _, rfl, ⟨?_, ?_, hl, ?_, ?_, h2.nz, h2.ends, ?_⟩, by simp, h3⟩
      · simpa using h2.same
      · simpa using ⟨h2.fits, h2.ne⟩
      · simp only [List.mem_singleton, forall_eq]
        rcases h2.full with h | ⟨_, h⟩
        · exact Or.inl h
        · right
          have := h2.same
          rw [h] at this
          simpa [expand] using this
      · rcases h2.last with h | ⟨h4, h5, h6⟩
        · left; intro x hx; rw [List.mem_singleton.1 hx]; exact h
        · right; exact ⟨h5, [], t.rows, rfl, h4 ▸ h6, by simp⟩
      · intro m k hk hb
        simpa using h2.bound m k hk hb
    · rw [if_neg hl]
      have hne' : rem.rows ≠ [] := by intro h; rw [h] at hl; simp at hl
      have hsh : rem.rows.length + size ≤ r.rows.length + 1 := by
        rcases h2.shorter with h | h
        · exact h
        · exact absurd h hne'
      obtain ⟨ts, rem', h4, h5, h6, h7⟩ := ih rem (by omega) hne' (good_rem h2 hg)
      rw [h4]
      refine ⟨_, _, rfl, ⟨?_, ?_, h5.left, ?_, ?_, fun h => h5.nz (h2.nz h), ?_, ?_⟩, by simp, h7⟩
      · rw [List.flatMap_cons, List.append_assoc, h5.same, h2.same]
      · intro x hx
        rcases List.mem_cons.1 hx with rfl | hx
        · exact ⟨h2.fits, h2.ne⟩
        · exact h5.fits x hx
      · intro x hx
        rcases List.mem_cons.1 hx with rfl | hx
        · rcases h2.full with h | ⟨_, h⟩
          · exact Or.inl h
          · exact absurd h hne'
        · rcases h5.full x hx with h | h
          · exact Or.inl h
          · left
            -- the rows left are more than a table holds, so the table is full
            exact full_of_long hs (by omega) (good_rem h2 hg) hne' h4 x hx
      · rcases h2.last with h | ⟨_, h, _⟩
        · rcases h5.chain with hc | ⟨h8, ts', f, h9, h10, h11⟩
          · left
            intro x hx
            rcases List.mem_cons.1 hx with rfl | hx
            · exact h
            · exact hc x hx
          · right
            refine ⟨h8, t.rows :: ts', f, by rw [h9]; rfl, h10, ?_⟩
            intro x hx
            rcases List.mem_cons.1 hx with rfl | hx
            · exact h
            · exact h11 x hx
        · exact absurd h hne'
      · intro h
        rcases h2.ends h with h | h
        · exact absurd h hne'
        · exact h5.ends h
      · intro m k hk hb
        obtain ⟨h8, h9⟩ := h2.bound m k hk hb
        obtain ⟨h10, h11⟩ := h5.bound m k hk h9
        refine ⟨?_, h11⟩
        intro x hx
        rcases List.mem_cons.1 hx with rfl | hx
        · exact h8
        · exact h10 x hx


/-- the rows of all the batches -/
def allRows (batches : List Rows) : List Row := batches.flatMap (·.rows)

theorem getTablesFrom_spec (size : Nat) (minDur : ℚ) (hs : 2 ≤ size) (hm : 0 ≤ minDur) (bs : List Rows) :
    ∀ r : Rows, (∀ b ∈ bs, b.dur = calcDuration b.rows) → r.dur = calcDuration r.rows → r.rows.length ≤ size →
      (r.rows ++ allRows bs = [] ∨ EndsForever (r.rows ++ allRows bs)) →
      ∃ tables, getTablesFrom size minDur r bs = .ok tables ∧
        (tables.flatMap fun t => withSwitch (expand t)) = expand (r.rows ++ allRows bs) ∧
        (∀ t ∈ tables, t.length ≤ size ∧ t ≠ []) ∧
        ((r.rows ++ allRows bs = [] ∧ tables = []) ∨
          ∃ ts f, tables = ts ++ [f] ∧ EndsForever f ∧
            ∀ t ∈ ts, EndsOnce t ∧ (t.length = size ∨ minDur < ticks (withSwitch (expand t)) * tick)) ∧
        (∀ (m : Int) (k : Nat), 1 ≤ k → (∀ x ∈ r.rows ++ allRows bs, 6 ≤ x.time2 ∧ x.time2 ≤ m ∧ x.repeats ≤ k) →
          ∀ t ∈ tables, ∀ x ∈ t, 0 ≤ x.time2 ∧ x.time2 ≤ m ∧ x.repeats ≤ k) := by
  induction bs with
  | nil =>
    intro r hb hr hl he
    simp only [allRows, List.flatMap_nil, List.append_nil] at he ⊢
    by_cases h : r.rows = []
    · refine ⟨[], by simp [getTablesFrom, h], by simp [h, expand], by simp, Or.inl ⟨h, rfl⟩, by simp⟩
    · have hE : EndsForever r.rows := by
        rcases he with he | he
        · exact absurd he h
        · exact he
      refine ⟨[r.rows], by simp [getTablesFrom, h], ?_, by simpa using ⟨hl, h⟩, Or.inr ⟨[], r.rows, rfl, hE, by simp⟩, ?_⟩
      · obtain ⟨i, l, h1, h2, h3⟩ := hE
        simp only [List.flatMap_cons, List.flatMap_nil, List.append_nil]
        rw [h1, expand_append, withSwitch_append]
        · simp [expand, expandRow, h2, withSwitch]
        · simp [expand, expandRow_ne]
      · intro m k hk h t ht x hx
        simp only [List.mem_singleton] at ht; subst ht
        have := h x hx
        exact ⟨by omega, this.2.1, this.2.2⟩
  | cons b bs ih =>
    intro r hb hr hl he
    have hbd := hb b (by simp)
    have hbs : ∀ b ∈ bs, b.dur = calcDuration b.rows := fun x hx => hb x (by simp [hx])
    have hall : r.rows ++ allRows (b :: bs) = (extend r b).rows ++ allRows bs := by
      simp [allRows, extend]
    have hed : (extend r b).dur = calcDuration (extend r b).rows := by
      simp only [extend, calc_append, hr, hbd]
    rw [hall] at he ⊢
    simp only [getTablesFrom]
    generalize hq : extend r b = q at *
    by_cases hc : q.dur * tick > minDur ∨ q.rows.length > size
    · rw [if_pos hc]
      have hne : q.rows ≠ [] := by
        intro h
        rcases hc with hc | hc
        · rw [hed, h] at hc; simp [calcDuration] at hc; linarith
        · rw [h] at hc; simp at hc
      have hE : EndsForever (q.rows ++ allRows bs) := by
        rcases he with he | he
        · simp at he; exact absurd he.1 hne
        · exact he
      have hg : Good q.rows := by
        by_cases h : allRows bs = []
        · rw [h, List.append_nil] at hE; exact Or.inr hE
        · exact Or.inl (ends_of_append hE h).2
      obtain ⟨ts, rem, h1, h2, h3, h4⟩ := cutLoop_spec size hs (q.rows.length + 1) q (by omega) hne hg
      rw [h1]
      dsimp only
      have he' : rem.rows ++ allRows bs = [] ∨ EndsForever (rem.rows ++ allRows bs) := by
        by_cases h : allRows bs = []
        · rw [h, List.append_nil] at hE ⊢; exact h2.ends hE
        · right
          obtain ⟨h5, h6⟩ := ends_of_append hE h
          obtain ⟨i, l, h7, h8, h9⟩ := h5
          refine ⟨rem.rows ++ i, l, by rw [h7, List.append_assoc], h8, ?_⟩
          intro x hx
          rcases List.mem_append.1 hx with hx | hx
          · exact h2.nz h6 x hx
          · exact h9 x hx
      obtain ⟨ts', k1, k2, k3, k4, k5⟩ := ih rem hbs h4 h2.left he'
      rw [k1]
      have hdur : ∀ t ∈ ts, t.length = size ∨ minDur < ticks (withSwitch (expand t)) * tick := by
        intro t ht
        rcases h2.full t ht with h | h
        · exact Or.inl h
        · rcases hc with hc | hc
          · right; rw [h, ← calc_eq, ← hed]; exact hc
          · left; exact full_of_long hs hc hg hne h1 t ht
      refine ⟨_, rfl, ?_, ?_, ?_, ?_⟩
      · rw [List.flatMap_append, k2, expand_append, ← List.append_assoc, h2.same, expand_append]
      · intro t ht
        rcases List.mem_append.1 ht with ht | ht
        · exact h2.fits t ht
        · exact k3 t ht
      · right
        rcases h2.chain with hch | ⟨c1, us, f, c2, c3, c4⟩
        · rcases k4 with ⟨c1, c2⟩ | ⟨us, f, c1, c2, c3⟩
          · -- everything was cut although the rows end with a loop: impossible
            exfalso
            obtain ⟨u, us, hus⟩ : ∃ u us, ts = us ++ [u] := ⟨_, _, (List.dropLast_append_getLast h3).symm⟩
            obtain ⟨i, x, hu, hx⟩ := hch u (by rw [hus]; simp)
            have hs1 := h2.same
            have hrem : rem.rows = [] := by simp at c1; exact c1.1
            have hbs0 : allRows bs = [] := by simp at c1; exact c1.2
            rw [hrem, hus, List.flatMap_append] at hs1
            simp only [List.flatMap_cons, List.flatMap_nil, List.append_nil, expand] at hs1
            rw [hbs0, List.append_nil] at hE
            obtain ⟨i', l', e1, e2, e3⟩ := hE
            rw [hu] at hs1
            change _ ++ withSwitch (expand (i ++ [x])) = expand q.rows at hs1
            rw [e1, expand_append, expand_append, withSwitch_append _ _ (by simp [expand, expandRow_ne])] at hs1
            simp only [expand, List.flatMap_cons, List.flatMap_nil, List.append_nil, expandRow, hx, e2, if_true,
              ite_false, Nat.one_ne_zero, List.replicate_one, withSwitch] at hs1
            rw [← List.append_assoc] at hs1
            have := (List.append_inj' hs1 rfl).2
            simp at this
          · refine ⟨ts ++ us, f, by rw [c1, List.append_assoc], c2, ?_⟩
            intro t ht
            rcases List.mem_append.1 ht with ht | ht
            · exact ⟨hch t ht, hdur t ht⟩
            · exact c3 t ht
        · have hb0 : allRows bs = [] := by
            apply Classical.byContradiction
            intro h
            have hnz := (ends_of_append hE h).2
            have hs1 := h2.same
            obtain ⟨i', l', e1, e2, e3⟩ := c3
            rw [c1, c2, List.flatMap_append, e1] at hs1
            simp only [List.flatMap_cons, List.flatMap_nil, List.append_nil] at hs1
            have hmem : Out.forever (pulseOf l') ∈ expand q.rows := by
              rw [← hs1, expand_append, withSwitch_append _ _ (by simp [expand, expandRow_ne])]
              simp [expand, expandRow, e2, withSwitch]
            simp only [expand, List.mem_flatMap] at hmem
            obtain ⟨y, hy, hy'⟩ := hmem
            simp only [expandRow, if_neg (hnz y hy), List.mem_replicate] at hy'
            exact absurd hy'.2 (by simp)
          rcases k4 with ⟨_, d2⟩ | ⟨vs, g, d1, d2, d3⟩
          · refine ⟨us, f, by rw [d2, c2]; simp, c3, ?_⟩
            intro t ht
            exact ⟨c4 t ht, hdur t (by rw [c2]; simp [ht])⟩
          · exfalso
            rw [c1, hb0] at k2
            simp only [List.append_nil] at k2
            have : withSwitch (expand g) = [] := by
              rw [d1, List.flatMap_append] at k2
              simp [expand] at k2
              exact k2.2
            obtain ⟨i', l', e1, e2, e3⟩ := d2
            rw [e1, expand_append, withSwitch_append _ _ (by simp [expand, expandRow_ne])] at this
            simp [expand, expandRow, e2, withSwitch] at this
      · intro m k hk hb t ht
        have hq' : ∀ x ∈ q.rows, 6 ≤ x.time2 ∧ x.time2 ≤ m ∧ x.repeats ≤ k := fun x hx => hb x (by simp [hx])
        obtain ⟨g1, g2⟩ := h2.bound m k hk hq'
        rcases List.mem_append.1 ht with ht | ht
        · exact g1 t ht
        · refine k5 m k hk ?_ t ht
          intro x hx
          rcases List.mem_append.1 hx with hx | hx
          · exact g2 x hx
          · exact hb x (by simp [hx])
    · rw [if_neg hc]
      have hc' : ¬ q.rows.length > size := fun h => hc (Or.inr h)
      exact ih q hbs hed (by omega) he


/-! ### C37: the tables -/

/-- The tables cut from any stream of rows that ends in a continuous loop, and has no other, fit in the
sequencer, make the same pulses in the same order (the last pulse of a table being completed by the switch
to the next one), and all but the last are full or last longer than the minimum. Missing: streams with
another continuous loop, which `add_seq_entry` makes for counts that are multiples of 4096. -/
theorem tables_same_partial (batches : List Rows) (hd : ∀ b ∈ batches, b.dur = calcDuration b.rows)
    (he : EndsForever (batches.flatMap (·.rows))) :
    ∃ ts f, getTables seqTableRows minTableDuration batches = .ok (ts ++ [f]) ∧
      (∀ t ∈ ts ++ [f], t.length ≤ 4096 ∧ t ≠ []) ∧
      ((ts ++ [f]).flatMap fun t => withSwitch (expand t)) = expand (batches.flatMap (·.rows)) ∧
      EndsForever f ∧
      ∀ t ∈ ts, EndsOnce t ∧ (t.length = 4096 ∨ 15 < ticks (withSwitch (expand t)) * tick) := by
  obtain ⟨tables, h1, h2, h3, h4, h5⟩ := getTablesFrom_spec seqTableRows minTableDuration (by decide)
    (by unfold minTableDuration; norm_num) batches {} hd rfl (by simp) (Or.inr (by simpa [allRows] using he))
  rcases h4 with ⟨h4, _⟩ | ⟨ts, f, h6, h7, h8⟩
  · exfalso
    have : allRows batches = [] := by simpa using h4
    exact ends_ne he this
  · subst h6
    exact ⟨ts, f, h1, h3, by simpa [allRows] using h2, h7, h8⟩

theorem withSwitch_ticks_once (t : List Row) (h : EndsOnce t) : ticks (withSwitch (expand t)) = ticks (expand t) + 6 := by
  obtain ⟨i, x, rfl, hx⟩ := h
  rw [expand_append, withSwitch_append _ _ (by simp [expand, expandRow_ne]), ticks_append, ticks_append]
  simp [expand, expandRow, hx, withSwitch, ticks, outTicks]
  omega

theorem withSwitch_forever (t : List Row) (h : EndsForever t) : withSwitch (expand t) = expand t := by
  obtain ⟨i, x, rfl, hx, _⟩ := h
  rw [expand_append, withSwitch_append _ _ (by simp [expand, expandRow_ne])]
  simp [expand, expandRow, hx, withSwitch]

/-- The total duration is the same: the ticks of the tables, and six for each switch -/
theorem tables_duration_partial (batches : List Rows) (hd : ∀ b ∈ batches, b.dur = calcDuration b.rows)
    (he : EndsForever (batches.flatMap (·.rows))) :
    ∃ tables, getTables seqTableRows minTableDuration batches = .ok tables ∧
      (tables.map fun t => ticks (expand t)).sum + 6 * ((tables.length : Int) - 1) =
        ticks (expand (batches.flatMap (·.rows))) := by
  obtain ⟨ts, f, h1, h2, h3, h4, h5⟩ := tables_same_partial batches hd he
  refine ⟨_, h1, ?_⟩
  rw [← h3]
  clear h1 h2 h3
  induction ts with
  | nil => simp [withSwitch_forever f h4]
  | cons t ts ih =>
    have := ih (fun x hx => h5 x (by simp [hx]))
    rw [List.cons_append, List.flatMap_cons, ticks_append, withSwitch_ticks_once t (h5 t (by simp)).1]
    simp only [List.map_cons, List.sum_cons, List.length_cons]
    push_cast
    omega

/-- The times and repeats of the tables fit in their columns if those of the rows do and no second phase is
shorter than the switch -/
theorem tables_in_range_partial (batches : List Rows) (hd : ∀ b ∈ batches, b.dur = calcDuration b.rows)
    (he : EndsForever (batches.flatMap (·.rows)))
    (hr : ∀ x ∈ batches.flatMap (·.rows), 6 ≤ x.time2 ∧ x.time2 < 2 ^ 32 ∧ x.repeats < 2 ^ 16) :
    ∃ tables, getTables seqTableRows minTableDuration batches = .ok tables ∧
      ∀ t ∈ tables, ∀ x ∈ t, 0 ≤ x.time2 ∧ x.time2 < 2 ^ 32 ∧ x.repeats < 2 ^ 16 := by
  obtain ⟨tables, h1, h2, h3, h4, h5⟩ := getTablesFrom_spec seqTableRows minTableDuration (by decide)
    (by unfold minTableDuration; norm_num) batches {} hd rfl (by simp) (Or.inr (by simpa [allRows] using he))
  refine ⟨tables, h1, fun t ht x hx => ?_⟩
  have := h5 (2 ^ 32 - 1) (2 ^ 16 - 1) (by norm_num) (by
    intro y hy
    have := hr y (by simpa [allRows] using hy)
    exact ⟨this.1, by omega, by omega⟩) t ht x hx
  exact ⟨this.1, by omega, by omega⟩

/-- A table is cut in the middle of a row: five pulses of 8 s become two tables -/
example : let b1 := addSeqEntry {} { count := 3, half := 500000000, live := 1 }
    let b2 := addSeqEntry (addSeqEntry {} { count := 2, half := 500000000, live := 1 }) { count := 0 }
    (∀ b ∈ [b1, b2], b.dur = calcDuration b.rows) ∧ EndsForever ([b1, b2].flatMap (·.rows)) ∧
      (getTables seqTableRows minTableDuration [b1, b2]).toOption.map (List.map (List.map (·.repeats))) =
        some [[2, 1], [2, 0]] := by
  refine ⟨by decide +kernel, ⟨[seqRow 3 "Immediate" 0 500000000 1 0 0, seqRow 2 "Immediate" 0 500000000 1 0 0],
    seqRow 0 "Immediate" 0 1250 0 0 0, by decide +kernel, rfl, by decide +kernel⟩, by decide +kernel⟩

/-- Adding a multiple of 4096 pulses appends a row that the sequencer repeats for ever -/
theorem multiple_loops (n : Nat) (r : Rows) (e : Entry) (h : e.count = 4096 * n) :
    ∃ p, (expand (addSeqEntry r e).rows).getLast? = some (.forever p) := by
  refine ⟨⟨e.trigger, e.position, e.half, e.live, e.dead, e.half - e.trim⟩, ?_⟩
  simp only [addSeqEntry, h, maxRepeats, Nat.mul_mod_right]
  rw [expand_append]
  simp [expand, expandRow, seqRow, pulseOf]

/-- and the cutting of the tables fails when such a row is the 4096th of more -/
theorem loop_in_the_middle_fails (a b : List Row) (x y : Row) (ha : a.length = 4095) (hx : x.repeats = 0) :
    getTables seqTableRows minTableDuration [Rows.mk' (a ++ x :: y :: b)] = .error .loopNotLast := by
  have hl : (a ++ x :: y :: b).length > 4096 := by simp; omega
  have hlast : ∃ z, (a ++ x :: y :: b).getLast? = some z := by
    rw [← Option.isSome_iff_exists]; simp
  obtain ⟨z, hz⟩ := hlast
  have hg : (a ++ x :: y :: b)[seqTableRows - 1]? = some x := by
    rw [List.getElem?_append_right (by rw [ha]; decide), ha]; rfl
  have hsp : split (extend {} (Rows.mk' (a ++ x :: y :: b))) seqTableRows = .error .loopNotLast := by
    have he : (extend {} (Rows.mk' (a ++ x :: y :: b))).rows = a ++ x :: y :: b := by simp [extend, Rows.mk']
    have h1 : seqTableRows ≤ (a ++ x :: y :: b).length := by unfold seqTableRows; omega
    have h2 : ¬ (a ++ x :: y :: b).length = seqTableRows := by unfold seqTableRows; omega
    unfold split
    rw [he, hz]
    dsimp only
    rw [if_pos h1, hg]
    dsimp only
    rw [if_pos hx, if_neg h2]
  simp only [getTables, getTablesFrom]
  rw [if_pos (Or.inr (by simp only [extend, Rows.mk', List.nil_append, seqTableRows]; omega))]
  rw [cutLoop, hsp]

/-- A pulse with a second phase shorter than the switch gets a negative time, which does not fit -/
theorem short_pulse_negative :
    (getTables seqTableRows minTableDuration
      [Rows.mk' [seqRow 1 "Immediate" 0 2000000000 1 0 1999999998], finalRows]).toOption.map
        (List.map (List.map (·.time2))) = some [[-4], [1250, 1250]] := by
  decide +kernel

/-! ### C37: the two sequencers -/

def reports {T : Type} (b : Buf T) (es : List (Bool × Bool)) : Buf T := es.foldl (fun b e => activeHandler b e.1 e.2) b

theorem reports_unsubscribed {T : Type} (b : Buf T) (es : List (Bool × Bool)) (h : b.subscribed = false) :
    reports b es = b := by
  induction es with
  | nil => rfl
  | cons e es ih =>
    have : activeHandler b e.1 e.2 = b := by simp [activeHandler, h]
    simp only [reports, List.foldl_cons, this]
    exact ih

theorem reports_loads {T : Type} (es : List (Bool × Bool)) : ∀ b : Buf T, b.subscribed = true →
    (reports b es).loads = b.loads ++ (stops b.statusA b.statusB es).zip b.tables := by
  induction es with
  | nil => intro b h; simp [reports, stops]
  | cons e es ih =>
    intro b h
    obtain ⟨seq, v⟩ := e
    simp only [reports, List.foldl_cons]
    change (reports (activeHandler b seq v) es).loads = _
    simp only [activeHandler, h, if_true]
    cases seq with
    | false =>
      simp only [statusOf, stops, Bool.false_eq_true, if_false]
      by_cases hc : b.statusA = some true ∧ v = false
      · rw [if_pos hc, if_pos hc]
        cases ht : b.tables with
        | nil => rw [reports_unsubscribed _ _ (by simp [cleanUp])]; simp [cleanUp]
        | cons t ts =>
          dsimp only
          rw [ih _ (by simpa [setStatus] using h)]
          simp [setStatus]
      · rw [if_neg hc, if_neg hc, ih _ (by simpa [setStatus] using h)]
        simp [setStatus]
    | true =>
      simp only [statusOf, stops, if_true]
      by_cases hc : b.statusB = some true ∧ v = false
      · rw [if_pos hc, if_pos hc]
        cases ht : b.tables with
        | nil => rw [reports_unsubscribed _ _ (by simp [cleanUp])]; simp [cleanUp]
        | cons t ts =>
          dsimp only
          rw [ih _ (by simpa [setStatus] using h)]
          simp [setStatus]
      · rw [if_neg hc, if_neg hc, ih _ (by simpa [setStatus] using h)]
        simp [setStatus]

/-- Whatever the sequencers report, the first two tables go to A and B before the scan and each later one,
in order, to the sequencer that has just stopped -/
theorem loads_exact {T : Type} (old : Buf T) (t u : T) (ts : List T) (es : List (Bool × Bool)) :
    (reports (dbRun (dbConfigure old (t :: u :: ts))) es).loads =
      old.loads ++ [(false, t), (true, u)] ++ (stops none none es).zip ts := by
  have h : (dbRun (dbConfigure old (t :: u :: ts))).subscribed = true := by simp [dbRun, dbConfigure]
  rw [reports_loads es _ h]
  simp [dbRun, dbConfigure, cleanUp]

/-- With one table nothing is loaded later -/
theorem loads_one {T : Type} (old : Buf T) (t : T) (es : List (Bool × Bool)) :
    (reports (dbRun (dbConfigure old [t])) es).loads = old.loads ++ [(false, t)] := by
  rw [reports_unsubscribed]
  · simp [dbRun, dbConfigure, cleanUp]
  · simp [dbRun, dbConfigure, cleanUp]

/-- Without tables nothing is ever loaded -/
theorem loads_none {T : Type} (old : Buf T) (es : List (Bool × Bool)) :
    (reports (dbRun (dbConfigure old [])) es).loads = old.loads ∧ (dbRun (dbConfigure old [])).subscribed = false := by
  rw [reports_unsubscribed]
  · simp [dbRun, dbConfigure, cleanUp]
  · simp [dbRun, dbConfigure, cleanUp]

theorem alternate_zip {T : Type} (ss : List Bool) : ∀ (next : Bool) (ts : List T), alternate next ss →
    alternate next ((ss.zip ts).map (·.1)) := by
  induction ss with
  | nil => intro n ts h; simp [alternate]
  | cons s ss ih =>
    intro n ts h
    cases ts with
    | nil => simp [alternate]
    | cons t ts => exact ⟨h.1, ih _ ts h.2⟩

/-- If the sequencers stop in turn, tables are loaded alternately, starting with A -/
theorem loads_alternate {T : Type} (old : Buf T) (h0 : old.loads = []) (t u : T) (ts : List T) (es : List (Bool × Bool))
    (ha : alternate false (stops none none es)) :
    alternate false ((reports (dbRun (dbConfigure old (t :: u :: ts))) es).loads.map (·.1)) ∧
      ((reports (dbRun (dbConfigure old (t :: u :: ts))) es).loads.map (·.2)) <+: t :: u :: ts := by
  rw [loads_exact, h0]
  constructor
  · simp only [List.nil_append, List.cons_append, List.map_cons, alternate, true_and, Bool.not_false, Bool.not_true]
    exact alternate_zip _ _ ts ha
  · simp only [List.nil_append, List.cons_append, List.map_cons]
    refine (List.cons_prefix_cons.2 ⟨rfl, List.cons_prefix_cons.2 ⟨rfl, ?_⟩⟩)
    generalize stops none none es = ss
    clear ha
    induction ss generalizing ts with
    | nil => simp
    | cons s ss ih =>
      cases ts with
      | nil => simp
      | cons x ts => simpa using ih ts

example : alternate false (stops none none
    [(false, false), (true, false), (false, true), (true, true), (false, false), (false, true), (true, false)]) ∧
    (reports (dbRun (dbConfigure ({ tables := [] } : Buf Nat) [0, 1, 2, 3, 4]))
      [(false, false), (true, false), (false, true), (true, true), (false, false), (false, true), (true, false)]).loads =
      [(false, 0), (true, 1), (false, 2), (true, 3)] := by
  refine ⟨?_, by decide⟩
  simp [stops, alternate]

end Verif.Props.DoubleBuffer
