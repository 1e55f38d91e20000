import Verif.Model.Trajectory
import Verif.Proofs.PyDict
import Mathlib.Tactic.Linarith
import Mathlib.Tactic.FieldSimp
import Mathlib.Tactic.Ring
/-!
C31: "The integer tick times written to the motion controller for a trajectory differ from the requested
times by at most half a tick in cumulative sum at every point, over every chunk boundary."

C32: "Whatever points are added, the time, velocity mode, user program, completed step and every axis
array of a profile have one entry per point; no point takes longer than the controller limit and the
total time is the requested time."
-/
set_option linter.unusedVariables false
namespace Verif.Props.Trajectory
open Verif.Trajectory

/-! ### C31 -/

/-- The part of C31 that is about one chunk, with an overflow carried in. -/
theorem ticks_prefix (ts : List ℚ) : ∀ (o : ℚ) (k : Nat), (∀ t ∈ ts, 0 ≤ t) → -1 / 2 < o → o ≤ 1 / 2 →
    -1 / 2 < o + (ts.take k).sum - (((ticks o ts).take k).sum : Int) ∧
    o + (ts.take k).sum - (((ticks o ts).take k).sum : Int) ≤ 1 / 2 := by
  induction ts with
  | nil => intro o k _ h1 h2; simp [ticks]; constructor <;> linarith
  | cons t ts ih =>
    intro o k hpos h1 h2
    cases k with
    | zero => simp; constructor <;> linarith
    | succ k =>
      have ht : 0 ≤ t := hpos t List.mem_cons_self
      have hts : ∀ t ∈ ts, 0 ≤ t := fun x hx => hpos x (List.mem_cons_of_mem _ hx)
      have hf0 := Int.fract_nonneg t
      have hf1 := Int.fract_lt_one t
      have hfl : t = (⌊t⌋ : ℚ) + Int.fract t := (Int.floor_add_fract t).symm
      have hint : pyInt t = ⌊t⌋ := by unfold pyInt; rw [if_pos ht]
      simp only [ticks]
      split
      · rename_i ho
        obtain ⟨a, b⟩ := ih (o + Int.fract t - 1) k hts (by linarith) (by linarith)
        simp only [List.take_succ_cons, List.sum_cons, hint]
        push_cast at a b ⊢
        constructor <;> linarith
      · rename_i ho
        obtain ⟨a, b⟩ := ih (o + Int.fract t) k hts (by linarith) (by linarith)
        simp only [List.take_succ_cons, List.sum_cons, hint]
        push_cast at a b ⊢
        constructor <;> linarith

/-- **C31** part: in one chunk, at every point, the sum of the ticks differs from the sum of the times by
at most half a tick. What is missing: the overflow is dropped between chunks, see `chunks_drift`. -/
theorem ticks_half_partial (ts : List ℚ) (hpos : ∀ t ∈ ts, 0 ≤ t) (k : Nat) :
    |(ts.take k).sum - (((ticks 0 ts).take k).sum : Int)| ≤ 1 / 2 := by
  obtain ⟨a, b⟩ := ticks_prefix ts 0 k hpos (by norm_num) (by norm_num)
  rw [abs_le]
  constructor <;> linarith

theorem ticks_length (ts : List ℚ) : ∀ o, (ticks o ts).length = ts.length := by
  induction ts with
  | nil => intro o; rfl
  | cons t ts ih => intro o; simp only [ticks]; split <;> simp [ih]

/-- **C31** part: over chunk boundaries the difference is at most half a tick for each chunk written. -/
theorem ticks_chunks_partial (chunks : List (List ℚ)) (hpos : ∀ c ∈ chunks, ∀ t ∈ c, 0 ≤ t) :
    |chunks.flatten.sum - ((allTicks chunks).sum : Int)| ≤ chunks.length / 2 := by
  induction chunks with
  | nil => simp [allTicks]
  | cons c cs ih =>
    have h1 := ticks_half_partial c (hpos c List.mem_cons_self) c.length
    rw [List.take_length, List.take_of_length_le (by rw [ticks_length])] at h1
    have h2 := ih (fun x hx => hpos x (List.mem_cons_of_mem _ hx))
    unfold allTicks at h2 ⊢
    rw [List.flatMap_cons, List.flatten_cons, List.sum_append, List.sum_append, List.length_cons]
    push_cast
    rw [abs_le] at h1 h2 ⊢
    constructor <;> linarith [h1.1, h1.2, h2.1, h2.2]

theorem ticks_whole (n : Nat) : ∀ o : ℚ, o ≤ 1 / 2 → ticks o (List.replicate n 1) = List.replicate n 1 := by
  induction n with
  | zero => intro o _; rfl
  | succ n ih =>
    intro o ho
    have h1 : Int.fract (1 : ℚ) = 0 := Int.fract_one
    have h2 : pyInt 1 = 1 := by unfold pyInt; rw [if_pos (by norm_num)]; exact Int.floor_one
    simp only [List.replicate_succ, ticks, h1, h2, add_zero]
    rw [if_neg (by linarith), ih o ho]

/-- The negation of the full property: two full chunks of any length, the first point of each taking 1.4
ticks and the others one, end 0.8 ticks early. -/
theorem chunks_drift (n : Nat) (hn : 0 < n) : ∃ chunks : List (List ℚ),
    (∀ c ∈ chunks, c.length = n ∧ ∀ t ∈ c, 0 ≤ t) ∧
    ¬ |chunks.flatten.sum - ((allTicks chunks).sum : Int)| ≤ 1 / 2 := by
  obtain ⟨m, rfl⟩ : ∃ m, n = m + 1 := ⟨n - 1, by omega⟩
  refine ⟨[7 / 5 :: List.replicate m 1, 7 / 5 :: List.replicate m 1], ?_, ?_⟩
  · intro c hc
    have : c = 7 / 5 :: List.replicate m 1 := by
      rcases List.mem_cons.1 hc with h | h
      · exact h
      · exact List.mem_singleton.1 h
    subst this
    refine ⟨by rw [List.length_cons, List.length_replicate], ?_⟩
    intro t ht
    rcases List.mem_cons.1 ht with h | h
    · rw [h]; norm_num
    · rw [(List.mem_replicate.1 h).2]; norm_num
  · have hf : Int.fract (7 / 5 : ℚ) = 2 / 5 := by
      rw [Int.fract_eq_iff]; exact ⟨by norm_num, by norm_num, 1, by norm_num⟩
    have hp : pyInt (7 / 5) = 1 := by
      unfold pyInt; rw [if_pos (by norm_num), Int.floor_eq_iff]; constructor <;> norm_num
    have ht : ticks 0 (7 / 5 :: List.replicate m 1) = 1 :: List.replicate m 1 := by
      simp only [ticks, hf, hp, zero_add]
      rw [if_neg (by norm_num), ticks_whole m _ (by norm_num)]
    have hs : (List.replicate m (1 : ℚ)).sum = m := by
      rw [List.sum_replicate]; simp
    have hsi : (List.replicate m (1 : Int)).sum = m := by
      rw [List.sum_replicate]; simp
    unfold allTicks
    rw [List.flatMap_cons, List.flatMap_cons, List.flatMap_nil, ht, List.flatten_cons, List.flatten_cons,
      List.flatten_nil]
    simp only [List.sum_append, List.sum_cons, List.append_nil, List.sum_nil, add_zero, hs, hsi]
    push_cast
    rw [abs_le]
    intro h
    linarith [h.2]

/-! ### C32 -/

/-- the two loops over the axes at once -/
def modAxes (f : List ℚ → ℚ → Option (List ℚ)) (mapping : Dict String String) :
    Dict String (List ℚ) → List (String × ℚ) → Option (Dict String (List ℚ))
  | axes, [] => some axes
  | axes, (k, v) :: pts =>
    match Dict.get? mapping k with
    | none => none
    | some cs =>
      match Dict.get? axes cs with
      | none => none
      | some l =>
        match f l v with
        | none => none
        | some l' => modAxes f mapping (Dict.set axes cs l') pts

theorem appendAxes_eq (mapping : Dict String String) (pts : List (String × ℚ)) : ∀ axes,
    appendAxes mapping axes pts = modAxes (fun l v => some (l ++ [v])) mapping axes pts := by
  induction pts with
  | nil => intro axes; rfl
  | cons p pts ih =>
    intro axes
    simp only [appendAxes, modAxes]
    cases Dict.get? mapping p.1 with
    | none => rfl
    | some cs =>
      dsimp only
      cases Dict.get? axes cs with
      | none => rfl
      | some l => exact ih _

/-- the points in between -/
def between (n : Nat) (l : List ℚ) (v : ℚ) : Option (List ℚ) :=
  match l.getLast? with
  | none => none
  | some last => some (l ++ (List.range' 1 (n - 1)).map (fun i => last + (i : Nat) * ((v - last) / n)))

theorem stretchAxes_eq (mapping : Dict String String) (n : Nat) (pts : List (String × ℚ)) : ∀ axes,
    stretchAxes mapping n axes pts = modAxes (between n) mapping axes pts := by
  induction pts with
  | nil => intro axes; rfl
  | cons p pts ih =>
    intro axes
    simp only [stretchAxes, modAxes]
    cases Dict.get? mapping p.1 with
    | none => rfl
    | some cs =>
      dsimp only
      cases Dict.get? axes cs with
      | none => rfl
      | some l =>
        simp only [between]
        cases l.getLast? with
        | none => rfl
        | some last => exact ih _

/-- A mapping as C35 has it: each axis once, each coordinate system axis once. -/
def MapOk (m : Dict String String) : Prop := m.keys.Nodup ∧ m.values.Nodup

theorem modAxes_spec (f : List ℚ → ℚ → Option (List ℚ)) (mapping : Dict String String) (pos : String → ℚ)
    (m : Dict String String) : ∀ (axes : Dict String (List ℚ)),
    (∀ kv ∈ m, Dict.get? mapping kv.1 = some kv.2) → (Dict.values m).Nodup →
    (∀ kv ∈ m, ∃ l l', Dict.get? axes kv.2 = some l ∧ f l (pos kv.1) = some l') →
    ∃ axes', modAxes f mapping axes (m.map (fun kv => (kv.1, pos kv.1))) = some axes' ∧
      (∀ cs, cs ∉ Dict.values m → Dict.get? axes' cs = Dict.get? axes cs) ∧
      (∀ kv ∈ m, ∃ l l', Dict.get? axes kv.2 = some l ∧ f l (pos kv.1) = some l' ∧ Dict.get? axes' kv.2 = some l') := by
  induction m with
  | nil => intro axes _ _ _; exact ⟨axes, rfl, fun _ _ => rfl, fun _ h => by cases h⟩
  | cons kv m ih =>
    intro axes hm hn hl
    have hn' : kv.2 ∉ Dict.values m ∧ (Dict.values m).Nodup := by
      have := hn; simp only [Dict.values, List.map_cons, List.nodup_cons] at this; exact this
    obtain ⟨l, l', h1, h2⟩ := hl kv List.mem_cons_self
    have hne : ∀ kv2 ∈ m, kv.2 ≠ kv2.2 := by
      intro kv2 hk hc
      exact hn'.1 (by rw [hc]; exact List.mem_map_of_mem hk)
    obtain ⟨axes', ha, hb, hc⟩ := ih (Dict.set axes kv.2 l') (fun x hx => hm x (List.mem_cons_of_mem _ hx)) hn'.2 (by
      intro kv2 hk
      obtain ⟨l2, l2', h3, h4⟩ := hl kv2 (List.mem_cons_of_mem _ hk)
      exact ⟨l2, l2', by rw [Dict.get?_set_ne _ _ (hne kv2 hk)]; exact h3, h4⟩)
    refine ⟨axes', ?_, ?_, ?_⟩
    · rw [List.map_cons]
      simp only [modAxes]
      rw [hm kv List.mem_cons_self]
      simp only [h1, h2]
      exact ha
    · intro cs hcs
      have hcs' : cs ≠ kv.2 ∧ cs ∉ Dict.values m := by
        simp only [Dict.values, List.map_cons, List.mem_cons, not_or] at hcs; exact hcs
      rw [hb cs hcs'.2, Dict.get?_set_ne _ _ (Ne.symm hcs'.1)]
    · intro kv2 hk
      rcases List.mem_cons.1 hk with h | hk
      · subst h
        exact ⟨l, l', h1, h2, by rw [hb _ hn'.1, Dict.get?_set_self]⟩
      · obtain ⟨l2, l2', h3, h4, h5⟩ := hc kv2 hk
        rw [Dict.get?_set_ne _ _ (hne kv2 hk)] at h3
        exact ⟨l2, l2', h3, h4, h5⟩

/-- the whole mapping -/
theorem modAxes_all (f : List ℚ → ℚ → Option (List ℚ)) (mapping : Dict String String) (hm : MapOk mapping)
    (pos : String → ℚ) (axes : Dict String (List ℚ))
    (hl : ∀ kv ∈ mapping, ∃ l l', Dict.get? axes kv.2 = some l ∧ f l (pos kv.1) = some l') :
    ∃ axes', modAxes f mapping axes (mapping.map (fun kv => (kv.1, pos kv.1))) = some axes' ∧
      (∀ kv ∈ mapping, ∃ l l', Dict.get? axes kv.2 = some l ∧ f l (pos kv.1) = some l' ∧ Dict.get? axes' kv.2 = some l') := by
  obtain ⟨axes', h1, _, h3⟩ := modAxes_spec f mapping pos mapping axes
    (fun kv hk => Dict.get?_of_mem_nodup hm.1 hk) hm.2 hl
  exact ⟨axes', h1, h3⟩

/-- **C32** as an invariant: all arrays of the profile have one entry per point, and the lookup of the
completed steps one per point written or still to be written. -/
structure Aligned (s : Traj) : Prop where
  mode : s.mode.length = s.time.length
  prog : s.prog.length = s.time.length
  axes : ∀ kv ∈ s.mapping, ∃ l, Dict.get? s.axes kv.2 = some l ∧ l.length = s.time.length
  lookup : s.lookup.length = s.sent.length + s.time.length

theorem nsplit_spec (t : ℚ) (h : t > maxMoveTime) : 0 < nsplitOf t ∧ t / nsplitOf t ≤ maxMoveTime := by
  unfold nsplitOf maxMoveTime at *
  have h1 : (1 : ℚ) ≤ t / 4 + 1 := by linarith
  have hfl : (1 : Int) ≤ ⌊t / 4 + 1⌋ := by rw [Int.le_floor]; push_cast; exact h1
  have hpos : 0 < ⌊t / 4 + 1⌋.toNat := by omega
  refine ⟨hpos, ?_⟩
  have hcast : ((⌊t / 4 + 1⌋.toNat : Nat) : ℚ) = (⌊t / 4 + 1⌋ : ℚ) := by
    have : ((⌊t / 4 + 1⌋.toNat : Nat) : Int) = ⌊t / 4 + 1⌋ := Int.toNat_of_nonneg (by omega)
    exact_mod_cast congrArg (fun z : Int => (z : ℚ)) this
  rw [hcast]
  have hlt : t / 4 + 1 < (⌊t / 4 + 1⌋ : ℚ) + 1 := Int.lt_floor_add_one _
  have hp : (0 : ℚ) < (⌊t / 4 + 1⌋ : ℚ) := by exact_mod_cast (by omega : (0 : Int) < ⌊t / 4 + 1⌋)
  rw [div_le_iff₀ hp]
  linarith

/-- What adding a point does: it is refused only if it is longer than the limit and the profile is
empty; the arrays stay aligned; the new times are within the limit and add up to the time asked for; the
last entries are those asked for. -/
theorem add_spec (s : Traj) (hm : MapOk s.mapping) (ha : Aligned s) (t : ℚ) (mode prog step : Nat) (pos : String → ℚ)
    (hfirst : ¬ (t > maxMoveTime ∧ s.time = [])) :
    ∃ s' new, addPoint s t mode prog step (s.mapping.map (fun kv => (kv.1, pos kv.1))) = some s' ∧ Aligned s' ∧
      s'.mapping = s.mapping ∧ s'.sent = s.sent ∧ s'.time = s.time ++ new ∧ new ≠ [] ∧ new.sum = t ∧
      (∀ x ∈ new, x ≤ maxMoveTime ∧ (0 < t → 0 < x)) ∧
      s'.mode.getLast? = some mode ∧ s'.prog.getLast? = some prog ∧ s'.lookup.getLast? = some step ∧
      (∀ kv ∈ s.mapping, ∃ l, Dict.get? s'.axes kv.2 = some l ∧ l.getLast? = some (pos kv.1)) := by
  by_cases ht : t > maxMoveTime
  · have hne : s.time ≠ [] := fun hc => hfirst ⟨ht, hc⟩
    obtain ⟨hn1, hn2⟩ := nsplit_spec t ht
    have hlen : 0 < s.time.length := List.length_pos_iff.2 hne
    obtain ⟨axes1, h1, h2⟩ := modAxes_all (between (nsplitOf t)) s.mapping hm pos s.axes (by
      intro kv hk
      obtain ⟨l, hl1, hl2⟩ := ha.axes kv hk
      have hlne : l ≠ [] := by intro hc; rw [hc] at hl2; simp at hl2; omega
      obtain ⟨x, hx⟩ : ∃ x, l.getLast? = some x := ⟨_, List.getLast?_eq_some_getLast hlne⟩
      exact ⟨l, _, hl1, by unfold between; rw [hx]⟩)
    obtain ⟨axes2, h3, h4⟩ := modAxes_all (fun l v => some (l ++ [v])) s.mapping hm pos axes1 (by
      intro kv hk
      obtain ⟨l, l', _, _, h5⟩ := h2 kv hk
      exact ⟨l', _, h5, rfl⟩)
    have hll : s.lookup ≠ [] := by
      intro hc
      have := ha.lookup; rw [hc] at this; simp at this; omega
    obtain ⟨last, hlast⟩ : ∃ x, s.lookup.getLast? = some x := ⟨_, List.getLast?_eq_some_getLast hll⟩
    refine ⟨{ s with time := s.time ++ List.replicate (nsplitOf t) (t / nsplitOf t),
                     mode := s.mode ++ List.replicate (nsplitOf t - 1) 0 ++ [mode],
                     prog := s.prog ++ List.replicate (nsplitOf t - 1) 0 ++ [prog],
                     lookup := s.lookup ++ List.replicate (nsplitOf t - 1) last ++ [step],
                     axes := axes2 }, List.replicate (nsplitOf t) (t / nsplitOf t), ?_, ?_, rfl, rfl, rfl, ?_, ?_, ?_, ?_, ?_, ?_, ?_⟩
    · unfold addPoint
      rw [if_pos ht, if_neg hne]
      simp only [stretchAxes_eq, h1, hlast, appendAxes_eq, h3]
    · refine ⟨?_, ?_, ?_, ?_⟩
      · simp; have := ha.mode; omega
      · simp; have := ha.prog; omega
      · intro kv hk
        obtain ⟨l, l', h5, h6, h7⟩ := h2 kv hk
        obtain ⟨l2, l2', h8, h9, h10⟩ := h4 kv hk
        rw [h7] at h8
        cases h8
        cases h9
        obtain ⟨l3, h11, h12⟩ := ha.axes kv hk
        rw [h5] at h11; cases h11
        refine ⟨_, h10, ?_⟩
        unfold between at h6
        split at h6
        · cases h6
        · cases h6; simp; omega
      · simp; have := ha.lookup; omega
    · intro hc; have := congrArg List.length hc; simp at this; omega
    · rw [List.sum_replicate]
      have : (nsplitOf t : ℚ) ≠ 0 := by exact_mod_cast hn1.ne'
      simp; field_simp
    · intro x hx
      rw [(List.mem_replicate.1 hx).2]
      refine ⟨hn2, fun h => ?_⟩
      have : (0 : ℚ) < nsplitOf t := by exact_mod_cast hn1
      exact div_pos h this
    · simp
    · simp
    · simp
    · intro kv hk
      obtain ⟨l2, l2', h8, h9, h10⟩ := h4 kv hk
      cases h9
      exact ⟨_, h10, by simp⟩
  · obtain ⟨axes2, h3, h4⟩ := modAxes_all (fun l v => some (l ++ [v])) s.mapping hm pos s.axes (by
      intro kv hk
      obtain ⟨l, hl1, hl2⟩ := ha.axes kv hk
      exact ⟨l, _, hl1, rfl⟩)
    refine ⟨{ s with time := s.time ++ [t], mode := s.mode ++ [mode], prog := s.prog ++ [prog],
                     lookup := s.lookup ++ [step], axes := axes2 }, [t], ?_, ?_, rfl, rfl, rfl, by simp, by simp, ?_, ?_, ?_, ?_, ?_⟩
    · unfold addPoint
      rw [if_neg ht]
      simp only [appendAxes_eq, h3]
    · refine ⟨?_, ?_, ?_, ?_⟩
      · simp; exact ha.mode
      · simp; exact ha.prog
      · intro kv hk
        obtain ⟨l2, l2', h8, h9, h10⟩ := h4 kv hk
        cases h9
        obtain ⟨l3, h11, h12⟩ := ha.axes kv hk
        rw [h8] at h11; cases h11
        exact ⟨_, h10, by simp; exact h12⟩
      · simp; have := ha.lookup; omega
    · intro x hx
      rw [List.mem_singleton.1 hx]
      exact ⟨not_lt.1 ht, fun h => h⟩
    · simp
    · simp
    · simp
    · intro kv hk
      obtain ⟨l2, l2', h8, h9, h10⟩ := h4 kv hk
      cases h9
      exact ⟨_, h10, by simp⟩

/-- The points in between are on the straight line: when a point is added after `last` and is split in
`n`, the `i`th new position of each axis is `i / n` of the way from the last one, and the steps completed
stay those of the last one until the point itself is reached. -/
theorem add_straight (s : Traj) (hm : MapOk s.mapping) (ha : Aligned s) (t : ℚ) (mode prog step : Nat) (pos : String → ℚ)
    (s' : Traj) (h : addPoint s t mode prog step (s.mapping.map (fun kv => (kv.1, pos kv.1))) = some s') :
    ∃ n, 0 < n ∧ s'.time = s.time ++ List.replicate n (t / n) ∧
      (∀ kv ∈ s.mapping, ∃ l l', Dict.get? s.axes kv.2 = some l ∧ Dict.get? s'.axes kv.2 = some l' ∧
        ∀ last, l.getLast? = some last →
          l' = l ++ (List.range' 1 n).map (fun i => last + (i : Nat) * ((pos kv.1 - last) / n))) ∧
      (∀ last, s.lookup.getLast? = some last → s'.lookup = s.lookup ++ List.replicate (n - 1) last ++ [step]) := by
  have hlast : ∀ (n : Nat) (last v : ℚ), 0 < n → (List.range' 1 n).map (fun i => last + (i : Nat) * ((v - last) / n)) =
      (List.range' 1 (n - 1)).map (fun i => last + (i : Nat) * ((v - last) / n)) ++ [v] := by
    intro n last v hn
    obtain ⟨m, rfl⟩ : ∃ m, n = m + 1 := ⟨n - 1, by omega⟩
    have hne : ((m + 1 : Nat) : ℚ) ≠ 0 := by exact_mod_cast Nat.succ_ne_zero m
    rw [Nat.add_sub_cancel]
    conv_lhs => rw [show m + 1 = m + 1 from rfl, ← List.range'_append_1 (s := 1) (m := m) (n := 1)]
    rw [List.map_append]
    congr 1
    simp only [List.range'_one, List.map_cons, List.map_nil, List.cons.injEq, and_true]
    rw [Nat.add_comm 1 m]
    field_simp
    ring
  by_cases ht : t > maxMoveTime
  · have hn1 := (nsplit_spec t ht).1
    unfold addPoint at h
    rw [if_pos ht] at h
    split at h
    · cases h
    · rename_i hne
      have hlen : 0 < s.time.length := List.length_pos_iff.2 hne
      obtain ⟨axes1, h1, h2⟩ := modAxes_all (between (nsplitOf t)) s.mapping hm pos s.axes (by
        intro kv hk
        obtain ⟨l, hl1, hl2⟩ := ha.axes kv hk
        have hlne : l ≠ [] := by intro hc; rw [hc] at hl2; simp at hl2; omega
        obtain ⟨x, hx⟩ : ∃ x, l.getLast? = some x := ⟨_, List.getLast?_eq_some_getLast hlne⟩
        exact ⟨l, _, hl1, by unfold between; rw [hx]⟩)
      obtain ⟨axes2, h3, h4⟩ := modAxes_all (fun l v => some (l ++ [v])) s.mapping hm pos axes1 (by
        intro kv hk
        obtain ⟨l, l', _, _, h5⟩ := h2 kv hk
        exact ⟨l', _, h5, rfl⟩)
      have hll : s.lookup ≠ [] := by
        intro hc
        have := ha.lookup; rw [hc] at this; simp at this; omega
      obtain ⟨last, hlast'⟩ : ∃ x, s.lookup.getLast? = some x := ⟨_, List.getLast?_eq_some_getLast hll⟩
      simp only [stretchAxes_eq, h1, hlast', appendAxes_eq, h3, Option.some.injEq] at h
      subst h
      refine ⟨nsplitOf t, hn1, rfl, ?_, ?_⟩
      · intro kv hk
        obtain ⟨l, l', h5, h6, h7⟩ := h2 kv hk
        obtain ⟨l2, l2', h8, h9, h10⟩ := h4 kv hk
        rw [h7] at h8
        cases h8
        cases h9
        refine ⟨l, _, h5, h10, ?_⟩
        intro x hx
        unfold between at h6
        rw [hx] at h6
        simp only [Option.some.injEq] at h6
        rw [← h6, hlast _ _ _ hn1, List.append_assoc]
      · intro x hx
        rw [hlast'] at hx; cases hx; rfl
  · obtain ⟨axes2, h3, h4⟩ := modAxes_all (fun l v => some (l ++ [v])) s.mapping hm pos s.axes (by
      intro kv hk
      obtain ⟨l, hl1, hl2⟩ := ha.axes kv hk
      exact ⟨l, _, hl1, rfl⟩)
    unfold addPoint at h
    rw [if_neg ht] at h
    simp only [appendAxes_eq, h3, Option.some.injEq] at h
    subst h
    refine ⟨1, by decide, by simp, ?_, by simp⟩
    intro kv hk
    obtain ⟨l, l', h5, h6, h7⟩ := h4 kv hk
    cases h6
    exact ⟨l, _, h5, h7, by intro x hx; simp⟩

theorem get?_mapValues (d : Dict String (List ℚ)) (f : List ℚ → List ℚ) (k : String) :
    Dict.get? (d.map (fun kv => (kv.1, f kv.2))) k = (Dict.get? d k).map f := by
  induction d with
  | nil => rfl
  | cons kv d ih =>
    rw [List.map_cons, Dict.get?_cons, Dict.get?_cons]
    split
    · rfl
    · exact ih

theorem write_aligned (max : Nat) (s : Traj) (ha : Aligned s) : Aligned (Trajectory.write max s) := by
  unfold Trajectory.write
  refine ⟨?_, ?_, ?_, ?_⟩
  · simp; rw [ha.mode]
  · simp; rw [ha.prog]
  · intro kv hk
    obtain ⟨l, h1, h2⟩ := ha.axes kv hk
    refine ⟨l.drop max, ?_, by simp; rw [h2]⟩
    rw [get?_mapValues, h1]; rfl
  · have := ha.lookup; simp; omega

/-- overwriting the last point keeps the arrays aligned -/
theorem fixLast_aligned (s : Traj) (ha : Aligned s) (lower : String → ℚ) (prog : Nat) (s' : Traj)
    (h : Trajectory.fixLast s lower prog = some s') :
    Aligned s' ∧ s'.time = s.time ∧ s'.sent = s.sent ∧ s'.mapping = s.mapping := by
  unfold Trajectory.fixLast at h
  split at h
  · cases h
  · rename_i hne
    cases h
    have hlen : 0 < s.time.length := List.length_pos_iff.2 hne
    refine ⟨⟨?_, ?_, ?_, ha.lookup⟩, rfl, rfl, rfl⟩
    · have := ha.mode; simp; omega
    · have := ha.prog; simp; omega
    · have key : ∀ (m : List (String × String)) (axes : Dict String (List ℚ)) (cs : String),
          (∃ l, Dict.get? axes cs = some l ∧ l.length = s.time.length) →
          ∃ l, Dict.get? (m.foldl (fun axes kv =>
            match Dict.get? axes kv.2 with
            | none => axes
            | some l => Dict.set axes kv.2 (l.dropLast ++ [lower kv.1])) axes) cs = some l ∧ l.length = s.time.length := by
        intro m
        induction m with
        | nil => intro axes cs hh; exact hh
        | cons kv m ih =>
          intro axes cs hh
          rw [List.foldl_cons]
          apply ih
          obtain ⟨l, h1, h2⟩ := hh
          split
          · exact ⟨l, h1, h2⟩
          · rename_i l2 hl2
            by_cases hc : kv.2 = cs
            · subst hc
              rw [h1] at hl2; cases hl2
              rw [Dict.get?_set_self]
              exact ⟨_, rfl, by simp; omega⟩
            · rw [Dict.get?_set_ne _ _ hc]; exact ⟨l, h1, h2⟩
      intro kv hk
      exact key s.mapping s.axes kv.2 (ha.axes kv hk)

theorem start_aligned (mapping : Dict String String) : Aligned (Trajectory.start mapping) := by
  refine ⟨rfl, rfl, ?_, rfl⟩
  have key : ∀ (css : List String) (d : Dict String (List ℚ)) (cs : String),
      (cs ∈ css ∨ Dict.get? d cs = some []) → Dict.get? (css.foldl (fun d cs => Dict.set d cs []) d) cs = some [] := by
    intro css
    induction css with
    | nil => intro d cs h; rcases h with h | h
             · cases h
             · exact h
    | cons c css ih =>
      intro d cs h
      rw [List.foldl_cons]
      apply ih
      by_cases hc : c = cs
      · subst hc; right; rw [Dict.get?_set_self]
      · rcases h with h | h
        · rcases List.mem_cons.1 h with h | h
          · exact absurd h.symm hc
          · exact .inl h
        · right; rw [Dict.get?_set_ne _ _ hc]; exact h
  intro kv hk
  exact ⟨[], key _ _ _ (.inl (List.mem_map_of_mem hk)), rfl⟩

/-- the times asked for in a history -/
def requested : List Op → List ℚ
  | [] => []
  | .add t _ _ _ _ :: ops => t :: requested ops
  | _ :: ops => requested ops

/-- **C32**: whatever points are added, written and corrected in any order and number, as long as no
exception is raised: all arrays have one entry per point, no point takes longer than the limit, and the
times written and still to be written add up to the times asked for. -/
theorem profile_consistent (max : Nat) (mapping : Dict String String) (hm : MapOk mapping) (ops : List Op) (s : Traj)
    (h : (Trajectory.start mapping).run max ops = some s) :
    Aligned s ∧ (∀ x ∈ s.sent ++ s.time, x ≤ maxMoveTime) ∧ (s.sent ++ s.time).sum = (requested ops).sum := by
  have key : ∀ (ops : List Op) (s0 : Traj), Aligned s0 → MapOk s0.mapping → (∀ x ∈ s0.sent ++ s0.time, x ≤ maxMoveTime) →
      s0.run max ops = some s →
      Aligned s ∧ (∀ x ∈ s.sent ++ s.time, x ≤ maxMoveTime) ∧
      (s.sent ++ s.time).sum = (s0.sent ++ s0.time).sum + (requested ops).sum := by
    intro ops
    induction ops with
    | nil => intro s0 h1 h2 h3 hr; cases hr; exact ⟨h1, h3, by simp [requested]⟩
    | cons op ops ih =>
      intro s0 h1 h2 h3 hr
      simp only [Traj.run] at hr
      cases hs : s0.step max op with
      | none => rw [hs] at hr; cases hr
      | some s1 =>
        rw [hs] at hr
        cases op with
        | add t mode prog step pos =>
          simp only [Traj.step] at hs
          by_cases hf : t > maxMoveTime ∧ s0.time = []
          · unfold addPoint at hs
            rw [if_pos hf.1, if_pos hf.2] at hs; cases hs
          · obtain ⟨s', new, a1, a2, a3, a4, a5, _, a6, a7, _⟩ := add_spec s0 h2 h1 t mode prog step pos hf
            rw [a1] at hs; cases hs
            obtain ⟨b1, b2, b3⟩ := ih _ a2 (by rw [a3]; exact h2) (by
              rw [a4, a5]
              intro x hx
              rw [← List.append_assoc] at hx
              rcases List.mem_append.1 hx with hx | hx
              · exact h3 x hx
              · exact (a7 x hx).1) hr
            refine ⟨b1, b2, ?_⟩
            rw [b3, a4, a5]
            simp only [requested, List.sum_append, List.sum_cons, a6]
            ring
        | write =>
          cases hs
          have hst : (Trajectory.write max s0).sent ++ (Trajectory.write max s0).time = s0.sent ++ s0.time := by
            unfold Trajectory.write; dsimp only
            rw [List.append_assoc, List.take_append_drop]
          obtain ⟨b1, b2, b3⟩ := ih _ (write_aligned max s0 h1) h2 (by rw [hst]; exact h3) hr
          refine ⟨b1, b2, ?_⟩
          rw [b3, hst]; rfl
        | fixLast lower prog =>
          obtain ⟨a1, a2, a3, a4⟩ := fixLast_aligned s0 h1 lower prog s1 hs
          obtain ⟨b1, b2, b3⟩ := ih s1 a1 (by rw [a4]; exact h2) (by rw [a2, a3]; exact h3) hr
          refine ⟨b1, b2, ?_⟩
          rw [b3, a2, a3]; rfl
  obtain ⟨a, b, c⟩ := key ops _ (start_aligned mapping) hm (by simp [Trajectory.start]) h
  refine ⟨a, b, ?_⟩
  rw [c]; simp [Trajectory.start]

/-- **C32**: the only point that is refused is one longer than the limit with nothing before it in the
arrays. -/
theorem refused_only_first (max : Nat) (mapping : Dict String String) (hm : MapOk mapping) (ops : List Op) (s : Traj)
    (h : (Trajectory.start mapping).run max ops = some s) (hmap : s.mapping = mapping)
    (t : ℚ) (mode prog step : Nat) (pos : String → ℚ) :
    s.step max (.add t mode prog step pos) = none ↔ (t > maxMoveTime ∧ s.time = []) := by
  obtain ⟨ha, _, _⟩ := profile_consistent max mapping hm ops s h
  constructor
  · intro hn
    by_contra hc
    obtain ⟨s', _, h1, _⟩ := add_spec s (by rw [hmap]; exact hm) ha t mode prog step pos hc
    simp only [Traj.step] at hn
    rw [h1] at hn; cases hn
  · intro hf
    simp only [Traj.step]
    unfold addPoint
    rw [if_pos hf.1, if_pos hf.2]

/-- a profile with two axes, with a point that has to be stretched: the hypotheses are met -/
example : ∃ s, (Trajectory.start [("x", "a"), ("y", "b")]).run 2 [.add 1 1 1 0 (fun _ => 0),
    .add 9 0 4 1 (fun _ => 6), .write] = some s ∧ s.time = [3, 3] ∧ s.prog = [0, 4] ∧ s.lookup = [0, 0, 0, 1] ∧
    Dict.get? s.axes "a" = some [4, 6] ∧ Dict.get? s.axes "b" = some [4, 6] := by
  refine ⟨((Trajectory.start [("x", "a"), ("y", "b")]).run 2 [.add 1 1 1 0 (fun _ => 0),
    .add 9 0 4 1 (fun _ => 6), .write]).getD (Trajectory.start []), ?_, ?_, ?_, ?_, ?_, ?_⟩
  · rfl
  all_goals decide +kernel

end Verif.Props.Trajectory
