import Verif.Model.TrajLoop
/-!
C34: "Producing a trajectory in batches visits every scan point from the start step to the end step
exactly once and in order, whatever the batch size."
-/
set_option linter.unusedVariables false
namespace Verif.Props.TrajLoop
open Verif.TrajLoop

theorem range'_snoc (a n m : Nat) : List.range' a n ++ List.range' (a + n) m = List.range' a (n + m) := by
  rw [List.range'_append_1]

/-- what the loop over a batch does -/
theorem batchLoop_spec (c : Cfg) (n : Nat) : ∀ (i : Nat) (s : St), ∃ s' j b, batchLoop c n i s = (s', j, b) ∧
    s'.upTo = s.upTo ∧ s'.tailAdded = s.tailAdded ∧ s'.tails = s.tails ∧ s.pending ≤ s'.pending ∧
    s'.total + s.pending = s.total + s'.pending ∧
    (b = true → i ≤ j ∧ j < i + n ∧ s'.endIndex = j + 1 ∧ s'.visited = s.visited ++ List.range' i (j + 1 - i) ∧
      c.profilePoints < s'.pending) ∧
    (b = false → j = i + n ∧ s'.endIndex = s.endIndex ∧ s'.visited = s.visited ++ List.range' i n) := by
  induction n with
  | zero => intro i s; exact ⟨s, i, false, rfl, rfl, rfl, rfl, Nat.le_refl _, rfl, by simp, by simp⟩
  | succ n ih =>
    intro i s
    simp only [batchLoop]
    split
    · rename_i he
      refine ⟨_, i, true, rfl, rfl, rfl, rfl, by simp [visit], by simp [visit]; omega, ?_, by simp⟩
      intro _
      refine ⟨Nat.le_refl _, by omega, rfl, ?_, ?_⟩
      · simp [visit]
      · simp only [exceeds, Bool.and_eq_true, decide_eq_true_eq] at he
        exact he.2
    · obtain ⟨s', j, b, h1, h2, h3, h4, h5, h6, h7, h8⟩ := ih (i + 1) (visit c s i)
      refine ⟨s', j, b, h1, h2, h3, h4, ?_, ?_, ?_, ?_⟩
      · simp [visit] at h5; omega
      · simp [visit] at h6; omega
      · intro hb
        obtain ⟨a1, a2, a3, a4, a5⟩ := h7 hb
        refine ⟨by omega, by omega, a3, ?_, a5⟩
        rw [a4]
        have : j + 1 - i = (j + 1 - (i + 1)) + 1 := by omega
        rw [this, List.range'_succ]
        simp [visit]
      · intro hb
        obtain ⟨a1, a2, a3⟩ := h8 hb
        refine ⟨by omega, a2, ?_⟩
        rw [a3, List.range'_succ]
        simp [visit]

/-- what a call of create_generator_profile does -/
theorem create_spec (c : Cfg) (hB : 0 < c.batchPoints) (k : Nat) : ∀ (start : Nat) (s : St), start ≤ s.upTo →
    s.upTo - start = k → ∃ s' b, create c start s = some (s', b) ∧
      s'.upTo = s.upTo ∧ s'.tailAdded = s.tailAdded ∧ s'.tails = s.tails ∧ s.pending ≤ s'.pending ∧
      s'.total + s.pending = s.total + s'.pending ∧
      (b = true → s'.endIndex = s.endIndex ∧ s'.visited = s.visited ++ List.range' start (s.upTo - start) ∧
        (start = s.upTo → s' = s)) ∧
      (b = false → start < s'.endIndex ∧ s'.endIndex ≤ s.upTo ∧
        s'.visited = s.visited ++ List.range' start (s'.endIndex - start) ∧ c.profilePoints < s'.pending) := by
  induction k using Nat.strongRecOn with
  | ind k ih =>
    intro start s hle hk
    rw [create]
    by_cases h0 : start = s.upTo
    · rw [if_pos h0]
      refine ⟨s, true, rfl, rfl, rfl, rfl, Nat.le_refl _, rfl, ?_, by simp⟩
      intro _
      refine ⟨rfl, ?_, fun _ => rfl⟩
      rw [h0]; simp
    · rw [if_neg h0]
      obtain ⟨s1, j, b, e, a1, a2, a3, a4, a5, a6, a7⟩ := batchLoop_spec c (numPoints c start s.upTo - 1) start s
      have hb : batch c start s = (s1, j, b) := e
      have hnum : numPoints c start s.upTo = c.batchPoints + 1 ∧ s.upTo - start > c.batchPoints ∨
          numPoints c start s.upTo = s.upTo - start ∧ s.upTo - start ≤ c.batchPoints := by
        unfold numPoints; split
        · exact .inl ⟨rfl, by assumption⟩
        · exact .inr ⟨rfl, by omega⟩
      simp only [hb]
      cases b with
      | true =>
        obtain ⟨b1, b2, b3, b4, b5⟩ := a6 rfl
        refine ⟨s1, false, by simp, a1, a2, a3, a4, a5, by simp, fun _ => ?_⟩
        exact ⟨by omega, by omega, by rw [b4, b3], b5⟩
      | false =>
        obtain ⟨b1, b2, b3⟩ := a7 rfl
        simp only [Bool.false_eq_true, if_false]
        by_cases hl : start + numPoints c start s.upTo = s.upTo
        · rw [if_pos hl]
          have hj : j + 1 = s.upTo := by omega
          have hvis : (visit c s1 j).visited = s.visited ++ List.range' start (s.upTo - start) := by
            have e1 : numPoints c start s.upTo = s.upTo - start := by omega
            have e2 : s.upTo - start = (s.upTo - start - 1) + 1 := by omega
            show s1.visited ++ [j] = _
            rw [b3, e1, e2, ← range'_snoc start (s.upTo - start - 1) 1, List.append_assoc]
            congr 2
            simp; omega
          by_cases he : exceeds c (visit c s1 j) j
          · rw [if_pos he]
            refine ⟨_, false, rfl, a1, a2, a3, by simp [visit]; omega, by simp [visit]; omega, by simp, fun _ => ?_⟩
            refine ⟨by simp; omega, by simp; omega, ?_, ?_⟩
            · simp only
              rw [hvis, hj]
            · simp only [exceeds, Bool.and_eq_true, decide_eq_true_eq] at he
              exact he.2
          · rw [if_neg he, if_pos (by show j + 1 = s1.upTo; rw [a1]; exact hj)]
            refine ⟨_, true, rfl, a1, a2, a3, by simp [visit]; omega, by simp [visit]; omega, fun _ => ?_, by simp⟩
            exact ⟨b2, hvis, fun h => absurd h h0⟩
        · rw [if_neg hl]
          have hjlt : j < s.upTo := by omega
          have hjgt : start < j := by omega
          rw [if_neg (by rw [a1]; omega), dif_pos ⟨hjgt, by rw [a1]; exact hjlt, a1⟩]
          obtain ⟨s', b, d1, d2, d3, d4, d5, d6, d7, d8⟩ := ih (s1.upTo - j) (by rw [a1]; omega) j s1 (by omega) rfl
          refine ⟨s', b, d1, by omega, d3.trans a2, d4.trans a3, by omega, by omega, ?_, ?_⟩
          · intro hb
            obtain ⟨f1, f2, f3⟩ := d7 hb
            refine ⟨f1.trans b2, ?_, fun h => absurd h h0⟩
            rw [f2, b3, List.append_assoc, b1, range'_snoc, a1]
            congr 2; omega
          · intro hb
            obtain ⟨f1, f2, f3, f4⟩ := d8 hb
            refine ⟨by omega, by omega, ?_, f4⟩
            rw [f3, b3, List.append_assoc, b1, range'_snoc]
            congr 2; omega

/-- **C34** as an invariant, between two updates: the points visited are those from the first step to the
end index, once each and in order; the tail-off is added at most once and only at the end; and while
there are steps left there is a point in the arrays that the next one can be joined to. -/
structure Good (first last : Nat) (s : St) : Prop where
  upTo : s.upTo = last
  visited : s.visited = List.range' first (s.endIndex - first)
  lo : first ≤ s.endIndex
  hi : s.endIndex ≤ last
  tails : s.tails = if s.tailAdded then 1 else 0
  tailEnd : s.tailAdded = true → s.endIndex = last
  pending : s.endIndex < last → 0 < s.pending
  done : s.endIndex = last → s.pending = 0 → s.tailAdded = true
  le : s.pending ≤ s.total

/-- the invariant is kept when points are added, from any state in which the visited points are those up
to `start` -/
theorem calculate_spec (c : Cfg) (hB : 0 < c.batchPoints) (first last : Nat) (s : St) (start : Nat)
    (hu : s.upTo = last) (hv : s.visited = List.range' first (start - first)) (h1 : first ≤ start) (h2 : start ≤ last)
    (ht : s.tails = if s.tailAdded then 1 else 0) (hte : s.tailAdded = true → s.endIndex = last ∧ start = last)
    (hle : s.pending ≤ s.total) :
    ∃ s', calculate c start s = some s' ∧ Good first last (write c s') ∧
      s.total - s.pending ≤ s'.total - s'.pending ∧
      (start < last → start < s'.endIndex) ∧ (start = last → s'.tailAdded = true) ∧
      (start = last → s.tailAdded = true → s' = s) := by
  obtain ⟨s1, b, e, a1, a2, a3, a4, a5, a6, a7⟩ := create_spec c hB _ start s (by omega) rfl
  unfold calculate
  rw [e]
  dsimp only
  cases b with
  | true =>
    obtain ⟨b1, b2, b3⟩ := a6 rfl
    cases hta : s.tailAdded with
    | false =>
      rw [if_pos ⟨rfl, by rw [a2]; exact hta⟩]
      refine ⟨_, rfl, ⟨?_, ?_, ?_, ?_, ?_, ?_, ?_, ?_, ?_⟩, ?_, ?_, ?_, ?_⟩
      · simp [write, addTailOff]; omega
      · simp only [write, addTailOff]
        rw [b2, hv, a1, hu]
        have := range'_snoc first (start - first) (last - start)
        rw [show first + (start - first) = start by omega] at this
        rw [this]
        congr 1; omega
      · simp [write, addTailOff]; omega
      · simp [write, addTailOff]; omega
      · simp [write, addTailOff]; rw [a3, ht, hta]; rfl
      · intro _; simp [write, addTailOff]; omega
      · intro h; simp [write, addTailOff] at h; omega
      · intro _ _; rfl
      · simp [write, addTailOff]; omega
      · simp [addTailOff]; omega
      · intro h; simp [addTailOff]; omega
      · intro _; rfl
      · intro _ h; cases h
    | true =>
      have hs := (hte hta).2
      have := b3 (by omega)
      subst this
      rw [if_neg (by rw [hta]; simp)]
      refine ⟨s1, rfl, ⟨hu, ?_, ?_, ?_, ht, fun _ => (hte hta).1, ?_, fun _ _ => hta, ?_⟩, Nat.le_refl _, ?_, fun _ => hta,
        fun _ _ => rfl⟩
      · show s1.visited = List.range' first (s1.endIndex - first)
        rw [hv, hs, (hte hta).1]
      · show first ≤ s1.endIndex; have := (hte hta).1; omega
      · show s1.endIndex ≤ last; have := (hte hta).1; omega
      · intro h; have := (hte hta).1; have : s1.endIndex < last := h; omega
      · show s1.pending - c.profilePoints ≤ s1.total; omega
      · intro h; omega
  | false =>
    obtain ⟨b1, b2, b3, b4⟩ := a7 rfl
    rw [if_neg (by simp)]
    have hnt : s.tailAdded ≠ true := by intro h; have := (hte h).2; omega
    refine ⟨s1, rfl, ⟨?_, ?_, ?_, ?_, ?_, ?_, ?_, ?_, ?_⟩, by omega, fun _ => b1, ?_, ?_⟩
    · show s1.upTo = last; omega
    · show s1.visited = List.range' first (s1.endIndex - first)
      rw [b3, hv]
      have := range'_snoc first (start - first) (s1.endIndex - start)
      rw [show first + (start - first) = start by omega] at this
      rw [this]
      congr 1; omega
    · show first ≤ s1.endIndex; omega
    · show s1.endIndex ≤ last; omega
    · show s1.tails = if s1.tailAdded then 1 else 0; rw [a3, a2]; exact ht
    · intro h; have h : s1.tailAdded = true := h; rw [a2] at h; exact absurd h hnt
    · intro _; show 0 < s1.pending - c.profilePoints; omega
    · intro _ h; have h : s1.pending - c.profilePoints = 0 := h; omega
    · show s1.pending - c.profilePoints ≤ s1.total; omega
    · intro h; omega
    · intro h; omega

/-- **C34**, configure: whatever the state left by the scan before. -/
theorem configure_good (c : Cfg) (hB : 0 < c.batchPoints) (old : St) (completed steps : Nat) :
    ∃ s, configure c old completed steps = some s ∧ Good completed (completed + steps) s := by
  unfold configure
  dsimp only
  obtain ⟨s', h1, h2, _⟩ := calculate_spec c hB completed (completed + steps)
    { pending := c.runUp, total := c.runUp, endIndex := old.endIndex, upTo := completed + steps } completed rfl
    (by simp) (Nat.le_refl _) (by omega) rfl (by simp) (Nat.le_refl _)
  rw [h1]
  exact ⟨_, rfl, h2⟩

/-- every update keeps the invariant -/
theorem update_good (c : Cfg) (hB : 0 < c.batchPoints) (first last : Nat) (s : St) (hg : Good first last s) (n : Nat) :
    ∃ s', updateStep c s n = some s' ∧ Good first last s' := by
  have go : ∀ s, Good first last s → ∃ s', calculate c s.endIndex s = some s' ∧ Good first last (write c s') := by
    intro s hg
    obtain ⟨s', h1, h2, _⟩ := calculate_spec c hB first last s s.endIndex hg.upTo hg.visited hg.lo hg.hi hg.tails
      (fun h => ⟨hg.tailEnd h, hg.tailEnd h⟩) hg.le
    exact ⟨s', h1, h2⟩
  have second : ∀ s, Good first last s → ∃ s', (if s.endIndex = s.upTo ∧ s.pending ≠ 0 then
        match calculate c s.endIndex s with
        | none => none
        | some s => some (write c s)
      else some s) = some s' ∧ Good first last s' := by
    intro s hg
    split
    · obtain ⟨s', h1, h2⟩ := go s hg
      rw [h1]; exact ⟨_, rfl, h2⟩
    · exact ⟨s, rfl, hg⟩
  unfold updateStep
  split
  · exact ⟨s, rfl, hg⟩
  · dsimp only
    split
    · rename_i hh; split at hh
      · obtain ⟨s', h1, h2⟩ := go s hg
        rw [h1] at hh; cases hh
      · cases hh
    · rename_i s1 hh
      apply second
      split at hh
      · obtain ⟨s', h1, h2⟩ := go s hg
        rw [h1] at hh; cases hh; exact h2
      · cases hh; exact hg

/-- **C34**: whatever the batch size, however many profile points the steps make, whatever the scan before
left, and whatever updates come: the steps visited are those from the first to the end index, once each
and in order, and the end index never passes the last step; when all the points are written (nothing
pending and the end index reached) every step of the window was visited and the tail-off was added
once. -/
theorem visited_once (c : Cfg) (hB : 0 < c.batchPoints) (old : St) (completed steps : Nat) (updates : List Nat) :
    ∃ s0 s, configure c old completed steps = some s0 ∧ run c s0 updates = some s ∧
      s.visited = List.range' completed (s.endIndex - completed) ∧ s.endIndex ≤ completed + steps ∧ s.tails ≤ 1 ∧
      (s.endIndex = completed + steps → s.visited = List.range' completed steps) ∧
      (s.endIndex = completed + steps → s.pending = 0 → s.tails = 1) ∧
      (s.endIndex < completed + steps → 0 < s.pending) := by
  obtain ⟨s0, h0, hg0⟩ := configure_good c hB old completed steps
  have key : ∀ (ns : List Nat) (s : St), Good completed (completed + steps) s →
      ∃ s', run c s ns = some s' ∧ Good completed (completed + steps) s' := by
    intro ns
    induction ns with
    | nil => intro s hg; exact ⟨s, rfl, hg⟩
    | cons n ns ih =>
      intro s hg
      obtain ⟨s1, h1, hg1⟩ := update_good c hB _ _ s hg n
      obtain ⟨s2, h2, hg2⟩ := ih s1 hg1
      refine ⟨s2, ?_, hg2⟩
      simp only [run, h1]
      exact h2
  obtain ⟨s, hs, hg⟩ := key updates s0 hg0
  refine ⟨s0, s, h0, hs, hg.visited, hg.hi, ?_, ?_, ?_, hg.pending⟩
  · rw [hg.tails]; split <;> omega
  · intro h; rw [hg.visited, h]; congr 1; omega
  · intro h1 h2; rw [hg.tails, hg.done h1 h2]; rfl

/-! ### the end is reached -/

/-- No step makes as many points as are written at a time, and `add_sparse_point` says no only when it
added none. -/
structure Small (c : Cfg) : Prop where
  grow : ∀ i, c.grow i < c.profilePoints
  none : ∀ i, c.added i = false → c.grow i = 0
  runUp : 0 < c.runUp ∧ c.runUp ≤ c.profilePoints
  tailOff : c.tailOff < c.profilePoints

theorem exceeds_false {c : Cfg} (hc : Small c) {s : St} {i : Nat} (h0 : s.pending ≤ c.profilePoints)
    (h : exceeds c (visit c s i) i = false) : (visit c s i).pending ≤ c.profilePoints := by
  simp only [exceeds, Bool.and_eq_false_iff, decide_eq_false_iff_not] at h
  rcases h with h | h
  · have := hc.none i h; simp [visit]; omega
  · omega

theorem batchLoop_small (c : Cfg) (hc : Small c) (n : Nat) : ∀ (i : Nat) (s : St), s.pending ≤ c.profilePoints →
    (batchLoop c n i s).1.pending < 2 * c.profilePoints ∧
    ((batchLoop c n i s).2.2 = false → (batchLoop c n i s).1.pending ≤ c.profilePoints) := by
  have hp : 0 < c.profilePoints := by have := hc.grow 0; omega
  induction n with
  | zero => intro i s h; simp only [batchLoop]; exact ⟨by omega, fun _ => h⟩
  | succ n ih =>
    intro i s h
    simp only [batchLoop]
    cases he : exceeds c (visit c s i) i with
    | true =>
      simp only [if_true]
      refine ⟨?_, by simp⟩
      have := hc.grow i
      show s.pending + c.grow i < _
      omega
    | false =>
      simp only [Bool.false_eq_true, if_false]
      exact ih (i + 1) (visit c s i) (exceeds_false hc h he)

theorem create_small (c : Cfg) (hc : Small c) (k : Nat) : ∀ (start : Nat) (s : St), s.upTo - start = k →
    s.pending ≤ c.profilePoints → ∀ s' b, create c start s = some (s', b) →
    s'.pending < 2 * c.profilePoints ∧ (b = true → s'.pending ≤ c.profilePoints) := by
  have hp : 0 < c.profilePoints := by have := hc.grow 0; omega
  induction k using Nat.strongRecOn with
  | ind k ih =>
    intro start s hk h s' b hcr
    obtain ⟨hb1, hb2⟩ := batchLoop_small c hc (numPoints c start s.upTo - 1) start s h
    change (batch c start s).1.pending < _ at hb1
    change (batch c start s).2.2 = false → (batch c start s).1.pending ≤ _ at hb2
    rw [create] at hcr
    split at hcr
    · cases hcr; exact ⟨by omega, fun _ => h⟩
    · split at hcr
      · cases hcr; exact ⟨hb1, by simp⟩
      · rename_i hr
        have hb3 := hb2 (by cases hx : (batch c start s).2.2 with
          | true => exact absurd hx hr
          | false => rfl)
        split at hcr
        · dsimp only at hcr
          split at hcr
          · cases hcr
            have := hc.grow (batch c start s).2.1
            refine ⟨?_, by simp⟩
            show (batch c start s).1.pending + c.grow _ < _
            omega
          · rename_i he
            split at hcr
            · cases hcr
              have := exceeds_false hc hb3 (by simpa using he)
              exact ⟨by omega, fun _ => this⟩
            · cases hcr
        · split at hcr
          · cases hcr; exact ⟨hb1, fun _ => hb3⟩
          · split at hcr
            · rename_i hd
              exact ih _ (by omega) _ _ rfl hb3 s' b hcr
            · cases hcr

theorem calculate_small (c : Cfg) (hc : Small c) (start : Nat) (s s' : St) (h : s.pending ≤ c.profilePoints)
    (hs : calculate c start s = some s') : s'.pending < 2 * c.profilePoints := by
  unfold calculate at hs
  cases hcr : create c start s with
  | none => rw [hcr] at hs; cases hs
  | some r =>
    obtain ⟨s1, b⟩ := r
    rw [hcr] at hs
    obtain ⟨h1, h2⟩ := create_small c hc _ start s rfl h s1 b hcr
    dsimp only at hs
    split at hs
    · rename_i hb
      cases hs
      have := h2 hb.1
      have := hc.tailOff
      show s1.pending + c.tailOff < _
      omega
    · cases hs; exact h1

/-- what is left to do -/
def todo (last : Nat) (s : St) : Nat :=
  (last - s.endIndex) + (if s.pending = 0 ∧ s.endIndex = last then 0 else if s.tailAdded then 1 else 2)

/-- between two updates, when the steps are small -/
structure Fine (c : Cfg) (first last : Nat) (s : St) : Prop where
  good : Good first last s
  small : s.pending < c.profilePoints
  sent : s.pending < s.total

theorem calculate_fine (c : Cfg) (hc : Small c) (hB : 0 < c.batchPoints) (first last : Nat) (s : St)
    (hf : Fine c first last s) (hne : s.endIndex < last ∨ s.pending ≠ 0) :
    ∃ s', calculate c s.endIndex s = some s' ∧ Fine c first last (write c s') ∧ todo last (write c s') < todo last s := by
  have hg := hf.good
  obtain ⟨s', h1, h2, h3, h4, h5, h6⟩ := calculate_spec c hB first last s s.endIndex hg.upTo hg.visited hg.lo hg.hi
    hg.tails (fun h => ⟨hg.tailEnd h, hg.tailEnd h⟩) hg.le
  have hsm := calculate_small c hc _ s s' (by have := hf.small; omega) h1
  have hsent := hf.sent
  have hsmall := hf.small
  refine ⟨s', h1, ⟨h2, ?_, ?_⟩, ?_⟩
  · show s'.pending - c.profilePoints < _; omega
  · show s'.pending - c.profilePoints < s'.total; omega
  · have hle : todo last (write c s') ≤ (last - s'.endIndex) + (if s'.tailAdded then 1 else 2) := by
      unfold todo
      show (last - s'.endIndex) + (if s'.pending - c.profilePoints = 0 ∧ s'.endIndex = last then 0 else
        if s'.tailAdded then 1 else 2) ≤ _
      split <;> omega
    have hhi : s'.endIndex ≤ last := h2.hi
    by_cases he : s.endIndex < last
    · have hta : s.tailAdded = false := by
        cases hx : s.tailAdded with
        | false => rfl
        | true => have := hg.tailEnd hx; omega
      have := h4 he
      have hm : todo last s = (last - s.endIndex) + 2 := by
        unfold todo; rw [if_neg (by omega), hta]; rfl
      have : (if s'.tailAdded then 1 else 2) ≤ 2 := by split <;> omega
      omega
    · have he : s.endIndex = last := by have := hg.hi; omega
      have hpne : s.pending ≠ 0 := by rcases hne with h | h; omega; exact h
      have hm : todo last s = (if s.tailAdded then 1 else 2) := by
        unfold todo; rw [if_neg (by omega)]; omega
      cases hta : s.tailAdded with
      | false =>
        have h7 := h5 he
        have hend : s'.endIndex = last := h2.tailEnd h7
        rw [h7] at hle
        rw [hm, hta]
        simp at hle ⊢
        omega
      | true =>
        have := h6 he hta
        subst this
        rw [hm, hta]
        unfold todo
        rw [if_pos]
        · show last - s'.endIndex + 0 < _; simp; omega
        · exact ⟨by show s'.pending - c.profilePoints = 0; omega, he⟩

/-- the controller has scanned all that was written -/
def finishOne (c : Cfg) (s : St) : Option St := updateStep c s (s.total - s.pending)

def finish (c : Cfg) : Nat → St → Option St
  | 0, s => some s
  | n + 1, s =>
    match finishOne c s with
    | none => none
    | some s => finish c n s

theorem finishOne_fine (c : Cfg) (hc : Small c) (hB : 0 < c.batchPoints) (first last : Nat) (s : St)
    (hf : Fine c first last s) :
    ∃ s', finishOne c s = some s' ∧ Fine c first last s' ∧ todo last s' ≤ todo last s ∧
      (0 < todo last s → todo last s' < todo last s) := by
  have hg := hf.good
  have second : ∀ s, Fine c first last s → ∃ s', (if s.endIndex = s.upTo ∧ s.pending ≠ 0 then
        match calculate c s.endIndex s with
        | none => none
        | some s => some (write c s)
      else some s) = some s' ∧ Fine c first last s' ∧ todo last s' ≤ todo last s ∧
        (s.endIndex = last ∧ s.pending ≠ 0 → todo last s' < todo last s) := by
    intro s hf
    split
    · rename_i hh
      obtain ⟨s', h1, h2, h3⟩ := calculate_fine c hc hB first last s hf (.inr hh.2)
      rw [h1]; exact ⟨_, rfl, h2, by omega, fun _ => h3⟩
    · rename_i hh
      refine ⟨s, rfl, hf, Nat.le_refl _, fun h => absurd ⟨?_, h.2⟩ hh⟩
      rw [hf.good.upTo]; exact h.1
  unfold finishOne updateStep
  have hs := hf.sent
  have hsm := hf.small
  rw [if_neg (by omega)]
  dsimp only
  by_cases he : s.endIndex < s.upTo ∧ s.total < s.total - s.pending + c.profilePoints
  · obtain ⟨s1, h1, h2, h3⟩ := calculate_fine c hc hB first last s hf (.inl (by have := hg.upTo; omega))
    rw [if_pos he, h1]
    dsimp only
    obtain ⟨s', k1, k2, k3, _⟩ := second _ h2
    exact ⟨s', k1, k2, by omega, fun _ => by omega⟩
  · rw [if_neg he]
    dsimp only
    obtain ⟨s', k1, k2, k3, k4⟩ := second s hf
    refine ⟨s', k1, k2, k3, fun hpos => k4 ?_⟩
    have hend : s.endIndex = last := by have := hg.upTo; have := hg.hi; omega
    refine ⟨hend, fun hc => ?_⟩
    unfold todo at hpos
    rw [if_pos ⟨hc, hend⟩] at hpos
    omega

/-- **C34**: with steps that make fewer points than are written at a time, each time the controller has
finished what was written more is written, until after at most two more updates than there are steps
every step of the window was visited, once and in order, the tail-off was added once and nothing is left
to write. -/
theorem all_visited (c : Cfg) (hc : Small c) (hB : 0 < c.batchPoints) (old : St) (completed steps n : Nat)
    (hn : steps + 2 ≤ n) : ∃ s0 s, configure c old completed steps = some s0 ∧ finish c n s0 = some s ∧
      s.visited = List.range' completed steps ∧ s.tails = 1 ∧ s.pending = 0 := by
  have hcfg : ∃ s0, configure c old completed steps = some s0 ∧ Fine c completed (completed + steps) s0 := by
    unfold configure
    dsimp only
    obtain ⟨s', h1, h2, h3, _⟩ := calculate_spec c hB completed (completed + steps)
      { pending := c.runUp, total := c.runUp, endIndex := old.endIndex, upTo := completed + steps } completed rfl
      (by simp) (Nat.le_refl _) (by omega) rfl (by simp) (Nat.le_refl _)
    have hsm := calculate_small c hc _ _ s' hc.runUp.2 h1
    obtain ⟨s1, b, e, a1, a2, a3, a4, a5, _⟩ := create_spec c hB _ completed
      { pending := c.runUp, total := c.runUp, endIndex := old.endIndex, upTo := completed + steps } (by simp) rfl
    have hpt : s'.total = s'.pending ∧ c.runUp ≤ s'.pending := by
      unfold calculate at h1
      rw [e] at h1
      dsimp only at h1 a4 a5
      split at h1
      · cases h1; simp [addTailOff]; omega
      · cases h1; omega
    rw [h1]
    have := hc.runUp.1
    have := hc.tailOff
    refine ⟨_, rfl, h2, ?_, ?_⟩
    · show s'.pending - c.profilePoints < _; omega
    · show s'.pending - c.profilePoints < s'.total; omega
  obtain ⟨s0, h0, hf0⟩ := hcfg
  have key : ∀ (n : Nat) (s : St), Fine c completed (completed + steps) s → todo (completed + steps) s ≤ n →
      ∃ s', finish c n s = some s' ∧ Fine c completed (completed + steps) s' ∧ todo (completed + steps) s' = 0 := by
    intro n
    induction n with
    | zero => intro s hf ht; exact ⟨s, rfl, hf, by omega⟩
    | succ n ih =>
      intro s hf ht
      obtain ⟨s1, h1, h2, h3, h4⟩ := finishOne_fine c hc hB _ _ s hf
      obtain ⟨s2, h5, h6, h7⟩ := ih s1 h2 (by
        by_cases hp : 0 < todo (completed + steps) s
        · have := h4 hp; omega
        · omega)
      exact ⟨s2, by simp only [finish, h1]; exact h5, h6, h7⟩
  have htodo : todo (completed + steps) s0 ≤ n := by
    unfold todo
    have := hf0.good.lo
    have : (if s0.pending = 0 ∧ s0.endIndex = completed + steps then 0 else if s0.tailAdded then 1 else 2) ≤ 2 := by
      split
      · omega
      · split <;> omega
    omega
  obtain ⟨s, hs, hf, ht⟩ := key n s0 hf0 htodo
  have hg := hf.good
  have hp : s.pending = 0 ∧ s.endIndex = completed + steps := by
    refine Classical.byContradiction fun hc => ?_
    unfold todo at ht
    rw [if_neg hc] at ht
    split at ht <;> omega
  refine ⟨s0, s, h0, hs, ?_, ?_, hp.1⟩
  · rw [hg.visited, hp.2]; congr 1; omega
  · rw [hg.tails, hg.done hp.2 hp.1]; rfl

/-- The defect: a step that makes more points than are written twice (a point of several hours is split
into moves of at most 4 s) leaves more points than the controller may be ahead, so no update ever loads
the next ones: the controller stops with steps left. -/
theorem big_step_stalls : ∃ s0, configure { profilePoints := 3, batchPoints := 3, grow := fun _ => 8, added := fun _ => true }
      {} 0 5 = some s0 ∧ s0.endIndex < s0.upTo ∧ ∀ n ≤ s0.total - s0.pending,
      updateStep { profilePoints := 3, batchPoints := 3, grow := fun _ => 8, added := fun _ => true } s0 n = some s0 := by
  exact ⟨{ pending := 6, total := 9, endIndex := 1, upTo := 5, visited := [0] }, by decide +kernel, by decide, by
    intro n hn
    simp only at hn
    unfold updateStep
    split
    · rfl
    · dsimp only
      rw [if_neg (by omega)]
      rfl⟩

/-- A window of seven steps in batches of three, three profile points at a time: the hypotheses are met
and the end is reached. -/
example : (configure { profilePoints := 3, batchPoints := 3, grow := fun _ => 2, added := fun _ => true } {} 10 7).bind
    (fun s => (run { profilePoints := 3, batchPoints := 3, grow := fun _ => 2, added := fun _ => true } s
      [3, 6, 9, 12, 15]).map (fun s => (s.visited, s.pending, s.tails))) =
    some ([10, 11, 12, 13, 14, 15, 16], 0, 1) := by decide +kernel

/-- the same configuration is small, so `all_visited` applies to it -/
example : Small { profilePoints := 3, batchPoints := 3, grow := fun _ => 2, added := fun _ => true } :=
  ⟨fun _ => by show 2 < 3; decide, (fun _ h => by cases h), (by decide), (by decide)⟩

end Verif.Props.TrajLoop
