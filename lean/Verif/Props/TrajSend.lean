import Verif.Proofs.TrajSendInv
/-!
C75: "The trajectory of a scan reaches the motion controller once, complete and in order, however it is cut
into batches and chunks, and the progress of the controller is reported as the number of scan steps that
are complete."
-/
set_option linter.unusedVariables false
namespace Verif.Props.TrajSend
open Verif.Trajectory Verif.Props.Trajectory Verif.TrajSend Verif.Spec.TrajSend Verif.Proofs.TrajGlue Verif.Proofs.TrajSend

variable {c : Cfg} {first L : Nat}

/-- all requests are those made so far and those to come -/
theorem whole_split (hf : Fits c first (L - first)) {x : Chunk} {s : St} {t : TrajLoop.St} (h : Inv c first L x s t) :
    ∃ T tr, Whole c first (L - first) T ∧ T = glue x tr ∧ Aligned tr ∧ tr.mapping = c.mapping ∧
      (s.endIndex = L → s.traj.time = [] → tr = s.traj) ∧ ∃ ext, T.lookup = s.traj.lookup ++ ext := by
  have hg := h.fine.good
  have hl := h.first_le
  have hL : first + (L - first) = L := by omega
  have hm : MapOk s.traj.mapping := by rw [h.rel.map]; exact mapOk hf
  cases hta : t.tailAdded with
  | true =>
    refine ⟨_, s.traj, ?_, rfl, h.rel.al, h.rel.map, fun _ _ => rfl, [], by simp [glue]⟩
    unfold Whole
    have : wholeOps c first (L - first) = history c first t := by
      have h1 : t.tails = 1 := by rw [hg.tails, hta]; rfl
      unfold wholeOps history
      rw [h1, hg.upTo, hg.visited, hg.tailEnd hta, hL]
      rfl
    rw [this]; exact h.rel.whole
  | false =>
    have hne : s.traj.time ≠ [] := by
      intro hc
      have hp : t.pending = 0 := by rw [h.rel.pend, hc]; rfl
      by_cases he : t.endIndex < L
      · have := hg.pending he; omega
      · have := hg.done (by have := hg.hi; omega) hp
        rw [hta] at this; cases this
    obtain ⟨rest, hrest⟩ : ∃ rest, rest = (List.range' t.endIndex (L - t.endIndex)).flatMap
      (fun i => c.ops i (decide (i + 1 = L))) ++ [tailOp c L] := ⟨_, rfl⟩
    have hnw : NoWrite rest := by
      intro o ho
      rw [hrest] at ho
      rcases List.mem_append.1 ho with ho | ho
      · obtain ⟨i, _, hi⟩ := List.mem_flatMap.1 ho
        exact hf.noWrite i _ o hi
      · rw [List.mem_singleton.1 ho]; unfold tailOp; intro hh; cases hh
    have hsplit : wholeOps c first (L - first) = history c first t ++ rest := by
      have h0 : t.tails = 0 := by rw [hg.tails, hta]; rfl
      unfold wholeOps history
      rw [h0, hg.upTo, hg.visited, hrest, hL, if_pos rfl, List.append_nil, List.cons_append, List.cons_append,
        ← List.append_assoc, ← List.flatMap_append]
      congr 3
      have hlo := hg.lo
      have hhi := hg.hi
      have := Props.TrajLoop.range'_snoc first (t.endIndex - first) (L - t.endIndex)
      rw [show first + (t.endIndex - first) = t.endIndex by omega] at this
      rw [this]
      congr 1; omega
    obtain ⟨tr, htr⟩ := run_ok 0 rest hnw s.traj h.rel.al hm hne
    obtain ⟨a1, a2, _, _, _, a6, a7⟩ := run_spec 0 x rest hnw s.traj tr h.rel.al hm htr
    refine ⟨glue x tr, tr, ?_, rfl, a1, a2.trans h.rel.map, fun _ hc => absurd hc hne, ?_⟩
    · unfold Whole
      rw [hsplit, run_append, h.rel.whole]
      exact a7 0
    · exact ⟨_, a6⟩

theorem holds (hf : Fits c first (L - first)) {x : Chunk} {s : St} {t : TrajLoop.St} (h : Inv c first L x s t) (T : Traj)
    (hT : Whole c first (L - first) T) : Holds c T s.pmac := by
  obtain ⟨T', tr, h1, h2, h3, h4, _⟩ := whole_split hf h
  have : T' = T := by unfold Whole at hT h1; rw [h1] at hT; cases hT; rfl
  subst this
  have hs := h.sent
  have hbuf : s.pmac.buffer.length = s.pmac.total := by
    have := congrArg List.length hs.modes
    rw [List.length_map] at this
    rw [this, hs.xmode, hs.total]
  rw [h2]
  refine ⟨hbuf, ?_, ?_, ?_, ?_, hs.axes, ?_⟩
  · rw [hs.total]; simp [glue]
  · rw [hs.modes, hs.total, ← hs.xmode]; simp [glue]
  · rw [hs.progs, hs.total, ← hs.xprog]; simp [glue]
  · intro kv hk
    have hv : kv.2 ∈ c.mapping.values := List.mem_map_of_mem hk
    obtain ⟨l, e1, e2⟩ := h3.axes kv (by rw [h4]; exact hk)
    refine ⟨x.axes kv.2 ++ l, ?_, ?_, ?_⟩
    · show Dict.get? (mapK x.axes tr.axes) kv.2 = _
      rw [get?_mapK, e1]; rfl
    · simp [glue, hs.xaxes _ hv, e2]
    · rw [hs.pos _ hv, hs.total, ← hs.xaxes _ hv]; simp
  · obtain ⟨chunks, t1, t2, t3⟩ := hs.times
    exact ⟨chunks, by rw [t1, hs.total]; simp [glue], t2, t3⟩

/-- what is reached keeps the invariant -/
theorem reached_inv (hf : Fits c first (L - first)) {s0 s : St} (h0 : ∃ x t, Inv c first L x s0 t)
    (h : Reached c s0 s) : ∃ x t, Inv c first L x s t := by
  induction h with
  | start => exact h0
  | update n _ hn hu ih =>
    obtain ⟨x, t, hi⟩ := ih
    obtain ⟨s', x', t', h1, h2, _⟩ := update_inv hf hi n hn
    rw [h1] at hu; cases hu
    exact ⟨x', t', h2⟩

theorem fits_sub {first steps : Nat} (hf : Fits c first steps) : Fits c first (first + steps - first) := by
  rw [Nat.add_sub_cancel_left]; exact hf

/-- the start of a window -/
theorem configured {first steps : Nat} (hf : Fits c first steps) (cs : String) (old : St) (hv : 2 ≤ old.pmac.version) :
    ∃ s0, configure c cs old first steps = some s0 ∧ (∃ x t, Inv c first (first + steps) x s0 t) ∧ 0 < s0.pmac.total ∧
      s0.reports = old.reports := by
  obtain ⟨s, x, t, h1, h2, h3, h4⟩ := configure_inv (fits_sub hf) (by omega) cs old hv
  rw [Nat.add_sub_cancel_left] at h1
  exact ⟨s, h1, ⟨x, t, h2⟩, h3, h4⟩

/-- **C75**: whatever the window of steps, the number of points in a batch and in a chunk, whatever was in the
controller before, and whatever updates of the number of points scanned come: the trajectory exists as one
profile, configure works, no update raises, and the controller always holds the first points of that one
profile, each once and in order, with the right positions of the right axes. -/
theorem delivered (first steps : Nat) (hf : Fits c first steps) (cs : String) (old : St) (hv : 2 ≤ old.pmac.version) :
    ∃ T s0, Whole c first steps T ∧ configure c cs old first steps = some s0 ∧
      ∀ s, Reached c s0 s → Holds c T s.pmac ∧ ∀ n ≤ s.pmac.total, ∃ s', updateStep c s n = some s' := by
  obtain ⟨s0, h1, h2, h3, _⟩ := configured hf cs old hv
  obtain ⟨x, t, hi⟩ := h2
  obtain ⟨T, tr, hT, _⟩ := whole_split (fits_sub hf) hi
  have hT' := hT
  rw [Nat.add_sub_cancel_left] at hT'
  refine ⟨T, s0, hT', h1, fun s hs => ?_⟩
  obtain ⟨x1, t1, hi1⟩ := reached_inv (fits_sub hf) ⟨x, t, hi⟩ hs
  refine ⟨holds (fits_sub hf) hi1 T hT, fun n hn => ?_⟩
  obtain ⟨s', _, _, hu, _⟩ := update_inv (fits_sub hf) hi1 n hn
  exact ⟨s', hu⟩

/-- **C75**: the controller is never left waiting: as long as not all of the trajectory was sent, an update
that says that all that was sent has been scanned sends more. -/
theorem supplied (first steps : Nat) (hf : Fits c first steps) (cs : String) (old : St) (hv : 2 ≤ old.pmac.version)
    (T : Traj) (hT : Whole c first steps T) (s0 s : St) (hc : configure c cs old first steps = some s0)
    (hs : Reached c s0 s) : 0 < s.pmac.total ∧ ∃ s', updateStep c s s.pmac.total = some s' ∧
      (s.pmac.total < T.time.length → s.pmac.total < s'.pmac.total) := by
  obtain ⟨s1, h1, h2, h3, _⟩ := configured hf cs old hv
  rw [h1] at hc; cases hc
  have hpos : 0 < s.pmac.total := by
    clear hT
    induction hs with
    | start => exact h3
    | update n hr hn hu ih =>
      obtain ⟨x1, t1, hi1⟩ := reached_inv (fits_sub hf) h2 hr
      obtain ⟨s2, _, _, hu2, _, hle, _⟩ := update_inv (fits_sub hf) hi1 n hn
      rw [hu2] at hu; cases hu
      omega
  refine ⟨hpos, ?_⟩
  obtain ⟨x, t, hi⟩ := reached_inv (fits_sub hf) h2 hs
  obtain ⟨s', x', t', u1, u2, u3, u4, u5⟩ := update_inv (fits_sub hf) hi s.pmac.total (Nat.le_refl _)
  refine ⟨s', u1, fun hlt => u5 hpos (Nat.le_refl _) ?_⟩
  refine Classical.byContradiction fun hn => ?_
  have hend : s.endIndex = first + steps := by
    have := hi.fine.good.hi; have := hi.rel.ends
    by_contra hh
    exact hn (.inl (by omega))
  have hemp : s.traj.time = [] := by
    by_contra hh
    exact hn (.inr hh)
  obtain ⟨T', tr, e1, e2, e3, e4, e5, _⟩ := whole_split (fits_sub hf) hi
  have : T' = T := by
    unfold Whole at hT e1; rw [Nat.add_sub_cancel_left] at e1; rw [e1] at hT; cases hT; rfl
  subst this
  rw [e2, e5 hend hemp] at hlt
  simp [glue, hemp, hi.sent.total] at hlt

/-! ### progress -/

/-- the number of the last step that was asked for -/
def lastOf : Nat → List Op → Nat
  | last, [] => last
  | _, .add _ _ _ step _ :: ops => lastOf step ops
  | last, _ :: ops => lastOf last ops

theorem steps_append (a b : List Op) : ∀ last, steps last (a ++ b) = steps last a ++ steps (lastOf last a) b := by
  induction a with
  | nil => intro last; rfl
  | cons o a ih => intro last; cases o <;> simp [steps, lastOf, ih]

theorem lastOf_append (a b : List Op) : ∀ last, lastOf last (a ++ b) = lastOf (lastOf last a) b := by
  induction a with
  | nil => intro last; rfl
  | cons o a ih => intro last; cases o <;> simp [lastOf, ih]

theorem gap_steps (g : List (ℚ × (String → ℚ))) (i : Nat) (lo : String → ℚ) :
    steps i (g.map (fun p => Op.add p.1 1 8 i p.2) ++ [.fixLast lo 1]) =
      List.replicate (npts (g.map (fun p => Op.add p.1 1 8 i p.2))) i ∧
    lastOf i (g.map (fun p => Op.add p.1 1 8 i p.2) ++ [.fixLast lo 1]) = i ∧
    npts (g.map (fun p => Op.add p.1 1 8 i p.2) ++ [.fixLast lo 1]) = npts (g.map (fun p => Op.add p.1 1 8 i p.2)) := by
  induction g with
  | nil => exact ⟨rfl, rfl, rfl⟩
  | cons p g ih =>
    obtain ⟨h1, h2, h3⟩ := ih
    have hp := size_pos p.1
    refine ⟨?_, ?_, ?_⟩
    · simp only [List.map_cons, List.cons_append, steps, h1, npts]
      rw [show i :: List.replicate (npts (g.map (fun p => Op.add p.1 1 8 i p.2))) i =
        List.replicate (npts (g.map (fun p => Op.add p.1 1 8 i p.2)) + 1) i by rw [List.replicate_succ]]
      rw [List.replicate_append_replicate]
      congr 1; omega
    · simp only [List.map_cons, List.cons_append, lastOf, h2]
    · simp only [List.map_cons, List.cons_append, npts, h3]

/-- the steps that one scan point makes complete: the one before until its upper bound, then itself -/
theorem every_steps (frame : Nat → Frame) (i : Nat) (last : Bool) :
    ∃ m N, m = size (frame i).half ∧ N = npts (everyOps frame i last) ∧ 0 < m ∧ 2 * m ≤ N ∧ lastOf i (everyOps frame i last) = i + 1 ∧
      steps i (everyOps frame i last) = List.replicate (2 * m - 1) i ++ List.replicate (N - (2 * m - 1)) (i + 1) := by
  obtain ⟨m, hm⟩ : ∃ m, m = size (frame i).half := ⟨_, rfl⟩
  have hp : 0 < m := by rw [hm]; exact size_pos _
  have pair : ∀ j, steps i (pairOps (frame i) i j) = List.replicate (2 * m - 1) i ++ [i + 1] ∧
      lastOf i (pairOps (frame i) i j) = i + 1 ∧ npts (pairOps (frame i) i j) = 2 * m := by
    intro j
    simp only [pairOps, steps, lastOf, npts, ← hm, and_true, true_and, Nat.add_zero]
    refine ⟨?_, by omega⟩
    rw [show i :: (List.replicate (m - 1) i ++ [i + 1]) = List.replicate (m - 1 + 1) i ++ [i + 1] by
      rw [List.replicate_succ]; rfl, ← List.append_assoc, List.replicate_append_replicate]
    congr 2; omega
  refine ⟨m, _, hm, rfl, hp, ?_⟩
  have hone : ∀ k, 2 * m = k → k - (2 * m - 1) = 1 := by omega
  cases last with
  | true =>
    obtain ⟨h1, h2, h3⟩ := pair false
    simp only [everyOps, if_true, h1, h2, h3]
    refine ⟨Nat.le_refl _, trivial, ?_⟩
    rw [hone _ rfl]; rfl
  | false =>
    obtain ⟨h1, h2, h3⟩ := pair (frame i).joined
    simp only [everyOps, Bool.false_eq_true, if_false]
    by_cases hj : (frame i).joined = true
    · simp only [hj, if_true, List.append_nil] at h1 h2 h3 ⊢
      rw [h1, h2, h3]
      refine ⟨Nat.le_refl _, rfl, ?_⟩
      rw [hone _ rfl]; rfl
    · rw [if_neg hj, steps_append, lastOf_append, npts_append, h1, h2, h3]
      obtain ⟨g1, g2, g3⟩ := gap_steps (frame i).gap (i + 1) (frame i).nextLower
      have hg : gapOps (frame i) i = (frame i).gap.map (fun p => Op.add p.1 1 8 (i + 1) p.2) ++ [.fixLast (frame i).nextLower 1] := rfl
      rw [hg, g1, g2, g3]
      refine ⟨by omega, rfl, ?_⟩
      rw [List.append_assoc, show [i + 1] = List.replicate 1 (i + 1) from rfl, List.replicate_append_replicate]
      congr 2; omega

/-- sums -/
def before (N : Nat → Nat) (a j : Nat) : Nat := ((List.range' a j).map N).sum

/-- counting the steps that are complete -/
theorem count_complete (N m : Nat → Nat) (h : ∀ i, 0 < m i ∧ 2 * m i ≤ N i) (R : Nat) (n : Nat) : ∀ (a k : Nat),
    k < ((List.range' a n).flatMap (fun i => List.replicate (2 * m i - 1) i ++
      List.replicate (N i - (2 * m i - 1)) (i + 1)) ++ List.replicate R (a + n)).length →
    ((List.range' a n).flatMap (fun i => List.replicate (2 * m i - 1) i ++
      List.replicate (N i - (2 * m i - 1)) (i + 1)) ++ List.replicate R (a + n))[k]? =
      some (a + ((List.range n).filter (fun j => before N a j + 2 * m (a + j) ≤ k + 1)).length) := by
  induction n with
  | zero =>
    intro a k hk
    simp only [List.range'_zero, List.flatMap_nil, List.nil_append, List.length_replicate] at hk ⊢
    rw [List.getElem?_replicate]
    simp [hk]
  | succ n ih =>
    intro a k hk
    obtain ⟨h1, h2⟩ := h a
    have hbef : ∀ j, before N a (j + 1) = N a + before N (a + 1) j := by
      intro j; unfold before; rw [List.range'_succ]; simp
    have hb0 : before N a 0 = 0 := by simp [before]
    have hcount : ((List.range (n + 1)).filter (fun j => decide (before N a j + 2 * m (a + j) ≤ k + 1))).length =
        (if 2 * m a ≤ k + 1 then 1 else 0) +
        ((List.range n).filter (fun j => decide (N a + before N (a + 1) j + 2 * m (a + 1 + j) ≤ k + 1))).length := by
      rw [List.range_succ_eq_map, List.filter_cons, List.filter_map, hb0]
      have hc : ((fun j => decide (before N a j + 2 * m (a + j) ≤ k + 1)) ∘ Nat.succ) =
          (fun j => decide (N a + before N (a + 1) j + 2 * m (a + 1 + j) ≤ k + 1)) := by
        funext j
        simp only [Function.comp, Nat.succ_eq_add_one, hbef]
        rw [show a + (j + 1) = a + 1 + j by omega]
      rw [hc]
      simp only [Nat.zero_add, Nat.add_zero, decide_eq_true_eq]
      split
      · simp; omega
      · simp
    rw [hcount]
    rw [List.range'_succ, List.flatMap_cons] at hk ⊢
    rw [show a + (n + 1) = a + 1 + n by omega] at hk ⊢
    rw [List.append_assoc] at hk ⊢
    obtain ⟨rest, hrest⟩ : ∃ rest, rest = (List.range' (a + 1) n).flatMap (fun i => List.replicate (2 * m i - 1) i ++
      List.replicate (N i - (2 * m i - 1)) (i + 1)) ++ List.replicate R (a + 1 + n) := ⟨_, rfl⟩
    rw [← hrest] at hk ⊢
    have hlenblk : (List.replicate (2 * m a - 1) a ++ List.replicate (N a - (2 * m a - 1)) (a + 1)).length = N a := by
      simp; omega
    by_cases hkN : k < N a
    · -- inside this step
      rw [List.getElem?_append_left (by rw [hlenblk]; exact hkN)]
      have hzero : ((List.range n).filter (fun j => decide (N a + before N (a + 1) j + 2 * m (a + 1 + j) ≤ k + 1))) = [] := by
        rw [List.filter_eq_nil_iff]
        intro j _
        have := (h (a + 1 + j)).1
        simp only [decide_eq_true_eq]
        omega
      rw [hzero]
      by_cases hk2 : k < 2 * m a - 1
      · rw [List.getElem?_append_left (by simpa using hk2), List.getElem?_replicate, if_pos hk2, if_neg (by omega)]
        rfl
      · rw [List.getElem?_append_right (by simpa using hk2), List.getElem?_replicate, List.length_replicate,
          if_pos (by omega), if_pos (by omega)]
        rfl
    · rw [List.getElem?_append_right (by rw [hlenblk]; omega), hlenblk]
      have hk' : k - N a < rest.length := by
        rw [List.length_append, hlenblk] at hk; omega
      have := ih (a + 1) (k - N a) (by rw [hrest] at hk'; exact hk')
      rw [← hrest] at this
      rw [this, if_pos (by omega)]
      congr 1
      have hcong : (List.range n).filter (fun j => decide (before N (a + 1) j + 2 * m (a + 1 + j) ≤ k - N a + 1)) =
          (List.range n).filter (fun j => decide (N a + before N (a + 1) j + 2 * m (a + 1 + j) ≤ k + 1)) := by
        apply List.filter_congr
        intro j _
        apply decide_eq_decide.2
        omega
      rw [hcong]; omega

theorem npts_flatMap (g : Nat → List Op) (l : List Nat) : npts (l.flatMap g) = (l.map (fun i => npts (g i))).sum := by
  induction l with
  | nil => rfl
  | cons i l ih => rw [List.flatMap_cons, npts_append, ih]; rfl

/-- the lookup of the whole trajectory -/
theorem whole_lookup (first steps' : Nat) (hf : Fits c first steps') (frame : Nat → Frame) (ho : c.ops = everyOps frame) (T : Traj)
    (hT : Whole c first steps' T) (n : Nat) (h0 : 0 < n) (hn : n ≤ T.lookup.length) :
    T.lookup[n - 1]? = some (completeAt c frame first steps' n) := by
  obtain ⟨N, hN⟩ : ∃ N : Nat → Nat, N = fun i => npts (everyOps frame i (decide (i + 1 = first + steps'))) := ⟨_, rfl⟩
  obtain ⟨m, hm⟩ : ∃ m : Nat → Nat, m = fun i => size (frame i).half := ⟨_, rfl⟩
  have hmN : ∀ i, 0 < m i ∧ 2 * m i ≤ N i := by
    intro i
    obtain ⟨m', N', e1, e2, e3, e4, _⟩ := every_steps frame i (decide (i + 1 = first + steps'))
    subst hm; subst hN
    dsimp only
    rw [← e1, ← e2]; exact ⟨e3, e4⟩
  have hrs : size (c.runUp first).1 = 1 := by unfold size; rw [if_neg (not_lt.2 hf.runUp)]
  -- the steps of all scan points
  have hmid : ∀ (k a : Nat), steps a ((List.range' a k).flatMap (fun i => c.ops i (decide (i + 1 = first + steps')))) =
      (List.range' a k).flatMap (fun i => List.replicate (2 * m i - 1) i ++ List.replicate (N i - (2 * m i - 1)) (i + 1)) ∧
      lastOf a ((List.range' a k).flatMap (fun i => c.ops i (decide (i + 1 = first + steps')))) = a + k := by
    intro k
    induction k with
    | zero => intro a; exact ⟨rfl, rfl⟩
    | succ k ih =>
      intro a
      obtain ⟨m', N', e1, e2, e3, e4, e5, e6⟩ := every_steps frame a (decide (a + 1 = first + steps'))
      obtain ⟨i1, i2⟩ := ih (a + 1)
      rw [List.range'_succ, List.flatMap_cons, List.flatMap_cons, steps_append, lastOf_append]
      rw [show c.ops a (decide (a + 1 = first + steps')) = everyOps frame a (decide (a + 1 = first + steps')) by rw [ho]]
      rw [e5, e6, i1, i2]
      subst hm; subst hN
      dsimp only
      rw [← e1, ← e2]
      exact ⟨rfl, by omega⟩
  have hnw : NoWrite (wholeOps c first steps') := by
    intro o ho
    unfold wholeOps at ho
    rcases List.mem_append.1 ho with ho | ho
    · rcases List.mem_cons.1 ho with ho | ho
      · subst ho; unfold runUpOp; intro hh; cases hh
      · obtain ⟨i, _, hi⟩ := List.mem_flatMap.1 ho
        exact hf.noWrite i _ o hi
    · rw [List.mem_singleton.1 ho]; unfold tailOp; intro hh; cases hh
  have hlook : T.lookup = first :: ((List.range' first steps').flatMap (fun i => List.replicate (2 * m i - 1) i ++
      List.replicate (N i - (2 * m i - 1)) (i + 1)) ++ List.replicate (size (c.tail (first + steps')).1) (first + steps')) := by
    have := (run_spec 0 {} _ hnw _ _ (start_aligned c.mapping) ⟨hf.axes, hf.csAxes⟩ hT).2.2.2.2.2.1
    rw [this]
    unfold wholeOps runUpOp
    simp only [List.cons_append, steps, hrs]
    rw [steps_append, (hmid steps' first).1, (hmid steps' first).2]
    have hp := size_pos (c.tail (first + steps')).1
    simp only [tailOp, steps, Trajectory.start, List.nil_append, Nat.sub_self, List.replicate_zero]
    rw [show [first + steps'] = List.replicate 1 (first + steps') from rfl, List.replicate_append_replicate]
    congr 3; omega
  have hend : ∀ j, endOf c frame first steps' j = 1 + before N first j + 2 * m (first + j) := by
    intro j
    unfold endOf before
    simp only [runUpOp, npts, hrs]
    rw [npts_flatMap, ho]
    subst hm; subst hN
    rfl
  unfold completeAt
  simp only [hend]
  rw [hlook]
  rw [hlook, List.length_cons] at hn
  by_cases h1 : n = 1
  · subst h1
    have : (List.range steps').filter (fun j => decide (1 + before N first j + 2 * m (first + j) ≤ 1)) = [] := by
      rw [List.filter_eq_nil_iff]
      intro j _
      have := (hmN (first + j)).1
      simp only [decide_eq_true_eq]; omega
    rw [this]; rfl
  · obtain ⟨k, rfl⟩ : ∃ k, n = k + 2 := ⟨n - 2, by omega⟩
    rw [show k + 2 - 1 = k + 1 by omega, List.getElem?_cons_succ]
    rw [count_complete N m hmN _ steps' first k (by omega)]
    have hcong : (List.range steps').filter (fun j => decide (before N first j + 2 * m (first + j) ≤ k + 1)) =
        (List.range steps').filter (fun j => decide (1 + before N first j + 2 * m (first + j) ≤ k + 2)) := by
      apply List.filter_congr
      intro j _
      apply decide_eq_decide.2
      omega
    rw [hcong]

/-- **C75**: when every point is triggered, each update with some points scanned reports exactly the number
of scan steps whose upper bound is among these points. -/
theorem progress_true (first steps : Nat) (hf : Fits c first steps) (frame : Nat → Frame) (ho : c.ops = everyOps frame)
    (he : c.everyPoint = true) (cs : String) (old : St) (hv : 2 ≤ old.pmac.version) (s0 s : St)
    (hc : configure c cs old first steps = some s0) (hs : Reached c s0 s) (n : Nat) (h0 : 0 < n) (hn : n ≤ s.pmac.total) :
    ∃ s', updateStep c s n = some s' ∧ s'.reports = s.reports ++ [completeAt c frame first steps n] := by
  obtain ⟨s1, h1, h2, h3, _⟩ := configured hf cs old hv
  rw [h1] at hc; cases hc
  obtain ⟨x, t, hi⟩ := reached_inv (fits_sub hf) h2 hs
  obtain ⟨s', x', t', u1, u2, u3, u4, u5⟩ := update_inv (fits_sub hf) hi n hn
  obtain ⟨r, hr1, hr2⟩ := u4 h0 he
  obtain ⟨T, tr, e1, e2, e3, e4, e5, ext, e6⟩ := whole_split (fits_sub hf) hi
  rw [Nat.add_sub_cancel_left] at e1
  have hlk := hi.lookup (fits_sub hf)
  have hlt : n - 1 < s.traj.lookup.length := by omega
  have := whole_lookup first steps hf frame ho T e1 n h0 (by rw [e6, List.length_append]; omega)
  rw [e6, List.getElem?_append_left hlt, hr1] at this
  cases this
  exact ⟨s', u1, hr2⟩

/-- What is reported never goes beyond the end of the window, and never back as the controller goes on. -/
theorem complete_mono (first steps : Nat) (frame : Nat → Frame) (n n' : Nat) (h : n ≤ n') :
    first ≤ completeAt c frame first steps n ∧ completeAt c frame first steps n ≤ completeAt c frame first steps n' ∧
      completeAt c frame first steps n' ≤ first + steps := by
  unfold completeAt
  refine ⟨by omega, ?_, ?_⟩
  · have : (List.range steps).filter (fun j => decide (endOf c frame first steps j ≤ n)) =
        ((List.range steps).filter (fun j => decide (endOf c frame first steps j ≤ n'))).filter
          (fun j => decide (endOf c frame first steps j ≤ n)) := by
      rw [List.filter_filter]
      apply List.filter_congr
      intro j _
      by_cases hj : endOf c frame first steps j ≤ n
      · have : endOf c frame first steps j ≤ n' := by omega
        simp [hj, this]
      · simp [hj]
    rw [this]
    exact Nat.add_le_add_left (List.length_filter_le _ _) _
  · have := List.length_filter_le (fun j => decide (endOf c frame first steps j ≤ n')) (List.range steps)
    rw [List.length_range] at this
    omega

/-- **C75**: when the run ends (all that was sent has been scanned, and the update for it sends no more),
the whole trajectory was sent and the last report was the end of the window. -/
theorem finished_complete (first steps : Nat) (hf : Fits c first steps) (frame : Nat → Frame) (ho : c.ops = everyOps frame)
    (he : c.everyPoint = true) (cs : String) (old : St) (hv : 2 ≤ old.pmac.version) (T : Traj) (hT : Whole c first steps T)
    (s0 s s' : St) (hc : configure c cs old first steps = some s0) (hs : Reached c s0 s) (n : Nat)
    (hfin : finished s n = true) (hu : updateStep c s n = some s') (hend : finished s' n = true) :
    s.pmac.total = T.time.length ∧ s'.reports.getLast? = some (first + steps) := by
  have hn : n = s.pmac.total := by simpa [finished] using hfin
  have hn' : n = s'.pmac.total := by simpa [finished] using hend
  obtain ⟨hpos, s2, h1, h2⟩ := supplied first steps hf cs old hv T hT s0 s hc hs
  rw [hn] at hu
  rw [h1] at hu; cases hu
  obtain ⟨T', s1, g1, g2, g3⟩ := delivered first steps hf cs old hv
  have : T' = T := by unfold Whole at hT g1; rw [g1] at hT; cases hT; rfl
  subst this
  rw [hc] at g2; cases g2
  have hmost := (g3 s hs).1.most
  have hall : s.pmac.total = T'.time.length := by
    by_contra hne
    have := h2 (by omega)
    omega
  refine ⟨hall, ?_⟩
  obtain ⟨s3, k1, k2⟩ := progress_true first steps hf frame ho he cs old hv s0 s hc hs s.pmac.total hpos (Nat.le_refl _)
  rw [h1] at k1; cases k1
  rw [k2, List.getLast?_append, List.getLast?_singleton]
  -- the last entry of the lookup is that of the tail-off
  obtain ⟨T2, e2⟩ : ∃ T2, T2 = T' := ⟨_, rfl⟩
  have hnw : NoWrite (wholeOps c first steps) := by
    intro o ho
    unfold wholeOps at ho
    rcases List.mem_append.1 ho with ho | ho
    · rcases List.mem_cons.1 ho with ho | ho
      · subst ho; unfold runUpOp; intro hh; cases hh
      · obtain ⟨i, _, hi⟩ := List.mem_flatMap.1 ho
        exact hf.noWrite i _ o hi
    · rw [List.mem_singleton.1 ho]; unfold tailOp; intro hh; cases hh
  have hsp := run_spec 0 {} _ hnw _ _ (start_aligned c.mapping) ⟨hf.axes, hf.csAxes⟩ hT
  have hal := hsp.1.lookup
  rw [hsp.2.2.1] at hal
  have hal : T'.lookup.length = T'.time.length := by simpa [Trajectory.start] using hal
  have hlast : T'.lookup.getLast? = some (first + steps) := by
    have h6 := hsp.2.2.2.2.2.1
    rw [h6]
    unfold wholeOps
    rw [steps_append, List.getLast?_append, List.getLast?_append]
    simp [tailOp, Proofs.TrajGlue.steps]
  have hw := whole_lookup first steps hf frame ho T' hT s.pmac.total hpos (by omega)
  rw [List.getLast?_eq_getElem?, hal, ← hall, hw] at hlast
  rw [Option.some.inj hlast]
  rfl

/-! ### where the points are -/

/-- points that have others after them stay as they are -/
theorem prefix_stays (m : Dict String String) (hm : MapOk m) (S T : Traj) (hmap : S.mapping = m) (ha : Aligned S)
    (hn : S.axes.keys.Nodup) (ops : List Op) (hw : NoWrite ops) (h : S.run 0 ops = some T) (k : Nat) (hk : k < S.time.length) :
    T.mode.take k = S.mode.take k ∧ T.prog.take k = S.prog.take k ∧
    ∀ kv ∈ m, ∃ l l', Dict.get? S.axes kv.2 = some l ∧ Dict.get? T.axes kv.2 = some l' ∧ l'.take k = l.take k := by
  have hg := glue_write k {} S hn
  have hal := write_aligned k S ha
  have hwm : (Trajectory.write k S).mapping = m := hmap
  obtain ⟨tr, htr⟩ := run_ok 0 ops hw (Trajectory.write k S) hal (by rw [hwm]; exact hm) (by
    intro hc
    have := congrArg List.length hc
    simp [Trajectory.write] at this
    omega)
  obtain ⟨a1, a2, _, _, _, _, a7⟩ := run_spec 0 (Chunk.append {} (chunkOf k S)) ops hw _ tr hal (by rw [hwm]; exact hm) htr
  have h7 := a7 0
  rw [hg] at h7
  have hS : ∀ y : Traj, (glue {} S).run 0 ops = some y → ∃ T', S.run 0 ops = some T' ∧ y = glue {} T' := by
    intro y hy
    have := (run_spec 0 {} ops hw S T ha (by rw [hmap]; exact hm) h).2.2.2.2.2.2 0
    rw [this] at hy; cases hy
    exact ⟨T, h, rfl⟩
  obtain ⟨T', e1, e2⟩ := hS _ h7
  rw [h] at e1; cases e1
  have hmode := congrArg Traj.mode e2
  have hprog := congrArg Traj.prog e2
  have haxes := congrArg Traj.axes e2
  simp only [glue, List.nil_append, Chunk.append, chunkOf] at hmode hprog haxes
  have hid : ∀ (d : Dict String (List ℚ)), mapK (fun _ => []) d = d := by
    intro d; unfold mapK; simp
  refine ⟨?_, ?_, ?_⟩
  · rw [← hmode, List.take_append_of_le_length (by rw [List.length_take, ha.mode]; omega), List.take_take, Nat.min_self]
  · rw [← hprog, List.take_append_of_le_length (by rw [List.length_take, ha.prog]; omega), List.take_take, Nat.min_self]
  · intro kv hkv
    obtain ⟨l, hl1, hl2⟩ := ha.axes kv (by rw [hmap]; exact hkv)
    obtain ⟨l2, hl3, hl4⟩ := a1.axes kv (by rw [a2, hwm]; exact hkv)
    refine ⟨l, l.take k ++ l2, hl1, ?_, ?_⟩
    · have : Dict.get? (mapK (fun _ => []) T.axes) kv.2 = Dict.get? T.axes kv.2 := by rw [hid]
      rw [← this]
      show Dict.get? (mapK (fun _ => []) T.axes) kv.2 = _
      rw [show mapK (fun _ => []) T.axes = mapK (fun a => ((Dict.get? S.axes a).getD []).take k) tr.axes from haxes.symm]
      rw [get?_mapK, hl3, hl1]; rfl
    · rw [List.take_append_of_le_length (by rw [List.length_take]; omega), List.take_take, Nat.min_self]

/-- What comes next is a new point, or nothing. -/
def AddNext (ops : List Op) : Prop := ops = [] ∨ ∃ t m p st pos rest, ops = .add t m p st pos :: rest

/-- a point that was added is in the trajectory, where it was added -/
theorem point_stays (m : Dict String String) (hm : MapOk m) (S0 S1 T : Traj) (hmap : S0.mapping = m) (ha : Aligned S0)
    (hn : S0.axes.keys.Nodup) (t : ℚ) (mode prog st : Nat) (pos : String → ℚ)
    (h1 : S0.run 0 [.add t mode prog st pos] = some S1) (ops : List Op) (hw : NoWrite ops) (hnext : AddNext ops)
    (h2 : S1.run 0 ops = some T) :
    T.mode[S1.time.length - 1]? = some mode ∧ T.prog[S1.time.length - 1]? = some prog ∧
    ∀ kv ∈ m, ∃ l, Dict.get? T.axes kv.2 = some l ∧ l[S1.time.length - 1]? = some (pos kv.1) := by
  have hm0 : MapOk S0.mapping := by rw [hmap]; exact hm
  have hnw : NoWrite [Op.add t mode prog st pos] := by
    intro o ho; rw [List.mem_singleton.1 ho]; intro hh; cases hh
  obtain ⟨a1, a2, _, a4, a5, _, _⟩ := run_spec 0 {} _ hnw S0 S1 ha hm0 h1
  have hadd : addPoint S0 t mode prog st (S0.mapping.map (fun kv => (kv.1, pos kv.1))) = some S1 := by
    simp only [Traj.run, Traj.step] at h1
    split at h1
    · cases h1
    · rename_i s' hs'; cases h1; exact hs'
  have hfirst : ¬ (t > maxMoveTime ∧ S0.time = []) := by
    intro hc; unfold addPoint at hadd; rw [if_pos hc.1, if_pos hc.2] at hadd; cases hadd
  obtain ⟨s', new, b1, b2, b3, b4, b5, b6, b7, b8, b9, b10, b11, b12⟩ := add_spec S0 hm0 ha t mode prog st pos hfirst
  rw [hadd] at b1; cases b1
  have hpos : 0 < S1.time.length := by rw [b5]; simp; have := List.length_pos_iff.2 b6; omega
  have hlast : ∀ {α : Type} (l : List α) (v : α), l.length = S1.time.length → l.getLast? = some v →
      l[S1.time.length - 1]? = some v := by
    intro α l v h3 h4
    rw [← h3, ← List.getLast?_eq_getElem?]; exact h4
  have e1 := hlast _ _ b2.mode b9
  have e2 := hlast _ _ b2.prog b10
  have e3 : ∀ kv ∈ m, ∃ l, Dict.get? S1.axes kv.2 = some l ∧ l.length = S1.time.length ∧ l[S1.time.length - 1]? = some (pos kv.1) := by
    intro kv hk
    obtain ⟨l, c1, c2⟩ := b12 kv (by rw [hmap]; exact hk)
    obtain ⟨l2, c3, c4⟩ := b2.axes kv (by rw [b3, hmap]; exact hk)
    rw [c1] at c3; cases c3
    exact ⟨l, c1, c4, hlast _ _ c4 c2⟩
  rcases hnext with rfl | ⟨t', m', p', st', pos', rest, rfl⟩
  · cases h2
    exact ⟨e1, e2, fun kv hk => by obtain ⟨l, c1, _, c2⟩ := e3 kv hk; exact ⟨l, c1, c2⟩⟩
  · -- the next point
    simp only [Traj.run, Traj.step] at h2
    split at h2
    · cases h2
    · rename_i S2 hS2
      have hm1 : MapOk S1.mapping := by rw [b3, hmap]; exact hm
      obtain ⟨n, hnpos, d1, d2, _⟩ := add_straight S1 hm1 b2 t' m' p' st' pos' S2 hS2
      have hfirst' : ¬ (t' > maxMoveTime ∧ S1.time = []) := by
        intro hc; rw [hc.2] at hpos; simp at hpos
      obtain ⟨s2, new2, f1, f2, f3, f4, f5, f6, _⟩ := add_spec S1 hm1 b2 t' m' p' st' pos' hfirst'
      rw [hS2] at f1; cases f1
      have hlen2 : S1.time.length < S2.time.length := by
        rw [f5]; simp; exact List.length_pos_iff.2 f6
      have hkeys := (addPoint_len _ _ _ _ _ _ _ hS2).2.1
      obtain ⟨ms, ps, g1, g2⟩ : ∃ ms ps, S2.mode = S1.mode ++ ms ∧ S2.prog = S1.prog ++ ps := by
        unfold addPoint at hS2
        split at hS2
        · split at hS2
          · cases hS2
          · dsimp only at hS2
            split at hS2
            · cases hS2
            · split at hS2
              · cases hS2
              · split at hS2
                · cases hS2
                · cases hS2
                  exact ⟨_, _, List.append_assoc _ _ _, List.append_assoc _ _ _⟩
        · split at hS2
          · cases hS2
          · cases hS2; exact ⟨_, _, rfl, rfl⟩
      obtain ⟨k1, k2, k3⟩ := prefix_stays m hm S2 T (by rw [f3, b3]; exact hmap) f2 (by rw [hkeys, a5]; exact hn) rest
        (fun o ho => hw o (List.mem_cons_of_mem _ ho)) h2 S1.time.length hlen2
      have hget : ∀ {α : Type} (l l' : List α), l'.take S1.time.length = l.take S1.time.length →
          l'[S1.time.length - 1]? = l[S1.time.length - 1]? := by
        intro α l l' hh
        have h3 := congrArg (fun z : List α => z[S1.time.length - 1]?) hh
        simp only [List.getElem?_take] at h3
        rw [if_pos (by omega), if_pos (by omega)] at h3
        exact h3
      refine ⟨?_, ?_, ?_⟩
      · rw [hget _ _ k1, g1, List.getElem?_append_left (by rw [b2.mode]; omega)]; exact e1
      · rw [hget _ _ k2, g2, List.getElem?_append_left (by rw [b2.prog]; omega)]; exact e2
      · intro kv hk
        obtain ⟨l2, l', q1, q2, q3⟩ := k3 kv hk
        obtain ⟨l1, c1, c2, c3⟩ := e3 kv hk
        obtain ⟨l1', l2', r1, r2, r3⟩ := d2 kv (by rw [b3, hmap]; exact hk)
        rw [c1] at r1; cases r1
        rw [q1] at r2; cases r2
        have hl1 : l1 ≠ [] := by intro hc; rw [hc] at c2; simp at c2; omega
        rw [r3 _ (List.getLast?_eq_some_getLast hl1)] at q3
        refine ⟨l', q2, ?_⟩
        rw [hget _ _ q3, List.getElem?_append_left (by rw [c2]; omega)]
        exact c3

/-- **C75**: the trajectory goes through the scan points: for each step, at the place in the controller that
is the end of the step all axes are at the upper bound of its scan point, and half its duration before
that at its position, with the trigger programs for these two. -/
theorem through_scan_points (first steps : Nat) (hf : Fits c first steps) (frame : Nat → Frame) (ho : c.ops = everyOps frame)
    (hgap : ∀ i, (frame i).joined = false → (frame i).gap ≠ []) (T : Traj) (hT : Whole c first steps T) (j : Nat)
    (hj : j < steps) :
    ∃ e m, e = endOf c frame first steps j ∧ m = e - size (frame (first + j)).half ∧ 0 < m ∧ m < e ∧
      e ≤ T.time.length ∧ T.prog[m - 1]? = some 4 ∧ (T.prog[e - 1]? = some 1 ∨ T.prog[e - 1]? = some 2) ∧
      ∀ kv ∈ c.mapping, ∃ l, Dict.get? T.axes kv.2 = some l ∧
        l[m - 1]? = some ((frame (first + j)).mid kv.1) ∧ l[e - 1]? = some ((frame (first + j)).upper kv.1) := by
  have hmo : MapOk c.mapping := ⟨hf.axes, hf.csAxes⟩
  obtain ⟨pre, hpre⟩ : ∃ pre, pre = runUpOp c first :: (List.range' first j).flatMap
    (fun i => c.ops i (decide (i + 1 = first + steps))) := ⟨_, rfl⟩
  obtain ⟨i, hi⟩ : ∃ i, i = first + j := ⟨_, rfl⟩
  rw [← hi]
  obtain ⟨f, hfr⟩ : ∃ f, f = frame i := ⟨_, rfl⟩
  rw [← hfr]
  -- what comes after the pair
  have hrest : ∃ jn rest, wholeOps c first steps = pre ++ (pairOps f i jn ++ rest) ∧ AddNext rest := by
    have hsplit : wholeOps c first steps = pre ++ (c.ops i (decide (i + 1 = first + steps)) ++
        ((List.range' (i + 1) (steps - (j + 1))).flatMap (fun i => c.ops i (decide (i + 1 = first + steps))) ++
          [tailOp c (first + steps)])) := by
      unfold wholeOps
      rw [hpre, show steps = j + (1 + (steps - (j + 1))) by omega, ← List.range'_append_1, List.flatMap_append,
        ← List.range'_append_1, List.flatMap_append, ← hi]
      simp only [List.range'_one, List.flatMap_cons, List.flatMap_nil, List.append_nil, List.cons_append, List.append_assoc]
      rw [show j + (1 + (steps - (j + 1))) - (j + 1) = steps - (j + 1) by omega]
    have htail : AddNext ((List.range' (i + 1) (steps - (j + 1))).flatMap (fun i => c.ops i (decide (i + 1 = first + steps))) ++
          [tailOp c (first + steps)]) := by
      right
      cases hk : steps - (j + 1) with
      | zero => exact ⟨_, _, _, _, _, _, rfl⟩
      | succ k =>
        rw [List.range'_succ, List.flatMap_cons, ho]
        simp only [everyOps]
        split
        · exact ⟨_, _, _, _, _, _, rfl⟩
        · exact ⟨_, _, _, _, _, _, rfl⟩
    rw [hsplit, ho]
    simp only [everyOps, ← hfr]
    rw [ho] at htail
    simp only [everyOps] at htail
    split
    · exact ⟨false, _, rfl, htail⟩
    · by_cases hjn : f.joined = true
      · rw [if_pos hjn, List.append_nil]
        exact ⟨f.joined, _, rfl, htail⟩
      · rw [if_neg hjn]
        refine ⟨f.joined, _, by rw [List.append_assoc], .inr ?_⟩
        cases hg : f.gap with
        | nil =>
          have := hgap i
          rw [← hfr] at this
          exact absurd hg (this (by simpa using hjn))
        | cons g gs =>
          unfold gapOps
          rw [hg]
          exact ⟨_, _, _, _, _, _, rfl⟩
  obtain ⟨jn, rest, hall, hnext⟩ := hrest
  have hnw : NoWrite (wholeOps c first steps) := by
    intro o ho
    unfold wholeOps at ho
    rcases List.mem_append.1 ho with ho | ho
    · rcases List.mem_cons.1 ho with ho | ho
      · subst ho; unfold runUpOp; intro hh; cases hh
      · obtain ⟨i, _, hi⟩ := List.mem_flatMap.1 ho
        exact hf.noWrite i _ o hi
    · rw [List.mem_singleton.1 ho]; unfold tailOp; intro hh; cases hh
  rw [hall] at hnw
  have hT' : (Trajectory.start c.mapping).run 0 (pre ++ (pairOps f i jn ++ rest)) = some T := by
    unfold Whole at hT; rw [← hall]; exact hT
  rw [run_append] at hT'
  cases hS0 : (Trajectory.start c.mapping).run 0 pre with
  | none => rw [hS0] at hT'; cases hT'
  | some S0 =>
    rw [hS0, Option.bind_some] at hT'
    obtain ⟨a1, a2, _, a4, a5, _, _⟩ := run_spec 0 {} pre (fun o ho => hnw o (List.mem_append_left _ ho)) _ _
      (start_aligned c.mapping) hmo hS0
    have hn0 : S0.axes.keys.Nodup := by rw [a5]; exact (start_keys c.mapping).1
    have hpair : pairOps f i jn ++ rest = [Op.add f.half 0 4 i f.mid] ++
        ([Op.add f.half (if jn then 0 else 1) (if jn then 1 else 2) (i + 1) f.upper] ++ rest) := rfl
    rw [hpair] at hT' hnw
    have hnwp : NoWrite ([Op.add f.half (if jn then 0 else 1) (if jn then 1 else 2) (i + 1) f.upper] ++ rest) :=
      fun o ho => hnw o (List.mem_append_right _ (List.mem_append_right _ ho))
    rw [run_append] at hT'
    cases hS1 : S0.run 0 [Op.add f.half 0 4 i f.mid] with
    | none => rw [hS1] at hT'; cases hT'
    | some S1 =>
      rw [hS1, Option.bind_some] at hT'
      have hm0 : MapOk S0.mapping := by rw [a2]; exact hmo
      have hnw1 : NoWrite [Op.add f.half 0 4 i f.mid] := by
        intro o ho; rw [List.mem_singleton.1 ho]; intro hh; cases hh
      obtain ⟨b1, b2, _, b4, b5, _, _⟩ := run_spec 0 {} _ hnw1 S0 S1 a1 hm0 hS1
      obtain ⟨p1, p2, p3⟩ := point_stays c.mapping hmo S0 S1 T a2 a1 hn0 _ _ _ _ _ hS1 _ hnwp (.inr ⟨_, _, _, _, _, _, rfl⟩) hT'
      rw [run_append] at hT'
      cases hS2 : S1.run 0 [Op.add f.half (if jn then 0 else 1) (if jn then 1 else 2) (i + 1) f.upper] with
      | none => rw [hS2] at hT'; cases hT'
      | some S2 =>
        rw [hS2, Option.bind_some] at hT'
        have hnw2 : NoWrite [Op.add f.half (if jn then 0 else 1) (if jn then 1 else 2) (i + 1) f.upper] := by
          intro o ho; rw [List.mem_singleton.1 ho]; intro hh; cases hh
        have hm1 : MapOk S1.mapping := by rw [b2]; exact hm0
        obtain ⟨c1, c2, _, c4, c5, _, _⟩ := run_spec 0 {} _ hnw2 S1 S2 b1 hm1 hS2
        have hnw3 : NoWrite rest := fun o ho => hnwp o (List.mem_append_right _ ho)
        obtain ⟨q1, q2, q3⟩ := point_stays c.mapping hmo S1 S2 T (b2.trans a2) b1 (by rw [b5]; exact hn0) _ _ _ _ _ hS2 _ hnw3
          hnext hT'
        have d4 := (run_spec 0 {} _ hnw3 S2 T c1 (by rw [c2]; exact hm1) hT').2.2.2.1
        simp only [npts] at b4 c4
        have hz : (Trajectory.start c.mapping).time.length = 0 := rfl
        rw [hz] at a4
        have hsz := size_pos f.half
        have hpp : 0 < npts pre := by
          rw [hpre]; simp only [runUpOp, npts]; have := size_pos (c.runUp first).1; omega
        refine ⟨S2.time.length, S1.time.length, ?_, by omega, by omega, by omega, by omega, p2, ?_, ?_⟩
        · unfold endOf
          rw [← hpre, ← hi, ← hfr]
          omega
        · cases jn
          · right; simpa using q2
          · left; simpa using q2
        · intro kv hk
          obtain ⟨l, u1, u2⟩ := p3 kv hk
          obtain ⟨l', u3, u4⟩ := q3 kv hk
          rw [u1] at u3; cases u3
          exact ⟨l, u1, u2, u4⟩

/-- The code does not keep C75 for every scan: a run-up longer than 4 s is refused at configure, because the
first point of a profile cannot be split. -/
theorem long_run_up_refused (c : Cfg) (first steps : Nat) (h : (c.runUp first).1 > maxMoveTime) (cs : String) (old : St) :
    configure c cs old first steps = none := by
  unfold configure
  split
  · rfl
  · rename_i p hp
    have : calculate c first true
        { old with traj := Trajectory.start c.mapping, upTo := first + steps, tailAdded := false, pmac := p } = none := by
      unfold calculate
      have hr : (Trajectory.start c.mapping).run c.profilePoints
          [.add (c.runUp first).1 1 c.runUpProg first (c.runUp first).2] = none := by
        simp only [Traj.run, Traj.step]
        unfold addPoint
        rw [if_pos h, if_pos (show (Trajectory.start c.mapping).time = [] from rfl)]
      simp only [if_true, hr]
    rw [this]

/-- a scan of rows of two points, six points of the controller at a time -/
def exFrame (i : Nat) : Frame :=
  { half := 1, mid := fun _ => i, upper := fun _ => i + 1 / 2, joined := i % 2 == 0, gap := [(5, fun _ => 0)],
    nextLower := fun _ => i + 1 }

def exCfg : Cfg :=
  { profilePoints := 6, batchPoints := 2, everyPoint := true, tickS := 1, mapping := [("x", "a"), ("y", "b")]
    ops := everyOps exFrame, added := fun _ => true, runUp := fun _ => (1, fun _ => 0), runUpProg := 1
    tail := fun _ => (1, fun _ => 9), tailProg := 8 }

def exOld : St := { traj := Trajectory.start [], pmac := {} }

/-- it fits -/
theorem exFits (first steps : Nat) : Fits exCfg first steps := by
  refine ⟨by decide, by decide, by decide, by decide, by norm_num [exCfg, maxMoveTime], ?_, ?_, ?_⟩
  · intro i last
    have h1 : size 1 = 1 := by norm_num [size, maxMoveTime]
    have h5 : size 5 = 2 := by
      have : ⌊(5 : ℚ) / 4 + 1⌋ = 2 := by rw [Int.floor_eq_iff]; norm_num
      norm_num [size, maxMoveTime, nsplitOf, this]
      rfl
    simp only [exCfg, everyOps, h1]
    cases last with
    | true => simp [pairOps, npts, exFrame, h1]
    | false =>
      by_cases hj : (exFrame i).joined = true
      · simp only [Bool.false_eq_true, if_false, if_pos hj, List.append_nil]
        simp [pairOps, npts, exFrame, h1]
      · simp only [Bool.false_eq_true, if_false, if_neg hj, npts_append]
        simp [pairOps, gapOps, npts, exFrame, h1, h5]
  · intro i last h; cases h
  · intro i last o ho hc
    subst hc
    simp only [exCfg, everyOps] at ho
    split at ho
    · simp [pairOps] at ho
    · rcases List.mem_append.1 ho with ho | ho
      · simp [pairOps] at ho
      · split at ho
        · cases ho
        · simp [gapOps] at ho

/-- four steps from the tenth: the points sent and the steps reported -/
example : ((configure exCfg "CS" exOld 10 4).bind (fun s => run exCfg s [1, 4, 6, 7, 12])).map
    (fun s => (s.pmac.total, s.reports, s.pmac.buffer.map (·.prog), s.pmac.use)) =
    some (12, [10, 11, 12, 12, 14], [1, 4, 1, 4, 2, 0, 1, 4, 1, 4, 2, 8], ["a", "b"]) := by decide +kernel

/-- where its third step is -/
example (T : Traj) (hT : Whole exCfg 10 4 T) := through_scan_points 10 4 (exFits 10 4) exFrame rfl
  (by intro i _; simp [exFrame]) T hT 2 (by decide)

/-- it is delivered and its progress is true -/
example := delivered 10 4 (exFits 10 4) "CS" exOld (by decide)
example := progress_true 10 4 (exFits 10 4) exFrame rfl rfl "CS" exOld (by decide)

end Verif.Props.TrajSend
