import Verif.Props.TrajSend
/-!
C75 when updates overlap: an update of the number of points scanned can come while an earlier one is waiting for the controller
to take more points.
-/
namespace Verif.Props.TrajOverlap
open Verif Verif.TrajSend Verif.Spec.TrajSend Verif.Trajectory Verif.Proofs.TrajSend Verif.Props.TrajSend

variable {c : Cfg} {first L : Nat}

/-- the same with other reports -/
def withReports (r : List Nat) (s : St) : St := { s with reports := r }

theorem inv_reports {x : Proofs.TrajGlue.Chunk} {s : St} {t : TrajLoop.St} (h : Proofs.TrajSend.Inv c first L x s t) (r : List Nat) :
    Proofs.TrajSend.Inv c first L x (withReports r s) t :=
  ⟨⟨h.rel.pend, h.rel.total, h.rel.ends, h.rel.up, h.rel.up', h.rel.tail, h.rel.al, h.rel.map,
    h.rel.keys, h.rel.whole⟩, h.sent, h.fine, h.room⟩

theorem write_reports (r : List Nat) (s : St) : writePoints c none (withReports r s) = (writePoints c none s).map (withReports r) := by
  unfold writePoints withReports
  dsimp only
  cases writeProfile s.pmac _ <;> rfl

theorem write_lookup {s s' : St} (h : writePoints c none s = some s') :
    s'.traj.lookup = s.traj.lookup ∧ s'.reports = s.reports := by
  unfold writePoints at h
  split at h
  · cases h
  · cases h; exact ⟨rfl, rfl⟩

/-- what the updates `ns` report with a lookup -/
def told (c : Cfg) (lookup ns : List Nat) : List Nat :=
  if c.everyPoint then (ns.filter (0 < ·)).map (fun m => lookup.getD (m - 1) 0) else []

theorem told_cons (lookup ns : List Nat) (n : Nat) : told c lookup (n :: ns) = told c lookup [n] ++ told c lookup ns := by
  unfold told
  split
  · by_cases h : 0 < n <;> simp [h]
  · rfl

theorem told_append (lookup a b : List Nat) : told c lookup (a ++ b) = told c lookup a ++ told c lookup b := by
  unfold told
  split
  · simp
  · rfl

theorem report_told (s : St) (n : Nat) (h0 : 0 < n) (h : n ≤ s.traj.lookup.length) :
    report c n s = some (withReports (s.reports ++ told c s.traj.lookup [n]) s) := by
  unfold report told
  split
  · rw [List.getElem?_eq_getElem (show n - 1 < s.traj.lookup.length by omega)]
    simp only [List.filter_cons, h0, decide_true, if_true, List.filter_nil, List.map_cons, List.map_nil, withReports]
    rw [List.getD_eq_getElem?_getD, List.getElem?_eq_getElem (show n - 1 < s.traj.lookup.length by omega)]
    rfl
  · rw [List.append_nil]; rfl

theorem reportAll_told : ∀ (ns : List Nat) (s : St), (∀ m ∈ ns, m ≤ s.traj.lookup.length) →
    reportAll c ns s = some (withReports (s.reports ++ told c s.traj.lookup ns) s) := by
  intro ns
  induction ns with
  | nil =>
    intro s _
    have : told c s.traj.lookup [] = [] := by unfold told; split <;> rfl
    rw [this, List.append_nil]; rfl
  | cons n ns ih =>
    intro s h
    unfold reportAll
    by_cases h0 : n = 0
    · rw [if_pos h0, Option.bind_some, ih s (fun m hm => h m (List.mem_cons_of_mem _ hm)), told_cons]
      have : told c s.traj.lookup [n] = [] := by unfold told; split <;> simp [h0]
      rw [this]; rfl
    · rw [if_neg h0, report_told s n (by omega) (h n List.mem_cons_self), Option.bind_some,
        ih (withReports (s.reports ++ told c s.traj.lookup [n]) s) (fun m hm => h m (List.mem_cons_of_mem _ hm))]
      have := told_cons (c := c) s.traj.lookup ns n
      simp only [withReports, List.append_assoc, this]

/-- a writing with updates that come while it waits -/
theorem load_with (hf : Fits c first (L - first)) {x : Proofs.TrajGlue.Chunk} {s : St} {t : TrajLoop.St} (h : Proofs.TrajSend.Inv c first L x s t)
    (hne : t.endIndex < L ∨ t.pending ≠ 0) :
    ∃ s1 q x' t', calculate c s.endIndex false s = some s1 ∧ Proofs.TrajSend.Inv c first L x' q t' ∧ s.pmac.total < q.pmac.total ∧
      (t.endIndex = L → q.traj.time = []) ∧
      ∀ ns, (∀ m ∈ ns, m ≤ q.pmac.total) → (reportAll c ns s1).bind (writePoints c none) =
        some (withReports (s.reports ++ told c q.traj.lookup ns) q) := by
  obtain ⟨s1, q, x', t', a1, a2, a3, a4, a5, a6⟩ := load_inv hf h hne
  obtain ⟨w1, w2⟩ := write_lookup a2
  refine ⟨s1, q, x', t', a1, a3, a4, a6, fun ns hns => ?_⟩
  have hlk := a3.lookup hf
  rw [reportAll_told ns s1 (fun m hm => by have := hns m hm; rw [← w1]; omega), Option.bind_some, write_reports, a2,
    Option.map_some, ← w2, a5, ← w1]

/-- the first writing -/
theorem supply_with (hf : Fits c first (L - first)) {x : Proofs.TrajGlue.Chunk} {s : St} {t : TrajLoop.St} (h : Proofs.TrajSend.Inv c first L x s t) (n : Nat) :
    ∃ q x' t', Proofs.TrajSend.Inv c first L x' q t' ∧ s.pmac.total ≤ q.pmac.total ∧
      (s.pmac.total ≤ n → s.endIndex < L → s.pmac.total < q.pmac.total) ∧ (s.endIndex = L → q.pmac = s.pmac ∧ q.traj = s.traj) ∧
      (q.pmac.total = s.pmac.total → q = s) ∧
      ∃ did : Bool, (did = false → q.reports = s.reports ∧ q.pmac.total = s.pmac.total) ∧
        (did = true → s.pmac.total < q.pmac.total) ∧
      ∀ ns, (∀ m ∈ ns, m ≤ q.pmac.total) → supplyWith c ns n s =
        some (withReports (s.reports ++ told c q.traj.lookup (if did then ns else [])) q) := by
  unfold supplyWith
  by_cases hc : s.endIndex < s.upTo ∧ s.traj.lookup.length < n + c.profilePoints
  · have hlt : t.endIndex < L := by rw [h.rel.ends, ← h.rel.up']; exact hc.1
    obtain ⟨s1, q, x', t', a1, a2, a3, a4, a5⟩ := load_with hf h (.inl hlt)
    refine ⟨q, x', t', a2, by omega, fun _ _ => a3, fun hh => ?_, fun hh => by omega, true, fun hh => by simp at hh, fun _ => a3,
      fun ns hns => ?_⟩
    · rw [← h.rel.ends] at hh; omega
    · rw [if_pos hc, a1]
      exact a5 ns hns
  · have hmore : s.pmac.total ≤ n → s.endIndex < L → s.pmac.total < s.pmac.total := by
      intro hh1 hh2
      refine absurd ⟨by rw [h.rel.up']; exact hh2, ?_⟩ hc
      have hlt : t.pending < c.profilePoints := h.fine.small
      have := h.rel.pend
      have := h.lookup hf
      omega
    refine ⟨s, x, t, h, Nat.le_refl _, hmore, fun _ => ⟨rfl, rfl⟩, fun _ => rfl, false, fun _ => ⟨rfl, rfl⟩,
      fun hh => by simp at hh, fun ns hns => ?_⟩
    · rw [if_neg hc]
      have : told c s.traj.lookup (if (false : Bool) = true then ns else []) = [] := by unfold told; split <;> rfl
      rw [this, List.append_nil]; rfl

/-- the second writing -/
theorem leftover_with (hf : Fits c first (L - first)) {x : Proofs.TrajGlue.Chunk} {s : St} {t : TrajLoop.St} (h : Proofs.TrajSend.Inv c first L x s t) :
    ∃ q x' t', Proofs.TrajSend.Inv c first L x' q t' ∧ s.pmac.total ≤ q.pmac.total ∧
      (s.endIndex = L → s.traj.time ≠ [] → s.pmac.total < q.pmac.total) ∧
      ∃ did : Bool, (did = true → s.pmac.total < q.pmac.total) ∧
      ∀ ns, (∀ m ∈ ns, m ≤ q.pmac.total) → leftoverWith c ns s =
        some (withReports (s.reports ++ told c q.traj.lookup (if did then ns else [])) q) := by
  unfold leftoverWith
  by_cases hc : s.endIndex = s.upTo ∧ s.traj.time ≠ []
  · have hpend : t.pending ≠ 0 := by
      rw [h.rel.pend]; intro hh; exact hc.2 (List.length_eq_zero_iff.1 hh)
    obtain ⟨s1, q, x', t', a1, a2, a3, a4, a5⟩ := load_with hf h (.inr hpend)
    have hemp := a4 (by rw [h.rel.ends, ← h.rel.up']; exact hc.1)
    refine ⟨q, x', t', a2, by omega, fun _ _ => a3, true, fun _ => a3, fun ns hns => ?_⟩
    rw [if_pos hc, a1]
    dsimp only
    rw [a5 ns hns]
    dsimp only
    rw [if_neg (fun hh => hh.2 hemp)]
    rfl
  · refine ⟨s, x, t, h, Nat.le_refl _, fun hh1 hh2 => absurd ⟨by rw [h.rel.up']; exact hh1, hh2⟩ hc, false,
      fun hh => by simp at hh, fun ns hns => ?_⟩
    · rw [if_neg hc]
      have : told c s.traj.lookup (if (false : Bool) = true then ns else []) = [] := by unfold told; split <;> rfl
      rw [this, List.append_nil]; rfl

/-- a part of the lookup tells the same -/
theorem told_prefix (lookup ext ns : List Nat) (h : ∀ m ∈ ns, m ≤ lookup.length) : told c (lookup ++ ext) ns = told c lookup ns := by
  unfold told
  split
  · apply List.map_congr_left
    intro m hm
    obtain ⟨hm1, hm2⟩ := List.mem_filter.1 hm
    have := h m hm1
    have : 0 < m := by simpa using hm2
    rw [List.getD_eq_getElem?_getD, List.getD_eq_getElem?_getD, List.getElem?_append_left (by omega)]
  · rfl

theorem whole_told (hf : Fits c first (L - first)) {x : Proofs.TrajGlue.Chunk} {s : St} {t : TrajLoop.St}
    (h : Proofs.TrajSend.Inv c first L x s t) (T : Traj) (hT : Whole c first (L - first) T) (ns : List Nat)
    (hns : ∀ m ∈ ns, m ≤ s.pmac.total) : told c s.traj.lookup ns = told c T.lookup ns ∧ ∀ m ∈ ns, m ≤ T.lookup.length := by
  obtain ⟨T', tr, e1, e2, e3, e4, e5, ext, e6⟩ := whole_split hf h
  have : T' = T := by unfold Whole at hT e1; rw [e1] at hT; cases hT; rfl
  subst this
  have hlk := h.lookup hf
  rw [e6]
  refine ⟨(told_prefix _ _ _ (fun m hm => ?_)).symm, fun m hm => ?_⟩
  · have := hns m hm; omega
  · have := hns m hm; rw [List.length_append]; omega

/-- an update with others that come while it writes -/
theorem update_with (hf : Fits c first (L - first)) {x : Proofs.TrajGlue.Chunk} {s : St} {t : TrajLoop.St}
    (h : Proofs.TrajSend.Inv c first L x s t) (T : Traj) (hT : Whole c first (L - first) T) (n : Nat) (a b : List Nat)
    (h0 : 0 < n) (hn : NotAhead c s n a b) :
    ∃ s' x' t' a' b', updateWith c s n a b = some s' ∧ Proofs.TrajSend.Inv c first L x' s' t' ∧ s.pmac.total ≤ s'.pmac.total ∧
      (a' = a ∨ a' = []) ∧ (b' = b ∨ b' = []) ∧ (s'.pmac.total = s.pmac.total → a' = [] ∧ b' = []) ∧
      (s.pmac.total ≤ n → s.endIndex < L ∨ s.traj.time ≠ [] → s.pmac.total < s'.pmac.total) ∧
      s'.reports = s.reports ++ told c T.lookup (n :: (a' ++ b')) ∧ ∀ m ∈ n :: (a' ++ b'), m ≤ T.lookup.length := by
  obtain ⟨hn1, hn2, hn3⟩ := hn
  have hlk := h.lookup hf
  have hr := report_told (c := c) s n h0 (by omega)
  have hone := whole_told hf h T hT [n] (by intro m hm; rw [List.mem_singleton.1 hm]; exact hn1)
  obtain ⟨s1, hs1⟩ : ∃ s1, s1 = withReports (s.reports ++ told c s.traj.lookup [n]) s := ⟨_, rfl⟩
  rw [← hs1] at hr
  have h1 : Proofs.TrajSend.Inv c first L x s1 t := by rw [hs1]; exact inv_reports h _
  obtain ⟨q, x1, t1, q1, q2, q3, q4, q5, did, q6, q7, q8⟩ := supply_with hf h1 n
  have ha : ∀ m ∈ a, m ≤ q.pmac.total := by
    intro m hm
    have := hn2 _ (by rw [hr, Option.bind_some]; exact q8 [] (by intro _ hh; cases hh)) m hm
    exact this
  have hsup := q8 a ha
  obtain ⟨s2, hs2⟩ : ∃ s2, s2 = withReports (s1.reports ++ told c q.traj.lookup (if did then a else [])) q := ⟨_, rfl⟩
  rw [← hs2] at hsup
  have h2 : Proofs.TrajSend.Inv c first L x1 s2 t1 := by rw [hs2]; exact inv_reports q1 _
  obtain ⟨p, x2, t2, p1, p2, p3, did2, p4, p5⟩ := leftover_with hf h2
  have hun : ∀ ns, updateWith c s n a ns = leftoverWith c ns s2 := by
    intro ns
    unfold updateWith
    rw [if_neg (by omega), hr, Option.bind_some, hsup, Option.bind_some]
  have hb : ∀ m ∈ b, m ≤ p.pmac.total := by
    intro m hm
    have := hn3 _ ((hun []).trans (p5 [] (by intro _ hh; cases hh))) m hm
    exact this
  have hleft := p5 b hb
  have htot1 : s1.pmac = s.pmac := by rw [hs1]; rfl
  have htot2 : s2.pmac = q.pmac := by rw [hs2]; rfl
  have ha' : ∀ m ∈ (if did then a else []), m ≤ q.pmac.total := by
    intro m hm; split at hm
    · exact ha m hm
    · cases hm
  have hb' : ∀ m ∈ (if did2 then b else []), m ≤ p.pmac.total := by
    intro m hm; split at hm
    · exact hb m hm
    · cases hm
  obtain ⟨ta1, ta2⟩ := whole_told hf q1 T hT _ ha'
  obtain ⟨tb1, tb2⟩ := whole_told hf p1 T hT _ hb'
  refine ⟨_, x2, t2, (if did then a else []), (if did2 then b else []), by rw [hun]; exact hleft, inv_reports p1 _, ?_, ?_, ?_, ?_, ?_,
    ?_, ?_⟩
  · show s.pmac.total ≤ p.pmac.total
    rw [htot1] at q2; rw [htot2] at p2; omega
  · cases did <;> simp
  · cases did2 <;> simp
  · intro hh
    have hh : p.pmac.total = s.pmac.total := hh
    rw [htot1] at q2 q7; rw [htot2] at p2 p4
    constructor
    · cases did with
      | false => rfl
      | true => have := q7 rfl; omega
    · cases did2 with
      | false => rfl
      | true => have := p4 rfl; omega
  · intro hle hor
    show s.pmac.total < p.pmac.total
    rw [htot1] at q2 q3; rw [htot2] at p2 p3
    have he1 : s1.endIndex = s.endIndex := by rw [hs1]; rfl
    have ht1 : s1.traj = s.traj := by rw [hs1]; rfl
    have ht2 : s2.traj = q.traj := by rw [hs2]; rfl
    have he2 : s2.endIndex = q.endIndex := by rw [hs2]; rfl
    by_cases he : s.endIndex < L
    · have := q3 hle (by rw [he1]; exact he); omega
    · have hend : s1.endIndex = L := by
        have := h1.fine.good.hi; have := h1.rel.ends; omega
      by_cases hq : q.pmac.total = s1.pmac.total
      · have hqs := q5 hq
        rw [hqs] at p3 ht2 he2
        have := p3 (by rw [he2]; exact hend) (by rw [ht2, ht1]; rcases hor with hh | hh; exact absurd hh he; exact hh)
        rw [htot1] at this
        exact this
      · rw [htot1] at hq; omega
  · show s2.reports ++ _ = _
    rw [tb1, hs2]
    show (s1.reports ++ _) ++ _ = _
    rw [ta1, hs1]
    show ((s.reports ++ _) ++ _) ++ _ = _
    rw [hone.1, told_cons (n := n) (ns := (if did = true then a else []) ++ if did2 = true then b else []), told_append]
    simp only [List.append_assoc]
  · intro m hm
    rcases List.mem_cons.1 hm with hm | hm
    · exact hone.2 m (by rw [hm]; exact List.mem_singleton.2 rfl)
    · rcases List.mem_append.1 hm with hm | hm
      · exact ta2 m hm
      · exact tb2 m hm

theorem reached_with_inv (hf : Fits c first (L - first)) {s0 s : St} (h0 : ∃ x t, Proofs.TrajSend.Inv c first L x s0 t)
    (h : ReachedWith c s0 s) : (∃ x t, Proofs.TrajSend.Inv c first L x s t) ∧ s0.pmac.total ≤ s.pmac.total := by
  induction h with
  | start => exact ⟨h0, Nat.le_refl _⟩
  | update n a b _ hn hu ih =>
    obtain ⟨⟨x, t, hi⟩, hle⟩ := ih
    by_cases hz : n = 0
    · unfold updateWith at hu
      rw [if_pos hz] at hu; cases hu
      exact ⟨⟨x, t, hi⟩, hle⟩
    obtain ⟨T, tr, hT, _⟩ := whole_split hf hi
    obtain ⟨s', x', t', a', b', u1, u2, u3, _⟩ := update_with hf hi T hT n a b (by omega) hn
    rw [u1] at hu; cases hu
    exact ⟨⟨x', t', u2⟩, by omega⟩

/-- **C75**: also when updates come while an earlier one waits for the controller to take more points, the controller always holds the
first points of the one profile, no update raises, and the controller is never left waiting. -/
theorem overlap_delivered (first steps : Nat) (hf : Fits c first steps) (cs : String) (old : St) (hv : 2 ≤ old.pmac.version)
    (T : Traj) (hT : Whole c first steps T) (s0 s : St) (hc : configure c cs old first steps = some s0)
    (hs : ReachedWith c s0 s) :
    Holds c T s.pmac ∧ ∀ n a b, NotAhead c s n a b → ∃ s', updateWith c s n a b = some s' ∧ s.pmac.total ≤ s'.pmac.total ∧
      (n = s.pmac.total → s.pmac.total < T.time.length → s.pmac.total < s'.pmac.total) := by
  obtain ⟨s1, h1, h2, h3, _⟩ := configured hf cs old hv
  rw [h1] at hc; cases hc
  obtain ⟨⟨x, t, hi⟩, hle⟩ := reached_with_inv (fits_sub hf) h2 hs
  have hT' := hT
  rw [← Nat.add_sub_cancel_left (n := first) (m := steps)] at hT'
  refine ⟨holds (fits_sub hf) hi T hT', fun n a b hn => ?_⟩
  by_cases hz : n = 0
  · unfold updateWith
    rw [if_pos hz]
    exact ⟨s, rfl, Nat.le_refl _, fun hh => by omega⟩
  obtain ⟨s', x', t', a', b', u1, u2, u3, u4, u5, u6, u7, u8, u9⟩ := update_with (fits_sub hf) hi T hT' n a b (by omega) hn
  refine ⟨s', u1, u3, fun hnt hlt => u7 (by omega) ?_⟩
  refine Classical.byContradiction fun hnn => ?_
  have hend : s.endIndex = first + steps := by
    have := hi.fine.good.hi; have := hi.rel.ends
    by_contra hh
    exact hnn (.inl (by omega))
  have hemp : s.traj.time = [] := by
    by_contra hh
    exact hnn (.inr hh)
  obtain ⟨T', tr, e1, e2, e3, e4, e5, _⟩ := whole_split (fits_sub hf) hi
  have : T' = T := by
    unfold Whole at hT' e1; rw [e1] at hT'; cases hT'; rfl
  subst this
  rw [e2, e5 hend hemp] at hlt
  simp [Proofs.TrajGlue.glue, hemp, hi.sent.total] at hlt

/-- **C75**: also then each update with some points scanned reports exactly the number of scan steps whose upper bound is among these
points, in the order in which they come; those that come while another one waits are `a` and `b`. -/
theorem overlap_progress (first steps : Nat) (hf : Fits c first steps) (frame : Nat → Frame) (ho : c.ops = everyOps frame)
    (he : c.everyPoint = true) (cs : String) (old : St) (hv : 2 ≤ old.pmac.version) (s0 s : St)
    (hc : configure c cs old first steps = some s0) (hs : ReachedWith c s0 s) (n : Nat) (a b : List Nat) (h0 : 0 < n)
    (hn : NotAhead c s n a b) :
    ∃ s' a' b', updateWith c s n a b = some s' ∧ (a' = a ∨ a' = []) ∧ (b' = b ∨ b' = []) ∧
      (s'.pmac.total = s.pmac.total → a' = [] ∧ b' = []) ∧
      s'.reports = s.reports ++ ((n :: (a' ++ b')).filter (0 < ·)).map (completeAt c frame first steps) := by
  obtain ⟨s1, h1, h2, h3, _⟩ := configured hf cs old hv
  rw [h1] at hc; cases hc
  obtain ⟨⟨x, t, hi⟩, hle⟩ := reached_with_inv (fits_sub hf) h2 hs
  obtain ⟨T, tr, hT, _⟩ := whole_split (fits_sub hf) hi
  obtain ⟨s', x', t', a', b', u1, u2, u3, u4, u5, u6, u7, u8, u9⟩ := update_with (fits_sub hf) hi T hT n a b h0 hn
  refine ⟨s', a', b', u1, u4, u5, u6, ?_⟩
  rw [u8]
  congr 1
  unfold told
  rw [if_pos he]
  apply List.map_congr_left
  intro m hm
  obtain ⟨hm1, hm2⟩ := List.mem_filter.1 hm
  rw [Nat.add_sub_cancel_left] at hT
  have := whole_lookup first steps hf frame ho T hT m (by simpa using hm2) (u9 m hm1)
  rw [List.getD_eq_getElem?_getD, this]
  rfl

/-- **C75**: when not every point is triggered nothing is ever reported, also when updates overlap. -/
theorem silent_otherwise (first steps : Nat) (hf : Fits c first steps) (he : c.everyPoint = false) (cs : String) (old : St)
    (hv : 2 ≤ old.pmac.version) (s0 s : St) (hc : configure c cs old first steps = some s0) (hs : ReachedWith c s0 s) :
    s.reports = old.reports := by
  obtain ⟨s1, h1, h2, h3, h4⟩ := configured hf cs old hv
  rw [h1] at hc; cases hc
  induction hs with
  | start => exact h4
  | update n a b hr hn hu ih =>
    by_cases hz : n = 0
    · unfold updateWith at hu
      rw [if_pos hz] at hu; cases hu
      exact ih
    obtain ⟨⟨x, t, hi⟩, hle⟩ := reached_with_inv (fits_sub hf) h2 hr
    obtain ⟨T, tr, hT, _⟩ := whole_split (fits_sub hf) hi
    obtain ⟨s', x', t', a', b', u1, u2, u3, u4, u5, u6, u7, u8, u9⟩ := update_with (fits_sub hf) hi T hT n a b (by omega) hn
    rw [u1] at hu; cases hu
    rw [u8, ih]
    unfold told
    rw [he]
    exact List.append_nil _

/-- updates come while earlier ones wait for the controller to take more points -/
example : ((configure exCfg "CS" exOld 10 5).bind (fun s => (updateWith exCfg s 4 [6, 0] []).bind (fun s =>
    (updateWith exCfg s 10 [12] []).bind (fun s => updateWith exCfg s 16 [] [])))).map
    (fun s => (s.pmac.total, s.reports)) = some (16, [11, 12, 13, 14, 15]) := by decide +kernel
/-- one more while what is left over is sent -/
example : ((configure exCfg "CS" exOld 11 4).bind (fun s => updateWith exCfg s 4 [6, 0] [5])).map
    (fun s => (s.pmac.total, s.reports)) = some (14, [12, 12, 12]) := by decide +kernel
example := overlap_delivered 10 4 (exFits 10 4) "CS" exOld (by decide)
example := overlap_progress 10 4 (exFits 10 4) exFrame rfl rfl "CS" exOld (by decide)

end Verif.Props.TrajOverlap
