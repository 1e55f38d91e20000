import Verif.Proofs.TrajSend
/-!
The invariant of the part between two updates.
-/
set_option linter.unusedVariables false
namespace Verif.Proofs.TrajSend
open Verif.Trajectory Verif.Props.Trajectory Verif.TrajSend Verif.Spec.TrajSend Verif.Proofs.TrajGlue

variable {c : Cfg} {first L : Nat}

theorem small (hf : Fits c first (L - first)) (hl : first ≤ L) : Props.TrajLoop.Small (absCfg c first L) := by
  have hL : first + (L - first) = L := by omega
  have hr : ∀ i last, npts (c.ops i last) + size (c.tail L).1 < c.profilePoints := by
    intro i last; have := hf.room i last; rw [hL] at this; exact this
  refine ⟨fun i => ?_, fun i h => hf.added i _ h, ⟨Nat.one_pos, ?_⟩, ?_⟩
  · have := hr i (decide (i + 1 = L)); show npts _ < c.profilePoints; omega
  · have := hr 0 true; have := size_pos (c.tail L).1; show 1 ≤ c.profilePoints; omega
  · have := hr 0 true; show size (c.tail L).1 < c.profilePoints; omega

/-! how full the arrays are -/

theorem batchLoop_bound (a : TrajLoop.Cfg) (hs : Props.TrajLoop.Small a) (K : Nat) (hK : ∀ i, a.profilePoints + a.grow i ≤ K)
    (n : Nat) : ∀ (i : Nat) (s : TrajLoop.St), s.pending ≤ a.profilePoints →
    (TrajLoop.batchLoop a n i s).1.pending ≤ K ∧
    ((TrajLoop.batchLoop a n i s).2.2 = false → (TrajLoop.batchLoop a n i s).1.pending ≤ a.profilePoints) := by
  have hp : a.profilePoints ≤ K := by have := hK 0; omega
  induction n with
  | zero => intro i s h; simp only [TrajLoop.batchLoop]; exact ⟨by omega, fun _ => h⟩
  | succ n ih =>
    intro i s h
    simp only [TrajLoop.batchLoop]
    cases he : TrajLoop.exceeds a (TrajLoop.visit a s i) i with
    | true =>
      simp only [if_true]
      refine ⟨?_, by simp⟩
      have := hK i
      show s.pending + a.grow i ≤ _
      omega
    | false =>
      simp only [Bool.false_eq_true, if_false]
      exact ih (i + 1) _ (Props.TrajLoop.exceeds_false hs h he)

theorem create_bound (a : TrajLoop.Cfg) (hs : Props.TrajLoop.Small a) (K : Nat) (hK : ∀ i, a.profilePoints + a.grow i ≤ K)
    (k : Nat) : ∀ (start : Nat) (s : TrajLoop.St), s.upTo - start = k →
    s.pending ≤ a.profilePoints → ∀ s' b, TrajLoop.create a start s = some (s', b) → s'.pending ≤ K := by
  have hp : a.profilePoints ≤ K := by have := hK 0; omega
  induction k using Nat.strongRecOn with
  | ind k ih =>
    intro start s hk h s' b hcr
    obtain ⟨hb1, hb2⟩ := batchLoop_bound a hs K hK (TrajLoop.numPoints a start s.upTo - 1) start s h
    change (TrajLoop.batch a start s).1.pending ≤ _ at hb1
    change (TrajLoop.batch a start s).2.2 = false → (TrajLoop.batch a start s).1.pending ≤ _ at hb2
    rw [TrajLoop.create] at hcr
    split at hcr
    · cases hcr; omega
    · split at hcr
      · cases hcr; exact hb1
      · rename_i hr
        have hb3 := hb2 (by cases hx : (TrajLoop.batch a start s).2.2 with
          | true => exact absurd hx hr
          | false => rfl)
        split at hcr
        · dsimp only at hcr
          split at hcr
          · cases hcr
            have := hK (TrajLoop.batch a start s).2.1
            show (TrajLoop.batch a start s).1.pending + a.grow _ ≤ _
            omega
          · rename_i he
            split at hcr
            · cases hcr
              have := Props.TrajLoop.exceeds_false hs hb3 (by simpa using he)
              omega
            · cases hcr
        · split at hcr
          · cases hcr; exact hb1
          · split at hcr
            · rename_i hd
              exact ih _ (by omega) _ _ rfl hb3 s' b hcr
            · cases hcr

/-- room for the tail-off, and at the end for all that is left -/
theorem calculate_bound (a : TrajLoop.Cfg) (hs : Props.TrajLoop.Small a) (hR : ∀ i, a.grow i + a.tailOff ≤ a.profilePoints)
    (start : Nat) (s s' : TrajLoop.St) (h : s.pending ≤ a.profilePoints) (hc : TrajLoop.calculate a start s = some s') :
    (s'.tailAdded = false → s'.pending - a.profilePoints + a.tailOff ≤ a.profilePoints) ∧
    (start = s.upTo → (s.tailAdded = false → s.pending + a.tailOff ≤ a.profilePoints) → s'.pending ≤ a.profilePoints) := by
  unfold TrajLoop.calculate at hc
  cases hcr : TrajLoop.create a start s with
  | none => rw [hcr] at hc; cases hc
  | some r =>
    obtain ⟨s1, b⟩ := r
    rw [hcr] at hc
    dsimp only at hc
    have h0 := hR 0
    have hb := create_bound a hs (2 * a.profilePoints - a.tailOff) (fun i => by have := hR i; omega) _ start s rfl h s1 b hcr
    constructor
    · intro ht
      split at hc
      · cases hc; cases ht
      · cases hc; omega
    · intro hst hroom
      have : s1 = s ∧ b = true := by
        rw [TrajLoop.create, if_pos hst] at hcr; cases hcr; exact ⟨rfl, rfl⟩
      obtain ⟨rfl, rfl⟩ := this
      split at hc
      · rename_i hh
        cases hc
        exact hroom hh.2
      · cases hc; exact h

/-! the invariant -/

structure Inv (c : Cfg) (first L : Nat) (x : Chunk) (s : St) (t : TrajLoop.St) : Prop where
  rel : Rel c first L x s t
  sent : Sent c x s.pmac
  fine : Props.TrajLoop.Fine (absCfg c first L) first L t
  room : t.tailAdded = false → t.pending + size (c.tail L).1 ≤ c.profilePoints

theorem Inv.first_le {x : Chunk} {s : St} {t : TrajLoop.St} (h : Inv c first L x s t) : first ≤ L :=
  Nat.le_trans h.fine.good.lo h.fine.good.hi

/-- once the points sent are put back in front, the profile is aligned -/
theorem glue_aligned (hf : Fits c first (L - first)) {x : Chunk} {s : St} {t : TrajLoop.St} (hr : Rel c first L x s t)
    (hn : NoWrite (history c first t)) : s.traj.lookup.length = x.time.length + s.traj.time.length := by
  have := (run_spec 0 {} (history c first t) hn _ _ (start_aligned c.mapping) (mapOk hf) hr.whole).1.lookup
  simp only [glue, List.length_nil, List.length_append, Nat.zero_add] at this
  exact this

theorem noWrite_history (hf : Fits c first (L - first)) (t : TrajLoop.St) : NoWrite (history c first t) := by
  intro o ho
  unfold history at ho
  rcases List.mem_append.1 ho with ho | ho
  · rcases List.mem_cons.1 ho with ho | ho
    · subst ho; unfold runUpOp; intro h; cases h
    · obtain ⟨i, _, hi⟩ := List.mem_flatMap.1 ho
      exact hf.noWrite i _ o hi
  · split at ho
    · cases ho
    · rw [List.mem_singleton.1 ho]; unfold tailOp; intro h; cases h

theorem Inv.lookup (hf : Fits c first (L - first)) {x : Chunk} {s : St} {t : TrajLoop.St} (h : Inv c first L x s t) :
    s.traj.lookup.length = s.pmac.total + s.traj.time.length := by
  rw [glue_aligned hf h.rel (noWrite_history hf t), h.sent.total]

theorem tail_room (hf : Fits c first (L - first)) (hl : first ≤ L) :
    ∀ i, (absCfg c first L).grow i + (absCfg c first L).tailOff ≤ (absCfg c first L).profilePoints := by
  intro i
  have hL : first + (L - first) = L := by omega
  have := hf.room i (decide (i + 1 = L))
  rw [hL] at this
  show npts _ + size _ ≤ c.profilePoints
  omega

/-- more is computed and sent -/
theorem load_inv (hf : Fits c first (L - first)) {x : Chunk} {s : St} {t : TrajLoop.St} (h : Inv c first L x s t)
    (hne : t.endIndex < L ∨ t.pending ≠ 0) :
    ∃ s1 s' x' t', calculate c s.endIndex false s = some s1 ∧ writePoints c none s1 = some s' ∧ Inv c first L x' s' t' ∧
      s.pmac.total < s'.pmac.total ∧ s'.reports = s.reports ∧ (t.endIndex = L → s'.traj.time = []) := by
  have hg := h.fine.good
  have hl := h.first_le
  obtain ⟨t1, h1, h2, _⟩ := Props.TrajLoop.calculate_fine (absCfg c first L) (small hf hl) hf.batch first L t h.fine hne
  have hpos : 0 < t.pending := by
    rcases hne with hh | hh
    · exact hg.pending hh
    · omega
  obtain ⟨s1, e1, e2, e3, e4⟩ := calculate_sim hf h.rel t.endIndex hg.hi (fun _ => hpos) hg.tails hg.tailEnd h1
  obtain ⟨b1, b2⟩ := calculate_bound (absCfg c first L) (small hf hl) (tail_room hf hl) t.endIndex t t1
    (Nat.le_of_lt h.fine.small) h1
  have hpos1 : 0 < t1.pending := by
    unfold TrajLoop.calculate at h1
    obtain ⟨t2, b, g, _, _, _, g4, _⟩ := Props.TrajLoop.create_spec (absCfg c first L) hf.batch _ t.endIndex t
      (by rw [hg.upTo]; exact hg.hi) rfl
    rw [g] at h1
    dsimp only at h1
    split at h1
    · cases h1; show 0 < t2.pending + _; omega
    · cases h1; omega
  obtain ⟨s', x', w1, w2, w3, w4, w5⟩ := write_sim hf e2 none (by rw [e3]; exact h.sent.version) (by
    show Sent c x s1.pmac; rw [e3]; exact h.sent)
  have hPP : 0 < c.profilePoints := by
    have := (small hf hl).runUp; have : 1 ≤ c.profilePoints := this.2; omega
  refine ⟨s1, s', x', _, ?_, w1, ⟨w2, w3, h2, ?_⟩, ?_, ?_, ?_⟩
  · rw [← h.rel.ends]; exact e1
  · intro ht
    exact b1 ht
  · rw [w5, h.sent.total]
    have : 0 < min c.profilePoints t1.pending := by rw [Nat.lt_min]; exact ⟨hPP, hpos1⟩
    omega
  · rw [w4, e4]
  · intro he
    have hb := b2 (by rw [hg.upTo]; exact he) h.room
    have hb : t1.pending ≤ c.profilePoints := hb
    have := w2.pend
    have h0 : t1.pending - c.profilePoints = s'.traj.time.length := this
    exact List.length_eq_zero_iff.1 (by omega)

/-- an update -/
theorem update_inv (hf : Fits c first (L - first)) {x : Chunk} {s : St} {t : TrajLoop.St} (h : Inv c first L x s t)
    (n : Nat) (hn : n ≤ s.pmac.total) :
    ∃ s' x' t', updateStep c s n = some s' ∧ Inv c first L x' s' t' ∧ s.pmac.total ≤ s'.pmac.total ∧
      (0 < n → c.everyPoint = true → ∃ r, s.traj.lookup[n - 1]? = some r ∧ s'.reports = s.reports ++ [r]) ∧
      (0 < n → s.pmac.total ≤ n → s.endIndex < L ∨ s.traj.time ≠ [] → s.pmac.total < s'.pmac.total) := by
  have hlk := h.lookup hf
  unfold updateStep
  by_cases h0 : n = 0
  · rw [if_pos h0]
    exact ⟨s, x, t, rfl, h, Nat.le_refl _, fun hh => by omega, fun hh => by omega⟩
  rw [if_neg h0]
  -- the report
  have hrep : ∃ s1, report c n s = some s1 ∧ Inv c first L x s1 t ∧ s1.pmac = s.pmac ∧ s1.traj = s.traj ∧
      s1.endIndex = s.endIndex ∧
      (c.everyPoint = true → ∃ r, s.traj.lookup[n - 1]? = some r ∧ s1.reports = s.reports ++ [r]) := by
    unfold report
    by_cases he : c.everyPoint = true
    · rw [if_pos he]
      have hlt : n - 1 < s.traj.lookup.length := by omega
      rw [List.getElem?_eq_getElem hlt]
      exact ⟨_, rfl, ⟨⟨h.rel.pend, h.rel.total, h.rel.ends, h.rel.up, h.rel.up', h.rel.tail, h.rel.al, h.rel.map,
        h.rel.keys, h.rel.whole⟩, h.sent, h.fine, h.room⟩, rfl, rfl, rfl, fun _ => ⟨_, rfl, rfl⟩⟩
    · rw [if_neg he]
      exact ⟨s, rfl, h, rfl, rfl, rfl, fun hh => absurd hh he⟩
  obtain ⟨s1, r1, r2, r3, r4, r5, r6⟩ := hrep
  rw [r1, Option.bind_some]
  -- the supply
  have hsup : ∃ s2 x2 t2, supply c n s1 = some s2 ∧ Inv c first L x2 s2 t2 ∧ s1.pmac.total ≤ s2.pmac.total ∧
      s2.reports = s1.reports ∧ (s.pmac.total ≤ n → s1.endIndex < L → s1.pmac.total < s2.pmac.total) ∧
      (s1.endIndex = L → s2 = s1) := by
    unfold supply
    split
    · rename_i hc
      have hlt : t.endIndex < L := by rw [r2.rel.ends, ← r2.rel.up']; exact hc.1
      obtain ⟨s2, s3, x3, t3, a1, a2, a3, a4, a5, a6⟩ := load_inv hf r2 (.inl hlt)
      rw [a1]
      dsimp only
      refine ⟨s3, x3, t3, a2, a3, by omega, a5, fun _ _ => a4, fun hh => ?_⟩
      rw [← r2.rel.ends] at hh; omega
    · rename_i hc
      refine ⟨s1, x, t, rfl, r2, Nat.le_refl _, rfl, fun hh1 hh2 => absurd ⟨?_, ?_⟩ hc, fun _ => rfl⟩
      · rw [r2.rel.up']; exact hh2
      · have hlt : t.pending < c.profilePoints := r2.fine.small
        have := r2.rel.pend
        rw [r4] at this ⊢
        omega
  obtain ⟨s2, x2, t2, u1, u2, u3, u4, u5, u6⟩ := hsup
  rw [u1, Option.bind_some]
  -- what is left over
  have hleft : ∃ s3 x3 t3, leftover c s2 = some s3 ∧ Inv c first L x3 s3 t3 ∧ s2.pmac.total ≤ s3.pmac.total ∧
      s3.reports = s2.reports ∧ (s2.endIndex = L → s2.traj.time ≠ [] → s2.pmac.total < s3.pmac.total) := by
    unfold leftover
    split
    · rename_i hc
      have hpend : t2.pending ≠ 0 := by
        rw [u2.rel.pend]; intro hh; exact hc.2 (List.length_eq_zero_iff.1 hh)
      obtain ⟨s3, s4, x4, t4, a1, a2, a3, a4, a5, a6⟩ := load_inv hf u2 (.inr hpend)
      have hemp := a6 (by rw [u2.rel.ends, ← u2.rel.up']; exact hc.1)
      rw [a1]
      dsimp only
      rw [a2]
      dsimp only
      rw [if_neg (fun hh => hh.2 hemp)]
      exact ⟨s4, x4, t4, rfl, a3, by omega, a5, fun _ _ => a4⟩
    · rename_i hc
      refine ⟨s2, x2, t2, rfl, u2, Nat.le_refl _, rfl, fun hh1 hh2 => absurd ⟨?_, hh2⟩ hc⟩
      rw [u2.rel.up']; exact hh1
  obtain ⟨s3, x3, t3, v1, v2, v3, v4, v5⟩ := hleft
  refine ⟨s3, x3, t3, v1, v2, by rw [r3] at u3; omega, ?_, ?_⟩
  · intro _ he
    obtain ⟨r, hr1, hr2⟩ := r6 he
    exact ⟨r, hr1, by rw [v4, u4]; exact hr2⟩
  · intro _ hn2 hor
    rw [r3] at u3
    by_cases he : s.endIndex < L
    · have := u5 hn2 (by rw [r5]; exact he)
      rw [r3] at this
      omega
    · have hend : s1.endIndex = L := by
        have := r2.fine.good.hi; have := r2.rel.ends; omega
      have h12 := u6 hend
      subst h12
      have := v5 hend (by rw [r4]; rcases hor with hh | hh; exact absurd hh he; exact hh)
      rw [r3] at this
      exact this

/-- on_configure -/
theorem configure_inv (hf : Fits c first (L - first)) (hl : first ≤ L) (cs : String) (old : St)
    (hv : 2 ≤ old.pmac.version) :
    ∃ s x t, configure c cs old first (L - first) = some s ∧ Inv c first L x s t ∧ 0 < s.pmac.total ∧
      s.reports = old.reports := by
  have hL : first + (L - first) = L := by omega
  -- the profile that resets the outputs
  have hw0 : ∃ p, writeProfile old.pmac { csPort := some cs, time := [0], prog := some [8] } = some p ∧
      2 ≤ p.version := by
    unfold writeProfile
    rw [if_neg (by omega), if_neg (by rintro ⟨k, h, _⟩; cases h)]
    exact ⟨_, rfl, hv⟩
  obtain ⟨p, hp, hpv⟩ := hw0
  unfold configure
  rw [hp]
  dsimp only
  rw [hL]
  obtain ⟨s0, hs0⟩ : ∃ s0 : St, s0 = { old with traj := Trajectory.start c.mapping, upTo := L, tailAdded := false, pmac := p } :=
    ⟨_, rfl⟩
  rw [← hs0]
  -- the run-up
  have hrun : ∃ tr, (Trajectory.start c.mapping).run c.profilePoints [runUpOp c first] = some tr ∧
      tr.time.length = 1 := by
    obtain ⟨s', new, a1, _⟩ := add_spec (Trajectory.start c.mapping) (mapOk hf) (start_aligned _) (c.runUp first).1 1
      c.runUpProg first (c.runUp first).2 (fun hc => absurd hf.runUp (not_le.2 hc.1))
    refine ⟨s', ?_, ?_⟩
    · unfold runUpOp; simp only [Traj.run, Traj.step, a1]
    · have := (addPoint_len _ _ _ _ _ _ _ a1).1
      rw [this]
      simp only [size]
      rw [if_neg (not_lt.2 hf.runUp)]
      simp [Trajectory.start]
  obtain ⟨tr, htr, hlen⟩ := hrun
  have hnw : NoWrite [runUpOp c first] := by
    intro o ho; rw [List.mem_singleton.1 ho]; unfold runUpOp; intro h; cases h
  obtain ⟨a1, a2, a3, a4, a5, a6, a7⟩ := run_spec c.profilePoints {} [runUpOp c first] hnw (Trajectory.start c.mapping) tr
    (start_aligned _) (mapOk hf) htr
  have hglue : glue {} (Trajectory.start c.mapping) = Trajectory.start c.mapping := by
    unfold glue mapK
    simp [Trajectory.start]
  obtain ⟨t0, ht0⟩ : ∃ t0 : TrajLoop.St, t0 = { pending := 1, total := 1, endIndex := old.endIndex, upTo := L } := ⟨_, rfl⟩
  have hrel : Rel c first L {} { s0 with traj := tr } t0 := by
    subst ht0; subst hs0
    refine ⟨hlen.symm, ?_, rfl, rfl, rfl, rfl, a1, a2, a5, ?_⟩
    · have := a1.lookup
      rw [a3, hlen] at this
      exact this.symm
    · have := a7 0
      rw [hglue] at this
      simpa [history] using this
  have hB : 0 < (absCfg c first L).batchPoints := hf.batch
  obtain ⟨t1, h1, h2, h3, _⟩ := Props.TrajLoop.calculate_spec (absCfg c first L) hB first L t0 first
    (by subst ht0; rfl) (by subst ht0; simp) (Nat.le_refl _) hl (by subst ht0; rfl) (by subst ht0; simp)
    (by subst ht0; exact Nat.le_refl _)
  have hsm := small hf hl
  have hPP : 1 ≤ c.profilePoints := hsm.runUp.2
  have hb := Props.TrajLoop.calculate_small (absCfg c first L) hsm first t0 t1 (by subst ht0; exact hPP) h1
  obtain ⟨b1, _⟩ := calculate_bound (absCfg c first L) hsm (tail_room hf hl) first t0 t1 (by subst ht0; exact hPP) h1
  obtain ⟨s1, e1, e2, e3, e4⟩ := calculate_sim hf hrel first hl (fun _ => by subst ht0; exact Nat.one_pos)
    (by subst ht0; rfl) (by subst ht0; intro hh; cases hh) h1
  have hcal : calculate c first true s0 = some s1 := by
    rw [← e1]
    unfold calculate
    have : s0.traj.run c.profilePoints [.add (c.runUp first).1 1 c.runUpProg first (c.runUp first).2] = some tr := by
      subst hs0; exact htr
    simp only [if_true, this, Bool.false_eq_true, if_false]
  rw [hcal]
  dsimp only
  have hpos1 : 0 < t1.pending := by
    unfold TrajLoop.calculate at h1
    obtain ⟨t2, b, g, _, _, _, g4, _⟩ := Props.TrajLoop.create_spec (absCfg c first L) hf.batch _ first t0
      (by subst ht0; exact hl) rfl
    have : t0.pending = 1 := by subst ht0; rfl
    rw [g] at h1
    dsimp only at h1
    split at h1
    · cases h1; show 0 < t2.pending + _; omega
    · cases h1; omega
  have hver : 2 ≤ s1.pmac.version := by rw [e3]; subst hs0; exact hpv
  obtain ⟨s', x', w1, w2, w3, w4, w5⟩ := write_sim hf e2 (some cs) hver (reset_sent cs s1.traj e2.keys s1.pmac hver)
  have hmin : 0 < min c.profilePoints t1.pending := by rw [Nat.lt_min]; exact ⟨by omega, hpos1⟩
  refine ⟨s', x', _, w1, ⟨w2, w3, ⟨h2, ?_, ?_⟩, fun ht => b1 ht⟩, by omega, ?_⟩
  · show t1.pending - c.profilePoints < c.profilePoints
    have : t1.pending < 2 * c.profilePoints := hb
    omega
  · -- something was sent
    have hl' := glue_aligned hf w2 (noWrite_history hf _)
    have e := w2.total
    have e' := w2.pend
    have := w3.total
    omega
  · rw [w4, e4]; subst hs0; rfl

end Verif.Proofs.TrajSend
