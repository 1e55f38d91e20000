import Verif.Spec.DataTable
import Verif.Model.OdinFile
/-!
C105: the datasets a scan lists are those that will be written for it.
-/
namespace Verif.Props.DataTable
open Verif.DataTable Verif.Spec.DataTable

/-! ### the parts keep what they are -/

/-- what does not change of a part -/
def kind : Part → Part
  | .writes f => .writes f
  | .det d => .det { d with state := .ready, table := [] }

/-- the same detector -/
def kindD (d : Det) : Det := { d with state := .ready, table := [] }

theorem configure_kind (d : Det) (a : Args) (o : Out) : kindD (d.configure a o).1 = kindD d := by
  unfold Det.configure kindD
  split
  · cases o with
    | ok => dsimp only; split <;> rfl
    | bad st late => dsimp only; split <;> rfl
  · rfl

theorem reset_kind (d : Det) (o : ROut) : kindD (d.reset o).1 = kindD d := by
  unfold Det.reset kindD
  split
  · rfl
  · cases o with
    | ok => rfl
    | abortBad st => dsimp only; split <;> rfl
    | resetBad st => rfl

theorem onConfigure_kind (d : Det) (a : Args) (o : Out) : kindD (d.onConfigure a o).1 = kindD d := by
  unfold Det.onConfigure
  split
  · rfl
  · rfl
  · split
    · rfl
    · dsimp only
      split <;> exact configure_kind _ _ _

theorem kind_det (d e : Det) (h : kindD d = kindD e) : kind (.det d) = kind (.det e) := congrArg Part.det h

theorem part_onConfigure_kind (p : Part) (a : Args) (o : Out) : kind (p.onConfigure a o).1 = kind p := by
  cases p with
  | writes f => rfl
  | det d => exact kind_det _ _ (onConfigure_kind d a o)

theorem part_reset_kind (p : Part) (o : ROut) : kind (p.reset o).1 = kind p := by
  cases p with
  | writes f => rfl
  | det d => exact kind_det _ _ (reset_kind d o)

theorem part_move_kind (p : Part) (b : State) : kind (p.move b) = kind p := by
  cases p with
  | writes f => rfl
  | det d => unfold Part.move; dsimp only; split <;> rfl

theorem part_alone_kind (p : Part) (a : Args) (o : Out) : kind (p.alone a o) = kind p := by
  cases p with
  | writes f => rfl
  | det d => exact kind_det _ _ (configure_kind d a o)

/-- what is to be written only depends on what does not change -/
theorem written_kind (a : Args) : ∀ (ps qs : List Part), ps.map kind = qs.map kind → toBeWritten a ps = toBeWritten a qs := by
  intro ps
  induction ps with
  | nil => intro qs h; cases qs with
    | nil => rfl
    | cons q qs => cases h
  | cons p ps ih =>
    intro qs h
    cases qs with
    | nil => cases h
    | cons q qs =>
      simp only [List.map_cons, List.cons.injEq] at h
      unfold toBeWritten
      rw [List.flatMap_cons, List.flatMap_cons]
      have h2 := ih qs h.2
      unfold toBeWritten at h2
      rw [h2]
      congr 1
      cases p with
      | writes f =>
        cases q with
        | writes g => have := h.1; simp only [kind, Part.writes.injEq] at this; rw [this]
        | det e => have := h.1; simp [kind] at this
      | det d =>
        cases q with
        | writes g => have := h.1; simp [kind] at this
        | det e =>
          have := h.1
          simp only [kind, Part.det.injEq, Det.mk.injEq] at this
          dsimp only
          unfold detectorWrites
          rw [this.1, this.2.2.2.2.1]

theorem zipIdx_kind (f : Part × Nat → Part) (hf : ∀ p i, kind (f (p, i)) = kind p) : ∀ (ps : List Part) (n : Nat),
    ((ps.zipIdx n).map f).map kind = ps.map kind := by
  intro ps
  induction ps with
  | nil => intro n; rfl
  | cons p ps ih => intro n; simp only [List.zipIdx_cons, List.map_cons, hf, ih]

theorem resetParts_kind (s : Scan) (ro : Nat → ROut) : (s.resetParts ro).1.parts.map kind = s.parts.map kind := by
  unfold Scan.resetParts
  dsimp only
  rw [List.map_map (f := fun pi : Part × Nat => pi.1.reset (ro pi.2)) (g := (·.1))]
  exact zipIdx_kind (fun pi => (pi.1.reset (ro pi.2)).1) (fun p i => part_reset_kind p _) s.parts 0

theorem configureParts_kind (s : Scan) (a : Args) (o : Nat → Out) : (s.configureParts a o).1.map kind = s.parts.map kind := by
  unfold Scan.configureParts
  dsimp only
  rw [List.map_map (f := fun pi : Part × Nat => pi.1.onConfigure a (o pi.2)) (g := (·.1))]
  exact zipIdx_kind (fun pi => (pi.1.onConfigure a (o pi.2)).1) (fun p i => part_onConfigure_kind p _ _) s.parts 0

/-! ### one part -/

theorem findRow_spec (d : Det) : ∀ (rows : List Row),
    (findRow d rows = none → ¬ TakesPart rows d.name) ∧ (∀ r, findRow d rows = some (some r) → TakesPart rows d.name) := by
  intro rows
  induction rows with
  | nil => exact ⟨(fun _ ⟨r, hr, _⟩ => by cases hr), (fun r h => by cases h)⟩
  | cons r rs ih =>
    unfold findRow
    by_cases hc : r.name = d.name ∧ r.enable = true
    · rw [if_pos hc]
      refine ⟨(fun h => by split at h <;> cases h), fun r' h => ⟨r, List.mem_cons_self, hc⟩⟩
    · rw [if_neg hc]
      refine ⟨fun h ⟨q, hq, h1⟩ => ?_, fun r' h => ?_⟩
      · rcases List.mem_cons.1 hq with rfl | hq
        · exact hc h1
        · exact ih.1 h ⟨q, hq, h1⟩
      · obtain ⟨q, hq, h1⟩ := ih.2 r' h
        exact ⟨q, List.mem_cons_of_mem _ hq, h1⟩

/-- what is told and listed by a detector whose ConfigureHook goes well -/
theorem det_told (d : Det) (a : Args) (o : Out) (l : List Ds) (h : (d.onConfigure a o).2 = some l) :
    l = (if TakesPart a.rows d.name then detectorWrites a d else []) ∧
      (d.onConfigure a o).1.table = (if TakesPart a.rows d.name then detectorWrites a d else d.table) := by
  obtain ⟨hn, hs⟩ := findRow_spec d a.rows
  unfold Det.onConfigure at h ⊢
  split at h
  · rename_i e
    rw [if_neg (hn e), if_neg (hn e)]
    simp only [Option.some.injEq] at h
    exact ⟨h.symm, rfl⟩
  · cases h
  · rename_i r e
    rw [if_pos (hs r e), if_pos (hs r e)]
    split at h
    · cases h
    · rename_i hfr
      dsimp only at h ⊢
      rw [if_neg hfr]
      split at h
      · rename_i hok
        rw [if_pos hok]
        split at h
        · rename_i htab
          simp only [Option.some.injEq] at h
          have : (d.configure { a with format := d.name, rows := [] } o).1.table = detectorWrites a d := by
            unfold Det.configure at hok ⊢
            split at hok
            · rename_i hst
              dsimp only at hok ⊢
              cases o with
              | ok =>
                dsimp only
                by_cases hfin : d.state = .finished
                · simp only [if_pos hst, if_pos hfin, if_pos htab]; rfl
                · simp only [if_pos hst, if_neg hfin, if_pos htab]; rfl
              | bad st late => cases hok
            · cases hok
          exact ⟨by rw [← h]; exact this, this⟩
        · cases h
      · cases h

theorem part_told (p : Part) (a : Args) (o : Out) (l : List Ds) (h : (p.onConfigure a o).2 = some l) : l = toBeWritten a [p] := by
  unfold toBeWritten
  rw [List.flatMap_cons, List.flatMap_nil, List.append_nil]
  cases p with
  | writes f =>
    unfold Part.onConfigure at h
    dsimp only at h ⊢
    split at h
    · simp only [Option.some.injEq] at h; exact h.symm
    · cases h
  | det d => exact (det_told d a o l h).1

/-! ### the scan -/

theorem told_parts (a : Args) (o : Nat → Out) : ∀ (ps : List Part) (n : Nat),
    (((ps.zipIdx n).map (fun pi => pi.1.onConfigure a (o pi.2))).all (·.2.isSome) = true) →
    ((ps.zipIdx n).map (fun pi => pi.1.onConfigure a (o pi.2))).flatMap (fun r => r.2.getD []) = toBeWritten a ps := by
  intro ps
  induction ps with
  | nil => intro n _; rfl
  | cons p ps ih =>
    intro n h
    simp only [List.zipIdx_cons, List.map_cons, List.all_cons, Bool.and_eq_true] at h
    simp only [List.zipIdx_cons, List.map_cons, List.flatMap_cons]
    rw [ih (n + 1) h.2]
    obtain ⟨l, hl⟩ := Option.isSome_iff_exists.1 h.1
    rw [hl, Option.getD_some, part_told p a (o n) l hl]
    unfold toBeWritten
    rw [List.flatMap_cons, List.flatMap_nil, List.append_nil, List.flatMap_cons]

theorem configureParts_told (s : Scan) (a : Args) (o : Nat → Out) (ps : List Part) (t : List Ds)
    (h : s.configureParts a o = (ps, some t)) : t = toBeWritten a s.parts := by
  unfold Scan.configureParts at h
  dsimp only at h
  simp only [Prod.mk.injEq] at h
  obtain ⟨_, h⟩ := h
  split at h
  · rename_i hall
    simp only [Option.some.injEq] at h
    rw [← h]
    exact told_parts a o s.parts 0 hall
  · cases h

theorem bad_state (b : Bad) : b.state ≠ .ready ∧ b.state ≠ .armed ∧ b.state ≠ .finished := by cases b <;> decide

/-- configure() from an accepted state, with an empty table if it is Ready -/
theorem configure_result (s : Scan) (a : Args) (ro : Nat → ROut) (o : Nat → Out) (h : How)
    (hs : s.state = .ready ∨ s.state = .finished) (ht : s.state = .ready → s.table = []) :
    (s.configure a ro o h).parts.map kind = s.parts.map kind ∧ (s.configure a ro o h).state ≠ .ready ∧
      (s.configure a ro o h).state ≠ .finished ∧
      ((s.configure a ro o h).table = [] ∨ (s.configure a ro o h).table = toBeWritten a s.parts) ∧
      ((s.configure a ro o h).state = .armed → (s.configure a ro o h).table = toBeWritten a s.parts) := by
  unfold Scan.configure
  rw [if_pos hs]
  dsimp only
  obtain ⟨b1, b2, b3⟩ := bad_state h.st
  have hr : ∃ r : Scan × Bool, (if s.state = .finished then s.resetParts ro else (s, true)) = r ∧ r.1.table = [] ∧
      r.1.parts.map kind = s.parts.map kind := by
    by_cases hf : s.state = .finished
    · rw [if_pos hf]
      exact ⟨_, rfl, rfl, resetParts_kind s ro⟩
    · rw [if_neg hf]
      exact ⟨_, rfl, ht (by rcases hs with hs | hs; exact hs; exact absurd hs hf), rfl⟩
  obtain ⟨r, e, r1, r2⟩ := hr
  rw [e]
  split
  · exact ⟨r2, b1, b3, .inl r1, fun hh => absurd hh b2⟩
  · split
    · rename_i ps e2
      have := configureParts_kind r.1 a o
      rw [e2] at this
      exact ⟨this.trans r2, b1, b3, .inl r1, fun hh => absurd hh b2⟩
    · rename_i ps t e2
      have h1 := configureParts_kind r.1 a o
      rw [e2] at h1
      have h2 := (configureParts_told r.1 a o ps t e2).trans (written_kind a _ _ r2)
      refine ⟨h1.trans r2, ?_, ?_, .inr h2, fun _ => h2⟩
      · dsimp only; split
        · exact b1
        · decide
      · dsimp only; split
        · exact b3
        · decide

theorem step_kind (s : Scan) (op : Op) (hop : Quiet op) : (step s op).parts.map kind = s.parts.map kind ∧ (step s op).table = s.table ∧
    ((step s op).state = .ready → s.state = .ready) ∧ (Configured (step s op) → Configured s) := by
  cases op with
  | configure a ro o h => exact absurd hop id
  | reset ro st => exact absurd hop id
  | move st sts =>
    unfold step
    dsimp only
    refine ⟨zipIdx_kind (fun pi => pi.1.move (sts pi.2)) (fun p i => part_move_kind p _) s.parts 0, rfl, ?_, ?_⟩
    · intro hh
      split at hh
      · rename_i hm
        unfold canMove at hm
        subst hh
        simpa using hm
      · exact hh
    · intro hh
      unfold Configured at hh ⊢
      dsimp only at hh
      split at hh
      · rename_i hm
        unfold canMove at hm
        rcases hh with hh | hh
        · subst hh
          simp at hm
          rcases hm with hm | hm <;> first | exact .inl hm | exact .inr hm | exact hm
        · subst hh
          simp at hm
          rcases hm with hm | hm <;> first | exact .inl hm | exact .inr hm | exact hm
      · exact hh
  | alone i a o =>
    refine ⟨zipIdx_kind (fun pi => if pi.2 = i then pi.1.alone a o else pi.1) (fun p j => ?_) s.parts 0, rfl, id, id⟩
    dsimp only; split
    · exact part_alone_kind p a o
    · rfl
  | aloneReset i o =>
    refine ⟨zipIdx_kind (fun pi => if pi.2 = i then (pi.1.reset o).1 else pi.1) (fun p j => ?_) s.parts 0, rfl, id, id⟩
    dsimp only; split
    · exact part_reset_kind p o
    · rfl

theorem reset_result (s : Scan) (ro : Nat → ROut) (st : Bad) (hs : s.state ≠ .ready) :
    (s.reset ro st).parts.map kind = s.parts.map kind ∧ (s.reset ro st).table = [] ∧ ¬ Configured (s.reset ro st) := by
  unfold Scan.reset
  rw [if_neg hs]
  dsimp only
  refine ⟨resetParts_kind s ro, rfl, ?_⟩
  unfold Configured
  dsimp only
  obtain ⟨b1, b2, b3⟩ := bad_state st
  split
  · decide
  · intro hh; rcases hh with hh | hh
    · exact b2 hh
    · exact b3 hh

/-- **C105**: whatever happens, also when others use the detectors: while the scan is configured its table lists exactly what will be written for the
parameters it was configured with, for the detectors that take part and in the order of the parts; when it is Ready it lists nothing;
and in any other state what it lists is nothing or what was configured last. -/
theorem lists_what_is_written (allowed : Op → Prop) (s0 : Scan) (h0 : Fresh s0) (x : Option Args) (s : Scan) (h : After allowed s0 x s) :
    (s.state = .ready → s.table = []) ∧ (Configured s → ∃ a, x = some a ∧ s.table = toBeWritten a s0.parts) ∧
      (s.table = [] ∨ ∃ a, x = some a ∧ s.table = toBeWritten a s0.parts) := by
  suffices hh : s.parts.map kind = s0.parts.map kind ∧ (s.state = .ready → s.table = []) ∧
      (Configured s → ∃ a, x = some a ∧ s.table = toBeWritten a s0.parts) ∧
      (s.table = [] ∨ ∃ a, x = some a ∧ s.table = toBeWritten a s0.parts) from hh.2
  induction h with
  | start =>
    refine ⟨rfl, fun _ => h0.2.1, fun hc => ?_, .inl h0.2.1⟩
    unfold Configured at hc
    rw [h0.1] at hc
    rcases hc with hc | hc <;> cases hc
  | @configure x s a ro o hw _ hst ih =>
    obtain ⟨i1, i2, i3, i4⟩ := ih
    obtain ⟨c1, c2, c3, c4, c5⟩ := configure_result s a ro o hw hst i2
    rw [written_kind a _ _ i1] at c4 c5
    refine ⟨c1.trans i1, fun hh => absurd hh c2, fun hh => ⟨a, rfl, ?_⟩, ?_⟩
    · rcases hh with hh | hh
      · exact c5 hh
      · exact absurd hh c3
    · rcases c4 with hh | hh
      · exact .inl hh
      · exact .inr ⟨a, rfl, hh⟩
  | @refused x s a ro o hw _ hst ih =>
    have : step s (.configure a ro o hw) = s := by
      unfold step Scan.configure
      exact if_neg hst
    rw [this]; exact ih
  | @reset x s ro st _ hst ih =>
    obtain ⟨r1, r2, r3⟩ := reset_result s ro st hst
    exact ⟨r1.trans ih.1, fun _ => r2, fun hh => absurd hh r3, .inl r2⟩
  | @resetRefused x s ro st _ hst ih =>
    have : step s (.reset ro st) = s := by
      unfold step Scan.reset
      exact if_pos hst
    rw [this]; exact ih
  | @other x s op _ _ hq ih =>
    obtain ⟨q1, q2, q3, q4⟩ := step_kind s op hq
    obtain ⟨i1, i2, i3, i4⟩ := ih
    rw [q2]
    exact ⟨q1.trans i1, fun hh => i2 (q3 hh), fun hh => i3 (q4 hh), i4⟩

/-! ### the detectors -/

/-- the detectors that were not faulty list nothing -/
def AllEmpty (ps : List Part) : Prop := ∀ d, .det d ∈ ps → d.faulty = false → d.table = []

/-- each detector lists what it writes for these parameters, if it takes part -/
def AllList (a : Args) (ps : List Part) : Prop :=
  ∀ d, .det d ∈ ps → d.faulty = false → d.table = if TakesPart a.rows d.name then detectorWrites a d else []

theorem resetParts_empty (s : Scan) (ro : Nat → ROut) (h : (s.resetParts ro).2 = true) : AllEmpty (s.resetParts ro).1.parts := by
  intro d hd hf
  unfold Scan.resetParts at hd h
  dsimp only at hd h
  rw [List.map_map, List.mem_map] at hd
  obtain ⟨⟨p, i⟩, hp, he⟩ := hd
  rw [List.all_map, List.all_eq_true] at h
  have h1 := h (p, i) hp
  cases p with
  | writes f => simp [Part.reset] at he
  | det e =>
    simp only [Function.comp, Part.reset, Part.det.injEq] at he h1
    have hk := congrArg Det.faulty (reset_kind e (ro i))
    unfold kindD at hk
    dsimp only at hk
    rw [he, hf] at hk
    unfold Det.reset at h1 he
    rw [← hk] at h1 he
    simp only [Bool.false_eq_true, if_false] at h1 he
    cases hro : ro i with
    | ok => rw [hro] at he; rw [← he]
    | resetBad st => rw [hro] at h1; cases h1
    | abortBad st =>
      rw [hro] at h1 he
      dsimp only at h1 he
      split at h1
      · cases h1
      · rename_i hn
        rw [if_neg hn] at he
        rw [← he]

theorem configureParts_list (s : Scan) (a : Args) (o : Nat → Out) (ps : List Part) (t : List Ds) (he : AllEmpty s.parts)
    (h : s.configureParts a o = (ps, some t)) : AllList a ps := by
  intro d hd hf
  unfold Scan.configureParts at h
  dsimp only at h
  simp only [Prod.mk.injEq] at h
  obtain ⟨hps, h⟩ := h
  split at h
  swap
  · cases h
  rename_i hall
  rw [← hps, List.map_map, List.mem_map] at hd
  obtain ⟨⟨p, i⟩, hp, hpe⟩ := hd
  rw [List.all_map, List.all_eq_true] at hall
  have h1 := hall (p, i) hp
  have hmem : p ∈ s.parts := by
    obtain ⟨_, h3⟩ := List.mem_zipIdx' hp
    exact List.mem_of_getElem h3.symm
  cases p with
  | writes f => simp [Part.onConfigure] at hpe
  | det e =>
    simp only [Function.comp, Part.onConfigure, Part.det.injEq] at hpe h1
    obtain ⟨l, hl⟩ := Option.isSome_iff_exists.1 h1
    have hk := onConfigure_kind e a (o i)
    rw [hpe] at hk
    have h2 := (det_told e a (o i) l hl).2
    rw [hpe] at h2
    unfold kindD at hk
    simp only [Det.mk.injEq] at hk
    rw [h2, he e hmem (by rw [← hk.2.2.1]; exact hf)]
    unfold detectorWrites
    rw [hk.1, hk.2.2.2.2.1]

theorem move_list (ps : List Part) (sts : Nat → State) (P : Det → Prop)
    (hP : ∀ d st, P d → P { d with state := st }) (h : ∀ d, .det d ∈ ps → P d) :
    ∀ d, .det d ∈ ps.zipIdx.map (fun pi => pi.1.move (sts pi.2)) → P d := by
  intro d hd
  rw [List.mem_map] at hd
  obtain ⟨⟨p, i⟩, hp, hpe⟩ := hd
  have hmem : p ∈ ps := by
    obtain ⟨_, h3⟩ := List.mem_zipIdx' hp
    exact List.mem_of_getElem h3.symm
  cases p with
  | writes f => simp [Part.move] at hpe
  | det e =>
    simp only [Part.move, Part.det.injEq] at hpe
    rw [← hpe]
    split
    · exact hP _ _ (h e hmem)
    · exact h e hmem

/-- **C105**: as long as nobody else uses the detectors, while the scan is configured each detector (that was not faulty when the process started)
itself lists what it will write if it takes part, and nothing if it does not; and when the scan is Ready none of them lists anything. -/
theorem detectors_agree (s0 : Scan) (h0 : Fresh s0) (x : Option Args) (s : Scan) (h : After Undisturbed s0 x s) :
    (s.state = .ready → ∀ d, .det d ∈ s.parts → d.faulty = false → d.table = []) ∧
      (Configured s → ∃ a, x = some a ∧ ∀ d, .det d ∈ s.parts → d.faulty = false →
        d.table = if TakesPart a.rows d.name then detectorWrites a d else []) := by
  induction h with
  | start =>
    refine ⟨fun _ d hd _ => h0.2.2 d hd, fun hc => ?_⟩
    unfold Configured at hc
    rw [h0.1] at hc
    rcases hc with hc | hc <;> cases hc
  | @configure x s a ro o hw _ hst ih =>
    obtain ⟨b1, b2, b3⟩ := bad_state hw.st
    unfold step Scan.configure
    dsimp only
    rw [if_pos hst]
    have hr : ∃ r : Scan × Bool, (if s.state = .finished then s.resetParts ro else (s, true)) = r ∧
        (r.2 = true → AllEmpty r.1.parts) := by
      by_cases hf : s.state = .finished
      · rw [if_pos hf]
        exact ⟨_, rfl, resetParts_empty s ro⟩
      · rw [if_neg hf]
        exact ⟨_, rfl, fun _ => ih.1 (by rcases hst with hs | hs; exact hs; exact absurd hs hf)⟩
    obtain ⟨r, e, r1⟩ := hr
    rw [e]
    have hbad : ∀ q : Scan, q.state = hw.st.state → (q.state = .ready → ∀ d, .det d ∈ q.parts → d.faulty = false → d.table = []) ∧
      (Configured q → ∃ a', some a = some a' ∧ ∀ d, .det d ∈ q.parts → d.faulty = false →
        d.table = if TakesPart a'.rows d.name then detectorWrites a' d else []) := by
      intro q hq
      refine ⟨fun hh => absurd (hq.symm.trans hh) b1, fun hh => ?_⟩
      rcases hh with hh | hh
      · exact absurd (hq.symm.trans hh) b2
      · exact absurd (hq.symm.trans hh) b3
    split
    · exact hbad _ rfl
    · rename_i hpre
      have hr2 : r.2 = true := by
        cases hh : r.2 with
        | true => rfl
        | false => exact absurd (.inl hh) hpre
      split
      · exact hbad _ rfl
      · rename_i ps t e2
        have hl := configureParts_list r.1 a o ps t (r1 hr2) e2
        refine ⟨fun hh => ?_, fun _ => ⟨a, rfl, hl⟩⟩
        dsimp only at hh
        split at hh
        · exact absurd hh b1
        · cases hh
  | @refused x s a ro o hw _ hst ih =>
    have : step s (.configure a ro o hw) = s := by
      unfold step Scan.configure
      exact if_neg hst
    rw [this]; exact ih
  | @reset x s ro st _ hst ih =>
    refine ⟨fun hh => ?_, fun hh => absurd hh (reset_result s ro st hst).2.2⟩
    unfold step Scan.reset at hh ⊢
    dsimp only at hh ⊢
    rw [if_neg hst] at hh ⊢
    dsimp only at hh
    split at hh
    · rename_i h2
      exact resetParts_empty s ro h2
    · exact absurd hh (bad_state st).1
  | @resetRefused x s ro st _ hst ih =>
    have : step s (.reset ro st) = s := by
      unfold step Scan.reset
      exact if_pos hst
    rw [this]; exact ih
  | @other x s op _ ha hq ih =>
    obtain ⟨q1, q2, q3, q4⟩ := step_kind s op hq
    cases op with
    | configure a ro o h => exact absurd hq id
    | reset ro st => exact absurd hq id
    | alone i a o => exact absurd ha id
    | aloneReset i o => exact absurd ha id
    | move st sts =>
      refine ⟨fun hh => ?_, fun hh => ?_⟩
      · exact move_list s.parts sts (fun d => d.faulty = false → d.table = []) (fun d st h => h) (ih.1 (q3 hh))
      · obtain ⟨a, ha, hl⟩ := ih.2 (q4 hh)
        exact ⟨a, ha, move_list s.parts sts
          (fun d => d.faulty = false → d.table = if TakesPart a.rows d.name then detectorWrites a d else []) (fun d st h => h) hl⟩

/-! ### the files -/

/-- the name is put in one place -/
theorem fill_place (t : Text) (n x : Text) (h : fill t (some n) = some x) :
    ∃ pre post, ∀ m, fill t (some m) = some (pre ++ m ++ post) := by
  generalize hn : some n = nn at h
  fun_induction fill t nn generalizing x with
  | case1 => cases hn
  | case2 => cases h
  | case3 t n' ih =>
    obtain ⟨y, hy, _⟩ := Option.map_eq_some_iff.1 h
    obtain ⟨pre, post, hp⟩ := ih y hn hy
    exact ⟨'%' :: pre, post, fun m => by rw [fill, hp m]; rfl⟩
  | case4 t n' ih =>
    obtain ⟨y, hy, _⟩ := Option.map_eq_some_iff.1 h
    exact ⟨[], y, fun m => by rw [fill, hy]; rfl⟩
  | case5 => cases h
  | case6 c t n' h1 h2 h3 ih =>
    obtain ⟨y, hy, _⟩ := Option.map_eq_some_iff.1 h
    obtain ⟨pre, post, hp⟩ := ih y hn hy
    exact ⟨c :: pre, post, fun m => by
      rw [fill, hp m]; rfl
      all_goals simp_all⟩

/-- **C105**: the datasets of different detectors are in different files, if their parts fill the template in as Python does. -/
theorem different_files_partial (a : Args) (d e : Det) (hd : ∀ f ∈ d.writes, NamedByTemplate f) (he : ∀ f ∈ e.writes, NamedByTemplate f)
    (hne : d.name ≠ e.name) (x y : Ds) (hx : x ∈ detectorWrites a d) (hy : y ∈ detectorWrites a e) : x.file ≠ y.file := by
  unfold detectorWrites at hx hy
  obtain ⟨f, hf, hfx⟩ := List.mem_flatMap.1 hx
  obtain ⟨g, hg, hgy⟩ := List.mem_flatMap.1 hy
  have h1 := hd f hf _ x hfx
  have h2 := he g hg _ y hgy
  dsimp only at h1 h2
  obtain ⟨pre, post, hp⟩ := fill_place _ _ _ h1
  rw [hp d.name] at h1
  rw [hp e.name] at h2
  simp only [Option.some.injEq] at h1 h2
  intro heq
  rw [← h1, ← h2, List.append_assoc, List.append_assoc] at heq
  exact hne (List.append_cancel_right (List.append_cancel_left heq))

/-- ... but the Odin and Xspress writers replace `%s` in the template wherever it is, and do not mind if it is not there (odinwriterpart.py 374,
xspresswriterpart.py 383): two such detectors then have the same file. -/
theorem same_file : ∃ (a : Args) (d e : Det) (x y : Ds), d.name ≠ e.name ∧
    (∀ f ∈ d.writes ++ e.writes, ∀ b, ∀ ds ∈ f b, ds.file = Verif.OdinFile.replace b.format b.template) ∧
    x ∈ detectorWrites a d ∧ y ∈ detectorWrites a e ∧ x.file = y.file :=
  ⟨{ fileDir := "/data", template := "scan.h5".toList, format := [] },
    { name := "EIGER".toList, mri := "E", writes := [fun b => [⟨"det.data", Verif.OdinFile.replace b.format b.template, 0, 4, "/data", "/uid"⟩]] },
    { name := "LAMBDA".toList, mri := "L", writes := [fun b => [⟨"det.data", Verif.OdinFile.replace b.format b.template, 0, 4, "/data", "/uid"⟩]] },
    ⟨"det.data", "scan.h5".toList, 0, 4, "/data", "/uid"⟩, ⟨"det.data", "scan.h5".toList, 0, 4, "/data", "/uid"⟩,
    by decide, by
      intro f hf b ds hds
      simp only [List.cons_append, List.nil_append, List.mem_cons, List.not_mem_nil, or_false] at hf
      rcases hf with rfl | rfl <;>
      · simp only [List.mem_singleton] at hds
        rw [hds],
    by decide, by decide, rfl⟩

/-! ### an example -/

/-- a detector that writes one dataset -/
def exDet (name : String) : Det where
  name := name.toList
  mri := "BL-" ++ name
  writes := [fun b => [⟨name ++ ".data", (fill b.template (some b.format)).getD [], 0, 4, "/entry/detector/detector", "/entry/uid"⟩]]

def exScan : Scan where
  parts := [.writes (fun _ => []), .det (exDet "DET"), .det (exDet "DIFF"), .det (exDet "XRF")]

def exArgs (on : List String) : Args where
  fileDir := "/data"
  template := "%s-100%%.h5".toList
  format := []
  rows := ["DET", "DIFF", "XRF"].map (fun n => ⟨decide (n ∈ on), n.toList, "BL-" ++ n, 1⟩)

theorem exFresh : Fresh exScan := by
  refine ⟨rfl, rfl, ?_⟩
  intro d hd
  simp only [exScan, List.mem_cons, List.not_mem_nil, or_false, reduceCtorEq, false_or, Part.det.injEq] at hd
  rcases hd with rfl | rfl | rfl <;> rfl

/-- a scan with two of the detectors, and one with another after it -/
def exOps : List Op :=
  [.configure (exArgs ["DET", "XRF"]) (fun _ => .ok) (fun _ => .ok) {}, .move .finished (fun i => if i = 2 then .ready else .finished),
    .configure (exArgs ["DIFF"]) (fun _ => .ok) (fun _ => .ok) {}]

/-- what is listed -/
example : ((run exScan (exOps.take 2)).state, (run exScan (exOps.take 2)).table.map (fun d => (d.name, String.ofList d.file))) =
    (.finished, [("DET.data", "DET-100%.h5"), ("XRF.data", "XRF-100%.h5")]) := by decide +kernel
example : ((run exScan exOps).state, (run exScan exOps).table.map (fun d => (d.name, String.ofList d.file))) =
    (.armed, [("DIFF.data", "DIFF-100%.h5")]) := by decide +kernel
/-- one detector fails when the scan is configured again: nothing is listed, though another is configured -/
example : (fun s : Scan => (s.state, s.table, s.parts.map (fun | .det d => d.table.length | _ => 0)))
    (run exScan (exOps.take 2 ++ [.configure (exArgs ["DET", "DIFF"]) (fun _ => .ok) (fun i => if i = 2 then .bad .fault false else .ok) {}])) =
    (.fault, [], [0, 1, 0, 0]) := by decide +kernel

/-- such a history meets the hypotheses -/
theorem exAfter : After Undisturbed exScan (some (exArgs ["DIFF"])) (run exScan exOps) :=
  .configure (exArgs ["DIFF"]) (fun _ => .ok) (fun _ => .ok) {}
    (.other (.move .finished (fun i => if i = 2 then .ready else .finished))
      (.configure (exArgs ["DET", "XRF"]) (fun _ => .ok) (fun _ => .ok) {} .start (.inl rfl)) trivial trivial) (.inr (by decide +kernel))

example := (lists_what_is_written _ exScan exFresh _ _ exAfter).2.1 (.inl (by decide +kernel))
example := (detectors_agree exScan exFresh _ _ exAfter).2 (.inl (by decide +kernel))

/-- the example names its file by the template, where it can be filled in -/
example : fill "%s-100%%.h5".toList (some "DET".toList) = some "DET-100%.h5".toList ∧ fill "scan.h5".toList (some "DET".toList) = none := by
  decide
/-- a part that meets `NamedByTemplate` -/
example : NamedByTemplate (fun b => ((fill b.template (some b.format)).map (fun f => (⟨"x", f, 0, 4, "/p", "/u"⟩ : Ds))).toList) := by
  intro a ds h
  obtain ⟨f, hf, rfl⟩ := Option.map_eq_some_iff.1 (Option.mem_toList.1 h)
  exact hf

end Verif.Props.DataTable
