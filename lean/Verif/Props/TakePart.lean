import Verif.Spec.TakePart
import Verif.Props.PmacUtil
import Verif.Props.RunUp
/-!
C102: the motion controller takes part in a scan exactly if it is needed, in one coordinate system, that of the axes.
-/
namespace Verif.Props.TakePart
open Verif Verif.TakePart Verif.PmacUtil Verif.Spec.TakePart

/-! ### What the parts report -/

theorem filterValues_cons {α : Type} (f : Info → Option α) (n : String) (r : Reported) (rest : List (String × Reported)) :
    filterValues f ((n, r) :: rest) = (match r with | .infos l => l.filterMap f | _ => []) ++ filterValues f rest := by
  unfold filterValues
  cases r with
  | nothing => rfl
  | failed => rfl
  | infos l =>
    simp only [filterParts]
    split
    · rename_i h; rw [h]; rfl
    · rw [List.flatMap_cons]

theorem mem_filterValues {α : Type} (f : Info → Option α) (info : List (String × Reported)) (a : α) :
    a ∈ filterValues f info ↔ ∃ i, Reports info i ∧ f i = some a := by
  induction info with
  | nil => simp [filterValues, filterParts, Reports]
  | cons x rest ih =>
    obtain ⟨n, r⟩ := x
    rw [filterValues_cons, List.mem_append, ih]
    constructor
    · rintro (h | ⟨i, ⟨m, l, h1, h2⟩, h3⟩)
      · cases r with
        | nothing => cases h
        | failed => cases h
        | infos l =>
          obtain ⟨i, h1, h2⟩ := List.mem_filterMap.1 h
          exact ⟨i, ⟨n, l, List.mem_cons_self, h1⟩, h2⟩
      · exact ⟨i, ⟨m, l, List.mem_cons_of_mem _ h1, h2⟩, h3⟩
    · rintro ⟨i, ⟨m, l, h1, h2⟩, h3⟩
      rcases List.mem_cons.1 h1 with h1 | h1
      · cases h1
        exact Or.inl (List.mem_filterMap.2 ⟨i, h2, h3⟩)
      · exact Or.inr ⟨i, ⟨m, l, h1, h2⟩, h3⟩

theorem asTrigger_iff (i : Info) (t : Trigger) : asTrigger i = some t ↔ i = .trigger t := by
  cases i <;> simp [asTrigger]

theorem asTurnaround_iff (i : Info) (t : ℚ × ℚ) : asTurnaround i = some t ↔ i = .turnaround t.1 t.2 := by
  obtain ⟨a, b⟩ := t
  cases i <;> simp [asTurnaround]

theorem mem_triggers (info) (t : Trigger) : t ∈ filterValues asTrigger info ↔ Reports info (.trigger t) := by
  rw [mem_filterValues]
  constructor
  · rintro ⟨i, h1, h2⟩; rw [asTrigger_iff] at h2; rw [← h2]; exact h1
  · intro h; exact ⟨_, h, rfl⟩

theorem mem_turnarounds (info) (t : ℚ × ℚ) : t ∈ filterValues asTurnaround info ↔ Reports info (.turnaround t.1 t.2) := by
  rw [mem_filterValues]
  constructor
  · rintro ⟨i, h1, h2⟩; rw [asTurnaround_iff] at h2; rw [← h2]; exact h1
  · intro h; exact ⟨_, h, rfl⟩

/-- C102: the triggers are those that are asked for, and every point if nobody asks; nobody asks for others. -/
theorem trigger_asked (info) (t : Trigger) (h : motionTrigger info = .ok t) :
    (∀ t', Reports info (.trigger t') → t' = t) ∧ (Reports info (.trigger t) ∨ ((∀ t', ¬ Reports info (.trigger t')) ∧ t = .everyPoint)) := by
  unfold motionTrigger at h
  simp only [← mem_triggers]
  split at h
  · rename_i e
    rw [e]
    cases h
    exact ⟨fun t' h => (by cases h), Or.inr ⟨fun t' h => (by cases h), rfl⟩⟩
  · rename_i x e
    rw [e]
    cases h
    refine ⟨fun t' h => by simpa using h, Or.inl (by simp)⟩
  · cases h

/-- C102: if two parts ask for different triggers the scan is refused. -/
theorem two_refused (info) (t t' : Trigger) (h : Reports info (.trigger t)) (h' : Reports info (.trigger t')) (hne : t ≠ t') :
    motionTrigger info = .error .manyInfos := by
  cases hm : motionTrigger info with
  | ok x =>
    obtain ⟨h1, _⟩ := trigger_asked info x hm
    exact absurd ((h1 t h).trans (h1 t' h').symm) hne
  | error e =>
    unfold motionTrigger at hm
    split at hm
    · cases hm
    · cases hm
    · cases hm; rfl

/-- C102: a part that is the only one to ask gets the triggers it asks for. -/
theorem one_asker (a b : List (String × Reported)) (n : String) (x y : List Info) (t : Trigger)
    (ha : ∀ t', ¬ Reports a (.trigger t')) (hb : ∀ t', ¬ Reports b (.trigger t'))
    (hx : ∀ t', Info.trigger t' ∉ x) (hy : ∀ t', Info.trigger t' ∉ y) :
    motionTrigger (a ++ (n, .infos (x ++ .trigger t :: y)) :: b) = .ok t := by
  have nil : ∀ info, (∀ t', ¬ Reports info (.trigger t')) → filterValues asTrigger info = [] := by
    intro info h
    rw [List.eq_nil_iff_forall_not_mem]
    intro t' ht
    exact h t' ((mem_triggers _ _).1 ht)
  have fm : ∀ l : List Info, (∀ t', Info.trigger t' ∉ l) → l.filterMap asTrigger = [] := by
    intro l h
    rw [List.eq_nil_iff_forall_not_mem]
    intro t' ht
    obtain ⟨i, h1, h2⟩ := List.mem_filterMap.1 ht
    rw [asTrigger_iff] at h2
    rw [h2] at h1
    exact h t' h1
  have app : ∀ (a b : List (String × Reported)), filterValues asTrigger (a ++ b) = filterValues asTrigger a ++ filterValues asTrigger b := by
    intro a b
    induction a with
    | nil => rfl
    | cons q a ih =>
      obtain ⟨m, r⟩ := q
      rw [List.cons_append, filterValues_cons, filterValues_cons, ih, List.append_assoc]
  have e : filterValues asTrigger (a ++ (n, .infos (x ++ .trigger t :: y)) :: b) = [t] := by
    rw [app, filterValues_cons, nil a ha, nil b hb]
    simp [fm x hx, fm y hy, asTrigger, List.filterMap_append, List.filterMap_cons]
  unfold motionTrigger
  rw [e]

/-- C102: the time of a turnaround is that which is reported, and at least 2 ms. -/
theorem turnaround_reported (info) (t : ℚ × ℚ) (h : minTurnaround info = .ok t) :
    2 / 1000 ≤ t.1 ∧ ((∃ gap, Reports info (.turnaround gap t.2) ∧ t.1 = max (2 / 1000) gap) ∨
      ((∀ g i, ¬ Reports info (.turnaround g i)) ∧ t = (2 / 1000, 2 / 1000))) := by
  unfold minTurnaround at h
  have hmem := mem_turnarounds info
  split at h
  · rename_i e
    cases h
    refine ⟨le_refl _, Or.inr ⟨fun g i hr => ?_, rfl⟩⟩
    have := (hmem (g, i)).2 hr
    rw [e] at this; cases this
  · rename_i g i e
    cases h
    refine ⟨le_max_left _ _, Or.inl ⟨g, ?_, rfl⟩⟩
    exact (hmem (g, i)).1 (by rw [e]; simp)
  · cases h

/-! ### Taking part -/

theorem mem_motionAxes (r : Req) (a : String) : a ∈ motionAxes r.fixed r.axesToMove ↔ Moves r a := by
  simp [motionAxes, Moves]

theorem takingPart_iff (r : Req) (t : Trigger) : takingPart t (motionAxes r.fixed r.axesToMove) = true ↔ Needed r t := by
  unfold takingPart Needed
  rw [Bool.or_eq_true, decide_eq_true_eq]
  have : (!(motionAxes r.fixed r.axesToMove).isEmpty) = true ↔ ∃ a, Moves r a := by
    rw [Bool.not_eq_true', List.isEmpty_eq_false_iff_exists_mem]
    exact exists_congr (mem_motionAxes r)
  rw [this]

theorem axes_empty_iff (r : Req) : (motionAxes r.fixed r.axesToMove).isEmpty = true ↔ ¬ ∃ a, Moves r a := by
  rw [List.isEmpty_iff, List.eq_nil_iff_forall_not_mem]
  constructor
  · rintro h ⟨a, ha⟩; exact h a ((mem_motionAxes r a).2 ha)
  · intro h a ha; exact h ⟨a, (mem_motionAxes r a).1 ha⟩

/-- what a configure comes to -/
theorem configure_taking (p : Part) (r : Req) (t : Trigger) (ht : motionTrigger r.info = .ok t) :
    ((configure p r).1.taking = true ↔ Needed r t) ∧ (configure p r).1.triggers = some t := by
  unfold configure
  rw [ht]
  simp only
  by_cases hn : takingPart t (motionAxes r.fixed r.axesToMove) = true
  · rw [if_pos hn]
    refine ⟨⟨fun _ => (takingPart_iff r t).1 hn, fun _ => ?_⟩, ?_⟩
    all_goals
      repeat' split
      all_goals rfl
  · rw [if_neg hn]
    refine ⟨⟨fun h => (by cases h), fun h => (hn ((takingPart_iff r t).2 h)).elim⟩, rfl⟩

/-- C102: a motion controller that is configured for a scan is sent something exactly if it has axes to move or triggers to give. -/
theorem configured_iff_needed (p p' : Part) (r : Req) (acts : List Act) (h : configure p r = (p', acts, none)) :
    ∃ t, motionTrigger r.info = .ok t ∧ (acts ≠ [] ↔ Needed r t) := by
  cases ht : motionTrigger r.info with
  | error e => unfold configure at h; rw [ht] at h; simp at h
  | ok t =>
    refine ⟨t, rfl, ?_⟩
    unfold configure at h
    rw [ht] at h
    simp only at h
    by_cases hn : takingPart t (motionAxes r.fixed r.axesToMove) = true
    · rw [if_pos hn] at h
      refine ⟨fun _ => (takingPart_iff r t).1 hn, fun _ he => ?_⟩
      subst he
      repeat' split at h
      all_goals simp at h
    · rw [if_neg hn] at h
      simp only [Prod.mk.injEq] at h
      exact ⟨fun ha => (ha h.2.1.symm).elim, fun hx => (hn ((takingPart_iff r t).2 hx)).elim⟩

/-- C102: the motion controller is started and stopped by later runs and aborts exactly if it was needed in the scan that was
configured last. -/
theorem run_iff_needed (p : Part) (r : Req) (t : Trigger) (ht : motionTrigger r.info = .ok t) (ops : List Op)
    (hops : ∀ op ∈ ops, ∀ r', op ≠ .configure r') :
    ((step (after p (.configure r :: ops)) .run).2.1 = [.execute] ↔ Needed r t) ∧
    ((step (after p (.configure r :: ops)) .run).2.1 = [] ↔ ¬ Needed r t) ∧
    ((step (after p (.configure r :: ops)) .abort).2.1 = [.abort] ↔ Needed r t) ∧
    ((step (after p (.configure r :: ops)) .abort).2.1 = [] ↔ ¬ Needed r t) := by
  have hk : ∀ (ops : List Op), (∀ op ∈ ops, ∀ r', op ≠ .configure r') → ∀ q, after q ops = q := by
    intro ops
    induction ops with
    | nil => intro _ q; rfl
    | cons op ops ih =>
      intro h q
      cases op with
      | configure r' => exact (h _ List.mem_cons_self r' rfl).elim
      | run => exact ih (fun o ho => h o (List.mem_cons_of_mem _ ho)) q
      | abort => exact ih (fun o ho => h o (List.mem_cons_of_mem _ ho)) q
  have e : after p (.configure r :: ops) = (configure p r).1 := hk ops hops _
  rw [e, ← (configure_taking p r t ht).1]
  simp only [step]
  by_cases hx : (configure p r).1.taking = true <;> simp [hx]

/-! ### One coordinate system -/

theorem csNumber_ends (port n : Text) (h : csNumber port = some n) : EndsWith port n := by
  unfold csNumber at h
  simp only at h
  split at h
  · cases h
  · rename_i hne
    cases h
    have hs := List.takeWhile_append_dropWhile (p := Char.isDigit) (l := port.reverse)
    refine ⟨(port.reverse.dropWhile Char.isDigit).reverse, ?_, hne, ?_, ?_⟩
    · rw [← List.reverse_append, hs, List.reverse_reverse]
    · intro c hc
      rw [List.mem_reverse] at hc
      exact List.all_eq_true.1 List.all_takeWhile c hc
    · intro c hc
      rw [List.getLast?_reverse] at hc
      have := List.head?_dropWhile_not Char.isDigit port.reverse
      rw [hc] at this
      simpa using this

theorem mem_motors (layout : Layout) (n : String) (m : Motor) : (n, m) ∈ motors layout ↔ (n, some m) ∈ layout := by
  unfold motors
  rw [List.mem_filterMap]
  constructor
  · rintro ⟨⟨a, o⟩, h1, h2⟩
    cases o with
    | none => simp at h2
    | some x =>
      simp at h2
      obtain ⟨rfl, rfl⟩ := h2
      exact h1
  · intro h
    exact ⟨_, h, rfl⟩

theorem mapping_ok (axes : List String) (layout : Layout) (m : Dict String MotorInfo) (h : mapping axes layout = .ok m) :
    csAxisMapping axes (motors layout) = .ok m := by
  unfold mapping at h
  split at h
  · cases h
  · split at h
    · cases h
    · rename_i e; cases h; exact e

/-- C102: with axes to move, all that is sent goes to one coordinate system, the one that all axes moved are in; the move to the start is
made in it, and moves exactly those axes. -/
theorem one_coordinate_system (p p' : Part) (r : Req) (acts : List Act) (h : configure p r = (p', acts, none)) (hm : ∃ a, Moves r a) :
    ∃ port n axes, acts = [.reset port, .execute, .move n axes, .write port] ∧ EndsWith port n ∧ axes.Nodup ∧
      (∀ a, Moves r a → ∃ m ax, (a, some m) ∈ r.layout ∧ IsAxis m port ax ∧ ax ∈ axes) ∧
      (∀ ax ∈ axes, ∃ a m, Moves r a ∧ (a, some m) ∈ r.layout ∧ IsAxis m port ax) := by
  have he : ¬ (motionAxes r.fixed r.axesToMove).isEmpty = true := fun he => (axes_empty_iff r).1 he hm
  unfold configure at h
  split at h
  · simp at h
  · rename_i t ht
    simp only at h
    rw [if_pos ((takingPart_iff r t).2 (Or.inl hm))] at h
    split at h
    · simp at h
    · split at h
      · simp at h
      · rename_i mp port hc
        rw [if_neg he] at h
        split at h
        · simp at h
        · rename_i n hn
          by_cases hs : r.startOk = true
          · rw [if_pos hs] at h
            by_cases hp : r.profileOk = true
            · rw [if_pos hp] at h
              simp only [Prod.mk.injEq, and_true] at h
              unfold csPort at hc
              rw [if_neg he] at hc
              split at hc
              · cases hc
              · cases hc
              · rename_i a mm hmap
                cases hc
                have hmo := mapping_ok _ _ _ hmap
                obtain ⟨s1, s2, s3, s4, s5⟩ := Verif.Props.PmacUtil.mapping_sound _ _ _ hmo
                have hget : ∀ x i, (x, i) ∈ a :: mm → Dict.get? (a :: mm) x = some i := fun x i hx => Dict.get?_of_mem_nodup s1 hx
                have hport : ∀ x i, (x, i) ∈ a :: mm → i.csPort = a.2.csPort := fun x i hx =>
                  s4 x a.1 i a.2 (hget x i hx) (hget a.1 a.2 (by simp))
                have hrow : ∀ x i, (x, i) ∈ a :: mm → ∃ m, (x, some m) ∈ r.layout ∧ IsAxis m a.2.csPort i.csAxis := by
                  intro x i hx
                  obtain ⟨mo, k1, k2, _, _⟩ := s3 x i (hget x i hx)
                  rw [hport x i hx] at k2
                  exact ⟨mo, (mem_motors _ _ _).1 k1, k2.1, k2.2.1, k2.2.2.1⟩
                refine ⟨_, n, _, h.2.symm, csNumber_ends _ _ hn, ?_, ?_, ?_⟩
                · rw [List.nodup_iff_pairwise_ne, List.pairwise_map]
                  have hnd : (a :: mm).Pairwise (fun x y => x.1 ≠ y.1) := by
                    have := s1
                    rw [Dict.keys, List.nodup_iff_pairwise_ne, List.pairwise_map] at this
                    exact this
                  refine List.Pairwise.imp_of_mem ?_ hnd
                  intro x y hx hy hne heq
                  exact hne (s5 x.1 y.1 x.2 y.2 (hget _ _ hx) (hget _ _ hy) heq)
                · intro x hx
                  have hk := (s2 x).2 ((mem_motionAxes r x).2 hx)
                  rw [Dict.keys, List.mem_map] at hk
                  obtain ⟨⟨x', i⟩, k1, rfl⟩ := hk
                  obtain ⟨m, k2, k3⟩ := hrow _ _ k1
                  exact ⟨m, _, k2, k3, List.mem_map.2 ⟨_, k1, rfl⟩⟩
                · intro ax hax
                  obtain ⟨⟨x, i⟩, k1, rfl⟩ := List.mem_map.1 hax
                  obtain ⟨m, k2, k3⟩ := hrow _ _ k1
                  exact ⟨x, m, (mem_motionAxes r x).1 ((s2 x).1 (List.mem_map.2 ⟨_, k1, rfl⟩)), k2, k3⟩
            · rw [if_neg hp] at h; simp at h
          · rw [if_neg hs] at h; simp at h

theorem portWithMotors_ok (layout : Layout) (port : Text) (h : portWithMotors layout = .ok port) :
    ∃ a m ax, (a, some m) ∈ layout ∧ IsAxis m port ax := by
  induction layout with
  | nil => cases h
  | cons x rows ih =>
    obtain ⟨n, o⟩ := x
    cases o with
    | none => cases h
    | some m =>
      unfold portWithMotors at h
      have hr : portWithMotors rows = .ok port → ∃ a m' ax, (a, some m') ∈ (n, some m) :: rows ∧ IsAxis m' port ax := by
        intro h
        obtain ⟨a, m', ax, h1, h2⟩ := ih h
        exact ⟨a, m', ax, List.mem_cons_of_mem _ h1, h2⟩
      split at h
      · exact hr h
      · split at h
        · cases h
        · rename_i p ax hs
          split at h
          · rename_i hax
            cases h
            obtain ⟨e1, e2⟩ := (Verif.Props.PmacUtil.splitComma_spec _ _ _).1 hs
            exact ⟨n, m, ax, List.mem_cons_self, e1, e2, hax⟩
          · exact hr h

/-- C102: without axes to move but with triggers to give, all that is sent goes to one coordinate system, that of some motor. -/
theorem triggers_only (p p' : Part) (r : Req) (acts : List Act) (h : configure p r = (p', acts, none)) (hm : ¬ ∃ a, Moves r a)
    (ha : acts ≠ []) :
    ∃ port, acts = [.reset port, .execute, .write port] ∧ ∃ a m ax, (a, some m) ∈ r.layout ∧ IsAxis m port ax := by
  have he : (motionAxes r.fixed r.axesToMove).isEmpty = true := (axes_empty_iff r).2 hm
  unfold configure at h
  split at h
  · simp at h
  · rename_i t ht
    simp only at h
    split at h
    · split at h
      · simp at h
      · split at h
        · simp at h
        · rename_i mp port hc
          split at h
          · simp only [Prod.mk.injEq, and_true] at h
            refine ⟨port, h.2.symm, ?_⟩
            unfold csPort at hc
            rw [if_pos he] at hc
            split at hc
            · cases hc
            · rename_i q hq
              cases hc
              exact portWithMotors_ok _ _ hq
          · simp at h
    · simp only [Prod.mk.injEq] at h
      exact (ha h.2.1.symm).elim

/-! ### The duration -/

theorem guessDuration_pos (l : List (ℚ × ℚ)) : 0 < guessDuration l := by
  unfold guessDuration
  obtain ⟨h1, _⟩ := Verif.Props.PmacUtil.guess_fold l 0
  simp only
  split
  · norm_num [tickS]
  · rename_i h0; exact lt_of_le_of_ne h1 (Ne.symm h0)

theorem calc_pos (r : Req) (axes : List String) (d : ℚ) (h : calcDuration r axes = .ok (some d)) : 0 < d := by
  unfold calcDuration at h
  split at h
  · cases h; norm_num [tickS]
  · split at h
    · split at h <;> cases h
    · split at h
      · cases h; exact guessDuration_pos _
      · split at h
        · cases h
        · rename_i t ht
          cases h
          have := (turnaround_reported _ _ ht).1
          linarith

/-- C102: a scan without a duration is given one that is positive, if the motion controller is needed and can tell. -/
theorem guessed_positive (r : Req) (hd : r.duration = 0) (hf : 0 < r.frequency) (hf2 : r.frequency ≤ 998000) (res : Option ℚ)
    (h : onValidate r = .ok res) :
    (∃ t, motionTrigger r.info = .ok t ∧ ((¬ Needed r t ∧ res = none) ∨
      (Needed r t ∧ ((∃ d, res = some d ∧ 0 < d) ∨
        (res = none ∧ (∃ a, Moves r a) ∧ ∀ m, mapping (motionAxes r.fixed r.axesToMove) r.layout ≠ .ok m))))) := by
  unfold onValidate at h
  simp only at h
  split at h
  · cases h
  · rw [if_neg (by rw [hd]; exact lt_irrefl _)] at h
    cases ht : motionTrigger r.info with
    | error e => rw [ht] at h; cases h
    | ok t =>
      rw [ht] at h
      simp only at h
      refine ⟨t, rfl, ?_⟩
      by_cases hn : takingPart t (motionAxes r.fixed r.axesToMove) = true
      · rw [if_pos hn] at h
        right
        refine ⟨(takingPart_iff r t).1 hn, ?_⟩
        cases hc : calcDuration r (motionAxes r.fixed r.axesToMove) with
        | error e => rw [hc] at h; cases h
        | ok o =>
          rw [hc] at h
          cases o with
          | none =>
            cases h
            right
            unfold calcDuration at hc
            split at hc
            · cases hc
            · rename_i hne
              refine ⟨rfl, Classical.not_not.1 (fun hx => hne ((axes_empty_iff r).2 hx)), ?_⟩
              intro m hmm
              rw [hmm] at hc
              simp only at hc
              split at hc
              · cases hc
              · split at hc <;> cases hc
          | some d =>
            have hpos := calc_pos _ _ _ hc
            simp only at h
            rw [if_neg (ne_of_gt hpos)] at h
            simp only at h
            left
            have hp2 : 0 < (if t = .everyPoint then RunUp.aligned r.frequency d else d) := by
              split
              · exact Verif.Props.RunUp.aligned_pos _ _ hf hf2 hpos
              · exact hpos
            rw [hd, if_pos (ne_of_gt hp2)] at h
            cases h
            exact ⟨_, rfl, hp2⟩
      · rw [if_neg hn] at h
        left
        cases h
        exact ⟨fun hx => hn ((takingPart_iff r t).2 hx), rfl⟩

/-- C102: what is guessed: a microsecond without axes, in a continuous scan the time of the slowest forward axis from the first point
to the second, in a step scan the time of a turnaround. -/
theorem guess_is (r : Req) (axes : List String) (d : ℚ) (h : calcDuration r axes = .ok (some d)) :
    (axes = [] → d = 1 / 1000000) ∧
    (axes ≠ [] → ¬ (r.continuous = true ∧ 1 < r.size) → ∃ t, minTurnaround r.info = .ok t ∧ d = t.1) ∧
    (r.continuous = true → 1 < r.size → ∀ a ∈ axes, ∃ m, (a, some m) ∈ r.layout ∧ (0 < m.velocity → r.second a - r.first a ≤ m.velocity * d)) := by
  unfold calcDuration at h
  by_cases he : axes.isEmpty = true
  · rw [if_pos he] at h
    cases h
    have : axes = [] := List.isEmpty_iff.1 he
    subst this
    exact ⟨fun _ => rfl, fun hh => (hh rfl).elim, fun _ _ a ha => by cases ha⟩
  · rw [if_neg he] at h
    have hne : axes ≠ [] := fun hx => he (List.isEmpty_iff.2 hx)
    split at h
    · split at h <;> cases h
    · rename_i m hm
      split at h
      · rename_i hc
        rw [Bool.and_eq_true, decide_eq_true_eq] at hc
        cases h
        refine ⟨fun hx => (hne hx).elim, fun _ hx => (hx hc).elim, fun _ _ a ha => ?_⟩
        obtain ⟨s1, s2, s3, _, _⟩ := Verif.Props.PmacUtil.mapping_sound _ _ _ (mapping_ok _ _ _ hm)
        have hk := (s2 a).2 ha
        rw [Dict.keys, List.mem_map] at hk
        obtain ⟨⟨x, i⟩, k1, rfl⟩ := hk
        obtain ⟨mo, g1, _, g3, _⟩ := s3 x i (Dict.get?_of_mem_nodup s1 k1)
        refine ⟨mo, (mem_motors _ _ _).1 g1, fun hv => ?_⟩
        have hmem : (r.second x - r.first x, i.maxVelocity) ∈ distances r m := List.mem_map.2 ⟨_, k1, rfl⟩
        obtain ⟨f1, f2⟩ := Verif.Props.PmacUtil.guess_fold (distances r m) 0
        have f3 := f2 _ hmem
        simp only [g3] at f3
        rw [div_le_iff₀ hv] at f3
        unfold guessDuration
        simp only
        split
        · rename_i h0
          rw [h0, zero_mul] at f3
          exact le_trans f3 (mul_nonneg (le_of_lt hv) (by norm_num [tickS]))
        · rw [mul_comm]; exact f3
      · rename_i hc
        rw [Bool.and_eq_true, decide_eq_true_eq] at hc
        split at h
        · cases h
        · rename_i t ht
          cases h
          exact ⟨fun hx => (hne hx).elim, fun _ _ => ⟨t, ht, rfl⟩, fun h1 h2 => (hc ⟨h1, h2⟩).elim⟩

/-- C102: a scan that moves an axis the motion controller does not have, or has a negative duration, is refused. -/
theorem refused (r : Req) (res : Option ℚ) (h : onValidate r = .ok res) :
    (∀ a, Moves r a → ∃ o, (a, o) ∈ r.layout) ∧ 0 ≤ r.duration := by
  unfold onValidate at h
  simp only at h
  split at h
  · cases h
  · rename_i ha
    split at h
    · cases h
    · rename_i hd
      refine ⟨fun a hm => ?_, not_lt.1 hd⟩
      rw [Bool.not_eq_false, List.all_eq_true] at ha
      have := ha a ((mem_motionAxes r a).2 hm)
      rw [List.any_eq_true] at this
      obtain ⟨⟨x, o⟩, h1, h2⟩ := this
      simp only [decide_eq_true_eq] at h2
      subst h2
      exact ⟨o, h1⟩

/-! ### Axes that cannot be mapped when it is validated -/

theorem splitComma_none (t : Text) : splitComma t = none ↔ ',' ∉ t := by
  induction t with
  | nil => simp [splitComma]
  | cons c cs ih =>
    unfold splitComma
    by_cases hc : c = ','
    · simp [hc]
    · rw [if_neg hc]
      cases hs : splitComma cs with
      | none =>
        have := ih.1 hs
        simp only [true_iff]
        intro h
        rcases List.mem_cons.1 h with h | h
        · exact hc h.symm
        · exact this h
      | some p =>
        have : ',' ∈ cs := by
          cases Classical.em (',' ∈ cs) with
          | inl h => exact h
          | inr h => rw [ih.2 h] at hs; cases hs
        simp [this]

theorem motorInfo_error (m : Motor) (e : PmacUtil.Err) (h : motorInfo m = .error e) :
    (Readable (some m) ↔ e = .notOneToOne) ∧ (¬ Readable (some m) ↔ e = .zeroDivision ∨ e = .noComma) := by
  unfold motorInfo at h
  by_cases ha : m.accelerationTime = 0
  · rw [if_pos ha] at h
    cases h
    have : ¬ Readable (some m) := by rintro ⟨m', e, h1, _⟩; cases e; exact h1 ha
    simp [this]
  · rw [if_neg ha] at h
    by_cases hc : m.cs = []
    · rw [if_pos hc] at h
      have : Readable (some m) := ⟨m, rfl, ha, Or.inl hc⟩
      simp only at h
      split at h
      · cases h
      · cases h; simp [this]
    · rw [if_neg hc] at h
      split at h
      · rename_i hs
        cases h
        have : ¬ Readable (some m) := by
          rintro ⟨m', e, _, h2⟩
          cases e
          rcases h2 with h2 | h2
          · exact hc h2
          · exact (splitComma_none _).1 hs h2
        simp [this]
      · rename_i port axis hs
        have : Readable (some m) := by
          refine ⟨m, rfl, ha, Or.inr ?_⟩
          rw [((Verif.Props.PmacUtil.splitComma_spec _ _ _).1 hs).1]
          simp
        split at h
        · cases h
        · cases h; simp [this]

theorem collect_error (axes : List String) (e : PmacUtil.Err) : ∀ (rows : List (String × Motor)) (d ports),
    collect axes d ports rows = .error e → ∃ n m, (n, m) ∈ rows ∧ n ∈ axes ∧ motorInfo m = .error e := by
  intro rows
  induction rows with
  | nil => intro d ports h; cases h
  | cons x rows ih =>
    obtain ⟨n, m⟩ := x
    intro d ports h
    rw [collect] at h
    split at h
    · rename_i hn
      split at h
      · rename_i e' he
        cases h
        exact ⟨n, m, List.mem_cons_self .., hn, he⟩
      · obtain ⟨n', m', h1, h2, h3⟩ := ih _ _ h
        exact ⟨n', m', List.mem_cons_of_mem _ h1, h2, h3⟩
    · obtain ⟨n', m', h1, h2, h3⟩ := ih _ _ h
      exact ⟨n', m', List.mem_cons_of_mem _ h1, h2, h3⟩

theorem readable_assertion (axes : List String) (layout : Layout) (hr : ∀ a o, a ∈ axes → (a, o) ∈ layout → Readable o) (e : TakePart.Err)
    (h : mapping axes layout = .error e) : assertion e = true := by
  unfold mapping at h
  split at h
  · rename_i hn
    rw [List.any_eq_true] at hn
    obtain ⟨⟨n, o⟩, h1, h2⟩ := hn
    simp only [Bool.and_eq_true, List.contains_iff_mem] at h2
    obtain ⟨m, rfl, _⟩ := hr n o h2.2 h1
    cases h2.1
  · split at h
    · rename_i e' he
      cases h
      unfold csAxisMapping at he
      split at he
      · rename_i e2 hc
        cases he
        obtain ⟨n, m, h1, h2, h3⟩ := collect_error _ _ _ _ _ hc
        rw [((motorInfo_error m _ h3).1).1 (hr n _ h2 ((mem_motors layout n m).1 h1))]
        rfl
      · split at he
        · cases he; rfl
        · split at he
          · cases he; rfl
          · split at he
            · cases he; rfl
            · cases he
    · cases h

theorem unreadable_raises (axes : List String) (layout : Layout) (hr : ∀ a o, a ∈ axes → (a, o) ∈ layout → ¬ Readable o)
    (hs : ∃ a o, a ∈ axes ∧ (a, o) ∈ layout) : ∃ e, mapping axes layout = .error e ∧ assertion e = false := by
  unfold mapping
  split
  · exact ⟨_, rfl, rfl⟩
  · rename_i hn
    have hc : ∀ (rows : List (String × Motor)) (d ports), (∀ n m, n ∈ axes → (n, m) ∈ rows → ¬ Readable (some m)) →
        (∃ n m, n ∈ axes ∧ (n, m) ∈ rows) → ∃ e, collect axes d ports rows = .error e ∧ assertion (.mapping e) = false := by
      intro rows
      induction rows with
      | nil => rintro d ports _ ⟨n, m, _, h⟩; cases h
      | cons x rows ih =>
        obtain ⟨n, m⟩ := x
        intro d ports h1 h2
        rw [collect]
        split
        · rename_i hin
          have hu := h1 n m hin (List.mem_cons_self ..)
          cases hm : motorInfo m with
          | ok i =>
            exfalso
            apply hu
            unfold motorInfo at hm
            split at hm
            · cases hm
            · rename_i ha
              by_cases hc : m.cs = []
              · exact ⟨m, rfl, ha, Or.inl hc⟩
              · rw [if_neg hc] at hm
                split at hm
                · cases hm
                · rename_i port axis hs
                  refine ⟨m, rfl, ha, Or.inr ?_⟩
                  rw [((Verif.Props.PmacUtil.splitComma_spec _ _ _).1 hs).1]
                  simp
          | error e =>
            refine ⟨e, rfl, ?_⟩
            rcases (motorInfo_error m e hm).2.1 hu with h | h <;> (rw [h]; rfl)
        · rename_i hin
          refine ih _ _ (fun n' m' a b => h1 n' m' a (List.mem_cons_of_mem _ b)) ?_
          obtain ⟨n', m', a, b⟩ := h2
          rcases List.mem_cons.1 b with b | b
          · cases b; exact (hin a).elim
          · exact ⟨n', m', a, b⟩
    obtain ⟨a, o, ha, ho⟩ := hs
    cases o with
    | none =>
      exfalso
      apply hn
      rw [List.any_eq_true]
      exact ⟨(a, none), ho, by simp [ha]⟩
    | some m =>
      obtain ⟨e, he, hx⟩ := hc (motors layout) [] [] (fun n m hn hm => hr n _ hn ((mem_motors layout n m).1 hm))
        ⟨a, m, ha, (mem_motors layout a m).2 ho⟩
      refine ⟨_, ?_, hx⟩
      unfold csAxisMapping
      rw [he]

/-- C102: a scan without a duration whose axes can be read, but not mapped as they are now, is let pass with nothing asked for. -/
theorem not_mapped_yet (r : Req) (t : Trigger) (hd : r.duration = 0) (hm : ∃ a, Moves r a) (ht : motionTrigger r.info = .ok t)
    (hl : ∀ a, Moves r a → ∃ o, (a, o) ∈ r.layout) (hr : ∀ a o, Moves r a → (a, o) ∈ r.layout → Readable o)
    (hn : ∀ m, mapping (motionAxes r.fixed r.axesToMove) r.layout ≠ .ok m) : onValidate r = .ok none := by
  unfold onValidate
  have ha : (motionAxes r.fixed r.axesToMove).all (fun a => r.layout.any (fun row => decide (row.1 = a))) = true := by
    rw [List.all_eq_true]
    intro a h
    obtain ⟨o, ho⟩ := hl a ((mem_motionAxes r a).1 h)
    rw [List.any_eq_true]
    exact ⟨_, ho, by simp⟩
  have hp := (takingPart_iff r t).2 (Or.inl hm)
  have he : ¬ (motionAxes r.fixed r.axesToMove).isEmpty = true := fun h => (axes_empty_iff r).1 h hm
  have hc : calcDuration r (motionAxes r.fixed r.axesToMove) = .ok none := by
    unfold calcDuration
    rw [if_neg he]
    cases hx : mapping (motionAxes r.fixed r.axesToMove) r.layout with
    | ok m => exact (hn m hx).elim
    | error e =>
      have := readable_assertion _ _ (fun a o h => hr a o ((mem_motionAxes r a).1 h)) e hx
      simp only [this, if_true]
  simp only [ha, hd, ht, hp, hc]
  norm_num

/-- C102: a scan without a duration none of whose axes can be read is refused, not let pass. -/
theorem unreadable_refused (r : Req) (hd : r.duration = 0) (hm : ∃ a, Moves r a)
    (hr : ∀ a o, Moves r a → (a, o) ∈ r.layout → ¬ Readable o) : ∃ e, onValidate r = .error e := by
  cases hx : onValidate r with
  | error e => exact ⟨e, rfl⟩
  | ok res =>
    exfalso
    obtain ⟨hl, _⟩ := refused r res hx
    obtain ⟨a, hma⟩ := hm
    obtain ⟨o, ho⟩ := hl a hma
    obtain ⟨e, he, hf⟩ := unreadable_raises (motionAxes r.fixed r.axesToMove) r.layout
      (fun a o h => hr a o ((mem_motionAxes r a).1 h)) ⟨a, o, (mem_motionAxes r a).2 hma, ho⟩
    have hem : ¬ (motionAxes r.fixed r.axesToMove).isEmpty = true := fun h => (axes_empty_iff r).1 h ⟨a, hma⟩
    have hc : calcDuration r (motionAxes r.fixed r.axesToMove) = .error e := by
      unfold calcDuration
      rw [if_neg hem, he]
      simp only [hf]
      rfl
    unfold onValidate at hx
    simp only at hx
    split at hx
    · cases hx
    · split at hx
      · cases hx
      · simp only [hd, if_true] at hx
        cases ht : motionTrigger r.info with
        | error e => rw [ht] at hx; cases hx
        | ok t =>
          rw [ht] at hx
          have hp := (takingPart_iff r t).2 (Or.inl ⟨a, hma⟩)
          simp only [hp, if_true, hc] at hx
          cases hx

/-! ### Cases -/

def motor (cs : String) : Option Motor := some ⟨cs.toList, 10, 1⟩

/-- a motion controller with two motors in one coordinate system and one in another -/
def brick : Layout := [("x", motor "CS2,X"), ("y", motor "CS2,Y"), ("z", motor "CS3,A"), ("traj", none)]

def scan : Req where
  info := [("turn", .infos [.turnaround (1 / 10) (1 / 500)]), ("det", .nothing)]
  axesToMove := ["y", "x", "s"]
  fixed := ["s"]
  layout := brick
  duration := 0
  size := 5
  second := fun a => if a = "x" then 3 else 1

example : (configure {} scan).2 =
    ([.reset "CS2".toList, .execute, .move "2".toList ["X".toList, "Y".toList], .write "CS2".toList], none) := by decide +kernel

example : (configure {} { scan with axesToMove := [], info := [("det", .infos [.other, .trigger .rowGate])] }).2 =
    ([.reset "CS2".toList, .execute, .write "CS2".toList], none) ∧
    (configure {} { scan with axesToMove := [], info := [("det", .infos [.trigger .none])] }).2 = ([], none) ∧
    (configure {} { scan with axesToMove := ["x", "z"] }).2 = ([], some (.mapping .manyPorts)) := by decide +kernel

example : motionTrigger scan.info = .ok .everyPoint ∧ minTurnaround scan.info = .ok (1 / 10, 1 / 500) :=
  ⟨rfl, by rw [show minTurnaround scan.info = .ok (max minTime (1 / 10), 1 / 500) from rfl]; norm_num [minTime]⟩

example : calcDuration scan ["y", "x"] = .ok (some (3 / 10)) := by
  show Except.ok (some (guessDuration [(3 - 0, 10), (1 - 0, 10)])) = _
  norm_num [guessDuration]

/-- the three ways a scan cannot be mapped yet, and the three ways its motors cannot be read -/
example : (∀ a ∈ ["x", "z"], ∀ o, (a, o) ∈ brick → Readable o) ∧
    mapping ["x", "z"] brick = .error (.mapping .manyPorts) ∧
    mapping ["x", "y"] [("x", motor "CS2,X"), ("y", motor "CS2,X")] = .error (.mapping .overlap) ∧
    mapping ["x"] [("x", motor "")] = .error (.mapping .notOneToOne) ∧
    ¬ Readable none ∧ ¬ Readable (motor "CS2") ∧ ¬ Readable (some ⟨"CS2,X".toList, 10, 0⟩) := by
  refine ⟨?_, rfl, rfl, rfl, ?_, ?_, ?_⟩
  · intro a ha o ho
    simp only [brick, motor, List.mem_cons, Prod.mk.injEq, List.not_mem_nil, or_false] at ho ha
    rcases ho with ⟨rfl, rfl⟩ | ⟨rfl, rfl⟩ | ⟨rfl, rfl⟩ | ⟨rfl, rfl⟩
    · exact ⟨_, rfl, by norm_num, Or.inr (by decide)⟩
    · exact ⟨_, rfl, by norm_num, Or.inr (by decide)⟩
    · exact ⟨_, rfl, by norm_num, Or.inr (by decide)⟩
    · simp at ha
  · rintro ⟨m, h, _⟩; cases h
  · rintro ⟨m, h, _, h2⟩; cases h; revert h2; decide
  · rintro ⟨m, h, h1, _⟩; cases h; exact h1 rfl

/-! ### Where it goes wrong -/

/-- the same blocks with the trajectory first -/
def brick2 : Layout := [("traj", none), ("x", motor "CS2,X")]

/-- C102 does not hold of a layout that has another block before the motors: triggers without axes cannot be given, though there is a
motor in a coordinate system. -/
theorem other_block_first :
    (configure {} { scan with axesToMove := [], layout := brick2 }).2 = ([], some .notAMotor) ∧
    (configure {} { scan with axesToMove := [], layout := brick2.reverse }).2 =
      ([.reset "CS2".toList, .execute, .write "CS2".toList], none) := by decide +kernel

/-- C102 does not hold of validation: a scan of axes that are in different coordinate systems is validated, with no word said, and refused
when it is configured. -/
theorem validated_not_configured :
    onValidate { scan with axesToMove := ["x", "z"], duration := 1, info := [("det", .infos [.trigger .rowGate])] } = .ok none ∧
    onValidate { scan with axesToMove := ["x", "z"] } = .ok none ∧
    (configure {} { scan with axesToMove := ["x", "z"] }).2.2 = some (.mapping .manyPorts) := by
  refine ⟨?_, ?_, by decide +kernel⟩
  · have : (motionAxes ["s"] ["x", "z"]).all (fun a => brick.any (fun row => decide (row.1 = a))) = true := by decide +kernel
    have ht : motionTrigger [("det", .infos [.trigger .rowGate])] = .ok .rowGate := rfl
    simp only [onValidate, scan, this, ht]
    norm_num
    intro h
    cases h
  · have : (motionAxes ["s"] ["x", "z"]).all (fun a => brick.any (fun row => decide (row.1 = a))) = true := by decide +kernel
    have hm : mapping (motionAxes ["s"] ["x", "z"]) brick = .error (.mapping .manyPorts) := by rfl
    have he : (motionAxes ["s"] ["x", "z"]).isEmpty = false := by decide +kernel
    simp only [onValidate, scan, this]
    norm_num [motionTrigger, filterValues, filterParts, asTrigger, takingPart, calcDuration, he, hm, assertion]

end Verif.Props.TakePart
