import Verif.Spec.ExportMirror
import Verif.Proofs.PyDict
/-!
C99: "An exported field shows the field of the child, can be written just if that can, and what is put or posted to it
reaches the child."
-/
set_option linter.unusedVariables false
namespace Verif.Props.ExportMirror
open Verif Verif.ExportMirror Verif.Spec.ExportMirror

/-! ### what is shown -/

theorem applyAll_append (a : Attr) (l m : List Change) :
    applyAll a (l ++ m) = if (applyAll a l).2 then applyAll (applyAll a l).1 m else applyAll a l := by
  induction l generalizing a with
  | nil => rfl
  | cons c l ih =>
    have e : ∀ k, applyAll a (c :: k) = match applyChange a c with
      | none => (a, false)
      | some b => applyAll b k := fun _ => rfl
    rw [List.cons_append, e, e]
    cases h : applyChange a c with
    | none => rfl
    | some b => exact ih b

/-- A change raises just if it is for the whole field or for a column of a table. -/
def Raises : Change → Prop
  | .field _ => True
  | .gone => True
  | .column _ _ => True
  | _ => False

theorem applyAll_fine (l : List Change) : ∀ a, (applyAll a l).2 = true ↔ ∀ c ∈ l, ¬ Raises c := by
  induction l with
  | nil => intro a; simp [applyAll]
  | cons c l ih =>
    intro a
    unfold applyAll
    cases c <;> simp [applyChange, Raises, ih]

theorem childStep_shows (f : Attr) (s : Attr) (o : Op) (h : Shows s f)
    (hf : (applyAll s (childStep (some f) o).2).2 = true) :
    ∃ f', (childStep (some f) o).1 = some f' ∧ Shows (applyAll s (childStep (some f) o).2).1 f' := by
  obtain ⟨h1, h2, h3, h4⟩ := h
  cases o with
  | put a => simp [childStep, applyAll, applyChange] at hf
  | remove => simp [childStep, applyAll, applyChange] at hf
  | setValue v al t =>
    refine ⟨_, rfl, ?_⟩
    show Shows (applyAll s (.value v :: alarmChange f.alarm al ++ [.time t])).1 _
    unfold alarmChange
    split
    · rename_i e
      exact ⟨rfl, h2.trans e.symm, rfl, h4⟩
    · exact ⟨rfl, rfl, rfl, h4⟩
  | setColumns new al t =>
    cases hv : f.value with
    | scalar n =>
      refine ⟨f, by simp only [childStep, hv], ?_⟩
      have : (childStep (some f) (.setColumns new al t)).2 = [] := by simp only [childStep, hv]
      rw [this]
      exact ⟨h1, h2, h3, h4⟩
    | table cols =>
      simp only [childStep, hv] at hf ⊢
      refine ⟨_, rfl, ?_⟩
      split at hf
      · rename_i hl
        rw [if_pos hl]
        unfold alarmChange
        split
        · rename_i e
          exact ⟨rfl, h2.trans e.symm, rfl, h4⟩
        · exact ⟨rfl, rfl, rfl, h4⟩
      · rename_i hl
        rw [if_neg hl]
        cases new with
        | nil =>
          have hsv : s.value = .table cols := h1.trans hv
          unfold alarmChange
          split
          · rename_i e
            exact ⟨hsv, h2.trans e.symm, rfl, h4⟩
          · exact ⟨hsv, rfl, rfl, h4⟩
        | cons x new =>
          have := (applyAll_fine _ _).1 hf (.column x.1 x.2) (by simp)
          exact absurd trivial this
  | setAlarm n => exact ⟨_, rfl, ⟨h1, rfl, h3, h4⟩⟩
  | setTime n => exact ⟨_, rfl, ⟨h1, h2, rfl, h4⟩⟩
  | setMeta m => exact ⟨_, rfl, ⟨h1, h2, h3, rfl⟩⟩
  | setKind n => exact ⟨_, rfl, ⟨h1, h2, h3, rfl⟩⟩
  | setTags l => exact ⟨_, rfl, ⟨h1, h2, h3, h4⟩⟩
  | setWriteable b => exact ⟨_, rfl, ⟨h1, h2, h3, h4⟩⟩
  | setLabel s => exact ⟨_, rfl, ⟨h1, h2, h3, h4⟩⟩

theorem childSteps_shows (os : List Op) (f : Attr) (s : Attr) (h : Shows s f)
    (hf : (applyAll s (childSteps (some f) os).2).2 = true) :
    ∃ f', (childSteps (some f) os).1 = some f' ∧ Shows (applyAll s (childSteps (some f) os).2).1 f' := by
  induction os generalizing f s with
  | nil => exact ⟨f, rfl, h⟩
  | cons o os ih =>
    have e : (childSteps (some f) (o :: os)).2 =
      (childStep (some f) o).2 ++ (childSteps (childStep (some f) o).1 os).2 := rfl
    have e1 : (childSteps (some f) (o :: os)).1 = (childSteps (childStep (some f) o).1 os).1 := rfl
    rw [e, applyAll_append] at hf ⊢
    rw [e1]
    by_cases h1 : (applyAll s (childStep (some f) o).2).2 = true
    · rw [if_pos h1] at hf ⊢
      obtain ⟨f', ef, hs⟩ := childStep_shows f s o h h1
      rw [ef] at hf ⊢
      exact ih f' _ hs hf
    · rw [if_neg h1] at hf
      exact absurd hf h1

theorem run_append (w : World) (es fs : List Event) : run w (es ++ fs) = run (run w es) fs := List.foldl_append ..

theorem shows_from (es : List Event) (w : World) (f : Attr) (hc : w.child = some f) (hs : Shows w.shown f)
    (hf : ∀ b ∈ (run w es).fine, b = true) : ∃ f', (run w es).child = some f' ∧ Shows (run w es).shown f' := by
  have mono : ∀ (es : List Event) (w : World), (∀ b ∈ (run w es).fine, b = true) → ∀ b ∈ w.fine, b = true := by
    intro es
    induction es with
    | nil => intro w h; exact h
    | cons e es ih =>
      intro w h b hb
      have := ih (step w e) h
      cases e with
      | child os => exact this b (List.mem_cons_of_mem _ hb)
      | state x => exact this b hb
  induction es generalizing w f with
  | nil => exact ⟨f, hc, hs⟩
  | cons e es ih =>
    cases e with
    | state b => exact ih (step w (.state b)) f hc ⟨hs.value, hs.alarm, hs.time, hs.kind⟩ hf
    | child os =>
      have hfin : (applyAll w.shown (childSteps w.child os).2).2 = true :=
        mono es (step w (.child os)) hf _ (List.mem_cons_self ..)
      rw [hc] at hfin
      obtain ⟨f', e1, hs'⟩ := childSteps_shows os f w.shown hs hfin
      refine ih (step w (.child os)) f' ?_ ?_ hf
      · show (childSteps w.child os).1 = _
        rw [hc]; exact e1
      · show Shows (applyAll w.shown (childSteps w.child os).2).1 f'
        rw [hc]; exact hs'

/-- As long as none of the child's changes has raised, the exported field has the value, alarm, time and kind that the
field of the child has, whatever was done to it and whatever the states of the manager. -/
theorem shown_partial (label : String) (a : Attr) (es : List Event)
    (hf : ∀ b ∈ (run (exported label a) es).fine, b = true) :
    ∃ f, (run (exported label a) es).child = some f ∧ Shows (run (exported label a) es).shown f :=
  shows_from es _ a rfl ⟨rfl, rfl, rfl, rfl⟩ hf

theorem childSteps_quiet (os : List Op) (f : Option Attr) (h : ∀ o ∈ os, ¬ Replaces o ∧ ¬ SetsColumns o) :
    ∀ c ∈ (childSteps f os).2, ¬ Raises c := by
  induction os generalizing f with
  | nil => intro c hc; cases hc
  | cons o os ih =>
    intro c hc
    have e : (childSteps f (o :: os)).2 = (childStep f o).2 ++ (childSteps (childStep f o).1 os).2 := rfl
    rw [e] at hc
    rcases List.mem_append.1 hc with hc | hc
    · have ho := h o (List.mem_cons_self ..)
      have ha : ∀ x y (c : Change), c ∈ alarmChange x y → ¬ Raises c := by
        intro x y c hc
        unfold alarmChange at hc
        split at hc
        · cases hc
        · rw [List.mem_singleton.1 hc]; exact id
      cases o with
      | put a => exact absurd trivial ho.1
      | remove => exact absurd trivial ho.1
      | setColumns new al t => exact absurd trivial ho.2
      | setValue v al t =>
        cases f with
        | none => cases hc
        | some f =>
          have hc : c ∈ Change.value v :: alarmChange f.alarm al ++ [.time t] := hc
          rcases List.mem_append.1 hc with hc | hc
          · rcases List.mem_cons.1 hc with hc | hc
            · rw [hc]; exact id
            · exact ha _ _ _ hc
          · rw [List.mem_singleton.1 hc]; exact id
      | setAlarm n => cases f <;> simp [childStep] at hc; subst hc; exact id
      | setTime n => cases f <;> simp [childStep] at hc; subst hc; exact id
      | setMeta m => cases f <;> simp [childStep] at hc; subst hc; exact id
      | setKind n => cases f <;> simp [childStep] at hc; subst hc; exact id
      | setTags l => cases f <;> simp [childStep] at hc; subst hc; exact id
      | setWriteable b => cases f <;> simp [childStep] at hc; subst hc; exact id
      | setLabel s => cases f <;> simp [childStep] at hc; subst hc; exact id
    · exact ih _ (fun o ho => h o (List.mem_cons_of_mem _ ho)) c hc

/-- None has if the child never replaces its field nor sets a table by some of its columns. -/
theorem none_raised (label : String) (a : Attr) (es : List Event)
    (h : ∀ o ∈ ops es, ¬ Replaces o ∧ ¬ SetsColumns o) : ∀ b ∈ (run (exported label a) es).fine, b = true := by
  have gen : ∀ (es : List Event) (w : World), (∀ o ∈ ops es, ¬ Replaces o ∧ ¬ SetsColumns o) →
      (∀ b ∈ w.fine, b = true) → ∀ b ∈ (run w es).fine, b = true := by
    intro es
    induction es with
    | nil => intro w _ hw; exact hw
    | cons e es ih =>
      intro w h hw
      cases e with
      | state b => exact ih (step w (.state b)) h hw
      | child os =>
        refine ih (step w (.child os)) (fun o ho => h o (List.mem_append_right _ ho)) ?_
        intro b hb
        rcases List.mem_cons.1 hb with hb | hb
        · rw [hb]
          exact (applyAll_fine _ _).2 (childSteps_quiet os _ (fun o ho => h o (List.mem_append_left _ ho)))
        · exact hw b hb
  exact gen es _ h (fun b hb => by cases hb)

/-- Even after changes that have raised, a whole value that is set is shown. -/
theorem shown_again (w : World) (f : Attr) (h : w.child = some f) (v : Val) (al t : Int) :
    (step w (.child [.setValue v al t])).shown.value = v ∧ (step w (.child [.setValue v al t])).shown.time = t ∧
      (al ≠ f.alarm → (step w (.child [.setValue v al t])).shown.alarm = al) := by
  have e : (step w (.child [.setValue v al t])).shown = (applyAll w.shown (.value v :: alarmChange f.alarm al ++ [.time t])).1 := by
    show (applyAll w.shown (childSteps w.child [.setValue v al t]).2).1 = _
    rw [h]
    show (applyAll w.shown ((.value v :: alarmChange f.alarm al ++ [.time t]) ++ [])).1 = _
    rw [List.append_nil]
  rw [e]
  unfold alarmChange
  split
  · rename_i e
    exact ⟨rfl, rfl, fun h => absurd e h⟩
  · exact ⟨rfl, rfl, fun _ => rfl⟩

/-- What the child makes of its tags, its label, its writeability, its kind or all of them is shown. -/
theorem info_shown_again (w : World) (f : Attr) (h : w.child = some f) :
    (∀ b, (step w (.child [.setWriteable b])).shown = { w.shown with info := { w.shown.info with writeable := b } }) ∧
    (∀ l, (step w (.child [.setTags l])).shown = { w.shown with info := { w.shown.info with tags := l } }) ∧
    (∀ s, (step w (.child [.setLabel s])).shown = { w.shown with info := { w.shown.info with label := s } }) ∧
    (∀ n, (step w (.child [.setKind n])).shown = { w.shown with info := { w.shown.info with kind := n } }) ∧
    (∀ m, (step w (.child [.setMeta m])).shown = { w.shown with info := m }) := by
  obtain ⟨c, s, l⟩ := w
  cases h
  exact ⟨fun _ => rfl, fun _ => rfl, fun _ => rfl, fun _ => rfl, fun _ => rfl⟩

/-! ### label, tags and writing -/

theorem keeps {β : Type} (get : Attr → β) (P : Op → Prop)
    (hs : ∀ (a : Attr) (b : Bool), get { a with info := { a.info with writeable := b } } = get a)
    (hc : ∀ (f : Option Attr) (o : Op), ¬ P o → ∀ c ∈ (childStep f o).2, ∀ a b, applyChange a c = some b → get b = get a)
    (es : List Event) (w : World) (h : ∀ o ∈ ops es, ¬ P o) : get (run w es).shown = get w.shown := by
  have hall : ∀ (l : List Change) (a : Attr), (∀ c ∈ l, ∀ a b, applyChange a c = some b → get b = get a) →
      get (applyAll a l).1 = get a := by
    intro l
    induction l with
    | nil => intro a _; rfl
    | cons c l ih =>
      intro a h
      unfold applyAll
      cases hb : applyChange a c with
      | none => rfl
      | some b =>
        show get (applyAll b l).1 = _
        rw [ih b (fun c hc => h c (List.mem_cons_of_mem _ hc)), h c (List.mem_cons_self ..) a b hb]
  have hsteps : ∀ (os : List Op) (f : Option Attr), (∀ o ∈ os, ¬ P o) →
      ∀ c ∈ (childSteps f os).2, ∀ a b, applyChange a c = some b → get b = get a := by
    intro os
    induction os with
    | nil => intro f _ c hc; cases hc
    | cons o os ih =>
      intro f h c hcm
      have e : (childSteps f (o :: os)).2 = (childStep f o).2 ++ (childSteps (childStep f o).1 os).2 := rfl
      rw [e] at hcm
      rcases List.mem_append.1 hcm with hcm | hcm
      · exact hc f o (h o (List.mem_cons_self ..)) c hcm
      · exact ih _ (fun o ho => h o (List.mem_cons_of_mem _ ho)) c hcm
  induction es generalizing w with
  | nil => rfl
  | cons e es ih =>
    cases e with
    | state b =>
      show get (run (step w (.state b)) es).shown = _
      rw [ih _ h]
      exact hs _ _
    | child os =>
      show get (run (step w (.child os)) es).shown = _
      rw [ih _ (fun o ho => h o (List.mem_append_right _ ho))]
      exact hall _ _ (hsteps os _ (fun o ho => h o (List.mem_append_left _ ho)))

theorem step_changes (f : Option Attr) (o : Op) (c : Change) (h : c ∈ (childStep f o).2) :
    (∀ s, c = .label s → Relabels o) ∧ (∀ m, c = .info m → Relabels o ∧ Retags o ∧ Rewrites o) ∧
      (∀ l, c = .tags l → Retags o) ∧ (∀ b, c = .writeable b → Rewrites o) := by
  have ha : ∀ x y (c : Change), c ∈ alarmChange x y → c = .alarm y := by
    intro x y c hc
    unfold alarmChange at hc
    split at hc
    · cases hc
    · exact List.mem_singleton.1 hc
  cases o with
  | put a =>
    have : c = .field a := by simpa [childStep] using h
    subst this
    refine ⟨?_, ?_, ?_, ?_⟩ <;> intro _ e <;> cases e
  | remove =>
    cases f with
    | none => cases h
    | some f =>
      have : c = .gone := by simpa [childStep] using h
      subst this
      refine ⟨?_, ?_, ?_, ?_⟩ <;> intro _ e <;> cases e
  | setValue v al t =>
    cases f with
    | none => cases h
    | some f =>
      have h : c ∈ Change.value v :: alarmChange f.alarm al ++ [.time t] := h
      have : c = .value v ∨ c = .alarm al ∨ c = .time t := by
        rcases List.mem_append.1 h with h | h
        · rcases List.mem_cons.1 h with h | h
          · exact Or.inl h
          · exact Or.inr (Or.inl (ha _ _ _ h))
        · exact Or.inr (Or.inr (List.mem_singleton.1 h))
      rcases this with e | e | e <;> subst e <;> (refine ⟨?_, ?_, ?_, ?_⟩ <;> intro _ e <;> cases e)
  | setColumns new al t =>
    cases f with
    | none => cases h
    | some f =>
      cases hv : f.value with
      | scalar n => simp only [childStep, hv] at h; cases h
      | table cols =>
        simp only [childStep, hv] at h
        have : (∃ v, c = .value v) ∨ (∃ k n, c = .column k n) ∨ c = .alarm al ∨ c = .time t := by
          rcases List.mem_append.1 h with h | h
          · rcases List.mem_append.1 h with h | h
            · split at h
              · exact Or.inl ⟨_, List.mem_singleton.1 h⟩
              · obtain ⟨x, _, e⟩ := List.mem_map.1 h
                exact Or.inr (Or.inl ⟨_, _, e.symm⟩)
            · exact Or.inr (Or.inr (Or.inl (ha _ _ _ h)))
          · exact Or.inr (Or.inr (Or.inr (List.mem_singleton.1 h)))
        rcases this with ⟨_, e⟩ | ⟨_, _, e⟩ | e | e <;> subst e <;> (refine ⟨?_, ?_, ?_, ?_⟩ <;> intro _ e <;> cases e)
  | setAlarm n =>
    cases f <;> simp [childStep] at h
    subst h; refine ⟨?_, ?_, ?_, ?_⟩ <;> intro _ e <;> cases e
  | setTime n =>
    cases f <;> simp [childStep] at h
    subst h; refine ⟨?_, ?_, ?_, ?_⟩ <;> intro _ e <;> cases e
  | setKind n =>
    cases f <;> simp [childStep] at h
    subst h; refine ⟨?_, ?_, ?_, ?_⟩ <;> intro _ e <;> cases e
  | setMeta m =>
    cases f <;> simp [childStep] at h
    subst h
    refine ⟨?_, fun _ _ => ⟨trivial, trivial, trivial⟩, ?_, ?_⟩ <;> (intro _ e; cases e)
  | setTags l =>
    cases f <;> simp [childStep] at h
    subst h
    refine ⟨?_, ?_, fun _ _ => trivial, ?_⟩ <;> (intro _ e; cases e)
  | setWriteable b =>
    cases f <;> simp [childStep] at h
    subst h
    refine ⟨?_, ?_, ?_, fun _ _ => trivial⟩ <;> (intro _ e; cases e)
  | setLabel s =>
    cases f <;> simp [childStep] at h
    subst h
    refine ⟨fun _ _ => trivial, ?_, ?_, ?_⟩ <;> (intro _ e; cases e)

/-- The label is that of the export, if the child does not change the label of its field. -/
theorem label_partial (label : String) (a : Attr) (es : List Event) (h : ∀ o ∈ ops es, ¬ Relabels o) :
    (run (exported label a) es).shown.info.label = label := by
  refine (keeps (fun a => a.info.label) Relabels (fun _ _ => rfl) ?_ es _ h)
  intro f o ho c hc a b hb
  obtain ⟨h1, h2, _, _⟩ := step_changes f o c hc
  cases c <;> simp only [applyChange, Option.some.injEq, reduceCtorEq] at hb
  case label => exact absurd (h1 _ rfl) ho
  case info => exact absurd (h2 _ rfl).1 ho
  all_goals (subst hb; rfl)

/-- It is neither saved with the child's design nor in one of the child's groups, if the child does not change the tags. -/
theorem tags_partial (label : String) (a : Attr) (es : List Event) (h : ∀ o ∈ ops es, ¬ Retags o) :
    ∀ t, t ∈ (run (exported label a) es).shown.info.tags ↔
      t ∈ a.info.tags ∧ ¬ ("group:".toList <+: t.toList) ∧ ¬ ("config:".toList <+: t.toList) := by
  intro t
  have e : (run (exported label a) es).shown.info.tags = a.info.tags.filter (fun t => !stripped t) := by
    refine (keeps (fun a => a.info.tags) Retags (fun _ _ => rfl) ?_ es _ h)
    intro f o ho c hc a b hb
    obtain ⟨_, h2, h3, _⟩ := step_changes f o c hc
    cases c <;> simp only [applyChange, Option.some.injEq, reduceCtorEq] at hb
    case tags => exact absurd (h3 _ rfl) ho
    case info => exact absurd (h2 _ rfl).2.1 ho
    all_goals (subst hb; rfl)
  rw [e]
  simp only [List.mem_filter, stripped, Bool.not_eq_true', Bool.or_eq_false_iff]
  simp only [← Bool.not_eq_true, List.isPrefixOf_iff_prefix]

/-- Whether it is shown as writeable: it always is at first, whether or not the child's field is; after that it goes by
the state of the manager, until the child says something else about its own field. -/
theorem shown_writeable_partial (label : String) (a : Attr) (es : List Event) (h : ∀ o ∈ ops es, ¬ Rewrites o) :
    (run (exported label a) es).shown.info.writeable = (lastState es).getD true := by
  have gen : ∀ (es : List Event) (w : World), (∀ o ∈ ops es, ¬ Rewrites o) →
      (run w es).shown.info.writeable = (lastState es).getD w.shown.info.writeable := by
    intro es
    induction es with
    | nil => intro w _; rfl
    | cons e es ih =>
      intro w h
      cases e with
      | state b =>
        show (run (step w (.state b)) es).shown.info.writeable = (lastState es).getD b
        rw [ih _ h]
        rfl
      | child os =>
        show (run (step w (.child os)) es).shown.info.writeable = (lastState es).getD _
        rw [ih _ (fun o ho => h o (List.mem_append_right _ ho))]
        have hall : ∀ (l : List Change) (a : Attr), (∀ c ∈ l, (∀ b, c ≠ .writeable b) ∧ ∀ m, c ≠ .info m) →
            (applyAll a l).1.info.writeable = a.info.writeable := by
          intro l
          induction l with
          | nil => intro a _; rfl
          | cons c l ih =>
            intro a h
            unfold applyAll
            cases hb : applyChange a c with
            | none => rfl
            | some b =>
              show (applyAll b l).1.info.writeable = _
              rw [ih b (fun c hc => h c (List.mem_cons_of_mem _ hc))]
              have hh := h c (List.mem_cons_self ..)
              cases c <;> simp only [applyChange, Option.some.injEq, reduceCtorEq] at hb
              case writeable => exact absurd rfl (hh.1 _)
              case info => exact absurd rfl (hh.2 _)
              all_goals (subst hb; rfl)
        have hst : ∀ (os : List Op) (f : Option Attr), (∀ o ∈ os, ¬ Rewrites o) →
            ∀ c ∈ (childSteps f os).2, (∀ b, c ≠ .writeable b) ∧ ∀ m, c ≠ .info m := by
          intro os
          induction os with
          | nil => intro f _ c hc; cases hc
          | cons o os ih =>
            intro f h c hcm
            have e : (childSteps f (o :: os)).2 = (childStep f o).2 ++ (childSteps (childStep f o).1 os).2 := rfl
            rw [e] at hcm
            rcases List.mem_append.1 hcm with hcm | hcm
            · obtain ⟨_, h2, _, h4⟩ := step_changes f o c hcm
              exact ⟨fun b e => h o (List.mem_cons_self ..) (h4 b e), fun m e => h o (List.mem_cons_self ..) (h2 m e).2.2⟩
            · exact ih _ (fun o ho => h o (List.mem_cons_of_mem _ ho)) c hcm
        have : (step w (.child os)).shown.info.writeable = w.shown.info.writeable :=
          hall _ _ (hst os _ (fun o ho => h o (List.mem_append_left _ ho)))
        rw [this]
  exact gen es _ h

/-! ### puts and posts -/

/-- C99: a put to the exported field is done if and only if the field is writeable, the value passes, the child can be written, the value
passes there and the put function of the child accepts it. -/
theorem put_done_iff (validate : Int → Val → Option Val) (w : World) (ok : Val → Bool) (v : Val) :
    (exportPut validate w ok v).2 = .done none ↔ ∃ f x y, w.shown.info.writeable = true ∧ validate w.shown.info.kind v = some x ∧
      w.child = some f ∧ f.info.writeable = true ∧ validate f.info.kind x = some y ∧ ok y = true ∧
      (exportPut validate w ok v).1 = [y] := by
  unfold exportPut childPut
  cases w.shown.info.writeable with
  | false => simp
  | true =>
    cases validate w.shown.info.kind v with
    | none => simp
    | some x =>
      cases w.child with
      | none => simp
      | some f =>
        cases hw : f.info.writeable with
        | false => simp [hw]
        | true =>
          cases hv : validate f.info.kind x with
          | none => simp [hw, hv]
          | some y => cases ho : ok y <;> simp [hw, hv, ho]

/-- What is put reaches the child as a put of the same value, just if it is shown as writeable: the child's function is
called just if the child would call it for that value, and the put succeeds just if that does. -/
theorem put_reaches_partial (validate : Int → Val → Option Val)
    (hid : ∀ k v x, validate k v = some x → validate k x = some x) (label : String) (a : Attr) (es : List Event)
    (hf : ∀ b ∈ (run (exported label a) es).fine, b = true) (ok : Val → Bool) (v : Val) :
    ∃ f, (run (exported label a) es).child = some f ∧
      ((run (exported label a) es).shown.info.writeable = true →
        (exportPut validate (run (exported label a) es) ok v).1 = (childPut validate f ok v).1 ∧
        ((exportPut validate (run (exported label a) es) ok v).2 = .done none ↔ (childPut validate f ok v).2 = .done none)) ∧
      ((run (exported label a) es).shown.info.writeable = false →
        exportPut validate (run (exported label a) es) ok v = ([], .notWriteable)) := by
  obtain ⟨f, hc, hs⟩ := shown_partial label a es hf
  refine ⟨f, hc, ?_, ?_⟩
  · intro hw
    unfold exportPut
    rw [if_pos hw, hc, hs.kind]
    unfold childPut
    cases hv : validate f.info.kind v with
    | none => cases hfw : f.info.writeable <;> simp
    | some x =>
      simp only [hid _ _ _ hv]
      cases hfw : f.info.writeable with
      | false => simp
      | true =>
        cases hok : ok x <;> simp [hok]
  · intro hw
    unfold exportPut
    rw [if_neg (by simp [hw])]

/-- A method without parameters is called once if it is shown as writeable and is. -/
theorem post_reaches_partial (shown writeable : Bool) (f : Params → Option Int) :
    (exportPost shown writeable f []).1 = (if shown then (childPost writeable f []).1 else []) ∧
    ((exportPost shown writeable f []).2 = .done none ↔ shown = true ∧ writeable = true ∧ (f []).isSome) := by
  unfold exportPost childPost
  cases shown <;> cases writeable <;> cases h : f [] <;> simp [h]

/-! ### where it is false -/

/-- A field that can only be read, and a table -/
def reading : Attr := ⟨.scalar 1, 0, 0, ⟨7, ["config:1", "widget:led"], false, "Reading"⟩⟩
def table : Attr := ⟨.table [("a", 1), ("b", 2)], 0, 0, ⟨8, [], true, "Table"⟩⟩

/-- Disagreement with C99: a field that can only be read is shown as one that can be written once it is exported. -/
theorem readonly_shown_writeable : reading.info.writeable = false ∧
    (exported "My Reading" reading).shown.info.writeable = true ∧
    exportPut (fun _ v => some v) (exported "My Reading" reading) (fun _ => true) (.scalar 2) = ([], .failed) := by
  decide +kernel

/-- Disagreement with C99: a table of which one column is changed raises in the child, and the exported table keeps the old
column. -/
theorem column_not_shown :
    (run (exported "T" table) [.child [.setColumns [("b", 3)] 0 1]]).child = some { table with value := .table [("a", 1), ("b", 3)], time := 1 } ∧
    (run (exported "T" table) [.child [.setColumns [("b", 3)] 0 1]]).shown.value = .table [("a", 1), ("b", 2)] ∧
    (run (exported "T" table) [.child [.setColumns [("b", 3)] 0 1]]).fine = [false] := by decide +kernel

/-- Disagreement with C99: if the child makes its field anew, as a manager does with all its fields whenever its exports or
layout change, that raises in the child, and the old value is shown. -/
theorem replaced_not_shown :
    (run (exported "R" reading) [.child [.remove, .put { reading with value := .scalar 5 }]]).child =
      some { reading with value := .scalar 5 } ∧
    (run (exported "R" reading) [.child [.remove, .put { reading with value := .scalar 5 }]]).shown.value = .scalar 1 ∧
    (run (exported "R" reading) [.child [.remove, .put { reading with value := .scalar 5 }]]).fine = [false] := by
  decide +kernel

/-- Disagreement with C99: when the child changes its tags or its label, the exported field takes them as they are: it is
saved in designs again, and has the label of the child. -/
theorem tags_and_label_come_back :
    (run (exported "My Reading" reading) [.child [.setTags ["config:1"], .setLabel "Other"]]).shown.info =
      ⟨7, ["config:1"], true, "Other"⟩ := by decide +kernel

/-- Disagreement with C99: an exported method cannot be called with parameters, whatever they are. -/
theorem parameters_refused (f : Params → Option Int) (p : String × Int) (ps : Params) :
    exportPost true true f (p :: ps) = ([], .failed) ∧
    (childPost true f (p :: ps)).1 = [p :: ps] := ⟨rfl, rfl⟩

/-- Disagreement with C99: what the method returns is lost. -/
theorem result_lost : (childPost true (fun _ => some 4) []).2 = .done (some 4) ∧
    (exportPost true true (fun _ => some 4) []).2 = .done none := by decide +kernel

/-! ### an example -/

example : (∀ b ∈ (run (exported "T" table) [.child [.setColumns [("a", 5), ("b", 3)] 1 1, .setKind 9], .state false,
      .child [.setValue (.table [("a", 6)]) 2 2], .state true]).fine, b = true) ∧
    (run (exported "T" table) [.child [.setColumns [("a", 5), ("b", 3)] 1 1, .setKind 9], .state false,
      .child [.setValue (.table [("a", 6)]) 2 2], .state true]).shown = ⟨.table [("a", 6)], 2, 2, ⟨9, [], true, "T"⟩⟩ := by
  decide +kernel

end Verif.Props.ExportMirror
