import Verif.Model.Shutter
import Verif.Props.States
/-!
C89: "A shutter that a scan controls is open while the parts of the block run, and is closed when no scan runs."
-/
namespace Verif.Props.Shutter
open Verif Verif.Shutter Verif.Props.States

/-- What is known of the shutter at each point -/
def Fine (s : State) : Prop :=
  match s.phase with
  | .rest t => t ∈ [St.ready, .armed, .paused, .finished, .aborted, .fault, .disabled] ∧
      (t ∈ [St.ready, .paused, .finished, .aborted] → s.isOpen = false)
  | .reset | .abort | .postReady | .configReset => s.acted = true → s.isOpen = false
  | .pause n => (s.acted = true → s.isOpen = false) ∧ (n = .armed ∨ n = .paused)
  | .seek n => s.isOpen = false ∧ (n = .armed ∨ n = .paused)
  | .saving | .loading | .configure | .init => s.isOpen = false
  | .preRun => s.acted = true → s.isOpen = true
  | .run => s.isOpen = true
  | .postArmed | .disable => True

theorem begin_eq (s : State) (t : St) (p : Phase) : s.begin t p = if t ∈ edges s.phase.state then s.go p else s := by
  unfold State.begin
  rw [runnable_transition_iff]
  by_cases h : t ∈ edges s.phase.state
  · simp [h]
  · simp [h]

attribute [local irreducible] State.begin

theorem fine_begin {s : State} (hf : Fine s) (t : St) (p : Phase)
    (h : t ∈ edges s.phase.state → Fine (s.go p)) : Fine (s.begin t p) := by
  rw [begin_eq]
  split
  · rename_i ha; exact h ha
  · exact hf

theorem fine_step {s : State} (h : Fine s) (e : Ev) (he : e ≠ .init) : Fine (s.step e) := by
  obtain ⟨p, a, o⟩ := s
  cases e with
  | init => exact absurd rfl he
  | act => cases p <;> simp_all [State.step, Phase.does, Fine]
  | done more =>
    cases p <;> cases a <;> cases more <;> simp_all [State.step, Phase.does, Phase.next, State.go, Fine]
    all_goals (rcases h.2 with rfl | rfl <;> simp)
  | failed => cases p <;> simp_all [State.step, State.go, Fine]
  | reset => rw [State.step]; exact fine_begin h _ _ (fun _ => by simp [State.go, Fine])
  | disable => rw [State.step]; exact fine_begin h _ _ (fun _ => by simp [State.go, Fine])
  | abort => rw [State.step]; exact fine_begin h _ _ (fun _ => by simp [State.go, Fine])
  | save =>
    rw [State.step]
    refine fine_begin h _ _ (fun hm => ?_)
    cases p <;> simp_all [State.go, Fine, Phase.state, edges]
    rename_i t; cases t <;> simp_all [edges]
  | load =>
    rw [State.step]
    refine fine_begin h _ _ (fun hm => ?_)
    cases p <;> simp_all [State.go, Fine, Phase.state, edges]
    rename_i t; cases t <;> simp_all [edges]
  | configure =>
    rw [State.step]
    refine fine_begin h _ _ (fun hm => ?_)
    cases p <;> simp_all [State.go, Fine, Phase.state, edges]
    rename_i t; cases t <;> simp_all [edges]
  | run =>
    simp only [State.step]
    split
    · exact fine_begin h _ _ (fun _ => by simp [State.go, Fine])
    · exact h
  | resume =>
    simp only [State.step]
    split
    · exact fine_begin h _ _ (fun _ => by simp [State.go, Fine])
    · exact h
  | pause given =>
    simp only [State.step]
    split
    · exact h
    · refine fine_begin h _ _ (fun _ => ?_)
      simp only [State.go, Fine, Bool.false_eq_true, false_implies, true_and]
      split <;> simp

/-- What a user does with a block after it was started, and what happens then: the process calls init, once -/
def used (isOpen : Bool) (es : List Ev) : State := ({ isOpen := isOpen } : State).steps (.init :: es)

theorem fine_used (es : List Ev) (h : .init ∉ es) : Fine (used false es) := by
  unfold used State.steps
  rw [List.foldl_cons]
  have h0 : Fine (({} : State).step .init) := by
    rw [State.step, begin_eq]
    simp [edges, Phase.state, State.go, Fine]
  revert h0
  generalize ({} : State).step .init = s
  intro h0
  induction es generalizing s with
  | nil => exact h0
  | cons e es ih =>
    rw [List.foldl_cons]
    exact ih (fun hm => h (List.mem_cons_of_mem _ hm)) _ (fine_step h0 e (fun hc => h (by rw [hc]; exact List.mem_cons_self)))

/-- **The shutter is closed in Ready, Paused, Finished and Aborted, and open whenever the run hooks go on**, whatever calls are
made and however their hooks end, if it was closed when the block was started.  Not so in Armed, Fault and Disabled:
`open_between_runs`, `open_in_fault`, `open_when_disabled`; nor when it was open before: `open_from_the_start`. -/
theorem shutter_partial (es : List Ev) (h : .init ∉ es) :
    ((used false es).phase.state ∈ [St.ready, .paused, .finished, .aborted] → (used false es).isOpen = false) ∧
    ((used false es).phase = .run → (used false es).isOpen = true) := by
  have hf := fine_used es h
  generalize used false es = s at hf
  obtain ⟨p, a, o⟩ := s
  cases p <;> simp_all [Fine, Phase.state]

/-- A block that is armed for its first run, or that was reset, has it closed -/
theorem armed_closed (es : List Ev) (h : .init ∉ es) (h1 : (used false es).phase = .configure) (more : Bool) :
    (used false (es ++ [.done more])).phase = .rest .armed ∧ (used false (es ++ [.done more])).isOpen = false := by
  have hf := fine_used es h
  have he : used false (es ++ [.done more]) = (used false es).step (.done more) := by
    simp [used, State.steps]
  rw [he]
  generalize used false es = s at hf h1
  obtain ⟨p, a, o⟩ := s
  simp only at h1
  subst h1
  simp only [Fine] at hf
  subst hf
  simp [State.step, Phase.does, State.go, Phase.next]

/-- **The shutter gets closed**: from every point, whatever has happened, an abort, a reset or a seek that goes through leaves
it closed -/
theorem closing_closes (s : State) :
    (.aborting ∈ edges s.phase.state → (s.steps [.abort, .act, .done false]).phase = .rest .aborted ∧
      (s.steps [.abort, .act, .done false]).isOpen = false) ∧
    (.resetting ∈ edges s.phase.state → (s.steps [.reset, .act, .done false]).phase = .rest .ready ∧
      (s.steps [.reset, .act, .done false]).isOpen = false) ∧
    (.seeking ∈ edges s.phase.state → (s.steps [.pause true, .act, .done false, .done false]).phase.state ∈ [St.paused, .armed] ∧
      (s.steps [.pause true, .act, .done false, .done false]).isOpen = false) := by
  refine ⟨?_, ?_, ?_⟩
  · intro h
    simp [State.steps, State.step, begin_eq, h, State.go, Phase.does, Phase.next]
  · intro h
    simp [State.steps, State.step, begin_eq, h, State.go, Phase.does, Phase.next]
  · intro h
    simp only [State.steps, State.step, List.foldl_cons, List.foldl_nil, begin_eq, h, if_true]
    have hn : (if s.phase.state = St.armed ∨ s.phase.state = St.finished then St.armed else St.paused) = .paused ∨
        (if s.phase.state = St.armed ∨ s.phase.state = St.finished then St.armed else St.paused) = .armed := by
      split <;> simp
    generalize (if s.phase.state = St.armed ∨ s.phase.state = St.finished then St.armed else St.paused) = n at *
    simpa [State.go, Phase.does, Phase.next, Phase.state] using hn

/-! ### Cases -/

def toArmed : List Ev := [.done false, .configure, .done false]
def toRun : List Ev := toArmed ++ [.run, .act, .done false]

/-- A scan that is paused, resumed and finished -/
def whole : List Ev := toRun ++ [.pause false, .act, .done false, .done false, .resume, .act, .done false, .done false, .act, .done false]

example : .init ∉ whole ∧ (used false toRun).phase = .run ∧ (used false whole).phase = .rest .finished ∧
    (used false (toRun ++ [.pause false, .act, .done false, .done false])).phase = .rest .paused := by decide +kernel

/-- Between the runs of a scan with several runs the block is Armed and the shutter is open -/
theorem open_between_runs : ∃ es, .init ∉ es ∧ (used false es).phase = .rest .armed ∧ (used false es).isOpen = true :=
  ⟨toRun ++ [.done true, .done false], by decide +kernel, by decide +kernel, by decide +kernel⟩

/-- A part fails in a run: the block is in Fault and the shutter is open -/
theorem open_in_fault : ∃ es, .init ∉ es ∧ (used false es).phase = .rest .fault ∧ (used false es).isOpen = true :=
  ⟨toRun ++ [.failed], by decide +kernel, by decide +kernel, by decide +kernel⟩

/-- The block is disabled in a run: the shutter is open -/
theorem open_when_disabled : ∃ es, .init ∉ es ∧ (used false es).phase = .rest .disabled ∧ (used false es).isOpen = true :=
  ⟨toRun ++ [.disable, .done false], by decide +kernel, by decide +kernel, by decide +kernel⟩

/-- A shutter that was open when the block was started is open in Ready -/
theorem open_from_the_start : ∃ es, .init ∉ es ∧ (used true es).phase = .rest .ready ∧ (used true es).isOpen = true :=
  ⟨[.done false], by decide +kernel, by decide +kernel, by decide +kernel⟩

end Verif.Props.Shutter
