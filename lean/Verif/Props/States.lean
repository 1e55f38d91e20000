import Verif.Model.States
import Verif.Proofs.States
/-!
C02 (and the table part of C01): the state sets, against an independently written table.
-/
namespace Verif.Props.States
open Verif

/-- Specification: the edges of the published Stateful/Manager/Runnable state machines, written
out state by state as in the diagrams generated for docs/reference/statesets.rst. -/
def edges : St → List St
  | .resetting   => [.ready, .fault, .disabling]
  | .ready       => [.saving, .loading, .configuring, .aborting, .fault, .disabling]
  | .saving      => [.ready, .fault, .disabling]
  | .loading     => [.ready, .fault, .disabling]
  | .configuring => [.armed, .aborting, .fault, .disabling]
  | .armed       => [.running, .seeking, .resetting, .aborting, .fault, .disabling]
  | .running     => [.postrun, .seeking, .aborting, .fault, .disabling]
  | .postrun     => [.finished, .armed, .seeking, .aborting, .fault, .disabling]
  | .finished    => [.seeking, .resetting, .configuring, .aborting, .fault, .disabling]
  | .seeking     => [.armed, .paused, .finished, .aborting, .fault, .disabling]
  | .paused      => [.seeking, .running, .aborting, .fault, .disabling]
  | .aborting    => [.aborted, .fault, .disabling]
  | .aborted     => [.resetting, .fault, .disabling]
  | .fault       => [.resetting, .disabling]
  | .disabling   => [.fault, .disabled]
  | .disabled    => [.resetting]

/-- The states of each kind of block. -/
def statefulOnly : List St := [.resetting, .disabled, .disabling, .fault, .ready]
def managerOnly : List St := statefulOnly ++ [.saving, .loading]

/-- C01/C02: the runnable state set allows exactly the documented edges, and no state is missing
(the lookup never fails its assertion). -/
theorem runnable_transition_iff (a b : St) :
    runnableStates.transitionAllowed a b = some (decide (b ∈ edges a)) := by
  rw [runnableStates_eq]; cases a <;> cases b <;> rfl

/-- The manager state set is the restriction of the documented edges to its states. -/
theorem manager_transition_iff (a b : St) (ha : a ∈ managerOnly) :
    managerStates.transitionAllowed a b = some (decide (b ∈ edges a ∧ b ∈ managerOnly)) := by
  rw [managerStates_eq]
  cases a <;> first | (cases b <;> rfl) | (exact absurd ha (by decide +kernel))

/-- The stateful state set is the restriction of the documented edges to its states. -/
theorem stateful_transition_iff (a b : St) (ha : a ∈ statefulOnly) :
    statefulStates.transitionAllowed a b = some (decide (b ∈ edges a ∧ b ∈ statefulOnly)) := by
  rw [statefulStates_eq]
  cases a <;> first | (cases b <;> rfl) | (exact absurd ha (by decide +kernel))

/-- States outside a state set are rejected by assertion, not treated as having no edges. -/
theorem stateful_foreign_state_rejected (a b : St) (ha : a ∉ statefulOnly) :
    statefulStates.transitionAllowed a b = none := by
  rw [statefulStates_eq]
  cases a <;> first | (cases b <;> rfl) | (exact absurd (by decide +kernel) ha)

theorem manager_foreign_state_rejected (a b : St) (ha : a ∉ managerOnly) :
    managerStates.transitionAllowed a b = none := by
  rw [managerStates_eq]
  cases a <;> first | (cases b <;> rfl) | (exact absurd (by decide +kernel) ha)

/-- `possible_states` (the choices of the state attribute) has exactly the states of the set. -/
theorem possible_states_exact (a : St) :
    (a ∈ statefulStates.possible ↔ a ∈ statefulOnly) ∧
    (a ∈ managerStates.possible ↔ a ∈ managerOnly) ∧
    a ∈ runnableStates.possible := by
  simp only [statefulStates_eq, managerStates_eq, runnableStates_eq]; cases a <;> decide

/-- `possible_states` lists no state twice. -/
theorem possible_states_nodup :
    statefulStates.possible.Nodup ∧ managerStates.possible.Nodup ∧
    runnableStates.possible.Nodup := by
  simp only [statefulStates_eq, managerStates_eq, runnableStates_eq]; decide

/-- Following allowed transitions zero or more times. -/
inductive Reach (ss : StateSet) : St → St → Prop
  | refl (a) : Reach ss a a
  | step {a b c} : ss.transitionAllowed a b = some true → Reach ss b c → Reach ss a c

/-- C02: in every state set, in every live state (all but Disabled) Fault and Disabling are
allowed targets (from anywhere but themselves). -/
theorem fault_and_disable_always_allowed (ss : StateSet)
    (hss : ss = statefulStates ∨ ss = managerStates ∨ ss = runnableStates)
    (a : St) (ha : a ∈ ss.possible) (hd : a ≠ .disabled) :
    (a ≠ .fault → ss.transitionAllowed a .fault = some true) ∧
    (a ≠ .disabling → ss.transitionAllowed a .disabling = some true) := by
  rcases hss with h | h | h <;> subst h <;>
    simp only [statefulStates_eq, managerStates_eq, runnableStates_eq] at * <;> revert ha hd <;> cases a <;> decide

/-- C02: Disabled is only entered from Disabling, and can only be left by a reset. -/
theorem disabled_only_via_disabling (ss : StateSet)
    (hss : ss = statefulStates ∨ ss = managerStates ∨ ss = runnableStates)
    (a : St) (ha : a ∈ ss.possible) :
    (ss.transitionAllowed a .disabled = some true ↔ a = .disabling) ∧
    (ss.transitionAllowed .disabled a = some true ↔ a = .resetting) := by
  rcases hss with h | h | h <;> subst h <;>
    simp only [statefulStates_eq, managerStates_eq, runnableStates_eq] at * <;> revert ha <;> cases a <;> decide

/-- C02: Fault can always be left by a reset, which can then reach Ready. -/
theorem fault_and_disabled_recoverable (ss : StateSet)
    (hss : ss = statefulStates ∨ ss = managerStates ∨ ss = runnableStates) :
    ss.transitionAllowed .fault .resetting = some true ∧
    ss.transitionAllowed .disabled .resetting = some true ∧
    ss.transitionAllowed .resetting .ready = some true := by
  rcases hss with h | h | h <;> subst h <;>
    simp only [statefulStates_eq, managerStates_eq, runnableStates_eq] <;> decide

/-- C02: Ready is reachable from every state of every state set. -/
theorem ready_reachable (ss : StateSet)
    (hss : ss = statefulStates ∨ ss = managerStates ∨ ss = runnableStates)
    (a : St) (ha : a ∈ ss.possible) : Reach ss a .ready := by
  have hr := fault_and_disabled_recoverable ss hss
  have hrr : Reach ss .resetting .ready := .step hr.2.2 (.refl _)
  have hf : Reach ss .fault .ready := .step hr.1 hrr
  by_cases h1 : a = .disabled
  · subst h1; exact .step hr.2.1 hrr
  · by_cases h2 : a = .fault
    · subst h2; exact hf
    · exact .step ((fault_and_disable_always_allowed ss hss a ha h1).1 h2) hf

/-- A scan can only be Running after having been Armed or Paused, and Armed is only entered from
Configuring, PostRun or Seeking: there is no way to run without configuring. -/
theorem running_only_from_armed_or_paused (a : St) :
    runnableStates.transitionAllowed a .running = some true ↔ a = .armed ∨ a = .paused := by
  simp only [statefulStates_eq, managerStates_eq, runnableStates_eq]; cases a <;> decide

theorem armed_only_from (a : St) :
    runnableStates.transitionAllowed a .armed = some true ↔
      a = .configuring ∨ a = .postrun ∨ a = .seeking := by
  simp only [statefulStates_eq, managerStates_eq, runnableStates_eq]; cases a <;> decide

-- Non-vacuity: the hypotheses are met by ordinary states.
example : St.running ∈ runnableStates.possible ∧ St.running ≠ .disabled := by decide +kernel
example : St.saving ∈ managerOnly := by decide +kernel
example : St.running ∉ statefulOnly := by decide +kernel

end Verif.Props.States
