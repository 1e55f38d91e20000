/-!
State sets: `malcolm/core/stateset.py`, `malcolm/modules/builtin/util.py` 133-175,
`malcolm/modules/scanning/util.py` 168-210.
-/
namespace Verif

/-- The state names of the three state sets: the string constants of `StatefulStates`
(builtin/util.py 137-141), `ManagerStates` (167-168) and `RunnableStates`
(scanning/util.py 172-180).  Simplification: an enumeration instead of strings. -/
inductive St
  | resetting | disabled | disabling | fault | ready
  | saving | loading
  | configuring | armed | running | postrun | finished | paused | seeking | aborting | aborted
  deriving DecidableEq, Repr, Inhabited

/-- All state names. -/
def St.all : List St :=
  [.resetting, .disabled, .disabling, .fault, .ready, .saving, .loading, .configuring, .armed,
   .running, .postrun, .finished, .paused, .seeking, .aborting, .aborted]

/-- core/stateset.py 6-10: `_allowed` is an ordered dict of sets, `possible_states` a list. -/
structure StateSet where
  allowed : List (St × List St) := []
  possible : List St := []
  deriving DecidableEq, Repr

namespace StateSet

/-- core/stateset.py 22: `self._allowed.setdefault(initial, set()).update(allowed)`.
A set is modelled by a list used only for membership. -/
def addAllowed : List (St × List St) → St → List St → List (St × List St)
  | [], i, a => [(i, a)]
  | (k, s) :: r, i, a => if k = i then (k, s ++ a) :: r else (k, s) :: addAllowed r i a

/-- core/stateset.py 23-25: append each state not seen before. -/
def addPossible (p : List St) (new : List St) : List St :=
  new.foldl (fun acc s => if s ∈ acc then acc else acc ++ [s]) p

/-- core/stateset.py 19-25 `set_allowed`. -/
def setAllowed (ss : StateSet) (initial : St) (allowed : List St) : StateSet :=
  { allowed := addAllowed ss.allowed initial allowed,
    possible := addPossible ss.possible (allowed ++ [initial]) }

/-- Lookup of `self._allowed[initial]`; `none` is the failed assertion of lines 14-16. -/
def targets : List (St × List St) → St → Option (List St)
  | [], _ => none
  | (k, s) :: r, i => if k = i then some s else targets r i

/-- core/stateset.py 12-17 `transition_allowed`; `none` is the AssertionError. -/
def transitionAllowed (ss : StateSet) (initial target : St) : Option Bool :=
  (targets ss.allowed initial).map (fun l => decide (target ∈ l))

end StateSet

open StateSet

/-- builtin/util.py 148-149 `StatefulStates.create_block_transitions`. -/
def statefulBlockTransitions (ss : StateSet) : StateSet :=
  ss.setAllowed .resetting [.ready]

/-- builtin/util.py 151-160 `create_error_disable_transitions`. -/
def errorDisableTransitions (ss : StateSet) : StateSet :=
  let blockStates := ss.possible
  let ss := blockStates.foldl
    (fun ss s => (ss.setAllowed s [.fault]).setAllowed s [.disabling]) ss
  let ss := ss.setAllowed .fault [.resetting, .disabling]
  let ss := ss.setAllowed .disabling [.fault, .disabled]
  ss.setAllowed .disabled [.resetting]

/-- builtin/util.py 170-175 `ManagerStates.create_block_transitions`. -/
def managerBlockTransitions (ss : StateSet) : StateSet :=
  let ss := statefulBlockTransitions ss
  let ss := ss.setAllowed .ready [.saving]
  let ss := ss.setAllowed .saving [.ready]
  let ss := ss.setAllowed .ready [.loading]
  ss.setAllowed .loading [.ready]

/-- scanning/util.py 195-204: the states that can be aborted. -/
def normalStates : List St :=
  [.ready, .configuring, .armed, .running, .postrun, .paused, .seeking, .finished]

/-- scanning/util.py 182-210 `RunnableStates.create_block_transitions`. -/
def runnableBlockTransitions (ss : StateSet) : StateSet :=
  let ss := managerBlockTransitions ss
  let ss := ss.setAllowed .ready [.configuring]
  let ss := ss.setAllowed .configuring [.armed]
  let ss := ss.setAllowed .armed [.running, .seeking, .resetting]
  let ss := ss.setAllowed .running [.postrun, .seeking]
  let ss := ss.setAllowed .postrun [.finished, .armed, .seeking]
  let ss := ss.setAllowed .finished [.seeking, .resetting, .configuring]
  let ss := ss.setAllowed .seeking [.armed, .paused, .finished]
  let ss := ss.setAllowed .paused [.seeking, .running]
  let ss := normalStates.foldl (fun ss s => ss.setAllowed s [.aborting]) ss
  let ss := ss.setAllowed .aborting [.aborted]
  ss.setAllowed .aborted [.resetting]

/-- builtin/util.py 143-146: `StatefulStates()`. -/
def statefulStates : StateSet := errorDisableTransitions (statefulBlockTransitions {})
/-- builtin/util.py 143-146, 163-175: `ManagerStates()`. -/
def managerStates : StateSet := errorDisableTransitions (managerBlockTransitions {})
/-- builtin/util.py 143-146, scanning/util.py 168-210: `RunnableStates()`. -/
def runnableStates : StateSet := errorDisableTransitions (runnableBlockTransitions {})

end Verif
