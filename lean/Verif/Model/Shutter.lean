import Verif.Model.States
/-!
The part that opens a shutter for a run: malcolm/modules/scanning/parts/attributeprerunpart.py 23-61, with the hooks that
malcolm/modules/scanning/controllers/runnablecontroller.py 430-756 runs for it.

Simplification: one call goes on at a time, and an abort, a pause or a disable ends what goes on before its own hooks start
(runnablecontroller.py 625-637; Verif.Model.Runnable has the calls at the same time). What other parts do is not known: the
hooks of all parts can end in a failure before or after this part has done what it does.
-/
namespace Verif.Shutter
open Verif

/-- What goes on in the block, finer than its state -/
inductive Phase
  /-- a state in which nothing goes on -/
  | rest (s : St)
  /-- statefulcontroller.py 78-85: the init hooks -/
  | init
  /-- statefulcontroller.py 103-110: the reset hooks -/
  | reset
  | disable
  /-- managercontroller.py 413-415, 502-504: save or load -/
  | saving
  | loading
  /-- runnablecontroller.py 464-469: the reset hooks that a configure starts with when the block is Finished -/
  | configReset
  | configure
  /-- runnablecontroller.py 565 -/
  | preRun
  /-- runnablecontroller.py 567: the run hooks -/
  | run
  /-- runnablecontroller.py 569-583 -/
  | postArmed
  /-- runnablecontroller.py 584-589 -/
  | postReady
  /-- runnablecontroller.py 700-721, before and after the pause hooks, with the state that it goes to -/
  | pause (next : St)
  | seek (next : St)
  | abort
  deriving DecidableEq, Repr

/-- `state.value` -/
def Phase.state : Phase → St
  | .rest s => s
  | .init | .reset => .resetting
  | .disable => .disabling
  | .saving => .saving
  | .loading => .loading
  | .configReset | .configure => .configuring
  | .preRun | .run => .running
  | .postArmed | .postReady => .postrun
  | .pause _ | .seek _ => .seeking
  | .abort => .aborting

/-- What the part does in the hooks of a phase: attributeprerunpart.py 45-61; childpart.py 143 hooks `on_reset` to the reset
hooks. `some true` is on_pre_run, which opens the shutter, `some false` is on_reset, which closes it -/
def Phase.does : Phase → Option Bool
  | .preRun => some true
  | .pause _ | .abort | .postReady | .reset | .configReset => some false
  | _ => none

structure State where
  phase : Phase := .rest .disabled
  /-- whether the part has done what it does in this phase -/
  acted : Bool := false
  /-- whether the attribute has the pre_run_value -/
  isOpen : Bool := false
  deriving DecidableEq, Repr

inductive Ev
  /-- the put of the part is done -/
  | act
  /-- all hooks of the phase are over; whether there are more steps after this run, which only a run asks -/
  | done (more : Bool)
  /-- the hooks of the phase failed -/
  | failed
  -- the calls
  | init | reset | disable | save | load | configure | run | resume | abort
  /-- a pause; whether lastGoodStep is given -/
  | pause (given : Bool)
  deriving DecidableEq, Repr

def State.go (s : State) (p : Phase) : State := { s with phase := p, acted := false }

/-- A call that starts with a transition: refused if it isn't allowed (statefulcontroller.py 123-150) -/
def State.begin (s : State) (t : St) (p : Phase) : State :=
  if runnableStates.transitionAllowed s.phase.state t = some true then s.go p else s

/-- What comes when all hooks of a phase are over -/
def Phase.next (more : Bool) : Phase → Phase
  | .rest s => .rest s
  | .init | .reset | .saving | .loading => .rest .ready
  | .disable => .rest .disabled
  | .configReset => .configure
  | .configure => .rest .armed
  | .preRun => .run
  | .run => if more then .postArmed else .postReady
  | .postArmed => .rest .armed
  | .postReady => .rest .finished
  | .pause n => .seek n
  | .seek n => .rest n
  | .abort => .rest .aborted

/-- One event; a call that the block refuses changes nothing. -/
def State.step (s : State) : Ev → State
  | .act =>
    match s.phase.does with
    | some b => { s with isOpen := b, acted := true }
    | none => s
  | .done more =>
    -- the hooks aren't over before the part has done its own
    if s.phase.does.isSome ∧ !s.acted then s else s.go (s.phase.next more)
  | .failed =>
    match s.phase with
    | .rest _ => s
    | _ => s.go (.rest .fault)
  | .init => s.begin .resetting .init
  | .reset => s.begin .resetting .reset
  | .disable => s.begin .disabling .disable
  | .save => s.begin .saving .saving
  | .load => s.begin .loading .loading
  | .configure => s.begin .configuring (if s.phase.state = .finished then .configReset else .configure)
  | .run => if s.phase.state = .armed then s.begin .running .preRun else s
  | .resume => if s.phase.state = .paused then s.begin .running .preRun else s
  | .abort => s.begin .aborting .abort
  | .pause given =>
    if !given ∧ s.phase.state = .finished then s
    else s.begin .seeking (.pause (if s.phase.state = .armed ∨ s.phase.state = .finished then .armed else .paused))

def State.steps (s : State) (es : List Ev) : State := es.foldl State.step s

end Verif.Shutter
