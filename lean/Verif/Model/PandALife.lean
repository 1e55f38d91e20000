import Verif.Model.States
/-!
The life of the manager of a PandA: when its blocks are made, when it is connected and when it is polled.
`malcolm/modules/pandablocks/controllers/pandamanagercontroller.py` 90-214 and
`malcolm/modules/builtin/controllers/statefulcontroller.py` 78-168.

Simplifications: `init`, `reset` and `disable` are not called while one of them is under way, while the loop that polls
runs beside them and may fail at any point.  What `handle_changes` does is in `Model/PandAPoll.lean`, what it takes to make a
block is in `Model/PandABlock.lean`; here each of them works or raises.
-/
namespace Verif.PandALife
open Verif

/-- What is in `_child_controllers`, and what has been done of `_make_child_controllers` (160-214): nothing, some of it
(it raised after the first block had been made), or all of it -/
inductive Made
  | nothing | part | whole
  deriving DecidableEq, Repr

/-- The calls: `init` is made when the process starts (statefulcontroller.py 54), `reset` and `disable` by clients -/
inductive Job
  | init | reset | disable
  deriving DecidableEq, Repr

/-- Where a call has got to: 98, 103, 105, the rest of the call of the base class (hooks, then in `do_init` the layout or the
initial design, managercontroller.py 144-154), the last transition; and 109, 153, 155, 157, the last transition -/
inductive Pc
  | connect | make | spawn | hooks | layout | ending
  | dHooks | dPut | dWait | dClient | dEnding
  deriving DecidableEq, Repr

/-- Whether what a call does next works, raises, or raises half way through -/
inductive Out
  | ok | fail | failHalfWay
  deriving DecidableEq, Repr

structure Mgr where
  /-- `state.value`: Disabled after the constructor (statefulcontroller.py 53) -/
  st : St := .disabled
  /-- `_client.started` -/
  client : Bool := false
  /-- `_child_controllers` -/
  made : Made := .nothing
  /-- whether the hooks for `init` and the first layout have been done: `do_init` has returned -/
  inited : Bool := false
  /-- `_poll_spawned` -/
  spawned : Option Nat := none
  /-- the spawned `_poll_loop`s that have not ended -/
  live : List Nat := []
  /-- how many have been spawned -/
  next : Nat := 0
  /-- how many messages there are in `_stop_queue` -/
  msgs : Nat := 0
  /-- how many times changes have been handled (140) -/
  polls : Nat := 0
  /-- the call that is under way -/
  job : Option (Job × Pc) := none
  deriving DecidableEq, Repr

/-- statefulcontroller.py 132, with the states of a manager -/
def allowed (a b : St) : Bool := managerStates.transitionAllowed a b == some true

/-- statefulcontroller.py 112-114, `go_to_error_state`; where Fault is not allowed it raises and leaves the state -/
def goError (m : Mgr) : Mgr :=
  if m.st = .fault then m else if allowed m.st .fault then { m with st := .fault } else m

/-- statefulcontroller.py 157-168: a call that raised -/
def failJob (m : Mgr) : Mgr := goError { m with job := none }

/-- statefulcontroller.py 156: the last transition of a call -/
def finish (m : Mgr) (t : St) : Mgr :=
  if allowed m.st t then { m with st := t, job := none } else failJob m

/-- statefulcontroller.py 78-79, 94-95, 103-104 and 154: a call begins -/
def call (m : Mgr) (j : Job) : Mgr :=
  match m.job with
  | some _ => m
  | none =>
    let t := if j = .disable then St.disabling else .resetting
    let p := if j = .disable then Pc.dHooks else .connect
    if allowed m.st t then { m with st := t, job := some (j, p) } else goError m

/-- pandamanagercontroller.py 90-114 and 152-158: the call that is under way goes on -/
def go (m : Mgr) (r : Out) : Mgr :=
  match m.job with
  | none => m
  | some (j, .connect) =>
    if m.client then { m with job := some (j, .make) }
    else
      -- 99: a new queue; 102
      let m := { m with msgs := 0 }
      if r = .ok then { m with client := true, job := some (j, .make) } else failJob m
  | some (j, .make) =>
    -- 103: if there are any blocks, that is all
    if m.made = .nothing then
      match r with
      | .ok => { m with made := .whole, job := some (j, .spawn) }
      | .fail => failJob m
      | .failHalfWay => failJob { m with made := .part }
    else { m with job := some (j, .spawn) }
  | some (j, .spawn) =>
    if m.spawned = none then
      { m with spawned := some m.next, live := m.next :: m.live, next := m.next + 1, job := some (j, .hooks) }
    else { m with job := some (j, .hooks) }
  | some (j, .hooks) =>
    if r = .ok then { m with job := some (j, if j = .init then .layout else .ending) } else failJob m
  | some (j, .layout) =>
    if r = .ok then { m with inited := true, job := some (j, .ending) } else failJob m
  | some (_, .ending) => finish m .ready
  | some (j, .dHooks) => if r = .ok then { m with job := some (j, .dPut) } else failJob m
  | some (j, .dPut) =>
    if m.spawned.isSome then { m with msgs := m.msgs + 1, job := some (j, .dWait) }
    else { m with job := some (j, .dClient) }
  | some (j, .dWait) =>
    match m.spawned with
    | none => m
    -- 155: waits for as long as the loop has not ended
    | some i => if i ∈ m.live then m else { m with spawned := none, job := some (j, .dClient) }
  | some (j, .dClient) => { m with client := false, job := some (j, .dEnding) }
  | some (_, .dEnding) => finish m .disabled

/-- What may happen -/
inductive Ev
  /-- `init`, `reset` or `disable` is called -/
  | call (j : Job)
  /-- the call goes on -/
  | go (r : Out)
  /-- a loop handles the changes (140) -/
  | poll (i : Nat)
  /-- a loop raises (148-150) -/
  | pollFail (i : Nat)
  /-- a loop gets the message (135) -/
  | take (i : Nat)
  /-- a design is saved or loaded -/
  | design (t : St)
  deriving DecidableEq, Repr

def step (m : Mgr) : Ev → Mgr
  | .call j => call m j
  | .go r => go m r
  | .poll i => if i ∈ m.live then { m with polls := m.polls + 1 } else m
  | .pollFail i => if i ∈ m.live then goError { m with live := m.live.filter (· ≠ i) } else m
  | .take i =>
    if i ∈ m.live ∧ 0 < m.msgs then { m with live := m.live.filter (· ≠ i), msgs := m.msgs - 1 } else m
  -- builtin/controllers/managercontroller.py, `save` and `set_design`: only when no other call is under way
  | .design t =>
    if m.job = none ∧ t ∈ [St.saving, .loading, .ready] ∧ allowed m.st t then { m with st := t } else m

def run (m : Mgr) (es : List Ev) : Mgr := es.foldl step m

/-- 60-88 and statefulcontroller.py 53: the manager after its constructor -/
def start : Mgr := {}

end Verif.PandALife
