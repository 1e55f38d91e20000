import Verif.Model.PandALife
/-!
Calls of a block that overlap: malcolm/modules/builtin/controllers/statefulcontroller.py 47-56, 78-114, 123-168, 170-190, with the
calls of managercontroller.py 413-415 and 502-504, and those of a PandA (pandamanagercontroller.py 90-114, 152-158).

Simplified: what a call does between its two transitions (the hooks of the parts) is one thing that works or raises at some time.
The runnable blocks, whose `disable` and `abort` stop what is under way, are in Model/Runnable.lean.
-/
namespace Verif.Overlap
open Verif

/-- The calls: statefulcontroller.py 78-104, managercontroller.py 413-415, 502-504. `init` and `halt` are made by the process
(statefulcontroller.py 54-55), the others by clients. -/
inductive Kind | init | reset | disable | halt | save | load
  deriving DecidableEq, Repr

/-- the first state of a call: statefulcontroller.py 79, 95, 104, managercontroller.py 415, 504 -/
def Kind.start : Kind → St
  | .init => .resetting
  | .reset => .resetting
  | .disable => .disabling
  | .halt => .disabling
  | .save => .saving
  | .load => .loading

/-- the state a call ends in: statefulcontroller.py 79, 95, 104, managercontroller.py 415, 504 -/
def Kind.final : Kind → St
  | .disable => .disabled
  | .halt => .disabled
  | _ => .ready

/-- when clients can call: statefulcontroller.py 50-52, 182-189, managercontroller.py 118, 141; the process can always -/
def Kind.writeable (k : Kind) (s : St) : Bool :=
  match k with
  | .init => true
  | .halt => true
  | .reset => s == .disabled || s == .fault
  | .disable => !(s == .disabling || s == .disabled)
  | .save => s == .ready
  | .load => s == .ready

/-- The block: its state, the calls under way with their numbers, and how those that ended did: `true` if they returned,
statefulcontroller.py 152-168 -/
structure Blk where
  st : St := .disabled
  jobs : List (Nat × Kind) := []
  next : Nat := 0
  ended : List (Nat × Bool) := []
  deriving DecidableEq, Repr

/-- statefulcontroller.py 132, with the states of a manager: core/stateset.py 12-17 -/
def allowed (a b : St) : Bool := managerStates.transitionAllowed a b == some true

/-- statefulcontroller.py 112-114 `go_to_error_state` -/
def goError (s : St) : St := if s = .fault then s else if allowed s .fault then .fault else s

/-- What can happen -/
inductive Ev
  | call (k : Kind)
  /-- what the call does has been done -/
  | done (id : Nat)
  /-- it raises -/
  | fails (id : Nat)
  /-- something in the background fails: pandamanagercontroller.py 148-150 -/
  | error
  deriving DecidableEq, Repr

/-- A call begins: core/controller.py 252, statefulcontroller.py 152-154, 167-168 -/
def call (b : Blk) (k : Kind) : Blk :=
  if k.writeable b.st then
    if allowed b.st k.start then { b with st := k.start, jobs := b.jobs ++ [(b.next, k)], next := b.next + 1 }
    else { b with st := goError b.st, next := b.next + 1, ended := b.ended ++ [(b.next, false)] }
  else { b with next := b.next + 1, ended := b.ended ++ [(b.next, false)] }

/-- which call has this number -/
def kindOf (b : Blk) (id : Nat) : Option Kind := (b.jobs.find? (·.1 = id)).map (·.2)

/-- A call has raised or returned, and is not under way any more: statefulcontroller.py 155-168 -/
def leave (b : Blk) (id : Nat) (ok : Bool) : Blk :=
  { b with jobs := b.jobs.filter (·.1 ≠ id), ended := b.ended ++ [(id, ok)] }

/-- One event: statefulcontroller.py 152-168 -/
def step (b : Blk) : Ev → Blk
  | .call k => call b k
  | .done id =>
    match kindOf b id with
    | none => b
    | some k =>
      if allowed b.st k.final then { leave b id true with st := k.final }
      else { leave b id false with st := goError b.st }
  | .fails id =>
    match kindOf b id with
    | none => b
    | some _ => { leave b id false with st := goError b.st }
  | .error => { b with st := goError b.st }

/-- A history: statefulcontroller.py 78-168; the block is Disabled at first (53) -/
def run (b : Blk) (es : List Ev) : Blk := es.foldl step b

/-! ### A PandA -/

/-- What happens to the manager of a PandA when calls overlap: as `PandALife.Ev`, with the number of the call that goes on;
pandamanagercontroller.py 90-158 -/
inductive PEv
  | call (j : PandALife.Job)
  | go (i : Nat) (r : PandALife.Out)
  | poll (i : Nat)
  | pollFail (i : Nat)
  | take (i : Nat)
  deriving DecidableEq, Repr

/-- The manager of a PandA with the calls under way: pandamanagercontroller.py 90-158. The `job` of the manager is not used. -/
structure Pan where
  m : PandALife.Mgr := {}
  jobs : List (PandALife.Job × PandALife.Pc) := []
  deriving DecidableEq, Repr

/-- which call it is: statefulcontroller.py 78-104 -/
def kind : PandALife.Job → Kind
  | .init => .init
  | .reset => .reset
  | .disable => .disable

/-- pandamanagercontroller.py 90-158: one event, with what `PandALife.call` and `PandALife.go` say of the call it is about. The block is
called by clients when statefulcontroller.py 50-52, 182-189 let them. -/
def pstep (p : Pan) : PEv → Pan
  | .call j =>
    if (kind j).writeable p.m.st then
      let m := PandALife.call { p.m with job := none } j
      { m := { m with job := none }, jobs := p.jobs ++ m.job.toList }
    else p
  | .go i r =>
    match p.jobs[i]? with
    | none => p
    | some x =>
      let m := PandALife.go { p.m with job := some x } r
      { m := { m with job := none }, jobs := match m.job with
        | some y => p.jobs.set i y
        | none => p.jobs.eraseIdx i }
  | .poll i => { p with m := PandALife.step p.m (.poll i) }
  | .pollFail i => { p with m := PandALife.step p.m (.pollFail i) }
  | .take i => { p with m := PandALife.step p.m (.take i) }

/-- A history: pandamanagercontroller.py 90-158 -/
def prun (p : Pan) (es : List PEv) : Pan := es.foldl pstep p

end Verif.Overlap
