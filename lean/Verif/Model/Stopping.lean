import Verif.Model.States
/-!
A scan and the detectors that are shown in it: malcolm/modules/scanning/parts/detectorchildpart.py with
malcolm/modules/builtin/parts/childpart.py 160-171, 259-266, as the hooks of
malcolm/modules/scanning/controllers/runnablecontroller.py 430-756 call them. Each detector is a runnable block of its own.

Simplifications. The block of a detector does one call at a time, a call that it accepts while another goes on ends that one, and
a call that a part makes is accepted or refused at once. Calls of the scan go on one at a time; abort(), pause() and disable() end
what goes on before their own hooks start, and are left out while hooks run that they do not stop: those of reset() and abort(),
and the reset hooks in configure() (Verif.Model.Runnable and Verif.Model.Overlap have the calls at the same time). Others call a
detector only while no call of the scan goes on. A hook that fails stops the hooks of the other parts at once. Saving, loading
and setting the layout of the scan are left out.
-/
namespace Verif.Stopping
open Verif

/-- The calls of the block of a detector that its part makes, or somebody else -/
inductive Call
  | reset | load | save | configure | run | resume | pause | abort | disable
  deriving DecidableEq, Repr

/-- Where each is accepted: runnablecontroller.py 190-223 (builtin/controllers/managercontroller.py 118, 141 for setting the design
and for saving; statefulcontroller.py 180-189 for disable) -/
def Call.writeable : Call → List St
  | .reset => [.fault, .disabled, .aborted, .armed, .finished]
  | .load | .save => [.ready]
  | .configure => [.ready, .finished]
  | .run => [.armed]
  | .resume => [.paused]
  | .pause => [.armed, .paused, .running, .finished]
  | .abort => [.ready, .configuring, .armed, .running, .postrun, .paused, .seeking, .finished]
  | .disable => [.resetting, .fault, .ready, .saving, .loading, .configuring, .armed, .running, .postrun, .finished, .paused,
      .seeking, .aborting, .aborted]

/-- The state that it takes the block to: statefulcontroller.py 95, 104; managercontroller.py 415, 504; runnablecontroller.py 450,
534, 610, 694, 740 -/
def Call.start : Call → St
  | .reset => .resetting
  | .load => .loading
  | .save => .saving
  | .configure => .configuring
  | .run | .resume => .running
  | .pause => .seeking
  | .abort => .aborting
  | .disable => .disabling

/-- How what goes on in a block can end: statefulcontroller.py 78-104, runnablecontroller.py 452, 529-532, 568, 610, 683-694; a
failure takes it to Fault (statefulcontroller.py 112-114) -/
def ends : St → List St
  | .resetting | .loading | .saving => [.ready, .fault]
  | .configuring => [.armed, .fault]
  | .running => [.postrun, .fault]
  | .postrun => [.armed, .finished, .fault]
  | .seeking => [.armed, .paused, .fault]
  | .aborting => [.aborted, .fault]
  | .disabling => [.disabled, .fault]
  | _ => []

/-- What a hooked function of a part does next with its block -/
inductive Instr
  /-- a call that is made whatever the state is -/
  | call (c : Call)
  /-- a call that is made if the block would accept it: detectorchildpart.py 134-135, childpart.py 164-165, 170-171 -/
  | callIf (c : Call)
  /-- detectorchildpart.py 353-360: run or resume, and wait for PostRun -/
  | run
  /-- detectorchildpart.py 375: wait for what the run returns -/
  | runEnd
  deriving DecidableEq, Repr

/-- What a hooked function waits for -/
inductive Wait
  | call | postRun | runEnd
  deriving DecidableEq, Repr

/-- A detector that is shown in the scan -/
structure Det where
  /-- detectorchildpart.py 120-128: its block was in Fault when the process started -/
  faulty : Bool
  /-- childpart.py 262: a design is saved for it -/
  design : Bool
  /-- detectorchildpart.py 318-324: frames_per_step is not 0 -/
  taking : Bool
  /-- the state of its block -/
  st : St
  todo : List Instr := []
  waiting : Option Wait := none
  deriving DecidableEq, Repr

/-- The hooks of the scan that a DetectorChildPart has functions for: detectorchildpart.py 72-81, childpart.py 134-143 -/
inductive Hook
  | reset | preConfigure | configure | run | postRun | seek | abort | disable
  deriving DecidableEq, Repr

/-- What the part does in a hook: detectorchildpart.py 131-137, 306-390; childpart.py 160-171, 259-266 -/
def Det.program (d : Det) : Hook → List Instr
  | .reset => if d.faulty then [] else [.callIf .abort, .callIf .reset]
  | .preConfigure => if d.design then [.call .load] else []
  | .configure => if d.taking then [.call .configure] else []
  | .run => if d.taking then [.run] else []
  | .postRun => if d.taking then [.runEnd] else []
  | .seek => if d.taking then [.call .pause] else []
  | .abort => [.call .abort]
  | .disable => [.callIf .disable]

/-- A detector after something that its part did, and whether that raised -/
structure Res where
  det : Det
  raised : Bool := false
  deriving DecidableEq, Repr

/-- A call is made, or it raises a NotWriteableError: core/controller.py 176-178 -/
def Det.make (d : Det) (c : Call) (w : Wait) : Res :=
  if d.st ∈ c.writeable then ⟨{ d with st := c.start, waiting := some w }, false⟩ else ⟨d, true⟩

/-- What a function of a part does next: detectorchildpart.py 135-137, 332, 354-357, 375, 385, 390 -/
def Det.exec (d : Det) : Instr → Res
  | .call c => d.make c .call
  | .callIf c => if d.st ∈ c.writeable then d.make c .call else ⟨d, false⟩
  | .run => if d.st = .armed then d.make .run .postRun else d.make .resume .postRun
  | .runEnd =>
    if d.st = .armed ∨ d.st = .finished then ⟨d, false⟩
    else if d.st = .running ∨ d.st = .postrun then ⟨{ d with waiting := some .runEnd }, false⟩
    else ⟨d, true⟩

/-- What goes on in the block of a detector ends, and whoever waits for that goes on or gets an exception: detectorchildpart.py 353,
358-368, 375 -/
def Det.ended (d : Det) (st : St) : Res :=
  match d.waiting with
  | none => ⟨{ d with st := st }, false⟩
  | some .call | some .postRun => ⟨{ d with st := st, waiting := none }, st = .fault⟩
  | some .runEnd => ⟨{ d with st := st, waiting := if st = .postrun then some .runEnd else none }, st = .fault⟩

/-- The function of the part has returned, or there is none -/
def Det.idle (d : Det) : Bool := d.todo = [] && d.waiting = none

/-- The scan. `hooks` are those that it still runs, the first of which goes on, and `final` is where the call ends -/
structure Scan where
  st : St
  hooks : List Hook := []
  final : St := .ready
  dets : List Det
  deriving DecidableEq, Repr

/-- core/hook.py 172-182: the functions of the parts are spawned -/
def Scan.spawn (s : Scan) : List Hook → Scan
  | [] => { s with hooks := [], st := s.final }
  | h :: hs =>
    { s with
      hooks := h :: hs
      st := if h = .postRun then .postrun else s.st
      dets := s.dets.map (fun d => { d with todo := d.program h, waiting := none }) }

/-- A call of the scan: statefulcontroller.py 152-156, runnablecontroller.py 449-452, 533-540, 618-645 -/
def Scan.begin (s : Scan) (st final : St) (hooks : List Hook) : Scan :=
  { s with st := st, final := final }.spawn hooks

/-- core/hook.py 228-238, statefulcontroller.py 112-114, 168-169: a hook has failed, the others are stopped and the block goes to Fault -/
def Scan.fail (s : Scan) : Scan :=
  { s with st := .fault, hooks := [], dets := s.dets.map (fun d => { d with todo := [], waiting := none }) }

/-- The calls of the scan that go on with hooks that abort(), pause() and disable() stop: runnablecontroller.py 625-630, 745-750 -/
def Scan.stoppable (s : Scan) : Bool :=
  s.hooks.all (fun h => h ≠ .reset && h ≠ .abort && h ≠ .disable)

/-- What happens -/
inductive Ev
  | reset
  /-- with the detectors that take part, by their places -/
  | configure (taking : Nat → Bool)
  | run
  | resume
  | pause
  | abort
  | disable
  /-- the part of the detector at a place goes on with its function -/
  | part (i : Nat)
  /-- what goes on in the block of a detector ends in a state -/
  | det (i : Nat) (st : St)
  /-- all functions have returned, and the scan goes on; `last` if this was the last run of the scan -/
  | next (last : Bool)
  /-- a function of another part raises -/
  | otherFails
  /-- somebody else calls a detector -/
  | other (i : Nat) (c : Call)

/-- The rows of the table of detectors: detectorchildpart.py 254-271, 318-324 (frames_per_step is set here before the hooks of the
configure run, not in the middle of them) -/
def taken (taking : Nat → Bool) : Nat → List Det → List Det
  | _, [] => []
  | i, d :: ds => { d with taking := taking i } :: taken taking (i + 1) ds

/-- detectorchildpart.py 188-192: a faulty detector that is to take part is refused before anything is done -/
def refused (taking : Nat → Bool) : Nat → List Det → Bool
  | _, [] => false
  | i, d :: ds => (taking i && d.faulty) || refused taking (i + 1) ds

/-- What happens to the detector at a place; what raises fails the hooks of the scan -/
def Scan.at (s : Scan) (i : Nat) (f : Det → Res) : Scan :=
  match s.dets[i]? with
  | none => s
  | some d =>
    if (f d).raised then { s with dets := s.dets.set i (f d).det }.fail
    else { s with dets := s.dets.set i (f d).det }

/-- The part goes on if it does not wait -/
def Det.go (d : Det) : Res :=
  match d.waiting, d.todo with
  | none, ins :: rest => { d with todo := rest }.exec ins
  | _, _ => ⟨d, false⟩

/-- A step -/
def Scan.step (s : Scan) : Ev → Scan
  | .reset =>
    if s.hooks = [] ∧ s.st ∈ Call.reset.writeable then s.begin .resetting .ready [.reset] else s
  | .configure taking =>
    if s.hooks = [] ∧ s.st ∈ Call.configure.writeable ∧ ¬ refused taking 0 s.dets then
      { s with dets := taken taking 0 s.dets }.begin .configuring .armed
        (if s.st = St.finished then [.reset, .preConfigure, .configure] else [.preConfigure, .configure])
    else s
  | .run => if s.hooks = [] ∧ s.st = .armed then s.begin .running .armed [.run, .postRun] else s
  | .resume => if s.hooks = [] ∧ s.st = .paused then s.begin .running .armed [.run, .postRun] else s
  | .pause =>
    if s.stoppable ∧ s.st ∈ Call.pause.writeable then
      s.begin .seeking (if s.st = .armed ∨ s.st = .finished then .armed else .paused) [.seek]
    else s
  | .abort => if s.stoppable ∧ s.st ∈ Call.abort.writeable then s.begin .aborting .aborted [.abort] else s
  | .disable => if s.stoppable ∧ s.st ∈ Call.disable.writeable then s.begin .disabling .disabled [.disable] else s
  | .part i => s.at i Det.go
  | .det i st => s.at i (fun d => if st ∈ ends d.st then d.ended st else ⟨d, false⟩)
  | .next last =>
    if s.hooks ≠ [] ∧ s.dets.all Det.idle then
      { s with final := if s.hooks = [Hook.postRun] ∧ last then .finished else s.final }.spawn s.hooks.tail
    else s
  | .otherFails => if s.hooks = [] then s else s.fail
  | .other i c =>
    if s.hooks = [] then s.at i (fun d => if d.st ∈ c.writeable then ⟨{ d with st := c.start }, false⟩ else ⟨d, false⟩) else s

/-- A history -/
def Scan.run (s : Scan) (evs : List Ev) : Scan := evs.foldl Scan.step s

end Verif.Stopping
