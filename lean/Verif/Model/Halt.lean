/-!
What becomes of the blocks of a process that is stopped: malcolm/core/process.py 142-186 (`_run_hook`, `stop`),
malcolm/modules/builtin/controllers/statefulcontroller.py 87-101, 112-168 (`halt`, `disable`, `transition`,
`try_stateful_function`), malcolm/modules/builtin/parts/childpart.py 160-178 (`on_disable`, `on_halt`),
malcolm/core/hook.py 172-242 and malcolm/core/controller.py 240-270.

The functions of all the blocks are run at once, each in its own thread, and those of the parts of a block are again: the steps of
the threads come in any order.

Simplifications: the blocks are Ready, Disabled or in Fault, with nothing under way, when the process is stopped, and clients call
nothing meanwhile. They are StatefulControllers and ManagerControllers, not RunnableControllers, which stop what is under
way when they are disabled (Model.Runnable). What the parts of a block do that are not ChildParts is one thing that works
or raises at some time. What a part whose context has been stopped does apart from giving up its wait is as
if it had not been stopped.
-/
namespace Verif.Halt

/-- builtin/util.py 137-141: the states a block can be in here -/
inductive St
  | ready | disabling | disabled | fault
  deriving DecidableEq, Repr

/-- builtin/util.py 148-160: the transitions among them -/
def St.allowed : St → St → Bool
  | .ready, .fault => true
  | .ready, .disabling => true
  | .fault, .disabling => true
  | .disabling, .fault => true
  | .disabling, .disabled => true
  | _, _ => false

/-- statefulcontroller.py 49, 170-189: whether `disable` is writeable -/
def St.writeable (s : St) : Bool := s ≠ .disabling && s ≠ .disabled

/-- statefulcontroller.py 112-114 `go_to_error_state`: if the transition is not allowed it raises, and nothing is changed -/
def St.error (s : St) : St := if s.allowed .fault then .fault else s

/-- childpart.py 160-165: how far the on_disable of a ChildPart is: not begun, the method found to be writeable, waiting for the call
that has this number, or ended, without an exception or with one -/
inductive KidSt
  | idle | seen
  | waiting (job : Nat)
  | over (ok : Bool)
  deriving DecidableEq, Repr

/-- How far a call of `halt` or `disable` is: the HaltHooks of the parts are being run (statefulcontroller.py 87-91), `disable` is called
next (92, or controller.py 240-270 has taken the Post), its DisableHooks are being run (statefulcontroller.py 97-101: the parts that are not ChildParts,
the ChildParts), or it has ended, without an exception or with one -/
inductive Phase
  | halting | due
  | running (own : Option Bool) (kids : List KidSt)
  | over (ok : Bool)
  deriving DecidableEq, Repr

/-- A call of `halt` or of `disable` of a block: statefulcontroller.py 87-95 -/
structure Job where
  blk : Nat
  ph : Phase
  deriving DecidableEq, Repr

/-- The blocks: their states (statefulcontroller.py 42-47), the calls made so far, those of `halt` first, and the blocks whose
DisableHooks have been started, in order (statefulcontroller.py 97-101) -/
structure World where
  st : Nat → St
  jobs : List Job
  began : List Nat

/-- process.py 142-154, 168-170: the process is stopped: each of its `n` blocks is to halt -/
def World.start (st : Nat → St) (n : Nat) : World := ⟨st, (List.range n).map fun b => ⟨b, .halting⟩, []⟩

/-- statefulcontroller.py 145: the state of one block is changed -/
def World.put (w : World) (b : Nat) (s : St) : World := { w with st := fun c => if c = b then s else w.st c }

/-- A call is in another phase: statefulcontroller.py 87-101, 152-168 -/
def World.setJob (w : World) (j : Nat) (b : Nat) (ph : Phase) : World := { w with jobs := w.jobs.set j ⟨b, ph⟩ }

/-- hook.py 228: whether the function of some part has raised -/
def bad (own : Option Bool) (ks : List KidSt) : Bool := own == some false || ks.contains (.over false)

/-- hook.py 200: whether the function of this part has ended -/
def KidSt.isOver : KidSt → Bool
  | .over _ => true
  | _ => false

/-- The steps of the threads -/
inductive Ev
  /-- the HaltHooks of the parts have been run, or one has raised -/
  | halt (j : Nat) (ok : Bool)
  /-- `disable` begins -/
  | begin (j : Nat)
  /-- what the parts do that are not ChildParts has been done, or has raised -/
  | own (j : Nat) (ok : Bool)
  /-- a ChildPart goes on -/
  | kid (j i : Nat)
  /-- a ChildPart that waits has been stopped, another part having raised -/
  | giveUp (j i : Nat)
  /-- all the DisableHooks have been run -/
  | finish (j : Nat)
  deriving DecidableEq, Repr

/-- childpart.py 163-165: the next thing the on_disable of the `i`th ChildPart of call `j` does: it looks whether the method is writeable,
it calls it (controller.py 252: refused if it is not writeable any more, else called in a thread of its own), it gets the result -/
def World.kid (kids : Nat → List Nat) (w : World) (j b i : Nat) (own : Option Bool) (ks : List KidSt) : World :=
  match ks[i]?, (kids b)[i]? with
  | some .idle, some c => w.setJob j b (.running own (ks.set i (if (w.st c).writeable then .seen else .over true)))
  | some .seen, some c =>
    if (w.st c).writeable then
      let w := w.setJob j b (.running own (ks.set i (.waiting w.jobs.length)))
      { w with jobs := w.jobs ++ [⟨c, .due⟩] }
    else w.setJob j b (.running own (ks.set i (.over false)))
  | some (.waiting k), _ =>
    match w.jobs[k]? with
    | some ⟨_, .over ok⟩ => w.setJob j b (.running own (ks.set i (.over ok)))
    | _ => w
  | _, _ => w

/-- One step: statefulcontroller.py 87-101, 152-168; childpart.py 160-165; hook.py 185-242. `kids` are the blocks of the ChildParts that take
part: those that are stateful and not hidden (managercontroller.py 394-407) -/
def World.step (kids : Nat → List Nat) (w : World) : Ev → World
  | .halt j ok =>
    match w.jobs[j]? with
    | some ⟨b, .halting⟩ => w.setJob j b (if ok then .due else .over false)
    | _ => w
  | .begin j =>
    match w.jobs[j]? with
    | some ⟨b, .due⟩ =>
      if (w.st b).allowed .disabling then
        let w := (w.put b .disabling).setJob j b (.running none ((kids b).map fun _ => .idle))
        { w with began := w.began ++ [b] }
      else (w.put b (w.st b).error).setJob j b (.over false)
    | _ => w
  | .own j ok =>
    match w.jobs[j]? with
    | some ⟨b, .running none ks⟩ => w.setJob j b (.running (some ok) ks)
    | _ => w
  | .kid j i =>
    match w.jobs[j]? with
    | some ⟨b, .running own ks⟩ => w.kid kids j b i own ks
    | _ => w
  | .giveUp j i =>
    match w.jobs[j]? with
    | some ⟨b, .running own ks⟩ =>
      match ks[i]? with
      | some (.waiting _) => if bad own ks then w.setJob j b (.running own (ks.set i (.over false))) else w
      | _ => w
    | _ => w
  | .finish j =>
    match w.jobs[j]? with
    | some ⟨b, .running own ks⟩ =>
      if own.isSome && ks.all KidSt.isOver then
        if !bad own ks && (w.st b).allowed .disabled then (w.put b .disabled).setJob j b (.over true)
        else (w.put b (w.st b).error).setJob j b (.over false)
      else w
    | _ => w

/-- Some steps, one after another: process.py 160-170 -/
def World.run (kids : Nat → List Nat) (w : World) (es : List Ev) : World := es.foldl (World.step kids) w

end Verif.Halt
