/-!
How the blocks of a process get going: malcolm/core/process.py 75-99, 142-158 (`start`, `_start_controllers`, `_run_hook`),
malcolm/modules/builtin/controllers/statefulcontroller.py 78-85, 94-110, 152-168 (`init`, `disable`, `reset`),
malcolm/modules/builtin/controllers/managercontroller.py 143-154 (`do_init`),
malcolm/modules/builtin/parts/childpart.py 146-158 (`on_init`) and malcolm/modules/builtin/util.py 117-130
(`wait_for_stateful_block_init`).

Functions are spawned as cothreads (core/concurrency.py 23-53): they begin in the order they were spawned in, and run until
they wait. What each waits for then is left open.

Simplifications: while blocks start nobody calls them; all parts of a block that are not ChildParts are one, whose InitHook
takes as long as it likes and succeeds or not; so does what a manager does after its InitHook (list the designs, load the
initial design or set the layout); no block adds others while it starts; when one function of a hook has failed, the others
are taken to do nothing more, as their contexts are stopped.
-/
namespace Verif.Startup

/-- util.py 133-141: the states a block goes through when it starts -/
inductive St
  | disabled | resetting | ready | fault
  deriving DecidableEq, Repr

/-- childpart.py 107-116: the block a ChildPart stands for, and its `stateful` -/
structure Kid where
  id : Nat
  stateful : Bool := true
  deriving DecidableEq, Repr

/-- childpart.py 146-158: the `on_init` of a ChildPart has not begun, waits for its child, or has ended well -/
inductive PSt
  | idle | waiting | done
  deriving DecidableEq, Repr

/-- A block with what decides how it starts: its children, whether the other parts succeed at init (`ownGood`), and whether
the rest of `do_init` does (`restGood`). `own`: the other parts have returned; `laid`: `do_init` has come to its end
(managercontroller.py 146-154) -/
structure Block where
  kids : List Kid
  ownGood : Bool := true
  restGood : Bool := true
  st : St := .disabled
  parts : List PSt := []
  own : Bool := false
  laid : Bool := false
  deriving DecidableEq, Repr

/-- concurrency.py 28-34: what has been spawned and has not begun: the init of a block (process.py 147-151) or the `on_init`
of a part (statefulcontroller.py 81-85) -/
inductive Task
  | init (i : Nat)
  | part (i k : Nat)
  deriving DecidableEq, Repr

/-- process.py 69, 249-254: `blocks` are the controllers of the process by mri, `queue` what cothread has to begin -/
structure World where
  blocks : Nat → Option Block
  queue : List Task

/-- One controller of the process, process.py 69, is not as it was -/
def World.put (w : World) (i : Nat) (b : Block) : World :=
  { w with blocks := fun j => if j = i then some b else w.blocks j }

/-- process.py 142-151, hook.py 172-182 (`start_hooks`): the init functions of the blocks to be started are spawned, one
after another -/
def World.start (blocks : Nat → Option Block) (news : List Nat) : World := ⟨blocks, news.map .init⟩

/-- statefulcontroller.py 78-85, 152-155: the state becomes Resetting, and the parts' functions are spawned -/
def World.begin (w : World) (i : Nat) (b : Block) : World :=
  { w.put i { b with st := .resetting, parts := b.kids.map fun _ => .idle, own := false } with
    queue := w.queue ++ (List.range b.kids.length).map (.part i) }

/-- statefulcontroller.py 112-114, 157-168: what raises leaves the block in Fault -/
def World.fail (w : World) (i : Nat) (b : Block) : World := w.put i { b with st := .fault }

/-- childpart.py 147-158, util.py 125-130: the part looks at the state of its child. The functions of a block that has failed
are stopped (hook.py 228-238) -/
def World.look (w : World) (i : Nat) (b : Block) (k : Nat) (kid : Kid) : World :=
  if b.st ≠ .resetting then w else
  match w.blocks kid.id with
  | none => w.fail i b
  | some c =>
    if !kid.stateful then w.put i { b with parts := b.parts.set k .done } else
    match c.st with
    | .ready => w.put i { b with parts := b.parts.set k .done }
    | .resetting => w.put i { b with parts := b.parts.set k .waiting }
    | .fault | .disabled => w.fail i b

/-- What happens -/
inductive Ev
  /-- what was spawned first of what has not begun, begins -/
  | next
  /-- part `k` of block `i` is told of the state of its child -/
  | told (i k : Nat)
  /-- it has waited for 10 s -/
  | late (i k : Nat)
  /-- the other parts of block `i` come to the end of their InitHook -/
  | own (i : Nat)
  /-- what `do_init` does after the InitHook comes to its end -/
  | rest (i : Nat)
  deriving DecidableEq, Repr

/-- concurrency.py 34, cothread's queue: what was spawned first begins first -/
def World.next (w : World) : World :=
  match w.queue with
  | [] => w
  | .init i :: q =>
    match w.blocks i with
    | some b => { w with queue := q }.begin i b
    | none => { w with queue := q }
  | .part i k :: q =>
    match w.blocks i with
    | none => { w with queue := q }
    | some b =>
      match b.kids[k]? with
      | none => { w with queue := q }
      | some kid => { w with queue := q }.look i b k kid

/-- A part that waits for the state of its child: is told of it (util.py 125-130), or has waited for too long
(context.py 290-318, `timeout`) -/
def World.wait (w : World) (i k : Nat) (tooLong : Bool) : World :=
  match w.blocks i with
  | none => w
  | some b =>
    if b.parts[k]? ≠ some .waiting then w else
    match b.kids[k]? with
    | none => w
    | some kid =>
      if tooLong then (if b.st ≠ .resetting then w else w.fail i b) else w.look i b k kid

/-- statefulcontroller.py 81-85, hook.py 185-242: the other parts return, or one of them raises -/
def World.own (w : World) (i : Nat) : World :=
  match w.blocks i with
  | none => w
  | some b =>
    if b.st ≠ .resetting ∨ b.own then w
    else if b.ownGood then w.put i { b with own := true } else w.fail i b

/-- managercontroller.py 145-154, statefulcontroller.py 152-156: all the parts have returned, so the designs are listed and
the initial design loaded or the layout set; then the block is Ready -/
def World.rest (w : World) (i : Nat) : World :=
  match w.blocks i with
  | none => w
  | some b =>
    if b.st ≠ .resetting ∨ !b.own ∨ !b.parts.all (· = .done) then w
    else if b.restGood then w.put i { b with st := .ready, laid := true } else w.fail i b

/-- One thing happens: childpart.py 146-158, process.py 142-158, managercontroller.py 143-154 -/
def World.step (w : World) : Ev → World
  | .next => w.next
  | .told i k => w.wait i k false
  | .late i k => w.wait i k true
  | .own i => w.own i
  | .rest i => w.rest i

/-- Some things happen, in this order -/
def World.run (w : World) (es : List Ev) : World := es.foldl World.step w

/-- statefulcontroller.py 94-110, 49-52: `disable()` (of a block that is not Disabled) and `reset()` (of one that is
Disabled or in Fault), after the start; their hooks may raise -/
inductive Call
  | disable (i : Nat) (ok : Bool)
  | reset (i : Nat) (ok : Bool)
  deriving DecidableEq, Repr

/-- statefulcontroller.py 94-110, 152-168: neither runs the InitHook nor the rest of `do_init` -/
def World.call (w : World) : Call → World
  | .disable i ok =>
    match w.blocks i with
    | none => w
    | some b => if b.st = .disabled ∨ b.st = .resetting then w else w.put i { b with st := if ok then .disabled else .fault }
  | .reset i ok =>
    match w.blocks i with
    | none => w
    | some b => if b.st ≠ .disabled ∧ b.st ≠ .fault then w else w.put i { b with st := if ok then .ready else .fault }

/-- Some calls, one after another: statefulcontroller.py 94-110 -/
def World.calls (w : World) (cs : List Call) : World := cs.foldl World.call w

end Verif.Startup
