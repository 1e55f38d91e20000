/-!
disable() and reset() of a block that has children, which may have children: malcolm/modules/builtin/controllers/statefulcontroller.py
49-52, 94-114, 152-168 (`disable`, `reset`, `try_stateful_function`), malcolm/modules/builtin/controllers/managercontroller.py 159-192,
394-407 (`set_layout`, `create_part_contexts`), malcolm/modules/builtin/parts/childpart.py 160-171 (`on_disable`, `on_reset`) and
malcolm/core/hook.py 172-242.

Simplifications: the blocks form a tree: no block is a child of two others; what is called ends before the next thing is called;
when a block's own parts raise, or the call of a child does, then of the other children some have been called and some
not, which is left open (`Oracle.late`). Parts that do something else at reset (DetectorChildPart: Model.Stopping,
AttributePreRunPart) are not ChildParts here.
-/
namespace Verif.Family

/-- builtin/util.py 137-141: the states a block rests in -/
inductive St
  | ready | disabled | fault
  deriving DecidableEq, Repr

mutual
/-- A block: its state, whether its layout has been set, managercontroller.py 178-179, and its children -/
inductive Block
  | mk (st : St) (laid : Bool) (kids : Kids)
/-- The ChildParts of a block: whether the layout shows the child, `stateful` (childpart.py 116), and the child -/
inductive Kids
  | nil
  | cons (shown stateful : Bool) (child : Block) (rest : Kids)
end

/-- The state of a block, statefulcontroller.py 42-47 -/
def Block.st : Block → St
  | .mk st _ _ => st

/-- statefulcontroller.py 49-52: the two methods of a block with states -/
inductive Op
  | disable | reset
  deriving DecidableEq, Repr

/-- childpart.py 164, 170, `meta.writeable`: statefulcontroller.py 49-52, 170-189 -/
def Op.writeable : Op → St → Bool
  | .disable, st => st ≠ .disabled
  | .reset, st => st = .disabled || st = .fault

/-- statefulcontroller.py 95, 104: the state it ends in -/
def Op.target : Op → St
  | .disable => .disabled
  | .reset => .ready

/-- What goes wrong in a call: the own parts of the block at this place of the tree raise (`own`); its parent has not come to
call it when another part fails (`late`). A place is given by the numbers of the children that lead to it, last first. -/
structure Oracle where
  own : List Nat → Bool
  late : List Nat → Bool

/-- managercontroller.py 394-407: the parts whose functions are run: all but those hidden by the layout -/
def takes (laid shown : Bool) : Bool := !laid || shown

/-- hook.py 185-242: the children after all the functions have ended, the children if those that are late have been stopped,
and whether one that was not late has failed, or one that was -/
structure Res where
  all : Kids
  part : Kids
  prompt : Bool
  late : Bool

mutual
/-- statefulcontroller.py 94-110, 152-168: the hook is run; the block ends in the state aimed at if nothing has raised and
in Fault otherwise. Also whether the call returns without an exception -/
def Block.call (op : Op) (o : Oracle) (place : List Nat) : Block → Block × Bool
  | .mk _ laid kids =>
    let r := kids.call op o place laid 0
    let stop := o.own place || r.prompt
    let bad := stop || r.late
    (.mk (if bad then .fault else op.target) laid (if stop then r.part else r.all), !bad)
/-- childpart.py 160-171: the child is called if it has states and is not there already -/
def Kids.call (op : Op) (o : Oracle) (place : List Nat) (laid : Bool) (i : Nat) : Kids → Res
  | .nil => ⟨.nil, .nil, false, false⟩
  | .cons shown stateful c rest =>
    let r := rest.call op o place laid (i + 1)
    let d := c.call op o (i :: place)
    if takes laid shown && stateful && op.writeable c.st then
      let late := o.late (i :: place)
      ⟨.cons shown stateful d.1 r.all, .cons shown stateful (if late then c else d.1) r.part,
        r.prompt || (!late && !d.2), r.late || (late && !d.2)⟩
    else ⟨.cons shown stateful c r.all, .cons shown stateful c r.part, r.prompt, r.late⟩
end

/-- managercontroller.py 159-192: the layout says which children are shown -/
def Kids.setShown (f : Nat → Bool) (i : Nat) : Kids → Kids
  | .nil => .nil
  | .cons _ stateful c rest => .cons (f i) stateful c (rest.setShown f (i + 1))

mutual
/-- What is done to the block at a place: the way there (first the child of the top), by the mris of the blocks,
process.py 249-254 -/
def Block.at (g : Block → Block) : List Nat → Block → Block
  | [], b => g b
  | i :: p, .mk st laid kids => .mk st laid (kids.at g i p)
/-- The same for the children of a block, process.py 249-254 -/
def Kids.at (g : Block → Block) : Nat → List Nat → Kids → Kids
  | _, _, .nil => .nil
  | 0, p, .cons shown stateful c rest => .cons shown stateful (c.at g p) rest
  | i + 1, p, .cons shown stateful c rest => .cons shown stateful c (rest.at g i p)
end

/-- What is called from outside: a method of the block at a place, or a put to its layout -/
inductive Ev
  | call (p : List Nat) (op : Op) (o : Oracle)
  | layout (p : List Nat) (f : Nat → Bool)

/-- statefulcontroller.py 49-52, 94-110: a method called from outside, refused if it is not writeable -/
def Block.outside (op : Op) (o : Oracle) (b : Block) : Block := if op.writeable b.st then (b.call op o []).1 else b

/-- managercontroller.py 111, 159-192: a put to the layout, refused unless the block is Ready -/
def Block.putLayout (f : Nat → Bool) : Block → Block
  | .mk .ready _ kids => .mk .ready true (kids.setShown f 0)
  | b => b

/-- One thing is called: statefulcontroller.py 94-110, managercontroller.py 159-192 -/
def Block.step (b : Block) : Ev → Block
  | .call p op o => b.at (Block.outside op o) p
  | .layout p f => b.at (Block.putLayout f) p

/-- Some things are called, one after another -/
def Block.run (b : Block) (es : List Ev) : Block := es.foldl Block.step b

end Verif.Family
