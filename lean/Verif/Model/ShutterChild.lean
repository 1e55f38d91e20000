/-!
A block with a part for a child, disabled and reset: malcolm/modules/builtin/controllers/statefulcontroller.py 94-110, 152-190 with
malcolm/modules/builtin/parts/childpart.py 134-171 and its subclass malcolm/modules/scanning/parts/attributeprerunpart.py 45-61, which has an
`on_reset` of its own: childpart.py 143 hooks that one to the reset of the block.
-/
namespace Verif.ShutterChild

/-- builtin/util.py 137-147, without those during a call -/
inductive St where
  | disabled
  | ready
  | fault
deriving Repr, DecidableEq

/-- childpart.py 80; attributeprerunpart.py 23: which part it is -/
inductive Kind where
  | child
  | preRun
deriving Repr, DecidableEq

/-- the block, the block of its child, and whether the attribute of the child has the reset_value (attributeprerunpart.py 12-13, 36) -/
structure World where
  block : St
  child : St
  closed : Bool
deriving Repr, DecidableEq

/-- statefulcontroller.py 94-104: how the hooks of a call go -/
structure Goes where
  /-- what is asked of the child goes well -/
  child : Bool
  /-- the hooks of the other parts go well -/
  others : Bool
  /-- the part comes to ask the child before another one fails -/
  asked : Bool
deriving Repr, DecidableEq

/-- statefulcontroller.py 94-104: calls of the block and of its child, and a put of the attribute by anybody -/
inductive Ev where
  | disable (g : Goes)
  | reset (g : Goes)
  | childDisable (ok : Bool)
  | childReset (ok : Bool)
  | childFault
  | put (closed : Bool)
deriving Repr, DecidableEq

/-- statefulcontroller.py 94-95, 152-168 of the child; it may be called in every state but Disabled (170-190) -/
def disableChild (c : St) (ok : Bool) : St := if c = .disabled then c else if ok then .disabled else .fault

/-- statefulcontroller.py 103-104, 152-168 of the child; it may be called in Disabled and Fault (50-52) -/
def resetChild (c : St) (ok : Bool) : St := if c = .ready then c else if ok then .ready else .fault

/-- childpart.py 160-165: what becomes of the child, and whether the hook raises. `meta.writeable` is looked at before the call. -/
def onDisable (w : World) (ok : Bool) : World × Bool :=
  ({ w with child := disableChild w.child ok }, !(decide (w.child = .disabled) || ok))

/-- childpart.py 167-171, and attributeprerunpart.py 58-61 with core/controller.py 176-178, 195: a put to a block that is Disabled is refused
(statefulcontroller.py 170-190) -/
def onReset (k : Kind) (w : World) (ok : Bool) : World × Bool :=
  match k with
  | .child => ({ w with child := resetChild w.child ok }, !(decide (w.child = .ready) || ok))
  | .preRun => if w.child = .disabled then (w, true) else if ok then ({ w with closed := true }, false) else (w, true)

/-- statefulcontroller.py 106-110, 97-101: the hooks of all parts, of which this is one; without another part that fails it is always run -/
def hooks (f : World → Bool → World × Bool) (w : World) (g : Goes) : World × Bool :=
  if g.asked || g.others then ((f w g.child).1, (f w g.child).2 || !g.others) else (w, true)

/-- statefulcontroller.py 152-168: with the calls that a block refuses (50-52, 170-190), which change nothing -/
def World.step (k : Kind) (w : World) : Ev → World
  | .disable g =>
    if w.block = .disabled then w
    else { (hooks onDisable w g).1 with block := if (hooks onDisable w g).2 then .fault else .disabled }
  | .reset g =>
    if w.block = .ready then w
    else { (hooks (onReset k) w g).1 with block := if (hooks (onReset k) w g).2 then .fault else .ready }
  | .childDisable ok => { w with child := disableChild w.child ok }
  | .childReset ok => { w with child := resetChild w.child ok }
  | .childFault => if w.child = .disabled then w else { w with child := .fault }
  | .put c => if w.child = .disabled then w else { w with closed := c }

/-- any history -/
def World.run (k : Kind) (w : World) (es : List Ev) : World := es.foldl (World.step k) w

end Verif.ShutterChild
