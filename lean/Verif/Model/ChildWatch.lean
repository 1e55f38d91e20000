import Verif.Model.PyDict
/-!
How a child part follows the fields of its child: malcolm/modules/builtin/parts/childpart.py 83-88, 268-366
(`update_part_exportable`, `update_part_modified`, `send_modified_info_if_not_equal`), with the subscriptions of
malcolm/core/notifier.py 61-71, 122-218.

Simplifications: values are numbers; a set of fields is gone through in the order of the fields; updates do not overlap; the
child is there; what was last saved or loaded does not change (it does in Model/Modified), so a message is kept as the value
that is not as saved.
-/
namespace Verif.ChildWatch

abbrev Name := String

/-- What the part looks at in a field: childpart.py 297-324. `none` of `port` is no port tag; otherwise whether it is a source,
the type of the port, and the connected or disconnected value -/
structure Info where
  isAttr : Bool
  port : Option (Bool × String × String) := none
  config : Bool := false
  value : Int := 0
  deriving DecidableEq, Repr

/-- builtin/infos.py 29-73 `SourcePortInfo` and `SinkPortInfo` -/
inductive Port
  | source (name : Name) (port connected : String)
  | sink (name : Name) (port disconnected : String) (value : Int)
  deriving DecidableEq, Repr

/-- childpart.py 121-132: what the part keeps. `live` are the subscriptions that the child has for it, by id and field:
core/notifier.py 64, 69 -/
structure Part where
  subs : Dict Nat Name := []
  live : List (Nat × Name) := []
  ports : Dict Name Port := []
  messages : Dict Name (Option Int) := []
  names : List Name := []
  reported : List Port := []
  deriving DecidableEq, Repr

/-- childpart.py 83-88, 349: the fields that are not to be saved, and what was saved -/
structure Setting where
  noSave : List Name
  saved : Dict Name Int

/-- childpart.py 85-88 `_unmanaged_attr`, which is true of the attributes that are saved -/
def Setting.managed (s : Setting) (f : Name) : Bool := f ∉ s.noSave

/-- childpart.py 345-366, `send_modified_info_if_not_equal`; `none` is `None`, the value of a field that has gone, and what is
got for one that was not saved -/
def modifiedIf (s : Setting) (p : Part) (f : Name) (v : Option Int) : Part :=
  if s.saved.get? f = v then { p with messages := p.messages.erase f } else { p with messages := p.messages.set f v }

/-- childpart.py 285-291: subscriptions to fields that have gone are ended, if they are still there, and their ports
forgotten. They stay in `config_subscriptions`. -/
def dropGone (p : Part) (names : List Name) : Part :=
  { p with
    live := p.live.filter (fun x => !p.subs.any (fun y => y.1 = x.1 ∧ y.2 ∉ names))
    ports := (p.subs.filter (fun x => x.2 ∉ names)).foldl (fun d x => d.erase x.2) p.ports }

/-- childpart.py 305-316 -/
def portOf (f : Name) (i : Info) : Option Port :=
  i.port.map (fun p => if p.1 then .source f p.2.1 p.2.2 else .sink f p.2.1 p.2.2 i.value)

/-- childpart.py 321-324 -/
def nextId (subs : Dict Nat Name) : Nat := subs.foldl (fun m x => max m x.1) 0 + 1

/-- childpart.py 304-317: the port of the field is stored if it has one -/
def withPort (p : Part) (f : Name) (i : Info) : Part :=
  match portOf f i with
  | some q => { p with ports := p.ports.set f q }
  | none => p

/-- childpart.py 295-328: one field. The subscription sends the value at once: core/notifier.py 61-65 -/
def addField (s : Setting) (existing : List Name) (p : Part) (x : Name × Info) : Part :=
  let (f, i) := x
  if f ∈ existing ∨ !i.isAttr then p
  else
    let p1 := withPort p f i
    if s.managed f ∧ i.config then
      let id := nextId p1.subs
      modifiedIf s { p1 with subs := p1.subs.set id f, live := p1.live ++ [(id, f)] } f (some i.value)
    else p1

/-- childpart.py 268-335, `update_part_exportable` -/
def update (s : Setting) (p : Part) (fields : List (Name × Info)) : Part :=
  let names := fields.map (·.1)
  let p1 := dropGone p names
  let p2 := fields.foldl (addField s (p1.subs.map (·.2))) p1
  { p2 with names := names, reported := names.filterMap (fun f => p2.ports.get? f) }

/-- The child with its fields, and the part -/
structure World where
  fields : List (Name × Info) := []
  part : Part := {}
  deriving DecidableEq, Repr

/-- The value of a field: core/notifier.py 207-218 -/
def valueIn (fields : List (Name × Info)) (f : Name) : Option Int := (fields.find? (fun x => x.1 = f)).map (·.2.value)

/-- core/notifier.py 142-175, 197-218, 122-128 and childpart.py 337-343: those that had subscribed to the value of a field are
told what it is now, by the id of the subscription, with `None` for a field that has gone, even though the subscription has been ended since -/
def told (s : Setting) (live : List (Nat × Name)) (fields : List (Name × Info)) (p : Part) : Part :=
  live.foldl (fun p x =>
    match p.subs.get? x.1 with
    | some f => modifiedIf s p f (valueIn fields x.2)
    | none => p) p

/-- What happens: the fields of the child change, which is a new list in its meta (childpart.py 154-158), and fields removed
and added (core/models.py 1314-1320); or the value of one does -/
inductive Event
  | fields (fs : List (Name × Info))
  | value (f : Name) (v : Int)

/-- childpart.py 268, 337-343: a value is told to the part if it has subscribed to it -/
def step (s : Setting) (w : World) : Event → World
  | .fields fs => { fields := fs, part := told s w.part.live fs (update s w.part fs) }
  | .value f v =>
    let fs := w.fields.map (fun x => if x.1 = f then (f, { x.2 with value := v }) else x)
    { fields := fs, part := told s (w.part.live.filter (fun x => x.2 = f)) fs w.part }

/-- childpart.py 268-366: one event after the other, from a new part (121-132) -/
def run (s : Setting) (es : List Event) : World := es.foldl (step s) {}

end Verif.ChildWatch
