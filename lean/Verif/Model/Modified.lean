import Verif.Model.PyDict
/-!
Whether the design of a manager is modified: malcolm/modules/builtin/controllers/managercontroller.py 168-245, 417-452, 506-564
(`set_layout`, `set_exports`, `update_modified`, `do_save`, `do_load`, `_mark_clean`) and
malcolm/modules/builtin/parts/childpart.py 209-257, 337-366 (`on_load`, `on_save`, `update_part_modified`,
`send_modified_info_if_not_equal`).

Simplifications: `settings` are the attributes of the child that are config tagged and not in `no_save`, with the values they
have; a put stores the value; the update of a value is told to the part before anything else happens; a message is the pair
of values it is made of; messages of a part are not sorted; `context_modified` is never filled (managercontroller.py 88), so
no message is prefixed; the exports are a list of pairs, and not validated here (Model/Exports.lean); loads are not at init.
-/
namespace Verif.Modified

abbrev Name := String

/-- A value of a setting: a table, or anything else -/
inductive Val
  | plain (s : String)
  | table (s : String)
  deriving DecidableEq, Repr

def Val.isTable : Val → Bool
  | .plain _ => false
  | .table _ => true

/-- A value in `saved_structure`: what a setting had, or what was read from the file of a design -/
structure Saved where
  value : Val
  file : Bool
  deriving DecidableEq, Repr

/-- A `saved_structure`, of the settings as they are or from a file -/
def marked (file : Bool) (d : Dict Name Val) : Dict Name Saved := d.map fun kv => (kv.1, ⟨kv.2, file⟩)

/-- Python's `==` between the two, childpart.py 240, 349: a table is not equal to the dictionary that is read for it, core/table.py 41-43 -/
def Saved.eq (s : Saved) (v : Val) : Bool := s.value = v && !(s.file && v.isTable)

/-- The same for `saved_structure.get(name, None)` -/
def eq? (o : Option Saved) (v : Val) : Bool :=
  match o with
  | some s => s.eq v
  | none => false

/-- childpart.py 349-354: "{new} not {original}"; no original is `None` -/
abbrev Msg := Val × Option Saved

/-- A ChildPart and its child -/
structure Part where
  name : Name
  settings : Dict Name Val
  /-- `saved_structure` -/
  saved : Dict Name Saved
  /-- `modified_messages` -/
  messages : Dict Name Msg := []
  deriving DecidableEq, Repr

/-- A line of the alarm of `modified`, managercontroller.py 217-236 -/
inductive Line
  | setting (part attr : Name) (m : Msg)
  | layout
  | exports
  deriving DecidableEq, Repr

structure Manager where
  parts : List Part
  /-- `part_modified` -/
  reported : Dict Name (Dict Name Msg) := []
  /-- The layout table: name and visible -/
  layout : List (Name × Bool)
  exports : List (String × Name)
  savedVisibility : List Bool
  savedExports : List (String × Name)
  modified : Bool := false
  alarm : List Line := []
  deriving DecidableEq, Repr, Inhabited

/-- managercontroller.py 212-236: the lines -/
def Manager.lines (m : Manager) : List Line :=
  (m.layout.flatMap fun nv =>
    if nv.2 then ((m.reported.get? nv.1).getD []).map fun km => .setting nv.1 km.1 km.2 else []) ++
  (if m.layout.map (·.2) ≠ m.savedVisibility then [.layout] else []) ++
  (if m.exports ≠ m.savedExports then [.exports] else [])

/-- managercontroller.py 211-245 -/
def Manager.updateModified (m : Manager) : Manager :=
  { m with alarm := m.lines, modified := !m.lines.isEmpty }

/-- managercontroller.py 205-210: a part reports -/
def Manager.report (m : Manager) (part : Name) (info : Dict Name Msg) : Manager :=
  { m with reported := m.reported.set part info }.updateModified

/-- childpart.py 345-366, `send_modified_info_if_not_equal`: the part after it, and what it reports -/
def Part.send (p : Part) (k : Name) (v : Val) : Part × Option (Dict Name Msg) :=
  let original := p.saved.get? k
  let message : Option Msg := if eq? original v then none else some (v, original)
  if message ≠ p.messages.get? k then
    match message with
    | some msg => ({ p with messages := p.messages.set k msg }, some (p.messages.set k msg))
    | none => ({ p with messages := p.messages.erase k }, some (p.messages.erase k))
  else (p, none)

/-- A new value of a setting, and childpart.py 337-341, `update_part_modified` -/
def Part.put (p : Part) (k : Name) (v : Val) : Part × Option (Dict Name Msg) :=
  ({ p with settings := p.settings.set k v } : Part).send k v

/-- Put a part back -/
def Manager.setPart (m : Manager) (p : Part) : Manager :=
  { m with parts := m.parts.map fun q => if q.name = p.name then p else q }

def Manager.part? (m : Manager) (n : Name) : Option Part := m.parts.find? fun p => p.name = n

/-- A part after a put, with its report -/
def Manager.told (m : Manager) (r : Part × Option (Dict Name Msg)) : Manager :=
  match r.2 with
  | some info => (m.setPart r.1).report r.1.name info
  | none => m.setPart r.1

/-- A setting of a child changes -/
def Manager.change (m : Manager) (n k : Name) (v : Val) : Manager :=
  match m.part? n with
  | some p => if p.settings.mem k then m.told (p.put k v) else m
  | none => m

/-- managercontroller.py 168-188 -/
def Manager.setLayout (m : Manager) (vis : Name → Bool) : Manager :=
  let table := m.layout.map fun nv => (nv.1, vis nv.1)
  if table.map (·.2) = m.layout.map (·.2) then { m with layout := table }
  else { m with layout := table : Manager }.updateModified

/-- managercontroller.py 194-203 -/
def Manager.setExports (m : Manager) (e : List (String × Name)) : Manager := { m with exports := e }.updateModified

/-- childpart.py 247-257, the hooks of managercontroller.py 440-443: every part saves what its child has -/
def Manager.saveHooks (m : Manager) : Manager := { m with parts := m.parts.map fun p => { p with saved := marked false p.settings } }

/-- managercontroller.py 552-561, `_mark_clean` -/
def Manager.markClean (m : Manager) : Manager :=
  { m with savedVisibility := m.layout.map (·.2), savedExports := m.exports, reported := [] : Manager }.updateModified

/-- managercontroller.py 417-452 -/
def Manager.save (m : Manager) : Manager := m.saveHooks.markClean

/-- childpart.py 221-229, 239-241: the child has the setting, and it is not as the design says -/
def Part.needs (p : Part) (k : Name) (v : Val) : Bool :=
  match p.settings.get? k with
  | some w => !(Saved.mk v true).eq w
  | none => false

/-- childpart.py 233-241: the settings of the design that the child has and that are different are put -/
def Manager.puts (m : Manager) (n : Name) : List (Name × Val) → Manager
  | [] => m
  | (k, v) :: rest =>
    (match m.part? n with
      | some p => if p.needs k v then m.told (p.put k v) else m
      | none => m).puts n rest

/-- childpart.py 209-241, `on_load` -/
def Manager.loadHook (m : Manager) (n : Name) (structure_ : Dict Name Val) : Manager :=
  match m.part? n with
  | some p => (m.setPart { p with saved := marked true structure_ }).puts n structure_
  | none => m

/-- managercontroller.py 545-549, one part after another -/
def Manager.loadHooks (m : Manager) (children : Dict Name (Dict Name Val)) : List Name → Manager
  | [] => m
  | n :: ns => (m.loadHook n ((children.get? n).getD [])).loadHooks children ns

/-- managercontroller.py 524-564 -/
def Manager.load (m : Manager) (vis : Name → Bool) (e : List (String × Name)) (children : Dict Name (Dict Name Val)) :
    Manager :=
  let m := { m.setLayout vis with exports := e }
  (m.loadHooks children (m.parts.map (·.name))).markClean

inductive Op
  | change (part attr : Name) (v : Val)
  | layout (vis : Name → Bool)
  | exports (e : List (String × Name))
  | save
  | load (vis : Name → Bool) (e : List (String × Name)) (children : Dict Name (Dict Name Val))

def Manager.op (m : Manager) : Op → Manager
  | .change n k v => m.change n k v
  | .layout vis => m.setLayout vis
  | .exports e => m.setExports e
  | .save => m.save
  | .load vis e c => m.load vis e c

def Manager.ops (m : Manager) (os : List Op) : Manager := os.foldl Manager.op m

/-- childpart.py 144-157: a manager after its parts have saved what their children have and been told their values -/
def Manager.start (parts : List (Name × Dict Name Val)) (layout : List (Name × Bool)) (exports : List (String × Name)) : Manager :=
  { parts := parts.map fun p => { name := p.1, settings := p.2, saved := marked false p.2 }, layout, exports,
    savedVisibility := layout.map (·.2), savedExports := exports }

end Verif.Modified
