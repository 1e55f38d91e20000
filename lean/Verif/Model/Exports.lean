import Verif.Model.PyDict
import Verif.Model.Fields
/-!
The fields of a manager block: malcolm/modules/builtin/controllers/managercontroller.py 159-203, 247-340, 506-564 and
malcolm/core/models.py 1287-1320 (`BlockModel.set_endpoint_data`, `remove_endpoint`).

Simplifications: a source `part.attr` is the pair of its names, as neither can have a dot (core/part.py 40-42, 147, camel.py 3);
of a field only where it comes from is kept; a part publishes the same fields for ever; the child is there and has the field
when it is exported, so the subscription of `_make_export_field` gives the field; `update_modified` is in another
model. An operation gives the block after it and whether it raised.
-/
namespace Verif.Exports

abbrev Name := String

/-- Where a field of the block comes from: the manager itself, a part, or attribute `attr` of a child block -/
inductive Src
  | own
  | part (part : Name)
  | child (mri : String) (attr : Name)
  deriving DecidableEq, Repr

/-- A row of the ExportTable, builtin/util.py 111-114 -/
structure Row where
  part : Name
  attr : Name
  name : Name
  deriving DecidableEq, Repr

structure Manager where
  /-- `field_registry.fields[None]`, managercontroller.py 297-302 -/
  own : List Name
  /-- `parts`, with `field_registry.fields.get(part, [])` -/
  parts : List (Name × List Name)
  /-- The child parts with their mris: the part of the layout table that does not change -/
  children : List (Name × String)
  /-- The layout table: name, mri, visible -/
  layout : List (Name × String × Bool) := []
  /-- The value of `exports` -/
  rows : List Row := []
  /-- `part_exportable` -/
  exportable : Dict Name (List Name) := []
  /-- `exports.meta.elements["source"].choices` -/
  choices : List (Name × Name) := []
  /-- `saved_visibility is not None` -/
  saved : Bool := false
  /-- `_current_part_fields` -/
  current : List (Name × Src) := []
  /-- `_block`, without "meta" -/
  block : Dict Name Src
  deriving DecidableEq, Repr, Inhabited

/-- managercontroller.py 297-302: a new manager -/
def Manager.new (own : List Name) (parts : List (Name × List Name)) (children : List (Name × String)) : Manager :=
  { own, parts, children, block := own.foldl (fun b n => b.set n .own) [] }

/-- managercontroller.py 313-320: `mris` -/
def Manager.mris (m : Manager) : Dict Name String :=
  m.layout.foldl (fun d r => if r.2.2 then d.set r.1 r.2.1 else d) []

/-- managercontroller.py 315-322: `invisible` -/
def Manager.invisible (m : Manager) : List Name := (m.layout.filter fun r => !r.2.2).map (·.1)

/-- managercontroller.py 336: `attr_name in self.part_exportable.get(part, [])` -/
def Manager.canExport (m : Manager) (part attr : Name) : Bool := attr ∈ (m.exportable.get? part).getD []

/-- managercontroller.py 330-340. `none` is the KeyError of `self.parts[part_name]`. An mri that is empty counts as none -/
def Manager.exportFields (m : Manager) : List Row → Option (List (Name × Src))
  | [] => some []
  | r :: rs =>
    if m.parts.any (·.1 = r.part) then
      match m.exportFields rs with
      | none => none
      | some fs => some (match m.mris.get? r.part with
        | some mri => if mri ≠ "" ∧ m.canExport r.part r.attr then (if r.name = "" then r.attr else r.name, .child mri r.attr) :: fs
          else fs
        | none => fs)
    else none

/-- managercontroller.py 324-328 -/
def Manager.partFields (m : Manager) : List (Name × Src) :=
  (m.parts.filter fun p => p.1 ∉ m.invisible).flatMap fun p => p.2.map fun n => (n, .part p.1)

/-- managercontroller.py 304-340, `_get_current_part_fields` -/
def Manager.getCurrent (m : Manager) : Option (List (Name × Src)) :=
  match m.exportFields m.rows with
  | none => none
  | some fs => some (m.partFields ++ fs)

/-- managercontroller.py 277-278; models.py 1314-1320: `getattr` raises for a field that is not there -/
def removeAll (b : Dict Name Src) : List Name → Dict Name Src × Bool
  | [] => (b, true)
  | n :: ns => if b.mem n then removeAll (b.erase n) ns else (b, false)

/-- managercontroller.py 282-283; models.py 1287-1309: a field called "meta" is not a BlockMeta; one that is there is
replaced -/
def addAll (b : Dict Name Src) : List (Name × Src) → Dict Name Src × Bool
  | [] => (b, true)
  | (n, s) :: fs => if n = "meta" then (b, false) else addAll (b.set n s) fs

/-- managercontroller.py 275-283 -/
def Manager.updateEndpoints (m : Manager) : Manager × Bool :=
  match removeAll m.block (m.current.map (·.1)) with
  | (b, false) => ({ m with block := b }, false)
  | (b, true) =>
    match m.getCurrent with
    | none => ({ m with block := b }, false)
    | some fs =>
      let r := addAll b fs
      ({ m with block := r.1, current := fs }, r.2)

/-- managercontroller.py 260-264 -/
def Manager.names (m : Manager) : List (Name × Name) :=
  m.parts.flatMap fun p => ((m.exportable.get? p.1).getD []).map fun a => (p.1, a)

/-- managercontroller.py 258-273 -/
def Manager.updateExportable (m : Manager) : Manager × Bool :=
  if m.saved then
    let m1 := { m with choices := m.names }
    if m.rows.any fun r => decide ((r.part, r.attr) ∈ m.names) != decide ((r.part, r.attr) ∈ m.choices) then m1.updateEndpoints
    else (m1, true)
  else (m, true)

/-- managercontroller.py 247-273: a part reports -/
def Manager.report (m : Manager) (part : Name) (names : List Name) : Manager × Bool :=
  { m with exportable := m.exportable.set part names }.updateExportable

/-- managercontroller.py 168-192, the table that the hooks give being `vis` -/
def Manager.setLayout (m : Manager) (vis : Name → Bool) : Manager × Bool :=
  let table := m.children.map fun c => (c.1, c.2, vis c.1)
  let changed := table.map (·.2.2) ≠ m.layout.map (·.2.2) ∨ m.saved = false
  let m1 := { m with layout := table, saved := true }
  if changed then
    match m1.updateExportable with
    | (m2, false) => (m2, false)
    | (m2, true) => m2.updateEndpoints
  else (m1, true)

/-- `exports.meta.validate`, models.py 778-804: every source is one of the choices -/
def Manager.valid (m : Manager) (rows : List Row) : Bool := rows.all fun r => (r.part, r.attr) ∈ m.choices

/-- A put to `exports`: core/controller.py 198, managercontroller.py 194-203 -/
def Manager.putExports (m : Manager) (rows : List Row) : Manager × Bool :=
  if m.valid rows ∧ rows.all (fun r => Fields.camelRe r.name.toList) then { m with rows := rows }.updateEndpoints
  else (m, false)

/-- What parts report, one after another -/
def Manager.reports (m : Manager) : List (Name × List Name) → Manager × Bool
  | [] => (m, true)
  | r :: rs => match m.report r.1 r.2 with
    | (m, false) => (m, false)
    | (m, true) => m.reports rs

/-- managercontroller.py 524-564: the layout and exports of a design, what the children report while they load, and
`_mark_clean` -/
def Manager.load (m : Manager) (vis : Name → Bool) (rows : List Row) (rs : List (Name × List Name)) : Manager × Bool :=
  match m.setLayout vis with
  | (m, false) => (m, false)
  | (m, true) =>
    if m.valid rows then
      match ({ m with rows := rows } : Manager).reports rs with
      | (m, false) => (m, false)
      | (m, true) => m.updateEndpoints
    else (m, false)

/-- What can happen to a manager -/
inductive Op
  | layout (vis : Name → Bool)
  | exports (rows : List Row)
  | report (part : Name) (names : List Name)
  | load (vis : Name → Bool) (rows : List Row) (reports : List (Name × List Name))

def Manager.op (m : Manager) : Op → Manager × Bool
  | .layout vis => m.setLayout vis
  | .exports rows => m.putExports rows
  | .report p ns => m.report p ns
  | .load vis rows rs => m.load vis rows rs

/-- A history: what raised is gone on from -/
def Manager.ops (m : Manager) (os : List Op) : Manager := os.foldl (fun m o => (m.op o).1) m

end Verif.Exports
