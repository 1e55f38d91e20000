import Verif.Model.Exports
/-!
The words of C29.
-/
namespace Verif.Exports

/-- The name a row of the export table asks for: the row's own, or else that of the field -/
def rowName (r : Row) : Name := if r.name = "" then r.attr else r.name

/-- The part tells that it has the field -/
def Has (m : Manager) (part attr : Name) : Prop := part ∈ m.parts.map (·.1) ∧ attr ∈ (m.exportable.get? part).getD []

instance (m : Manager) (p a : Name) : Decidable (Has m p a) := inferInstanceAs (Decidable (_ ∧ _))

/-- The layout table shows the part as hidden -/
def Hidden (m : Manager) (part : Name) : Prop := ∃ r ∈ m.layout, r.1 = part ∧ r.2.2 = false

instance (m : Manager) (p : Name) : Decidable (Hidden m p) := inferInstanceAs (Decidable (∃ r ∈ m.layout, _))

/-- The field of a row: there if its part is visible and has the field -/
def fieldOf (m : Manager) (r : Row) : Option (Name × Src) :=
  match m.layout.find? fun l => l.1 = r.part with
  | some (_, mri, true) => if Has m r.part r.attr then some (rowName r, .child mri r.attr) else none
  | _ => none

/-- What the fields of the block should be, in order: its own, those of the parts that are not hidden, those of the rows -/
def fields (m : Manager) : Dict Name Src :=
  m.own.map (fun n => (n, .own)) ++
  (m.parts.filter fun p => ¬Hidden m p.1).flatMap (fun p => p.2.map fun n => (n, .part p.1)) ++
  m.rows.filterMap (fieldOf m)

/-- The names of the rows are different, and different from those of the other fields and from "meta" -/
def Distinct (own : List Name) (parts : List (Name × List Name)) (rows : List Row) : Prop :=
  (own ++ parts.flatMap (·.2) ++ rows.map rowName).Nodup ∧ "meta" ∉ own ++ parts.flatMap (·.2) ++ rows.map rowName

instance (o : List Name) (p : List (Name × List Name)) (r : List Row) : Decidable (Distinct o p r) :=
  inferInstanceAs (Decidable (_ ∧ _))

/-- The table an operation brings is `Distinct` -/
def DistinctOp (own : List Name) (parts : List (Name × List Name)) : Op → Prop
  | .exports rows => Distinct own parts rows
  | .load _ rows _ => Distinct own parts rows
  | _ => True

end Verif.Exports
