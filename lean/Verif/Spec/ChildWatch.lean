import Verif.Model.ChildWatch
/-!
What a part should know of its child.
-/
namespace Verif.Spec.ChildWatch
open Verif Verif.ChildWatch

/-- A field whose changes make the block modified -/
def Watchable (s : Setting) (w : World) (f : Name) : Prop :=
  ∃ i, (f, i) ∈ w.fields ∧ i.isAttr = true ∧ i.config = true ∧ f ∉ s.noSave

/-- the part is told of changes of the field -/
def Watched (w : World) (f : Name) : Prop := ∃ id, (id, f) ∈ w.part.live

/-- The names of the fields of a child are different, at any time -/
def Distinct (es : List Event) : Prop := ∀ fs, Event.fields fs ∈ es → (fs.map (·.1)).Nodup

/-- A port as others see it -/
structure Wire where
  field : Name
  source : Bool
  type : String
  extra : String
  deriving DecidableEq, Repr

def wire : Port → Wire
  | .source f t e => ⟨f, true, t, e⟩
  | .sink f t e _ => ⟨f, false, t, e⟩

/-- The ports of the child, in the order of its fields -/
def wires (fields : List (Name × Info)) : List Wire :=
  fields.filterMap (fun x => if x.2.isAttr then x.2.port.map (fun p => ⟨x.1, p.1, p.2.1, p.2.2⟩) else none)

/-- what stays the same of a field that stays -/
def Same (i j : Info) : Prop := i.isAttr = j.isAttr ∧ i.port = j.port ∧ i.config = j.config

/-- Names are different; a field that has gone does not come back; and one that stays is what it was. `seen` are the fields
there have been, `cur` those there are. -/
def Steady : List Name → List (Name × Info) → List Event → Prop
  | _, _, [] => True
  | seen, cur, .value f v :: es => Steady seen (cur.map (fun x => if x.1 = f then (f, { x.2 with value := v }) else x)) es
  | seen, cur, .fields fs :: es =>
    (fs.map (·.1)).Nodup ∧ (∀ x ∈ fs, x.1 ∈ seen → ∃ j, (x.1, j) ∈ cur ∧ Same j x.2) ∧
      Steady (seen ++ fs.map (·.1)) fs es

end Verif.Spec.ChildWatch
