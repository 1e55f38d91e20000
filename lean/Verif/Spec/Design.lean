import Verif.Model.Design
import Verif.Spec.Layout
/-!
The words of C27: what a design says, and what it needs for a child to be restored.
-/
namespace Verif.Design
open Verif.Layout (Name Part Attr Row LayoutInfo)

/-- The value of an attribute of the child of a part, as a client reads it -/
def Manager.value (m : Manager) (n k : Name) : Option String := (m.base.attr? n k).map (·.value)

/-- The value of a config attribute of the parts of the manager, as a client reads it -/
def Manager.ownValue (m : Manager) (k : Name) : Option String := (m.own.find? fun r => r.1 = k).map (·.2.2)

/-- An attribute that is saved: the child has it, it is config tagged and it is not one of those that are not to be saved -/
def Kept (K : Kind) (m : Manager) (n k : Name) : Prop :=
  (m.value n k).isSome ∧ (K.tag n k).isSome ∧ k ∉ K.noSave n

/-- A manager with a layout: the table is about the parts, names are used once, and an exported field is exported once -/
structure Good (m : Manager) : Prop where
  names : (m.base.parts.map Part.name).Nodup
  table : m.base.layout = m.base.parts.map fun p => (p.name, p.info)
  attrs : ∀ p ∈ m.base.parts, p.child.keys.Nodup
  own : (m.own.map (·.1)).Nodup
  exports : (m.exports.map (·.1)).Nodup

/-- The same manager at two times: its parts, the fields of their children and its own config attributes are the same -/
def SameShape (m m' : Manager) : Prop :=
  (m'.base.parts.map fun p => (p.name, p.mri, p.child.keys)) = (m.base.parts.map fun p => (p.name, p.mri, p.child.keys)) ∧
  (m'.own.map fun r => (r.1, r.2.1)) = (m.own.map fun r => (r.1, r.2.1))

/-- A child with these fields can be given what it once had: whatever its fields are, a put of a value that was saved stores
it, and changes other fields only if they were saved and have a later iteration -/
def Tidy (K : Kind) (n : Name) (fields : List Name) (saved : Dict Name String) : Prop :=
  ∀ c : Dict Name Attr, c.keys = fields → ∀ k v, saved.get? k = some v → k ∈ fields →
    ∃ c', K.put n c k v = some c' ∧ c'.keys = fields ∧ (c'.get? k).map (·.value) = some v ∧
      ∀ j, j ≠ k → c'.get? j = c.get? j ∨
        (j ∈ saved.keys ∧ ∃ i i', K.tag n k = some i ∧ K.tag n j = some i' ∧ i < i')

end Verif.Design
