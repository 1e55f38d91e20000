import Verif.Model.PandALayout
/-!
What C121 says, in terms of the table on the PandA and of the layout attribute.
-/
namespace Verif.Spec.PandALayout
open Verif Verif.PandALayout

variable {P : Type}

/-- `==` of positions is equality: true of floats that are neither NaN nor -0.0 -/
def Lawful (e : Ext P) : Prop := ∀ a b, e.same a b = true ↔ a = b

/-- the same entries, in whatever order -/
def Same (a b : Json P) : Prop := ∀ k, Dict.get? a k = Dict.get? b k

/-- what the PandA has in its table: nothing, or what the text says -/
def Has (w : World P) (j : Json P) : Prop :=
  (w.table = [] ∧ Same j []) ∨ ∃ j', loads w.table = some j' ∧ (Dict.keys j').Nodup ∧ Same j' j

/-- the layout attribute shows exactly the blocks of the entries, each in its place -/
def Shows (w : World P) (j : Json P) : Prop :=
  ∀ n p, Dict.get? w.parts n = some p →
    (∀ x y, Dict.get? j n = some (x, y) → p = { x := x, y := y, visible := some true })
    ∧ (Dict.get? j n = none → p.visible = some false)

/-- the last row of a block -/
def lastRow (rows : List (Row P)) (n : String) : Option (Row P) := rows.reverse.find? (fun r => decide (r.name = n))

/-- Malcolm is up, with its blocks laid out -/
def Up (w : World P) : Prop := w.fault = false ∧ w.laidOut = true ∧ w.parts ≠ [] ∧ (Dict.keys w.parts).Nodup

/-- somebody else's tables can be read -/
def Readable : Ev P → Prop
  | .foreign t => ∃ j, loads t = some j
  | _ => True

/-- Malcolm has been started with some blocks, on a PandA whose table can be read if there is one; since then anything has happened -/
def Reached (e : Ext P) (guess : String → Bool) (w : World P) : Prop :=
  ∃ (w0 : World P) (es : List (Ev P)), w0.parts ≠ [] ∧ (Dict.keys w0.parts).Nodup ∧ (w0.table = [] ∨ ∃ j, loads w0.table = some j)
    ∧ (∀ ev ∈ es, Readable ev) ∧ w = (w0.restart e guess).run e guess es

end Verif.Spec.PandALayout
