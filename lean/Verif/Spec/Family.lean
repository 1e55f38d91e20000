import Verif.Model.Family
/-!
What may be said of the blocks of a tree.
-/
namespace Verif.Spec.Family
open Verif Verif.Family

mutual
/-- The block and all those beneath it that are shown, and shown by blocks that are, are in this state (blocks without
states have none) -/
def Shown (st : St) : Block → Prop
  | .mk s laid kids => s = st ∧ KidsShown st laid kids
/-- The same for the children of a block; before its layout is set, all of them are shown -/
def KidsShown (st : St) (laid : Bool) : Kids → Prop
  | .nil => True
  | .cons shown stateful c rest =>
    ((laid = false ∨ shown = true) → stateful = true → Shown st c) ∧ KidsShown st laid rest
end

mutual
/-- The second block is the first after something that has left alone everything hidden -/
def Kept : Block → Block → Prop
  | .mk _ laid kids, .mk _ laid' kids' => laid' = laid ∧ KidsKept laid kids kids'
/-- The same for the children of a block -/
def KidsKept (laid : Bool) : Kids → Kids → Prop
  | .nil, .nil => True
  | .cons shown stateful c rest, .cons shown' stateful' c' rest' =>
    shown' = shown ∧ stateful' = stateful ∧ Kept c c' ∧ (laid = true → shown = false → c' = c) ∧
    KidsKept laid rest rest'
  | _, _ => False
end

/-- Nothing goes wrong -/
def Well (o : Oracle) : Prop := ∀ p, o.own p = false

/-- Only the block at the top is called, and its layout does not change -/
def TopCalls : Ev → Prop
  | .call p _ _ => p = []
  | .layout _ _ => False

/-- Only the block at the top is called, and its layout may change -/
def TopOnly : Ev → Prop
  | .call p _ _ | .layout p _ => p = []

mutual
/-- The states of the block and of all those beneath it, in order -/
def states : Block → List St
  | .mk st _ kids => st :: kidStates kids
/-- The same for the children of a block -/
def kidStates : Kids → List St
  | .nil => []
  | .cons _ _ c rest => states c ++ kidStates rest
end

mutual
/-- All blocks, hidden or not, are Ready -/
def AllReady : Block → Prop
  | .mk st _ kids => st = .ready ∧ KidsReady kids
/-- The same for the children of a block -/
def KidsReady : Kids → Prop
  | .nil => True
  | .cons _ _ c rest => AllReady c ∧ KidsReady rest
end

end Verif.Spec.Family
