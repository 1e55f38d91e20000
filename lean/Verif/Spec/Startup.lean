import Verif.Model.Startup
/-!
What may be said of the blocks of a process that has been started.
-/
namespace Verif.Spec.Startup
open Verif Verif.Startup

/-- The blocks that are to be started are in the process, once each, and have not been started before; no others are being started -/
def Fresh (blocks : Nat → Option Block) (news : List Nat) : Prop :=
  news.Nodup ∧ (∀ i b, i ∉ news → blocks i = some b → b.st ≠ .resetting) ∧
  ∀ i ∈ news, ∃ b, blocks i = some b ∧ b.st = .disabled ∧ b.laid = false ∧ b.parts = []

/-- A block that ought to get going: it is not to be started and is Ready; or it is to be started, what it does itself
succeeds, and all its children are in the process and, if they are to be waited for, ought to get going -/
inductive Good (blocks : Nat → Option Block) (news : List Nat) : Nat → Prop
  | old {i : Nat} {b : Block} : i ∉ news → blocks i = some b → b.st = .ready → Good blocks news i
  | new {i : Nat} {b : Block} : i ∈ news → blocks i = some b → b.ownGood = true → b.restGood = true →
      (∀ kid ∈ b.kids, (blocks kid.id).isSome) → (∀ kid ∈ b.kids, kid.stateful = true → Good blocks news kid.id) →
      Good blocks news i

/-- No part has waited for too long -/
def InTime (es : List Ev) : Prop := ∀ i k, .late i k ∉ es

/-- Nothing is left to be done: whatever might happen has happened -/
def Still (w : World) : Prop := ∀ e, (∀ i k, e ≠ .late i k) → w.step e = w

/-- The state of a block -/
def stOf (w : World) (i : Nat) : Option St := (w.blocks i).map (·.st)

/-- No block is its own child, nor a child of one of its children, and so on: there is an order in which children come first -/
def ChildrenFirst (blocks : Nat → Option Block) : Prop :=
  ∃ rank : Nat → Nat, ∀ i b, blocks i = some b → ∀ kid ∈ b.kids, kid.stateful = true → rank kid.id < rank i

/-- Each of these things that happen changes something -/
def Effective : World → List Ev → Prop
  | _, [] => True
  | w, e :: es => w.step e ≠ w ∧ Effective (w.step e) es

/-- How much there is to be done to start these blocks: for each its init, the functions of its parts, which may wait, its
other parts and the rest -/
def work (blocks : Nat → Option Block) (news : List Nat) : Nat :=
  (news.map fun i => match blocks i with | some b => 3 + 3 * b.kids.length | none => 0).sum

end Verif.Spec.Startup
