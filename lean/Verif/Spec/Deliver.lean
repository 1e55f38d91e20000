import Verif.Model.Deliver
/-! What subscribers are to be told. -/
namespace Verif.Spec.Deliver
open Verif.Deliver
variable {V : Type}

/-- No change is made, and no subscription is begun or ended, before the callbacks for what was before have been made -/
def Calm (w : World V) : List (Ev V) → Prop
  | [] => True
  | .call t r :: es => Calm (step w (.call t r)) es
  | e :: es => w.left = [] ∧ Calm (step w e) es

/-- No callback raises -/
def Fine : Ev V → Prop
  | .call _ raises => raises = false
  | _ => True

/-- Callbacks that do not raise are made by this thread -/
def calls (t n : Nat) : List (Ev V) := List.replicate n (.call t false)

/-- What a subscription should be told in a history, in order: the value when it is begun, every change after, and that it has ended -/
def Told (s : Nat) : V → Bool → List (Ev V) → List (Msg V)
  | _, _, [] => []
  | cur, live, .change _ v :: es => (if live then [.update v] else []) ++ Told s v live es
  | cur, live, .subscribe _ i :: es => if i = s ∧ live = false then .update cur :: Told s cur true es else Told s cur live es
  | cur, live, .unsubscribe _ i :: es => if i = s ∧ live = true then .ret :: Told s cur false es else Told s cur live es
  | cur, live, .call _ _ :: es => Told s cur live es

end Verif.Spec.Deliver
