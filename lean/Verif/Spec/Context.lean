import Verif.Model.Context
/-! What the properties of a Context mean, in terms of the items taken from its queue. -/
namespace Verif.Context
open Verif
variable {V : Type}

/-- the item settles the future `id`, and how -/
def Item.settles (id : Nat) : Item V → Option (Result V)
  | .ret i v => if i = id then some (.value v) else none
  | .error i e => if i = id then some (.exc e) else none
  | _ => none

/-- the first settling of `id` in a list of items -/
def firstSettled (id : Nat) : List (Item V) → Option (Result V)
  | [] => none
  | x :: xs => match x.settles id with
    | some r => some r
    | none => firstSettled id xs

/-- A controller sends no Update for a request after the Return or Error that ends it. -/
def Op.Legal (s : Ctx V) : Op V → Prop
  | .update id _ => firstSettled id (s.popped ++ s.q) = none
  | _ => True

def LegalFrom (s : Ctx V) : List (Op V) → Prop
  | [] => True
  | op :: ops => op.Legal s ∧ LegalFrom (s.step op) ops

end Verif.Context
