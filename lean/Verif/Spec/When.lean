import Verif.Model.When
import Verif.Spec.Context
/-! What waiting for a value means, in terms of the updates delivered to the wait. -/
namespace Verif.When
open Verif Verif.Context
variable {V : Type}

/-- the value of an update of the subscription `id` -/
def valueFor (id : Nat) : Item V → Option V
  | .update i v => if i = id then some v else none
  | _ => none

/-- the values of the subscription `id` that have been taken from the queue, in order -/
def delivered (c : Ctx V) (id : Nat) : List V := c.popped.filterMap (valueFor id)

/-- the first value that is not just waited past -/
def first (cond : V → Verdict) (vs : List V) : Option V := vs.find? (fun v => decide (cond v ≠ .wait))

/-- the request an item answers -/
def Item.id? : Item V → Option Nat
  | .update i _ => some i
  | .ret i _ => some i
  | .error i _ => some i
  | _ => none

/-- What the rest of the program may do. Controllers answer requests that were made, send no Update
after their last answer, and send the Return of the subscription of a When only when asked to
unsubscribe (C14). Nobody but the running wait takes from the queue, and nobody else unsubscribes a
When. Waits are for futures of this context. -/
def Op.Legal (s : Sys V) : Op V → Prop
  | .other .pop => False
  | .other (.unsubscribeAll _) => False
  | .other (.unsubscribe id _) => id ∉ s.whens.keys
  | .other (.update id v) => id < s.ctx.nextId ∧ Context.Op.Legal s.ctx (.update id v)
  | .other (.ret id _) => id < s.ctx.nextId ∧ (id ∈ s.whens.keys → (id, true) ∈ s.ctx.unsubs)
  | .other (.error id _) => id < s.ctx.nextId
  | .wait fs => ∀ f ∈ fs, f ∈ s.ctx.requests.keys ∨ f ∈ s.ctx.results.keys
  | _ => True

def LegalFrom (s : Sys V) : List (Op V) → Prop
  | [] => True
  | op :: ops => op.Legal s ∧ LegalFrom (s.step op) ops

end Verif.When
