import Verif.Model.WebServer
/-!
What C42 and C61 mean: which messages have come in, from whom, and which responses go with them.
-/
namespace Verif.Spec.WebServer
open Verif.WebServer

/-- The messages in a history, numbered from 0, with the connections they came in on -/
def messages (ops : List Op) : List (Nat × Msg) :=
  ops.filterMap fun
    | .message c m => some (c, m)
    | _ => none

/-- A message that asks to end a subscription -/
def IsUnsubscribe (m : Msg) : Prop := m.id ≠ none ∧ ∃ mri, m.body = some (.unsubscribe, mri)

/-- The message asks for a subscription -/
def IsSubscribe (m : Msg) : Prop := ∃ mri, m.body = some (.subscribe, mri)

/-- The connection has not gone away -/
def Connected (ops : List Op) (c : Nat) : Prop := Op.close c ∉ ops

/-- The number of values and errors that have been written for message number `t` -/
def answers (s : State) (t : Nat) : Nat := s.out.countP fun x => x.2.tag == t && x.2.answer != .update

/-- An address is in the network of an interface: they agree wherever the mask has a one -/
def InNetwork (i : BitVec 32 × BitVec 32) (remote : BitVec 32) : Prop :=
  ∀ b, b < 32 → i.2.getLsbD b = true → remote.getLsbD b = i.1.getLsbD b

end Verif.Spec.WebServer
