import Verif.Model.PvaExports
/-!
What C122 says: how a put ends, and what has happened by then.
-/
namespace Verif.Spec.PvaExports
open Verif.PvaExports

variable {F : Type}

/-- The client has got the block, and since then anything has happened -/
def Reached (w : World F) : Prop := ∃ (f : F) (es : List (Ev F)), w = (World.start f).run es

/-- `send_put` number `i` has ended so -/
def Ended (w : World F) (i : Nat) (o : Outcome) : Prop := ∃ p b, w.puts[i]? = some p ∧ p.phase = .over b o

/-- it has ended so after it has waited for the block to be made anew -/
def EndedWaiting (w : World F) (i : Nat) (o : Outcome) : Prop := ∃ p, w.puts[i]? = some p ∧ p.phase = .over true o

/-- nobody changes the fields on the server -/
def Untouched : Ev F → Prop
  | .elsewhere _ => False
  | .send true (.accepted _) => False
  | _ => True

/-- the connection is not lost -/
def Connected : Ev F → Prop
  | .disconnected => False
  | _ => True

/-- how often the connection has been lost -/
def losses : List (Ev F) → Nat
  | [] => 0
  | .disconnected :: es => losses es + 1
  | _ :: es => losses es

end Verif.Spec.PvaExports
