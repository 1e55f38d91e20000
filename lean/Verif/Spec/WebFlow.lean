import Verif.Model.WebFlow
/-!
What web clients and those who answer them expect.
-/
namespace Verif.Spec.WebFlow
open Verif.WebFlow

/-- The changes that messages tell a subscription of, in order -/
def told (s : Nat) (ms : List Msg) : List Nat := ms.filterMap (fun m => if m.sub = some s then some m.ver else none)

/-- The messages of one connection -/
def of (c : Nat) (ms : List Msg) : List Msg := ms.filter (·.conn = c)

/-- All changes up to this one, in order -/
def upTo (n : Nat) : List Nat := List.range' 1 n

/-- What has not been handed over of the changes that were made -/
def left (w : World) : List Msg := w.held.flatMap (·.rest)

/-- A thread waits until responses to this connection have been written -/
def HeldAt (w : World) (c : Nat) : Prop := ∃ h ∈ w.held, h.conn = c

/-- Nothing is left to do for this connection -/
def Quiet (w : World) (c : Nat) : Prop := of c w.todo = [] ∧ ((w.conns c).tokens = 0 ∨ ¬ HeldAt w c)

/-- How many of what was handed over for a connection cannot be made into JSON -/
def unfit (c : Nat) (ms : List Msg) : Nat := ((of c ms).filter (fun m => !m.ok)).length

/-- The responses an event brings about can be made into JSON -/
def Fine : Ev → Prop
  | .change _ bad => bad = []
  | .answer _ _ ok => ok = true
  | _ => True

/-- No change is made before those before it have been handed over (a thread that is held up cannot make one) -/
def Calm (w : World) : List Ev → Prop
  | [] => True
  | e :: es => (∀ t bad, e = .change t bad → w.held.any (·.thread = t) = true ∨ left w = []) ∧ Calm (step w e) es

/-- The server or a waiting thread goes on -/
def Forward : Ev → Prop
  | .work => True
  | .take _ => True
  | _ => False

/-- The events that are changes are made by this thread -/
def By (t : Nat) : Ev → Prop
  | .change u _ => u = t
  | _ => True

/-- What is left to do: something to write or to take, where each response that is not handed over yet counts for eleven -/
def due (w : World) : Nat := w.todo.length + (w.held.map (fun h => h.need + 11 * h.rest.length)).sum

end Verif.Spec.WebFlow
