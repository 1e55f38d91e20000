import Verif.Model.Rest
/-!
What a client of the HTTP interface is owed.
-/
namespace Verif.Spec.Rest
open Verif.Rest

/-- The url of a path: its elements with slashes between them. -/
def url : List Text → Text
  | [] => []
  | [e] => e
  | e :: es => e ++ '/' :: url es

/-- The request is what the client asked for: the path is spelled by the url, element by element, and the parameters
by the body. -/
def AskedFor {W J} (env : Env W J) (u : Text) (body : Option Text) (r : Request J) : Prop :=
  r.path ≠ [] ∧ url r.path = u ∧ (∀ e ∈ r.path, '/' ∉ e) ∧
  ((body = none ∧ r.params = none) ∨ ∃ b v, body = some b ∧ env.decode b = some v ∧ r.params = some v)

/-- A value is sent as JSON in a line, an error as status 500 with the message as the reason. -/
inductive Shows {W J} (env : Env W J) : Response J → Reply → Prop
  | value (v t) : env.encode v = some t → Shows env (.ret v) (.ok (t ++ ['\n']))
  | noValue (v) : env.encode v = none → Shows env (.ret v) (.failed none)
  | error (m) : Shows env (.error m) (.failed (some m))
  | other (m) : Shows env .other (.failed m)

/-- what was done for handler `h` -/
def done {W J} (s : State W J) (h : Nat) : List (Nat × Request J × W × Response J) := s.log.filter (fun x => decide (x.1 = h))

/-- Nothing is left to be done. -/
def Idle {W J} (s : State W J) : Prop :=
  s.callbacks = [] ∧ s.threads = [] ∧ s.loop = [] ∧ ∀ x ∈ s.handlers, x.waiting = true → x.queue = []

end Verif.Spec.Rest
