import Verif.Model.WebClient
/-!
What C62 and C63 mean: which requests were sent, and which responses they are given.
-/
namespace Verif.Spec.WebClient
open Verif.WebClient

/-- The id of the request that a response is for -/
def respId : Resp → Nat
  | .reply m => m.id
  | .disconnected id => id

/-- A response that ends a request: all but updates -/
def Ends : Resp → Bool
  | .reply m => m.kind ≠ .update
  | .disconnected _ => true

/-- What the caller that sent the request number `id` was given: with its name, oldest first -/
def given (s : Client) (id : Nat) : List (Who × Resp) := s.got.filter fun x => respId x.2 = id

/-- The messages with this id that came from the server, oldest first -/
def received (es : List Ev) (id : Nat) : List Msg :=
  es.filterMap fun
    | .message _ m => if m.id = id then some m else none
    | _ => none

/-- A server that answers what it was asked on the same connection, and says nothing more after a value or an error -/
def Honest (es : List Ev) : Prop :=
  ∀ pre n m post, es = pre ++ .message n m :: post →
    (∃ c w, (run {} pre).loops[n]? = some c ∧ (some c, m.id, w) ∈ (run {} pre).asked) ∧
    ∀ m' ∈ received pre m.id, m'.kind = .update

/-- A connection is lost other than because the client closes it -/
def Unexpected (pre : List Ev) (n : Nat) : Prop := n < (run {} pre).loops.length ∧ (run {} pre).job ≠ .stopping

/-- After a connection was lost unexpectedly the client is neither reset nor disabled; it waits long enough, except if there is
no server at all -/
def Tame (es : List Ev) : Prop :=
  (∀ pre n post, es = pre ++ .lost n :: post → Unexpected pre n → Ev.reset ∉ post ∧ Ev.disable ∉ post) ∧
  ∀ pre post, es = pre ++ .timeout :: post →
    (run {} pre).job = .starting ∧ (run {} pre).conn = none ∧ (run {} pre).opening = 0 ∧ Task.connect ∉ (run {} pre).tasks ∧
    Call.fault ∉ (run {} pre).calls

end Verif.Spec.WebClient
