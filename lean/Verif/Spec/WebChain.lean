import Verif.Model.WebChain
import Verif.Spec.WebFlow
import Verif.Spec.WebClient
import Verif.Spec.Proxy
/-!
What is expected of a proxy over a websocket.
-/
namespace Verif.Spec.WebChain
open Verif Verif.Proxy Verif.Spec.Proxy
open Verif.WebClient (Kind Resp Who)

/-- What the server has written for a subscription: the numbers of its Deltas -/
def sent (subs : List Nat) (es : List WebFlow.Ev) (s c : Nat) : List Nat :=
  Spec.WebFlow.told s ((WebFlow.run (WebFlow.init subs) es).conns c).written

/-- What the client has read for a request -/
def read (es : List WebClient.Ev) (id : Nat) : List (Kind × Nat) := (Spec.WebClient.received es id).map fun m => (m.kind, m.body)

/-- A connection carries what was written, in order and without a hole; some of it may not have been read yet -/
def Carried (written : List Nat) (r : List (Kind × Nat)) : Prop := r <+: written.map fun n => (Kind.update, n)

/-- All of it has been read -/
def Arrived (written : List Nat) (r : List (Kind × Nat)) : Prop := r = written.map fun n => (Kind.update, n)

/-- The number of Deltas among responses -/
def updates (rs : List (Who × Resp)) : Nat := rs.countP fun r => match r.2 with
  | .reply m => m.kind = .update
  | .disconnected _ => false

/-- The Deltas of a block: the whole of it, then changes of what is below its fields -/
structure Deltas (enc : Enc) (b : Block) (names : List String) (d : Notifier.Tree) (rest : List (List Change)) : Prop where
  whole : Whole enc b names d
  below : AllBelow d rest.flatten

/-- The remote block after the first `n` Deltas, if `n` is not 0 -/
def remoteAt (d : Notifier.Tree) (rest : List (List Change)) (n : Nat) : Notifier.Tree := remote d (rest.take (n - 1)).flatten

end Verif.Spec.WebChain
