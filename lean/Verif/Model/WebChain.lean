import Verif.Model.WebFlow
import Verif.Model.WebClient
import Verif.Model.Proxy
/-!
A proxy of a block on another server, over a websocket: what malcolm/modules/web/controllers/websocketclientcomms.py 155-191 `sync_proxy` does with
the responses that its subscription is given (Model/WebClient.lean), which are those that the server has written for it (Model/WebFlow.lean).

Simplified: the Deltas of the subscription are numbered from 1, the first being that of the whole block; a response has the number of its Delta
for its body. The second `cothread.Callback` (170) runs at once, as these run in order.
-/
namespace Verif.WebChain
open Verif Verif.WebClient Verif.Proxy

/-- core/response.py 57-74: the Delta with this number -/
def deltaOf (deltas : List (List Change)) (n : Nat) : List Change := (deltas[n - 1]?).getD []

/-- websocketclientcomms.py 162-170 `handle_response`, 180-191 `_handle_response`: a Return or an Error is logged and ignored -/
def onResponse (enc : Enc) (deltas : List (List Change)) (b : Block) : Resp → Block
  | .reply m => if m.kind = .update then (handleDelta enc b (deltaOf deltas m.body)).1 else b
  | .disconnected _ => b

/-- The proxy after these responses: websocketclientcomms.py 155-178 -/
def proxy (enc : Enc) (deltas : List (List Change)) (b : Block) (rs : List (Who × Resp)) : Block :=
  rs.foldl (fun b r => onResponse enc deltas b r.2) b

end Verif.WebChain
