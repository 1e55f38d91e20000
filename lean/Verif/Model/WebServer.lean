import Verif.Model.PyDict
/-!
The web server: malcolm/modules/web/parts/websocketserverpart.py 44-161 and
malcolm/modules/web/controllers/httpservercomms.py 79-88, with what the controllers do with requests, as far as it
matters to who gets which response: malcolm/core/controller.py 124-153 and malcolm/core/notifier.py 61-71.

Simplifications. Connections are numbered. A response is written to its connection in the step in which the controller
makes it; the queue that slows the controllers down (130-134) is left out. Whether a controller answers with a value
or an error is up to it. The number of the message that a request comes from (`tag`) is not in the code.
-/
namespace Verif.WebServer

abbrev Mri := String

inductive Kind
  | get | put | post | subscribe | unsubscribe
  deriving DecidableEq, Repr

/-- A message from a client. No id if it is not JSON, or holds none; no body if it is not a request. The mri of an
Unsubscribe is not used -/
structure Msg where
  id : Option Int
  body : Option (Kind × Mri)
  deriving DecidableEq, Repr

/-- A request that a controller has been given: `conn` stands for its callback, the bound method of the connection -/
structure Req where
  conn : Nat
  id : Int
  kind : Kind
  mri : Mri
  tag : Nat
  deriving DecidableEq, Repr

inductive Answer
  | value   -- Return
  | error   -- Error
  | update  -- Update or Delta
  deriving DecidableEq, Repr

/-- A response: websocketserverpart.py 136-140 -/
structure Resp where
  id : Int
  answer : Answer
  tag : Nat
  deriving DecidableEq, Repr

/-- `MalcWebSocketHandler`: websocketserverpart.py 64-78; `alive` says that it can be written to -/
structure Conn where
  ids : Dict Int Mri := []
  writeable : Bool := true
  alive : Bool := true

structure State where
  conns : Nat → Conn
  /-- the controllers that exist -/
  known : Mri → Bool
  /-- requests that a controller has still to handle -/
  queue : List Req := []
  /-- `_subscription_keys` of all controllers -/
  subs : List Req := []
  /-- what has been written to the connections, oldest first -/
  out : List (Nat × Resp) := []
  /-- the number of messages so far -/
  count : Nat := 0

/-- websocketserverpart.py 51-59: an address is in the network of an interface -/
def validator (ifaddr ifnetmask remote : BitVec 32) : Bool := remote &&& ifnetmask == ifaddr &&& ifnetmask

/-- websocketserverpart.py 81-93: whether a client may write -/
def mayWrite (interfaces : List (BitVec 32 × BitVec 32)) (remote : BitVec 32) : Bool :=
  if interfaces = [] then true else interfaces.any fun i => validator i.1 i.2 remote

def setConn (s : State) (c : Nat) (k : Conn) : State :=
  { s with conns := fun d => if d = c then k else s.conns d }

/-- websocketserverpart.py 136-140: write a response, if the client is still there -/
def write (s : State) (c : Nat) (r : Resp) : State :=
  if (s.conns c).alive then { s with out := s.out ++ [(c, r)] } else s

/-- websocketserverpart.py 121-125: an exception while a message is handled. In the thread of the connection -/
def fail (s : State) (c : Nat) (id : Int) (tag : Nat) : State := write s c ⟨id, .error, tag⟩

/-- websocketserverpart.py 120 and httpservercomms.py 79-88: hand the request to its controller, if there is one -/
def report (s : State) (r : Req) : State :=
  if r.mri = "." ∨ s.known r.mri then { s with queue := s.queue ++ [r] } else fail s r.conn r.id r.tag

/-- websocketserverpart.py 109-120: a request of kind `k` -/
def dispatch (s : State) (c : Nat) (id : Int) (k : Kind) (mri : Mri) (tag : Nat) : State :=
  let conn := s.conns c
  match k with
  | .subscribe =>
    if conn.ids.mem id then fail s c id tag
    else report (setConn s c { conn with ids := conn.ids.set id mri }) ⟨c, id, k, mri, tag⟩
  | .unsubscribe =>
    match conn.ids.get? id with
    | some m => report s ⟨c, id, k, m, tag⟩
    | none => fail s c id tag
  | .put | .post => if conn.writeable then report s ⟨c, id, k, mri, tag⟩ else fail s c id tag
  | .get => report s ⟨c, id, k, mri, tag⟩

/-- websocketserverpart.py 80-125, `on_message` -/
def onMessage (s : State) (c : Nat) (m : Msg) : State :=
  let tag := s.count
  let s := { s with count := s.count + 1 }
  match m.id with
  | none => fail s c (-1) tag
  | some id =>
    match m.body with
    | none => fail s c id tag
    | some (k, mri) => dispatch s c id k mri tag

/-- websocketserverpart.py 127-161, `on_response`: to a connection that has gone, an update makes an Unsubscribe -/
def onResponse (s : State) (c : Nat) (r : Resp) : State :=
  if (s.conns c).alive then write s c r
  else if r.answer = .update then
    match (s.conns c).ids.get? r.id with
    | some mri => report (setConn s c { s.conns c with ids := (s.conns c).ids.erase r.id }) ⟨c, r.id, .unsubscribe, mri, r.tag⟩
    | none => s
  else s

/-- The key of a subscription at its controller: request.py 59-63 -/
def sameKey (r q : Req) : Bool := r.mri == q.mri && r.conn == q.conn && r.id == q.id

/-- controller.py 129-153, `_handle_request`, and notifier.py 61-71: `ok` says that it does not raise -/
def handle (s : State) (r : Req) (ok : Bool) : State :=
  match r.kind with
  | .subscribe =>
    if ok then onResponse { s with subs := s.subs.filter (fun q => !sameKey q r) ++ [r] } r.conn ⟨r.id, .update, r.tag⟩
    else onResponse s r.conn ⟨r.id, .error, r.tag⟩
  | .unsubscribe =>
    match s.subs.find? (fun q => sameKey q r) with
    | some q => onResponse { s with subs := s.subs.filter (fun q => !sameKey q r) } q.conn ⟨q.id, .value, q.tag⟩
    | none => onResponse s r.conn ⟨r.id, .error, r.tag⟩
  | _ => onResponse s r.conn ⟨r.id, if ok then .value else .error, r.tag⟩

/-- What can happen -/
inductive Op
  /-- a message from connection `c` -/
  | message (c : Nat) (m : Msg)
  /-- a controller handles the `n`-th of the requests waiting: each has its own thread, so in any order -/
  | handle (n : Nat) (ok : Bool)
  /-- something changes that the `n`-th of the subscriptions is about -/
  | change (n : Nat)
  /-- connection `c` goes away -/
  | close (c : Nat)

def step (s : State) : Op → State
  | .message c m => if (s.conns c).alive then onMessage s c m else { s with count := s.count + 1 }
  | .handle n ok =>
    match s.queue[n]? with
    | some r => handle { s with queue := s.queue.eraseIdx n } r ok
    | none => s
  | .change n =>
    match s.subs[n]? with
    | some r => onResponse s r.conn ⟨r.id, .update, r.tag⟩
    | none => s
  | .close c => setConn s c { s.conns c with alive := false }

/-- A server with these controllers, and clients that may write or not -/
def start (known : Mri → Bool) (writeable : Nat → Bool) : State :=
  { conns := fun c => { writeable := writeable c }, known := known }

def run (s : State) (ops : List Op) : State := ops.foldl step s

end Verif.WebServer
