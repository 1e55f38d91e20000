/-!
How responses get to web clients: malcolm/core/notifier.py 108-128 (changes are told when the lock has been released),
malcolm/core/controller.py 148-153, malcolm/modules/web/parts/websocketserverpart.py 72-78, 127-160 (every tenth caller waits for the
writing of ten) and malcolm/modules/web/util.py 34-36 (one loop writes what it is given, in order).

Simplified: there is one block whose changes are counted and told to all subscriptions as a whole; cothread runs one thread until
it waits, and here a thread waits for nothing but line 134. Subscriptions are there from the start. That the subscriptions of a
client that is gone are ended is in Model/WebServer.lean.
-/
namespace Verif.WebFlow

/-- A response: core/response.py 15-74. One to a subscription has its number and that of the change; `ok` is whether it can be
made into JSON. -/
structure Msg where
  conn : Nat
  sub : Option Nat
  ver : Nat
  ok : Bool
  deriving DecidableEq, Repr

/-- A connection: websocketserverpart.py 72-78. `lost` counts the responses that could not be made into JSON (not in the code). -/
structure Conn where
  counter : Nat := 0
  /-- what is in `_queue` -/
  tokens : Nat := 0
  lost : Nat := 0
  /-- the messages that were written -/
  written : List Msg := []
  alive : Bool := true
  deriving DecidableEq, Repr

/-- A thread that waits: websocketserverpart.py 133-134, with the responses it still has to hand over, notifier.py 122-128 -/
structure Held where
  thread : Nat
  conn : Nat
  need : Nat
  rest : List Msg
  deriving DecidableEq, Repr

/-- The server: `subs` has the connection of each subscription, `todo` is what the loop of web/util.py has to write. `handed` is
what was handed over up to now (not in the code). -/
structure World where
  subs : List Nat
  ver : Nat := 0
  conns : Nat → Conn := fun _ => {}
  todo : List Msg := []
  held : List Held := []
  handed : List Msg := []

/-- A connection is changed: websocketserverpart.py 72-78 -/
def World.upd (w : World) (c : Nat) (f : Conn → Conn) : World :=
  { w with conns := fun d => if d = c then f (w.conns d) else w.conns d }

/-- websocketserverpart.py 129-131 of `on_response` -/
def push (w : World) (m : Msg) : World :=
  { w.upd m.conn (fun c => { c with counter := c.counter + 1 }) with todo := w.todo ++ [m], handed := w.handed ++ [m] }

/-- notifier.py 122-128 `_callback_responses`, with websocketserverpart.py 127-134 `on_response`: a thread hands over responses until
it has to wait -/
def handOver (w : World) (t : Nat) : List Msg → World
  | [] => w
  | m :: ms =>
    if ((push w m).conns m.conn).counter % 10 = 0 then
      { push w m with held := (push w m).held ++ [⟨t, m.conn, 10, ms⟩] }
    else handOver (push w m) t ms

/-- notifier.py 114-117: the responses to a change, those to subscriptions in `bad` cannot be made into JSON -/
def responses (subs : List Nat) (ver : Nat) (bad : List Nat) : List Msg :=
  subs.zipIdx.map (fun s => ⟨s.1, some s.2, ver, !bad.contains s.2⟩)

/-- websocketserverpart.py 136-160 `_on_response`: the response is made into JSON before line 139, so that 160 is not reached if it
cannot be -/
def write (c : Conn) (m : Msg) : Conn :=
  if m.ok then { c with written := if c.alive then c.written ++ [m] else c.written, tokens := c.tokens + 1 }
  else { c with lost := c.lost + 1 }

/-- What can happen -/
inductive Ev
  /-- a thread changes the block: notifier.py 108-120 -/
  | change (t : Nat) (bad : List Nat)
  /-- a thread has handled a Get, Put or Post: core/controller.py 148-153 -/
  | answer (t c : Nat) (ok : Bool)
  /-- the loop does the next thing -/
  | work
  /-- a waiting thread gets something from the queue: websocketserverpart.py 134 -/
  | take (i : Nat)
  /-- a client is gone -/
  | close (c : Nat)
  deriving DecidableEq, Repr

/-- websocketserverpart.py 134: something is taken from the queue -/
def spend (w : World) (c : Nat) : World := w.upd c (fun c => { c with tokens := c.tokens - 1 })

/-- websocketserverpart.py 134: the `i`th thread that waits gets something from the queue, and goes on if it was the tenth -/
def take (w : World) (i : Nat) : World :=
  match w.held[i]? with
  | none => w
  | some h =>
    if (w.conns h.conn).tokens = 0 then w
    else if h.need ≤ 1 then handOver { spend w h.conn with held := w.held.eraseIdx i } h.thread h.rest
    else { spend w h.conn with held := w.held.set i { h with need := h.need - 1 } }

/-- One event: notifier.py 108-128, controller.py 148-153, websocketserverpart.py 127-160 -/
def step (w : World) : Ev → World
  | .change t bad =>
    if w.held.any (·.thread = t) then w
    else handOver { w with ver := w.ver + 1 } t (responses w.subs (w.ver + 1) bad)
  | .answer t c ok => if w.held.any (·.thread = t) then w else handOver w t [⟨c, none, 0, ok⟩]
  | .work =>
    match w.todo with
    | [] => w
    | m :: ms => { w.upd m.conn (write · m) with todo := ms }
  | .take i => take w i
  | .close c => w.upd c (fun x => { x with alive := false })

/-- A history: notifier.py 108-128, websocketserverpart.py 127-160 -/
def run (w : World) (es : List Ev) : World := es.foldl step w

/-- The server at first: websocketserverpart.py 72-78 -/
def init (subs : List Nat) : World := { subs }

end Verif.WebFlow
