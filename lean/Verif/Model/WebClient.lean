import Verif.Model.PyDict
import Verif.Model.States
/-!
The requests of a web client: malcolm/modules/web/controllers/websocketclientcomms.py 54-178, 228-274, with
malcolm/modules/web/util.py 34-36 (`IOLoopHelper.call`) and malcolm/modules/builtin/controllers/statefulcontroller.py 78-110, 123-168.

There are two threads: that of tornado, which runs the callbacks added to it (`tasks`) in order and the coroutines
`recv_loop` (`loops`, `opening`), and that of cothread, which runs its callbacks (`calls`) in order and the calls of users. A
step runs without being interrupted by the other thread.

Simplifications. Connections are numbered; callers too, and the callback of a request is the number of its caller. `init`,
`reset` and `disable` are called one after another, and only where the state allows it (they are not writeable
elsewhere). The hooks of parts are left out: there are no parts. A response that was decoded has an id.
-/
namespace Verif.WebClient

/-- Who sent a request: the client itself, for the list of remote blocks (74-76), or a caller of `send_put`, `send_post`
or `sync_proxy` -/
inductive Who
  | client
  | user (n : Nat)
  deriving DecidableEq, Repr

inductive Kind
  | value   -- Return
  | error   -- Error
  | update  -- Update or Delta
  deriving DecidableEq, Repr

/-- A response from the server -/
structure Msg where
  id : Nat
  kind : Kind
  body : Nat
  deriving DecidableEq, Repr

/-- What the callback of a request is called with: a response of the server, or the error "Server disconnected" (127-129) -/
inductive Resp
  | reply (m : Msg)
  | disconnected (id : Nat)
  deriving DecidableEq, Repr

/-- What the tornado thread has still to do: 72, 76, 139, and those of the callers. `ok` says that the request can be
encoded -/
inductive Task
  | connect
  | send (w : Who) (ok : Bool)
  | close
  deriving DecidableEq, Repr

/-- What the cothread thread has still to do: 85, 90, 113 -/
inductive Call
  | connected
  | fault
  | deliver (w : Who) (m : Msg)
  deriving DecidableEq, Repr

/-- Where `init`, `reset` or `disable` is: nowhere, at 73, or at 140 -/
inductive Job
  | idle
  | starting
  | stopping
  deriving DecidableEq, Repr

structure Client where
  state : St := .disabled
  /-- `_conn` -/
  conn : Option Nat := none
  /-- the `recv_loop`s that wait at 87, each for a message from the connection with this number -/
  loops : List Nat := []
  /-- the number of `recv_loop`s that wait at 82 -/
  opening : Nat := 0
  /-- the number of connections made so far -/
  made : Nat := 0
  /-- the number of items in `_connected_queue` -/
  tokens : Nat := 0
  nextId : Nat := 1
  /-- `_request_lookup` -/
  lookup : Dict Nat Who := []
  tasks : List Task := []
  calls : List Call := []
  job : Job := .idle
  /-- the ids given so far, each with the caller that it was given for and the connection that the request was written to, if
  it was. Not in the code -/
  asked : List (Option Nat × Nat × Who) := []
  /-- the calls of callbacks so far, oldest first. Not in the code -/
  got : List (Who × Resp) := []
  deriving DecidableEq

/-- 267-274, `_send_request`: if the request cannot be encoded line 272 raises, and without a connection line 274, both with
the request in the lookup -/
def sendRequest (s : Client) (w : Who) (ok : Bool) : Client :=
  { s with nextId := s.nextId + 1, lookup := s.lookup.set s.nextId w,
           asked := s.asked ++ [(if ok then s.conn else none, s.nextId, w)] }

/-- 94-117, `on_message`: a response to an id that is not in the lookup raises, which is logged -/
def onMessage (s : Client) (m : Msg) : Client :=
  match s.lookup.get? m.id with
  | none => s
  | some w =>
    { s with lookup := if m.kind = .update then s.lookup else s.lookup.erase m.id,
             calls := s.calls ++ [.deliver w m] }

/-- 87: a `recv_loop` goes on to read from `self._conn`, whatever it is by now; if it is None, it raises -/
def readNext (s : Client) (n : Nat) : Client :=
  match s.conn with
  | none => { s with loops := s.loops.eraseIdx n }
  | some c => { s with loops := s.loops.set n c }

/-- statefulcontroller.py 123-150, `transition` -/
def allowed (a b : St) : Bool := statefulStates.transitionAllowed a b == some true

/-- 119-134, `_report_fault`, from the lock on -/
def tellAll (s : Client) : Client :=
  { s with tokens := s.tokens + 1, lookup := [], got := s.got ++ s.lookup.map fun x => (x.2, .disconnected x.1) }

/-- 119-134, `_report_fault`: if the transition is not allowed it raises -/
def reportFault (s : Client) : Client :=
  if s.state = .disabling then tellAll s
  else if allowed s.state .fault then tellAll { s with state := .fault }
  else s

def runTask (s : Client) : Task → Client
  | .connect => { s with opening := s.opening + 1 }
  | .send w ok => sendRequest s w ok
  | .close => s

def runCall (s : Client) : Call → Client
  | .connected => { s with tokens := s.tokens + 1 }
  | .fault => reportFault s
  | .deliver w m => { s with got := s.got ++ [(w, .reply m)] }

/-- statefulcontroller.py 156-168, the end of `try_stateful_function`: the last transition, or that to Fault if it is not
allowed -/
def finish (s : Client) (target : St) : Client :=
  if allowed s.state target then { s with state := target }
  else if s.state ≠ .fault ∧ allowed s.state .fault then { s with state := .fault }
  else s

/-- statefulcontroller.py 157-168: `try_stateful_function` ends with an exception -/
def fail (s : Client) : Client :=
  if s.state ≠ .fault ∧ allowed s.state .fault then { s with state := .fault } else s

inductive Ev
  /-- somebody sends a request, which can be encoded or not: 177, 239, 260 -/
  | request (n : Nat) (ok : Bool)
  /-- tornado runs its next callback -/
  | task
  /-- a connection is made: 82-85 -/
  | opened
  /-- or cannot be made: 82 raises -/
  | refused
  /-- the `n`-th `recv_loop` gets a message -/
  | message (n : Nat) (m : Msg)
  /-- or one that cannot be decoded -/
  | junk (n : Nat)
  /-- or None: 88-91 -/
  | lost (n : Nat)
  /-- cothread runs its next callback -/
  | call
  /-- `init` or `reset`: up to 73 -/
  | reset
  /-- goes on from 73 to its end -/
  | started
  /-- `disable`: up to 140 -/
  | disable
  /-- goes on from 140 to its end -/
  | stopped
  /-- `init`, `reset` or `disable` wait too long: 73 and 140 raise -/
  | timeout
  deriving DecidableEq

/-- An event that is not possible changes nothing -/
def step (s : Client) : Ev → Client
  | .request n ok => { s with tasks := s.tasks ++ [.send (.user n) ok] }
  | .task =>
    match s.tasks with
    | [] => s
    | t :: ts => runTask { s with tasks := ts } t
  | .opened =>
    if s.opening = 0 then s
    else { s with opening := s.opening - 1, conn := some s.made, made := s.made + 1, loops := s.loops ++ [s.made],
                  calls := s.calls ++ [.connected] }
  | .refused => { s with opening := s.opening - 1 }
  | .message n m => if n < s.loops.length then readNext (onMessage s m) n else s
  | .junk n => if n < s.loops.length then readNext s n else s
  | .lost n =>
    if n < s.loops.length then { s with loops := s.loops.eraseIdx n, conn := none, calls := s.calls ++ [.fault] } else s
  | .call =>
    match s.calls with
    | [] => s
    | c :: cs => runCall { s with calls := cs } c
  | .reset =>
    if s.job = .idle ∧ allowed s.state .resetting then
      if s.conn = none then { s with state := .resetting, tasks := s.tasks ++ [.connect], job := .starting }
      else { s with state := .ready }
    else s
  | .started =>
    if s.job = .starting ∧ 0 < s.tokens then
      finish { s with tokens := s.tokens - 1, tasks := s.tasks ++ [.send .client true], job := .idle } .ready
    else s
  | .disable =>
    if s.job = .idle ∧ allowed s.state .disabling then
      if s.conn = none then { s with state := .disabled }
      else { s with state := .disabling, tasks := s.tasks ++ [.close], job := .stopping }
    else s
  | .stopped =>
    if s.job = .stopping ∧ 0 < s.tokens then
      finish { s with tokens := s.tokens - 1, conn := none, job := .idle } .disabled
    else s
  | .timeout => if s.job = .idle then s else fail { s with job := .idle }

def run (s : Client) (es : List Ev) : Client := es.foldl step s

end Verif.WebClient
