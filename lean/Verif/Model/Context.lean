import Verif.Model.PyDict
/-!
A Context: malcolm/core/context.py.

Requests are identified with their ids and futures with the id of their request (`_futures` maps one
to the other; `_futures` and `_requests` gain and lose a future together, so one dictionary models
both). Weak references, logging and `__del__` are not modelled.
-/
namespace Verif.Context
open Verif

/-- What can be in the queue `_q`: responses, the STOP object, and objects put there by
`ignore_stops_before_now`. The number on `stop` is a ghost: how often `ignore_stops_before_now` had
been called when it was put. -/
inductive Item (V : Type)
  | update (id : Nat) (v : V)
  | ret (id : Nat) (v : V)
  | error (id : Nat) (e : Nat)
  | stop (n : Nat)
  | sentinel (n : Nat)
  deriving DecidableEq, Repr

/-- How a future ended (future.py): `set_result` or `set_exception`. -/
inductive Result (V : Type)
  | value (v : V)
  | exc (e : Nat)
  deriving DecidableEq, Repr

/-- context.py 28-41. `requests` has the futures that are not done, with whether the request is a
Subscribe. The last five fields are observations. -/
structure Ctx (V : Type) where
  q : List (Item V) := []
  nextId : Nat := 1
  requests : Dict Nat Bool := []
  /-- keys of `_subscriptions` -/
  subs : List Nat := []
  /-- keys of `_pending_unsubscribes` -/
  pending : List Nat := []
  sentinel : Option Nat := none
  /-- number of calls of `ignore_stops_before_now`, which makes its objects distinct -/
  ignores : Nat := 0
  /-- the futures that are done -/
  results : Dict Nat (Result V) := []
  /-- ids of the Subscribe requests made -/
  made : List Nat := []
  /-- Unsubscribe requests made, with whether the controller still existed (so was sent it) -/
  unsubs : List (Nat × Bool) := []
  /-- callbacks called -/
  calls : List (Nat × V) := []
  /-- what has been taken from the queue -/
  popped : List (Item V) := []
  deriving DecidableEq, Repr

/-- What one `_service_futures` did. -/
inductive Out (V : Type)
  | nothing
  | aborted
  | update (id : Nat) (v : V)
  | resolved (id : Nat)
  | failed (id : Nat) (e : Nat)
  | keyError
  /-- the queue is empty: the thread waits, or raises TimeoutError -/
  | empty
  deriving DecidableEq, Repr

variable {V : Type}

/-- context.py 368-424 `_service_futures`, except for what it does to the caller's list of futures
(`Wait.turn`) and the body of the callback (which is whatever operations follow). -/
def Ctx.pop (s : Ctx V) : Ctx V × Out V :=
  match s.q with
  | [] => (s, .empty)
  | item :: q =>
    let s := { s with q := q, popped := s.popped ++ [item] }
    match item with
    | .sentinel n => if s.sentinel = some n then ({ s with sentinel := none }, .nothing) else (s, .nothing)
    | .stop _ => if s.sentinel = none then (s, .aborted) else (s, .nothing)
    | .update id v =>
      if id ∈ s.subs then ({ s with calls := s.calls ++ [(id, v)] }, .update id v)
      else (s, .update id v)
    | .ret id v =>
      if Dict.mem s.requests id then
        ({ s with requests := Dict.erase s.requests id, pending := s.pending.filter (· ≠ id),
                  results := Dict.set s.results id (.value v) }, .resolved id)
      else (s, .keyError)
    | .error id e =>
      if Dict.mem s.requests id then
        ({ s with requests := Dict.erase s.requests id,
                  results := Dict.set s.results id (.exc e) }, .failed id e)
      else (s, .keyError)

/-- context.py 193-214 `unsubscribe`; `alive`: the controller is still there (208-214). -/
def Ctx.unsubscribe (s : Ctx V) (id : Nat) (alive : Bool) : Ctx V :=
  if id ∈ s.pending then s
  else match Dict.get? s.requests id with
    | none => s
    | some _ =>
      if id ∈ s.subs then
        { s with pending := s.pending ++ [id], subs := s.subs.filter (· ≠ id),
                 unsubs := s.unsubs ++ [(id, alive)] }
      else { s with pending := s.pending ++ [id] }

/-- context.py 216-229 `unsubscribe_all`: the generator sees a future's membership of
`_pending_unsubscribes` when its turn comes. -/
def Ctx.unsubscribeAll (s : Ctx V) (alive : Nat → Bool) : Ctx V :=
  s.requests.foldl (fun s r =>
    if r.2 ∧ r.1 ∉ s.pending then s.unsubscribe r.1 (alive r.1) else s) s

inductive Op (V : Type)
  /-- `put_async`, `post_async` (125-138, 158-171) or `subscribe` (173-191) -/
  | request (isSub : Bool)
  /-- a controller calls the request's callback, which is `_q.put` -/
  | update (id : Nat) (v : V)
  | ret (id : Nat) (v : V)
  | error (id : Nat) (e : Nat)
  /-- 103-105 -/
  | stop
  /-- 98-101 -/
  | ignore
  | unsubscribe (id : Nat) (alive : Bool)
  | unsubscribeAll (alive : Nat → Bool)
  /-- one item is serviced, by any wait -/
  | pop

/-- One operation. -/
def Ctx.step (s : Ctx V) : Op V → Ctx V
  | .request isSub =>
    { s with nextId := s.nextId + 1, requests := Dict.set s.requests s.nextId isSub,
             subs := if isSub then s.subs ++ [s.nextId] else s.subs,
             made := if isSub then s.made ++ [s.nextId] else s.made }
  | .update id v => { s with q := s.q ++ [.update id v] }
  | .ret id v => { s with q := s.q ++ [.ret id v] }
  | .error id e => { s with q := s.q ++ [.error id e] }
  | .stop => { s with q := s.q ++ [.stop s.ignores] }
  | .ignore =>
    { s with ignores := s.ignores + 1, sentinel := some s.ignores, q := s.q ++ [.sentinel s.ignores] }
  | .unsubscribe id alive => s.unsubscribe id alive
  | .unsubscribeAll alive => s.unsubscribeAll alive
  | .pop => s.pop.1

def Ctx.run (s : Ctx V) (ops : List (Op V)) : Ctx V := ops.foldl Ctx.step s

/-! ### wait_all_futures -/

/-- How a wait ended. -/
inductive Ended
  | returned
  | aborted
  | failed (id : Nat) (e : Nat)
  | keyError
  | callbackRaised
  deriving DecidableEq, Repr

/-- A call of `wait_all_futures`: the list `filtered_futures`, and how it ended. -/
structure Wait where
  futures : List Nat
  ended : Option Ended := none
  deriving DecidableEq, Repr

/-- context.py 301-308: futures already done are left out, and the first failed one raises. -/
def startLoop (results : Dict Nat (Result V)) : List Nat → Except (Nat × Nat) (List Nat)
  | [] => .ok []
  | f :: fs =>
    match Dict.get? results f with
    | some (.exc e) => .error (f, e)
    | some (.value _) => startLoop results fs
    | none => match startLoop results fs with
      | .error x => .error x
      | .ok fs' => .ok (f :: fs')

/-- context.py 272-308 up to the loop -/
def Wait.start (s : Ctx V) (futures : List Nat) : Wait :=
  match startLoop s.results futures with
  | .error (f, e) => { futures := [], ended := some (.failed f e) }
  | .ok fs => { futures := fs, ended := if fs = [] then some .returned else none }

/-- context.py 402-404: `for future in futures: if future not in self._requests:
futures.remove(future)`, the list changing under the iteration; `i` is the position of the iterator. -/
def pruneLoop (requests : Dict Nat Bool) : Nat → List Nat → Nat → List Nat
  | 0, fs, _ => fs
  | n + 1, fs, i =>
    match fs[i]? with
    | none => fs
    | some f =>
      if Dict.mem requests f then pruneLoop requests n fs (i + 1)
      else pruneLoop requests n (fs.erase f) (i + 1)

def prune (requests : Dict Nat Bool) (fs : List Nat) : List Nat := pruneLoop requests fs.length fs 0

/-- context.py 311: `while filtered_futures` -/
def Wait.check (w : Wait) : Wait :=
  if w.ended = none ∧ w.futures = [] then { w with ended := some .returned } else w

/-- context.py 368-424: one `_service_futures` by this wait. If it is an update then `body` is what
the callback did meanwhile (operations on the context, including waits of its own) and `raises` says
that the callback raised. -/
def Wait.turn (s : Ctx V) (w : Wait) (body : List (Op V)) (raises : Bool) : Ctx V × Wait :=
  if w.ended = none then
    let r := s.pop
    match r.2 with
    | .empty => (r.1, w)
    | .nothing => (r.1, w)
    | .aborted => (r.1, { w with ended := some .aborted })
    | .keyError => (r.1, { w with ended := some .keyError })
    | .update id _ =>
      if id ∈ s.subs then
        let s' := r.1.run body
        if raises then (s', { w with ended := some .callbackRaised })
        else (s', Wait.check { w with futures := prune s'.requests w.futures })
      else (r.1, Wait.check { w with futures := prune r.1.requests w.futures })
    | .resolved id => (r.1, Wait.check { w with futures := w.futures.erase id })
    | .failed id e =>
      if id ∈ w.futures then (r.1, { w with futures := w.futures.erase id, ended := some (.failed id e) })
      else (r.1, w)
  else (s, w)

/-- What happens while a wait is going on: something elsewhere, or a turn of the wait. -/
inductive Ev (V : Type)
  | elsewhere (op : Op V)
  | turn (body : List (Op V)) (raises : Bool)

def stepWait (sw : Ctx V × Wait) : Ev V → Ctx V × Wait
  | .elsewhere op => (sw.1.step op, sw.2)
  | .turn body raises => sw.2.turn sw.1 body raises

def runWait (sw : Ctx V × Wait) (evs : List (Ev V)) : Ctx V × Wait := evs.foldl stepWait sw

end Verif.Context
