import Verif.Model.Context
/-!
The time a Context waits: malcolm/core/context.py 270-331, 368-388, future.py 31-69 and the Queue of concurrency.py 72-97.

Time is counted in ticks of the clock (`time.time()`), and a timeout is a number of ticks. What the responses do is in
Model/Context; this adds when. A context that has gone (a `Future` has only a weak reference to it) is not modelled.
-/
namespace Verif.WaitTime
open Verif
open Verif.Context (Ctx Wait Op Item Result)
variable {V : Type}

/-- context.py 312-317: `until`, worked out at `now` before each response is waited for -/
def deadline (now : Nat) (fin event : Option Nat) : Option Nat :=
  match event with
  | none => fin
  | some e =>
    match fin with
    | none => some (now + e)
    | some f => some (min (now + e) f)

/-- A call of `wait_all_futures`, context.py 270-318. `fin` is `end`; `last` is an observation: when the last response had been
dealt with, or the start; `at_` is an observation: when TimeoutError was raised. -/
structure Timed (V : Type) where
  ctx : Ctx V
  wait : Wait
  now : Nat
  fin : Option Nat
  event : Option Nat
  expires : Option Nat
  last : Nat
  at_ : Option Nat := none

/-- context.py 292-318: the call at the time `now` -/
def Timed.start (ctx : Ctx V) (fs : List Nat) (now : Nat) (timeout event : Option Nat) : Timed V :=
  let fin := timeout.map (now + ·)
  { ctx := ctx, wait := Wait.start ctx fs, now := now, fin := fin, event := event,
    expires := deadline now fin event, last := now }

/-- context.py 311: it has neither returned nor raised -/
def Timed.waiting (t : Timed V) : Bool := t.wait.ended.isNone && t.at_.isNone

/-- What happens -/
inductive Ev (V : Type)
  /-- something elsewhere: responses are put in the queue (context.py 136 `request.set_callback(self._q.put)`), or taken by another wait -/
  | elsewhere (op : Op V)
  /-- time passes -/
  | pass (d : Nat)
  /-- context.py 368-424: the thread takes a response; `body` is what the callback does, `raises` whether it raises, and `cost` how long it takes
  until the thread is waiting again -/
  | turn (body : List (Op V)) (raises : Bool) (cost : Nat)
  /-- concurrency.py 81-93: the thread finds that the time is up -/
  | expire

/-- concurrency.py 81-93: the wait for an item, with nothing in the queue, raises once the time is past; context.py 375-380: an `until` that is
past is a timeout of 0, for which there must be nothing in the queue either -/
def expired (q : List (Item V)) (expires : Option Nat) (now : Nat) : Bool :=
  q.isEmpty && (match expires with | some u => decide (u < now) | none => false)

/-- context.py 311-318, 368-424 -/
def Timed.step (t : Timed V) : Ev V → Timed V
  | .elsewhere op => { t with ctx := t.ctx.step op }
  | .pass d => { t with now := t.now + d }
  | .turn body raises cost =>
    if t.waiting && !t.ctx.q.isEmpty then
      let r := t.wait.turn t.ctx body raises
      let now := t.now + cost
      { t with ctx := r.1, wait := r.2, now := now, last := now, expires := deadline now t.fin t.event }
    else t
  | .expire =>
    -- 383-384
    if t.waiting && expired t.ctx.q t.expires t.now then { t with at_ := some t.now } else t

/-- context.py 311-318: the loop -/
def Timed.run (t : Timed V) (evs : List (Ev V)) : Timed V := evs.foldl Timed.step t

/-! ### Future.result and Future.exception -/

/-- How a call ended -/
inductive Outcome (V : Type)
  | value (v : V)
  /-- an exception is returned -/
  | gives (e : Nat)
  /-- None is returned -/
  | nothing
  /-- the exception of the future is raised -/
  | raised (e : Nat)
  | timeout
  | aborted
  | keyError
  | callbackRaised
  deriving DecidableEq, Repr

/-- What the wait of `result` or `exception` raises, if it does (future.py 47-48, 67-68) -/
def Timed.raises (t : Timed V) : Option (Outcome V) :=
  match t.at_ with
  | some _ => some .timeout
  | none =>
    match t.wait.ended with
    | some (.failed _ e) => some (.raised e)
    | some .aborted => some .aborted
    | some .keyError => some .keyError
    | some .callbackRaised => some .callbackRaised
    | some .returned => none
    | none => none

/-- future.py 25-29 `__get_result`; `_result` and `_exception` are None until they are set (18-19) -/
def getResult (ctx : Ctx V) (f : Nat) : Outcome V :=
  match Dict.get? ctx.results f with
  | some (.exc e) => .raised e
  | some (.value v) => .value v
  | none => .nothing

/-- future.py 69: `self._exception` -/
def getException (ctx : Ctx V) (f : Nat) : Outcome V :=
  match Dict.get? ctx.results f with
  | some (.exc e) => .gives e
  | _ => .nothing

/-- future.py 31-49 `result`, called with the context `ctx` at the time `now`: the outcome after `evs`, none if it goes on -/
def callResult (ctx : Ctx V) (f now : Nat) (timeout : Option Nat) (evs : List (Ev V)) : Option (Outcome V) :=
  if (Dict.get? ctx.results f).isSome then some (getResult ctx f)
  else
    let t := (Timed.start ctx [f] now timeout none).run evs
    if t.waiting then none
    else match t.raises with
      | some o => some o
      | none => some (getResult t.ctx f)

/-- future.py 51-69 `exception`, likewise -/
def callException (ctx : Ctx V) (f now : Nat) (timeout : Option Nat) (evs : List (Ev V)) : Option (Outcome V) :=
  if (Dict.get? ctx.results f).isSome then some (getException ctx f)
  else
    let t := (Timed.start ctx [f] now timeout none).run evs
    if t.waiting then none
    else match t.raises with
      | some o => some o
      | none => some (getException t.ctx f)

/-! ### sleep -/

/-- How a sleep ended -/
inductive Woken
  | slept
  | aborted
  | keyError
  | callbackRaised
  deriving DecidableEq, Repr

/-- A call of `sleep`, context.py 320-331; `ended` also says when -/
structure Sleep (V : Type) where
  ctx : Ctx V
  now : Nat
  expires : Nat
  ended : Option (Woken × Nat) := none

/-- context.py 326: the call at the time `now` -/
def Sleep.start (ctx : Ctx V) (now seconds : Nat) : Sleep V := { ctx := ctx, now := now, expires := now + seconds }

/-- What a callback raises -/
inductive Exn
  | timeoutError
  | other
  deriving DecidableEq, Repr

/-- What happens, as for a wait; a callback may raise -/
inductive SEv (V : Type)
  | elsewhere (op : Op V)
  | pass (d : Nat)
  | turn (body : List (Op V)) (raises : Option Exn) (cost : Nat)
  | expire

/-- context.py 327-331, 368-424 with no futures: an Error of a future is kept for whoever asks (418-423); 330: a TimeoutError ends the sleep -/
def Sleep.step (t : Sleep V) : SEv V → Sleep V
  | .elsewhere op => { t with ctx := t.ctx.step op }
  | .pass d => { t with now := t.now + d }
  | .turn body raises cost =>
    if t.ended.isNone && !t.ctx.q.isEmpty then
      let r := t.ctx.pop
      let now := t.now + cost
      match r.2 with
      | .aborted => { t with ctx := r.1, now := now, ended := some (.aborted, now) }
      | .keyError => { t with ctx := r.1, now := now, ended := some (.keyError, now) }
      | .update id _ =>
        if id ∈ t.ctx.subs then
          match raises with
          | some .timeoutError => { t with ctx := r.1.run body, now := now, ended := some (.slept, now) }
          | some .other => { t with ctx := r.1.run body, now := now, ended := some (.callbackRaised, now) }
          | none => { t with ctx := r.1.run body, now := now }
        else { t with ctx := r.1, now := now }
      | _ => { t with ctx := r.1, now := now }
    else t
  | .expire =>
    if t.ended.isNone && expired t.ctx.q (some t.expires) t.now then { t with ended := some (.slept, t.now) } else t

/-- context.py 328-329: the loop -/
def Sleep.run (t : Sleep V) (evs : List (SEv V)) : Sleep V := evs.foldl Sleep.step t

end Verif.WaitTime
