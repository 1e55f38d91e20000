import Verif.Model.Context
/-!
Waiting for a value: malcolm/core/context.py 235-270 (`when_matches`, `when_matches_async`) and
427-469 (`When`), malcolm/core/views.py 188-204 (`when_value_matches`), with the waits of
Verif.Model.Context.

One thread uses the context: it makes requests, and waits, one wait at a time. The callbacks of
other subscriptions do nothing to the context. Timeouts are not modelled (a wait with an empty queue
stays where it is).
-/
namespace Verif.When
open Verif Verif.Context
variable {V : Type}

/-- What the condition says of a value: not satisfied, satisfied, or it raises. -/
inductive Verdict
  | wait
  | good
  | bad
  deriving DecidableEq, Repr

/-- context.py 436-442: the condition made from a value that is not callable. Python's `==` is taken
to be equality. A callable `good_value` is any `V → Verdict`, and then `bad_values` is not looked at. -/
def equals [DecidableEq V] (good : V) (bads : List V) (v : V) : Verdict :=
  if v ∈ bads then .bad else if v = good then .good else .wait

/-- context.py 443-449: `active` is whether `self.future` is set. It is set by `when_matches_async`
before anything else happens (268-269), a simplification: `subscribe` yields, and another thread servicing
the same context could call it in between. -/
structure When (V : Type) where
  cond : V → Verdict
  active : Bool := true

/-- How a wait ended, as its caller sees it: `badValue id` is the exception raised by the condition of
the When with that future. -/
inductive End
  | returned
  | aborted
  | failed (id : Nat) (e : Nat)
  | keyError
  | badValue (id : Nat)
  deriving DecidableEq, Repr

/-- The context, its Whens by their futures, the wait that is running with the futures it was given,
and the waits that have ended. -/
structure Sys (V : Type) where
  ctx : Ctx V := {}
  whens : Dict Nat (When V) := []
  wait : Option (List Nat × Wait) := none
  log : List (List Nat × End) := []

inductive Op (V : Type)
  /-- `when_matches_async`, or the first half of `when_matches` -/
  | when (cond : V → Verdict)
  /-- `wait_all_futures`, or the second half of `when_matches` -/
  | wait (fs : List Nat)
  /-- the running wait takes one item from the queue; `alive`: the controller of the block is there -/
  | turn (alive : Bool)
  /-- anything else that happens to the context -/
  | other (op : Context.Op V)

/-- context.py 451-457 `When.__call__`: the When whose callback the next item will call and what its
condition says -/
def Sys.called (s : Sys V) : Option (Nat × Verdict) :=
  match s.ctx.pop.2 with
  | .update id v =>
    if id ∈ s.ctx.subs then
      match Dict.get? s.whens id with
      | some w => if w.active then some (id, w.cond v) else none
      | none => none
    else none
  | _ => none

/-- context.py 456-469: it unsubscribes if the condition is satisfied or raises -/
def calls (alive : Bool) : Option (Nat × Verdict) → List (Context.Op V)
  | some (id, .good) => [.unsubscribe id alive]
  | some (id, .bad) => [.unsubscribe id alive]
  | _ => []

/-- context.py 462 and 469: `self.future = None` -/
def settle (whens : Dict Nat (When V)) : Option (Nat × Verdict) → Dict Nat (When V)
  | some (id, .good) => whens.map (fun p => if p.1 = id then (p.1, { p.2 with active := false }) else p)
  | some (id, .bad) => whens.map (fun p => if p.1 = id then (p.1, { p.2 with active := false }) else p)
  | _ => whens

/-- context.py 458-463: the exception of the condition goes up to the wait -/
def raises : Option (Nat × Verdict) → Bool
  | some (_, .bad) => true
  | _ => false

/-- how the caller of the wait sees its end -/
def endOf (c : Option (Nat × Verdict)) : Ended → End
  | .returned => .returned
  | .aborted => .aborted
  | .failed id e => .failed id e
  | .keyError => .keyError
  | .callbackRaised => match c with
    | some (id, _) => .badValue id
    | none => .keyError

/-- context.py 314-324: the wait goes on, or is over -/
def Sys.after (s : Sys V) (fs : List Nat) (c : Option (Nat × Verdict)) (w : Wait) : Sys V :=
  match w.ended with
  | none => { s with wait := some (fs, w) }
  | some e => { s with wait := none, log := s.log ++ [(fs, endOf c e)] }

/-- One operation. -/
def Sys.step (s : Sys V) : Op V → Sys V
  | .when cond =>
    { s with ctx := s.ctx.step (.request true), whens := Dict.set s.whens s.ctx.nextId { cond := cond } }
  | .wait fs =>
    match s.wait with
    | some _ => s
    | none => s.after fs none (Wait.start s.ctx fs)
  | .turn alive =>
    match s.wait with
    | none => s
    | some (fs, w) =>
      let c := s.called
      let r := w.turn s.ctx (calls alive c) (raises c)
      Sys.after { s with ctx := r.1, whens := settle s.whens c } fs c r.2
  | .other op => { s with ctx := s.ctx.step op }

def Sys.run (s : Sys V) (ops : List (Op V)) : Sys V := ops.foldl Sys.step s

end Verif.When
