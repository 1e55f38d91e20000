import Verif.Model.PyDict
/-!
Starting hooked functions and waiting for them: malcolm/core/hook.py 83-242 and
malcolm/core/controller.py 283-311.

The hooked functions run in their own threads, the waiter in another.  A schedule is an arbitrary
list of events; an event that is not possible leaves the system as it is.
-/
namespace Verif.Hooks
open Verif

/-- What a hooked function puts on the queue (hook.py 145-159): its validated return value, the
AbortedError it raised, or another exception. -/
inductive Result (V : Type)
  | ok (v : V)
  | aborted
  | error (msg : Nat)
  deriving DecidableEq, Repr

def Result.isOk {V : Type} : Result V → Bool
  | .ok _ => true
  | _ => false

/-- Where the waiter is in `wait_hooks`. -/
inductive Waiter (H V : Type)
  /-- line 200: `while hook_spawned_set` -/
  | looping
  /-- lines 235-237: waiting for the functions still in the list, about to raise -/
  | draining (r : Result V) (toWait : List H)
  /-- line 242 -/
  | returned
  /-- line 238 -/
  | raised (r : Result V)
  /-- line 237: `h.spawned.wait(timeout)` raised TimeoutError -/
  | timedOut
  deriving DecidableEq, Repr

/-- One call of `run_hooks`. `H` are hook objects, `N` part names. -/
structure Sys (H N V : Type) where
  /-- `hook_spawned`: the hooks whose part had a function registered (hook.py 83-93, 177-181) -/
  spawned : List H
  /-- the functions that have finished, in order, with what they put on the queue; a function puts
  its result and ends in one step (the few lines after `put` are not modelled) -/
  done : List (H × Result V) := []
  /-- how many of these the waiter has taken from the queue -/
  taken : Nat := 0
  /-- `hook_spawned_set` -/
  remaining : List H
  /-- `return_dict` -/
  acc : Dict N (Option V)
  /-- `stop` has been called on every spawned hook (line 232-233) -/
  stopped : Bool := false
  waiter : Waiter H V
  deriving DecidableEq, Repr

variable {H N V : Type} [DecidableEq H] [DecidableEq N]

/-- hook.py 172-182 `start_hooks` and 195-199: the set-up of `wait_hooks`.
`registered h` says that the part of `h` has registered a function for this kind of hook. With no
function spawned controller.py 304-310 returns `{}` without waiting. -/
def start (hooks : List H) (registered : H → Bool) (name : H → N) : Sys H N V :=
  let spawned := hooks.filter registered
  { spawned := spawned, remaining := spawned,
    acc := spawned.foldl (fun d h => Dict.set d (name h) none) [],
    waiter := if spawned = [] then .returned else .looping }

inductive Ev (H V : Type)
  /-- the function of `h` ends -/
  | finish (h : H) (r : Result V)
  /-- the waiter gets the next item from the queue (hook.py 203-240) -/
  | take
  /-- the waiter's wait for one function ends, because it has finished (236-237) -/
  | join
  /-- ... or because of the timeout -/
  | timeout
  deriving DecidableEq, Repr

def Sys.isDone (s : Sys H N V) (h : H) : Bool := s.done.any (fun d => d.1 = h)

/-- One event. -/
def Sys.step (name : H → N) (s : Sys H N V) : Ev H V → Sys H N V
  | .finish h r =>
    if h ∈ s.spawned ∧ s.isDone h = false then { s with done := s.done ++ [(h, r)] } else s
  | .take =>
    match s.waiter with
    | .looping =>
      match s.done[s.taken]? with
      | none => s
      | some (h, r) =>
        let remaining := s.remaining.filter (· ≠ h)
        match r with
        | .ok v =>
          { s with taken := s.taken + 1, remaining := remaining,
                   acc := Dict.set s.acc (name h) (some v),
                   waiter := if remaining = [] then .returned else .looping }
        | .aborted =>
          { s with taken := s.taken + 1, remaining := remaining,
                   waiter := .draining .aborted s.spawned }
        | .error m =>
          { s with taken := s.taken + 1, remaining := remaining, stopped := true,
                   waiter := .draining (.error m) s.spawned }
    | _ => s
  | .join =>
    match s.waiter with
    | .draining r [] => { s with waiter := .raised r }
    | .draining r (h :: hs) => if s.isDone h then { s with waiter := .draining r hs } else s
    | _ => s
  | .timeout =>
    match s.waiter with
    | .draining _ (h :: _) => if s.isDone h then s else { s with waiter := .timedOut }
    | _ => s

def Sys.run (name : H → N) (s : Sys H N V) (evs : List (Ev H V)) : Sys H N V :=
  evs.foldl (Sys.step name) s

end Verif.Hooks
