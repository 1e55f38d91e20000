import Verif.Model.Process
/-!
Spawned functions: malcolm/core/concurrency.py 23-69 `Spawned` with the queue it uses (72-97), and
malcolm/core/process.py 160-212: `stop` and `spawn`.

Threads are real ones or cothreads; each step below is one that other threads may come between.
`R` is what a function gives: a value or an exception. cothread's queue is taken to be a counter of the
`None`s in it, and a wait on it to end with a time-out only if it is empty.
-/
namespace Verif.Spawned
open Verif

/-- How a call of `get` ends. -/
inductive Outcome (R : Type)
  /-- the value returned, or the exception raised -/
  | got (r : R)
  | timedOut
  /-- the object NO_RESULT is returned -/
  | noResult
  deriving DecidableEq, Repr

/-- concurrency.py 28-34. `signalled`: `catching_function` has ended. `waiting`: threads that are in the
wait of the queue; `ended`: the calls of `get` that have ended, oldest first. -/
structure Spawned (R : Type) where
  result : Option R := none
  signalled : Bool := false
  queue : Nat := 0
  waiting : List Nat := []
  ended : List (Nat × Outcome R) := []
  deriving DecidableEq, Repr

inductive Op (R : Type)
  /-- 37-47: the function returns or raises an Exception -/
  | finish (r : R)
  /-- 48-53: the end of `catching_function` -/
  | signal
  /-- 55-58, 64-66: `get` (or `wait`) is called by a thread -/
  | call (thread : Nat)
  /-- 58, 66-69: a waiting thread gets a `None` from the queue -/
  | take (thread : Nat)
  /-- 81-93: the time is up and the queue is empty -/
  | timeUp (thread : Nat)
  deriving DecidableEq, Repr

/-- concurrency.py 67-69: the result as it is now -/
def Spawned.answer {R : Type} (s : Spawned R) : Outcome R :=
  match s.result with
  | some r => .got r
  | none => .noResult

/-- A step; those that cannot be taken change nothing. -/
def Spawned.step {R : Type} (s : Spawned R) : Op R → Spawned R
  | .finish r => if s.result.isNone then { s with result := some r } else s
  | .signal => if s.result.isSome ∧ s.signalled = false then { s with signalled := true, queue := s.queue + 1 } else s
  | .call t =>
    if t ∈ s.waiting then s
    else match s.result with
      | none => { s with waiting := s.waiting ++ [t] }
      | some _ => { s with ended := s.ended ++ [(t, s.answer)] }
  | .take t =>
    if t ∈ s.waiting ∧ 0 < s.queue then
      { s with queue := s.queue - 1, waiting := s.waiting.erase t, ended := s.ended ++ [(t, s.answer)] }
    else s
  | .timeUp t =>
    if t ∈ s.waiting ∧ s.queue = 0 then
      { s with waiting := s.waiting.erase t, ended := s.ended ++ [(t, .timedOut)] }
    else s

def Spawned.run {R : Type} (s : Spawned R) (ops : List (Op R)) : Spawned R := ops.foldl Spawned.step s

/-! ### The spawned functions of a process -/

/-- The loop of `stop` over `self._spawned` (process.py 171-182): the place it is at, and the list it
goes through if that is no longer `self._spawned`. -/
structure Loop where
  at_ : Nat := 0
  old : Option (List Nat) := none
  deriving DecidableEq, Repr

/-- process.py 63-73: functions are numbered as they are spawned. `since`: how many had been spawned
when the process was last started. -/
structure Proc where
  phase : Process.Phase := .stopped
  next : Nat := 0
  since : Nat := 0
  finished : List Nat := []
  spawned : List Nat := []
  count : Nat := 0
  loop : Option Loop := none
  deriving DecidableEq, Repr

inductive POp
  /-- 75-85 `start` -/
  | start
  /-- 189-212 `spawn` -/
  | spawn
  /-- a function has returned or raised -/
  | finish (i : Nat)
  /-- 160-170 `stop`, to where the hooks have been run -/
  | stop
  /-- 171-177: one turn of the loop: `wait` returns -/
  | next
  /-- 178-182: `wait` times out: `stop` raises -/
  | timeUp
  /-- 183-186: the loop is over -/
  | stopped
  deriving DecidableEq, Repr

/-- The list that the loop goes through: `self._spawned` is appended to in place (203), but
`_clear_spawn_list` (210-212) makes a new list. -/
def Proc.list (s : Proc) (l : Loop) : List Nat :=
  match l.old with
  | some o => o
  | none => s.spawned

/-- process.py 202-212, `limit` being SPAWN_CLEAR_COUNT -/
def Proc.spawn (limit : Nat) (s : Proc) : Proc :=
  let s' := { s with next := s.next + 1, spawned := s.spawned ++ [s.next], count := s.count + 1 }
  if s'.count > limit then
    { s' with count := 0, spawned := s'.spawned.filter (fun i => !decide (i ∈ s'.finished)),
              loop := s'.loop.map (fun l => { l with old := some (s'.list l) }) }
  else s'

/-- A step; those that cannot be taken (an assertion fails, or it is not their time) change nothing.
A function is ready as soon as it has finished: `wait` returns if it has. -/
def Proc.step (limit : Nat) (s : Proc) : POp → Proc
  | .start => if s.phase = .stopped then { s with phase := .started, since := s.next } else s
  | .spawn => if s.phase = .stopped then s else s.spawn limit
  | .finish i => if i < s.next ∧ i ∉ s.finished then { s with finished := i :: s.finished } else s
  | .stop => if s.phase = .started then { s with phase := .stopping, loop := some {} } else s
  | .next =>
    match s.loop with
    | none => s
    | some l =>
      match (s.list l)[l.at_]? with
      | none => s
      | some i => if i ∈ s.finished then { s with loop := some { l with at_ := l.at_ + 1 } } else s
  | .timeUp =>
    match s.loop with
    | none => s
    | some l =>
      match (s.list l)[l.at_]? with
      | none => s
      | some i => if i ∈ s.finished then s else { s with loop := none }
  | .stopped =>
    match s.loop with
    | none => s
    | some l => if l.at_ < (s.list l).length then s else { s with phase := .stopped, spawned := [], loop := none }

def Proc.run (limit : Nat) (s : Proc) (ops : List POp) : Proc := ops.foldl (Proc.step limit) s

/-- process.py 17 -/
def spawnClearCount : Nat := 1000

end Verif.Spawned
