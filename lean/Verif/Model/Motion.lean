import Mathlib.Algebra.Order.Field.Rat
/-!
The motion of the tutorial: malcolm/modules/demo/parts/motionchildpart.py and countermovepart.py, for one axis.

Simplified: axes have nothing to do with each other but that a point ends when all of them are there; times and positions
are rational numbers; each call of a method is a thread of its own, which goes from one put, or from one reading of the
clock, to the next in one step.
-/
namespace Verif.Motion

/-- Where a call of `move` is: before it, in its loop, returned -/
inductive Prog
  | waiting
  | going (start distance remaining : ℚ)
  | ended
  deriving DecidableEq

/-- A call of `move(demand, duration)` -/
structure Thread where
  demand : ℚ
  duration : ℚ
  prog : Prog := .waiting
  deriving DecidableEq

/-- countermovepart.py 34-50: one step of a call, at a time, with the value of the counter; what it puts to the counter -/
def Thread.step (t : Thread) (now counter : ℚ) : Thread × Option ℚ :=
  match t.prog with
  | .waiting => ({ t with prog := .going now (t.demand - counter) t.duration }, none)
  | .going start distance remaining =>
    if remaining > 0 then
      ({ t with prog := .going start distance (start + t.duration - now) }, some (t.demand - distance * remaining / t.duration))
    else ({ t with prog := .ended }, some t.demand)
  | .ended => (t, none)

/-- motionchildpart.py 21-28 `maybe_move_async`: the calls that are made and the new `_last_move`. A duration that is left out
is 0. -/
def maybeMove (last : Option ℚ) (position duration : ℚ) : List Thread × Option ℚ :=
  if last ≠ some position then ([⟨position, duration, .waiting⟩], some position) else ([], last)

/-- An axis: the counter, its calls (oldest first) and the part -/
structure Axis where
  counter : ℚ
  time : ℚ := 0
  threads : List Thread := []
  /-- how many of the calls are not in the list `fs` any more -/
  before : Nat := 0
  /-- `_last_move` of the MaybeMover -/
  last : Option ℚ := none
  /-- what the counter went through since the point began (history) -/
  path : List ℚ := []
  deriving DecidableEq

/-- `wait_all_futures(fs)` returns -/
def Axis.settled (a : Axis) : Bool := (a.threads.drop a.before).all fun t => decide (t.prog = .ended)

/-- What happens -/
inductive Ev
  /-- a call goes one step -/
  | step (k : Nat) (now : ℚ)
  /-- the next point of the loop of `on_run` begins, with what is left of the time for it -/
  | point (lower upper duration : ℚ)
  /-- `on_configure` for the first point to do, when the scan is configured, paused or armed again -/
  | configure (lower : ℚ)
  deriving DecidableEq

/-- One event. The clock does not go back. -/
def Axis.apply (a : Axis) : Ev → Axis
  | .step k now =>
    let now := max a.time now
    match a.threads[k]? with
    | none => a
    | some t =>
      let (t', put) := t.step now a.counter
      { a with time := now, threads := a.threads.set k t', counter := put.getD a.counter, path := a.path ++ put.toList }
  | .point lower upper duration =>
    -- motionchildpart.py 94-113: only after the calls for the point before
    if a.settled then
      let (ts, last) := maybeMove a.last lower 0
      let (ts', last) := maybeMove last upper duration
      { a with threads := a.threads ++ ts ++ ts', before := a.threads.length, last := last, path := [] }
    else a
  | .configure lower =>
    -- motionchildpart.py 66-89: new MaybeMovers
    let (ts, last) := maybeMove none lower 0
    { a with threads := a.threads ++ ts, before := a.threads.length, last := last, path := [] }

/-- A history -/
def Axis.run (a : Axis) (evs : List Ev) : Axis := evs.foldl Axis.apply a

end Verif.Motion
