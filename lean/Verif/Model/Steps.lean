import Verif.Model.PyDict
/-!
Step accounting of a runnable block:
`malcolm/modules/scanning/controllers/runnablecontroller.py`.
The thread and hook machinery around it is in `Model/Runnable.lean`; here every method body is run
to its end by one thread, and what the parts are told is kept in a log.
-/
namespace Verif.Steps
open Verif

/-- One entry of `generator.dimensions` (scanpointgenerator `Dimension`): its axes and its size. -/
structure Dim (A : Type) where
  axes : List A
  size : Nat
  deriving DecidableEq, Repr

/-- `generator.size`: scanpointgenerator defines it as the product of the dimension sizes. -/
def genSize {A : Type} : List (Dim A) → Nat
  | [] => 1
  | d :: ds => d.size * genSize ds

/-- Exceptions that the modelled methods can raise. -/
inductive Exc
  | assertion | indexError | zeroDivision | stateRefused
  deriving DecidableEq, Repr

variable {A : Type} [DecidableEq A]

/-- runnablecontroller.py 246-248: `for axis in dim.axes: assert axis in axes_set;
axes_set.remove(axis)`.  The Python set is a list up to repetition, so `remove` filters. -/
def consume : List A → List A → Option (List A)
  | [], s => some s
  | a :: as, s => if a ∈ s then consume as (s.filter (· ≠ a)) else none

/-- runnablecontroller.py 238-250: the loop over `reversed(generator.dimensions)`; the first
argument is that reversed list, the second `axes_set`. `none` is the AssertionError. -/
def innerSteps : List (Dim A) → List A → Option Nat
  | [], _ => some 1
  | d :: ds, s =>
    if d.axes ≠ [] ∧ s = [] then some 1
    else match consume d.axes s with
      | none => none
      | some s' => (innerSteps ds s').map (d.size * ·)

/-- runnablecontroller.py 278-287 `_get_outer_steps` -/
def outerSteps (axesToMove : List A) : List (Dim A) → Nat
  | [] => 1
  | d :: ds =>
    if d.axes.any (fun a => decide (a ∈ axesToMove)) then outerSteps axesToMove ds
    else d.size * outerSteps axesToMove ds

/-- Python `l * n` on lists -/
def repeatList {α : Type} (l : List α) : Nat → List α
  | 0 => []
  | n + 1 => l ++ repeatList l n

/-- runnablecontroller.py 274 `[sum(steps[:i]) for i in range(1, len(steps) + 1)]` -/
def prefixSums (l : List Int) : List Int := (List.range l.length).map (fun i => (l.take (i + 1)).sum)

/-- What `get_steps_per_run` returns and leaves in `use_breakpoints` and `breakpoint_steps`. -/
structure Plan where
  steps : List Int
  useBp : Bool
  /-- `none`: the attribute keeps its old value (line 274 is inside the `if`) -/
  bpSteps : Option (List Int)
  deriving DecidableEq, Repr

/-- runnablecontroller.py 231-276 `get_steps_per_run` -/
def getStepsPerRun (dims : List (Dim A)) (axesToMove : List A) (breakpoints : List Int) :
    Except Exc Plan :=
  match innerSteps dims.reverse axesToMove with
  | none => .error .assertion
  | some inner =>
    if breakpoints.length > 0 then
      let total := breakpoints.sum
      if total ≤ (inner : Int) then
        let l := if total < (inner : Int) then breakpoints ++ [(inner : Int) - total] else breakpoints
        let steps := repeatList l (outerSteps axesToMove dims.reverse)
        .ok ⟨steps, true, some (prefixSums steps)⟩
      else .error .assertion
    else .ok ⟨[(inner : Int)], false, none⟩

/-- The step attributes of the controller. `P` is the type of parts. -/
structure Scan (P : Type) where
  /-- `total_steps` -/
  total : Int := 0
  /-- `completed_steps` -/
  completed : Int := 0
  /-- `configured_steps` -/
  configured : Int := 0
  /-- `steps_per_run` -/
  spr : List Int := []
  /-- `use_breakpoints` -/
  useBp : Bool := false
  /-- `breakpoint_steps` -/
  bpSteps : List Int := []
  /-- `breakpoint_index` -/
  bpIndex : Nat := 0
  /-- `progress_updates` -/
  progress : Dict P Int := []
  deriving DecidableEq, Repr

/-- A window of steps handed to the parts by a Configure, PostRunArmed or Seek hook:
(completed_steps, steps_to_do). -/
abbrev Window := Int × Int

variable {P : Type} [DecidableEq P]

/-- runnablecontroller.py 463-516 `do_configure`: the step accounting, for hooks that succeed. -/
def doConfigure (s : Scan P) (dims : List (Dim A)) (axesToMove : List A) (breakpoints : List Int) :
    Except Exc (Scan P × Window) :=
  match getStepsPerRun dims axesToMove breakpoints with
  | .error e => .error e
  | .ok plan =>
    match plan.steps[0]? with
    | none => .error .indexError
    | some todo =>
      .ok ({ total := genSize dims, completed := 0, configured := todo, spr := plan.steps,
             useBp := plan.useBp, bpSteps := plan.bpSteps.getD s.bpSteps, bpIndex := 0,
             progress := [] }, (0, todo))

/-- runnablecontroller.py 569-589, the part of `do_run` after POSTRUN. The window is the one given
to the PostRunArmed hooks. -/
def postRun (s : Scan P) : Except Exc (Scan P × Option Window) :=
  let completed := s.configured
  if completed < s.total then
    let idx := if s.useBp then s.bpIndex + 1 else s.bpIndex
    match s.spr[idx]? with
    | none => .error .indexError
    | some todo =>
      .ok ({ s with completed := completed, configured := completed + todo, bpIndex := idx },
           some (completed, todo))
  else .ok ({ s with completed := completed }, none)

/-- Python `min` of a non-empty list of ints. -/
def listMin : List Int → Option Int
  | [] => none
  | x :: xs => some (xs.foldl min x)

/-- runnablecontroller.py 591-600 `update_completed_steps` -/
def updateCompleted (s : Scan P) (part : P) (steps : Int) : Scan P :=
  let progress := Dict.set s.progress part steps
  match listMin (Dict.values progress) with
  | none => { s with progress := progress }
  | some m =>
    if m > s.completed then { s with progress := progress, completed := m }
    else { s with progress := progress }

/-- runnablecontroller.py 728-731, the `while` loop; the list is `breakpoint_steps[index:]`. -/
def bpLoop (completed : Int) : List Int → Nat → Option Nat
  | [], _ => none
  | b :: bs, i => if completed ≥ b then bpLoop completed bs (i + 1) else some i

/-- runnablecontroller.py 723-731 `get_breakpoint_index`; `none` is an IndexError. -/
def getBreakpointIndex (bpSteps : List Int) (completed : Int) : Option Nat :=
  match bpSteps.getLast? with
  | none => none
  | some last => if completed = last then some (bpSteps.length - 1) else bpLoop completed bpSteps 0

/-- runnablecontroller.py 696-721 `do_pause`, for hooks that succeed. Python's `%` with the sign of
the divisor is `Int.fmod`. -/
def doPause (s : Scan P) (completed : Int) : Except Exc (Scan P × Window) :=
  if s.useBp then
    match getBreakpointIndex s.bpSteps completed with
    | none => .error .indexError
    | some idx =>
      match s.bpSteps[idx]? with
      | none => .error .indexError
      | some m =>
        if m = 0 then .error .zeroDivision
        else
          let todo := m - Int.fmod completed m
          .ok ({ s with completed := completed, configured := completed + todo, bpIndex := idx },
               (completed, todo))
  else
    match s.spr[s.bpIndex]? with
    | none => .error .indexError
    | some m =>
      if m = 0 then .error .zeroDivision
      else
        let todo := m - Int.fmod completed m
        .ok ({ s with completed := completed, configured := completed + todo },
             (completed, todo))

/-- Where the block is in the run cycle, as far as stepping cares: the states Armed, Running,
Paused, Finished and Fault.  A running or paused block remembers `next_state`, which `run` computed
when it was called (runnablecontroller.py 529-532): `true` is Finished, `false` Armed. -/
inductive Phase
  | armed
  | running (last : Bool)
  | paused (last : Bool)
  | finished
  | fault
  deriving DecidableEq, Repr

/-- runnablecontroller.py 671-692: the step `pause` decides to go to, or `none` if it returns at
once. -/
def pauseTarget (s : Scan P) (ph : Phase) (lastGoodStep : Int) : Option Int :=
  if lastGoodStep < 0 ∧ ph = .finished then none
  else
    let lg := if lastGoodStep < 0 then s.completed
              else if lastGoodStep ≥ s.total then s.total - 1 else lastGoodStep
    match ph with
    | .armed | .finished => some lg
    | _ => some (if lg = s.configured then lg - 1 else lg)

/-- The scan with its phase and what the parts have been told so far: `window` is the last window
given to the parts and not yet run, `ran` the windows run since the last configure or seek (oldest
first) and `start` where that put the scan (the last three are history, not program variables). -/
structure Machine (P : Type) where
  scan : Scan P
  phase : Phase
  window : Window
  ran : List Window := []
  /-- the step that the last `configure` or `pause` put the scan at -/
  start : Int := 0
  deriving DecidableEq, Repr

/-- User calls and part events, each run to its end. -/
inductive Ev (P : Type)
  /-- `run()` starts: lines 529-534 -/
  | run
  /-- a part reports progress -/
  | progress (part : P) (steps : Int)
  /-- the run hooks return: rest of `do_run`, then the transition to `next_state` -/
  | runHooksDone
  /-- `pause(lastGoodStep)` -/
  | pause (lastGoodStep : Int)
  /-- `resume()` -/
  | resume
  deriving DecidableEq, Repr

/-- One event. Calls that the state set refuses leave the machine as it is (`run` outside Armed,
`resume` outside Paused, `pause` in Fault; runnablecontroller.py 534, 740, 628). -/
def Machine.step (m : Machine P) : Ev P → Machine P
  | .run =>
    match m.phase with
    | .armed => { m with phase := .running (!decide (m.scan.configured < m.scan.total)) }
    | _ => m
  | .progress part n => { m with scan := updateCompleted m.scan part n }
  | .runHooksDone =>
    match m.phase with
    | .running last =>
      match postRun m.scan with
      | .error _ => { m with phase := .fault }
      | .ok (s, w) =>
        { scan := s, phase := if last then .finished else .armed,
          window := w.getD (s.completed, 0), ran := m.ran ++ [m.window], start := m.start }
    | _ => m
  | .pause lg =>
    match m.phase with
    | .fault => m
    | ph =>
      match pauseTarget m.scan ph lg with
      | none => m
      | some p =>
        match doPause m.scan p with
        | .error _ => { m with phase := .fault }
        | .ok (s, w) =>
          { scan := s, window := w, ran := [], start := p,
            phase := match ph with
              | .running last => .paused last
              | .paused last => .paused last
              | _ => .armed }
  | .resume =>
    match m.phase with
    | .paused last => { m with phase := .running last }
    | _ => m

def Machine.run (m : Machine P) (evs : List (Ev P)) : Machine P := evs.foldl Machine.step m

/-- A machine just after a successful `configure`. -/
def configured (s : Scan P) (dims : List (Dim A)) (axesToMove : List A) (bps : List Int) :
    Except Exc (Machine P) :=
  match doConfigure s dims axesToMove bps with
  | .error e => .error e
  | .ok (s, w) => .ok { scan := s, phase := .armed, window := w }

end Verif.Steps
