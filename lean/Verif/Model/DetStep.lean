import Verif.Model.Steps
/-!
A scan and one of its detectors, both runnable blocks: malcolm/modules/scanning/parts/detectorchildpart.py
254-303 `_configure_args`, 306-394 the hooks, on top of the step accounting of `Model/Steps.lean` for each of them.

Simplified: the hooks of all parts of the scan run one after the other; the calls of the part on the detector
succeed or fail as a whole; progress reported while the scan is between hooks comes before or after them.
-/
namespace Verif.DetStep
open Verif Verif.Steps

variable {A : Type} [DecidableEq A] {P : Type} [DecidableEq P]

/-- detectorchildpart.py 273-289: the dimensions of the generator given to the detector, where `ax` is
`name + "_frames_per_step"`. `SquashingExcluder` joins the new generator to the dimension with the axes of the last
generator, which is a dimension of its own if that has no axes (scanpointgenerator). `none` is the IndexError of
`generator.generators[-1]`. -/
def multiplyDims (ax : A) (frames : Nat) (dims : List (Dim A)) : Option (List (Dim A)) :=
  if frames > 1 then
    match dims.getLast? with
    | none => none
    | some d =>
      if d.axes = [] then some (dims ++ [⟨[ax], frames⟩])
      else some (dims.dropLast ++ [⟨d.axes ++ [ax], d.size * frames⟩])
  else some dims

/-- 274-276: `axesToMove` of the detector -/
def multiplyAxes (ax : A) (frames : Nat) (axesToMove : List A) : List A :=
  if frames > 1 then axesToMove ++ [ax] else axesToMove

/-- The two blocks. `Option P` are the parts of the scan: `none` is the DetectorChildPart. -/
structure Pair (P : Type) where
  scan : Machine (Option P)
  det : Machine P
  deriving DecidableEq, Repr

/-- 306-343 `on_configure` inside `configure` of the scan, for an enabled row of the detectors table. The breakpoints are
passed on as they are (290). -/
def configure (ax : A) (frames : Nat) (s : Scan (Option P)) (d : Scan P) (dims : List (Dim A)) (axesToMove : List A)
    (breakpoints : List Int) : Option (Pair P) :=
  match configured s dims axesToMove breakpoints with
  | .error _ => none
  | .ok scan =>
    match multiplyDims ax frames dims with
    | none => none
    | some dims' =>
      match configured d dims' (multiplyAxes ax frames axesToMove) breakpoints with
      | .error _ => none
      | .ok det => some ⟨scan, det⟩

/-- What happens -/
inductive Ev (P : Type)
  /-- `run()` or `resume()` of the scan -/
  | run
  | resume
  | pause (lastGoodStep : Int)
  /-- a part of the detector reports -/
  | detProgress (part : P) (steps : Int)
  /-- another part of the scan reports -/
  | progress (part : P) (steps : Int)
  /-- the run hooks of the detector return -/
  | detDone
  /-- the run hooks of the scan return -/
  | done
  deriving DecidableEq, Repr

/-- 392-394 `update_completed_steps` -/
def report (frames : Nat) (m : Machine (Option P)) (det : Machine P) : Machine (Option P) :=
  m.step (.progress none (det.scan.completed / (frames : Int)))

/-- 345-368 `on_run`: subscribes, then runs or resumes the detector. A detector that can do neither is a failure of the
scan. -/
def onRun (frames : Nat) (p : Pair P) : Pair P :=
  let scan := report frames p.scan p.det
  match p.det.phase with
  | .armed => { scan := scan, det := p.det.step .run }
  | .paused _ => { scan := scan, det := p.det.step .resume }
  | _ => { p with scan := { scan with phase := .fault } }

/-- runnablecontroller.py 671-721 with the SeekHook of the part, 377-385 `on_seek`: the detector is paused at
`completed_steps`. If that fails so does the scan. -/
def pause (p : Pair P) (lg : Int) : Pair P :=
  match p.scan.phase with
  | .fault => p
  | ph =>
    match pauseTarget p.scan.scan ph lg with
    | none => p
    | some target =>
      match doPause p.scan.scan target with
      | .error _ => { p with scan := p.scan.step (.pause lg) }
      | .ok _ =>
        let det := p.det.step (.pause target)
        if det.phase = .fault then { scan := { p.scan with phase := .fault }, det := det }
        else { scan := p.scan.step (.pause lg), det := det }

/-- 352: the subscription to `completedSteps` of the detector, which lasts while the scan is running -/
def follow (frames : Nat) (p : Pair P) (det : Machine P) : Pair P :=
  match p.scan.phase with
  | .running _ => if det.scan.completed = p.det.scan.completed then { p with det := det } else ⟨report frames p.scan det, det⟩
  | _ => { p with det := det }

/-- One event. The run hooks of the scan return only when the detector has left Running (359-368), and the PostRun hook
only when its `run` has returned (370-375). -/
def step (frames : Nat) (p : Pair P) : Ev P → Pair P
  | .run =>
    match p.scan.phase with
    | .armed => onRun frames { p with scan := p.scan.step .run }
    | _ => p
  | .resume =>
    match p.scan.phase with
    | .paused _ => onRun frames { p with scan := p.scan.step .resume }
    | _ => p
  | .pause lg => pause p lg
  | .detProgress part n => follow frames p (p.det.step (.progress part n))
  | .progress part n => { p with scan := p.scan.step (.progress (some part) n) }
  | .detDone =>
    let det := p.det.step .runHooksDone
    if det.phase = .fault then { scan := { p.scan with phase := .fault }, det := det } else follow frames p det
  | .done =>
    match p.det.phase with
    | .running _ => p
    | .paused _ => p
    | .fault => p
    | _ => { p with scan := p.scan.step .runHooksDone }

/-- A history -/
def run (frames : Nat) (p : Pair P) (evs : List (Ev P)) : Pair P := evs.foldl (step frames) p

end Verif.DetStep
