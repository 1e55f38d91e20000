import Verif.Model.DetStep
/-!
What it means that a scan and its detector are in step.
-/
namespace Verif.Spec.DetStep
open Verif Verif.Steps Verif.DetStep

variable {P : Type} [DecidableEq P]

/-- The window of frames for a window of steps, with `frames` frames in each step -/
def framesOf (frames : Nat) (w : Int × Int) : Int × Int := ((frames : Int) * w.1, (frames : Int) * w.2)

def isRunning : Phase → Bool
  | .running _ => true
  | _ => false

/-- The detector is about to take, or is taking, exactly the frames of the steps which the scan is about to do or is
doing; and it takes none if the scan is not running. (While the scan is running the detector may have taken all its frames
already, and then it is ready for those of the next run, which says nothing about this one.) -/
structure InStep (frames : Nat) (p : Pair P) : Prop where
  total : p.det.scan.total = frames * p.scan.scan.total
  window : isRunning p.scan.phase = isRunning p.det.phase → p.det.window = framesOf frames p.scan.window
  stops : isRunning p.det.phase = true → isRunning p.scan.phase = true

/-- Each pause of the history goes to a step of the scan -/
def Sane (frames : Nat) : Pair P → List (DetStep.Ev P) → Prop
  | _, [] => True
  | p, e :: es =>
    (∀ lg, e = .pause lg → ∀ t, pauseTarget p.scan.scan p.scan.phase lg = some t → 0 ≤ t ∧ t < p.scan.scan.total) ∧
      Sane frames (step frames p e) es

def noPause : DetStep.Ev P → Bool
  | .pause _ => false
  | _ => true

end Verif.Spec.DetStep
