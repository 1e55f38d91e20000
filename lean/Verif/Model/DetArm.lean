import Verif.Model.Steps
/-!
Arming a detector in a scan whose steps are counted as in `Model/Steps.lean`:
malcolm/modules/ADCore/parts/detectordriverpart.py 105-184, 336-493, with what
xmap/parts/xmapdriverpart.py 21-51, ADEiger/parts/eigerdriverpart.py 12-46 and
ADTetrAMM/parts/tetrammdriverpart.py 50-74 do instead.

The driver takes a frame for a trigger while it is acquiring, counts it in its array counter and stops by itself after
the number of images it was started for. Simplified: a frame is there as soon as its trigger; a driver that triggers
itself is triggered by the event `trigger` too; exposure and readout are in `Model/Exposure.lean`.
-/
namespace Verif.DetArm
open Verif Verif.Steps

/-- Which part drives the detector -/
inductive Kind
  | standard
  /-- XmapDriverPart: the driver is told the pixels of a run -/
  | xmap
  /-- EigerDriverPart and TetrAMMDriverPart: stopped after every run, and not waited for -/
  | stopped
  deriving DecidableEq, Repr

/-- The driver -/
structure Driver where
  /-- `arrayCounter` -/
  counter : Int := 0
  /-- `numImages`, or the pixels per run of an xmap -/
  images : Int := 0
  /-- `acquiring` -/
  acquiring : Bool := false
  /-- how many images are to come until it stops by itself -/
  left : Int := 0
  deriving DecidableEq, Repr

/-- The part -/
structure Part where
  kind : Kind
  /-- `is_hardware_triggered` -/
  hardware : Bool
  /-- `bool(breakpoints)` -/
  breakpoints : Bool
  /-- `generator.size` -/
  size : Int
  /-- `done_when_reaches` -/
  done : Int := 0
  /-- `uniqueid_offset` -/
  offset : Int := 0
  deriving DecidableEq, Repr

/-- The scan, the part and its driver. `none` is this part in the eyes of the scan. -/
structure Sys (P : Type) where
  scan : Machine (Option P)
  part : Part
  driver : Driver
  /-- the step that the next trigger is for -/
  cursor : Int
  /-- the steps that frames were taken for since the last configure or seek (history) -/
  frames : List Int := []
  /-- the steps whose trigger came when the driver was not acquiring (history) -/
  lost : List Int := []
  /-- the driver was started while it was acquiring (history) -/
  twice : Bool := false
  deriving DecidableEq, Repr

variable {P : Type} [DecidableEq P]

/-- detectordriverpart.py 105-137 `setup_detector`; xmapdriverpart.py 32-51: `pixelsPerRun` is the steps to do -/
def Sys.setup (s : Sys P) (w : Window) (numImages : Int) (initial : Bool) : Sys P :=
  let counter := if initial then 0 else s.part.done
  { s with part := { s.part with done := counter + w.2, offset := w.1 - counter }
           driver := { s.driver with counter := counter, images := if s.part.kind = .xmap then w.2 else numImages } }

/-- detectordriverpart.py 149-152 `arm_detector`; eigerdriverpart.py 17-22. Starting for no images does nothing. -/
def Sys.arm (s : Sys P) : Sys P :=
  { s with driver := { s.driver with acquiring := decide (0 < s.driver.images), left := s.driver.images }
           twice := s.twice || s.driver.acquiring }

/-- detectordriverpart.py 173-180 `abort_detector` -/
def Sys.stop (s : Sys P) : Sys P := { s with driver := { s.driver with acquiring := false, left := 0 } }

/-- detectordriverpart.py 350-356, 405-411: for how many images the driver is set up -/
def Part.numImages (p : Part) (w : Window) : Int :=
  if p.hardware && !p.breakpoints then p.size - w.1 else w.2

/-- detectordriverpart.py 377-443 `on_configure`, 337-373 `on_seek`. The triggers go on from the first step of the window. -/
def Sys.position (s : Sys P) (w : Window) (initial : Bool) : Sys P :=
  let s := s.setup w (s.part.numImages w) initial
  let s := { s with cursor := w.1, frames := [] }
  if s.part.hardware then s.arm else s

/-- detectordriverpart.py 457-489 `on_post_run_armed`; eigerdriverpart.py 39-46, tetrammdriverpart.py 65-74 -/
def Sys.next (s : Sys P) (w : Window) : Sys P :=
  match s.part.kind with
  | .stopped => s.stop
  | _ =>
    if s.part.breakpoints || !s.part.hardware then
      let s := s.setup w w.2 false
      if s.part.hardware then s.arm else s
    else { s with part := { s.part with done := s.part.done + w.2 } }

/-- detectordriverpart.py 445-455 `on_run`, as far as the wait; eigerdriverpart.py 24-28, tetrammdriverpart.py 50-54 -/
def Sys.onRun (s : Sys P) : Sys P :=
  match s.part.kind with
  | .stopped => s
  | _ => if s.part.hardware then s else s.arm

/-- detectordriverpart.py 154-171 `wait_for_detector` returns -/
def Sys.waited (s : Sys P) : Bool :=
  match s.part.kind with
  | .stopped => true
  | _ => decide (s.driver.counter = s.part.done)

/-- detectordriverpart.py 182-184 `update_completed_steps`: what is reported -/
def Sys.reported (s : Sys P) : Int := s.driver.counter + s.part.offset

/-- What happens -/
inductive Ev (P : Type)
  | run
  | resume
  | pause (lastGoodStep : Int)
  /-- the trigger for the next step -/
  | trigger
  /-- the run hooks of all parts have returned: they have sent all their triggers, and this one has its frames -/
  | done
  /-- another part reports -/
  | progress (part : P) (steps : Int)
  deriving DecidableEq, Repr

/-- The end of the steps that the parts were told to do -/
def Sys.stopAt (s : Sys P) : Int := s.scan.window.1 + s.scan.window.2

/-- A trigger: the driver takes a frame if it is acquiring, and the part reports. -/
def Sys.trigger (s : Sys P) : Sys P :=
  match s.scan.phase with
  | .running _ =>
    if s.cursor < s.stopAt then
      if s.driver.acquiring then
        let s := { s with driver := { s.driver with counter := s.driver.counter + 1, left := s.driver.left - 1
                                                    acquiring := decide (1 < s.driver.left) }
                          frames := s.frames ++ [s.cursor], cursor := s.cursor + 1 }
        match s.part.kind with
        | .stopped => s
        | _ => { s with scan := s.scan.step (.progress none s.reported) }
      else { s with lost := s.lost ++ [s.cursor], cursor := s.cursor + 1 }
    else s
  | _ => s

/-- runnablecontroller.py 563-589: the rest of `do_run`; eigerdriverpart.py 30-36 for PostRunReady -/
def Sys.done (s : Sys P) : Sys P :=
  match s.scan.phase with
  | .running _ =>
    if s.cursor = s.stopAt ∧ s.waited = true then
      let t := { s with scan := s.scan.step .runHooksDone }
      match postRun s.scan.scan with
      | .ok (_, some w) => t.next w
      | _ => if s.part.kind = .stopped then t.stop else t
    else s
  | _ => s

/-- runnablecontroller.py 671-721: `on_abort` for the Pause hook, then `on_seek` for the Seek hook -/
def Sys.pause (s : Sys P) (lg : Int) : Sys P :=
  match s.scan.phase with
  | .fault => s
  | ph =>
    match pauseTarget s.scan.scan ph lg with
    | none => s
    | some target =>
      match doPause s.scan.scan target with
      | .error _ => { s.stop with scan := s.scan.step (.pause lg) }
      | .ok (_, w) => { s.stop with scan := s.scan.step (.pause lg) }.position w false

/-- One event -/
def Sys.step (s : Sys P) : Ev P → Sys P
  | .run =>
    match s.scan.phase with
    | .armed => { s with scan := s.scan.step .run }.onRun
    | _ => s
  | .resume =>
    match s.scan.phase with
    | .paused _ => { s with scan := s.scan.step .resume }.onRun
    | _ => s
  | .pause lg => s.pause lg
  | .trigger => s.trigger
  | .done => s.done
  | .progress part n => { s with scan := s.scan.step (.progress (some part) n) }

/-- A history -/
def Sys.run (s : Sys P) (evs : List (Ev P)) : Sys P := evs.foldl Sys.step s

/-- After `configure` -/
def start (m : Machine (Option P)) (kind : Kind) (hardware : Bool) (breakpoints : List Int) : Sys P :=
  let part : Part := { kind := kind, hardware := hardware, breakpoints := !breakpoints.isEmpty, size := m.scan.total }
  ({ scan := m, part := part, driver := {}, cursor := m.window.1 } : Sys P).position m.window true

end Verif.DetArm
