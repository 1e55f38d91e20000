/-!
Unique ids of detector frames and position labels:
malcolm/modules/ADCore/parts/detectordriverpart.py 105-137, 336-488 (`setup_detector`, `on_configure`,
`on_seek`, `on_post_run_armed`), positionlabellerpart.py 57-188, hdfwriterpart.py 523-525, 617-635, 705-712.

The areaDetector driver gives each frame the unique id one after the last and the array counter can be
set; the position plugin gives the positions sent to it consecutive ids from `idStart` on.
-/
namespace Verif.Detector

/-- The part of DetectorDriverPart and of the driver it talks to that is about ids -/
structure Driver where
  /-- the `arrayCounter` of the driver: the id of the last frame -/
  counter : Nat := 0
  /-- `done_when_reaches` -/
  done : Nat := 0
  /-- `uniqueid_offset` -/
  offset : Int := 0
  deriving DecidableEq, Repr

/-- detectordriverpart.py 105-127 `setup_detector` -/
def Driver.setup (d : Driver) (completed steps : Nat) (initial : Bool) : Driver :=
  let counter := if initial then 0 else d.done
  { counter := counter
    done := if initial then steps else d.done + steps
    offset := (completed : Int) - counter }

/-- detectordriverpart.py 457-488 `on_post_run_armed`: `again` is `breakpoints or not
self.is_hardware_triggered` -/
def Driver.next (d : Driver) (completed steps : Nat) (again : Bool) : Driver :=
  if again then d.setup completed steps false else { d with done := d.done + steps }

/-- detectordriverpart.py 182-184 `update_completed_steps`: what is reported for a counter value -/
def Driver.report (d : Driver) (value : Nat) : Int := value + d.offset

/-- The part of PositionLabellerPart and of the plugin that is about ids -/
structure Labeller where
  /-- `done_when_reaches` -/
  done : Nat := 0
  /-- the `idStart` put to the plugin: the id of the first position -/
  idStart : Nat := 0
  /-- the step of the first position (the argument of `_make_xml`, 81) -/
  first : Nat := 0
  deriving DecidableEq, Repr

/-- positionlabellerpart.py 57-87 `setup_plugin` -/
def Labeller.setup (l : Labeller) (completed steps : Nat) (initial : Bool) : Labeller :=
  { idStart := if initial then 1 else l.done + 1
    done := if initial then steps else l.done + steps
    first := completed }

/-- positionlabellerpart.py 127-133 `on_post_run_armed` -/
def Labeller.next (l : Labeller) (steps : Nat) : Labeller := { l with done := l.done + steps }

/-- HDFWriterPart: what it waits for and its offset, with the plugin's count of captured frames -/
structure Writer where
  captured : Nat := 0
  /-- `done_when_captured` -/
  done : Nat := 0
  /-- `num_captured_offset` -/
  offset : Int := 0
  deriving DecidableEq, Repr

/-- hdfwriterpart.py 523-525 and, `start` having been called, a plugin that has captured nothing -/
def Writer.configure (completed steps : Nat) : Writer :=
  { captured := 0, done := completed + steps, offset := 0 }

/-- hdfwriterpart.py 617-635 `on_seek`, the hook of both Seek and PostRunArmed -/
def Writer.seek (w : Writer) (completed steps : Nat) : Writer :=
  { w with offset := (w.captured : Int) - completed, done := w.captured + steps }

/-- hdfwriterpart.py 705-712 `update_completed_steps`: what is reported when `value` is captured -/
def Writer.report (w : Writer) (value : Nat) : Option Int :=
  if (value : Int) - w.offset ≥ 0 then some (value - w.offset) else none

/-- A frame: its id, the step it was taken for, and the step whose position the plugin has for that id -/
structure Frame where
  id : Nat
  step : Nat
  labelled : Int
  deriving DecidableEq, Repr

/-- A detector block in a scan: `cursor` is the step the hardware is at, `left` how many steps of the
current window are still to be taken, `frames` all frames since `configure`. -/
structure Det where
  driver : Driver := {}
  labeller : Labeller := {}
  writer : Writer := {}
  cursor : Nat := 0
  left : Nat := 0
  frames : List Frame := []
  deriving DecidableEq, Repr

/-- The step whose position has the id: positions are sent in order from `first` on (C46). -/
def Labeller.stepOf (l : Labeller) (id : Nat) : Int := (l.first : Int) + id - l.idStart

/-- What happens to a detector block, given the windows of steps that RunnableController gives its
parts (runnablecontroller.py 490-516, 569-589, 696-721; Verif.Model.Steps). -/
inductive Op
  /-- Configure hooks -/
  | configure (completed steps : Nat)
  /-- a frame is taken (and written) for the next step of the window -/
  | frame
  /-- the window is finished: PostRunArmed hooks for the next one; `again`: see `Driver.next` -/
  | next (steps : Nat) (again : Bool)
  /-- the scan is paused, wherever it is: Seek hooks -/
  | seek (completed steps : Nat)
  deriving DecidableEq, Repr

/-- `frame` outside the window and `next` before its end do not happen. -/
def Det.step (s : Det) : Op → Det
  | .configure c n =>
    { driver := s.driver.setup c n true, labeller := s.labeller.setup c n true, writer := Writer.configure c n,
      cursor := c, left := n, frames := [] }
  | .frame =>
    if 0 < s.left then
      let id := s.driver.counter + 1
      { s with driver := { s.driver with counter := id }, cursor := s.cursor + 1, left := s.left - 1,
               writer := { s.writer with captured := s.writer.captured + 1 },
               frames := s.frames ++ [⟨id, s.cursor, s.labeller.stepOf id⟩] }
    else s
  | .next n again =>
    if s.left = 0 then
      { s with driver := s.driver.next s.cursor n again, labeller := s.labeller.next n,
               writer := s.writer.seek s.cursor n, left := n }
    else s
  | .seek c n =>
    { s with driver := s.driver.setup c n false, labeller := s.labeller.setup c n false,
             writer := s.writer.seek c n, cursor := c, left := n }

def Det.run (s : Det) (ops : List Op) : Det := ops.foldl Det.step s

/-! ### the positions sent -/

/-- positionlabellerpart.py 15, 18 -/
def positionsPerXml : Nat := 5000
def nLoadAhead : Nat := 4

/-- positionlabellerpart.py 161-188 `_make_xml`: the indexes of the positions and the new end index -/
def makeXml (size start : Nat) : List Nat × Nat :=
  let stop := if start + positionsPerXml > size then size else start + positionsPerXml
  (List.range' start (stop - start), stop)

/-- PositionLabellerPart while a scan is on: `sent` is every position put to the plugin since the last
`setup_plugin`, in order. -/
structure Loader where
  size : Nat
  endIndex : Nat
  loading : Bool := false
  sent : List Nat := []
  deriving DecidableEq, Repr

/-- positionlabellerpart.py 64-87 -/
def Loader.setup (size completed : Nat) : Loader :=
  let x := makeXml size completed
  { size := size, endIndex := x.2, sent := x.1 }

/-- The two halves of `load_more_positions`: while it waits for the put of the xml other updates of
`qty` can be handled. -/
inductive LoadOp
  | qty (left : Nat)
  | putDone
  deriving DecidableEq, Repr

/-- positionlabellerpart.py 149-159 `load_more_positions` -/
def Loader.step (l : Loader) : LoadOp → Loader
  | .qty n =>
    if l.endIndex ≠ 0 ∧ l.size ≠ 0 then
      if l.loading = false ∧ l.endIndex < l.size ∧ n < positionsPerXml * nLoadAhead then
        let x := makeXml l.size l.endIndex
        { l with loading := true, endIndex := x.2, sent := l.sent ++ x.1 }
      else l
    else l
  | .putDone => { l with loading := false }

def Loader.run (l : Loader) (ops : List LoadOp) : Loader := ops.foldl Loader.step l

end Verif.Detector
