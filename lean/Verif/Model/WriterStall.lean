/-!
How a run of the HDF writer ends: malcolm/modules/ADCore/parts/hdfwriterpart.py 523-532, 586-591, 617-712 (`on_configure`,
`on_seek`, `on_run`, `_flush_if_still_writing`, `_has_file_writing_stalled`, `update_completed_steps`).

Simplifications: time goes in milliseconds, and what happens in one of them is seen in it; the time a flush takes is a
parameter; the run is not aborted; values are told in the order in which they are reached, but some may be left out.
-/
namespace Verif.WriterStall

/-- hdfwriterpart.py 527-532: ADCore/util.py 12 is `FRAME_TIMEOUT`. `duration` is that of the generator in ms, and not
positive if it is not the same for all points -/
def frameTimeout (duration : Int) : Nat := if duration > 0 then 60000 + duration.toNat else 60000 + 60000

/-- What the plugin tells -/
inductive Ev
  /-- `numCapturedReadback` -/
  | captured (v : Int)
  /-- `arrayCounterReadback` -/
  | array (v : Int)
  /-- the call of `start` ends, well or with an error -/
  | start (ok : Bool)
  deriving DecidableEq, Repr

/-- How a run ends -/
inductive Result
  | done
  | stalled
  | failed
  deriving DecidableEq, Repr

/-- Where a run is: hdfwriterpart.py 640 (`first`), 656 (`waiting`, until the time-out), 659 (`flushing`), after 667 or 665 -/
inductive Phase
  | idle
  | first
  | waiting (deadline : Nat)
  | flushing (until_ : Nat)
  | ended (time : Nat) (r : Result)
  deriving DecidableEq, Repr

/-- The part and what it has been told -/
structure St where
  /-- `numCapturedReadback` -/
  captured : Int := 0
  /-- whether `first_array_future` is done -/
  firstSeen : Bool := false
  /-- `start_future`: not done, or how it ended -/
  start : Option Bool := none
  /-- `done_when_captured` -/
  target : Int
  /-- `num_captured_offset` -/
  offset : Int := 0
  /-- `frame_timeout` -/
  timeout : Nat
  phase : Phase := .idle
  /-- `f_done` is done -/
  reached : Bool := false
  /-- `last_capture_update` -/
  last : Nat := 0
  /-- what was reported as progress, the last first -/
  progress : List Int := []
  deriving DecidableEq, Repr

/-- hdfwriterpart.py 523-532, 586-591 `on_configure`: the plugin has been started and has captured nothing -/
def configure (completed steps : Int) (duration : Int) : St :=
  { target := completed + steps, timeout := frameTimeout duration }

/-- hdfwriterpart.py 617-635 `on_seek`: `first_array_future` stays as it is -/
def seek (s : St) (completed steps : Int) : St :=
  { s with offset := s.captured - completed, target := s.captured + steps, phase := .idle }

/-- In the loop, when the part is told of the frames captured -/
def inLoop : Phase → Bool
  | .waiting _ => true
  | .flushing _ => true
  | _ => false

/-- hdfwriterpart.py 705-712 `update_completed_steps` at time `n`, and 649-651 -/
def update (s : St) (n : Nat) : St :=
  { s with
    last := n
    reached := s.reached || decide (s.captured = s.target)
    progress := if s.captured - s.offset ≥ 0 then (s.captured - s.offset) :: s.progress else s.progress }

/-- hdfwriterpart.py 640, 646-651, 673: something is told at time `n` -/
def hear (n : Nat) (s : St) : Ev → St
  | .captured v => if inLoop s.phase then update { s with captured := v } n else { s with captured := v }
  | .array v => { s with firstSeen := s.firstSeen || decide (v > 0) }
  | .start ok => { s with start := some (s.start.getD ok) }

/-- hdfwriterpart.py 656: the wait is over at once if the frames are there -/
def await (s : St) (n : Nat) : St :=
  if s.reached then { s with phase := .ended n .done } else { s with phase := .waiting (n + 1000) }

/-- hdfwriterpart.py 642-656: after the first array. The subscriptions are told the value at once. -/
def enter (s : St) (n : Nat) : St := await (update { s with reached := false } n) n

/-- hdfwriterpart.py 661-665, 678-681 -/
def check (s : St) (n : Nat) : St := if n > s.last + s.timeout then { s with phase := .ended n .stalled } else await s n

/-- hdfwriterpart.py 640-667, 669-676: what the run does at time `n`. `flush n` is how long a flush takes that starts then. -/
def act (flush : Nat → Nat) (s : St) (n : Nat) : St :=
  match s.phase with
  | .idle => s
  | .ended _ _ => s
  | .first => if s.firstSeen then enter s n else s
  | .waiting d =>
    if s.reached then { s with phase := .ended n .done }
    else if d ≤ n then
      match s.start with
      | some false => { s with phase := .ended n .failed }
      | some true => check s n
      | none => if flush n = 0 then check s n else { s with phase := .flushing (n + flush n) }
    else s
  | .flushing u => if u ≤ n then check s n else s

/-- hdfwriterpart.py 637-640 `on_run` at time `n` -/
def begin (s : St) (n : Nat) : St := if s.firstSeen then enter s n else { s with phase := .first }

/-- hdfwriterpart.py 637-667: one millisecond, in which `evs` are told -/
def tick (flush : Nat → Nat) (s : St) (n : Nat) (evs : List Ev) : St := act flush (evs.foldl (hear n) s) n

/-- hdfwriterpart.py 637-667: the part `k` milliseconds after a run was started at time `n` -/
def run (flush : Nat → Nat) (env : Nat → List Ev) (s : St) (n : Nat) : Nat → St
  | 0 => begin s n
  | k + 1 => tick flush (run flush env s n k) (n + k + 1) (env (n + k + 1))

end Verif.WriterStall
