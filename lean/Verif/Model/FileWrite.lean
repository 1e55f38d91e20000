import Verif.Model.Steps
/-!
The file writing detector of the tutorial, malcolm/modules/demo/parts/filewritepart.py, in a scan whose steps are
counted as in `Model/Steps.lean`.

Simplified: a generator is the index and the image of each of its points (`interesting_pattern`, exposure and duration
are a function of the point); cells that were not written are `none` where HDF5 has 0; what is written to a dataset
can be read by others after it is flushed, and not before; the datasets of set points and the infos are left out.
-/
namespace Verif.FileWrite
open Verif Verif.Steps

/-- What the part takes from a generator: its size and shape, and for each point its `indexes` and the image -/
structure Gen (D : Type) where
  size : Nat
  shape : List Nat
  index : Nat → List Nat
  image : Nat → D

/-- A dataset of h5py, but for the last two axes -/
structure Ds (V : Type) where
  shape : List Nat
  maxshape : List Nat
  cells : List Nat → Option V

/-- The datasets of UID_PATH, DATA_PATH and SUM_PATH -/
structure Hdf (D S : Type) where
  data : Ds D
  sum : Ds S
  uid : Ds Int

/-- filewritepart.py 171-194 `create_dataset`: one cell, room for the whole scan -/
def Ds.create {V : Type} (shape : List Nat) : Ds V := ⟨shape.map fun _ => 1, shape, fun _ => none⟩

/-- filewritepart.py 171-202 `_create_hdf` -/
def createHdf {D S : Type} (g : Gen D) : Hdf D S := ⟨.create g.shape, .create g.shape, .create g.shape⟩

/-- filewritepart.py 205-210: `expand_to` and `ds.resize`, which refuses more than `maxshape` -/
def Ds.expand {V : Type} (needs : List Nat) (ds : Ds V) : Option (Ds V) :=
  let to := List.zipWith max needs ds.shape
  if (List.zipWith (fun a b => decide (a ≤ b)) to ds.maxshape).all id then some { ds with shape := to } else none

/-- `ds[index] = value` of h5py, which refuses an index outside the shape -/
def Ds.put {V : Type} (idx : List Nat) (v : V) (ds : Ds V) : Option (Ds V) :=
  if idx.length = ds.shape.length ∧ (List.zipWith (fun a b => decide (a < b)) idx ds.shape).all id then
    some { ds with cells := fun j => if j = idx then some v else ds.cells j }
  else none

/-- filewritepart.py 204-218 `_write_data`; `total` is `np.sum`. `none` is an exception. -/
def writeData {D S : Type} (total : D → S) (g : Gen D) (h : Hdf D S) (step : Nat) (uid : Int) : Option (Hdf D S) := do
  let idx := g.index step
  let needs := idx.map (· + 1)
  let data ← h.data.expand needs
  let sum ← h.sum.expand needs
  let ids ← h.uid.expand needs
  let data ← data.put idx (g.image step)
  let sum ← sum.put idx (total (g.image step))
  let ids ← ids.put idx uid
  pure ⟨data, sum, ids⟩

/-- The part -/
structure Part (D S : Type) where
  /-- `_completed_steps`, `_steps_to_do`, `_uid_offset` -/
  completed : Int
  steps : Int
  offset : Int
  /-- `_hdf` -/
  hdf : Option (Hdf D S)

/-- filewritepart.py 66-92 `on_configure` -/
def onConfigure {D S : Type} (g : Gen D) (w : Window) : Part D S := ⟨w.1, w.2, 0, some (createHdf g)⟩

/-- filewritepart.py 122-132 `on_seek` -/
def Part.onSeek {D S : Type} (p : Part D S) (w : Window) : Part D S :=
  { p with offset := p.offset + (p.completed + p.steps - w.1), completed := w.1, steps := w.2 }

/-- Where `on_run` is: before it, at a step of its loop up to some step, or returned -/
inductive Loop
  | idle
  | going (pos stop : Int)
  | ended
  deriving DecidableEq, Repr

/-- The scan, the part and the file. `none` is this part in the eyes of the scan. -/
structure Sys (P D S : Type) where
  scan : Machine (Option P)
  part : Part D S
  loop : Loop := .idle
  /-- the file as others see it -/
  disk : Hdf D S
  /-- what others could have seen so far (history) -/
  seen : List (Hdf D S)
  /-- the steps that were written with their ids, oldest first (history) -/
  log : List (Int × Int) := []

variable {P : Type} [DecidableEq P] {D S : Type}

/-- filewritepart.py 220-223 `_flush_datasets`: the file as others see it after each flush -/
def flushes (h disk : Hdf D S) : List (Hdf D S) :=
  [{ disk with data := h.data }, { disk with data := h.data, sum := h.sum }, h]

def Sys.flush (s : Sys P D S) (h : Hdf D S) : Sys P D S := { s with disk := h, seen := s.seen ++ flushes h s.disk }

/-- A hook of the part fails, and so does the scan -/
def Sys.fail (s : Sys P D S) : Sys P D S := { s with scan := { s.scan with phase := .fault }, loop := .idle }

/-- What happens -/
inductive Ev (P : Type)
  | run
  | resume
  | pause (lastGoodStep : Int)
  /-- one turn of the loop of `on_run`; whether it is time to flush -/
  | write (flush : Bool)
  /-- `on_run` leaves its loop -/
  | leave
  /-- the run hooks of all parts have returned -/
  | done
  /-- another part reports -/
  | progress (part : P) (steps : Int)
  | abort
  deriving DecidableEq, Repr

/-- filewritepart.py 109, 115-118: the point at `pos` is in the file `h`, with that id, and the part reports it -/
def Sys.wrote (s : Sys P D S) (h : Hdf D S) (pos stop uid : Int) : Sys P D S :=
  { s with part := { s.part with hdf := some h }, log := s.log ++ [(pos, uid)], loop := .going (pos + 1) stop,
           scan := s.scan.step (.progress none (pos + 1)) }

/-- filewritepart.py 100-118 one turn of the loop of `on_run`; `generator.get_point` refuses steps outside the scan -/
def Sys.write (total : D → S) (g : Gen D) (s : Sys P D S) (flush : Bool) : Sys P D S :=
  match s.loop with
  | .going pos stop =>
    if pos < stop then
      match s.part.hdf with
      | none => s.fail
      | some h =>
        if 0 ≤ pos ∧ pos < (g.size : Int) then
          let uid := pos + s.part.offset + 1
          match writeData total g h pos.toNat uid with
          | none => s.fail
          | some h' =>
            if flush then (s.wrote h' pos stop uid).flush h' else s.wrote h' pos stop uid
        else s.fail
    else s
  | _ => s

/-- filewritepart.py 119-120: the last flush of `on_run` -/
def Sys.leave (s : Sys P D S) : Sys P D S :=
  match s.loop with
  | .going pos stop =>
    if pos < stop then s
    else match s.part.hdf with
      | none => s.fail
      | some h => { s.flush h with loop := .ended }
  | _ => s

/-- runnablecontroller.py 563-589: the rest of `do_run`, with `on_seek` for the PostRunArmed hook -/
def Sys.done (s : Sys P D S) : Sys P D S :=
  match s.loop with
  | .ended =>
    let part := match postRun s.scan.scan with
      | .ok (_, some w) => s.part.onSeek w
      | _ => s.part
    { s with scan := s.scan.step .runHooksDone, loop := .idle, part := part }
  | _ => s

/-- runnablecontroller.py 671-721, with `on_seek` for the Seek hook. The loop of `on_run` has been left by then. -/
def Sys.pause (s : Sys P D S) (lg : Int) : Sys P D S :=
  match s.scan.phase with
  | .fault => s
  | ph =>
    match pauseTarget s.scan.scan ph lg with
    | none => s
    | some target =>
      match doPause s.scan.scan target with
      | .error _ => { s with scan := s.scan.step (.pause lg), loop := .idle }
      | .ok (_, w) => { s with scan := s.scan.step (.pause lg), loop := .idle, part := s.part.onSeek w }

/-- filewritepart.py 134-140 `on_reset` for the Abort hook: closing a file writes everything that is left -/
def Sys.abort (s : Sys P D S) : Sys P D S :=
  match s.part.hdf with
  | none => s.fail
  | some h => { s.fail with part := { s.part with hdf := none }, disk := h, seen := s.seen ++ [h] }

/-- `on_run` begins: filewritepart.py 94-102 -/
def Part.loop (p : Part D S) : Loop := .going p.completed (p.completed + p.steps)

/-- One event -/
def Sys.step (total : D → S) (g : Gen D) (s : Sys P D S) : Ev P → Sys P D S
  | .run =>
    match s.scan.phase with
    | .armed => { s with scan := s.scan.step .run, loop := s.part.loop }
    | _ => s
  | .resume =>
    match s.scan.phase with
    | .paused _ => { s with scan := s.scan.step .resume, loop := s.part.loop }
    | _ => s
  | .pause lg => s.pause lg
  | .write flush => s.write total g flush
  | .leave => s.leave
  | .done => s.done
  | .progress part n => { s with scan := s.scan.step (.progress (some part) n) }
  | .abort => s.abort

/-- A history -/
def Sys.run (total : D → S) (g : Gen D) (s : Sys P D S) (evs : List (Ev P)) : Sys P D S :=
  evs.foldl (Sys.step total g) s

/-- After `configure`: the file is there with nothing in it -/
def start (g : Gen D) (m : Machine (Option P)) : Sys P D S :=
  { scan := m, part := onConfigure g m.window, disk := createHdf g, seen := [createHdf g] }

end Verif.FileWrite
