/-!
The datasets that a scan block and its detectors list: malcolm/modules/scanning/parts/datasettablepart.py 29-48,
malcolm/modules/scanning/parts/detectorchildpart.py 121-136, 254-271, 303-343,
malcolm/modules/scanning/controllers/runnablecontroller.py 430-516 and malcolm/core/info.py 22-58.

A scan block has parts; some stand for a detector, which is itself a block with parts that write files. What a part
writes is given by a function of the parameters it gets (`Verif.Model.Hdf`, `OdinFile`, `Xspress` and `FileWrite` follow
such parts). A detector is taken to be at rest when the scan configures or resets it, and no two parts stand for the same one.
-/
namespace Verif.DataTable

abbrev Text := List Char

/-- scanning infos.py 86-112 `DatasetProducedInfo`, and a row of the table of scanning/util.py 109-126 `DatasetTable`
(the columns are the same, in the same order) -/
structure Ds where
  name : String
  file : Text
  type : Nat
  rank : Nat
  path : String
  uid : String
  deriving DecidableEq, Repr

/-- scanning/util.py 146-161 `DetectorTable`: a row. The exposure is left out. -/
structure Row where
  enable : Bool
  name : Text
  mri : String
  frames : Int
  deriving DecidableEq, Repr

/-- The parameters of configure() that matter for what is written where. -/
structure Args where
  fileDir : String
  template : Text
  format : Text
  rows : List Row := []
  deriving DecidableEq, Repr

/-- Python's `template % name`, as in hdfwriterpart.py 543 and filewritepart.py 85: `%s` is replaced and must be there once,
`%%` is a percent sign, anything else is an error. -/
def fill : Text → Option Text → Option Text
  | [], none => some []
  | [], some _ => none
  | '%' :: '%' :: t, n => (fill t n).map ('%' :: ·)
  | '%' :: 's' :: t, some n => (fill t none).map (n ++ ·)
  | '%' :: _, _ => none
  | c :: t, n => (fill t n).map (c :: ·)

/-- scanning/util.py 168-210 `RunnableStates`, those in which a block rests; `armed` is also for the states of a run -/
inductive State | ready | armed | finished | aborted | fault | disabled
  deriving DecidableEq, Repr

/-- runnablecontroller.py 452-458, statefulcontroller.py 112-114: what a block that could not do what it was told is left in: it was aborted, it failed or it was disabled -/
inductive Bad | aborted | fault | disabled
  deriving DecidableEq, Repr

/-- statefulcontroller.py 112-114: the state -/
def Bad.state : Bad → State
  | .aborted => .aborted
  | .fault => .fault
  | .disabled => .disabled

/-- A detector: detectorchildpart.py for the part in the scan (`faulty` 121-128), and the block it stands for.
`writes` are its parts that write files, `hasTable` whether it has a DatasetTablePart. -/
structure Det where
  name : Text
  mri : String
  faulty : Bool := false
  hasTable : Bool := true
  writes : List (Args → List Ds)
  state : State := .ready
  table : List Ds := []

/-- A part of the scan block: it stands for a detector, or writes a file itself (nothing, for most parts). -/
inductive Part
  | det (d : Det)
  | writes (f : Args → List Ds)

/-- How a call goes: well, or badly leaving the block in this state; `late` if only after the new datasets were listed. -/
inductive Out
  | ok
  | bad (st : Bad) (late : Bool)
  deriving DecidableEq, Repr

/-- runnablecontroller.py 430-461, 463-516 for a detector, with datasettablepart.py 29-45: the table is set in PostConfigure from what
its parts told, in the order of the parts (info.py 42-58). From Finished it is reset first (runnablecontroller.py 464-469). False: it raises. -/
def Det.configure (d : Det) (a : Args) (o : Out) : Det × Bool :=
  if d.state = .ready ∨ d.state = .finished then
    let d := if d.state = .finished then { d with table := [] } else d
    let full := d.writes.flatMap (· a)
    match o with
    | .ok => ({ d with state := .armed, table := if d.hasTable then full else d.table }, true)
    | .bad st late => ({ d with state := st.state, table := if late ∧ d.hasTable then full else d.table }, false)
  else (d, false)

/-- How the reset of a detector goes: well, abort() raises, or reset() raises. -/
inductive ROut | ok | abortBad (st : Bad) | resetBad (st : Bad)
  deriving DecidableEq, Repr

/-- detectorchildpart.py 131-136 `on_reset`, childpart.py 168-171, datasettablepart.py 47-48. abort() can be called in normal states
(ready, armed, finished here), after that reset() in any state. -/
def Det.reset (d : Det) (o : ROut) : Det × Bool :=
  if d.faulty then (d, true)
  else
    match o with
    | .abortBad st => if d.state = .ready ∨ d.state = .armed ∨ d.state = .finished then ({ d with state := st.state }, false)
                      else ({ d with state := .ready, table := [] }, true)
    | .resetBad st => ({ d with state := st.state, table := [] }, false)
    | .ok => ({ d with state := .ready, table := [] }, true)

/-- detectorchildpart.py 263-271, `_configure_args`: the row that says to take part; `none`: there is none, `some none`: the assertion fails -/
def findRow (d : Det) : List Row → Option (Option Row)
  | [] => none
  | r :: rs => if r.name = d.name ∧ r.enable then (if r.mri = d.mri then some (some r) else some none) else findRow d rs

/-- detectorchildpart.py 304-343 `on_configure`, with what is passed on by 290-300 `_configure_args`. `none`: it raises. The datasets of a detector
that does not take part are not told. Frames per step must be positive (325-328), and the child must have a table of datasets (337-340). -/
def Det.onConfigure (d : Det) (a : Args) (o : Out) : Det × Option (List Ds) :=
  match findRow d a.rows with
  | none => (d, some [])
  | some none => (d, none)
  | some (some r) =>
    if r.frames ≤ 0 then (d, none)
    else
      let c := d.configure { a with format := d.name, rows := [] } o
      if c.2 then (c.1, if d.hasTable then some c.1.table else none) else (c.1, none)

/-- The ConfigureHook of a part (core/hook.py 145-159). A part that writes itself may fail too. -/
def Part.onConfigure (p : Part) (a : Args) (o : Out) : Part × Option (List Ds) :=
  match p with
  | .det d => (.det (d.onConfigure a o).1, (d.onConfigure a o).2)
  | .writes f => (p, if o = .ok then some (f a) else none)

/-- The ResetHook of a part: childpart.py 168-171, detectorchildpart.py 131-136 -/
def Part.reset (p : Part) (o : ROut) : Part × Bool :=
  match p with
  | .det d => (.det (d.reset o).1, (d.reset o).2)
  | .writes _ => (p, true)

/-- The scan block. -/
structure Scan where
  state : State := .ready
  table : List Ds := []
  parts : List Part

/-- core/hook.py 172-240 and builtin statefulcontroller.py 106-110: all parts are reset, and if one fails the hook fails. With
datasettablepart.py 47-48 the table is emptied whether another part fails or not. `o i`: how it goes for part `i`. -/
def Scan.resetParts (s : Scan) (o : Nat → ROut) : Scan × Bool :=
  let rs := s.parts.zipIdx.map (fun pi => pi.1.reset (o pi.2))
  ({ s with parts := rs.map (·.1), table := [] }, rs.all (·.2))

/-- runnablecontroller.py 503-506 with core/hook.py 172-240: the ConfigureHook of all parts; `none` if one of them fails.
What they told is put together in the order of the parts (info.py 42-58). -/
def Scan.configureParts (s : Scan) (a : Args) (o : Nat → Out) : List Part × Option (List Ds) :=
  let rs := s.parts.zipIdx.map (fun pi => pi.1.onConfigure a (o pi.2))
  (rs.map (·.1), if rs.all (·.2.isSome) then some (rs.flatMap (fun r => r.2.getD [])) else none)

/-- How configure() of the scan goes beside its parts: `pre` whether a stage before the ConfigureHook fails, `post` whether the PostConfigureHook
of another part fails, `st` the state it is then left in. -/
structure How where
  pre : Bool := false
  post : Bool := false
  st : Bad := .fault
  deriving DecidableEq, Repr

/-- runnablecontroller.py 430-461 `configure`, 463-516 `do_configure`, and datasettablepart.py 29-45. From Finished everything is reset first. -/
def Scan.configure (s : Scan) (a : Args) (ro : Nat → ROut) (o : Nat → Out) (h : How) : Scan :=
  if s.state = .ready ∨ s.state = .finished then
    let r := if s.state = .finished then s.resetParts ro else (s, true)
    if r.2 = false ∨ h.pre then { r.1 with state := h.st.state }
    else
      match r.1.configureParts a o with
      | (ps, none) => { r.1 with parts := ps, state := h.st.state }
      | (ps, some t) => { r.1 with parts := ps, table := t, state := if h.post then h.st.state else .armed }
  else s

/-- statefulcontroller.py 103-110 `reset` (a scan that is Ready cannot be reset), with the ResetHook of every part -/
def Scan.reset (s : Scan) (ro : Nat → ROut) (st : Bad) : Scan :=
  if s.state = .ready then s
  else
    let r := s.resetParts ro
    { r.1 with state := if r.2 then .ready else st.state }

/-- statefulcontroller.py 94-114, runnablecontroller.py 519-756: whether running, pausing, aborting, disabling or an error can bring a block at rest from one state to another.
More is allowed here than the state set allows; but only configure() makes a block Armed, and only reset() makes it Ready. -/
def canMove (a b : State) : Bool :=
  a = b || ((a = .armed || a = .finished) && (b = .armed || b = .finished)) || (b = .aborted || b = .fault || b = .disabled)

/-- What becomes of a detector while the scan runs, or is aborted or disabled: runnablecontroller.py 519-756 -/
def Part.move (p : Part) (b : State) : Part :=
  match p with
  | .det d => .det (if canMove d.state b then { d with state := b } else d)
  | .writes _ => p

/-- What can happen. `alone`: someone else configures a detector, or resets it. -/
inductive Op
  | configure (a : Args) (ro : Nat → ROut) (o : Nat → Out) (h : How)
  | reset (ro : Nat → ROut) (st : Bad)
  | move (st : State) (sts : Nat → State)
  | alone (i : Nat) (a : Args) (o : Out)
  | aloneReset (i : Nat) (o : ROut)

/-- Someone else uses a detector: runnablecontroller.py 430-461 -/
def Part.alone (p : Part) (a : Args) (o : Out) : Part :=
  match p with
  | .det d => .det (d.configure a o).1
  | .writes _ => p

/-- One step: runnablecontroller.py 430-516 and what is cited above -/
def step (s : Scan) : Op → Scan
  | .configure a ro o h => s.configure a ro o h
  | .reset ro st => s.reset ro st
  | .move st sts => { s with
      state := if canMove s.state st then st else s.state
      parts := s.parts.zipIdx.map (fun pi => pi.1.move (sts pi.2)) }
  | .alone i a o => { s with parts := s.parts.zipIdx.map (fun pi => if pi.2 = i then pi.1.alone a o else pi.1) }
  | .aloneReset i o => { s with parts := s.parts.zipIdx.map (fun pi => if pi.2 = i then (pi.1.reset o).1 else pi.1) }

/-- A history -/
def run (s : Scan) (ops : List Op) : Scan := ops.foldl step s

end Verif.DataTable
