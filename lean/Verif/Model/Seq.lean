import Mathlib.Algebra.Order.Field.Rat
import Mathlib.Algebra.Order.Floor.Ring
import Mathlib.Data.Rat.Floor
import Verif.Model.PyDict
/-!
Sequencer rows and the tables of the two sequencers of a PandA:
malcolm/modules/ADPandABlocks/doublebuffer.py and
malcolm/modules/ADPandABlocks/parts/pandaseqtriggerpart.py 30-260.

Simplification: durations are rationals, not floats, so there is no rounding other than the `round` of
the code. Outputs C to F of a row and all outputs of phase 2 are always 0 and are left out.
-/
namespace Verif.Seq

inductive Err
  | emptySplit     -- doublebuffer.py 76
  | loopNotLast    -- doublebuffer.py 81
  | noCompare      -- pandaseqtriggerpart.py 64-67
  | wrongDirection -- pandaseqtriggerpart.py 101-103
  | fuel           -- not in the code: proved never to happen
  deriving DecidableEq, Repr

/-- doublebuffer.py 14: seconds in a tick -/
def tick : ℚ := 8 / 1000000000
/-- doublebuffer.py 17 -/
def minPulse : Int := 1250
/-- doublebuffer.py 20 -/
def maxRepeats : Nat := 4096
/-- doublebuffer.py 23 -/
def switchDelay : Int := 6

/-- util.py 59-80: `live` is outa1 and `dead` is outb1. Zero repeats make the sequencer repeat the row for
ever. -/
structure Row where
  repeats : Nat
  trigger : String
  position : Int
  time1 : Int
  live : Nat
  dead : Nat
  time2 : Int
  deriving DecidableEq, Repr

/-- `SequencerRows`: the rows and the running total of their ticks -/
structure Rows where
  rows : List Row := []
  dur : ℚ := 0
  deriving DecidableEq, Repr

/-- doublebuffer.py 176-183 -/
def calcDuration : List Row → ℚ
  | [] => 0
  | r :: rs => (r.repeats : ℚ) * ((r.time1 + r.time2 : Int) : ℚ) + calcDuration rs

/-- doublebuffer.py 35-41 -/
def Rows.mk' (rows : List Row) : Rows := { rows := rows, dur := calcDuration rows }

/-- doublebuffer.py 139-174 -/
def seqRow (repeats : Nat) (trigger : String) (position half : Int) (live dead : Nat) (trim : Int) : Row :=
  { repeats := repeats, trigger := trigger, position := position, time1 := half, live := live, dead := dead,
    time2 := half - trim }

/-- The arguments of `add_seq_entry` with their defaults, doublebuffer.py 47-56 -/
structure Entry where
  count : Nat := 1
  trigger : String := "Immediate"
  position : Int := 0
  half : Int := minPulse
  live : Nat := 0
  dead : Nat := 0
  trim : Int := 0

/-- doublebuffer.py 47-68 -/
def addSeqEntry (r : Rows) (e : Entry) : Rows :=
  let row := fun n => seqRow n e.trigger e.position e.half e.live e.dead e.trim
  { rows := r.rows ++ List.replicate (e.count / maxRepeats) (row maxRepeats) ++ [row (e.count % maxRepeats)]
    dur := r.dur + (e.count : ℚ) * ((2 * e.half - e.trim : Int) : ℚ) }

/-- doublebuffer.py 114-117 -/
def extend (r other : Rows) : Rows := { rows := r.rows ++ other.rows, dur := r.dur + other.dur }

/-- doublebuffer.py 106-109: the last row ends early by the time it takes to switch sequencers -/
def cutLast : List Row → List Row
  | [] => []
  | [r] => [{ r with time2 := r.time2 - switchDelay }]
  | r :: rs => r :: cutLast rs

/-- doublebuffer.py 106-112; `duration` of the remainder is in seconds (133) -/
def finishSplit (rows : List Row) (dur : ℚ) (remainder : Rows) : Rows × Rows :=
  ({ rows := cutLast rows, dur := dur - switchDelay - remainder.dur * tick }, remainder)

/-- doublebuffer.py 70-112: `self` after the call and what it returns -/
def split (r : Rows) (count : Nat) : Except Err (Rows × Rows) :=
  match r.rows.getLast? with
  | none => .error .emptySplit
  | some last =>
    if count ≤ r.rows.length then
      match r.rows[count - 1]? with
      | none => .error .emptySplit
      | some final =>
        if final.repeats = 0 then
          if r.rows.length = count then .ok (r, {}) else .error .loopNotLast
        else if final.repeats = 1 then
          .ok (finishSplit (r.rows.take count) r.dur (Rows.mk' (r.rows.drop count)))
        else
          .ok (finishSplit (r.rows.take (count - 1) ++ [{ final with repeats := 1 }]) r.dur
            (extend (Rows.mk' [{ final with repeats := final.repeats - 1 }]) (Rows.mk' (r.rows.drop count))))
    else if last.repeats = 0 then .ok (r, {})
    else if last.repeats > 1 then
      .ok (finishSplit (r.rows.dropLast ++ [{ last with repeats := last.repeats - 1 }] ++ [{ last with repeats := 1 }])
        r.dur {})
    else .ok (finishSplit r.rows r.dur {})

/-- doublebuffer.py 214-220: the tables yielded and the rows kept; `fuel` bounds the number of rounds -/
def cutLoop (size : Nat) : Nat → Rows → Except Err (List (List Row) × Rows)
  | 0, _ => .error .fuel
  | fuel + 1, r =>
    match split r size with
    | .error e => .error e
    | .ok (t, rem) =>
      if rem.rows.length ≤ size then .ok ([t.rows], rem)
      else
        match cutLoop size fuel rem with
        | .error e => .error e
        | .ok (ts, rem') => .ok (t.rows :: ts, rem')

/-- doublebuffer.py 204-222. `size` is SEQ_TABLE_ROWS and `minDur` is MIN_TABLE_DURATION. Simplification:
the generator is run to its end, where the code asks for one table at a time. -/
def getTablesFrom (size : Nat) (minDur : ℚ) : Rows → List Rows → Except Err (List (List Row))
  | r, [] => if r.rows = [] then .ok [] else .ok [r.rows]
  | r, b :: bs =>
    let r := extend r b
    if r.dur * tick > minDur ∨ r.rows.length > size then
      match cutLoop size (r.rows.length + 1) r with
      | .error e => .error e
      | .ok (ts, rem) =>
        match getTablesFrom size minDur rem bs with
        | .error e => .error e
        | .ok ts' => .ok (ts ++ ts')
    else getTablesFrom size minDur r bs

def getTables (size : Nat) (minDur : ℚ) (batches : List Rows) : Except Err (List (List Row)) :=
  getTablesFrom size minDur {} batches

/-- doublebuffer.py 11 -/
def seqTableRows : Nat := 4096
/-- doublebuffer.py 27 -/
def minTableDuration : ℚ := 15

/-! ### rows of a scan -/

/-- Python `round`: halves go to the even neighbour -/
def pyRound (x : ℚ) : Int :=
  if x - ⌊x⌋ < 1 / 2 then ⌊x⌋
  else if x - ⌊x⌋ > 1 / 2 then ⌊x⌋ + 1
  else if ⌊x⌋ % 2 = 0 then ⌊x⌋ else ⌊x⌋ + 1

/-- pandaseqtriggerpart.py 148, 158, 174 -/
def halfOf (duration : ℚ) : Int := pyRound (duration / tick / 2)

/-- A scannable the sequencer can see, with the lower bound and the centre of each point in counts
(pmac/infos.py 119-122). -/
structure Axis where
  name : String
  lower : Nat → Int
  centre : Nat → Int

/-- The generator and the attributes of `SeqTriggers` (33-44). `dur` is the duration of each point,
`delay` its `delay_after`, `bounds` the lower and upper bounds of each generator axis. `axes` is
`axis_mapping`, `pcomp` whether `trigger_enums` is non empty, `enum` what it holds. `blind last i axis
increasing` is `_how_long_moving_wrong_way` with `last` as the last point. -/
structure Scan where
  dur : Nat → ℚ
  delay : Nat → ℚ
  bounds : List ((Nat → ℚ) × (Nat → ℚ))
  axes : List Axis
  pcomp : Bool
  enum : String → Bool → String
  blind : Nat → Nat → String → Bool → Except Err ℚ

/-- pmac/util.py 169-185: point `i` joined to the next -/
def joined (s : Scan) (i : Nat) : Bool :=
  s.bounds.isEmpty || (decide (s.delay i = 0) && s.bounds.all (fun b => decide (b.2 i = b.1 (i + 1))))

/-- pandaseqtriggerpart.py 46-72: the first of the axes that move most in point `i` -/
def mostMoved (i : Nat) : List Axis → Option (Axis × Int)
  | [] => none
  | a :: as =>
    let d := a.centre i - a.lower i
    match mostMoved i as with
    | none => if d = 0 then none else some (a, d)
    | some (b, e) => if d ≠ 0 ∧ e.natAbs ≤ d.natAbs then some (a, d) else some (b, e)

/-- pandaseqtriggerpart.py 46-72 -/
def whatMovesMost (s : Scan) (i : Nat) : Except Err (String × Int × Bool) :=
  match mostMoved i s.axes with
  | none => .error .noCompare
  | some (a, d) => .ok (a.name, a.lower i, decide (d > 0))

/-- pandaseqtriggerpart.py 98: stationary or moving the wrong way; `v` is in counts -/
def wrongWay (increasing : Bool) (v : ℚ) : Bool := if increasing then decide (v ≤ 0) else decide (v ≥ 0)

/-- pandaseqtriggerpart.py 94-104: the index the backwards search stops at, or the error; `n` is the
number of velocities and `vs` are the ones left, last first. -/
def backwards (increasing : Bool) (n : Nat) : List ℚ → Except Err Nat
  | [] => .ok 0
  | v :: vs => if wrongWay increasing v then (if vs.length < n - 1 then .ok vs.length else .error .wrongDirection)
    else backwards increasing n vs

/-- pandaseqtriggerpart.py 88-106: when the axis last moved the wrong way, from the profile of the
turnaround (`profile_between_points`, a parameter). Simplification: `time_array[i]` of arrays of the same
length. -/
def howLongWrongWay (increasing : Bool) (resolution : ℚ) (profile : List (ℚ × ℚ)) : Except Err ℚ :=
  match backwards increasing profile.length (profile.map (fun p => p.2 / resolution)).reverse with
  | .error e => .error e
  | .ok i => .ok ((profile.map (·.1)).getD i 0)

/-- pandaseqtriggerpart.py 138-144: the distinct durations one after the other, with their lengths -/
def runs : List ℚ → List (ℚ × Nat)
  | [] => []
  | d :: ds =>
    match runs ds with
    | [] => [(d, 1)]
    | (e, n) :: rest => if d = e then (e, n + 1) :: rest else (d, 1) :: (e, n) :: rest

/-- pandaseqtriggerpart.py 132-151 -/
def immediateRows (durations : List ℚ) : Rows :=
  (runs durations).foldl (fun r dn => addSeqEntry r { count := dn.2, half := halfOf dn.1, live := 1 }) {}

/-- pandaseqtriggerpart.py 153-199: the scan row of points `start` to `stop`; `last` is `last_point` -/
def triggeredRows (s : Scan) (last : Nat) (start stop : Nat) (addBlind : Bool) : Except Err Rows :=
  let half := halfOf (s.dur start)
  let rest := immediateRows ((List.range' (start + 1) (stop - (start + 1))).map s.dur)
  if s.pcomp then
    match whatMovesMost s start with
    | .error e => .error e
    | .ok (name, cts, increasing) =>
      let compare : Entry := { trigger := s.enum name increasing, position := cts, half := half, live := 1 }
      if addBlind then
        match s.blind last start name increasing with
        | .error e => .error e
        | .ok blind =>
          .ok (extend (addSeqEntry (addSeqEntry {} { half := halfOf blind, dead := 1 }) compare) rest)
      else .ok (extend (addSeqEntry {} compare) rest)
  else
    let bit : Entry := { trigger := "BITA=1", half := half, live := 1 }
    if addBlind then
      .ok (extend (addSeqEntry (addSeqEntry {} { half := minPulse, dead := 1, trigger := "BITA=0" }) bit) rest)
    else .ok (extend (addSeqEntry {} bit) rest)

/-- pandaseqtriggerpart.py 201-220: the index ranges of the `Points` yielded; `fuel` bounds their number,
`size` is BATCH_SIZE -/
def overlapLoop (size stop : Nat) : Nat → Nat → Nat → List (Nat × Nat)
  | 0, _, _ => []
  | fuel + 1, low, high =>
    (low, high) :: (if high = stop then [] else overlapLoop size stop fuel (high - 1) (min (high - 1 + size + 1) stop))

def overlapping (size start stop : Nat) : List (Nat × Nat) :=
  if start = stop then [] else overlapLoop size stop (stop - start) start (min (start + size) stop)

/-- pandaseqtriggerpart.py 27 -/
def batchSize : Nat := 5000

/-- pandaseqtriggerpart.py 108-130: where the scan rows of points `low` to `high` start, the first left out -/
def rowStarts (s : Scan) (low high : Nat) : List Nat :=
  (List.range' (low + 1) (high - (low + 1))).filter (fun i => !joined s (i - 1))

/-- pandaseqtriggerpart.py 248-251: the scan rows starting at `starts`, the last ending at `high`; also
the last point afterwards -/
def laterRows (s : Scan) (high : Nat) : Nat → List Nat → Except Err (List Rows × Nat)
  | last, [] => .ok ([], last)
  | last, i :: is =>
    let stop := is.headD high
    match triggeredRows s last i stop true with
    | .error e => .error e
    | .ok r =>
      match laterRows s high (stop - 1) is with
      | .error e => .error e
      | .ok (rs, last') => .ok (r :: rs, last')

/-- pandaseqtriggerpart.py 227-251: what is yielded for one `Points`, and `last_point` afterwards -/
def batchRows (s : Scan) (last : Option Nat) (low high : Nat) : Except Err (List Rows × Option Nat) :=
  if s.axes.isEmpty then
    let first := if last.isSome then low + 1 else low
    .ok ([immediateRows ((List.range' first (high - first)).map s.dur)], some (high - 1))
  else
    let starts := rowStarts s low high
    let stop := starts.headD high
    let head : Except Err (Rows × Nat) :=
      match last with
      | none =>
        match triggeredRows s 0 low stop false with
        | .error e => .error e
        | .ok r => .ok (r, stop - 1)
      | some l => .ok (immediateRows ((List.range' (low + 1) (stop - (low + 1))).map s.dur), l)
    match head with
    | .error e => .error e
    | .ok (r, l) =>
      match laterRows s high l starts with
      | .error e => .error e
      | .ok (rs, l') => .ok (r :: rs, some l')

/-- pandaseqtriggerpart.py 224-251 -/
def scanRows (s : Scan) : Option Nat → List (Nat × Nat) → Except Err (List Rows)
  | _, [] => .ok []
  | last, (low, high) :: bs =>
    match batchRows s last low high with
    | .error e => .error e
    | .ok (rs, last') =>
      match scanRows s last' bs with
      | .error e => .error e
      | .ok rs' => .ok (rs ++ rs')

/-- pandaseqtriggerpart.py 253-258 -/
def finalRows : Rows := addSeqEntry (addSeqEntry {} { half := minPulse, dead := 1 }) { count := 0 }

/-- pandaseqtriggerpart.py 222-260 -/
def getRows (s : Scan) (size start stop : Nat) : Except Err (List Rows) :=
  match scanRows s none (overlapping size start stop) with
  | .error e => .error e
  | .ok rs => .ok (rs ++ [finalRows])

/-! ### the two sequencers -/

/-- `DoubleBuffer` and the sequencers it fills: `tables` are the ones the generator still has to give,
`loads` is what has been put so far, to sequencer A (`false`) or B (`true`), in order. -/
structure Buf (T : Type) where
  tables : List T
  statusA : Option Bool := none
  statusB : Option Bool := none
  finished : Bool := true
  subscribed : Bool := false
  loads : List (Bool × T) := []

/-- doublebuffer.py 292-296 -/
def cleanUp {T : Type} (b : Buf T) : Buf T :=
  { b with subscribed := false, statusA := none, statusB := none, finished := true }

/-- doublebuffer.py 224-254. Simplification: the checks of `repeats` and `prescale` are left out. -/
def dbConfigure {T : Type} (b : Buf T) (tables : List T) : Buf T :=
  let b := { cleanUp b with tables := tables }
  match tables with
  | [] => { b with finished := true }
  | [t] => { b with tables := [], loads := b.loads ++ [(false, t)], finished := true }
  | t :: u :: ts => { b with tables := ts, loads := b.loads ++ [(false, t), (true, u)], finished := false }

/-- doublebuffer.py 278-283 -/
def dbRun {T : Type} (b : Buf T) : Buf T := if b.finished then b else { b with subscribed := true }

def statusOf {T : Type} (b : Buf T) (seq : Bool) : Option Bool := if seq then b.statusB else b.statusA

def setStatus {T : Type} (b : Buf T) (seq : Bool) (v : Bool) : Buf T :=
  if seq then { b with statusB := some v } else { b with statusA := some v }

/-- doublebuffer.py 256-267: `active` of a sequencer is reported as `value` -/
def activeHandler {T : Type} (b : Buf T) (seq value : Bool) : Buf T :=
  if b.subscribed then
    if statusOf b seq = some true ∧ value = false then
      match b.tables with
      | [] => cleanUp b
      | t :: ts => setStatus { b with tables := ts, loads := b.loads ++ [(seq, t)] } seq value
    else setStatus b seq value
  else b

end Verif.Seq
