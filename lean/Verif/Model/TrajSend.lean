import Verif.Model.Trajectory
/-!
How a trajectory is computed in batches, sent to the motion controller in chunks, and how the progress of
the controller is turned into completed steps:
malcolm/modules/pmac/parts/pmacchildpart.py 375, 394-438, 440-543, 614-686, 764-990 and
malcolm/modules/pmac/parts/pmactrajectorypart.py 41-49, 92-164, 169-189.

`Verif.Model.TrajLoop` follows only how many points there are; here the points themselves are followed, in
the arrays of `Verif.Model.Trajectory`.
-/
namespace Verif.TrajSend
open Verif.Trajectory

/-! ### the controller -/

/-- pmac/util.py 19: CS_AXIS_NAMES, in lower case as they are passed to writeProfile -/
def axisNames : List String := ["a", "b", "c", "u", "v", "w", "x", "y", "z"]

/-- A point in the controller: for each axis in use its position. -/
structure Pt where
  ticks : Int
  mode : Nat
  prog : Nat
  pos : Dict String ℚ
  deriving DecidableEq, Repr

/-- The trajectory block and the driver below it: the attributes that writeProfile sets and the points the
driver has been given. `total` is `total_points` (pmactrajectorypart.py 71). -/
structure Pmac where
  version : Int := 3
  cs : Option String := none
  use : List String := []
  arrays : Dict String (List ℚ) := []
  buffer : List Pt := []
  total : Nat := 0
  deriving DecidableEq, Repr

/-- The arguments of writeProfile. `mode` and `prog` may be left out. -/
structure Args where
  csPort : Option String := none
  time : List Int
  mode : Option (List Nat) := none
  prog : Option (List Nat) := none
  axes : Dict String (List ℚ) := []

/-- pmactrajectorypart.py 41-49 `_zeros_or_right_length`; `none` is the AssertionError -/
def zerosOr (a : Option (List Nat)) (n : Nat) : Option (List Nat) :=
  match a with
  | none => some (List.replicate n 0)
  | some l => if l.length = n then some l else none

/-- The driver: point `k` of the arrays, with the axes in use. An array that is too short gives no
position. -/
def pointAt (use : List String) (arrays : Dict String (List ℚ)) (time : List Int) (mode prog : List Nat) (k : Nat) : Pt :=
  { ticks := time.getD k 0, mode := mode.getD k 0, prog := prog.getD k 0,
    pos := use.filterMap (fun a => ((Dict.get? arrays a).bind (·[k]?)).map (fun x => (a, x))) }

/-- pmactrajectorypart.py 125-142: a coordinate system port means that a new trajectory is built -/
def newBuild (p : Pmac) (a : Args) : Pmac :=
  match a.csPort with
  | some cs => { p with total := 0, cs := some cs, use := axisNames.filter (Dict.mem a.axes), buffer := [] }
  | none => p

/-- pmactrajectorypart.py 92-164 `write_profile`; `none` is an exception. What the driver does is assumed:
buildProfile replaces its points by the first `pointsToBuild` of the arrays, appendProfile adds them.
Simplification: a coordinate system port is always accepted. -/
def writeProfile (p : Pmac) (a : Args) : Option Pmac :=
  if p.version < 2 then none
  else if ∃ k ∈ a.axes.keys, k ∉ axisNames then none
  else
    let p := newBuild p a
    let n := a.time.length
    match zerosOr a.mode n with
    | none => none
    | some mode =>
      match zerosOr a.prog n with
      | none => none
      | some prog =>
        let arrays := Dict.update p.arrays a.axes
        some { p with
          arrays := arrays
          buffer := p.buffer ++ (List.range n).map (pointAt p.use arrays a.time mode prog)
          total := p.total + n }

/-! ### the part -/

/-- The scan as the part sees it. `ops i last` are the points that step `i` makes with the turnaround after
it (`last`: it is the last step of the window, which has none), and `added i` is whether
`add_sparse_point` said it added one. `runUp` and `tail`: time and positions. -/
structure Cfg where
  profilePoints : Nat := 2000
  batchPoints : Nat := 20000
  everyPoint : Bool
  tickS : ℚ := 1 / 1000000
  mapping : Dict String String
  ops : Nat → Bool → List Op
  added : Nat → Bool
  runUp : Nat → ℚ × (String → ℚ)
  runUpProg : Nat
  tail : Nat → ℚ × (String → ℚ)
  tailProg : Nat

/-- What the part holds; `reports` are the completed steps it has reported, in order. -/
structure St where
  traj : Traj
  endIndex : Nat := 0
  upTo : Nat := 0
  tailAdded : Bool := false
  pmac : Pmac
  reports : List Nat := []

/-- pmacchildpart.py 817-822, 832-835, 880-885, 897-899: a step is added -/
def visit (c : Cfg) (s : St) (i : Nat) (last : Bool) : Option St :=
  match s.traj.run c.profilePoints (c.ops i last) with
  | none => none
  | some t => some { s with traj := t }

/-- pmacchildpart.py 781-786, 824-827, 837-840, 887-892, 902-906 -/
def exceeds (c : Cfg) (s : St) (i : Nat) : Bool := c.added i && decide (s.traj.time.length > c.profilePoints)

/-- pmacchildpart.py 817-830 and 880-895 -/
def batchLoop (c : Cfg) : Nat → Nat → St → Option (St × Nat × Bool)
  | 0, i, s => some (s, i, false)
  | n + 1, i, s =>
    match visit c s i false with
    | none => none
    | some s => if exceeds c s i then some ({ s with endIndex := i + 1 }, i, true) else batchLoop c n (i + 1) s

/-- pmacchildpart.py 764-779 `get_some_points`: the number of points it gets -/
def numPoints (c : Cfg) (start upTo : Nat) : Nat :=
  if upTo - start > c.batchPoints then c.batchPoints + 1 else upTo - start

/-- pmacchildpart.py 793-854 `create_generator_profile_every_point` and 856-918
`create_generator_profile_sparse`. `none` is an exception or a loop that never ends. -/
def create (c : Cfg) (start : Nat) (s : St) : Option (St × Bool) :=
  if start = s.upTo then some (s, true)
  else
    match batchLoop c (numPoints c start s.upTo - 1) start s with
    | none => none
    | some (s1, _, true) => some (s1, false)
    | some (s1, i, false) =>
      if start + numPoints c start s.upTo = s.upTo then
        match visit c s1 i true with
        | none => none
        | some s2 =>
          if exceeds c s2 i then some ({ s2 with endIndex := i + 1 }, false)
          else if i + 1 = s2.upTo then some (s2, true)
          else none
      else if i = s1.upTo then some (s1, true)
      else if _h : start < i ∧ i < s1.upTo ∧ s1.upTo = s.upTo then create c i s1
      else none
termination_by s.upTo - start
decreasing_by omega

/-- pmacchildpart.py 959-990 `add_tail_off`: 3 is ZERO_VELOCITY. The check of the soft limits is not
modelled. -/
def addTailOff (c : Cfg) (s : St) : Option St :=
  match s.traj.run c.profilePoints [.add (c.tail s.upTo).1 3 c.tailProg s.upTo (c.tail s.upTo).2] with
  | none => none
  | some t => some { s with traj := t, endIndex := s.upTo, tailAdded := true }

/-- pmacchildpart.py 920-957 `calculate_generator_profile`: 1 is REAL_PREV_TO_CURRENT -/
def calculate (c : Cfg) (start : Nat) (doRunUp : Bool) (s : St) : Option St :=
  let ran : Option Traj :=
    if doRunUp then s.traj.run c.profilePoints [.add (c.runUp start).1 1 c.runUpProg start (c.runUp start).2]
    else some s.traj
  match ran with
  | none => none
  | some t =>
    match create c start { s with traj := t } with
    | none => none
    | some (s, needsTail) => if needsTail ∧ s.tailAdded = false then addTailOff c s else some s

/-- pmacchildpart.py 481-515 `write_profile_points` -/
def writePoints (c : Cfg) (csPort : Option String) (s : St) : Option St :=
  match writeProfile s.pmac
      { csPort := csPort
        time := ticks 0 ((s.traj.time.take c.profilePoints).map (· / c.tickS))
        mode := some (s.traj.mode.take c.profilePoints)
        prog := some (s.traj.prog.take c.profilePoints)
        axes := s.traj.axes.map (fun kv => (kv.1, kv.2.take c.profilePoints)) } with
  | none => none
  | some p => some { s with traj := write c.profilePoints s.traj, pmac := p }

/-- pmacchildpart.py 375, 394-419: `on_configure` for a window of steps: a profile of one point (8 is
ZERO_PROGRAM; the time MIN_TIME, 0.002, becomes 0 in an array of whole ticks) to reset the outputs, then the first points of the trajectory. The
end index and the state of the controller are those left from before; the move to the start is not
modelled. -/
def configure (c : Cfg) (cs : String) (old : St) (completed stepsToDo : Nat) : Option St :=
  match writeProfile old.pmac { csPort := some cs, time := [0], prog := some [8] } with
  | none => none
  | some p =>
    match calculate c completed true
        { old with traj := Trajectory.start c.mapping, upTo := completed + stepsToDo, tailAdded := false, pmac := p } with
    | none => none
    | some s => writePoints c (some cs) s

/-- pmacchildpart.py 444-450: the report of progress; `none` is an IndexError -/
def report (c : Cfg) (scanned : Nat) (s : St) : Option St :=
  if c.everyPoint then
    match s.traj.lookup[scanned - 1]? with
    | none => none
    | some n => some { s with reports := s.reports ++ [n] }
  else some s

/-- pmacchildpart.py 451-460: keep the controller supplied -/
def supply (c : Cfg) (scanned : Nat) (s : St) : Option St :=
  if s.endIndex < s.upTo ∧ s.traj.lookup.length < scanned + c.profilePoints then
    match calculate c s.endIndex false s with
    | none => none
    | some s => writePoints c none s
  else some s

/-- pmacchildpart.py 462-479: what is left over at the end; the assertion that nothing is left is 475-478 -/
def leftover (c : Cfg) (s : St) : Option St :=
  if s.endIndex = s.upTo ∧ s.traj.time ≠ [] then
    match calculate c s.endIndex false s with
    | none => none
    | some s =>
      match writePoints c none s with
      | none => none
      | some s => if c.everyPoint ∧ s.traj.time ≠ [] then none else some s
  else some s

/-- pmacchildpart.py 440-479 `update_step`. Updates that do not overlap; see `updateWith`. -/
def updateStep (c : Cfg) (s : St) (scanned : Nat) : Option St :=
  if scanned = 0 then some s
  else ((report c scanned s).bind (supply c scanned)).bind (leftover c)

/-- pmacchildpart.py 440-450: updates that come while writeProfile (514) waits. `loading` is set, so they only report. -/
def reportAll (c : Cfg) : List Nat → St → Option St
  | [], s => some s
  | n :: ns, s => (if n = 0 then some s else report c n s).bind (reportAll c ns)

/-- pmacchildpart.py 451-460 with updates `nested` coming while it writes. That the arrays are cut before they are sent (492-494) does not
matter for what they report. -/
def supplyWith (c : Cfg) (nested : List Nat) (scanned : Nat) (s : St) : Option St :=
  if s.endIndex < s.upTo ∧ s.traj.lookup.length < scanned + c.profilePoints then
    match calculate c s.endIndex false s with
    | none => none
    | some s => (reportAll c nested s).bind (writePoints c none)
  else some s

/-- pmacchildpart.py 462-479 with updates `nested` coming while it writes -/
def leftoverWith (c : Cfg) (nested : List Nat) (s : St) : Option St :=
  if s.endIndex = s.upTo ∧ s.traj.time ≠ [] then
    match calculate c s.endIndex false s with
    | none => none
    | some s =>
      match (reportAll c nested s).bind (writePoints c none) with
      | none => none
      | some s => if c.everyPoint ∧ s.traj.time ≠ [] then none else some s
  else some s

/-- pmacchildpart.py 440-479 `update_step` with updates `a` coming while it writes the first time, and `b` the second time -/
def updateWith (c : Cfg) (s : St) (scanned : Nat) (a b : List Nat) : Option St :=
  if scanned = 0 then some s
  else ((report c scanned s).bind (supplyWith c a scanned)).bind (leftoverWith c b)

/-- Updates of the number of points scanned. -/
def run (c : Cfg) : St → List Nat → Option St
  | s, [] => some s
  | s, n :: ns => (updateStep c s n).bind (fun s => run c s ns)

/-- pmactrajectorypart.py 169-189 `execute_profile`: it ends when this many points have been scanned -/
def finished (s : St) (scanned : Nat) : Bool := scanned == s.pmac.total

/-! ### what the steps are when every point is triggered -/

/-- A point of the scan: half its duration, its middle and its upper bound; whether the next one is joined
to it, and if not the points of the turnaround and the lower bound of the next one. -/
structure Frame where
  half : ℚ
  mid : String → ℚ
  upper : String → ℚ
  joined : Bool
  gap : List (ℚ × (String → ℚ))
  nextLower : String → ℚ

/-- pmacchildpart.py 660-686 `add_generator_point_pair` with the user programs of EVERY_POINT (517-539):
4 is MID_PROGRAM, 1 LIVE_PROGRAM, 2 DEAD_PROGRAM -/
def pairOps (f : Frame) (i : Nat) (joined : Bool) : List Op :=
  [.add f.half 0 4 i f.mid, .add f.half (if joined then 0 else 1) (if joined then 1 else 2) (i + 1) f.upper]

/-- pmacchildpart.py 614-623, 992-1021 `insert_gap`: 8 is ZERO_PROGRAM -/
def gapOps (f : Frame) (i : Nat) : List Op :=
  f.gap.map (fun g => .add g.1 1 8 (i + 1) g.2) ++ [.fixLast f.nextLower 1]

/-- pmacchildpart.py 817-822, 832-835 -/
def everyOps (frame : Nat → Frame) (i : Nat) (last : Bool) : List Op :=
  if last then pairOps (frame i) i false
  else pairOps (frame i) i (frame i).joined ++ if (frame i).joined then [] else gapOps (frame i) i

end Verif.TrajSend
