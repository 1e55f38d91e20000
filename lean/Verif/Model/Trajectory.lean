import Mathlib.Algebra.Order.Field.Rat
import Mathlib.Algebra.Order.Floor.Ring
import Mathlib.Data.Rat.Floor
import Verif.Model.PyDict
/-!
The profile arrays of a PMAC trajectory:
malcolm/modules/pmac/parts/pmacchildpart.py 29-33, 406-417, 481-515, 625-658, 992-1021.

Simplification: times and positions are rationals, not floats, so there is no rounding.
-/
namespace Verif.Trajectory

/-- pmacchildpart.py 33 -/
def maxMoveTime : ℚ := 4

/-- `self.profile` and `self.completed_steps_lookup`; `mapping` is the (lower case) coordinate system
axis of each scan axis. `sent` are the times of the points written to the controller since the profile
was started. -/
structure Traj where
  mapping : Dict String String
  time : List ℚ := []
  mode : List Nat := []
  prog : List Nat := []
  axes : Dict String (List ℚ) := []
  lookup : List Nat := []
  sent : List ℚ := []
  deriving DecidableEq, Repr

/-- pmacchildpart.py 407-417: a new profile, with an empty list for each mapped axis -/
def start (mapping : Dict String String) : Traj :=
  { mapping := mapping
    axes := mapping.values.foldl (fun d cs => Dict.set d cs []) [] }

/-- pmacchildpart.py 655-658: the requested point appended for each axis; `none` is a KeyError -/
def appendAxes (mapping : Dict String String) : Dict String (List ℚ) → List (String × ℚ) → Option (Dict String (List ℚ))
  | axes, [] => some axes
  | axes, (k, v) :: pts =>
    match Dict.get? mapping k with
    | none => none
    | some cs =>
      match Dict.get? axes cs with
      | none => none
      | some l => appendAxes mapping (Dict.set axes cs (l ++ [v])) pts

/-- pmacchildpart.py 638-643: the points in between for each axis; `none` is a KeyError or IndexError -/
def stretchAxes (mapping : Dict String String) (nsplit : Nat) :
    Dict String (List ℚ) → List (String × ℚ) → Option (Dict String (List ℚ))
  | axes, [] => some axes
  | axes, (k, v) :: pts =>
    match Dict.get? mapping k with
    | none => none
    | some cs =>
      match Dict.get? axes cs with
      | none => none
      | some l =>
        match l.getLast? with
        | none => none
        | some last =>
          stretchAxes mapping nsplit
            (Dict.set axes cs (l ++ (List.range' 1 (nsplit - 1)).map (fun i => last + (i : Nat) * ((v - last) / nsplit)))) pts

/-- pmacchildpart.py 632: `int(time_point / MAX_MOVE_TIME + 1)` -/
def nsplitOf (t : ℚ) : Nat := ⌊t / maxMoveTime + 1⌋.toNat

/-- pmacchildpart.py 625-658 `add_profile_point`; `none` is an exception -/
def addPoint (s : Traj) (t : ℚ) (mode prog step : Nat) (pts : List (String × ℚ)) : Option Traj :=
  if t > maxMoveTime then
    if s.time = [] then none
    else
      let n := nsplitOf t
      match stretchAxes s.mapping n s.axes pts with
      | none => none
      | some axes =>
        match s.lookup.getLast? with
        | none => none
        | some last =>
          match appendAxes s.mapping axes pts with
          | none => none
          | some axes =>
            some { s with time := s.time ++ List.replicate n (t / n),
                          mode := s.mode ++ List.replicate (n - 1) 0 ++ [mode],
                          prog := s.prog ++ List.replicate (n - 1) 0 ++ [prog],
                          lookup := s.lookup ++ List.replicate (n - 1) last ++ [step],
                          axes := axes }
  else
    match appendAxes s.mapping s.axes pts with
    | none => none
    | some axes =>
      some { s with time := s.time ++ [t], mode := s.mode ++ [mode], prog := s.prog ++ [prog],
                    lookup := s.lookup ++ [step], axes := axes }

/-- pmacchildpart.py 481-515 `write_profile_points`: what is left, for a controller that takes `max`
points (PROFILE_POINTS, 59) at a time -/
def write (max : Nat) (s : Traj) : Traj :=
  { s with time := s.time.drop max, mode := s.mode.drop max, prog := s.prog.drop max,
           axes := s.axes.map (fun kv => (kv.1, kv.2.drop max)), sent := s.sent ++ s.time.take max }

/-- pmacchildpart.py 1012-1021: the end of `insert_gap` overwrites the last point -/
def fixLast (s : Traj) (lower : String → ℚ) (prog : Nat) : Option Traj :=
  if s.time = [] then none
  else some { s with
    axes := s.mapping.foldl (fun axes kv =>
      match Dict.get? axes kv.2 with
      | none => axes
      | some l => Dict.set axes kv.2 (l.dropLast ++ [lower kv.1])) s.axes
    mode := s.mode.dropLast ++ [1]
    prog := s.prog.dropLast ++ [prog] }

/-- What is done to a profile -/
inductive Op
  /-- `pos` is the position for each axis -/
  | add (t : ℚ) (mode prog step : Nat) (pos : String → ℚ)
  | write
  | fixLast (lower : String → ℚ) (prog : Nat)

/-- All callers (616-623, 660-686, 723-759, 940-946, 982-988) pass a position for each axis of the mapping. -/
def Traj.step (max : Nat) (s : Traj) : Op → Option Traj
  | .add t mode prog step pos => addPoint s t mode prog step (s.mapping.map (fun kv => (kv.1, pos kv.1)))
  | .write => some (Trajectory.write max s)
  | .fixLast lower prog => Trajectory.fixLast s lower prog

/-- Everything up to the first exception -/
def Traj.run (max : Nat) : Traj → List Op → Option Traj
  | s, [] => some s
  | s, op :: ops =>
    match s.step max op with
    | none => none
    | some s => Traj.run max s ops

/-! ### ticks -/

/-- `int(x)`: towards zero -/
def pyInt (x : ℚ) : Int := if 0 ≤ x then ⌊x⌋ else ⌈x⌉

/-- pmacchildpart.py 498-507: the ticks for the times (here in ticks, t / TICK_S) of one chunk -/
def ticks : ℚ → List ℚ → List Int
  | _, [] => []
  | overflow, t :: ts =>
    let overflow := overflow + Int.fract t
    if overflow > 1 / 2 then (pyInt t + 1) :: ticks (overflow - 1) ts
    else pyInt t :: ticks overflow ts

/-- pmacchildpart.py 493-509: each chunk that is written starts with no overflow -/
def allTicks (chunks : List (List ℚ)) : List Int := chunks.flatMap (ticks 0)

end Verif.Trajectory
