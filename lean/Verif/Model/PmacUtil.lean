import Verif.Model.PyDict
import Mathlib.Algebra.Order.Field.Rat
/-!
Which motors a scan uses and how they move between points: malcolm/modules/pmac/util.py,
malcolm/modules/pmac/infos.py and parts of malcolm/modules/pmac/parts/pmacchildpart.py.
-/
namespace Verif.PmacUtil

abbrev Text := List Char

/-! ### axis mapping -/

/-- util.py 73, `cs.split(",", 1)`: `none` if there is no comma, so unpacking raises ValueError -/
def splitComma : Text → Option (Text × Text)
  | [] => none
  | c :: cs =>
    if c = ',' then some ([], cs)
    else match splitComma cs with
      | none => none
      | some (a, b) => some (c :: a, b)

/-- util.py 19 CS_AXIS_NAMES -/
def csAxisNames : List Text := ['A', 'B', 'C', 'U', 'V', 'W', 'X', 'Y', 'Z'].map (fun c => [c])

/-- The attributes of a motor block that are used: `velocity` is maxVelocity · maxVelocityPercent / 100 -/
structure Motor where
  cs : Text
  velocity : ℚ
  accelerationTime : ℚ

/-- infos.py 40-72 MotorInfo, the part used here -/
structure MotorInfo where
  csAxis : Text
  csPort : Text
  acceleration : ℚ
  maxVelocity : ℚ

inductive Err
  | zeroDivision
  | noComma
  | notOneToOne
  | missing
  | manyPorts
  | overlap
  deriving DecidableEq, Repr

/-- util.py 65-96: the MotorInfo of one row -/
def motorInfo (m : Motor) : Except Err MotorInfo :=
  if m.accelerationTime = 0 then .error .zeroDivision
  else match (if m.cs = [] then some ([], []) else splitComma m.cs) with
    | none => .error .noComma
    | some (port, axis) =>
      if axis ∈ csAxisNames then .ok ⟨axis, port, m.velocity / m.accelerationTime, m.velocity⟩
      else .error .notOneToOne

/-- util.py 61-96: the loop over the layout table -/
def collect (axes : List String) : Dict String MotorInfo → List Text → List (String × Motor) →
    Except Err (Dict String MotorInfo × List Text)
  | mapping, ports, [] => .ok (mapping, ports)
  | mapping, ports, (name, motor) :: rows =>
    if name ∈ axes then
      match motorInfo motor with
      | .error e => .error e
      | .ok info => collect axes (Dict.set mapping name info) (ports ++ [info.csPort]) rows
    else collect axes mapping ports rows

/-- all the same, `len(set(l)) <= 1` -/
def allSame (l : List Text) : Bool := l.all (fun a => l.all (fun b => a == b))

/-- no value occurs more than once (`Counter`) -/
def noRepeat : List Text → Bool
  | [] => true
  | a :: l => !l.contains a && noRepeat l

/-- util.py 53-109 `cs_axis_mapping` -/
def csAxisMapping (axes : List String) (layout : List (String × Motor)) : Except Err (Dict String MotorInfo) :=
  match collect axes [] [] layout with
  | .error e => .error e
  | .ok (mapping, ports) =>
    if axes.all (fun a => Dict.mem mapping a) = false then .error .missing
    else if allSame ports = false then .error .manyPorts
    else if noRepeat ((Dict.values mapping).map MotorInfo.csAxis) = false then .error .overlap
    else .ok mapping

/-- util.py 41-50 `get_motion_axes`: `static` are the axes of the StaticPointGenerators -/
def motionAxes (static : List String) (axes : List String) : List String := axes.filter (fun a => !static.contains a)

/-! ### velocities -/

/-- a scan point on one axis -/
structure AxisPoint where
  lower : ℚ
  position : ℚ
  upper : ℚ
  duration : ℚ

/-- util.py 188-219 `point_velocities` for one axis; `none` if it is faster than the motor can go -/
def pointVelocity (maxVelocity : ℚ) (p : AxisPoint) (entry : Bool) : Option ℚ :=
  let vp := (p.upper - p.lower) / p.duration
  let half := if entry then p.position - p.lower else p.upper - p.position
  let v := 4 * half / p.duration - vp
  if (|v| - maxVelocity) / maxVelocity < 1 / 1000000 then some v else none

/-- util.py 256-257: the velocities a turnaround starts and ends with -/
def turnaroundVelocities (maxVelocity : ℚ) (p next : AxisPoint) : Option (ℚ × ℚ) :=
  match pointVelocity maxVelocity p true with
  | none => none
  | some v1 =>
    match pointVelocity maxVelocity next false with
    | none => none
    | some v2 => some (v1, v2)

/-- pmacchildpart.py 30 TICK_S -/
def tickS : ℚ := 1 / 1000000

/-- pmacchildpart.py 269-293 `calculate_duration_from_first_two_points`: for each axis the distance from
the first point to the second and the maximum velocity -/
def guessDuration (axes : List (ℚ × ℚ)) : ℚ :=
  let d := axes.foldl (fun d a => if a.1 / a.2 > d then a.1 / a.2 else d) 0
  if d = 0 then tickS else d

/-- infos.py 77-80 and 82-89 -/
def accelerationTime (acceleration v1 v2 : ℚ) : ℚ := |v2 - v1| / acceleration

def rampDistance (v1 v2 time : ℚ) : ℚ := (v1 + v2) * time / 2

/-- infos.py 70-75, 124-129 `check_position_within_soft_limits` -/
def withinSoftLimits (dialHigh dialLow userHigh userLow pos : ℚ) : Bool :=
  if dialHigh = 0 ∧ dialLow = 0 then true
  else if pos > userHigh ∨ pos < userLow then false else true

/-! ### positions of a turnaround -/

/-- `np.isclose(a, b)` with exact numbers -/
def isclose (a b : ℚ) : Bool := decide (|a - b| ≤ 1 / 100000000 + 1 / 100000 * |b|)

/-- pmacchildpart.py 576-613: the positions of one axis at the combined times. `t0 v0` is the axis point
before, `rest` those to come, `prevT` the combined time before, `acc` is `time_interval`. `none` is the
IndexError when the axis has no more points. -/
def axisLoop : (prevT prevVel pos acc t0 v0 : ℚ) → List (ℚ × ℚ) → List ℚ → Option (List ℚ)
  | _, _, _, _, _, _, _, [] => some []
  | _, _, _, _, _, _, [], _ :: _ => none
  | prevT, prevVel, pos, acc, t0, v0, (t1, v1) :: rest, t :: ts =>
    let dt := t - prevT
    if isclose t t1 then
      let p := pos + rampDistance prevVel v1 dt
      (axisLoop t v1 p 0 t1 v1 rest ts).map (fun l => p :: l)
    else
      let acc := acc + dt
      let v := v0 + acc / (t1 - t0) * (v1 - v0)
      let p := pos + rampDistance prevVel v dt
      (axisLoop t v p acc t0 v0 ((t1, v1) :: rest) ts).map (fun l => p :: l)

/-- `np.unique`: sorted without repeats -/
def insertTime (t : ℚ) : List ℚ → List ℚ
  | [] => [t]
  | a :: l => if t < a then t :: a :: l else if t = a then a :: l else a :: insertTime t l

/-- pmacchildpart.py 555-563: the times of all axes without the first -/
def combinedTimes (arrays : List (List (ℚ × ℚ))) : List ℚ :=
  ((arrays.flatten.map Prod.fst).foldl (fun l t => insertTime t l) []).drop 1

/-- pmacchildpart.py 545-613 for one axis whose times and velocities are `axis` -/
def axisPositions (arrays : List (List (ℚ × ℚ))) (start : ℚ) (axis : List (ℚ × ℚ)) : Option (List ℚ) :=
  match axis with
  | [] => none
  | (t0, v0) :: rest => axisLoop 0 v0 start 0 t0 v0 rest (combinedTimes arrays)

end Verif.PmacUtil
