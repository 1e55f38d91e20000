import Verif.Model.PmacUtil
/-!
How the motors get to the first point of a scan and come to rest after the last one, and the checks against the soft
limits: malcolm/modules/pmac/parts/pmacchildpart.py 295-328, 378-403, 919-946, 964-988 with
malcolm/modules/pmac/infos.py 60-89, 124-129. Also the duration that is asked for at validation: 138-209.

Times and positions are exact numbers.
-/
namespace Verif.RunUp
open Verif Verif.PmacUtil

/-- pmac/util.py 22 MIN_TIME -/
def minTime : ℚ := 1 / 500

/-- infos.py 60-75: what is used of a MotorInfo -/
structure Limited where
  acceleration : ℚ
  maxVelocity : ℚ
  userHigh : ℚ
  userLow : ℚ
  dialHigh : ℚ
  dialLow : ℚ
  deriving DecidableEq, Repr

/-- An axis of the scan: its motor, and the point it is at -/
abbrev Axis := String × Limited × AxisPoint

/-- infos.py 82-89 `ramp_distance` from or to rest, without `ramp_time` -/
def ramp (m : Limited) (v1 v2 : ℚ) (minRamp : Option ℚ) : ℚ :=
  let t := accelerationTime m.acceleration v1 v2
  let t := match minRamp with
    | some s => if s > t then s else t
    | none => t
  rampDistance v1 v2 t

/-- infos.py 124-129 -/
def within (m : Limited) (pos : ℚ) : Bool := withinSoftLimits m.dialHigh m.dialLow m.userHigh m.userLow pos

/-- util.py 188-219: the velocities of all axes; `none` is the AssertionError -/
def velocities (entry : Bool) (axes : List Axis) : Option (List (Axis × ℚ)) :=
  axes.mapM (fun a => (pointVelocity a.2.1.maxVelocity a.2.2 entry).map (fun v => (a, v)))

/-- pmacchildpart.py 306-315: where one axis starts -/
def startOf (a : Axis × ℚ) : Option (String × ℚ) :=
  let pos := a.1.2.2.lower - ramp a.1.2.1 0 a.2 (some minTime)
  if within a.1.2.1 pos then some (a.1.1, pos) else none

/-- pmacchildpart.py 295-328 `move_to_start`: the positions it asks the coordinate system to move to, `none` if it
raises, before it asks. Not modelled: the time of the move. -/
def moveToStart (axes : List Axis) : Option (List (String × ℚ)) :=
  match velocities true axes with
  | none => none
  | some vs => vs.mapM startOf

/-- `max(time, …)` over the axes -/
def longest (interval : ℚ) (vs : List (Axis × ℚ)) : ℚ :=
  vs.foldl (fun t a => let s := accelerationTime a.1.2.1.acceleration 0 a.2; if s > t then s else t) interval

/-- pmacchildpart.py 922-946: the time and the positions of the run-up -/
def runUp (interval : ℚ) (axes : List Axis) : Option (ℚ × List (String × ℚ)) :=
  match velocities true axes with
  | none => none
  | some vs => some (longest interval vs, vs.map (fun a => (a.1.1, a.1.2.2.lower)))

/-- pmacchildpart.py 972-981: where one axis comes to rest -/
def stopOf (a : Axis × ℚ) : Option (String × ℚ) :=
  let pos := a.1.2.2.upper + ramp a.1.2.1 a.2 0 none
  if within a.1.2.1 pos then some (a.1.1, pos) else none

/-- pmacchildpart.py 964-988 `add_tail_off`: the time and the positions, `none` if it raises -/
def tailOff (interval : ℚ) (axes : List Axis) : Option (ℚ × List (String × ℚ)) :=
  match velocities false axes with
  | none => none
  | some vs => (vs.mapM stopOf).map (fun ps => (longest interval vs, ps))

/-- pmacchildpart.py 385-420: what `on_configure` does with the motors. `first` and `last` are the axes at the first and
the last point. The move to the start is asked for before the profile is calculated. `fits` is whether the profile is
short enough for the tail-off to be in the first write; if not, it is calculated during the scan. -/
def configure (interval : ℚ) (first last : List Axis) (fits : Bool) : Option (List (String × ℚ)) × Bool :=
  match moveToStart first with
  | none => (none, false)
  | some m =>
    match runUp interval first with
    | none => (some m, false)
    | some _ => if fits then (some m, (tailOff interval last).isSome) else (some m, true)

/-! ### the duration that is asked for -/

/-- `np.isclose(frequency, 3200)` -/
def is3200 (frequency : ℚ) : Bool := isclose frequency 3200

/-- pmacchildpart.py 195-209 `get_aligned_duration_with_servo_frequency` -/
def aligned (frequency duration : ℚ) : ℚ :=
  let ticks : ℚ := (frequency * (1 / 2) * duration).ceil
  let ticks := if is3200 frequency then ticks else ticks - 2 / 1000
  let micros : ℚ := (ticks / frequency * 1000000).floor
  2 * micros / 1000000

/-- pmacchildpart.py 138-192 `on_validate` as far as the duration goes, when all axes are there. `guess` is what
`calculate_generator_duration` gives if the part takes part, `none` if it does not or cannot tell; `everyPoint` is
whether GPIO is demanded for every point. The result: an error, no tweak, or the duration that is asked for. -/
def onValidate (duration : ℚ) (guess : Option ℚ) (everyPoint : Bool) (frequency : ℚ) : Except Unit (Option ℚ) :=
  if duration < 0 then .error ()
  else
    let found : Option ℚ := if duration = 0 then (match guess with
      | none => none
      | some g => if g = 0 then none else some g) else some duration
    match found with
    | none => .ok none
    | some d =>
      let d := if everyPoint then aligned frequency d else d
      .ok (if d ≠ duration then some d else none)

end Verif.RunUp
