import Verif.Model.PmacUtil
import Verif.Model.RunUp
/-!
Whether and how the motion controller takes part in a scan: malcolm/core/info.py 22-84, malcolm/modules/pmac/util.py 27-50, 301-346
and malcolm/modules/pmac/parts/pmacchildpart.py 130-267, 329-440.

Simplifications: the numbers are exact; if a row of the layout that is to be moved is not a motor that is the error, whatever is wrong
with rows before it; that the move to the start and the profile can be made (which is C77) is told by the request.
-/
namespace Verif.TakePart
open Verif.PmacUtil

/-- scanning/infos.py 115-121 `MotionTrigger` -/
inductive Trigger
  | none
  | rowGate
  | everyPoint
  deriving DecidableEq, Repr

/-- scanning/infos.py 72-83, 124-132: an Info that a part reports -/
inductive Info
  | trigger (t : Trigger)
  | turnaround (gap interval : ℚ)
  | other
  deriving DecidableEq

/-- core/info.py 35-40: what a part has reported: nothing, an exception, or a list of Infos -/
inductive Reported
  | nothing
  | failed
  | infos (l : List Info)

/-- core/info.py 22-40 `filter_parts`; `f` gives the Info if it is of the class -/
def filterParts {α : Type} (f : Info → Option α) : List (String × Reported) → List (String × List α)
  | [] => []
  | (name, r) :: rest =>
    match r with
    | .infos l => if l.filterMap f = [] then filterParts f rest else (name, l.filterMap f) :: filterParts f rest
    | _ => filterParts f rest

/-- core/info.py 42-58 `filter_values` -/
def filterValues {α : Type} (f : Info → Option α) (info : List (String × Reported)) : List α :=
  (filterParts f info).flatMap Prod.snd

/-- core/info.py 60-84 `filter_single_value` -/
def filterSingle {α : Type} (f : Info → Option α) (info : List (String × Reported)) : Option α :=
  match filterValues f info with
  | [a] => some a
  | _ => none

/-- `isinstance` of MotionTriggerInfo, core/info.py 37 -/
def asTrigger : Info → Option Trigger
  | .trigger t => some t
  | _ => Option.none

/-- `isinstance` of MinTurnaroundInfo, core/info.py 37 -/
def asTurnaround : Info → Option (ℚ × ℚ)
  | .turnaround g i => some (g, i)
  | _ => Option.none

/-- What can be wrong -/
inductive Err
  | manyInfos
  | notAMotor
  | mapping (e : PmacUtil.Err)
  | noPort
  | noAxis
  | negative
  | noNumber
  | start
  | profile
  deriving DecidableEq, Repr

/-- util.py 301-312 `get_motion_trigger` -/
def motionTrigger (info : List (String × Reported)) : Except Err Trigger :=
  match filterValues asTrigger info with
  | [] => .ok .everyPoint
  | [t] => .ok t
  | _ => .error .manyInfos

/-- util.py 22-24 MIN_TIME and MIN_INTERVAL -/
def minTime : ℚ := 2 / 1000

/-- util.py 333-346 `get_min_turnaround` -/
def minTurnaround (info : List (String × Reported)) : Except Err (ℚ × ℚ) :=
  match filterValues asTurnaround info with
  | [] => .ok (minTime, minTime)
  | [(gap, interval)] => .ok (max minTime gap, interval)
  | _ => .error .manyInfos

/-- A row of the layout table: `none` if the block has no `cs` (a CS, the trajectory, the status) -/
abbrev Layout := List (String × Option Motor)

/-- util.py 27-38 `cs_port_with_motors_in` -/
def portWithMotors : Layout → Except Err Text
  | [] => .error .noPort
  | (_, Option.none) :: _ => .error .notAMotor
  | (_, some m) :: rows =>
    if m.cs = [] then portWithMotors rows
    else match splitComma m.cs with
      | Option.none => .error (.mapping .noComma)
      | some (port, axis) => if axis ∈ csAxisNames then .ok port else portWithMotors rows

/-- The rows that are motors -/
def motors (layout : Layout) : List (String × Motor) := layout.filterMap (fun r => r.2.map (fun m => (r.1, m)))

/-- util.py 53-109 `cs_axis_mapping` on a layout that may have other blocks in it -/
def mapping (axes : List String) (layout : Layout) : Except Err (Dict String MotorInfo) :=
  if layout.any (fun r => r.2.isNone && axes.contains r.1) then .error .notAMotor
  else match csAxisMapping axes (motors layout) with
    | .error e => .error (.mapping e)
    | .ok m => .ok m

/-- Those errors that are an AssertionError: util.py 75-78, 96-108 -/
def assertion : Err → Bool
  | .mapping .notOneToOne => true
  | .mapping .missing => true
  | .mapping .manyPorts => true
  | .mapping .overlap => true
  | _ => false

/-- pmacchildpart.py 211-221 `taking_part_in_scan` -/
def takingPart (t : Trigger) (motionAxes : List String) : Bool := !motionAxes.isEmpty || decide (t ≠ .none)

/-- What is asked of the part -/
structure Req where
  info : List (String × Reported)
  /-- the axes of the StaticPointGenerators -/
  fixed : List String := []
  axesToMove : List String
  layout : Layout
  duration : ℚ
  continuous : Bool := true
  size : Nat
  /-- the position of an axis in the first and the second point -/
  first : String → ℚ := fun _ => 0
  second : String → ℚ := fun _ => 0
  frequency : ℚ := 5000
  /-- the move to the start can be made -/
  startOk : Bool := true
  /-- the profile can be made -/
  profileOk : Bool := true

/-- pmacchildpart.py 269-293: the axes with their distances from the first to the second point -/
def distances (r : Req) (m : Dict String MotorInfo) : List (ℚ × ℚ) :=
  m.map (fun a => (r.second a.1 - r.first a.1, a.2.maxVelocity))

/-- pmacchildpart.py 223-267 `calculate_generator_duration` -/
def calcDuration (r : Req) (axes : List String) : Except Err (Option ℚ) :=
  if axes.isEmpty then .ok (some tickS)
  else match mapping axes r.layout with
    | .error e => if assertion e then .ok Option.none else .error e
    | .ok m =>
      if r.continuous && decide (r.size > 1) then .ok (some (guessDuration (distances r m)))
      else match minTurnaround r.info with
        | .error e => .error e
        | .ok t => .ok (some t.1)

/-- pmacchildpart.py 135-192 `on_validate`: an error, or the duration that is asked for instead -/
def onValidate (r : Req) : Except Err (Option ℚ) :=
  let axes := motionAxes r.fixed r.axesToMove
  if axes.all (fun a => r.layout.any (fun row => decide (row.1 = a))) = false then .error .noAxis
  else if r.duration < 0 then .error .negative
  else
    let found : Except Err (Option ℚ) :=
      if r.duration = 0 then
        match motionTrigger r.info with
        | .error e => .error e
        | .ok t =>
          if takingPart t axes then
            match calcDuration r axes with
            | .error e => .error e
            | .ok Option.none => .ok Option.none
            | .ok (some d) => if d = 0 then .ok Option.none else .ok (some d)
          else .ok Option.none
      else .ok (some r.duration)
    match found with
    | .error e => .error e
    | .ok Option.none => .ok Option.none
    | .ok (some d) =>
      match motionTrigger r.info with
      | .error e => .error e
      | .ok t =>
        let d := if t = .everyPoint then RunUp.aligned r.frequency d else d
        .ok (if d ≠ r.duration then some d else Option.none)

/-- What is done to the block of the motion controller -/
inductive Act
  /-- pmacchildpart.py 393-398: the profile that resets the GPIOs -/
  | reset (port : Text)
  | execute
  /-- pmacchildpart.py 295-327: `moveCSn` of the axes given -/
  | move (cs : Text) (axes : List Text)
  /-- the trajectory, pmacchildpart.py 418-419 -/
  | write (port : Text)
  | abort
  deriving DecidableEq, Repr

/-- The part: pmacchildpart.py 75-102 -/
structure Part where
  /-- `generator` is set -/
  taking : Bool := false
  triggers : Option Trigger := Option.none
  turnaround : Option (ℚ × ℚ) := Option.none
  axes : Dict String MotorInfo := []

/-- pmacchildpart.py 297 `re.search(r"\d+$", cs_port)` -/
def csNumber (port : Text) : Option Text :=
  let d := (port.reverse.takeWhile Char.isDigit).reverse
  if d = [] then Option.none else some d

/-- pmacchildpart.py 329-354 `get_cs_port`: the axes and the port -/
def csPort (layout : Layout) (axes : List String) : Except Err (Dict String MotorInfo × Text) :=
  if axes.isEmpty then
    match portWithMotors layout with
    | .error e => .error e
    | .ok port => .ok ([], port)
  else match mapping axes layout with
    | .error e => .error e
    | .ok [] => .error .noPort
    | .ok (a :: m) => .ok (a :: m, a.2.csPort)

/-- pmacchildpart.py 358-420 `on_configure` (also for a seek and when armed again): the part, what is done and what goes wrong -/
def configure (p : Part) (r : Req) : Part × List Act × Option Err :=
  match motionTrigger r.info with
  | .error e => (p, [], some e)
  | .ok t =>
    let axes := motionAxes r.fixed r.axesToMove
    let p := { p with triggers := some t }
    if takingPart t axes then
      let p := { p with taking := true }
      match minTurnaround r.info with
      | .error e => (p, [], some e)
      | .ok turn =>
        let p := { p with turnaround := some turn }
        match csPort r.layout axes with
        | .error e => (if axes.isEmpty then { p with axes := [] } else p, [], some e)
        | .ok (m, port) =>
          let p := { p with axes := m }
          if axes.isEmpty then
            if r.profileOk then (p, [.reset port, .execute, .write port], Option.none)
            else (p, [.reset port, .execute], some .profile)
          else match csNumber port with
            | Option.none => (p, [.reset port, .execute], some .noNumber)
            | some n =>
              if r.startOk then
                let moved := [.reset port, .execute, .move n (m.map (fun a => a.2.csAxis))]
                if r.profileOk then (p, moved ++ [.write port], Option.none) else (p, moved, some .profile)
              else (p, [.reset port, .execute], some .start)
    else ({ p with taking := false }, [], Option.none)

/-- What the part is called for -/
inductive Op
  | configure (r : Req)
  | run
  | abort

/-- pmacchildpart.py 358-440: `on_configure`, `on_run`, `on_abort` -/
def step (p : Part) : Op → Part × List Act × Option Err
  | .configure r => configure p r
  | .run => (p, if p.taking then [.execute] else [], Option.none)
  | .abort => (p, if p.taking then [.abort] else [], Option.none)

/-- pmacchildpart.py 358-440: a history of calls -/
def after : Part → List Op → Part
  | p, [] => p
  | p, op :: ops => after (step p op).1 ops

end Verif.TakePart
