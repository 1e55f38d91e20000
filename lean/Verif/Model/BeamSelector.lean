import Mathlib.Algebra.Order.Field.Rat
/-!
The beam selector: malcolm/modules/pmac/parts/beamselectorpart.py and malcolm/modules/pmac/util.py 333-383.

Times and angles are rational numbers. The generator of the scan is a single static one. The generators of scanpointgenerator, which are
not part of the repository, are taken to give for a line of one point that alternates a move from the start to the stop for even indexes
and from the stop to the start for odd ones, in the duration of the generator, followed by the delay of the mutator.
-/
namespace Verif.BeamSelector

/-- A row of the detector table -/
structure Row where
  enable : Bool
  name : String
  exposure : ℚ
  frames : Int
  deriving DecidableEq, Repr

/-- The parameters of the part -/
structure Selector where
  imagingAngle : ℚ
  diffractionAngle : ℚ
  imagingDetector : String
  diffractionDetector : String
  moveTime : ℚ
  deriving DecidableEq, Repr

inductive Err
  | noTable
  | badFrames
  | notEnabled
  | badExposure
  | noDiffraction
  | noImaging
  | turnarounds
  | duration
  deriving DecidableEq, Repr

/-- beamselectorpart.py 79-95 `_check_detector_parameters` -/
def check (r : Row) : Option Err :=
  if r.frames ≠ 1 then some .badFrames
  else if ¬ r.enable then some .notEnabled
  else if r.exposure ≤ 0 then some .badExposure
  else none

/-- beamselectorpart.py 105-115: the loop; `d` and `i` are the exposures found so far -/
def loop (s : Selector) : List Row → Option ℚ → Option ℚ → Except Err (Option ℚ × Option ℚ)
  | [], d, i => .ok (d, i)
  | r :: rows, d, i =>
    let found : Except Err (Option ℚ × Option ℚ) :=
      if r.name = s.diffractionDetector then
        match check r with
        | some e => .error e
        | none => .ok (some r.exposure, i)
      else if r.name = s.imagingDetector then
        match check r with
        | some e => .error e
        | none => .ok (d, some r.exposure)
      else .ok (d, i)
    match found with
    | .error e => .error e
    | .ok (d, i) => if d.isSome ∧ i.isSome then .ok (d, i) else loop s rows d i

/-- beamselectorpart.py 97-121 `_get_detector_exposure_times` -/
def exposures (s : Selector) (rows : List Row) : Except Err (ℚ × ℚ) :=
  if rows = [] then .error .noTable
  else
    match loop s rows none none with
    | .error e => .error e
    | .ok (none, _) => .error .noDiffraction
    | .ok (_, none) => .error .noImaging
    | .ok (some d, some i) => .ok (d, i)

/-- pmac/util.py 333-347 `get_min_turnaround`, the time; `gaps` are those of the MinTurnaroundInfos -/
def minTurnaround : List ℚ → Except Err ℚ
  | [] => .ok (1 / 500)
  | [gap] => .ok (max (1 / 500) gap)
  | _ => .error .turnarounds

/-- beamselectorpart.py 123-139 `_get_time_at_positions` -/
def times (s : Selector) (gaps : List ℚ) (rows : List Row) : Except Err (ℚ × ℚ) :=
  match exposures s rows with
  | .error e => .error e
  | .ok (d, i) =>
    match minTurnaround gaps with
    | .error e => .error e
    | .ok m => .ok (max m d, max m i)

/-- beamselectorpart.py 141-146 `_calculate_cycle_duration` -/
def cycle (s : Selector) (d i : ℚ) : ℚ := d + i + 2 * s.moveTime

/-- beamselectorpart.py 154-184 `on_validate`: the duration that the generator is to have, if that is another -/
def validate (s : Selector) (gaps : List ℚ) (rows : List Row) (duration : ℚ) : Except Err (Option ℚ) :=
  match times s gaps rows with
  | .error e => .error e
  | .ok (d, i) => if duration ≠ cycle s d i then .ok (some (cycle s d i)) else .ok none

/-- A point of the generator that is scanned: a move, and the delay after it -/
structure Half where
  start : ℚ
  stop : ℚ
  time : ℚ
  delay : ℚ
  deriving DecidableEq, Repr

/-- the point of that index: beamselectorpart.py 216-246, pmac/util.py 368-383 -/
def point (s : Selector) (d i : ℚ) (index : Nat) : Half :=
  if index % 2 = 0 then ⟨s.imagingAngle, s.diffractionAngle, s.moveTime, d⟩
  else ⟨s.diffractionAngle, s.imagingAngle, s.moveTime, i⟩

/-- beamselectorpart.py 187-251 `on_configure`: the points that are scanned -/
def configure (s : Selector) (gaps : List ℚ) (rows : List Row) (duration : ℚ) (completed steps : Nat) : Except Err (List Half) :=
  match times s gaps rows with
  | .error e => .error e
  | .ok (d, i) =>
    if duration ≠ cycle s d i then .error .duration
    else .ok ((List.range' completed (steps * 2)).map (point s d i))

end Verif.BeamSelector
