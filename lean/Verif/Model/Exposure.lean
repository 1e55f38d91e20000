import Mathlib.Algebra.Order.Field.Rat
import Mathlib.Algebra.Order.Floor.Ring
import Mathlib.Data.Rat.Floor
/-!
Exposure, readout and pulse arithmetic: malcolm/modules/scanning/infos.py 147-192,
scanning/parts/exposuredeadtimepart.py 79-126, scanning/parts/detectorchildpart.py 141-300,
ADPandABlocks/parts/pandapulsetriggerpart.py 177-203.

Simplification: times are rationals, not floats, so there is no rounding.
-/
namespace Verif.Exposure

/-- scanning/infos.py 147-161 `ExposureDeadtimeInfo` -/
structure Info where
  readout : ℚ
  /-- in parts per million -/
  accuracy : ℚ
  minExposure : ℚ
  deriving DecidableEq, Repr

/-- scanning/infos.py 183-192 `calculate_maximum_exposure` -/
def maximumExposure (i : Info) (duration : ℚ) : ℚ :=
  let e := duration - i.readout - i.accuracy * duration / 1000000
  if e < i.minExposure then i.minExposure else e

/-- scanning/infos.py 163-175 `calculate_exposure` -/
def calculateExposure (i : Info) (duration exposure : ℚ) : ℚ :=
  if exposure = 0 ∧ duration = 0 then i.minExposure
  else
    let max := maximumExposure i duration
    if exposure ≤ 0 ∨ exposure > max then max
    else if exposure < i.minExposure then i.minExposure
    else exposure

/-- scanning/infos.py 177-181 `calculate_minimum_duration` -/
def minimumDuration (i : Info) (exposure : ℚ) : ℚ :=
  (exposure + i.readout) / (1 - i.accuracy / 1000000)

/-! ### the detector's own validate -/

/-- What is used of a scanpointgenerator: its size, its duration, and the axes added by
`_configure_args`. -/
structure Gen where
  size : Nat
  duration : ℚ
  frameAxes : List String := []
  deriving DecidableEq, Repr

/-- the `ParameterTweakInfo`s of `ExposureDeadtimePart.on_validate` -/
inductive Tweak
  | generator (g : Gen)
  | exposure (e : ℚ)
  deriving DecidableEq, Repr

/-- exposuredeadtimepart.py 79-122 `on_validate`; `none` is a failed assertion, `some none` no tweak. -/
def partValidate (i : Info) (g : Gen) (exposure : ℚ) (frames : Int) : Option (Option Tweak) :=
  if g.duration = 0 then
    let e := if exposure = 0 then calculateExposure i g.duration exposure else exposure
    some (some (.generator { g with duration := minimumDuration i e * frames * (1 + 1 / 1000000000000) }))
  else if exposure = 0 then some (some (.exposure (calculateExposure i g.duration exposure)))
  else if exposure < i.minExposure then none
  else if exposure > maximumExposure i g.duration then none
  else some none

/-- runnablecontroller.py 354-416 `validate` of a detector whose only part with an opinion is an
ExposureDeadtimePart; `frames` is 1 where it is not passed. `none` is an exception. -/
def childLoop (i : Info) (frames : Int) : Nat → Gen → ℚ → Option (Gen × ℚ)
  | 0, _, _ => none
  | n + 1, g, e =>
    match partValidate i g e frames with
    | none => none
    | some none => some (g, e)
    | some (some (.generator g')) => childLoop i frames n g' e
    | some (some (.exposure e')) => childLoop i frames n g e'

/-! ### the detectors table of the scan -/

/-- A row of the DetectorTable, without the mri -/
structure Row where
  enable : Bool
  name : String
  exposure : ℚ
  frames : Int
  deriving DecidableEq, Repr

/-- What a DetectorChildPart knows about its child: detectorchildpart.py 164-183 -/
structure Child where
  name : String
  info : Info
  /-- `frames_per_step` is one of the parameters of its validate -/
  takesFrames : Bool := true
  /-- some part multiplies out its triggers -/
  multiframe : Bool := true
  faulty : Bool := false
  deriving DecidableEq, Repr

/-- detectorchildpart.py 274-289: the generator that the child is given -/
def multiplied (name : String) (g : Gen) (frames : Int) : Gen :=
  if frames > 1 then
    { size := g.size * frames.toNat
      duration := g.duration / frames
      frameAxes := g.frameAxes ++ [name ++ "_frames_per_step"] }
  else g

/-- What `on_validate` asks for -/
inductive Answer
  | generator (g : Gen)
  | detectors (rows : List Row)
  deriving DecidableEq, Repr

/-- detectorchildpart.py 236-250: the new table -/
def putRow (rows : List Row) (r : Row) : List Row :=
  let l := rows.map (fun x => if x.name = r.name then r else x)
  if rows.any (fun x => decide (x.name = r.name)) then l else l ++ [r]

/-- detectorchildpart.py 196-209: frames per step and whether it was guessed. `none` is an exception. -/
def guessFrames (c : Child) (outer : Gen) (g : Gen) (row : Row) : Option (Int × Bool) :=
  if row.frames < 1 then
    if row.exposure > 0 then
      match childLoop c.info 1 10 g 0 with
      | none => none
      | some (_, e) =>
        let deadTime := outer.duration - e
        if row.exposure + deadTime = 0 then none
        else some (⌊outer.duration / (row.exposure + deadTime)⌋, true)
    else some (1, true)
  else some (row.frames, false)

/-- detectorchildpart.py 141-252 `on_validate`, for a child that takes an exposure. `none` is an
exception. An exposure of a row that is not positive is not passed on (300-301). -/
def onValidate (c : Child) (outer : Gen) (rows : List Row) : Option (List Answer) :=
  match rows.find? (fun x => decide (x.name = c.name) && x.enable) with
  | none =>
    if rows.any (fun x => decide (x.name = c.name)) then some []
    else some [.detectors (putRow rows ⟨false, c.name, 0, 0⟩)]
  | some row =>
    if c.faulty then none
    else
      let g := multiplied c.name outer row.frames
      match guessFrames c outer g row with
      | none => none
      | some (frames, guessed) =>
        if frames > 1 ∧ c.multiframe = false then none
        else
          let given := if row.exposure > 0 then row.exposure else 0
          match childLoop c.info (if c.takesFrames then frames else 1) 10 g given with
          | none => none
          | some (g', e') =>
            let gens := if g' ≠ g then [Answer.generator g'] else []
            if e' ≠ given ∨ guessed then
              some (gens ++ [.detectors (putRow rows ⟨true, c.name, e', frames⟩)])
            else some gens

/-! ### pulses -/

/-- The four values put to the PandA -/
structure Pulses where
  step : ℚ
  width : ℚ
  delay : ℚ
  pulses : Nat
  deriving DecidableEq, Repr

/-- pandapulsetriggerpart.py 186-190: the exposure of the detector, or a little less than the step -/
def pulseWidth (step : ℚ) : Option ℚ → ℚ
  | some e => e
  | none => step - 1 / 1000000

/-- pandapulsetriggerpart.py 177-203 `on_post_configure`, for `frames > 0`; `exposure` is the value of
the detector's exposure attribute if it has one. `none` is the failed assertion. -/
def pulses (duration : ℚ) (frames : Nat) (exposure : Option ℚ) (zeroDelay : Bool) : Option Pulses :=
  let step := duration / frames
  let width := pulseWidth step exposure
  if width < step then
    some { step := step, width := width, delay := (if zeroDelay then 0 else (step - width) / 2), pulses := frames }
  else none

/-- The PandA PULSE block: the `k`-th pulse after a trigger at time 0 is from `start` to `stop`. -/
def pulseStart (p : Pulses) (k : Nat) : ℚ := p.delay + k * p.step
def pulseStop (p : Pulses) (k : Nat) : ℚ := pulseStart p k + p.width

end Verif.Exposure
