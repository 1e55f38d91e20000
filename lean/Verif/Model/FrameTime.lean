import Verif.Model.Exposure
/-!
The time of a frame, for detectors with a time of their own: malcolm/modules/ADCore/parts/detectordriverpart.py 105-147, 265-301,
ADAndor/parts/andordriverpart.py 52-173, adUtil/parts/reframepluginpart.py 39-118, ADTetrAMM/parts/tetrammdriverpart.py 36-48.

Simplified: times are rational numbers; `duration` is the duration of the generator that the detector was given, which is that
of one frame (detectorchildpart.py 264-286).
-/
namespace Verif.FrameTime
open Verif.Exposure

/-- What a validation answers: an exception, or a new duration for the generator, or nothing -/
inductive Answer
  | refused
  | tweak (duration : ℚ)
  | fine
  deriving DecidableEq

/-- detectordriverpart.py 265-301 `on_validate`, for a version that is right -/
def driverValidate (minPeriod duration : ℚ) (frames : Nat) : Answer :=
  if minPeriod > 0 then
    if duration = 0 then .tweak (minPeriod * frames)
    else if duration ≥ minPeriod then .fine else .refused
  else .fine

/-- detectordriverpart.py 132-147: what is put to `exposure` (`none`: nothing) and `acquirePeriod` by `setup_detector`, with an
`ExposureDeadtimeInfo` or without -/
def driverSetup (info : Option Info) (duration : ℚ) (exposure : Option ℚ) : Option ℚ × Option ℚ :=
  (exposure, info.map fun i => exposure.getD (calculateExposure i duration 0) + i.readout)

/-- An Andor: what its driver answers. `readout` is by how much the acquire period is longer than the exposure when both are put
to some time. -/
structure Camera where
  frameTransfer : Bool
  accumulate : ℚ
  readout : ℚ
  /-- `andorReadoutTime` -/
  readoutTime : ℚ
  minPeriod : ℚ := 0
  deriving DecidableEq

/-- andordriverpart.py 52-97 `on_validate` -/
def Camera.validate (c : Camera) (duration exposure : ℚ) (frames : Nat) : Answer :=
  if duration ≥ 0 then
    if exposure > 0 then
      let perFrame := exposure + c.readoutTime
      if duration = 0 then .tweak (perFrame * frames)
      else if perFrame ≤ duration then .fine else .refused
    else driverValidate c.minPeriod duration frames
  else .refused

/-- andordriverpart.py 171-173 `get_additional_readout_factor` -/
def additional (duration : ℚ) : ℚ := duration * (4 / 1000) + 1 / 1000

/-- andordriverpart.py 156-169 `get_adjusted_exposure_time_and_acquire_period` -/
def adjusted (duration readout exposure : ℚ) : ℚ × ℚ :=
  let readout := readout + additional duration
  let e := calculateExposure ⟨readout, 50, 0⟩ duration exposure
  (e, e + readout)

/-- andordriverpart.py 99-154 `setup_detector`: exposure and acquire period. `none` is the failed assertion. The exposure is 0
where it is not passed. -/
def Camera.setup (c : Camera) (duration exposure : ℚ) : Option (ℚ × ℚ) :=
  if c.frameTransfer then
    if duration > c.accumulate then some (0, c.accumulate) else none
  else some (adjusted duration c.readout exposure)

/-- The exposures of the runs of a scan: detectordriverpart.py 413-422 for the first; 472-481 for those after it, which are
not given the exposure -/
def Camera.exposures (c : Camera) (duration exposure : ℚ) (runs : Nat) : Option (List ℚ) :=
  (List.range runs).mapM fun k => (c.setup duration (if k = 0 then exposure else 0)).map Prod.fst

/-- How frames are triggered -/
inductive Trigger
  | software | gated | start
  deriving DecidableEq, Repr

/-- reframepluginpart.py 59-60 `_number_of_adc_samples` of a duration that is not negative -/
def samples (freq duration : ℚ) : Int := ⌊duration * freq⌋

/-- reframepluginpart.py 39-57 `on_validate` -/
def reframeValidate (freq duration : ℚ) : Answer :=
  if duration = 0 then .tweak (2 / freq)
  else if duration > 0 then (if samples freq duration > 0 then .fine else .refused) else .refused

/-- reframepluginpart.py 99-118: `postCount`; `alwaysOn` is the `triggerOffCondition`. `none` is a failed assertion. -/
def reframeSetup (freq duration : ℚ) (t : Trigger) (alwaysOn : Bool) : Option Int :=
  let n := samples freq duration
  match t with
  | .gated => some 0
  | .start => if n - 1 > 0 then some (n - 1) else none
  | .software => if alwaysOn then some n else none

/-- tetrammdriverpart.py 11-12 -/
def baseFreq : ℚ := 100000
def minValues : Int := 5

/-- tetrammdriverpart.py 36-48 `on_post_configure`: `valuesPerRead`. The target is unsigned. -/
def valuesPerRead (target : Nat) (exposure : ℚ) : Int :=
  if target = 0 then minValues else max ⌈baseFreq * exposure / target⌉ minValues

end Verif.FrameTime
