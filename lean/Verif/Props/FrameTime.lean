import Verif.Props.Exposure
import Verif.Model.FrameTime
import Mathlib.Tactic.Linarith
import Mathlib.Tactic.FieldSimp
import Mathlib.Tactic.NormNum
/-!
C87 (the frames of a detector fit in their time).
-/
namespace Verif.Props.FrameTime
open Verif.Exposure Verif.FrameTime Verif.Props.Exposure

/-! ### Drivers that are told of their readout -/

/-- C87 for a driver with an `ExposureDeadtimeInfo`: an exposure that fits has room in the acquire period that is put, and that
period fits in the duration, also with the frequency accuracy; and the later runs of a scan, for which the exposure is not put
again, get a period in which it fits just the same. -/
theorem driver_period_fits (i : Info) (d e : ℚ) (hd : 0 < d) (h : i.minExposure ≤ available i d) (he : e ≤ available i d) :
    ∃ p q, driverSetup (some i) d (some e) = (some e, some p) ∧ driverSetup (some i) d none = (none, some q) ∧
      e + i.readout ≤ p ∧ e + i.readout ≤ q ∧ p ≤ d * (1 - i.accuracy / 1000000) ∧ q ≤ d * (1 - i.accuracy / 1000000) := by
  refine ⟨e + i.readout, calculateExposure i d 0 + i.readout, rfl, rfl, le_refl _, ?_, ?_, ?_⟩
  · rw [zero_asks_for_longest i d (ne_of_gt hd) h]; linarith
  · unfold available at he; linarith
  · have := (exposure_fits_partial i d 0 h).1
    unfold available at this
    linarith

-- a detector with 8 ms readout in a step of 100 ms, with an exposure of 20 ms
example : let i : Info := ⟨8 / 1000, 50, 1 / 1000⟩
    i.minExposure ≤ available i (1 / 10) ∧ (2 / 100 : ℚ) ≤ available i (1 / 10) ∧ driverSetup (some i) (1 / 10) none = (none, some (99995 / 1000000)) := by
  refine ⟨?_, ?_, ?_⟩ <;> norm_num [available, driverSetup, calculateExposure, maximumExposure]

/-- C87: a duration that is validated is one that the driver can keep, and the one that is asked for instead of none is
validated. -/
theorem driver_validated (minPeriod d : ℚ) (frames : Nat) (hd : 0 < d) :
    (driverValidate minPeriod d frames = .fine ↔ minPeriod ≤ 0 ∨ minPeriod ≤ d) ∧
    (0 < minPeriod → 0 < frames → ∃ d', driverValidate minPeriod 0 frames = .tweak d' ∧ driverValidate minPeriod d' frames = .fine) := by
  constructor
  · unfold driverValidate
    by_cases h : minPeriod > 0
    · rw [if_pos h, if_neg (ne_of_gt hd)]
      by_cases h2 : d ≥ minPeriod
      · simp [h2]
      · have : ¬ minPeriod ≤ 0 := by linarith
        simp [h2, this]
    · rw [if_neg h]
      simp [not_lt.1 h]
  · intro hm hf
    refine ⟨minPeriod * frames, by simp [driverValidate, hm], ?_⟩
    have h1 : (1 : ℚ) ≤ frames := by exact_mod_cast hf
    have h2 : minPeriod ≤ minPeriod * frames := by nlinarith
    have h3 : minPeriod * frames ≠ 0 := by intro h; linarith
    simp [driverValidate, hm, h3, h2]

/-! ### Andor -/

/-- C87 for an Andor whose readout fits in the duration: the exposure is not negative, it has room with the readout in the
acquire period, and that fits in the duration. In frame transfer mode no more is needed than that it could be set up. What is
missing: `andor_too_short`. -/
theorem andor_period_fits_partial (c : Camera) (d e x p : ℚ) (hr : 0 ≤ c.readout) (hd : 0 ≤ d) (h : c.setup d e = some (x, p))
    (hf : c.frameTransfer = true ∨ c.readout + additional d + 50 * d / 1000000 ≤ d) :
    0 ≤ x ∧ p ≤ d ∧ (c.frameTransfer = false → x + c.readout ≤ p) := by
  unfold Camera.setup at h
  cases ht : c.frameTransfer with
  | true =>
    rw [ht, if_pos rfl] at h
    split at h
    · rename_i hlt
      cases h
      exact ⟨le_refl _, le_of_lt hlt, fun h => by cases h⟩
    · cases h
  | false =>
    rw [ht] at h hf
    simp only [Bool.false_eq_true, if_false, false_or] at h hf
    unfold adjusted at h
    simp only [Option.some.injEq, Prod.mk.injEq] at h
    obtain ⟨rfl, rfl⟩ := h
    have ha : available ⟨c.readout + additional d, 50, 0⟩ d = d - 50 * d / 1000000 - (c.readout + additional d) := by
      unfold available; simp only; ring
    have := exposure_fits_partial ⟨c.readout + additional d, 50, 0⟩ d e (by rw [ha]; simp only; linarith)
    rw [ha] at this
    have hadd : 0 ≤ additional d := by unfold additional; linarith
    refine ⟨this.2, by linarith [this.1], fun _ => by linarith⟩

/-- C87: an exposure that fits with all of the readout is the one that is used. What is missing: `andor_exposure_cut`. -/
theorem andor_exposure_kept_partial (c : Camera) (d e : ℚ) (hf : c.frameTransfer = false) (he : 0 < e)
    (hfit : e + c.readout + additional d + 50 * d / 1000000 ≤ d) :
    c.setup d e = some (e, e + (c.readout + additional d)) := by
  unfold Camera.setup
  rw [hf]
  simp only [Bool.false_eq_true, if_false, adjusted]
  have ha : available ⟨c.readout + additional d, 50, 0⟩ d = d - 50 * d / 1000000 - (c.readout + additional d) := by
    unfold available; simp only; ring
  rw [requested_exposure_kept _ d e he (le_of_lt he) (by rw [ha]; linarith)]

/-- C87: the duration that an Andor asks for instead of none is one it then accepts. -/
theorem andor_tweak_accepted (c : Camera) (e : ℚ) (frames : Nat) (hr : 0 ≤ c.readoutTime) (he : 0 < e) (hf : 0 < frames) :
    ∃ d, c.validate 0 e frames = .tweak d ∧ c.validate d e frames = .fine ∧ d = frames * (e + c.readoutTime) := by
  have h1 : (1 : ℚ) ≤ frames := by exact_mod_cast hf
  have h0 : 0 < e + c.readoutTime := by linarith
  have h2 : e + c.readoutTime ≤ (e + c.readoutTime) * frames := by nlinarith
  have h3 : (e + c.readoutTime) * frames ≠ 0 := by intro h; linarith
  refine ⟨(e + c.readoutTime) * frames, by simp [Camera.validate, he], ?_, by ring⟩
  unfold Camera.validate
  rw [if_pos (by linarith), if_pos he]
  simp only
  rw [if_neg h3, if_pos h2]

-- a camera with 5 ms readout and an exposure of 20 ms in 100 ms
def andor : Camera := { frameTransfer := false, accumulate := 0, readout := 5 / 1000, readoutTime := 5 / 1000 }

example : andor.setup (1 / 10) (2 / 100) = some (2 / 100, 264 / 10000) ∧ andor.validate (1 / 10) (2 / 100) 1 = .fine := by
  constructor
  · rw [andor_exposure_kept_partial andor _ _ rfl (by norm_num) (by norm_num [andor, additional])]
    norm_num [andor, additional]
  · norm_num [andor, Camera.validate]

/-- C87 is false of an Andor in general: a duration shorter than the readout is accepted, and then the acquire period is longer
than the duration. -/
theorem andor_too_short : ∃ p, andor.validate (1 / 1000) 0 1 = .fine ∧ andor.setup (1 / 1000) 0 = some (0, p) ∧ (1 / 1000 : ℚ) < p :=
  ⟨6004 / 1000000, by norm_num [andor, Camera.validate, driverValidate], by
    norm_num [andor, Camera.setup, adjusted, additional, calculateExposure, maximumExposure], by norm_num⟩

/-- An exposure that was validated is not always the one that is used: the validation knows less of the readout. -/
theorem andor_exposure_cut : ∃ x p, andor.validate (1 / 10) (95 / 1000) 1 = .fine ∧ andor.setup (1 / 10) (95 / 1000) = some (x, p) ∧ x < 95 / 1000 :=
  ⟨93595 / 1000000, _, by norm_num [andor, Camera.validate], by
    norm_num [andor, Camera.setup, adjusted, additional, calculateExposure, maximumExposure]
    rfl, by norm_num⟩

/-- C87: without an exposure, or in frame transfer mode, all runs of a scan have the same. What is missing:
`andor_exposure_changes`. -/
theorem andor_exposures_same_partial (c : Camera) (d e : ℚ) (n : Nat) (l : List ℚ) (h : c.exposures d e n = some l)
    (hf : e = 0 ∨ c.frameTransfer = true) : ∀ x ∈ l, ∀ y ∈ l, x = y := by
  have key : ∀ k : Nat, (c.setup d (if k = 0 then e else 0)).map Prod.fst = (c.setup d 0).map Prod.fst := by
    intro k
    rcases hf with rfl | hf
    · split <;> rfl
    · simp only [Camera.setup, hf, if_true]
  have all : ∀ (ks : List Nat) (l : List ℚ), (ks.mapM fun k => (c.setup d (if k = 0 then e else 0)).map Prod.fst) = some l →
      ∀ x ∈ l, (c.setup d 0).map Prod.fst = some x := by
    intro ks
    induction ks with
    | nil => intro l hl x hx; simp at hl; subst hl; cases hx
    | cons k ks ih =>
      intro l hl x hx
      rw [List.mapM_cons] at hl
      simp only [Option.bind_eq_bind, Option.bind_eq_some_iff, Option.pure_def, Option.some.injEq] at hl
      obtain ⟨a, ha, b, hb, rfl⟩ := hl
      rcases List.mem_cons.1 hx with rfl | hx
      · rw [← key k]; exact ha
      · exact ih b hb x hx
  intro x hx y hy
  have := (all _ l h x hx).symm.trans (all _ l h y hy)
  exact Option.some.inj this

/-- The exposure that was asked for is only that of the first run: the later runs, set up again, have the longest exposure. -/
theorem andor_exposure_changes : andor.exposures (1 / 10) (2 / 100) 3 = some [2 / 100, 93595 / 1000000, 93595 / 1000000] := by
  have h1 : andor.setup (1 / 10) (2 / 100) = some (2 / 100, 264 / 10000) := by
    rw [andor_exposure_kept_partial andor _ _ rfl (by norm_num) (by norm_num [andor, additional])]
    norm_num [andor, additional]
  have h2 : (andor.setup (1 / 10) 0).map Prod.fst = some (93595 / 1000000) := by
    norm_num [andor, Camera.setup, adjusted, additional, calculateExposure, maximumExposure]
  have e : List.range 3 = [0, 1, 2] := rfl
  simp only [Camera.exposures, e, List.mapM_cons, List.mapM_nil, if_true, h1, Option.map_some]
  simp only [one_ne_zero, OfNat.ofNat_ne_zero, if_false, h2]
  rfl

/-! ### Samples of an ADC -/

/-- C87 for samples: a frame that the software triggers has as many samples as fit in its duration; with start triggers the last
sample is over one sample time before the next trigger, and one more would be too many; with a gate none are counted. -/
theorem reframe_samples (freq d : ℚ) (hf : 0 < freq) (on : Bool) (n : Int) :
    (reframeSetup freq d .software on = some n → n / freq ≤ d ∧ d < (n + 1) / freq) ∧
    (reframeSetup freq d .start on = some n → 0 < n ∧ (n + 1) / freq ≤ d ∧ d < (n + 2) / freq) ∧
    (reframeSetup freq d .gated on = some n → n = 0) := by
  have h1 := Int.floor_le (d * freq)
  have h2 := Int.lt_floor_add_one (d * freq)
  refine ⟨fun h => ?_, fun h => ?_, fun h => ?_⟩
  · unfold reframeSetup samples at h
    simp only at h
    split at h
    · have := Option.some.inj h
      rw [this] at h1 h2
      exact ⟨by rw [div_le_iff₀ hf]; exact h1, by rw [lt_div_iff₀ hf]; exact h2⟩
    · cases h
  · unfold reframeSetup samples at h
    simp only at h
    split at h
    · rename_i hp
      have := Option.some.inj h
      have e : ⌊d * freq⌋ = n + 1 := by omega
      rw [e] at h1 h2
      push_cast at h1 h2
      refine ⟨by omega, by rw [div_le_iff₀ hf]; exact h1, by rw [lt_div_iff₀ hf]; linarith⟩
    · cases h
  · exact (Option.some.inj h).symm

/-- C87: a duration that was validated gives at least one sample, and for start triggers it can be set up if it is that of two
samples. What is missing: `reframe_validated_refused`. -/
theorem reframe_validated_partial (freq d : ℚ) (hf : 0 < freq) (h : reframeValidate freq d = .fine) :
    (∃ n, reframeSetup freq d .software true = some n ∧ 0 < n) ∧ (2 / freq ≤ d → ∃ n, reframeSetup freq d .start true = some n) := by
  unfold reframeValidate at h
  split at h
  · cases h
  · split at h
    · split at h
      · rename_i hs
        refine ⟨⟨_, rfl, hs⟩, fun h2 => ?_⟩
        rw [div_le_iff₀ hf] at h2
        have : (2 : Int) ≤ samples freq d := by unfold samples; rw [Int.le_floor]; exact_mod_cast h2
        exact ⟨samples freq d - 1, by simp only [reframeSetup]; rw [if_pos (by omega)]⟩
      · cases h
    · cases h

/-- C87: the duration asked for instead of none is validated and can be set up. -/
theorem reframe_tweak_accepted (freq : ℚ) (hf : 0 < freq) :
    ∃ d, reframeValidate freq 0 = .tweak d ∧ reframeValidate freq d = .fine ∧ reframeSetup freq d .start true = some 1 := by
  have e : (2 / freq) * freq = 2 := by field_simp
  have s : samples freq (2 / freq) = 2 := by unfold samples; rw [e]; exact_mod_cast Int.floor_intCast (R := ℚ) 2
  have hp : 0 < 2 / freq := by positivity
  refine ⟨2 / freq, by simp [reframeValidate], ?_, ?_⟩
  · unfold reframeValidate
    rw [if_neg (ne_of_gt hp), if_pos hp, s]
    simp
  · simp [reframeSetup, s]

/-- C87 is false of start triggers in general: a duration with room for one sample is validated, but configuring fails. -/
theorem reframe_validated_refused : reframeValidate 10000 (15 / 100000) = .fine ∧ reframeSetup 10000 (15 / 100000) .start true = none := by
  have s : samples 10000 (15 / 100000) = 1 := by
    unfold samples
    rw [Int.floor_eq_iff]
    norm_num
  constructor
  · unfold reframeValidate
    rw [s]
    norm_num
  · simp [reframeSetup, s]

/-- C87 for a TetrAMM: the driver averages over the smallest number of values that it can do for which a frame has no more
samples than the target; without a target it is the smallest number of all. -/
theorem tetramm_samples (target : Nat) (exposure : ℚ) :
    minValues ≤ valuesPerRead target exposure ∧ (target = 0 → valuesPerRead target exposure = minValues) ∧
    (0 < target → baseFreq * exposure / valuesPerRead target exposure ≤ target ∧
      ∀ v : Int, minValues ≤ v → baseFreq * exposure / v ≤ target → valuesPerRead target exposure ≤ v) := by
  unfold valuesPerRead
  by_cases h : target = 0
  · simp [h]
  · rw [if_neg h]
    have ht : (0 : ℚ) < target := by exact_mod_cast Nat.pos_of_ne_zero h
    have h5 : minValues = 5 := rfl
    refine ⟨le_max_right _ _, fun hx => absurd hx h, fun _ => ⟨?_, ?_⟩⟩
    · have hv : (0 : ℚ) < ((max ⌈baseFreq * exposure / target⌉ minValues : Int) : ℚ) := by
        have : (0 : Int) < max ⌈baseFreq * exposure / target⌉ minValues := by
          have := le_max_right ⌈baseFreq * exposure / target⌉ minValues; omega
        exact_mod_cast this
      rw [div_le_iff₀ hv]
      have h1 := Int.le_ceil (baseFreq * exposure / target)
      have h2 : ((⌈baseFreq * exposure / target⌉ : Int) : ℚ) ≤ ((max ⌈baseFreq * exposure / target⌉ minValues : Int) : ℚ) := by
        exact_mod_cast le_max_left _ _
      have h3 := le_trans h1 h2
      rw [div_le_iff₀ ht] at h3
      linarith
    · intro v hv h
      refine max_le ?_ hv
      rw [Int.ceil_le]
      have hv' : (0 : ℚ) < v := by exact_mod_cast (by omega : (0 : Int) < v)
      rw [div_le_iff₀ hv'] at h
      rw [div_le_iff₀ ht]
      linarith

-- a frame of 1 ms with a target of 10 samples: ten values each
example : valuesPerRead 10 (1 / 1000) = 10 := by
  unfold valuesPerRead
  have : ⌈baseFreq * (1 / 1000) / ((10 : Nat) : ℚ)⌉ = 10 := by
    rw [Int.ceil_eq_iff]; norm_num [baseFreq]
  rw [if_neg (by decide), this]
  decide

end Verif.Props.FrameTime
