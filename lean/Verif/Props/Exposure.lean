import Verif.Model.Exposure
import Mathlib.Tactic.Linarith
import Mathlib.Tactic.FieldSimp
import Mathlib.Tactic.Ring
import Mathlib.Algebra.Order.Field.Basic
import Mathlib.Algebra.Order.Field.Rat
/-!
C44: "The exposure calculated for a frame duration never exceeds the duration less readout and accuracy
margin, is the requested exposure when that fits, and the minimum duration for an exposure is exactly
the inverse."

C51: "If validation of a detector row returns no tweak then the exposure of framesPerStep frames fits in
the generator duration, and a tweaked row when validated again needs no further tweak."

C52: "The pulse train set on the PandA for a detector has framesPerStep pulses each of the exposure
width, centred in its slot unless zero delay is requested, and the whole train fits in the step
duration."
-/
namespace Verif.Props.Exposure
open Verif.Exposure

/-- The time a frame of duration `d` has for its exposure: the duration less the readout time and less
`accuracy` parts per million of the duration. -/
def available (i : Info) (d : ℚ) : ℚ := d * (1 - i.accuracy / 1000000) - i.readout

theorem available_eq (i : Info) (d : ℚ) : d - i.readout - i.accuracy * d / 1000000 = available i d := by
  unfold available; ring

theorem maximumExposure_eq (i : Info) (d : ℚ) : maximumExposure i d = max i.minExposure (available i d) := by
  unfold maximumExposure
  rw [available_eq]
  dsimp only
  split
  · rename_i h; rw [max_eq_left (le_of_lt h)]
  · rename_i h; rw [max_eq_right (not_lt.1 h)]

/-- **C44** part: the exposure never exceeds the time available, provided the detector's minimum
exposure fits in it. What is missing: `min_exposure_can_exceed`. -/
theorem exposure_fits_partial (i : Info) (d e : ℚ) (h : i.minExposure ≤ available i d) :
    calculateExposure i d e ≤ available i d ∧ i.minExposure ≤ calculateExposure i d e := by
  unfold calculateExposure
  rw [maximumExposure_eq, max_eq_right h]
  split
  · exact ⟨h, le_refl _⟩
  · dsimp only
    split
    · exact ⟨le_refl _, h⟩
    · rename_i h2
      rw [not_or, not_lt] at h2
      split
      · exact ⟨h, le_refl _⟩
      · rename_i h3; exact ⟨h2.2, not_lt.1 h3⟩

/-- What is missing from `exposure_fits_partial`: where the minimum exposure does not fit it is used
all the same. -/
theorem min_exposure_can_exceed (i : Info) (d e : ℚ) (h : available i d < i.minExposure) :
    available i d < calculateExposure i d e := by
  unfold calculateExposure
  rw [maximumExposure_eq, max_eq_left (le_of_lt h)]
  split
  · exact h
  · dsimp only
    split
    · exact h
    · rename_i h2
      rw [not_or, not_lt] at h2
      split
      · exact h
      · rename_i h3; exact lt_of_lt_of_le h (not_lt.1 h3)

/-- **C44** part: a requested exposure that the detector can do and that fits is used as it is. -/
theorem requested_exposure_kept (i : Info) (d e : ℚ) (h0 : 0 < e) (h1 : i.minExposure ≤ e)
    (h2 : e ≤ available i d) : calculateExposure i d e = e := by
  unfold calculateExposure
  rw [maximumExposure_eq, max_eq_right (le_trans h1 h2), if_neg (fun h => absurd h.1 (ne_of_gt h0))]
  dsimp only
  rw [if_neg (by rw [not_or, not_le, not_lt]; exact ⟨h0, h2⟩), if_neg (not_lt.2 h1)]

/-- **C44** part: an exposure of zero asks for the longest that fits. -/
theorem zero_asks_for_longest (i : Info) (d : ℚ) (hd : d ≠ 0) (h : i.minExposure ≤ available i d) :
    calculateExposure i d 0 = available i d := by
  unfold calculateExposure
  rw [maximumExposure_eq, max_eq_right h, if_neg (fun hc => hd hc.2)]
  dsimp only
  rw [if_pos (.inl (le_refl _))]

/-- **C44** part: the minimum duration is the inverse of the available time, and so an exposure fits in
a duration if and only if the duration is at least the minimum duration for that exposure. -/
theorem minimum_duration_inverse (i : Info) (ha : i.accuracy < 1000000) :
    (∀ e, available i (minimumDuration i e) = e) ∧ (∀ d, minimumDuration i (available i d) = d) ∧
    ∀ e d, e ≤ available i d ↔ minimumDuration i e ≤ d := by
  have hk : 0 < 1 - i.accuracy / 1000000 := by
    have : i.accuracy / 1000000 < 1 := by rw [div_lt_one (by norm_num)]; exact ha
    linarith
  have h1 : ∀ e, available i (minimumDuration i e) = e := by
    intro e
    unfold available minimumDuration
    rw [div_mul_cancel₀ _ (ne_of_gt hk)]; ring
  have h2 : ∀ d, minimumDuration i (available i d) = d := by
    intro d
    unfold available minimumDuration
    rw [sub_add_cancel, mul_div_assoc, div_self (ne_of_gt hk), mul_one]
  refine ⟨h1, h2, ?_⟩
  intro e d
  unfold available minimumDuration
  rw [div_le_iff₀ hk]
  constructor <;> intro h <;> linarith

/-- **C44** part: the longest exposure for the minimum duration of an exposure is that exposure. -/
theorem maximum_exposure_of_minimum_duration (i : Info) (ha : i.accuracy < 1000000) (e : ℚ)
    (he : i.minExposure ≤ e) : maximumExposure i (minimumDuration i e) = e := by
  rw [maximumExposure_eq, (minimum_duration_inverse i ha).1 e, max_eq_right he]

/-- a detector with 8 ms readout, 50 ppm and at least 1 ms exposure, in a step of 100 ms -/
example : let i : Info := ⟨8 / 1000, 50, 1 / 1000⟩
    i.minExposure ≤ available i (1 / 10) ∧ calculateExposure i (1 / 10) 0 = 91995 / 1000000 ∧
    calculateExposure i (1 / 10) (1 / 20) = 1 / 20 ∧ calculateExposure i (1 / 10) (1 / 10) = 91995 / 1000000 := by
  decide +kernel

/-- the witness for `min_exposure_can_exceed`: a step of 5 ms with 8 ms readout -/
example : let i : Info := ⟨8 / 1000, 50, 1 / 1000⟩
    available i (5 / 1000) < 0 ∧ calculateExposure i (5 / 1000) 0 = 1 / 1000 := by decide +kernel

/-! ### C51 -/

/-- The child's validate with a fixed positive duration: an exposure of zero becomes the calculated one,
and what comes back is within the limits. -/
theorem childLoop_spec (i : Info) (frames : Int) (n : Nat) (g : Gen) (hd : g.duration ≠ 0) (e : ℚ) :
    (e ≠ 0 → i.minExposure ≤ e → e ≤ maximumExposure i g.duration → childLoop i frames (n + 1) g e = some (g, e)) ∧
    (∀ g' e', childLoop i frames (n + 1) g e = some (g', e') →
      g' = g ∧ e' ≠ 0 ∧ i.minExposure ≤ e' ∧ e' ≤ maximumExposure i g.duration ∧
      (e ≠ 0 → e' = e) ∧ (e = 0 → e' = calculateExposure i g.duration 0)) := by
  have one : ∀ (m : Nat) (e : ℚ), e ≠ 0 → childLoop i frames (m + 1) g e =
      if e < i.minExposure then none else if e > maximumExposure i g.duration then none else some (g, e) := by
    intro m e he
    unfold childLoop partValidate
    rw [if_neg hd, if_neg he]
    split
    · rename_i h; split at h
      · rename_i h1; rw [if_pos h1]
      · rename_i h1; rw [if_neg h1]
        split at h
        · rename_i h2; rw [if_pos h2]
        · cases h
    · rename_i h; split at h
      · cases h
      · rename_i h1; rw [if_neg h1]
        split at h
        · cases h
        · rename_i h2; rw [if_neg h2]
    · rename_i h; split at h
      · cases h
      · split at h <;> cases h
    · rename_i h; split at h
      · cases h
      · split at h <;> cases h
  have of_one : ∀ (m : Nat) (e : ℚ) (g' : Gen) (e' : ℚ), e ≠ 0 → childLoop i frames (m + 1) g e = some (g', e') →
      g' = g ∧ e' = e ∧ i.minExposure ≤ e ∧ e ≤ maximumExposure i g.duration := by
    intro m e g' e' he h
    rw [one m e he] at h
    split at h
    · cases h
    · rename_i h1
      split at h
      · cases h
      · rename_i h2
        cases h
        exact ⟨rfl, rfl, not_lt.1 h1, not_lt.1 h2⟩
  have zero : ∀ (m : Nat), childLoop i frames (m + 1) g 0 = childLoop i frames m g (calculateExposure i g.duration 0) := by
    intro m
    conv_lhs => unfold childLoop partValidate
    rw [if_neg hd, if_pos rfl]
  constructor
  · intro he h1 h2
    rw [one n e he, if_neg (not_lt.2 h1), if_neg (not_lt.2 h2)]
  · intro g' e' h
    by_cases he : e = 0
    · subst he
      rw [zero] at h
      by_cases hc : calculateExposure i g.duration 0 = 0
      · rw [hc] at h
        exfalso
        have : ∀ m, childLoop i frames m g 0 = none := by
          intro m
          induction m with
          | zero => rfl
          | succ m ih => rw [zero, hc]; exact ih
        rw [this] at h; cases h
      · cases n with
        | zero => cases h
        | succ n =>
          obtain ⟨a, b, c, d⟩ := of_one n _ g' e' hc h
          exact ⟨a, by rw [b]; exact hc, by rw [b]; exact c, by rw [b]; exact d, fun h => absurd rfl h, fun _ => b⟩
    · obtain ⟨a, b, c, d⟩ := of_one n e g' e' he h
      exact ⟨a, by rw [b]; exact he, by rw [b]; exact c, by rw [b]; exact d, fun _ => b, fun hc => absurd hc he⟩

/-- The row of the table that makes the detector take part. -/
def activeRow (c : Child) (rows : List Row) : Option Row :=
  rows.find? (fun x => decide (x.name = c.name) && x.enable)

theorem multiplied_duration (name : String) (g : Gen) (frames : Int) (h : 1 ≤ frames) :
    (multiplied name g frames).duration = g.duration / frames := by
  unfold multiplied
  split
  · rfl
  · have : frames = 1 := by omega
    rw [this]; simp

/-- `frames` frames, each of the exposure and the readout time, fit in the duration with the accuracy
margin taken off. -/
def Fits (i : Info) (frames : Int) (exposure duration : ℚ) : Prop :=
  frames * (exposure + i.readout) ≤ duration * (1 - i.accuracy / 1000000)

theorem fits_iff (i : Info) (frames : Int) (hf : 1 ≤ frames) (e d : ℚ) :
    Fits i frames e d ↔ e ≤ available i (d / frames) := by
  have hf' : (0 : ℚ) < frames := by exact_mod_cast (by omega : (0 : Int) < frames)
  unfold Fits available
  have : d / frames * (1 - i.accuracy / 1000000) - i.readout =
      (d * (1 - i.accuracy / 1000000) - frames * i.readout) / frames := by
    field_simp
  rw [this, le_div_iff₀ hf']
  constructor <;> intro h <;> linarith

/-- Timing values of a real detector. -/
structure Sane (i : Info) : Prop where
  readout : 0 ≤ i.readout
  accuracy : 0 ≤ i.accuracy
  minExposure : 0 ≤ i.minExposure

/-- the exposure passed on for a row -/
def given (row : Row) : ℚ := if row.exposure > 0 then row.exposure else 0

theorem multiplied_ne (c : Child) (outer : Gen) (row : Row) (hd : 0 < outer.duration) :
    (multiplied c.name outer row.frames).duration ≠ 0 := by
  unfold multiplied
  split
  · rename_i h
    have hf' : (0 : ℚ) < row.frames := by exact_mod_cast (by omega : (0 : Int) < row.frames)
    exact ne_of_gt (div_pos hd hf')
  · exact ne_of_gt hd

/-- What a successful validation of an enabled row says. -/
theorem onValidate_active (c : Child) (outer : Gen) (rows : List Row) (row : Row) (hd : 0 < outer.duration)
    (hr : activeRow c rows = some row) (l : List Answer) :
    onValidate c outer rows = some l ↔
    ∃ frames guessed e', c.faulty = false ∧
      guessFrames c outer (multiplied c.name outer row.frames) row = some (frames, guessed) ∧
      ¬ (frames > 1 ∧ c.multiframe = false) ∧
      childLoop c.info (if c.takesFrames then frames else 1) 10 (multiplied c.name outer row.frames) (given row)
        = some (multiplied c.name outer row.frames, e') ∧
      l = (if e' ≠ given row ∨ guessed = true then [.detectors (putRow rows ⟨true, c.name, e', frames⟩)] else []) := by
  unfold onValidate
  rw [show rows.find? _ = some row from hr]
  dsimp only
  by_cases hfau : c.faulty = true
  · rw [if_pos hfau]
    constructor
    · intro h; cases h
    · rintro ⟨_, _, _, h, _⟩; rw [hfau] at h; cases h
  · rw [if_neg hfau]
    cases hg : guessFrames c outer (multiplied c.name outer row.frames) row with
    | none =>
      dsimp only
      constructor
      · intro h; cases h
      · rintro ⟨_, _, _, _, h, _⟩; cases h
    | some fg =>
      obtain ⟨frames, guessed⟩ := fg
      dsimp only
      by_cases hm : frames > 1 ∧ c.multiframe = false
      · rw [if_pos hm]
        constructor
        · intro h; cases h
        · rintro ⟨f, gu, e', _, h1, h2, _⟩; cases h1; exact absurd hm h2
      · rw [if_neg hm]
        show (match childLoop c.info (if c.takesFrames then frames else 1) 10 (multiplied c.name outer row.frames) (given row) with
          | none => none
          | some (g', e') =>
            if e' ≠ given row ∨ guessed = true then
              some ((if g' ≠ multiplied c.name outer row.frames then [Answer.generator g'] else []) ++
                [.detectors (putRow rows ⟨true, c.name, e', frames⟩)])
            else some (if g' ≠ multiplied c.name outer row.frames then [Answer.generator g'] else [])) = some l ↔ _
        cases hc : childLoop c.info (if c.takesFrames then frames else 1) 10 (multiplied c.name outer row.frames) (given row) with
        | none =>
          dsimp only
          constructor
          · intro h; cases h
          · rintro ⟨f, gu, e', _, h1, h2, h3, _⟩; cases h1; rw [hc] at h3; cases h3
        | some ge =>
          obtain ⟨g', e'⟩ := ge
          dsimp only
          obtain ⟨a, b, c1, d, e, f⟩ := (childLoop_spec c.info _ 9 _ (multiplied_ne c outer row hd) _).2 g' e' hc
          rw [a, if_neg (by simp : ¬ (multiplied c.name outer row.frames ≠ multiplied c.name outer row.frames)), List.nil_append]
          constructor
          · intro h
            refine ⟨frames, guessed, e', by simpa using hfau, rfl, hm, by rw [hc, a], ?_⟩
            split at h
            · rename_i h1; rw [if_pos h1]; cases h; rfl
            · rename_i h1; rw [if_neg h1]; cases h; rfl
          · rintro ⟨f, gu, e2, _, h1, h2, h3, h4⟩
            cases h1
            rw [hc, a] at h3
            cases h3
            rw [h4]
            split <;> rfl

theorem guessFrames_flag (c : Child) (outer g : Gen) (row : Row) (frames : Int) (guessed : Bool)
    (h : guessFrames c outer g row = some (frames, guessed)) :
    (row.frames < 1 → guessed = true) ∧ (1 ≤ row.frames → guessed = false ∧ frames = row.frames) := by
  unfold guessFrames at h
  constructor
  · intro hf
    rw [if_pos hf] at h
    split at h
    · split at h
      · cases h
      · dsimp only at h
        split at h
        · cases h
        · cases h; rfl
    · cases h; rfl
  · intro hf
    rw [if_neg (by omega)] at h
    cases h; exact ⟨rfl, rfl⟩

/-- **C51** part: if validation of an enabled row asks for nothing, for a step of positive duration,
then the row has at least one frame per step, each with an exposure the detector can do, and the
frames fit in the step, provided the detector's minimum exposure does. What is missing:
`min_exposure_accepted` (the minimum exposure is accepted although it does not fit) and
`zero_duration_multiplies_scan` (steps of duration zero). -/
theorem untweaked_row_fits_partial (c : Child) (outer : Gen) (rows : List Row) (row : Row)
    (hd : 0 < outer.duration) (hr : activeRow c rows = some row)
    (h : onValidate c outer rows = some []) :
    1 ≤ row.frames ∧ 0 < row.exposure ∧ c.info.minExposure ≤ row.exposure ∧
    (c.info.minExposure ≤ available c.info (outer.duration / row.frames) →
      Fits c.info row.frames row.exposure outer.duration) := by
  obtain ⟨frames, guessed, e', _, h2, h3, h4, h5⟩ := (onValidate_active c outer rows row hd hr []).1 h
  obtain ⟨g1, g2⟩ := guessFrames_flag _ _ _ _ _ _ h2
  obtain ⟨_, b, c1, d, e, f⟩ := (childLoop_spec c.info _ 9 _ (multiplied_ne c outer row hd) _).2 _ _ h4
  have hne : ¬ (e' ≠ given row ∨ guessed = true) := by
    intro hc; rw [if_pos hc] at h5; cases h5
  rw [not_or, not_not] at hne
  have hf1 : 1 ≤ row.frames := by
    by_contra hc
    exact hne.2 (g1 (by omega))
  have hpos : 0 < row.exposure := by
    by_contra hn
    have : given row = 0 := by unfold given; rw [if_neg hn]
    rw [this] at hne
    exact b hne.1
  have hgv : given row = row.exposure := by unfold given; rw [if_pos hpos]
  rw [hne.1, hgv] at c1 d
  refine ⟨hf1, hpos, c1, ?_⟩
  intro hm
  rw [fits_iff _ _ hf1]
  rw [multiplied_duration _ _ _ hf1, maximumExposure_eq, max_eq_right hm] at d
  exact d

theorem putRow_active (c : Child) (rows : List Row) (row : Row) (hr : activeRow c rows = some row) (r : Row)
    (hn : r.name = c.name) (he : r.enable = true) : activeRow c (putRow rows r) = some r := by
  have hany : rows.any (fun x => decide (x.name = r.name)) = true := by
    rw [List.any_eq_true]
    refine ⟨row, List.mem_of_find?_eq_some hr, ?_⟩
    have := List.find?_some hr
    simp only [Bool.and_eq_true, decide_eq_true_eq] at this
    simp [this.1, hn]
  unfold putRow
  dsimp only
  rw [if_pos hany]
  unfold activeRow at *
  clear hany
  induction rows with
  | nil => cases hr
  | cons x rows ih =>
    rw [List.map_cons]
    by_cases hx : x.name = r.name
    · rw [if_pos hx, List.find?_cons_of_pos (by simp [hn, he])]
    · rw [if_neg hx]
      have hx' : (decide (x.name = c.name) && x.enable) = false := by
        rw [← hn]; simp [hx]
      rw [List.find?_cons_of_neg (by simp [hx'])]
      rw [List.find?_cons_of_neg (by simp [hx'])] at hr
      exact ih hr

/-- The guess of the number of frames: at least one, and as many as fit. -/
theorem guessFrames_fits (c : Child) (hs : Sane c.info) (outer : Gen) (row : Row) (hd : 0 < outer.duration)
    (hf : row.frames < 1) (frames : Int) (guessed : Bool)
    (h : guessFrames c outer outer row = some (frames, guessed))
    (hmin : given row ≠ 0 → c.info.minExposure ≤ row.exposure ∧ row.exposure ≤ maximumExposure c.info outer.duration) :
    1 ≤ frames ∧ (given row = 0 → frames = 1) ∧
    (given row ≠ 0 → row.exposure ≤ maximumExposure c.info (outer.duration / frames)) := by
  have hgd0 : outer.duration ≠ 0 := ne_of_gt hd
  unfold guessFrames at h
  rw [if_pos hf] at h
  by_cases hpos : row.exposure > 0
  · have hgv : given row = row.exposure := by unfold given; rw [if_pos hpos]
    have hgn : given row ≠ 0 := by rw [hgv]; exact ne_of_gt hpos
    obtain ⟨hmin1, hmax⟩ := hmin hgn
    rw [if_pos hpos] at h
    cases hv : childLoop c.info 1 10 outer 0 with
    | none => rw [hv] at h; cases h
    | some gv =>
      obtain ⟨g2, v⟩ := gv
      rw [hv] at h
      dsimp only at h
      obtain ⟨_, _, c2, d2, _, f2⟩ := (childLoop_spec c.info _ 9 _ hgd0 _).2 g2 v hv
      have hv' : v = maximumExposure c.info outer.duration := by
        rw [f2 rfl]; unfold calculateExposure
        rw [if_neg (fun hh => hgd0 hh.2)]; dsimp only
        rw [if_pos (.inl (le_refl _))]
      split at h
      · cases h
      · rename_i hne
        have hfr : frames = ⌊outer.duration / (row.exposure + (outer.duration - v))⌋ := by cases h; rfl
        rw [← hv'] at hmax
        by_cases hmarg : c.info.minExposure ≤ available c.info outer.duration
        · rw [maximumExposure_eq, max_eq_right hmarg] at hv'
          have hdead : outer.duration - v = outer.duration * (c.info.accuracy / 1000000) + c.info.readout := by
            rw [hv']; unfold available; ring
          have hk : 0 ≤ c.info.accuracy / 1000000 := div_nonneg hs.accuracy (by norm_num)
          have hdk := mul_nonneg (le_of_lt hd) hk
          have hden : 0 < row.exposure + (outer.duration - v) := by
            have := hs.readout
            rw [hdead]; linarith
          have hone : 1 ≤ frames := by
            rw [hfr, Int.le_floor]
            push_cast
            rw [le_div_iff₀ hden]; linarith
          have hfl : (frames : ℚ) * (row.exposure + (outer.duration - v)) ≤ outer.duration := by
            have := Int.floor_le (outer.duration / (row.exposure + (outer.duration - v)))
            rw [← hfr, le_div_iff₀ hden] at this
            exact this
          refine ⟨hone, fun hc => absurd hc hgn, fun _ => ?_⟩
          rw [maximumExposure_eq]
          refine le_trans ?_ (le_max_right _ _)
          rw [← fits_iff _ _ hone]
          unfold Fits
          rw [hdead] at hfl
          have h1f : (1 : ℚ) ≤ frames := by exact_mod_cast hone
          have : outer.duration * (c.info.accuracy / 1000000) ≤
              frames * (outer.duration * (c.info.accuracy / 1000000)) := le_mul_of_one_le_left hdk h1f
          linarith
        · rw [maximumExposure_eq, max_eq_left (le_of_lt (not_le.1 hmarg))] at hv'
          have hem : row.exposure = c.info.minExposure := le_antisymm (by rw [← hv']; exact hmax) hmin1
          have hone : frames = 1 := by
            rw [hfr, hv', hem]
            have : outer.duration / (c.info.minExposure + (outer.duration - c.info.minExposure)) = 1 := by
              rw [add_sub_cancel, div_self hgd0]
            rw [this]; simp
          rw [hone]
          refine ⟨le_refl _, fun _ => rfl, fun _ => ?_⟩
          rw [hem, maximumExposure_eq]; exact le_max_left _ _
  · have hgv : given row = 0 := by unfold given; rw [if_neg hpos]
    rw [if_neg hpos] at h
    have h1 : frames = 1 := by cases h; rfl
    exact ⟨by omega, fun _ => h1, fun hc => absurd hgv hc⟩

/-- **C51** part: a tweaked row when validated again needs no further tweak, for a step of positive
duration. -/
theorem tweaked_row_settles_partial (c : Child) (hs : Sane c.info) (outer : Gen) (rows rows' : List Row) (row : Row)
    (hd : 0 < outer.duration) (hr : activeRow c rows = some row)
    (h : onValidate c outer rows = some [.detectors rows']) : onValidate c outer rows' = some [] := by
  obtain ⟨frames, guessed, e', hfau, h2, h3, h4, h5⟩ := (onValidate_active c outer rows row hd hr _).1 h
  obtain ⟨g1, g2⟩ := guessFrames_flag _ _ _ _ _ _ h2
  obtain ⟨_, b, c1, d, e, f⟩ := (childLoop_spec c.info _ 9 _ (multiplied_ne c outer row hd) _).2 _ _ h4
  have hpos : 0 < e' := lt_of_le_of_ne (le_trans hs.minExposure c1) (Ne.symm b)
  have hrows : rows' = putRow rows ⟨true, c.name, e', frames⟩ := by
    split at h5
    · simpa using h5
    · cases h5
  -- the exposure is right for the frames in the new row
  have hgood : 1 ≤ frames ∧ e' ≤ maximumExposure c.info (outer.duration / frames) := by
    by_cases hf : row.frames < 1
    · have hm : multiplied c.name outer row.frames = outer := by
        unfold multiplied; rw [if_neg (by omega)]
      rw [hm] at h2 d
      have hgiv : given row ≠ 0 → e' = row.exposure := by
        intro hg
        rw [e hg]; unfold given at hg ⊢
        split
        · rfl
        · rename_i hn; rw [if_neg hn] at hg; exact absurd rfl hg
      obtain ⟨k1, k2, k3⟩ := guessFrames_fits c hs outer row hd hf frames guessed h2 (by
        intro hg; rw [← hgiv hg]; exact ⟨c1, d⟩)
      refine ⟨k1, ?_⟩
      by_cases hg : given row = 0
      · rw [k2 hg]; simpa using d
      · rw [hgiv hg]; exact k3 hg
    · have hf1 : 1 ≤ row.frames := by omega
      obtain ⟨_, hfr⟩ := g2 hf1
      rw [hfr]
      refine ⟨hf1, ?_⟩
      rw [← multiplied_duration c.name outer row.frames hf1]; exact d
  have hr' : activeRow c rows' = some ⟨true, c.name, e', frames⟩ := by
    rw [hrows]; exact putRow_active c rows row hr _ rfl rfl
  rw [onValidate_active c outer rows' _ hd hr']
  have hgv : given ⟨true, c.name, e', frames⟩ = e' := by unfold given; rw [if_pos hpos]
  refine ⟨frames, false, e', hfau, ?_, h3, ?_, ?_⟩
  · unfold guessFrames; rw [if_neg (by show ¬ frames < 1; omega)]
  · rw [hgv]
    refine (childLoop_spec c.info _ 9 _ (multiplied_ne c outer _ hd) _).1 b c1 ?_
    rw [multiplied_duration _ _ _ hgood.1]; exact hgood.2
  · rw [hgv, if_neg (by simp)]

/-- What the table says when validation is finished: the row has the name of the detector, everything
else in the table is as it was. -/
theorem other_rows_kept (rows : List Row) (r : Row) :
    (putRow rows r).filter (fun x => decide (x.name ≠ r.name)) = rows.filter (fun x => decide (x.name ≠ r.name)) := by
  have : (rows.map (fun x => if x.name = r.name then r else x)).filter (fun x => decide (x.name ≠ r.name)) =
      rows.filter (fun x => decide (x.name ≠ r.name)) := by
    induction rows with
    | nil => rfl
    | cons x rows ih =>
      rw [List.map_cons, List.filter_cons, List.filter_cons, ih]
      by_cases hx : x.name = r.name
      · rw [if_pos hx]; simp [hx]
      · rw [if_neg hx]
  unfold putRow
  dsimp only
  split
  · exact this
  · rw [List.filter_append, this]; simp

/-- What is missing from `untweaked_row_fits_partial`: a row with the detector's minimum exposure is
accepted although it is longer than the step. -/
theorem min_exposure_accepted : ∃ (c : Child) (outer : Gen) (rows : List Row), Sane c.info ∧
    onValidate c outer rows = some [] ∧ activeRow c rows = some ⟨true, "det", 1, 1⟩ ∧ outer.duration < 1 :=
  ⟨{ name := "det", info := ⟨0, 50, 1⟩ }, ⟨6, 1 / 2, []⟩, [⟨true, "det", 1, 1⟩], ⟨by decide +kernel, by decide +kernel, by decide +kernel⟩,
    by decide +kernel⟩

/-- With a step duration of zero and several frames per step, validation asks for the generator that
was multiplied out for the detector to become the generator of the whole scan, which has twice as many
steps as asked for. -/
theorem zero_duration_multiplies_scan : ∃ (c : Child) (outer g' : Gen) (rows : List Row) (l : List Answer),
    Sane c.info ∧ outer.duration = 0 ∧ onValidate c outer rows = some (.generator g' :: l) ∧ g'.size = 2 * outer.size :=
  ⟨{ name := "det", info := ⟨1, 0, 1⟩ }, ⟨6, 0, []⟩, ⟨12, 4 * (1 + 1 / 1000000000000), ["det_frames_per_step"]⟩,
    [⟨true, "det", 0, 2⟩], [.detectors [⟨true, "det", 3 + 4 / 1000000000000, 2⟩]],
    ⟨by decide +kernel, by decide +kernel, by decide +kernel⟩, by decide +kernel⟩

/-- the frames per step are guessed: 1 s steps, exposure 0.1 s with 0.05 s readout, so six frames -/
example : let c : Child := { name := "det", info := ⟨1 / 20, 50, 1 / 1000⟩ }
    let outer : Gen := ⟨6, 1, []⟩
    onValidate c outer [⟨true, "other", 0, 1⟩, ⟨true, "det", 1 / 10, 0⟩] =
      some [.detectors [⟨true, "other", 0, 1⟩, ⟨true, "det", 1 / 10, 6⟩]] ∧
    onValidate c outer [⟨true, "other", 0, 1⟩, ⟨true, "det", 1 / 10, 6⟩] = some [] := by decide +kernel

/-! ### C52 -/

/-- **C52** part: where the code sets a pulse train, it is one pulse per frame, each as wide as the
exposure, in its own slot of the step and centred there unless no delay is wanted; pulses do not
overlap, and all of them are in the step. What is missing: `negative_width` (a detector without an
exposure in slots under a microsecond). -/
theorem pulses_fit_partial (duration : ℚ) (frames : Nat) (exposure : Option ℚ) (zeroDelay : Bool) (p : Pulses)
    (hd : 0 < duration) (hf : 0 < frames) (h : pulses duration frames exposure zeroDelay = some p) :
    p.pulses = frames ∧ (∀ e, exposure = some e → p.width = e) ∧
    (∀ k < frames,
      (k : ℚ) * (duration / frames) ≤ pulseStart p k ∧ pulseStop p k < (k + 1) * (duration / frames) ∧
      (zeroDelay = false →
        pulseStart p k - k * (duration / frames) = (k + 1) * (duration / frames) - pulseStop p k) ∧
      (zeroDelay = true → pulseStart p k = k * (duration / frames)) ∧
      pulseStop p k ≤ duration ∧ pulseStop p k < pulseStart p (k + 1)) := by
  have hf' : (0 : ℚ) < frames := by exact_mod_cast hf
  have hstep : 0 < duration / frames := div_pos hd hf'
  have hall : (frames : ℚ) * (duration / frames) = duration := by field_simp
  unfold pulses at h
  dsimp only at h
  split at h
  · rename_i hw
    cases h
    refine ⟨rfl, ?_, ?_⟩
    · rintro e rfl; rfl
    · intro k hk
      have hk1 : ((k : ℚ) + 1) ≤ frames := by exact_mod_cast hk
      have hend : ((k : ℚ) + 1) * (duration / frames) ≤ duration := by
        have := mul_le_mul_of_nonneg_right hk1 (le_of_lt hstep)
        rw [hall] at this; exact this
      unfold pulseStop pulseStart
      dsimp only
      generalize pulseWidth (duration / (frames : ℚ)) exposure = w at hw ⊢
      generalize duration / (frames : ℚ) = st at *
      push_cast
      cases zeroDelay with
      | false =>
        simp only [Bool.false_eq_true, if_false]
        refine ⟨by linarith, by linarith, (fun _ => by linarith), (fun h => by cases h), by linarith, by linarith⟩
      | true =>
        simp only [if_true]
        refine ⟨by linarith, by linarith, (fun h => by cases h), (fun _ => by linarith), by linarith, by linarith⟩
  · cases h

/-- **C52** part: an exposure that leaves no gap between the pulses is refused. -/
theorem too_wide_refused (duration : ℚ) (frames : Nat) (e : ℚ) (zeroDelay : Bool) :
    pulses duration frames (some e) zeroDelay = none ↔ duration / frames ≤ e := by
  unfold pulses
  dsimp only [pulseWidth]
  split
  · rename_i h; simp; exact h
  · rename_i h; simp; exact not_lt.1 h

/-- What is missing from `pulses_fit_partial`: for a detector without an exposure, in slots of less than
a microsecond, the width put to the PandA is negative. -/
theorem negative_width : ∃ p, pulses (1 / 1000000) 2 none false = some p ∧ p.width < 0 :=
  ⟨⟨1 / 2000000, -(1 / 2000000), 1 / 2000000, 2⟩, by decide +kernel⟩

/-- two frames of 0.3 s in a step of 1 s: pulses at 0.1 and 0.6 s -/
example : ∃ p, pulses 1 2 (some (3 / 10)) false = some p ∧ pulseStart p 0 = 1 / 10 ∧ pulseStart p 1 = 6 / 10 :=
  ⟨⟨1 / 2, 3 / 10, 1 / 10, 2⟩, by decide +kernel⟩

end Verif.Props.Exposure
