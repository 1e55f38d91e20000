import Verif.Spec.RunUp
import Verif.Model.Exposure
import Verif.Model.Validate
import Mathlib.Tactic.Linarith
import Mathlib.Tactic.FieldSimp
import Mathlib.Tactic.Ring
import Mathlib.Tactic.NormNum
/-!
C77: how the motors get to a scan and out of it, and the soft limits. C78: the duration is aligned to the servo cycle.
-/
namespace Verif.Props.RunUp
open Verif Verif.PmacUtil Verif.RunUp Verif.Spec.RunUp

theorem within_iff (m : Limited) (x : ℚ) : within m x = true ↔ Allowed m x := by
  unfold within withinSoftLimits Allowed
  by_cases h : m.dialHigh = 0 ∧ m.dialLow = 0
  · rw [if_pos h]; simp [h]
  · rw [if_neg h]
    by_cases h2 : x > m.userHigh ∨ x < m.userLow
    · rw [if_pos h2]
      constructor
      · intro h3; cases h3
      · rintro (h3 | ⟨h3, h4⟩)
        · exact absurd h3 h
        · rcases h2 with h2 | h2
          · exact absurd h4 (not_le.2 h2)
          · exact absurd h3 (not_le.2 h2)
    · rw [if_neg h2]
      rw [not_or, not_lt, not_lt] at h2
      exact ⟨fun _ => .inr ⟨h2.2, h2.1⟩, fun _ => rfl⟩

theorem mapM_some_iff {A B : Type} (f : A → Option B) : ∀ (l : List A) (r : List B), l.mapM f = some r ↔ l.map f = r.map some := by
  intro l
  induction l with
  | nil => intro r; cases r <;> simp
  | cons a l ih =>
    intro r
    rw [List.mapM_cons]
    cases hf : f a with
    | none => cases r <;> simp [hf]
    | some b =>
      cases hl : l.mapM f with
      | none =>
        cases r with
        | nil => simp [hf]
        | cons c r =>
          simp only [Option.bind_eq_bind, Option.bind_some, Option.bind_none, List.map_cons, hf, List.cons.injEq, Option.some.injEq]
          constructor
          · intro h; cases h
          · rintro ⟨-, h⟩
            rw [(ih r).2 h] at hl; cases hl
      | some bs =>
        cases r with
        | nil => simp [hf]
        | cons c r =>
          simp only [Option.bind_eq_bind, Option.bind_some, Option.pure_def, Option.some.injEq, List.map_cons, hf, List.cons.injEq]
          constructor
          · rintro ⟨rfl, rfl⟩; exact ⟨rfl, (ih _).1 hl⟩
          · rintro ⟨rfl, h⟩
            have := (ih r).2 h
            rw [hl] at this; cases this; exact ⟨rfl, rfl⟩

theorem mapM_isSome {A B : Type} (f : A → Option B) (l : List A) : (∃ r, l.mapM f = some r) ↔ ∀ a ∈ l, ∃ b, f a = some b := by
  constructor
  · rintro ⟨r, h⟩ a ha
    have := List.mem_map_of_mem (f := f) ha
    rw [(mapM_some_iff f l r).1 h] at this
    obtain ⟨b, -, hb⟩ := List.mem_map.1 this
    exact ⟨b, hb.symm⟩
  · intro h
    induction l with
    | nil => exact ⟨[], rfl⟩
    | cons a l ih =>
      obtain ⟨b, hb⟩ := h a List.mem_cons_self
      obtain ⟨r, hr⟩ := ih (fun x hx => h x (List.mem_cons_of_mem _ hx))
      exact ⟨b :: r, by rw [List.mapM_cons, hb, hr]; rfl⟩

/-- A motor is slow enough if it is no faster than its maximum, but for a millionth. -/
def SlowEnough (entry : Bool) (a : Axis) : Prop := (|velocityAt entry a.2.2| - a.2.1.maxVelocity) / a.2.1.maxVelocity < 1 / 1000000

theorem pointVelocity_eq (mx : ℚ) (p : AxisPoint) (entry : Bool) : pointVelocity mx p entry =
    if (|velocityAt entry p| - mx) / mx < 1 / 1000000 then some (velocityAt entry p) else none := by
  have : ∀ h : ℚ, 4 * h / p.duration = 2 * (2 * h / p.duration) := by intro h; ring
  unfold pointVelocity velocityAt
  simp only [this]

theorem velocities_some (entry : Bool) (axes : List Axis) (vs : List (Axis × ℚ)) : velocities entry axes = some vs ↔
    (∀ a ∈ axes, SlowEnough entry a) ∧ vs = axes.map (fun a => (a, velocityAt entry a.2.2)) := by
  unfold velocities
  constructor
  · intro h
    have hs := (mapM_isSome _ _).1 ⟨vs, h⟩
    have hslow : ∀ a ∈ axes, SlowEnough entry a := by
      intro a ha
      obtain ⟨b, hb⟩ := hs a ha
      rw [pointVelocity_eq] at hb
      unfold SlowEnough
      by_cases hc : (|velocityAt entry a.2.2| - a.2.1.maxVelocity) / a.2.1.maxVelocity < 1 / 1000000
      · exact hc
      · rw [if_neg hc] at hb; cases hb
    refine ⟨hslow, ?_⟩
    rw [mapM_some_iff] at h
    have h2 : axes.map (fun a => some (a, velocityAt entry a.2.2)) = vs.map some := by
      rw [← h]
      refine List.map_congr_left (fun a ha => ?_)
      have := hslow a ha
      unfold SlowEnough at this
      rw [pointVelocity_eq, if_pos this]; rfl
    have h3 : (axes.map (fun a => (a, velocityAt entry a.2.2))).map some = vs.map some := by rw [List.map_map]; exact h2
    exact ((List.map_inj_right (fun _ _ h => Option.some.inj h)).1 h3).symm
  · rintro ⟨h, rfl⟩
    rw [mapM_some_iff, List.map_map]
    refine List.map_congr_left (fun a ha => ?_)
    have := h a ha
    unfold SlowEnough at this
    rw [pointVelocity_eq, if_pos this]; rfl

/-- The time in which an axis gets up to speed when it is on its own -/
def ownTime (a : Axis) : ℚ := max (1 / 500) (|velocityAt true a.2.2| / a.2.1.acceleration)

/-- Where it starts -/
def startAt (a : Axis) : ℚ := a.2.2.lower - velocityAt true a.2.2 * ownTime a / 2

/-- Where it comes to rest -/
def restAt (a : Axis) : ℚ := a.2.2.upper + velocityAt false a.2.2 * (|velocityAt false a.2.2| / a.2.1.acceleration) / 2

theorem if_max (s t : ℚ) : (if s > t then s else t) = max s t := by
  by_cases h : s > t
  · rw [if_pos h, max_eq_left (le_of_lt h)]
  · rw [if_neg h, max_eq_right (not_lt.1 h)]

theorem startOf_eq (a : Axis) : startOf (a, velocityAt true a.2.2) = if within a.2.1 (startAt a) then some (a.1, startAt a) else none := by
  have : a.2.2.lower - ramp a.2.1 0 (velocityAt true a.2.2) (some minTime) = startAt a := by
    unfold ramp startAt ownTime minTime rampDistance accelerationTime
    simp only [if_max, sub_zero, zero_add]
  unfold startOf
  simp only [this]

theorem stopOf_eq (a : Axis) : stopOf (a, velocityAt false a.2.2) = if within a.2.1 (restAt a) then some (a.1, restAt a) else none := by
  have : a.2.2.upper + ramp a.2.1 (velocityAt false a.2.2) 0 none = restAt a := by
    unfold ramp restAt rampDistance accelerationTime
    simp only [zero_sub, abs_neg, add_zero]
  unfold stopOf
  simp only [this]

/-- **C77.** The motors are moved to the start exactly if each of them is allowed to be where it starts and is fast enough, and then to
there. If one of them is not, none is moved. -/
theorem moved_iff (axes : List Axis) (ps : List (String × ℚ)) : moveToStart axes = some ps ↔
    (∀ a ∈ axes, SlowEnough true a ∧ Allowed a.2.1 (startAt a)) ∧ ps = axes.map (fun a => (a.1, startAt a)) := by
  unfold moveToStart
  constructor
  · intro h
    split at h
    · cases h
    · rename_i vs hvs
      obtain ⟨h1, rfl⟩ := (velocities_some _ _ _).1 hvs
      have hs := (mapM_isSome _ _).1 ⟨ps, h⟩
      have hall : ∀ a ∈ axes, Allowed a.2.1 (startAt a) := by
        intro a ha
        obtain ⟨b, hb⟩ := hs (a, velocityAt true a.2.2) (List.mem_map.2 ⟨a, ha, rfl⟩)
        rw [startOf_eq] at hb
        rw [← within_iff]
        by_cases hw : within a.2.1 (startAt a) = true
        · exact hw
        · rw [if_neg hw] at hb; cases hb
      refine ⟨fun a ha => ⟨h1 a ha, hall a ha⟩, ?_⟩
      rw [mapM_some_iff, List.map_map] at h
      have h3 : (axes.map (fun a => (a.1, startAt a))).map some = ps.map some := by
        rw [← h, List.map_map]
        refine List.map_congr_left (fun a ha => ?_)
        show _ = startOf (a, velocityAt true a.2.2)
        rw [startOf_eq, if_pos ((within_iff _ _).2 (hall a ha))]; rfl
      exact ((List.map_inj_right (fun _ _ h => Option.some.inj h)).1 h3).symm
  · rintro ⟨h, rfl⟩
    rw [(velocities_some true axes _).2 ⟨fun a ha => (h a ha).1, rfl⟩]
    simp only
    rw [mapM_some_iff, List.map_map, List.map_map]
    refine List.map_congr_left (fun a ha => ?_)
    show startOf (a, velocityAt true a.2.2) = _
    rw [startOf_eq, if_pos ((within_iff _ _).2 (h a ha).2)]; rfl

/-- The longest of the times the axes need, and of the least interval -/
def longestTime (entry : Bool) (interval : ℚ) (axes : List Axis) : ℚ :=
  axes.foldl (fun t a => max (|velocityAt entry a.2.2| / a.2.1.acceleration) t) interval

theorem longest_eq (entry : Bool) (interval : ℚ) (axes : List Axis) :
    longest interval (axes.map (fun a => (a, velocityAt entry a.2.2))) = longestTime entry interval axes := by
  unfold longest longestTime
  rw [List.foldl_map]
  congr 1
  funext t a
  simp only [if_max, accelerationTime, sub_zero]

theorem longestTime_ge (entry : Bool) : ∀ (axes : List Axis) (interval : ℚ), interval ≤ longestTime entry interval axes ∧
    (∀ a ∈ axes, |velocityAt entry a.2.2| / a.2.1.acceleration ≤ longestTime entry interval axes) ∧
    (longestTime entry interval axes = interval ∨ ∃ a ∈ axes, longestTime entry interval axes = |velocityAt entry a.2.2| / a.2.1.acceleration) := by
  intro axes
  induction axes with
  | nil => intro i; exact ⟨le_refl _, (by intro a h; cases h), .inl rfl⟩
  | cons b axes ih =>
    intro i
    obtain ⟨h1, h2, h3⟩ := ih (max (|velocityAt entry b.2.2| / b.2.1.acceleration) i)
    have e : longestTime entry i (b :: axes) = longestTime entry (max (|velocityAt entry b.2.2| / b.2.1.acceleration) i) axes := rfl
    rw [e]
    refine ⟨le_trans (le_max_right _ _) h1, ?_, ?_⟩
    · intro a ha
      rcases List.mem_cons.1 ha with rfl | ha
      · exact le_trans (le_max_left _ _) h1
      · exact h2 a ha
    · rcases h3 with h3 | ⟨a, ha, h3⟩
      · rcases max_choice (|velocityAt entry b.2.2| / b.2.1.acceleration) i with hm | hm
        · exact .inr ⟨b, List.mem_cons_self, by rw [h3]; exact hm⟩
        · left; rw [h3]; exact hm
      · exact .inr ⟨a, List.mem_cons_of_mem _ ha, h3⟩

theorem runUp_iff (interval : ℚ) (axes : List Axis) (r : ℚ × List (String × ℚ)) : runUp interval axes = some r ↔
    (∀ a ∈ axes, SlowEnough true a) ∧ r = (longestTime true interval axes, axes.map (fun a => (a.1, a.2.2.lower))) := by
  unfold runUp
  constructor
  · intro h
    split at h
    · cases h
    · rename_i vs hvs
      obtain ⟨h1, rfl⟩ := (velocities_some _ _ _).1 hvs
      cases h
      refine ⟨h1, ?_⟩
      rw [longest_eq, List.map_map]; rfl
  · rintro ⟨h, rfl⟩
    rw [(velocities_some true axes _).2 ⟨h, rfl⟩]
    simp only [longest_eq, List.map_map]; rfl

/-- **C77.** The tail-off is made exactly if each motor is allowed to be where it comes to rest and is fast enough. -/
theorem tail_off_iff (interval : ℚ) (axes : List Axis) (r : ℚ × List (String × ℚ)) : tailOff interval axes = some r ↔
    (∀ a ∈ axes, SlowEnough false a ∧ Allowed a.2.1 (restAt a)) ∧
      r = (longestTime false interval axes, axes.map (fun a => (a.1, restAt a))) := by
  unfold tailOff
  constructor
  · intro h
    split at h
    · cases h
    · rename_i vs hvs
      obtain ⟨h1, rfl⟩ := (velocities_some _ _ _).1 hvs
      obtain ⟨ps, hh, rfl⟩ := Option.map_eq_some_iff.1 h
      clear h
      have h := hh
      have hs := (mapM_isSome _ _).1 ⟨ps, h⟩
      have hall : ∀ a ∈ axes, Allowed a.2.1 (restAt a) := by
        intro a ha
        obtain ⟨b, hb⟩ := hs (a, velocityAt false a.2.2) (List.mem_map.2 ⟨a, ha, rfl⟩)
        rw [stopOf_eq] at hb
        rw [← within_iff]
        by_cases hw : within a.2.1 (restAt a) = true
        · exact hw
        · rw [if_neg hw] at hb; cases hb
      refine ⟨fun a ha => ⟨h1 a ha, hall a ha⟩, ?_⟩
      rw [mapM_some_iff, List.map_map] at h
      have h3 : (axes.map (fun a => (a.1, restAt a))).map some = ps.map some := by
        rw [← h, List.map_map]
        refine List.map_congr_left (fun a ha => ?_)
        show _ = stopOf (a, velocityAt false a.2.2)
        rw [stopOf_eq, if_pos ((within_iff _ _).2 (hall a ha))]; rfl
      rw [longest_eq, ((List.map_inj_right (fun _ _ h => Option.some.inj h)).1 h3)]
  · rintro ⟨h, rfl⟩
    rw [(velocities_some false axes _).2 ⟨fun a ha => (h a ha).1, rfl⟩]
    simp only [longest_eq]
    rw [Option.map_eq_some_iff]
    refine ⟨_, ?_, rfl⟩
    rw [mapM_some_iff, List.map_map, List.map_map]
    refine List.map_congr_left (fun a ha => ?_)
    show stopOf (a, velocityAt false a.2.2) = _
    rw [stopOf_eq, if_pos ((within_iff _ _).2 (h a ha).2)]; rfl

/-- **C77.** From where it starts a motor can get up to the speed of the first point by the time it is at the beginning of that point,
gaining speed at a rate it is able to. -/
theorem gets_up_to_speed (a : Axis) (ha : 0 < a.2.1.acceleration) :
    SpeedsUp (startAt a) (ownTime a) (velocityAt true a.2.2) a.2.2.lower ∧ Able a.2.1 (ownTime a) (velocityAt true a.2.2) := by
  have ht : 0 < ownTime a := lt_of_lt_of_le (by norm_num) (le_max_left _ _)
  refine ⟨⟨velocityAt true a.2.2 / ownTime a, ?_, ?_⟩, ?_⟩
  · rw [div_mul_cancel₀ _ (ne_of_gt ht)]
  · rw [div_mul_cancel₀ _ (ne_of_gt ht)]
    unfold startAt; ring
  · unfold Able
    have : |velocityAt true a.2.2| / a.2.1.acceleration ≤ ownTime a := le_max_right _ _
    rw [div_le_iff₀ ha] at this
    linarith

/-- **C77.** It comes to rest where the tail-off says, losing speed at a rate it is able to. -/
theorem comes_to_rest (a : Axis) (ha : 0 < a.2.1.acceleration) :
    SpeedsUp (restAt a) (|velocityAt false a.2.2| / a.2.1.acceleration) (-velocityAt false a.2.2) a.2.2.upper ∨ velocityAt false a.2.2 = 0 := by
  by_cases hv : velocityAt false a.2.2 = 0
  · exact .inr hv
  · left
    have ht : 0 < |velocityAt false a.2.2| / a.2.1.acceleration := div_pos (abs_pos.2 hv) ha
    refine ⟨-velocityAt false a.2.2 / (|velocityAt false a.2.2| / a.2.1.acceleration), ?_, ?_⟩
    · rw [div_mul_cancel₀ _ (ne_of_gt ht)]
    · rw [div_mul_cancel₀ _ (ne_of_gt ht)]
      unfold restAt; ring

/-- **C77** in part: an axis is at the speed of the first point when it gets there, if the run-up lasts as long as this axis needs.
What is missing: the run-up of all axes is as long as the longest of them needs, but each starts from where it needs for its own; see
`slower_at_the_start`. -/
theorem at_speed_partial (interval : ℚ) (axes : List Axis) (r : ℚ × List (String × ℚ)) (h : runUp interval axes = some r) (a : Axis)
    (hm : a ∈ axes) (ht : ownTime a = longestTime true interval axes) :
    (a.1, a.2.2.lower) ∈ r.2 ∧ realVelocity (startAt a) 0 a.2.2.lower r.1 = velocityAt true a.2.2 := by
  obtain ⟨-, rfl⟩ := (runUp_iff _ _ _).1 h
  have hp : 0 < ownTime a := lt_of_lt_of_le (by norm_num) (le_max_left _ _)
  refine ⟨List.mem_map.2 ⟨a, hm, rfl⟩, ?_⟩
  show 2 * (a.2.2.lower - startAt a) / longestTime true interval axes - 0 = _
  rw [← ht]
  unfold startAt
  have : 2 * (a.2.2.lower - (a.2.2.lower - velocityAt true a.2.2 * ownTime a / 2)) = velocityAt true a.2.2 * ownTime a := by ring
  rw [this, mul_div_assoc, div_self (ne_of_gt hp)]; ring

/-- The speed that an axis has, then, is its own multiplied by the part of the run-up that it needs. -/
theorem speed_at_start (interval : ℚ) (axes : List Axis) (a : Axis) (hp : 0 < longestTime true interval axes) :
    realVelocity (startAt a) 0 a.2.2.lower (longestTime true interval axes) =
      velocityAt true a.2.2 * (ownTime a / longestTime true interval axes) := by
  unfold realVelocity startAt
  field_simp
  ring

/-- **C77.** It is no faster than that, if the interval is at least that of `MIN_TIME`, and the motor is able to reach the speed it has. -/
theorem no_faster (interval : ℚ) (axes : List Axis) (a : Axis) (hm : a ∈ axes) (hi : 1 / 500 ≤ interval) (ha : 0 < a.2.1.acceleration) :
    |realVelocity (startAt a) 0 a.2.2.lower (longestTime true interval axes)| ≤ |velocityAt true a.2.2| ∧
    Able a.2.1 (longestTime true interval axes) (realVelocity (startAt a) 0 a.2.2.lower (longestTime true interval axes)) := by
  obtain ⟨h1, h2, -⟩ := longestTime_ge true axes interval
  have hp : 0 < longestTime true interval axes := by linarith [show (0 : ℚ) < 1 / 500 by norm_num]
  have ho : 0 < ownTime a := lt_of_lt_of_le (by norm_num) (le_max_left _ _)
  have hle : ownTime a ≤ longestTime true interval axes := max_le (le_trans hi h1) (h2 a hm)
  rw [speed_at_start interval axes a hp, abs_mul, abs_of_pos (div_pos ho hp)]
  have hr : ownTime a / longestTime true interval axes ≤ 1 := (div_le_one hp).2 hle
  have h3 : |velocityAt true a.2.2| * (ownTime a / longestTime true interval axes) ≤ |velocityAt true a.2.2| := by
    have := mul_le_mul_of_nonneg_left hr (abs_nonneg (velocityAt true a.2.2))
    rwa [mul_one] at this
  refine ⟨h3, ?_⟩
  unfold Able
  rw [abs_mul, abs_of_pos (div_pos ho hp)]
  have := h2 a hm
  rw [div_le_iff₀ ha] at this
  linarith

/-! ### the limits -/

theorem row_bounds : ∀ (ps : List AxisPoint) (p : AxisPoint), Row (p :: ps) → Upwards (p :: ps) →
    ∀ q ∈ p :: ps, p.lower ≤ q.lower ∧ q.upper ≤ ((p :: ps).getLast (by simp)).upper := by
  intro ps
  induction ps with
  | nil =>
    intro p _ _ q hq
    rw [List.mem_singleton] at hq
    subst hq
    exact ⟨le_refl _, le_refl _⟩
  | cons p2 ps ih =>
    intro p hr hu q hq
    have h1 := ih p2 hr.2 (fun x hx => hu x (List.mem_cons_of_mem _ hx))
    have hp := hu p List.mem_cons_self
    have hlast : (p :: p2 :: ps).getLast (by simp) = (p2 :: ps).getLast (by simp) := List.getLast_cons (by simp)
    rw [hlast]
    rcases List.mem_cons.1 hq with rfl | hq
    · refine ⟨le_refl _, ?_⟩
      have h2 := h1 p2 List.mem_cons_self
      have h3 := hu p2 (by simp)
      linarith [hr.1]
    · have h2 := h1 q hq
      exact ⟨by linarith [hr.1], h2.2⟩

theorem velocity_halfway (entry : Bool) (p : AxisPoint) (h : Halfway p) : velocityAt entry p = (p.upper - p.lower) / p.duration := by
  unfold Halfway at h
  unfold velocityAt
  rw [h]
  cases entry
  · simp only [Bool.false_eq_true, if_false]; ring
  · simp only [if_true]; ring

/-- **C77** in part: a motor that moves along one row, in one direction, is always where it is allowed to be if it starts at all, and
if the tail-off is made. What is missing: between the first and the last point nothing is checked, see `middle_not_checked`. (The
direction that is up stands for both.) -/
theorem row_allowed_partial (interval : ℚ) (first last : List Axis) (ms : List (String × ℚ)) (r : ℚ × List (String × ℚ))
    (hs : moveToStart first = some ms) (ht : tailOff interval last = some r) (name : String) (m : Limited) (ha : 0 < m.acceleration)
    (ps : List AxisPoint) (hne : ps ≠ []) (hf : (name, m, ps.head hne) ∈ first) (hl : (name, m, ps.getLast hne) ∈ last)
    (hr : Row ps) (hu : Upwards ps) (hd : ∀ p ∈ ps, 0 < p.duration) (h1 : Halfway (ps.head hne)) (h2 : Halfway (ps.getLast hne)) :
    Allowed m (startAt (name, m, ps.head hne)) ∧ Allowed m (restAt (name, m, ps.getLast hne)) ∧
      ∀ p ∈ ps, Allowed m p.lower ∧ Allowed m p.position ∧ Allowed m p.upper := by
  have hA := (((moved_iff _ _).1 hs).1 _ hf).2
  have hB := (((tail_off_iff _ _ _).1 ht).1 _ hl).2
  refine ⟨hA, hB, ?_⟩
  intro p hp
  obtain ⟨p0, rest, rfl⟩ : ∃ p0 rest, ps = p0 :: rest := by
    cases ps with
    | nil => exact absurd rfl hne
    | cons p0 rest => exact ⟨p0, rest, rfl⟩
  have hb := row_bounds rest p0 hr hu p hp
  have hup := hu p hp
  have hstart : startAt (name, m, p0) ≤ p0.lower := by
    unfold startAt ownTime
    simp only
    have hv : 0 ≤ velocityAt true p0 := by
      rw [velocity_halfway _ p0 h1]
      have := hu p0 List.mem_cons_self
      exact div_nonneg (by linarith) (le_of_lt (hd _ List.mem_cons_self))
    have : (0 : ℚ) ≤ max (1 / 500) (|velocityAt true p0| / m.acceleration) := le_trans (by norm_num) (le_max_left _ _)
    have := mul_nonneg hv this
    linarith
  have hrest : ((p0 :: rest).getLast hne).upper ≤ restAt (name, m, (p0 :: rest).getLast hne) := by
    unfold restAt
    simp only
    have hm := List.getLast_mem hne
    have hv : 0 ≤ velocityAt false ((p0 :: rest).getLast hne) := by
      rw [velocity_halfway _ _ h2]
      have := hu _ hm
      exact div_nonneg (by linarith) (le_of_lt (hd _ hm))
    have := mul_nonneg hv (div_nonneg (abs_nonneg (velocityAt false ((p0 :: rest).getLast hne))) (le_of_lt ha))
    linarith
  have key : ∀ x, p.lower ≤ x → x ≤ p.upper → Allowed m x := by
    intro x hx1 hx2
    rcases hA with hA | hA
    · exact .inl hA
    · rcases hB with hB | hB
      · exact .inl hB
      · simp only [List.head_cons] at hA
        exact .inr ⟨by linarith [hA.1, hb.1], by linarith [hB.2, hb.2]⟩
  exact ⟨key _ (le_refl _) (by linarith), key _ hup.1 hup.2, key _ (by linarith) (le_refl _)⟩

/-! ### cases -/

def motorA : Limited := { acceleration := 10, maxVelocity := 2, userHigh := 10, userLow := 0, dialHigh := 10, dialLow := 0 }
/-- one that takes longer -/
def motorB : Limited := { motorA with acceleration := 1 }

def pt (lower upper : ℚ) : AxisPoint := { lower := lower, position := (lower + upper) / 2, upper := upper, duration := 1 }

/-- a case of `moved_iff`, `row_allowed_partial` and `at_speed_partial` -/
example : moveToStart [("x", motorA, pt 1 2)] = some [("x", 19 / 20)] ∧ runUp minTime [("x", motorA, pt 1 2)] = some (1 / 10, [("x", 1)]) ∧
    (tailOff minTime [("x", motorA, pt 4 5)]) = some (1 / 10, [("x", 101 / 20)]) ∧ moveToStart [("x", motorA, pt 0 1)] = none ∧
    tailOff minTime [("x", motorA, pt 9 10)] = none := by
  decide +kernel

example : ownTime ("x", motorA, pt 1 2) = longestTime true minTime [("x", motorA, pt 1 2)] := by decide +kernel

/-- Two axes, of which the second needs 1 s to get up to speed and the first 1/10 s: the first comes to the first point with a tenth
of its speed. -/
theorem slower_at_the_start :
    let axes : List Axis := [("x", motorA, pt 1 2), ("y", motorB, pt 1 2)]
    (∃ ps, moveToStart axes = some ps ∧ ("x", 19 / 20) ∈ ps) ∧ (∃ r, runUp minTime axes = some r ∧ r.1 = 1 ∧ ("x", 1) ∈ r.2) ∧
      velocityAt true (pt 1 2) = 1 ∧ realVelocity (19 / 20) 0 1 1 = 1 / 10 := by
  refine ⟨⟨[("x", 19 / 20), ("y", 1 / 2)], by decide +kernel, by decide +kernel⟩, ⟨(1, [("x", 1), ("y", 1)]), by decide +kernel, by decide +kernel⟩,
    by decide +kernel, by decide +kernel⟩

/-- A scan of three points whose second is far outside of the limits: it is moved to its start, and it has a tail-off. -/
theorem middle_not_checked :
    let ps : List AxisPoint := [pt 1 2, pt 50 51, pt 3 4]
    (∃ ms, configure minTime [("x", motorA, pt 1 2)] [("x", motorA, pt 3 4)] true = (some ms, true)) ∧
      ∃ p ∈ ps, ¬ Allowed motorA p.position := by
  refine ⟨⟨[("x", 19 / 20)], by decide +kernel⟩, pt 50 51, by simp, ?_⟩
  unfold Allowed motorA pt
  norm_num

/-- A scan that is too long for one write is configured, and then run, although its tail-off will be refused. -/
theorem tail_off_checked_late :
    tailOff minTime [("x", motorA, pt 9 10)] = none ∧
    ∃ ms, configure minTime [("x", motorA, pt 1 2)] [("x", motorA, pt 9 10)] false = (some ms, true) ∧
      configure minTime [("x", motorA, pt 1 2)] [("x", motorA, pt 9 10)] true = (some ms, false) := by
  refine ⟨by decide +kernel, [("x", 19 / 20)], by decide +kernel, by decide +kernel⟩

/-- What configure does with the motors: it succeeds exactly if the motors can be moved to the start, the run-up can be made and the tail-off, if it is in the first write,
and the motors are asked to move exactly if the start is allowed. -/
theorem configure_outcome (interval : ℚ) (first last : List Axis) (fits : Bool) :
    ((configure interval first last fits).2 = true ↔ (moveToStart first).isSome ∧ (runUp interval first).isSome ∧
      (fits = true → (tailOff interval last).isSome)) ∧
    (configure interval first last fits).1 = moveToStart first := by
  unfold configure
  cases moveToStart first with
  | none => simp
  | some m =>
    cases runUp interval first with
    | none => simp
    | some r => cases fits <;> simp

/-! ### C78: the servo cycle -/

/-- What is taken off -/
def slack (f : ℚ) : ℚ := if is3200 f then 0 else 2 / 1000

theorem slack_bounds (f : ℚ) : 0 ≤ slack f ∧ slack f ≤ 2 / 1000 := by
  unfold slack; split <;> norm_num

/-- half of the aligned duration: the whole microseconds, rounded down, of a number of servo ticks, but for the slack -/
theorem aligned_half (f d : ℚ) : aligned f d / 2 = ((((f * (1 / 2) * d).ceil : ℚ) - slack f) / f * 1000000).floor / 1000000 := by
  unfold aligned slack
  simp only
  by_cases h : is3200 f = true
  · simp only [h, if_true, sub_zero]; ring
  · simp only [h]; simp only [Bool.false_eq_true, if_false]; ring

theorem aligned_bounds {f d : ℚ} (hf : 0 < f) : let k : ℚ := (f * (1 / 2) * d).ceil
    f * (aligned f d / 2) ≤ k - slack f ∧ k - slack f - f / 1000000 < f * (aligned f d / 2) := by
  intro k
  rw [aligned_half]
  have h1 := Rat.floor_le ((k - slack f) / f * 1000000)
  have h2 := Rat.lt_floor (x := (k - slack f) / f * 1000000)
  have e : f * ((k - slack f) / f * 1000000) = (k - slack f) * 1000000 := by field_simp
  constructor
  · have := mul_le_mul_of_nonneg_left h1 (le_of_lt hf)
    rw [e] at this
    show f * ((((k - slack f) / f * 1000000).floor : ℚ) / 1000000) ≤ _
    have e2 : f * ((((k - slack f) / f * 1000000).floor : ℚ) / 1000000) = f * (((k - slack f) / f * 1000000).floor : ℚ) / 1000000 := by ring
    rw [e2, div_le_iff₀ (by norm_num)]
    exact this
  · have := mul_lt_mul_of_pos_left h2 hf
    rw [mul_sub, e] at this
    show _ < f * ((((k - slack f) / f * 1000000).floor : ℚ) / 1000000)
    have e2 : f * ((((k - slack f) / f * 1000000).floor : ℚ) / 1000000) = f * (((k - slack f) / f * 1000000).floor : ℚ) / 1000000 := by ring
    rw [e2, lt_div_iff₀ (by norm_num)]
    linarith

/-- **C78.** With the aligned duration, the half of a point is a whole number of microseconds, and it is just under a whole number of
servo ticks: by no more than the slack and a microsecond. -/
theorem aligned_to_ticks (f d : ℚ) (hf : 0 < f) :
    (∃ n : ℤ, aligned f d / 2 = n / 1000000) ∧
      ∃ k : ℤ, f * (aligned f d / 2) ≤ k ∧ (k : ℚ) - 2 / 1000 - f / 1000000 < f * (aligned f d / 2) := by
  obtain ⟨h1, h2⟩ := aligned_bounds (d := d) hf
  obtain ⟨s1, s2⟩ := slack_bounds f
  exact ⟨⟨_, aligned_half f d⟩, (f * (1 / 2) * d).ceil, by linarith, by linarith⟩

/-- **C78.** It is the duration that was asked for, but for two servo ticks more, or for two microseconds and four thousandths of a tick
less. -/
theorem aligned_close (f d : ℚ) (hf : 0 < f) : d - 4 / 1000 / f - 2 / 1000000 < aligned f d ∧ aligned f d < d + 2 / f := by
  obtain ⟨h1, h2⟩ := aligned_bounds (d := d) hf
  obtain ⟨s1, s2⟩ := slack_bounds f
  have c1 := Rat.le_ceil (x := f * (1 / 2) * d)
  have c2 := Rat.ceil_lt (x := f * (1 / 2) * d)
  constructor
  · have h3 : f * (d - 4 / 1000 / f - 2 / 1000000) < f * aligned f d := by
      have : f * (d - 4 / 1000 / f - 2 / 1000000) = f * d - 4 / 1000 - f * 2 / 1000000 := by field_simp
      rw [this]
      linarith
    exact lt_of_mul_lt_mul_left h3 (le_of_lt hf)
  · have h3 : f * aligned f d < f * (d + 2 / f) := by
      have : f * (d + 2 / f) = f * d + 2 := by field_simp
      rw [this]
      linarith
    exact lt_of_mul_lt_mul_left h3 (le_of_lt hf)

/-- **C78.** A duration that has been aligned is not changed again. -/
theorem aligned_again (f d : ℚ) (hf : 0 < f) (hmax : f ≤ 998000) : aligned f (aligned f d) = aligned f d := by
  obtain ⟨h1, h2⟩ := aligned_bounds (d := d) hf
  obtain ⟨s1, s2⟩ := slack_bounds f
  have key : (f * (1 / 2) * aligned f d).ceil = (f * (1 / 2) * d).ceil := by
    have e : f * (1 / 2) * aligned f d = f * (aligned f d / 2) := by ring
    rw [e]
    apply le_antisymm
    · rw [Rat.ceil_le_iff]; linarith
    · have : (f * (1 / 2) * d).ceil - 1 < (f * (aligned f d / 2)).ceil := by
        rw [Rat.lt_ceil_iff]
        push_cast
        have : f / 1000000 ≤ 998 / 1000 := by rw [div_le_iff₀ (by norm_num)]; linarith
        linarith
      omega
  have : aligned f (aligned f d) / 2 = aligned f d / 2 := by rw [aligned_half, aligned_half, key]
  linarith

theorem aligned_pos (f d : ℚ) (hf : 0 < f) (hmax : f ≤ 998000) (hd : 0 < d) : 0 < aligned f d := by
  obtain ⟨s1, s2⟩ := slack_bounds f
  have hk : 1 ≤ (f * (1 / 2) * d).ceil := by
    have : (0 : ℤ) < (f * (1 / 2) * d).ceil := by
      rw [Rat.lt_ceil_iff]; push_cast; positivity
    omega
  have hk' : (1 : ℚ) ≤ ((f * (1 / 2) * d).ceil : ℚ) := by exact_mod_cast hk
  have hfl : (1 : ℤ) ≤ ((((f * (1 / 2) * d).ceil : ℚ) - slack f) / f * 1000000).floor := by
    rw [Rat.le_floor_iff]
    rw [div_mul_eq_mul_div, le_div_iff₀ hf]
    push_cast
    linarith
  have h := aligned_half f d
  have : (1 : ℚ) ≤ (((((f * (1 / 2) * d).ceil : ℚ) - slack f) / f * 1000000).floor : ℚ) := by exact_mod_cast hfl
  have h3 : 0 < aligned f d / 2 := by
    rw [h]; apply div_pos _ (by norm_num); linarith
  linarith

/-- What `onValidate` asks for, or is content with -/
theorem onValidate_eq (d : ℚ) (guess : Option ℚ) (every : Bool) (f : ℚ) (r : Option ℚ) (h : onValidate d guess every f = .ok r) (hd : d ≠ 0) :
    0 < d ∧ r.getD d = if every then aligned f d else d := by
  unfold onValidate at h
  by_cases hneg : d < 0
  · rw [if_pos hneg] at h; cases h
  · rw [if_neg hneg] at h
    simp only at h
    rw [if_neg hd] at h
    simp only [Except.ok.injEq] at h
    refine ⟨lt_of_le_of_ne (not_lt.1 hneg) (Ne.symm hd), ?_⟩
    by_cases hne : (if every = true then aligned f d else d) ≠ d
    · rw [if_pos hne] at h; rw [← h]; rfl
    · rw [if_neg hne] at h; rw [← h]; exact (not_not.1 hne).symm

/-- **C78.** When each point is triggered, the duration that comes out of validation, whether changed or not, makes the half of a point a
whole number of microseconds, just under a whole number of servo ticks, and it is close to what was asked for. When points are not
triggered, the duration is left as it is. -/
theorem validated_duration (d : ℚ) (guess : Option ℚ) (every : Bool) (f : ℚ) (hf : 0 < f) (r : Option ℚ)
    (h : onValidate d guess every f = .ok r) (hd : d ≠ 0) :
    (every = false → r.getD d = d) ∧
    (every = true → (∃ n : ℤ, r.getD d / 2 = n / 1000000) ∧
      (∃ k : ℤ, f * (r.getD d / 2) ≤ k ∧ (k : ℚ) - 2 / 1000 - f / 1000000 < f * (r.getD d / 2)) ∧
      d - 4 / 1000 / f - 2 / 1000000 < r.getD d ∧ r.getD d < d + 2 / f) := by
  obtain ⟨-, e⟩ := onValidate_eq d guess every f r h hd
  constructor
  · intro h0; rw [e, h0]; rfl
  · intro h1
    rw [e, h1]
    simp only [if_true]
    exact ⟨(aligned_to_ticks f d hf).1, (aligned_to_ticks f d hf).2, aligned_close f d hf⟩

/-- **C78.** Without a duration, what is asked for is what the motors need, aligned in the same way; nothing is asked for if that is not
known. -/
theorem guessed_duration (guess : Option ℚ) (every : Bool) (f : ℚ) :
    onValidate 0 guess every f = .ok (match guess with
      | none => none
      | some g => if g = 0 then none else
        let d := if every then aligned f g else g
        if d = 0 then none else some d) := by
  unfold onValidate
  rw [if_neg (by norm_num)]
  simp only [if_true]
  cases guess with
  | none => rfl
  | some g =>
    by_cases hg : g = 0
    · simp only [hg, if_true]
    · simp only [if_neg hg]
      by_cases hz : (if every = true then aligned f g else g) = 0
      · rw [if_pos hz, if_neg (not_not.2 hz)]
      · rw [if_neg hz, if_pos hz]

/-- **C78.** Whatever duration is asked for, the part is content with what it asked for instead. -/
theorem content_with_tweak (d : ℚ) (guess guess' : Option ℚ) (every : Bool) (f : ℚ) (hf : 0 < f) (hmax : f ≤ 998000) (hg : ∀ g, guess = some g → 0 ≤ g)
    (d' : ℚ) (h : onValidate d guess every f = .ok (some d')) : 0 < d' ∧ onValidate d' guess' every f = .ok none := by
  unfold onValidate at h
  by_cases hneg : d < 0
  · rw [if_pos hneg] at h; cases h
  · rw [if_neg hneg] at h
    simp only at h
    have main : ∀ x : ℚ, 0 < x → (if every = true then aligned f x else x) = d' → 0 < d' ∧ onValidate d' guess' every f = .ok none := by
      intro x hx hd'
      have hpos : 0 < d' := by
        rw [← hd']
        cases every
        · exact hx
        · exact aligned_pos f x hf hmax hx
      refine ⟨hpos, ?_⟩
      unfold onValidate
      rw [if_neg (not_lt.2 (le_of_lt hpos))]
      simp only
      rw [if_neg (ne_of_gt hpos)]
      have : (if every = true then aligned f d' else d') = d' := by
        cases every
        · rfl
        · rw [← hd']; simp only [if_true]; exact aligned_again f x hf hmax
      simp only [this]
      simp
    by_cases hz : d = 0
    · rw [if_pos hz] at h
      cases guess with
      | none => cases h
      | some g =>
        simp only at h
        by_cases hg0 : g = 0
        · rw [if_pos hg0] at h; cases h
        · rw [if_neg hg0] at h
          simp only [Except.ok.injEq] at h
          have hgp : 0 < g := lt_of_le_of_ne (hg g rfl) (Ne.symm hg0)
          by_cases hne : (if every = true then aligned f g else g) ≠ d
          · rw [if_pos hne] at h; exact main g hgp (Option.some.inj h)
          · rw [if_neg hne] at h; cases h
    · rw [if_neg hz] at h
      simp only [Except.ok.injEq] at h
      have hdp : 0 < d := lt_of_le_of_ne (not_lt.1 hneg) (Ne.symm hz)
      by_cases hne : (if every = true then aligned f d else d) ≠ d
      · rw [if_pos hne] at h; exact main d hdp (Option.some.inj h)
      · rw [if_neg hne] at h; cases h

example : onValidate (1 / 10) none true 5000 = .ok (some (99998 / 1000000)) ∧ onValidate 0 (some (3 / 2)) false 5000 = .ok (some (3 / 2)) := by
  decide +kernel

/-- 399 microseconds are aligned to 398. -/
theorem aligned_shorter : aligned 5000 (399 / 1000000) = 398 / 1000000 := by decide +kernel

/-! What the detector and the motors make of a scan without a duration -/

/-- a time in units of 10⁻¹⁸ s -/
def secs (n : Int) : ℚ := n / 1000000000000000000
def units (q : ℚ) : Int := (q * 1000000000000000000).floor

/-- A detector with this exposure and this readout time, and the motion controller at 5 kHz which guesses 1/10000 s -/
def twoParts (readout exposure : ℚ) : Validate.Env String Int where
  ask := fun _ ps =>
    let d := secs ((Dict.get? ps "generator").getD 0)
    match Exposure.partValidate { readout := readout, accuracy := 0, minExposure := 0 } { size := 1, duration := d } exposure 1,
        onValidate d (some (1 / 10000)) true 5000 with
    | some t, .ok u =>
      .ok ((match t with
        | some (.generator g) => [⟨"generator", units g.duration⟩]
        | _ => []) ++ (match u with
        | some d' => [⟨"generator", units d'⟩]
        | none => []))
    | _, _ => .error .partRaised
  deserialize := fun _ v => some v
  generator := "generator"
  duration := id
  withDuration := fun _ d => d

/-- A scan without a duration, with an exposure of 299 microseconds and a readout time of 100: the detector asks for just over 399
microseconds, the motors align that to 398, and then the detector refuses. With an exposure of 300 microseconds the scan is
accepted. -/
theorem settling_refused :
    (match (Validate.validate (twoParts (100 / 1000000) (299 / 1000000)) [("generator", 0)] []).1 with
      | .error .partRaised => true
      | _ => false) = true ∧
    (match (Validate.validate (twoParts (100 / 1000000) (300 / 1000000)) [("generator", 0)] []).1 with
      | .ok ps => Dict.get? ps "generator"
      | _ => none) = some 798000000000000 := by
  decide +kernel

end Verif.Props.RunUp
