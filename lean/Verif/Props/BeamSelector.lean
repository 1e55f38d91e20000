import Verif.Spec.BeamSelector
import Mathlib.Tactic.Linarith
import Mathlib.Tactic.Ring
import Mathlib.Tactic.NormNum
/-!
C83: the beam selector.
-/
namespace Verif.Props.BeamSelector
open Verif Verif.BeamSelector Verif.Spec.BeamSelector

/-! ### the detectors -/

theorem check_none (r : Row) : check r = none ↔ r = ⟨true, r.name, r.exposure, 1⟩ ∧ 0 < r.exposure := by
  obtain ⟨en, nm, ex, fr⟩ := r
  unfold check
  simp only [Row.mk.injEq, true_and]
  by_cases h1 : fr = 1
  · by_cases h2 : en = true
    · by_cases h3 : ex ≤ 0
      · simp [h1, h2, h3]
      · simp [h1, h2, h3]; exact not_le.1 h3
    · simp [h1, h2]
  · simp [h1]

theorem takes_ne {r : Row} {rows : List Row} {n : String} {x : ℚ} (h : r.name ≠ n) : Takes (r :: rows) n x ↔ Takes rows n x := by
  unfold Takes
  rw [List.mem_cons]
  constructor
  · rintro ⟨h1 | h1, h2⟩
    · exact absurd (by rw [← h1]) h
    · exact ⟨h1, h2⟩
  · rintro ⟨h1, h2⟩; exact ⟨.inr h1, h2⟩

theorem takes_none {rows : List Row} {n : String} {x : ℚ} (h : n ∉ rows.map (·.name)) : ¬ Takes rows n x :=
  fun ht => h (List.mem_map.2 ⟨_, ht.1, rfl⟩)

theorem takes_eq {r : Row} {rows : List Row} {x : ℚ} (h : r.name ∉ rows.map (·.name)) :
    Takes (r :: rows) r.name x ↔ check r = none ∧ x = r.exposure := by
  rw [check_none]
  constructor
  · rintro ⟨h1, h2⟩
    rcases List.mem_cons.1 h1 with h1 | h1
    · have hx : x = r.exposure := by rw [← h1]
      subst hx
      exact ⟨⟨h1.symm, h2⟩, rfl⟩
    · exact absurd (List.mem_map.2 ⟨_, h1, rfl⟩) h
  · rintro ⟨⟨h1, h2⟩, rfl⟩
    exact ⟨by rw [← h1]; exact List.mem_cons_self, h2⟩

/-- What the loop finds, if no detector is twice in the table -/
theorem loop_ok (s : Selector) (hne : s.diffractionDetector ≠ s.imagingDetector) (rows : List Row) :
    ∀ (d i : Option ℚ) (d' i' : ℚ), (rows.map (·.name)).Nodup →
    (d.isSome → s.diffractionDetector ∉ rows.map (·.name)) → (i.isSome → s.imagingDetector ∉ rows.map (·.name)) → ¬ (d.isSome ∧ i.isSome) →
    (loop s rows d i = .ok (some d', some i') ↔
      (d = some d' ∨ (d = none ∧ Takes rows s.diffractionDetector d')) ∧ (i = some i' ∨ (i = none ∧ Takes rows s.imagingDetector i'))) := by
  induction rows with
  | nil =>
    intro d i d' i' _ _ _ hn
    unfold loop Takes
    simp only [Except.ok.injEq, Prod.mk.injEq, List.not_mem_nil, false_and, and_false, or_false]
  | cons r rows ih =>
    intro d i d' i' hnd hd hi hn
    rw [List.map_cons, List.nodup_cons] at hnd
    have hd' : d.isSome → s.diffractionDetector ∉ rows.map (·.name) := fun h hm => hd h (List.mem_cons_of_mem _ hm)
    have hi' : i.isSome → s.imagingDetector ∉ rows.map (·.name) := fun h hm => hi h (List.mem_cons_of_mem _ hm)
    unfold loop
    by_cases h1 : r.name = s.diffractionDetector
    · have hdn : d = none := by
        cases d with
        | none => rfl
        | some x => exact absurd (by rw [← h1]; exact List.mem_cons_self) (hd rfl)
      subst hdn
      have hx : s.imagingDetector ≠ r.name := by rw [h1]; exact fun e => hne e.symm
      rw [takes_ne (n := s.imagingDetector) (Ne.symm hx), ← h1, takes_eq hnd.1]
      simp only [if_true]
      cases hc : check r with
      | some e => simp
      | none =>
        dsimp only
        split
        · rename_i hb
          cases i with
          | none => simp at hb
          | some x =>
            simp only [Except.ok.injEq, Prod.mk.injEq, Option.some.injEq, reduceCtorEq, false_or, true_and, false_and, or_false]
            constructor
            · rintro ⟨h, h'⟩; exact ⟨h.symm, h'⟩
            · rintro ⟨h, h'⟩; exact ⟨h.symm, h'⟩
        · rename_i hb
          rw [ih (some r.exposure) i d' i' hnd.2 (fun _ => by rw [← h1]; exact hnd.1) hi' hb]
          simp only [Option.some.injEq, reduceCtorEq, false_and, or_false, false_or, true_and]
          constructor
          · rintro ⟨h, h'⟩; exact ⟨h.symm, h'⟩
          · rintro ⟨h, h'⟩; exact ⟨h.symm, h'⟩
    · rw [takes_ne (n := s.diffractionDetector) h1]
      simp only [if_neg h1]
      by_cases h2 : r.name = s.imagingDetector
      · have hin : i = none := by
          cases i with
          | none => rfl
          | some x => exact absurd (by rw [← h2]; exact List.mem_cons_self) (hi rfl)
        subst hin
        rw [← h2, takes_eq hnd.1]
        simp only [if_true]
        cases hc : check r with
        | some e => simp
        | none =>
          dsimp only
          split
          · rename_i hb
            cases d with
            | none => simp at hb
            | some x =>
              simp only [Except.ok.injEq, Prod.mk.injEq, Option.some.injEq, reduceCtorEq, false_or, true_and, false_and, or_false]
              constructor
              · rintro ⟨h, h'⟩; exact ⟨h, h'.symm⟩
              · rintro ⟨h, h'⟩; exact ⟨h, h'.symm⟩
          · rename_i hb
            rw [ih d (some r.exposure) d' i' hnd.2 hd' (fun _ => by rw [← h2]; exact hnd.1) hb]
            simp only [Option.some.injEq, reduceCtorEq, false_and, or_false, false_or, true_and]
            constructor
            · rintro ⟨h, h'⟩; exact ⟨h, h'.symm⟩
            · rintro ⟨h, h'⟩; exact ⟨h, h'.symm⟩
      · rw [takes_ne (n := s.imagingDetector) h2]
        simp only [if_neg h2, if_neg hn]
        exact ih d i d' i' hnd.2 hd' hi' hn

/-- The exposures are found exactly if both detectors are in the table, each enabled for one frame with an exposure. -/
theorem exposures_iff (s : Selector) (hne : s.diffractionDetector ≠ s.imagingDetector) (rows : List Row) (hnd : (rows.map (·.name)).Nodup)
    (d i : ℚ) : exposures s rows = .ok (d, i) ↔ Takes rows s.diffractionDetector d ∧ Takes rows s.imagingDetector i := by
  have h := loop_ok s hne rows none none d i hnd (fun h => by cases h) (fun h => by cases h) (by simp)
  simp only [reduceCtorEq, true_and, false_or] at h
  rw [← h]
  unfold exposures
  split
  · rename_i hr
    subst hr
    simp [loop]
  · split <;> simp_all

/-- The same detector cannot be at both positions -/
theorem same_refused (s : Selector) (h : s.diffractionDetector = s.imagingDetector) (rows : List Row) (r : ℚ × ℚ) : exposures s rows ≠ .ok r := by
  have key : ∀ (rows : List Row) (d : Option ℚ), ∃ x, loop s rows d none = .ok (x, none) ∨ ∃ e, loop s rows d none = .error e := by
    intro rows
    induction rows with
    | nil => intro d; exact ⟨d, .inl rfl⟩
    | cons r rows ih =>
      intro d
      unfold loop
      by_cases h1 : r.name = s.diffractionDetector
      · simp only [if_pos h1]
        cases check r with
        | some e => exact ⟨none, .inr ⟨e, rfl⟩⟩
        | none => simpa using ih (some r.exposure)
      · simp only [if_neg h1, if_neg (h ▸ h1)]
        simpa using ih d
  unfold exposures
  split
  · intro h; cases h
  · obtain ⟨x, hx | ⟨e, he⟩⟩ := key rows none
    · rw [hx]; cases x <;> (intro h; cases h)
    · rw [he]; intro h; cases h

/-! ### the times -/

theorem times_ok (s : Selector) (gaps : List ℚ) (rows : List Row) (a b : ℚ) (h : times s gaps rows = .ok (a, b)) :
    ∃ d i m, exposures s rows = .ok (d, i) ∧ minTurnaround gaps = .ok m ∧ a = max m d ∧ b = max m i := by
  unfold times at h
  split at h
  · cases h
  · rename_i d i hx
    split at h
    · cases h
    · rename_i m hm
      cases h
      exact ⟨d, i, m, hx, hm, rfl, rfl⟩

theorem turnaround_ok (gaps : List ℚ) (m : ℚ) (h : minTurnaround gaps = .ok m) : 1 / 500 ≤ m ∧ ∀ g ∈ gaps, g ≤ m := by
  unfold minTurnaround at h
  split at h
  · cases h; exact ⟨le_refl _, by simp⟩
  · cases h
    refine ⟨le_max_left _ _, fun g hg => ?_⟩
    rw [List.mem_singleton.1 hg]; exact le_max_right _ _
  · cases h

/-- Validation settles after one change, and then a scan can be configured with it -/
theorem validate_settles (s : Selector) (gaps : List ℚ) (rows : List Row) (duration new : ℚ) (completed steps : Nat)
    (h : validate s gaps rows duration = .ok (some new)) :
    validate s gaps rows new = .ok none ∧ ∃ l, configure s gaps rows new completed steps = .ok l := by
  unfold validate at h ⊢
  unfold configure
  cases ht : times s gaps rows with
  | error e => rw [ht] at h; cases h
  | ok x =>
    obtain ⟨a, b⟩ := x
    rw [ht] at h
    simp only at h ⊢
    split at h
    · cases h
      simp
    · cases h

/-- What needs no change can be configured, and what can be configured needs none -/
theorem configure_iff (s : Selector) (gaps : List ℚ) (rows : List Row) (duration : ℚ) (completed steps : Nat) :
    validate s gaps rows duration = .ok none ↔ ∃ l, configure s gaps rows duration completed steps = .ok l := by
  unfold validate configure
  cases ht : times s gaps rows with
  | error e => simp
  | ok x =>
    obtain ⟨a, b⟩ := x
    simp only
    split <;> simp

/-! ### the cycles -/

theorem points_cycles (s : Selector) (a b : ℚ) (n : Nat) : ∀ k, (List.range' (2 * k) (n * 2)).map (point s a b) =
    (List.replicate n [point s a b 0, point s a b 1]).flatten := by
  induction n with
  | zero => intro k; rfl
  | succ n ih =>
    intro k
    rw [show (n + 1) * 2 = n * 2 + 1 + 1 by omega, List.range'_succ, List.range'_succ, show 2 * k + 1 + 1 = 2 * (k + 1) by omega, List.map_cons,
      List.map_cons, ih (k + 1), List.replicate_succ, List.flatten_cons]
    have h0 : point s a b (2 * k) = point s a b 0 := by unfold point; simp
    have h1 : point s a b (2 * k + 1) = point s a b 1 := by unfold point; rw [if_neg (by omega), if_neg (by omega)]
    rw [h0, h1]
    rfl

/-- A scan that could be configured, from its beginning or from an even number of completed steps, consists of the cycles that are left:
in each the selector moves to the diffraction position and stays there for at least the exposure of that detector, moves back and stays for
at least the exposure of the other; each move takes the time of a move, and the cycle takes as long as a point of the scan.

What is missing: an odd number of completed steps, see `resumed_wrong`. -/
theorem cycles_partial (s : Selector) (gaps : List ℚ) (rows : List Row) (duration : ℚ) (k steps : Nat) (l : List Half)
    (hne : s.diffractionDetector ≠ s.imagingDetector) (hnd : (rows.map (·.name)).Nodup)
    (h : configure s gaps rows duration (2 * k) steps = .ok l) :
    ∃ d i, Takes rows s.diffractionDetector d ∧ Takes rows s.imagingDetector i ∧ Cycles s gaps d i duration steps l := by
  unfold configure at h
  cases ht : times s gaps rows with
  | error e => rw [ht] at h; cases h
  | ok x =>
    obtain ⟨a, b⟩ := x
    rw [ht] at h
    simp only at h
    split at h
    · cases h
    · rename_i hc
      have hc : duration = cycle s a b := not_not.1 hc
      cases h
      obtain ⟨d, i, m, h1, hm, ha, hb⟩ := times_ok s gaps rows a b ht
      obtain ⟨hd, hi⟩ := (exposures_iff s hne rows hnd d i).1 h1
      refine ⟨d, i, hd, hi, List.replicate steps [point s a b 0, point s a b 1], List.length_replicate, points_cycles s a b steps k, ?_⟩
      intro c hcm
      obtain ⟨-, rfl⟩ := List.mem_replicate.1 hcm
      obtain ⟨hm1, hm2⟩ := turnaround_ok gaps m hm
      refine ⟨rfl, ?_, ⟨a, b, rfl, ?_, ?_⟩, ?_, ?_⟩
      · intro x hx
        simp only [List.mem_cons, List.not_mem_nil, or_false] at hx
        rcases hx with rfl | rfl <;> rfl
      · rw [ha]; exact le_max_right _ _
      · rw [hb]; exact le_max_right _ _
      · intro x hx
        simp only [List.mem_cons, List.not_mem_nil, or_false] at hx
        rcases hx with rfl | rfl
        · show 1 / 500 ≤ a ∧ ∀ g ∈ gaps, g ≤ a
          rw [ha]
          exact ⟨le_trans hm1 (le_max_left _ _), fun g hg => le_trans (hm2 g hg) (le_max_left _ _)⟩
        · show 1 / 500 ≤ b ∧ ∀ g ∈ gaps, g ≤ b
          rw [hb]
          exact ⟨le_trans hm1 (le_max_left _ _), fun g hg => le_trans (hm2 g hg) (le_max_left _ _)⟩
      · rw [hc]
        show s.moveTime + a + (s.moveTime + b + 0) = a + b + 2 * s.moveTime
        ring

def someSelector : Selector := ⟨50, 90, "img", "diff", 1/2⟩
def someRows : List Row := [⟨true, "img", 1/10, 1⟩, ⟨false, "other", 0, 1⟩, ⟨true, "diff", 3/10, 1⟩]

example : validate someSelector [] someRows 0 = .ok (some (7/5)) := by decide +kernel
example : ∃ d i, Takes someRows "diff" d ∧ Takes someRows "img" i ∧ Cycles someSelector [] d i (7/5) 3
    [⟨50, 90, 1/2, 3/10⟩, ⟨90, 50, 1/2, 1/10⟩, ⟨50, 90, 1/2, 3/10⟩, ⟨90, 50, 1/2, 1/10⟩, ⟨50, 90, 1/2, 3/10⟩, ⟨90, 50, 1/2, 1/10⟩] :=
  cycles_partial someSelector [] someRows (7/5) 0 3 _ (by decide) (by decide) (by decide +kernel)

/-- A scan of two cycles that is resumed after the first begins with the second half of a cycle: the points that were done are counted as
cycles -/
theorem resumed_wrong : configure someSelector [] someRows (7/5) 1 1 = .ok [⟨90, 50, 1/2, 1/10⟩, ⟨50, 90, 1/2, 3/10⟩] := by decide +kernel

end Verif.Props.BeamSelector
