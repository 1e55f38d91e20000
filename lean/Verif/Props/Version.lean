import Verif.Model.Version
/-!
C50: "A driver is accepted if and only if its major version equals the required one and its minor (then
patch) version is at least the required one."
-/
namespace Verif.Props.Version
open Verif.Version

/-- The property: numbers 1, 2, 3 of the driver and of the requirement; missing numbers are 0. -/
def Compatible (driver required : List Nat) : Prop :=
  driver[0]?.getD 0 = required[0]?.getD 0 ∧
  (required[1]?.getD 0 < driver[1]?.getD 0 ∨
    (required[1]?.getD 0 = driver[1]?.getD 0 ∧ required[2]?.getD 0 ≤ driver[2]?.getD 0))

/-- What is checked: the major numbers are the same and the minor one is at least the required. -/
theorem accepted_iff_minor (d r : Version) : checkDriverVersion d r = true ↔
    d.release[0]?.getD 0 = r.release[0]?.getD 0 ∧ r.release[1]?.getD 0 ≤ d.release[1]?.getD 0 := by
  unfold checkDriverVersion Version.major Version.minor
  split
  · constructor
    · intro h; cases h
    · intro h; omega
  · constructor
    · intro _; omega
    · intro _; rfl

/-- **C50** part: every driver that is compatible is accepted; a driver that is accepted is compatible
if the requirement has no patch number, or a 0 as the patch number, or the minor number is larger than
the required one. What is missing: the patch number is not compared, see `patch_ignored`. -/
theorem accepted_iff_partial (d r : Version) :
    (Compatible d.release r.release → checkDriverVersion d r = true) ∧
    (checkDriverVersion d r = true →
      (r.release[2]?.getD 0 = 0 ∨ r.release[1]?.getD 0 < d.release[1]?.getD 0) →
      Compatible d.release r.release) := by
  rw [accepted_iff_minor]
  unfold Compatible
  refine ⟨fun h => ⟨h.1, ?_⟩, fun h hr => ⟨h.1, ?_⟩⟩ <;> omega

/-- A driver with another major number, newer or older, is refused. -/
theorem other_major_refused (d r : Version) (h : d.release[0]?.getD 0 ≠ r.release[0]?.getD 0) :
    checkDriverVersion d r = false := by
  cases hc : checkDriverVersion d r with
  | false => rfl
  | true => exact absurd ((accepted_iff_minor d r).1 hc).1 h

/-- The negation of the full property: driver 3.10.1 is accepted where 3.10.2 is required. -/
theorem patch_ignored : ∃ d r : Version, checkDriverVersion d r = true ∧ ¬ Compatible d.release r.release :=
  ⟨⟨[3, 10, 1], ""⟩, ⟨[3, 10, 2], ""⟩, by decide, by unfold Compatible; decide⟩

/-! ### texts -/

/-- numbers with dots between them -/
def dotted : List (List Char) → List Char
  | [] => []
  | [t] => t
  | t :: ts => t ++ '.' :: dotted ts

theorem splitDots_append (t rest : List Char) (h : '.' ∉ t) :
    splitDots (t ++ '.' :: rest) = (t, (splitDots rest).1 :: (splitDots rest).2) ∧
    splitDots t = (t, []) := by
  induction t with
  | nil => exact ⟨by simp [splitDots], rfl⟩
  | cons c t ih =>
    have hc : c ≠ '.' := fun hc => h (by rw [hc]; exact List.mem_cons_self)
    obtain ⟨h1, h2⟩ := ih (fun hm => h (List.mem_cons_of_mem _ hm))
    refine ⟨?_, ?_⟩
    · rw [List.cons_append]; simp only [splitDots]; rw [h1, if_neg hc]
    · simp only [splitDots]; rw [h2, if_neg hc]

theorem digits_no_dot (t : List Char) (n : Nat) (h : digits t = some n) : '.' ∉ t := by
  intro hm
  cases t with
  | nil => cases hm
  | cons c cs =>
    simp only [digits] at h
    split at h
    · rename_i ha
      have := List.all_eq_true.1 ha _ hm
      exact absurd this (by decide)
    · cases h

/-- The text "n.n.n" of release numbers is parsed to those numbers, so `accepted_iff_partial` is about
texts as well. -/
theorem parse_release (ts : List (List Char)) (ns : List Nat) (hne : ts ≠ [])
    (h : ts.map digits = ns.map some) : parse (dotted ts) = some { release := ns } := by
  have key : ∀ (ts : List (List Char)) (ns : List Nat), ts ≠ [] → ts.map digits = ns.map some →
      (splitDots (dotted ts)).1 :: (splitDots (dotted ts)).2 = ts ∧ ts.mapM digits = some ns := by
    intro ts
    induction ts with
    | nil => intro ns hne; exact absurd rfl hne
    | cons t ts ih =>
      intro ns _ h
      cases ns with
      | nil => cases h
      | cons n ns =>
        obtain ⟨ht, hts⟩ := List.cons.inj h
        have hd := digits_no_dot t n ht
        cases ts with
        | nil =>
          have hns : ns = [] := List.map_eq_nil_iff.1 hts.symm
          subst hns
          refine ⟨?_, ?_⟩
          · show (splitDots t).1 :: (splitDots t).2 = [t]
            rw [(splitDots_append t [] hd).2]
          · simp only [List.mapM_cons, List.mapM_nil, show digits t = some n from ht]; rfl
        | cons t2 ts =>
          obtain ⟨h1, h2⟩ := ih ns (by simp) hts
          refine ⟨?_, ?_⟩
          · show (splitDots (t ++ '.' :: dotted (t2 :: ts))).1 :: (splitDots (t ++ '.' :: dotted (t2 :: ts))).2 = _
            rw [(splitDots_append t _ hd).1, h1]
          · rw [List.mapM_cons, show digits t = some n from ht, h2]; rfl
  obtain ⟨h1, h2⟩ := key ts ns hne h
  unfold parse
  dsimp only
  rw [h1, h2]
  rfl

theorem digits_text (n : Nat) : digits (Nat.toDigits 10 n) = some n := by
  have hd : (Nat.toDigits 10 n).all Char.isDigit = true :=
    List.all_eq_true.2 fun c hc => Nat.isDigit_of_mem_toDigits (by decide) (by decide) hc
  have hv : (Nat.toDigits 10 n).foldl (fun n c => 10 * n + (c.toNat - '0'.toNat)) 0 = n := by
    have := Nat.ofDigitChars_ten_toDigits (n := n)
    rw [Nat.ofDigitChars] at this
    exact this
  unfold digits
  split
  · rename_i h; exact absurd h Nat.toDigits_ne_nil
  · rw [if_pos hd, hv]

/-- The text of release numbers -/
def textOf (ns : List Nat) : List Char := dotted (ns.map (Nat.toDigits 10))

/-- **C50** part, of the texts: a driver whose version is written with the numbers `d` is accepted where `r` is required exactly if
the first numbers are the same and the second is at least the required one. -/
theorem texts_checked (d r : List Nat) (hd : d ≠ []) (hr : r ≠ []) :
    checkTexts (textOf d) (textOf r) = some (decide (d[0]?.getD 0 = r[0]?.getD 0 ∧ r[1]?.getD 0 ≤ d[1]?.getD 0)) := by
  have key : ∀ ns : List Nat, ns ≠ [] → parse (textOf ns) = some { release := ns } := by
    intro ns h
    refine parse_release _ ns (by simpa using h) ?_
    rw [List.map_map]
    exact List.map_congr_left (fun n _ => digits_text n)
  unfold checkTexts
  rw [key d hd, key r hr]
  simp only
  congr 1
  rw [Bool.eq_iff_iff, accepted_iff_minor, decide_eq_true_eq]

example : textOf [3, 10, 2] = "3.10.2".toList := by decide +kernel

/-- A text that is not a version is an error, not an acceptance. -/
theorem bad_text_is_error (d r : List Char) (h : parse d = none ∨ parse r = none) : checkTexts d r = none := by
  unfold checkTexts
  cases hd : parse d with
  | none => rfl
  | some dv =>
    cases hr : parse r with
    | none => rfl
    | some rv => rcases h with h | h
                 · rw [hd] at h; cases h
                 · rw [hr] at h; cases h

example : checkTexts "3.10".toList "3.2.7".toList = some true ∧ checkTexts "3.1.9".toList "3.2".toList = some false ∧
    checkTexts "4.3".toList "3.2".toList = some false ∧ checkTexts "2.5".toList "2.10".toList = some false ∧
    checkTexts "x".toList "3.2".toList = none := by decide +kernel

end Verif.Props.Version
