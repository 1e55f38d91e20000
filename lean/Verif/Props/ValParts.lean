import Verif.Spec.ValParts
import Verif.Props.Validate
import Verif.Props.DetStep
/-!
C93: what an accepted scan may rely on, for any parts.
-/
namespace Verif.Props.ValParts
open Verif Verif.Validate Verif.ValParts Verif.Spec.ValParts

theorem sameSet_iff (a b : List String) : sameSet a b = true ↔ ∀ x, x ∈ a ↔ x ∈ b := by
  simp only [sameSet, Bool.and_eq_true, List.all_eq_true, decide_eq_true_eq]
  constructor
  · rintro ⟨h1, h2⟩ x; exact ⟨h1 x, h2 x⟩
  · intro h; exact ⟨fun x hx => (h x).1 hx, fun x hx => (h x).2 hx⟩

theorem unrolled_iff (g : Gen) (axes : List String) :
    g.squashed.any (fun e => sameSet e axes) = true ↔ Unrolled g axes := by
  simp only [List.any_eq_true, sameSet_iff, Unrolled]

theorem askAll_nil (r : Nat) (p : Params) (parts : List Part) (h : askAll r p parts = .ok []) :
    ∀ pt ∈ parts, answer r p pt = .ok [] := by
  induction parts with
  | nil => intro pt hpt; exact nomatch hpt
  | cons q qs ih =>
    unfold askAll at h
    split at h
    · rename_i a b ha hb
      have h' : a ++ b = [] := by simpa using h
      rw [List.append_eq_nil_iff] at h'
      intro pt hpt
      rcases List.mem_cons.1 hpt with rfl | hpt
      · rw [ha, h'.1]
      · exact ih (by rw [hb, h'.2]) pt hpt
    · simp at h
    · simp at h

theorem simultaneous_iff (allowed axes : List String) :
    simultaneousValidate allowed axes = true ↔ ∀ a ∈ axes, a ∈ allowed := by
  unfold simultaneousValidate
  rw [List.isEmpty_iff, List.filter_eq_nil_iff]
  constructor
  · intro h a ha
    have := h a ha
    simpa using this
  · intro h a ha
    simpa using h a ha

theorem double_iff (mri : String) (t : Option (List Row)) :
    doubleValidate mri t = true ↔
      ∃ rows, t = some rows ∧ ∀ r ∈ rows, r.mri = mri → r.enable = true → r.frames = 2 := by
  cases t with
  | none => simp [doubleValidate]
  | some rows =>
    simp only [doubleValidate, List.all_eq_true, Option.some.injEq, exists_eq_left']
    constructor
    · intro h r hr h1 h2
      have := h r hr
      simp only [h1, h2, decide_true, Bool.true_and, Bool.not_eq_true', decide_eq_false_iff_not, Decidable.not_not] at this
      exact this
    · intro h r hr
      by_cases h1 : r.mri = mri
      · by_cases h2 : r.enable = true
        · simp [h r hr h1 h2]
        · simp [h2]
      · simp [h1]

/-- C93: when `validate` accepts a set of parameters, after whatever any other parts wanted changed in between, then
in the parameters it returns: all axes to be moved may be moved together; with a visible UnrollingPart, all axes that
move are squashed into one; with a DoubleTriggerPart there is a table of detectors in which its detector takes two
frames, where it is enabled; and with a part that needs a duration there is one. -/
theorem accepted_content (parts : List Part) (kwargs p : Params) (h : ValParts.validate parts kwargs = .ok p) :
    ∀ pt ∈ parts, (∀ f, pt ≠ .other f) → ∀ axes g dets,
      Dict.get? p "axesToMove" = some (.axes axes) → Dict.get? p "generator" = some (.gen g) →
      (Dict.get? p "detectors" = some (.dets dets) ∨ (Dict.get? p "detectors" = none ∧ dets = none)) →
      Content axes g dets pt := by
  intro pt hpt hno axes g dets hx hg hd
  have h3 := (Validate.validate_returns_consistent (env parts) _ _ p h).2.2
  have h4 := askAll_nil _ _ _ h3 pt hpt
  cases pt with
  | unroll v =>
    intro hv
    subst hv
    simp only [answer, hx, hg, Except.ok.injEq, unrollValidate] at h4
    rw [if_neg (by decide)] at h4
    split at h4
    · left; omega
    · split at h4
      · rename_i h5
        exact .inr ((unrolled_iff g axes).1 h5)
      · simp at h4
  | simultaneous l =>
    simp only [answer, hx] at h4
    split at h4
    · rename_i h5; exact (simultaneous_iff l axes).1 h5
    · simp at h4
  | doubleTrigger m =>
    rcases hd with hd | ⟨hd, rfl⟩
    · simp only [answer, hd] at h4
      split at h4
      · rename_i h5; exact (double_iff m dets).1 h5
      · simp at h4
    · simp only [answer, hd] at h4
      split at h4
      · rename_i h5; exact (double_iff m none).1 h5
      · simp at h4
  | guess d =>
    simp only [answer, hg] at h4
    split at h4
    · simp at h4
    · rename_i h5; exact h5
  | other f => exact absurd rfl (hno f)

/-! ### convergence -/

/-- the generators the part asks for -/
def gens (a : List String) (g : Gen) : Part → List Gen
  | .unroll v => if v = true ∧ 2 ≤ a.length ∧ ¬ g.squashed.any (fun e => sameSet e a) = true then [squash a g] else []
  | .guess d => if g.duration = 0 then [{ g with duration := d }] else []
  | _ => []

def mk (h : Gen) : Tweak String Val := ⟨"generator", .gen h⟩

/-- parts with nothing against these axes and this table of detectors, and that guess no negative durations -/
def Fine (axes : List String) (dets : Option (List Row)) : Part → Prop
  | .simultaneous allowed => ∀ a ∈ axes, a ∈ allowed
  | .doubleTrigger mri => ∃ rows, dets = some rows ∧ ∀ r ∈ rows, r.mri = mri → r.enable = true → r.frames = 2
  | .guess d => 0 < d
  | .other _ => False
  | .unroll _ => True

/-- the parameters have these axes, generator and detectors -/
def Has (p : Params) (a : List String) (g : Gen) (t : Option (List Row)) : Prop :=
  Dict.get? p "axesToMove" = some (.axes a) ∧ Dict.get? p "generator" = some (.gen g) ∧
    (Dict.get? p "detectors" = some (.dets t) ∨ (Dict.get? p "detectors" = none ∧ t = none))

theorem answer_fine (r : Nat) (p : Params) (a : List String) (g : Gen) (t : Option (List Row)) (hp : Has p a g t)
    (pt : Part) (hf : Fine a t pt) : answer r p pt = .ok ((gens a g pt).map mk) := by
  obtain ⟨hx, hg, hd⟩ := hp
  cases pt with
  | unroll v =>
    simp only [answer, hx, hg, unrollValidate, gens]
    cases v with
    | false => simp
    | true =>
      rw [if_neg (by decide)]
      by_cases h1 : a.length = 0 ∨ a.length = 1
      · rw [if_pos h1, if_neg (by omega)]; rfl
      · rw [if_neg h1]
        by_cases h2 : g.squashed.any (fun e => sameSet e a) = true
        · rw [if_pos h2, if_neg (fun hh => hh.2.2 h2)]; rfl
        · rw [if_neg h2, if_pos ⟨rfl, by omega, h2⟩]; rfl
  | simultaneous l =>
    simp only [answer, hx, gens]
    rw [if_pos ((simultaneous_iff l a).2 hf)]; rfl
  | doubleTrigger m =>
    rcases hd with hd | ⟨hd, rfl⟩
    · simp only [answer, hd, gens]
      rw [if_pos ((double_iff m t).2 hf)]; rfl
    · simp only [answer, hd, gens]
      rw [if_pos ((double_iff m none).2 hf)]; rfl
  | guess d =>
    simp only [answer, hg, gens]
    split <;> rfl
  | other f => exact hf.elim

theorem ask_fine (r : Nat) (p : Params) (a : List String) (g : Gen) (t : Option (List Row)) (hp : Has p a g t)
    (parts : List Part) (hf : ∀ pt ∈ parts, Fine a t pt) :
    askAll r p parts = .ok ((parts.flatMap (gens a g)).map mk) := by
  induction parts with
  | nil => rfl
  | cons q qs ih =>
    unfold askAll
    rw [answer_fine r p a g t hp q (hf q (List.mem_cons_self ..)),
      ih (fun pt hpt => hf pt (List.mem_cons_of_mem _ hpt))]
    simp

/-- the longest duration, as `resolve_generator_tweaks` finds it -/
def longest (l : List Gen) : Int := l.foldl (fun m h => if h.duration > m then h.duration else m) 0

theorem round_fine (parts : List Part) (p : Params) (h : Gen) (l : List Gen) (h0 : 0 ≤ h.duration) :
    applyRound (env parts) p ((h :: l).map mk) =
      .ok (Dict.set p "generator" (.gen { h with duration := longest (h :: l) })) := by
  have hfil : ((h :: l).map mk).filter (fun t => decide (t.parameter = (env parts).generator)) = (h :: l).map mk := by
    rw [List.filter_eq_self]
    intro t ht
    obtain ⟨x, -, rfl⟩ := List.mem_map.1 ht
    rfl
  unfold applyRound
  dsimp only
  rw [hfil]
  cases l with
  | nil =>
    have : ({ h with duration := longest [h] } : Gen) = h := by
      have : longest [h] = h.duration := by
        simp only [longest, List.foldl_cons, List.foldl_nil]
        split <;> omega
      rw [this]
    rw [this]
    rfl
  | cons x l =>
    have hfold : ∀ (l : List Gen) (m : Int), (l.map mk).foldl
        (fun m t => if (env parts).duration t.value > m then (env parts).duration t.value else m) m =
        l.foldl (fun m h => if h.duration > m then h.duration else m) m := by
      intro l
      induction l with
      | nil => intro m; rfl
      | cons y l ih => intro m; exact ih _
    show applyTweaks (env parts) p
      [⟨"generator", withDurationOf (.gen h) (((h :: x :: l).map mk).foldl
        (fun m t => if (env parts).duration t.value > m then (env parts).duration t.value else m) 0)⟩] = _
    rw [hfold]
    rfl

theorem longest_spec (l : List Gen) :
    0 ≤ longest l ∧ (longest l = 0 ∨ ∃ x ∈ l, x.duration = longest l) ∧ ∀ x ∈ l, x.duration ≤ longest l :=
  Validate.largest_spec (fun h : Gen => h.duration) l 0

theorem mem_gens (parts : List Part) (a : List String) (g x : Gen) :
    x ∈ parts.flatMap (gens a g) ↔
      (Part.unroll true ∈ parts ∧ 2 ≤ a.length ∧ ¬ Unrolled g a ∧ x = squash a g) ∨
      (g.duration = 0 ∧ ∃ d ∈ guesses parts, x = { g with duration := d }) := by
  rw [← unrolled_iff, List.mem_flatMap]
  constructor
  · rintro ⟨pt, hpt, hx⟩
    cases pt with
    | unroll v =>
      simp only [gens] at hx
      split at hx
      · rename_i hc
        obtain ⟨rfl, h2, h3⟩ := hc
        exact .inl ⟨hpt, h2, h3, List.mem_singleton.1 hx⟩
      · exact nomatch hx
    | guess d =>
      simp only [gens] at hx
      split at hx
      · rename_i hc
        exact .inr ⟨hc, d, List.mem_filterMap.2 ⟨_, hpt, rfl⟩, by simpa using hx⟩
      · exact nomatch hx
    | simultaneous l => exact nomatch hx
    | doubleTrigger m => exact nomatch hx
    | other f => exact nomatch hx
  · rintro (⟨h1, h2, h3, rfl⟩ | ⟨h1, d, hd, rfl⟩)
    · exact ⟨_, h1, by simp only [gens]; rw [if_pos ⟨trivial, h2, h3⟩]; exact List.mem_singleton.2 rfl⟩
    · obtain ⟨pt, hpt, hd⟩ := List.mem_filterMap.1 hd
      cases pt with
      | guess d' =>
        have : d' = d := by simpa using hd
        subst this
        exact ⟨_, hpt, by simp only [gens]; rw [if_pos h1]; exact List.mem_singleton.2 rfl⟩
      | unroll v => simp at hd
      | simultaneous l => simp at hd
      | doubleTrigger m => simp at hd
      | other f => simp at hd

theorem has_set (p : Params) (a : List String) (g g' : Gen) (t : Option (List Row)) (hp : Has p a g t) :
    Has (Dict.set p "generator" (.gen g')) a g' t := by
  obtain ⟨hx, hg, hd⟩ := hp
  refine ⟨?_, ?_, ?_⟩
  · rw [Dict.get?_set_ne _ _ (by decide)]; exact hx
  · rw [Dict.get?_set_self]
  · rw [Dict.get?_set_ne _ _ (by decide)]; exact hd

theorem unrolled_squash (a : List String) (g : Gen) (d : Int) : Unrolled { squash a g with duration := d } a :=
  ⟨a, List.mem_append_right _ (List.mem_singleton.2 rfl), fun _ => Iff.rfl⟩

/-- nothing to be asked for -/
theorem loop_quiet (parts : List Part) (fuel r : Nat) (p : Params) (a : List String) (g : Gen) (t : Option (List Row))
    (hp : Has p a g t) (hf : ∀ pt ∈ parts, Fine a t pt) (hq : parts.flatMap (gens a g) = []) :
    loop (env parts) (fuel + 1) r p = (.ok p, [p]) := by
  unfold loop
  rw [show (env parts).ask r p = .ok [] from by
    show askAll r p parts = _
    rw [ask_fine r p a g t hp parts hf, hq]; rfl]

theorem loop_step (parts : List Part) (fuel r : Nat) (p : Params) (a : List String) (g h : Gen) (l : List Gen)
    (t : Option (List Row)) (hp : Has p a g t) (hf : ∀ pt ∈ parts, Fine a t pt)
    (hq : parts.flatMap (gens a g) = h :: l) (h0 : 0 ≤ h.duration) :
    (loop (env parts) (fuel + 1) r p).1 =
      (loop (env parts) fuel (r + 1) (Dict.set p "generator" (.gen { h with duration := longest (h :: l) }))).1 ∧
    (loop (env parts) (fuel + 1) r p).2.length =
      (loop (env parts) fuel (r + 1) (Dict.set p "generator" (.gen { h with duration := longest (h :: l) }))).2.length + 1 := by
  have hask : (env parts).ask r p = .ok (mk h :: l.map mk) := by
    show askAll r p parts = _
    rw [ask_fine r p a g t hp parts hf, hq]; rfl
  have hr := round_fine parts p h l h0
  rw [List.map_cons] at hr
  rw [show loop (env parts) (fuel + 1) r p = _ from by rw [loop, hask]]
  simp only [hr]
  exact ⟨trivial, List.length_cons ..⟩

/-- the end of a run of the loop -/
structure Ends (parts : List Part) (n fuel r : Nat) (p : Params) (a : List String) (g' : Gen) : Prop where
  ends : ∃ p', (loop (env parts) fuel r p).1 = .ok p' ∧ Dict.get? p' "generator" = some (.gen g') ∧
    ∀ k, k ≠ "generator" → Dict.get? p' k = Dict.get? p k
  short : (loop (env parts) fuel r p).2.length ≤ n

theorem loop_noguess (parts : List Part) (fuel r : Nat) (p : Params) (a : List String) (g : Gen)
    (t : Option (List Row)) (hp : Has p a g t) (hf : ∀ pt ∈ parts, Fine a t pt) (h0 : 0 ≤ g.duration)
    (hg : g.duration ≠ 0 ∨ guesses parts = []) :
    ∃ g', Ends parts 2 (fuel + 2) r p a g' ∧ g'.duration = g.duration ∧
      ((Part.unroll true ∈ parts ∧ 2 ≤ a.length ∧ ¬ Unrolled g a ∧ g' = squash a g) ∨
       (¬ (Part.unroll true ∈ parts ∧ 2 ≤ a.length ∧ ¬ Unrolled g a) ∧ g' = g)) := by
  have hall : ∀ x ∈ parts.flatMap (gens a g),
      Part.unroll true ∈ parts ∧ 2 ≤ a.length ∧ ¬ Unrolled g a ∧ x = squash a g := by
    intro x hx
    rcases (mem_gens parts a g x).1 hx with h | ⟨h1, d, hd, -⟩
    · exact h
    · rcases hg with hg | hg
      · exact absurd h1 hg
      · rw [hg] at hd; exact nomatch hd
  cases hq : parts.flatMap (gens a g) with
  | nil =>
    refine ⟨g, ⟨⟨p, ?_, hp.2.1, fun _ _ => rfl⟩, ?_⟩, rfl, .inr ⟨?_, rfl⟩⟩
    · rw [loop_quiet parts (fuel + 1) r p a g t hp hf hq]
    · rw [loop_quiet parts (fuel + 1) r p a g t hp hf hq]; exact Nat.le_succ 1
    · intro ⟨h1, h2, h3⟩
      have := (mem_gens parts a g (squash a g)).2 (.inl ⟨h1, h2, h3, rfl⟩)
      rw [hq] at this
      exact nomatch this
  | cons h l =>
    rw [hq] at hall
    obtain ⟨h1, h2, h3, rfl⟩ := hall h (List.mem_cons_self ..)
    have hdur : longest (squash a g :: l) = g.duration := by
      obtain ⟨k1, k2, k3⟩ := longest_spec (squash a g :: l)
      have k4 : g.duration ≤ longest (squash a g :: l) := k3 (squash a g) (List.mem_cons_self ..)
      rcases k2 with k2 | ⟨x, hx, k2⟩
      · omega
      · rw [(hall x hx).2.2.2] at k2; exact k2.symm
    have hs := loop_step parts (fuel + 1) r p a g _ l t hp hf hq h0
    rw [hdur] at hs
    have hp1 := has_set p a g { squash a g with duration := g.duration } t hp
    have hq1 : parts.flatMap (gens a { squash a g with duration := g.duration }) = [] := by
      rw [List.eq_nil_iff_forall_not_mem]
      intro x hx
      rcases (mem_gens parts a _ x).1 hx with ⟨-, -, h, -⟩ | ⟨k1, d, hd, -⟩
      · exact h (unrolled_squash a g g.duration)
      · rcases hg with hg | hg
        · exact absurd k1 hg
        · rw [hg] at hd; exact nomatch hd
    have hl := loop_quiet parts fuel (r + 1) _ a _ t hp1 hf hq1
    refine ⟨squash a g, ⟨⟨_, ?_, hp1.2.1, ?_⟩, ?_⟩, rfl, .inl ⟨h1, h2, h3, rfl⟩⟩
    · rw [hs.1, hl]
    · intro k hk; exact Dict.get?_set_ne _ _ (Ne.symm hk)
    · rw [hs.2, hl]; exact Nat.le_refl 2

theorem loop_result (parts : List Part) (fuel r : Nat) (p : Params) (a : List String) (g : Gen)
    (t : Option (List Row)) (hp : Has p a g t) (hf : ∀ pt ∈ parts, Fine a t pt) (h0 : 0 ≤ g.duration) :
    ∃ g', Ends parts 3 (fuel + 3) r p a g' ∧ Result parts a g g' := by
  by_cases hg : g.duration ≠ 0 ∨ guesses parts = []
  · obtain ⟨g', he, hd, hc⟩ := loop_noguess parts (fuel + 1) r p a g t hp hf h0 hg
    refine ⟨g', ⟨he.ends, Nat.le_succ_of_le he.short⟩, ?_, ?_, ?_⟩
    · by_cases hz : g.duration = 0
      · rcases hg with hg | hg
        · exact absurd hz hg
        · exact .inr ⟨hz, .inl ⟨hg, by rw [hd, hz]⟩⟩
      · exact .inl ⟨hz, hd⟩
    · intro k1 k2 k3
      rcases hc with ⟨-, -, -, rfl⟩ | ⟨hc, -⟩
      · exact ⟨rfl, rfl⟩
      · exact absurd ⟨k1, k2, k3⟩ hc
    · intro k
      rcases hc with ⟨k1, k2, k3, -⟩ | ⟨-, rfl⟩
      · rcases k with k | k | k
        · exact absurd k1 k
        · omega
        · exact absurd k k3
      · exact ⟨rfl, rfl⟩
  · have hz : g.duration = 0 := Decidable.byContradiction fun h => hg (.inl h)
    have hne : guesses parts ≠ [] := fun h => hg (.inr h)
    obtain ⟨d0, hd0⟩ := List.exists_mem_of_ne_nil _ hne
    have hpos : ∀ d ∈ guesses parts, 0 < d := by
      intro d hd
      obtain ⟨pt, hpt, hd⟩ := List.mem_filterMap.1 hd
      have hfp := hf pt hpt
      cases pt with
      | guess d' =>
        have : d' = d := by simpa using hd
        subst this
        exact hfp
      | unroll v => simp at hd
      | simultaneous l => simp at hd
      | doubleTrigger m => simp at hd
      | other f => simp at hd
    have hin : ∀ d ∈ guesses parts, ({ g with duration := d } : Gen) ∈ parts.flatMap (gens a g) :=
      fun d hd => (mem_gens parts a g _).2 (.inr ⟨hz, d, hd, rfl⟩)
    cases hq : parts.flatMap (gens a g) with
    | nil => have := hin d0 hd0; rw [hq] at this; exact nomatch this
    | cons h l =>
      obtain ⟨k1, k2, k3⟩ := longest_spec (h :: l)
      rw [hq] at hin
      have hbig : ∀ d ∈ guesses parts, d ≤ longest (h :: l) := fun d hd => k3 _ (hin d hd)
      have hMpos : 0 < longest (h :: l) := Int.lt_of_lt_of_le (hpos d0 hd0) (hbig d0 hd0)
      have hMin : longest (h :: l) ∈ guesses parts := by
        rcases k2 with k2 | ⟨x, hx, k2⟩
        · omega
        · rw [← hq] at hx
          rcases (mem_gens parts a g x).1 hx with ⟨-, -, -, rfl⟩ | ⟨-, d, hd, rfl⟩
          · have : g.duration = longest (h :: l) := k2
            omega
          · rw [← k2]; exact hd
      have hh0 : 0 ≤ h.duration ∧ ((Part.unroll true ∈ parts ∧ 2 ≤ a.length ∧ ¬ Unrolled g a ∧ h = squash a g) ∨
          ∃ d, h = { g with duration := d }) := by
        have hm : h ∈ parts.flatMap (gens a g) := by rw [hq]; exact List.mem_cons_self ..
        rcases (mem_gens parts a g h).1 hm with hc | ⟨-, d, hd, rfl⟩
        · refine ⟨?_, .inl hc⟩
          rw [hc.2.2.2]; exact h0
        · exact ⟨Int.le_of_lt (hpos d hd), .inr ⟨d, rfl⟩⟩
      have hs := loop_step parts (fuel + 2) r p a g h l t hp hf hq hh0.1
      have hp1 := has_set p a g { h with duration := longest (h :: l) } t hp
      obtain ⟨g', he, hd, hc⟩ := loop_noguess parts fuel (r + 1) _ a _ t hp1 hf k1 (.inl (by
        show longest (h :: l) ≠ 0
        omega))
      obtain ⟨⟨p', e1, e2, e3⟩, e4⟩ := he
      refine ⟨g', ⟨⟨p', ?_, e2, ?_⟩, ?_⟩, ?_⟩
      · rw [hs.1]; exact e1
      · intro k hk; rw [e3 k hk, Dict.get?_set_ne _ _ (Ne.symm hk)]
      · rw [hs.2]; omega
      · have hdur : g'.duration = longest (h :: l) := hd
        refine ⟨.inr ⟨hz, .inr ⟨by rw [hdur]; exact hMin, fun d hd' => by rw [hdur]; exact hbig d hd'⟩⟩, ?_, ?_⟩
        · intro j1 j2 j3
          rcases hh0.2 with ⟨-, -, -, rfl⟩ | ⟨d, rfl⟩
          · rcases hc with ⟨-, -, c, -⟩ | ⟨-, rfl⟩
            · exact absurd (unrolled_squash a g _) c
            · exact ⟨rfl, rfl⟩
          · rcases hc with ⟨-, -, -, rfl⟩ | ⟨c, -⟩
            · exact ⟨rfl, rfl⟩
            · exact absurd ⟨j1, j2, j3⟩ c
        · intro j
          have hno : ¬ (Part.unroll true ∈ parts ∧ 2 ≤ a.length ∧ ¬ Unrolled g a) := by
            rintro ⟨k1, k2, k3⟩
            rcases j with j | j | j
            · exact absurd k1 j
            · omega
            · exact k3 j
          rcases hh0.2 with ⟨i1, i2, i3, -⟩ | ⟨d, rfl⟩
          · exact absurd ⟨i1, i2, i3⟩ hno
          · rcases hc with ⟨i1, i2, i3, -⟩ | ⟨-, rfl⟩
            · exact absurd ⟨i1, i2, i3⟩ hno
            · exact ⟨rfl, rfl⟩

/-- C93: validation always comes to an end, whatever the order of the parts: with any number of unrolling parts and
parts that guess a duration, and parts that have nothing against the axes and the detectors, `validate` accepts after
asking the parts at most three times, although of the generators asked for in one round only the first is taken. The
parameters it returns are those given, except that the generator is unrolled exactly once where that is wanted, and has
the longest of the durations that were guessed, where none was given. -/
theorem unrolled_in_three (parts : List Part) (kwargs : Params) (axes : List String) (g : Gen)
    (dets : Option (List Row)) (hp : Has kwargs axes g dets) (hf : ∀ pt ∈ parts, Fine axes dets pt)
    (h0 : 0 ≤ g.duration) :
    ∃ p g', ValParts.validate parts kwargs = .ok p ∧ asked parts kwargs ≤ 3 ∧
      Dict.get? p "generator" = some (.gen g') ∧ Result parts axes g g' ∧
      ∀ k, k ≠ "generator" → Dict.get? p k = Dict.get? kwargs k := by
  have hfill : fillAxes kwargs = kwargs := by
    unfold fillAxes; rw [hp.1]
  obtain ⟨g', ⟨⟨p', e1, e2, e3⟩, e4⟩, hr⟩ := loop_result parts 7 0 kwargs axes g dets hp hf h0
  refine ⟨p', g', ?_, ?_, e2, hr, e3⟩
  · unfold ValParts.validate; rw [hfill]; exact e1
  · unfold asked; rw [hfill]; exact e4

/-- C93: a scan that a part objects to is refused, whatever the other parts answer. -/
theorem objection_refused (parts : List Part) (kwargs : Params) (axes : List String) (g : Gen)
    (dets : Option (List Row)) (hp : Has kwargs axes g dets)
    (hno : ∀ pt ∈ parts, ∀ f, pt ≠ .other f)
    (hbad : (∃ l, Part.simultaneous l ∈ parts ∧ ∃ a ∈ axes, a ∉ l) ∨
      (∃ m, Part.doubleTrigger m ∈ parts ∧
        (dets = none ∨ ∃ rows, dets = some rows ∧ ∃ r ∈ rows, r.mri = m ∧ r.enable = true ∧ r.frames ≠ 2))) :
    ValParts.validate parts kwargs = .error .partRaised := by
  have hfill : fillAxes kwargs = kwargs := by
    unfold fillAxes; rw [hp.1]
  have herr : askAll 0 kwargs parts = .error .partRaised := by
    have hall : ∀ pt ∈ parts, ∀ e, answer 0 kwargs pt = .error e → e = .partRaised := by
      intro pt hpt e he
      cases pt with
      | other f => exact absurd rfl (hno _ hpt f)
      | unroll v => simp only [answer, hp.1, hp.2.1] at he; exact nomatch he
      | guess d => simp only [answer, hp.2.1] at he; split at he <;> exact nomatch he
      | simultaneous l =>
        simp only [answer, hp.1] at he
        split at he
        · exact nomatch he
        · exact (by simpa using he.symm)
      | doubleTrigger m =>
        simp only [answer] at he
        split at he
        · split at he
          · exact nomatch he
          · exact (by simpa using he.symm)
        · split at he
          · exact nomatch he
          · exact (by simpa using he.symm)
        · exact (by simpa using he.symm)
    have hone : ∃ pt ∈ parts, answer 0 kwargs pt = .error .partRaised := by
      rcases hbad with ⟨l, hl, a, ha, hal⟩ | ⟨m, hm, hb⟩
      · refine ⟨_, hl, ?_⟩
        simp only [answer, hp.1]
        rw [if_neg (fun h => hal ((simultaneous_iff l axes).1 h a ha))]
      · refine ⟨_, hm, ?_⟩
        have hb' : ¬ doubleValidate m dets = true := by
          rw [double_iff]
          rintro ⟨rows, h1, h2⟩
          rcases hb with hb | ⟨rows', h3, r, hr, h4, h5, h6⟩
          · rw [hb] at h1; exact nomatch h1
          · rw [h1] at h3
            cases h3
            exact h6 (h2 r hr h4 h5)
        rcases hp.2.2 with hd | ⟨hd, rfl⟩
        · simp only [answer, hd]; rw [if_neg hb']
        · simp only [answer, hd]; rw [if_neg hb']
    clear hbad
    obtain ⟨pt, hpt, he⟩ := hone
    induction parts with
    | nil => exact nomatch hpt
    | cons q qs ih =>
      unfold askAll
      cases hq : answer 0 kwargs q with
      | error e => 
        have := hall q (List.mem_cons_self ..) e hq
        subst this
        rfl
      | ok b =>
        rcases List.mem_cons.1 hpt with rfl | hpt
        · rw [hq] at he; exact nomatch he
        · rw [ih (fun x hx => hno x (List.mem_cons_of_mem _ hx)) (fun x hx => hall x (List.mem_cons_of_mem _ hx)) hpt]
  unfold ValParts.validate
  rw [hfill]
  show (loop (env parts) 10 0 kwargs).1 = _
  unfold loop
  rw [show (env parts).ask 0 kwargs = .error .partRaised from herr]

/-! ### what unrolling does to the runs of the scan -/

section
open Verif.Steps

/-- the three pieces of `squashDims` -/
theorem squash_pieces (axes : List String) (dims : List (Dim String)) :
    (∃ pre m0 mids post, dims = pre ++ (m0 :: mids) ++ post ∧ squashDims axes dims = pre ++ mergeDims (m0 :: mids) :: post ∧
      (∃ a ∈ m0.axes, a ∈ axes) ∧ (∀ d ∈ pre, ∀ a ∈ d.axes, a ∉ axes) ∧ (∀ d ∈ post, ∀ a ∈ d.axes, a ∉ axes)) ∨
    (squashDims axes dims = dims ∧ ∀ d ∈ dims, ∀ a ∈ d.axes, a ∉ axes) := by
  have hpre : ∀ d ∈ dims.takeWhile (fun d => !touches axes d), ∀ a ∈ d.axes, a ∉ axes := by
    intro d hd a ha hc
    have h := List.all_takeWhile (p := fun d => !touches axes d) (l := dims)
    have := List.all_eq_true.1 h d hd
    simp only [touches, Bool.not_eq_true', List.any_eq_false, decide_eq_true_eq] at this
    exact this a ha hc
  cases hr : dims.dropWhile (fun d => !touches axes d) with
  | nil =>
    right
    have hd : dims.takeWhile (fun d => !touches axes d) = dims := by
      have := List.takeWhile_append_dropWhile (p := fun d => !touches axes d) (l := dims)
      rw [hr, List.append_nil] at this
      exact this
    refine ⟨?_, by rw [hd] at hpre; exact hpre⟩
    unfold squashDims
    dsimp only
    rw [hr]
    rfl
  | cons m0 rest =>
    left
    have hm0 : touches axes m0 = true := by
      have := List.head?_dropWhile_not (fun d => !touches axes d) dims
      rw [hr] at this
      simpa using this
    have hsplit := List.takeWhile_append_dropWhile (p := fun d => !touches axes d) (l := (m0 :: rest).reverse)
    have hmid : ∃ mids, (((m0 :: rest).reverse).dropWhile (fun d => !touches axes d)).reverse = m0 :: mids := by
      have hne : ((m0 :: rest).reverse).dropWhile (fun d => !touches axes d) ≠ [] := by
        intro h
        rw [h, List.append_nil] at hsplit
        have hall := List.all_takeWhile (p := fun d => !touches axes d) (l := (m0 :: rest).reverse)
        rw [hsplit] at hall
        have := List.all_eq_true.1 hall m0 (by simp)
        rw [hm0] at this
        exact nomatch this
      have h2 := congrArg List.reverse hsplit
      rw [List.reverse_reverse, List.reverse_append] at h2
      cases hx : (((m0 :: rest).reverse).dropWhile (fun d => !touches axes d)).reverse with
      | nil => exact absurd (List.reverse_eq_nil_iff.1 hx) hne
      | cons y ys =>
        rw [hx, List.cons_append] at h2
        rw [(List.cons.inj h2).1]
        exact ⟨ys, rfl⟩
    obtain ⟨mids, hmid⟩ := hmid
    refine ⟨dims.takeWhile (fun d => !touches axes d), m0, mids,
      (((m0 :: rest).reverse).takeWhile (fun d => !touches axes d)).reverse, ?_, ?_, ?_, hpre, ?_⟩
    · have h1 := List.takeWhile_append_dropWhile (p := fun d => !touches axes d) (l := dims)
      rw [hr] at h1
      have h2 := congrArg List.reverse hsplit
      rw [List.reverse_reverse, List.reverse_append, hmid] at h2
      rw [List.append_assoc, h2]
      exact h1.symm
    · unfold squashDims
      dsimp only
      rw [hr, hmid, if_neg (by simp)]
    · simpa [touches] using hm0
    · intro d hd a ha hc
      rw [List.mem_reverse] at hd
      have h := List.all_takeWhile (p := fun d => !touches axes d) (l := (m0 :: rest).reverse)
      have := List.all_eq_true.1 h d hd
      simp only [touches, Bool.not_eq_true', List.any_eq_false, decide_eq_true_eq] at this
      exact this a ha hc

theorem consume_eq (l s : List String) (hn : l.Nodup) :
    consume l s = if ∀ a ∈ l, a ∈ s then some (s.filter (fun x => decide (x ∉ l))) else none := by
  induction l generalizing s with
  | nil => simp [consume, List.filter_eq_self.2]
  | cons a l ih =>
    rw [List.nodup_cons] at hn
    unfold consume
    by_cases ha : a ∈ s
    · rw [if_pos ha, ih _ hn.2]
      by_cases hl : ∀ b ∈ l, b ∈ s
      · rw [if_pos, if_pos]
        · rw [List.filter_filter]
          congr 1
          apply List.filter_congr
          intro x _
          simp only [List.mem_cons, not_or, decide_not, Bool.decide_and, Bool.and_comm]
        · intro b hb
          rcases List.mem_cons.1 hb with rfl | hb
          · exact ha
          · exact hl b hb
        · intro b hb
          rw [List.mem_filter]
          exact ⟨hl b hb, by simpa using fun h : b = a => hn.1 (h ▸ hb)⟩
      · rw [if_neg, if_neg]
        · exact fun h => hl fun b hb => h b (List.mem_cons_of_mem _ hb)
        · exact fun h => hl fun b hb => (List.mem_filter.1 (h b hb)).1
    · rw [if_neg ha, if_neg (fun h => ha (h a (List.mem_cons_self ..)))]

theorem consume_perm (l l' s : List String) (hn : l.Nodup) (hp : l.Perm l') : consume l s = consume l' s := by
  rw [consume_eq l s hn, consume_eq l' s (hp.nodup_iff.1 hn)]
  have h1 : (∀ a ∈ l, a ∈ s) ↔ ∀ a ∈ l', a ∈ s :=
    ⟨fun h a ha => h a (hp.mem_iff.2 ha), fun h a ha => h a (hp.mem_iff.1 ha)⟩
  have h2 : s.filter (fun x => decide (x ∉ l)) = s.filter (fun x => decide (x ∉ l')) := by
    apply List.filter_congr
    intro x _
    simp only [hp.mem_iff]
  rw [h2]
  by_cases h : ∀ a ∈ l, a ∈ s
  · rw [if_pos h, if_pos (h1.1 h)]
  · rw [if_neg h, if_neg (fun h' => h (h1.2 h'))]

theorem innerSteps_run (m0 : Dim String) (tail : List (Dim String)) (a0 : String) (h0 : a0 ∈ m0.axes) :
    ∀ (ds : List (Dim String)) (s : List String), a0 ∈ s → (∀ d ∈ ds, a0 ∉ d.axes) →
      innerSteps (ds ++ m0 :: tail) s =
        match consume (ds.flatMap (·.axes) ++ m0.axes) s with
        | none => none
        | some s' => (innerSteps tail s').map (genSize ds * m0.size * ·) := by
  intro ds
  induction ds with
  | nil =>
    intro s hs _
    rw [List.nil_append, innerSteps, if_neg (by rintro ⟨-, rfl⟩; exact nomatch hs)]
    simp only [List.flatMap_nil, List.nil_append, genSize, Nat.one_mul]
    cases consume m0.axes s <;> rfl
  | cons d ds ih =>
    intro s hs hd
    rw [List.cons_append, innerSteps, if_neg (by rintro ⟨-, rfl⟩; exact nomatch hs), List.flatMap_cons,
      List.append_assoc, DetStep.consume_append]
    cases hc : consume d.axes s with
    | none => rfl
    | some s' =>
      have hs' : a0 ∈ s' := ((consume_spec hc).2 a0).2 ⟨hs, hd d (List.mem_cons_self ..)⟩
      dsimp only [Option.bind_some]
      rw [ih s' hs' (fun x hx => hd x (List.mem_cons_of_mem _ hx))]
      cases consume (ds.flatMap (·.axes) ++ m0.axes) s' with
      | none => rfl
      | some s'' =>
        dsimp only
        rw [Option.map_map]
        congr 1
        funext n
        simp only [Function.comp, genSize, Nat.mul_assoc]

theorem innerSteps_post (X Y : List (Dim String)) (a0 : String) (axes : List String)
    (h : ∀ s, a0 ∈ s → (∀ x ∈ s, x ∈ axes) → innerSteps X s = innerSteps Y s) :
    ∀ (ds : List (Dim String)) (s : List String), a0 ∈ s → (∀ x ∈ s, x ∈ axes) → (∀ d ∈ ds, a0 ∉ d.axes) →
      innerSteps (ds ++ X) s = innerSteps (ds ++ Y) s := by
  intro ds
  induction ds with
  | nil => intro s hs hsub _; exact h s hs hsub
  | cons d ds ih =>
    intro s hs hsub hd
    rw [List.cons_append, List.cons_append, innerSteps, innerSteps]
    cases hc : consume d.axes s with
    | none => rfl
    | some s' =>
      dsimp only
      rw [ih s' (((consume_spec hc).2 a0).2 ⟨hs, hd d (List.mem_cons_self ..)⟩)
        (fun x hx => hsub x (((consume_spec hc).2 x).1 hx).1)
        (fun x hx => hd x (List.mem_cons_of_mem _ hx))]

theorem innerSteps_post_some (X : List (Dim String)) (a0 : String) (axes : List String) :
    ∀ (ds : List (Dim String)) (s : List String) (n : Nat), a0 ∈ s → (∀ x ∈ s, x ∈ axes) →
      (∀ d ∈ ds, a0 ∉ d.axes) → innerSteps (ds ++ X) s = some n →
      ∃ s' n', a0 ∈ s' ∧ (∀ x ∈ s', x ∈ axes) ∧ innerSteps X s' = some n' := by
  intro ds
  induction ds with
  | nil => intro s n hs hsub _ h; exact ⟨s, n, hs, hsub, h⟩
  | cons d ds ih =>
    intro s n hs hsub hd h
    rw [List.cons_append, innerSteps, if_neg (by rintro ⟨-, rfl⟩; exact nomatch hs)] at h
    cases hc : consume d.axes s with
    | none => rw [hc] at h; exact nomatch h
    | some s' =>
      rw [hc] at h
      dsimp only at h
      cases hi : innerSteps (ds ++ X) s' with
      | none => rw [hi] at h; exact nomatch h
      | some n' =>
        exact ih s' n' (((consume_spec hc).2 a0).2 ⟨hs, hd d (List.mem_cons_self ..)⟩)
          (fun x hx => hsub x (((consume_spec hc).2 x).1 hx).1)
          (fun x hx => hd x (List.mem_cons_of_mem _ hx)) hi

theorem outerSteps_append (M : List String) (l1 l2 : List (Dim String)) :
    outerSteps M (l1 ++ l2) = outerSteps M l1 * outerSteps M l2 := by
  induction l1 with
  | nil => simp [outerSteps]
  | cons d ds ih =>
    rw [List.cons_append, outerSteps, outerSteps, ih]
    split
    · rfl
    · rw [Nat.mul_assoc]

theorem outerSteps_touched (M : List String) (l : List (Dim String)) (h : ∀ d ∈ l, ∃ a ∈ d.axes, a ∈ M) :
    outerSteps M l = 1 := by
  induction l with
  | nil => rfl
  | cons d ds ih =>
    rw [outerSteps, if_pos, ih (fun x hx => h x (List.mem_cons_of_mem _ hx))]
    obtain ⟨a, ha, hm⟩ := h d (List.mem_cons_self ..)
    exact List.any_eq_true.2 ⟨a, ha, by simpa using hm⟩

/-- a dimension other than the one with the axis `a0` does not have it -/
theorem nodup_apart (l1 l2 : List (Dim String)) (m0 : Dim String)
    (hn : ((l1 ++ m0 :: l2).flatMap (·.axes)).Nodup) (a0 : String) (h0 : a0 ∈ m0.axes) :
    (∀ d ∈ l1, a0 ∉ d.axes) ∧ ∀ d ∈ l2, a0 ∉ d.axes := by
  rw [List.flatMap_append, List.flatMap_cons] at hn
  have h1 := List.nodup_append.1 hn
  constructor
  · intro d hd hc
    exact h1.2.2 a0 (List.mem_flatMap.2 ⟨d, hd, hc⟩) a0 (List.mem_append_left _ h0) rfl
  · intro d hd hc
    exact (List.nodup_append.1 h1.2.1).2.2 a0 h0 a0 (List.mem_flatMap.2 ⟨d, hd, hc⟩) rfl

theorem genSize_squash (axes : List String) (dims : List (Dim String)) :
    genSize (squashDims axes dims) = genSize dims := by
  rcases squash_pieces axes dims with ⟨pre, m0, mids, post, h1, h2, -⟩ | ⟨h, -⟩
  · rw [h2, h1, genSize_append, genSize_append, genSize_append, genSize, mergeDims, Nat.mul_assoc]
  · rw [h]

theorem inner_squash (axes : List String) (dims : List (Dim String)) (hn : (dims.flatMap (·.axes)).Nodup) :
    innerSteps (squashDims axes dims).reverse axes = innerSteps dims.reverse axes := by
  rcases squash_pieces axes dims with ⟨pre, m0, mids, post, h1, h2, ⟨a0, h3, h4⟩, h5, h6⟩ | ⟨h, -⟩
  · rw [h2, h1]
    have hn' := hn
    rw [h1, List.append_assoc, List.cons_append] at hn'
    have hap := nodup_apart pre (mids ++ post) m0 hn' a0 h3
    simp only [List.reverse_append, List.reverse_cons, List.append_assoc, List.singleton_append]
    apply innerSteps_post _ _ a0 axes
    · intro s hs _
      have e1 := innerSteps_run m0 pre.reverse a0 h3 mids.reverse s hs
        (fun d hd => hap.2 d (List.mem_append_left _ (List.mem_reverse.1 hd)))
      have e2 := innerSteps_run (mergeDims (m0 :: mids)) pre.reverse a0
        (List.mem_flatMap.2 ⟨m0, List.mem_cons_self .., h3⟩) [] s hs (fun d hd => nomatch hd)
      rw [List.nil_append] at e2
      rw [e1, e2]
      have hperm : ([].flatMap (fun d : Dim String => d.axes) ++ (mergeDims (m0 :: mids)).axes).Perm
          (mids.reverse.flatMap (·.axes) ++ m0.axes) := by
        show (m0.axes ++ mids.flatMap (·.axes)).Perm _
        refine List.perm_append_comm.trans ?_
        exact List.Perm.append_right _ ((List.reverse_perm mids).symm.flatMap_right _)
      have hnd : ([].flatMap (fun d : Dim String => d.axes) ++ (mergeDims (m0 :: mids)).axes).Nodup := by
        show ((m0 :: mids).flatMap (·.axes)).Nodup
        rw [h1, List.flatMap_append, List.flatMap_append] at hn
        exact (List.nodup_append.1 (List.nodup_append.1 hn).1).2.1
      rw [consume_perm _ _ s hnd hperm]
      cases consume (mids.reverse.flatMap (·.axes) ++ m0.axes) s with
      | none => rfl
      | some s' =>
        dsimp only
        congr 1
        funext n
        rw [genSize_reverse]
        simp only [mergeDims, genSize, Nat.one_mul, Nat.mul_comm]
    · exact h4
    · exact fun x hx => hx
    · intro d hd
      exact hap.2 d (List.mem_append_right _ (List.mem_reverse.1 hd))
  · rw [h]

theorem outer_squash (axes : List String) (dims : List (Dim String)) (hn : (dims.flatMap (·.axes)).Nodup)
    (hs : ∀ d ∈ dims, d.axes ≠ []) (n : Nat) (hi : innerSteps dims.reverse axes = some n) :
    outerSteps axes (squashDims axes dims).reverse = outerSteps axes dims.reverse := by
  rcases squash_pieces axes dims with ⟨pre, m0, mids, post, h1, h2, ⟨a0, h3, h4⟩, h5, h6⟩ | ⟨h, -⟩
  · have hn' := hn
    rw [h1, List.append_assoc, List.cons_append] at hn'
    have hap := nodup_apart pre (mids ++ post) m0 hn' a0 h3
    have hmid : ∀ d ∈ mids.reverse ++ [m0], ∃ a ∈ d.axes, a ∈ axes := by
      rw [h1] at hi
      simp only [List.reverse_append, List.reverse_cons, List.append_assoc, List.singleton_append] at hi
      obtain ⟨s', n', k1, k2, k3⟩ := innerSteps_post_some _ a0 axes post.reverse axes n h4 (fun x hx => hx)
        (fun d hd => hap.2 d (List.mem_append_right _ (List.mem_reverse.1 hd))) hi
      rw [innerSteps_run m0 pre.reverse a0 h3 mids.reverse s' k1
        (fun d hd => hap.2 d (List.mem_append_left _ (List.mem_reverse.1 hd)))] at k3
      cases hc : consume (mids.reverse.flatMap (·.axes) ++ m0.axes) s' with
      | none => rw [hc] at k3; exact nomatch k3
      | some s'' =>
        intro d hd
        rcases List.mem_append.1 hd with hd | hd
        · have hdne : d.axes ≠ [] := hs d (by rw [h1]; simp [List.mem_reverse.1 hd])
          obtain ⟨a, ha⟩ := List.exists_mem_of_ne_nil _ hdne
          exact ⟨a, ha, k2 a ((consume_spec hc).1 a (List.mem_append_left _ (List.mem_flatMap.2 ⟨d, hd, ha⟩)))⟩
        · rw [List.mem_singleton.1 hd]; exact ⟨a0, h3, h4⟩
    rw [h2, h1]
    simp only [List.reverse_append, List.reverse_cons, outerSteps_append]
    have e1 := outerSteps_touched axes _ hmid
    rw [outerSteps_append] at e1
    have e2 := outerSteps_touched axes [mergeDims (m0 :: mids)] (by
      intro d hd
      rw [List.mem_singleton.1 hd]
      exact ⟨a0, List.mem_flatMap.2 ⟨m0, List.mem_cons_self .., h3⟩, h4⟩)
    rw [e1, e2]
    simp
  · rw [h]

/-- C93: unrolling does not change the scan: for a generator whose dimensions have different axes, and that has no
dimension without axes, the number of steps and how they are cut into runs, with any breakpoints, are the same as
without; and a scan that would be refused is still refused. -/
theorem unrolling_keeps_runs (axes : List String) (dims : List (Dim String)) (breakpoints : List Int)
    (hn : (dims.flatMap (·.axes)).Nodup) (hs : ∀ d ∈ dims, d.axes ≠ []) :
    genSize (squashDims axes dims) = genSize dims ∧
    getStepsPerRun (squashDims axes dims) axes breakpoints = getStepsPerRun dims axes breakpoints := by
  refine ⟨genSize_squash axes dims, ?_⟩
  unfold getStepsPerRun
  rw [inner_squash axes dims hn]
  cases hi : innerSteps dims.reverse axes with
  | none => rfl
  | some n =>
    dsimp only
    rw [outer_squash axes dims hn hs n hi]

/-- C93: without breakpoints, this is so for dimensions without axes too. -/
theorem unrolling_keeps_runs_without_breakpoints (axes : List String) (dims : List (Dim String))
    (hn : (dims.flatMap (·.axes)).Nodup) :
    getStepsPerRun (squashDims axes dims) axes [] = getStepsPerRun dims axes [] := by
  unfold getStepsPerRun
  rw [inner_squash axes dims hn]
  rfl

/-- C93 fails with breakpoints for a generator with a dimension that has no axes: what is counted twice before is
counted once after. -/
theorem unrolling_changes_runs_axisless :
    ∃ (dims : List (Dim String)), (dims.flatMap (·.axes)).Nodup ∧
      getStepsPerRun (squashDims ["y", "x"] dims) ["y", "x"] [12] ≠ getStepsPerRun dims ["y", "x"] [12] :=
  ⟨[⟨["y"], 2⟩, ⟨[], 3⟩, ⟨["x"], 2⟩], by decide, by
    intro h
    have h2 := congrArg (fun r => match r with | .ok p => p.steps.length | .error _ => 0) h
    revert h2
    decide +kernel⟩

/-- C93: after unrolling, all axes to be moved that the generator has are in one dimension. -/
theorem one_dimension (axes : List String) (dims : List (Dim String)) (a0 : String) (h0 : a0 ∈ axes)
    (hd : a0 ∈ dims.flatMap (·.axes)) :
    ∃ d ∈ squashDims axes dims, ∀ a ∈ axes, a ∈ dims.flatMap (·.axes) → a ∈ d.axes := by
  rcases squash_pieces axes dims with ⟨pre, m0, mids, post, h1, h2, -, h5, h6⟩ | ⟨-, h⟩
  · refine ⟨mergeDims (m0 :: mids), by rw [h2]; simp, ?_⟩
    intro a ha hin
    rw [h1, List.flatMap_append, List.flatMap_append, List.mem_append, List.mem_append] at hin
    rcases hin with (hin | hin) | hin
    · obtain ⟨d, hd, hda⟩ := List.mem_flatMap.1 hin
      exact absurd ha (h5 d hd a hda)
    · exact hin
    · obtain ⟨d, hd, hda⟩ := List.mem_flatMap.1 hin
      exact absurd ha (h6 d hd a hda)
  · obtain ⟨d, hd, hda⟩ := List.mem_flatMap.1 hd
    exact absurd h0 (h d hd a0 hda)

end

/-! ### non-vacuity and disagreements -/

/-- a grid of 3 rows of 4 points, with no duration -/
def grid : Gen := ⟨[⟨["y"], 3⟩, ⟨["x"], 4⟩], [], 0⟩

def gridParams : Params :=
  [("generator", .gen grid), ("axesToMove", .axes ["y", "x"]), ("detectors", .dets (some [⟨true, "DET", 2⟩]))]

/-- the motion part comes first, so its generator is taken and that of the unrolling part is dropped once -/
def gridParts : List Part := [.guess 5, .unroll true, .simultaneous ["x", "y", "z"], .guess 7, .doubleTrigger "DET"]

/-- The hypotheses of `unrolled_in_three` are met, and all three rounds are needed here. -/
example : Has gridParams ["y", "x"] grid (some [⟨true, "DET", 2⟩]) ∧
    (∀ pt ∈ gridParts, Fine ["y", "x"] (some [⟨true, "DET", 2⟩]) pt) ∧
    asked gridParts gridParams = 3 ∧
    ValParts.validate gridParts gridParams = .ok
      [("generator", .gen ⟨[⟨["y", "x"], 12⟩], [["y", "x"]], 7⟩), ("axesToMove", .axes ["y", "x"]),
       ("detectors", .dets (some [⟨true, "DET", 2⟩]))] := by
  refine ⟨⟨rfl, rfl, .inl rfl⟩, ?_, rfl, rfl⟩
  intro pt hpt
  simp only [gridParts, List.mem_cons, List.not_mem_nil, or_false] at hpt
  rcases hpt with rfl | rfl | rfl | rfl | rfl
  · exact (by decide : (0 : Int) < 5)
  · trivial
  · exact (by decide : ∀ a ∈ ["y", "x"], a ∈ ["x", "y", "z"])
  · exact (by decide : (0 : Int) < 7)
  · exact ⟨_, rfl, by decide⟩

/-- and so are those of `unrolling_keeps_runs` -/
example : (grid.dims.flatMap (·.axes)).Nodup ∧ (∀ d ∈ grid.dims, d.axes ≠ []) ∧
    Steps.getStepsPerRun (squashDims ["y", "x"] grid.dims) ["y", "x"] [4, 8] = .ok ⟨[4, 8], true, some [4, 12]⟩ :=
  ⟨by decide, by decide, rfl⟩

/-- C93: a generator that already squashes more than the axes to be moved into one dimension is squashed a second
time. -/
theorem superset_squashed_again :
    ∃ g p g', g.squashed = [["z", "y", "x"]] ∧
      ValParts.validate [.unroll true] [("generator", .gen g), ("axesToMove", .axes ["y", "x"])] = .ok p ∧
      Dict.get? p "generator" = some (.gen g') ∧ g'.squashed = [["z", "y", "x"], ["y", "x"]] :=
  ⟨⟨[⟨["z", "y", "x"], 24⟩], [["z", "y", "x"]], 1⟩, _, _, rfl, rfl, rfl, rfl⟩

/-- C93: a block with a DoubleTriggerPart refuses every scan for which no table of detectors is given, whatever else is
asked for. -/
theorem double_trigger_needs_detectors (parts : List Part) (m : String) (hm : Part.doubleTrigger m ∈ parts)
    (hno : ∀ pt ∈ parts, ∀ f, pt ≠ .other f) (axes : List String) (g : Gen) :
    ValParts.validate parts [("generator", .gen g), ("axesToMove", .axes axes)] = .error .partRaised :=
  objection_refused parts _ axes g none ⟨rfl, rfl, .inr ⟨rfl, rfl⟩⟩ hno (.inr ⟨m, hm, .inl rfl⟩)

/-- Two parts that want different things of the generator all the time are never content: this is what the limit of
ten is for. -/
theorem quarrel_given_up :
    let f (d : Int) : Nat → Params → Except Err (List (Tweak String Val)) := fun _ p =>
      match Dict.get? p "generator" with
      | some (.gen g) => if g.duration = d then .ok [] else .ok [⟨"generator", .gen { g with duration := d }⟩]
      | _ => .error .partRaised
    ValParts.validate [.other (f 2), .other (f 3)] [("generator", .gen grid), ("axesToMove", .axes [])] =
      .error .inconsistent := rfl

end Verif.Props.ValParts
