import Verif.Spec.Launch
/-!
C108: imalcolm gives a prompt with what it was asked for, or exits, and stops when the user leaves.
-/
namespace Verif.Props.Launch
open Verif.Launch Verif.Spec.Launch

/-! Waiting for hooks -/

theorem waitHooks_done {ts : List (Option Nat)} {now t : Nat} :
    waitHooks now ts = .done t ↔ AllBy t ts ∧ now ≤ t ∧ ∀ b, now ≤ b → AllBy b ts → t ≤ b := by
  induction ts generalizing now with
  | nil =>
    simp only [waitHooks, Res.done.injEq]
    constructor
    · rintro rfl
      exact ⟨by intro e he; simp at he, Nat.le_refl _, fun b hb _ => hb⟩
    · rintro ⟨_, h1, h2⟩
      have := h2 now (Nat.le_refl _) (by intro e he; simp at he)
      omega
  | cons x xs ih =>
    cases x with
    | none =>
      simp only [waitHooks]
      constructor
      · intro h; cases h
      · rintro ⟨h, _⟩
        obtain ⟨s, hs, _⟩ := h none (by simp)
        cases hs
    | some u =>
      simp only [waitHooks, ih]
      have key : ∀ b, AllBy b (some u :: xs) ↔ u ≤ b ∧ AllBy b xs := by
        intro b
        constructor
        · intro h
          obtain ⟨s, hs, hb⟩ := h (some u) (by simp)
          cases hs
          exact ⟨hb, fun e he => h e (by simp [he])⟩
        · rintro ⟨h1, h2⟩ e he
          rcases List.mem_cons.mp he with rfl | he
          · exact ⟨u, rfl, h1⟩
          · exact h2 e he
      rw [key]
      constructor
      · rintro ⟨h1, h2, h3⟩
        refine ⟨⟨by omega, h1⟩, by omega, fun b hb hx => ?_⟩
        have := (key b).mp hx
        exact h3 b (by omega) this.2
      · rintro ⟨⟨h1, h2⟩, h3, h4⟩
        exact ⟨h2, by omega, fun b hb hx => h4 b (by omega) ((key b).mpr ⟨by omega, hx⟩)⟩

theorem waitHooks_never {ts : List (Option Nat)} {now : Nat} : waitHooks now ts = .never ↔ OneNever ts := by
  induction ts generalizing now with
  | nil => simp [waitHooks, OneNever]
  | cons x xs ih =>
    cases x with
    | none => simp [waitHooks, OneNever]
    | some u => simp only [waitHooks, ih, OneNever]; simp

theorem waitHooks_not_raised {ts : List (Option Nat)} {now t : Nat} : waitHooks now ts ≠ .raised t := by
  induction ts generalizing now with
  | nil => simp [waitHooks]
  | cons x xs ih =>
    cases x with
    | none => simp [waitHooks]
    | some u => simp only [waitHooks]; exact ih

theorem within_from {d now : Nat} {ts : List (Option Nat)} : AllBy (now + d) (from_ now ts) ↔ Within d ts := by
  constructor
  · intro h e he
    obtain ⟨s, hs, hb⟩ := h (e.map (now + ·)) (List.mem_map.mpr ⟨e, he, rfl⟩)
    cases e with
    | none => cases hs
    | some u =>
      simp only [Option.map_some, Option.some.injEq] at hs
      exact ⟨u, rfl, by omega⟩
  · intro h e he
    obtain ⟨x, hx, rfl⟩ := List.mem_map.mp he
    obtain ⟨s, rfl, hb⟩ := h x hx
    exact ⟨now + s, rfl, by omega⟩

theorem never_from {now : Nat} {ts : List (Option Nat)} : OneNever (from_ now ts) ↔ OneNever ts := by
  simp [OneNever, from_]

theorem waitHooks_within {d now : Nat} {ts : List (Option Nat)} (h : Within d ts) :
    ∃ t, waitHooks now (from_ now ts) = .done t ∧ now ≤ t ∧ t ≤ now + d ∧ AllBy t (from_ now ts) := by
  cases hr : waitHooks now (from_ now ts) with
  | done t =>
    have := waitHooks_done.mp hr
    exact ⟨t, rfl, this.2.1, this.2.2 _ (by omega) (within_from.mpr h), this.1⟩
  | raised t => exact absurd hr waitHooks_not_raised
  | never =>
    have := never_from.mp (waitHooks_never.mp hr)
    obtain ⟨s, hs, _⟩ := h none this
    cases hs

/-! Starting -/

/-- Starting takes as long as the slowest function of the blocks, and then the slowest that publishes -/
theorem starts_within {to : Option Nat} {x : Times} {now d d' : Nat} (h : Within d x.start)
    (hp : x.hidden = false → Within d' x.publish) : ∃ t, start to x now = .done t ∧ t ≤ now + d + d' := by
  obtain ⟨t, ht, hn, hd, _⟩ := waitHooks_within (now := now) h
  unfold start
  rw [ht]
  dsimp only
  by_cases hh : x.hidden = true
  · rw [if_pos hh]
    exact ⟨t, rfl, by omega⟩
  · rw [if_neg hh]
    obtain ⟨t', ht', _, hd', _⟩ := waitHooks_within (now := t) (hp (by simpa using hh))
    exact ⟨t', ht', by omega⟩

example : ∃ t, start (some 60000) ⟨[some 10, some 300], false, [some 5]⟩ 7 = .done t ∧ t ≤ 7 + 300 + 5 :=
  starts_within (by intro e he; simp at he; rcases he with rfl | rfl <;> exact ⟨_, rfl, by omega⟩)
    (by intro _ e he; simp at he; subst he; exact ⟨_, rfl, by omega⟩)

/-- When it has started, the functions of the blocks have returned, and those that publish if there is something to publish -/
theorem started {to : Option Nat} {x : Times} {now t : Nat} (h : start to x now = .done t) :
    now ≤ t ∧ Within (t - now) x.start ∧ (x.hidden = false → Within (t - now) x.publish) := by
  unfold start at h
  cases hr : waitHooks now (from_ now x.start) with
  | raised u => exact absurd hr waitHooks_not_raised
  | never => rw [hr] at h; cases h
  | done u =>
    rw [hr] at h
    dsimp only at h
    have hu := waitHooks_done.mp hr
    have hw : Within (u - now) x.start := within_from.mp (by rw [show now + (u - now) = u by omega]; exact hu.1)
    by_cases hh : x.hidden = true
    · rw [if_pos hh] at h
      cases h
      exact ⟨hu.2.1, hw, fun h' => by rw [hh] at h'; cases h'⟩
    · rw [if_neg hh] at h
      have ht := waitHooks_done.mp h
      refine ⟨by omega, fun e he => ?_, fun _ e he => ?_⟩
      · obtain ⟨s, rfl, hs⟩ := hw e he
        exact ⟨s, rfl, by omega⟩
      · have hw' : Within (t - u) x.publish := within_from.mp (by rw [show u + (t - u) = t by omega]; exact ht.1)
        obtain ⟨s, rfl, hs⟩ := hw' e he
        exact ⟨s, rfl, by omega⟩

/-- It never raises -/
theorem start_never_raises {to : Option Nat} {x : Times} {now t : Nat} : start to x now ≠ .raised t := by
  unfold start
  cases hr : waitHooks now (from_ now x.start) with
  | raised u => exact absurd hr waitHooks_not_raised
  | never => simp
  | done u =>
    dsimp only
    by_cases hh : x.hidden = true
    · rw [if_pos hh]; simp
    · rw [if_neg hh]; exact waitHooks_not_raised

/-- It does not return, whatever the timeout, exactly if a function it calls does not -/
theorem start_hangs_iff {to : Option Nat} {x : Times} {now : Nat} :
    start to x now = .never ↔ OneNever x.start ∨ (x.hidden = false ∧ OneNever x.publish) := by
  unfold start
  cases hr : waitHooks now (from_ now x.start) with
  | raised u => exact absurd hr waitHooks_not_raised
  | never =>
    have := never_from.mp (waitHooks_never.mp hr)
    simp [this]
  | done u =>
    have hn : ¬ OneNever x.start := by
      intro h
      have := waitHooks_never (now := now).mpr (never_from (now := now).mpr h)
      rw [this] at hr; cases hr
    dsimp only
    by_cases hh : x.hidden = true
    · rw [if_pos hh]; simp [hn, hh]
    · rw [if_neg hh, waitHooks_never, never_from]
      simp [hn, hh]

/-- Starting with a timeout of ten seconds takes ten minutes, or never ends -/
theorem start_not_timed : start (some 10000) ⟨[some 600000], true, []⟩ 0 = .done 600000 ∧
    start (some 10000) ⟨[some 5, none], true, []⟩ 0 = .never := by decide

/-! Stopping -/

theorem waitSpawned_done {to : Nat} {es : List (Option Nat)} {now t : Nat} (h : waitSpawned to now es = .done t) :
    AllBy t es ∧ now ≤ t ∧ ∀ b, now ≤ b → AllBy b es → t ≤ b := by
  induction es generalizing now with
  | nil =>
    simp only [waitSpawned, Res.done.injEq] at h
    subst h
    exact ⟨by intro e he; simp at he, Nat.le_refl _, fun b hb _ => hb⟩
  | cons x xs ih =>
    cases x with
    | none => simp [waitSpawned] at h
    | some u =>
      simp only [waitSpawned] at h
      split at h
      · obtain ⟨h1, h2, h3⟩ := ih h
        refine ⟨?_, by omega, fun b hb hx => h3 b ?_ (fun e he => hx e (by simp [he]))⟩
        · intro e he
          rcases List.mem_cons.mp he with rfl | he
          · exact ⟨u, rfl, by omega⟩
          · exact h1 e he
        · obtain ⟨s, hs, hsb⟩ := hx (some u) (by simp)
          cases hs
          omega
      · cases h

theorem waitSpawned_ends {to : Nat} {es : List (Option Nat)} {now : Nat} :
    ∃ t, (waitSpawned to now es = .done t ∨ waitSpawned to now es = .raised t) ∧ t ≤ now + to * es.length := by
  induction es generalizing now with
  | nil => exact ⟨now, .inl rfl, by simp⟩
  | cons x xs ih =>
    have hm : to * (xs.length + 1) = to * xs.length + to := Nat.mul_succ _ _
    cases x with
    | none => exact ⟨now + to, .inr rfl, by simp only [List.length_cons]; rw [hm]; omega⟩
    | some u =>
      simp only [waitSpawned, List.length_cons]
      rw [hm]
      by_cases hu : u ≤ now + to
      · rw [if_pos hu]
        obtain ⟨t, ht, hb⟩ := ih (now := max now u)
        exact ⟨t, ht, by omega⟩
      · rw [if_neg hu]
        exact ⟨now + to, .inr rfl, by omega⟩

theorem waitSpawned_raised {to : Nat} {es : List (Option Nat)} {now t : Nat} (h : waitSpawned to now es = .raised t) :
    ¬ AllBy (now + to) es ∧ ¬ AllBy t es ∧ now + to ≤ t := by
  induction es generalizing now with
  | nil => simp [waitSpawned] at h
  | cons x xs ih =>
    have hno : ∀ b, (∀ s, x = some s → ¬ s ≤ b) → ¬ AllBy b (x :: xs) := by
      intro b hb ha
      obtain ⟨s, hs, hsb⟩ := ha x (by simp)
      exact hb s hs hsb
    cases x with
    | none =>
      simp only [waitSpawned, Res.raised.injEq] at h
      subst h
      exact ⟨hno _ (by intro s hs; cases hs), hno _ (by intro s hs; cases hs), Nat.le_refl _⟩
    | some u =>
      simp only [waitSpawned] at h
      split at h
      · obtain ⟨h1, h2, h3⟩ := ih h
        refine ⟨fun ha => h1 (fun e he => ?_), fun ha => h2 (fun e he => ha e (by simp [he])), by omega⟩
        obtain ⟨s, hs, hsb⟩ := ha e (by simp [he])
        exact ⟨s, hs, by omega⟩
      · simp only [Res.raised.injEq] at h
        subst h
        exact ⟨hno _ (by intro s hs; cases hs; omega), hno _ (by intro s hs; cases hs; omega), Nat.le_refl _⟩

/-- When it has stopped, all functions of the blocks have returned and all spawned functions have ended, and it took no longer
than that -/
theorem stopped {to now t : Nat} {hooks spawned : List (Option Nat)} (h : stop to hooks spawned now = .done t) :
    now ≤ t ∧ Within (t - now) hooks ∧ AllBy t spawned ∧
      ∀ b, now ≤ b → Within (b - now) hooks → AllBy b spawned → t ≤ b := by
  unfold stop at h
  cases hr : waitHooks now (from_ now hooks) with
  | raised u => exact absurd hr waitHooks_not_raised
  | never => rw [hr] at h; cases h
  | done u =>
    rw [hr] at h
    dsimp only at h
    have hu := waitHooks_done.mp hr
    obtain ⟨h1, h2, h3⟩ := waitSpawned_done h
    refine ⟨by omega, fun e he => ?_, h1, fun b hb hw hs => h3 b (hu.2.2 b hb ?_) hs⟩
    · have hw' : Within (u - now) hooks := within_from.mp (by rw [show now + (u - now) = u by omega]; exact hu.1)
      obtain ⟨s, rfl, hs⟩ := hw' e he
      exact ⟨s, rfl, by omega⟩
    · have := (within_from (now := now)).mpr hw
      rwa [show now + (b - now) = b by omega] at this

/-- If the functions of the blocks return, it ends: not later than a timeout for each spawned function after that -/
theorem stop_ends_partial {to now d : Nat} {hooks spawned : List (Option Nat)} (h : Within d hooks) :
    ∃ t, (stop to hooks spawned now = .done t ∨ stop to hooks spawned now = .raised t) ∧
      t ≤ now + d + to * spawned.length := by
  obtain ⟨u, hu, hn, hd, _⟩ := waitHooks_within (now := now) h
  obtain ⟨t, ht, hb⟩ := waitSpawned_ends (to := to) (es := spawned) (now := u)
  unfold stop
  rw [hu]
  exact ⟨t, ht, by omega⟩

example : ∃ t, (stop 100 [some 3, some 20] [some 9, none] 1000 = .done t ∨ stop 100 [some 3, some 20] [some 9, none] 1000 = .raised t) ∧
    t ≤ 1000 + 20 + 100 * 2 :=
  stop_ends_partial (by intro e he; simp at he; rcases he with rfl | rfl <;> exact ⟨_, rfl, by omega⟩)

/-- It raises only if a spawned function has not ended although it waited for the timeout -/
theorem stop_raised {to now t : Nat} {hooks spawned : List (Option Nat)} (h : stop to hooks spawned now = .raised t) :
    now + to ≤ t ∧ ¬ AllBy t spawned := by
  unfold stop at h
  cases hr : waitHooks now (from_ now hooks) with
  | raised u => exact absurd hr waitHooks_not_raised
  | never => rw [hr] at h; cases h
  | done u =>
    rw [hr] at h
    dsimp only at h
    have hu := waitHooks_done.mp hr
    obtain ⟨_, h2, h3⟩ := waitSpawned_raised h
    exact ⟨by omega, h2⟩

/-- It stops if the functions of the blocks return and the spawned functions end within the timeout -/
theorem stops {to now d : Nat} {hooks spawned : List (Option Nat)} (h : Within d hooks) (hs : AllBy (now + to) spawned) :
    ∃ t, stop to hooks spawned now = .done t := by
  obtain ⟨u, hu, hn, hd, _⟩ := waitHooks_within (now := now) h
  unfold stop
  rw [hu]
  dsimp only
  cases hw : waitSpawned to u spawned with
  | done t => exact ⟨t, rfl⟩
  | raised t =>
    exfalso
    refine (waitSpawned_raised hw).1 (fun e he => ?_)
    obtain ⟨s, rfl, hb⟩ := hs e he
    exact ⟨s, rfl, by omega⟩
  | never =>
    exfalso
    obtain ⟨t, ht, _⟩ := waitSpawned_ends (to := to) (es := spawned) (now := u)
    rcases ht with ht | ht <;> rw [hw] at ht <;> cases ht

example : ∃ t, stop 100 [some 3, some 20] [some 9, some 1090] 1000 = .done t :=
  stops (d := 20) (by intro e he; simp at he; rcases he with rfl | rfl <;> exact ⟨_, rfl, by omega⟩)
    (by intro e he; simp at he; rcases he with rfl | rfl <;> exact ⟨_, rfl, by omega⟩)

/-- Stopping with a timeout never ends if a function of a block does not -/
theorem stop_hangs_iff {to now : Nat} {hooks spawned : List (Option Nat)} :
    stop to hooks spawned now = .never ↔ OneNever hooks := by
  unfold stop
  cases hr : waitHooks now (from_ now hooks) with
  | raised u => exact absurd hr waitHooks_not_raised
  | never => simp [never_from.mp (waitHooks_never.mp hr)]
  | done u =>
    have hn : ¬ OneNever hooks := by
      intro h
      rw [waitHooks_never.mpr (never_from.mpr h)] at hr; cases hr
    dsimp only
    simp only [hn, iff_false]
    intro hw
    obtain ⟨t, ht, _⟩ := waitSpawned_ends (to := to) (es := spawned) (now := u)
    rcases ht with ht | ht <;> rw [hw] at ht <;> cases ht

theorem stop_not_timed : stop 100 [some 1, none] [] 0 = .never ∧ stop 100 [some 5000] [some 2] 0 = .done 5000 := by decide

/-! The arguments -/

theorem split_ne (sep : Char) (s : Text) : split sep s ≠ [] := by
  cases s with
  | nil => simp [split]
  | cons c cs =>
    rw [split]
    split
    · simp
    · split <;> simp

theorem split_none {sep : Char} {s : Text} (h : sep ∉ s) : split sep s = [s] := by
  induction s with
  | nil => rfl
  | cons c cs ih =>
    simp only [List.mem_cons, not_or] at h
    rw [split, if_neg (fun e => h.1 e.symm), ih h.2]

theorem split_app (sep : Char) (a b : Text) : split sep (a ++ sep :: b) = split sep a ++ split sep b := by
  induction a with
  | nil => simp [split]
  | cons c cs ih =>
    rw [List.cons_append, split, split, ih]
    split
    · simp
    · cases h : split sep cs with
      | nil => exact absurd h (split_ne _ _)
      | cons p ps => simp

/-- The pieces have no separator, and with it in between make the text -/
theorem split_last {sep : Char} {s : Text} {ps : List Text} {e : Text} (h : split sep s = ps ++ [e]) :
    sep ∉ e ∧ ((ps = [] ∧ s = e) ∨ ∃ a, s = a ++ sep :: e ∧ split sep a = ps) := by
  by_cases hs : sep ∈ s
  · -- the last separator
    have : ∃ a b, s = a ++ sep :: b ∧ sep ∉ b := by
      clear h
      induction s with
      | nil => simp at hs
      | cons c cs ih =>
        by_cases hc : sep ∈ cs
        · obtain ⟨a, b, rfl, hb⟩ := ih hc
          exact ⟨c :: a, b, rfl, hb⟩
        · rcases List.mem_cons.mp hs with rfl | h'
          · exact ⟨[], cs, rfl, hc⟩
          · exact absurd h' hc
    obtain ⟨a, b, rfl, hb⟩ := this
    rw [split_app, split_none hb] at h
    obtain ⟨h1, h2⟩ := List.append_inj' h rfl
    cases h2
    exact ⟨hb, .inr ⟨a, rfl, h1⟩⟩
  · rw [split_none hs] at h
    obtain ⟨h1, h2⟩ := List.append_inj' (s₁ := []) h rfl
    cases h2
    exact ⟨hs, .inl ⟨h1.symm, rfl⟩⟩

theorem basename_eq {p b : Text} :
    basename p = b ↔ '/' ∉ b ∧ ∃ dir, p = dir ++ b ∧ (dir = [] ∨ ∃ d, dir = d ++ ['/']) := by
  constructor
  · rintro rfl
    unfold basename
    rcases List.eq_nil_or_concat (split '/' p) with h | ⟨ps, e, h⟩
    · exact absurd h (split_ne _ _)
    · rw [List.concat_eq_append] at h
      rw [h, List.getLastD_concat]
      obtain ⟨h1, h2⟩ := split_last h
      refine ⟨h1, ?_⟩
      rcases h2 with ⟨_, rfl⟩ | ⟨a, rfl, _⟩
      · exact ⟨[], rfl, .inl rfl⟩
      · exact ⟨a ++ ['/'], by simp, .inr ⟨a, rfl⟩⟩
  · rintro ⟨hb, dir, rfl, rfl | ⟨d, rfl⟩⟩
    · rw [List.nil_append, basename, split_none hb]; rfl
    · rw [basename, List.append_assoc, List.singleton_append, split_app, split_none hb, List.getLastD_concat]

/-- The name of the process -/
theorem name_iff {y n : Text} : procName y = some n ↔ FileOf y n := by
  constructor
  · intro h
    unfold procName at h
    split at h
    · rename_i e n' rest hr
      cases h
      obtain ⟨hb, dir, hy, hd⟩ := basename_eq.mp (rfl : basename y = basename y)
      have hs : split '.' (basename y) = (rest.reverse ++ [n]) ++ [e] := by
        have := congrArg List.reverse hr
        simpa using this
      obtain ⟨he, h2⟩ := split_last hs
      rcases h2 with ⟨h2, _⟩ | ⟨a, ha, h2⟩
      · simp at h2
      · obtain ⟨hn, h3⟩ := split_last h2
        rw [ha] at hb
        simp only [List.mem_append, List.mem_cons, not_or] at hb
        rcases h3 with ⟨_, h3⟩ | ⟨pre, hp, _⟩
        · subst h3
          exact ⟨dir, [], e, by rw [hy, ha]; rfl, hd, .inl rfl, hn, he, by simp, hb.1, hb.2.2⟩
        · subst hp
          simp only [List.mem_append, List.mem_cons, not_or] at hb
          refine ⟨dir, pre ++ ['.'], e, by rw [hy, ha]; simp, hd, .inr ⟨pre, rfl⟩, hn, he, ?_, hb.1.2.2, hb.2.2⟩
          simp only [List.mem_append, List.mem_singleton, not_or]
          exact ⟨hb.1.1, by decide⟩
    · cases h
  · rintro ⟨dir, pre, ext, rfl, hd, hp, hn, he, hp', hn', he'⟩
    have hb : basename (dir ++ (pre ++ (n ++ '.' :: ext))) = pre ++ (n ++ '.' :: ext) := by
      refine basename_eq.mpr ⟨?_, dir, rfl, hd⟩
      simp only [List.mem_append, List.mem_cons, not_or]
      exact ⟨hp', hn', by decide, he'⟩
    unfold procName
    rw [hb]
    rcases hp with rfl | ⟨p, rfl⟩
    · rw [List.nil_append, split_app, split_none hn, split_none he]; rfl
    · rw [List.append_assoc, List.singleton_append, split_app, split_app, split_none hn, split_none he]
      simp

/-- A file with one dot in its name gives the name before it -/
theorem name_partial {dir n ext : Text} (hd : dir = [] ∨ ∃ d, dir = d ++ ['/']) (h1 : '.' ∉ n) (h2 : '.' ∉ ext)
    (h3 : '/' ∉ n) (h4 : '/' ∉ ext) : procName (dir ++ (n ++ '.' :: ext)) = some n :=
  name_iff.mpr ⟨dir, [], ext, rfl, hd, .inl rfl, h1, h2, by simp, h3, h4⟩

example : procName "/dls/x.y/p45.yaml".toList = some "p45".toList := by decide

/-- With two dots, what is before the first is lost; without a dot, there is no process -/
theorem dotted_name : procName "/etc/p45.beamline.yaml".toList = some "beamline".toList ∧ procName "/etc/p45".toList = none := by
  decide

/-- The client -/
theorem client_iff {arg : Text} {k : Comms} : client arg = some k ↔ ClientOf arg k := by
  have pre : ∀ x : Text, "ws://".toList.isPrefixOf x = true ↔ ∃ r, x = "ws://".toList ++ r := by
    intro x
    rw [List.isPrefixOf_iff_prefix]
    constructor
    · rintro ⟨r, rfl⟩; exact ⟨r, rfl⟩
    · rintro ⟨r, rfl⟩; exact ⟨r, rfl⟩
  unfold client
  by_cases hp : "ws://".toList.isPrefixOf arg = true
  · rw [if_pos hp]
    obtain ⟨r, rfl⟩ := (pre _).mp hp
    have hd : ("ws://".toList ++ r).drop 5 = r := rfl
    rw [hd]
    constructor
    · intro h
      split at h
      · rename_i h' p' hs
        split at h
        · rename_i hi
          cases h
          obtain ⟨h1, h2⟩ := split_last (ps := [h']) hs
          rcases h2 with ⟨h2, _⟩ | ⟨a, rfl, h2⟩
          · cases h2
          · obtain ⟨h3, h4⟩ := split_last (ps := []) h2
            rcases h4 with ⟨_, rfl⟩ | ⟨a', _, h4⟩
            · simp only [isInt, Bool.and_eq_true, decide_eq_true_eq, List.all_eq_true] at hi
              exact .inl ⟨a, p', rfl, h3, hi.1, hi.2, rfl⟩
            · exact absurd h4 (split_ne _ _)
        · cases h
      · cases h
    · rintro (⟨h', p', he, h1, h2, h3, rfl⟩ | ⟨he, _⟩)
      · have hr := List.append_cancel_left he
        subst hr
        have hc : ':' ∉ p' := by
          intro hm
          have := h3 _ hm
          revert this
          decide
        rw [split_app, split_none h1, split_none hc]
        have hi : isInt p' = true := by
          simp only [isInt, Bool.and_eq_true, decide_eq_true_eq, List.all_eq_true]
          exact ⟨h2, h3⟩
        dsimp only [List.append, List.singleton_append]
        exact if_pos hi
      · have := congrArg List.head? he
        revert this
        simp
  · rw [if_neg hp]
    constructor
    · intro h
      split at h
      · rename_i he
        cases h
        exact .inr ⟨he, rfl⟩
      · cases h
    · rintro (⟨h', p', he, _⟩ | ⟨he, rfl⟩)
      · exact absurd ((pre _).mpr ⟨_, he⟩) hp
      · rw [if_pos he]

example : client "ws://localhost:8008".toList = some (.ws "localhost".toList "8008".toList) ∧ client "pva".toList = some .pva ∧
    client "ws://localhost".toList = none ∧ client "ws://[::1]:80".toList = none ∧ client "PVA".toList = none := by decide

/-! The process -/

theorem addAll_iff {have_ ms r : List Text} (hn : have_.Nodup) :
    addAll have_ ms = some r ↔ r = have_ ++ ms ∧ r.Nodup := by
  induction ms generalizing have_ with
  | nil =>
    simp only [addAll, List.append_nil, Option.some.injEq]
    constructor
    · rintro rfl; exact ⟨rfl, hn⟩
    · rintro ⟨rfl, _⟩; rfl
  | cons m ms ih =>
    rw [addAll]
    by_cases hm : m ∈ have_
    · rw [if_pos hm]
      constructor
      · intro h; cases h
      · rintro ⟨rfl, hd⟩
        exact absurd rfl ((List.nodup_append.mp hd).2.2 m hm m (by simp))
    · rw [if_neg hm, ih]
      · rw [List.append_assoc]; rfl
      · refine List.nodup_append.mpr ⟨hn, by simp, ?_⟩
        rintro a ha b hb rfl
        rw [List.mem_singleton] at hb
        exact hm (hb ▸ ha)

/-- The process made of the arguments -/
def made (a : Args) (w : World) : Option (Text × List Text) :=
  match fromYaml w a.yaml with
  | none => none
  | some (n, mris) => (withClient mris a.client).map (n, ·)

theorem fromYaml_iff {w : World} {y : Option Text} {n : Text} {ys : List Text} :
    fromYaml w y = some (n, ys) ↔ ys.Nodup ∧ ((y = none ∧ n = "Process".toList ∧ ys = []) ∨
      ∃ y', y = some y' ∧ FileOf y' n ∧ w.load = some (ys, false)) := by
  cases y with
  | none =>
    simp only [fromYaml, Option.some.injEq, Prod.mk.injEq]
    constructor
    · rintro ⟨rfl, rfl⟩
      exact ⟨by simp, .inl ⟨trivial, rfl, rfl⟩⟩
    · rintro ⟨_, ⟨_, rfl, rfl⟩ | ⟨_, h, _⟩⟩
      · exact ⟨rfl, rfl⟩
      · cases h
  | some y =>
    simp only [fromYaml]
    cases hn : procName y with
    | none =>
      simp only
      constructor
      · intro h; cases h
      · rintro ⟨_, ⟨h, _⟩ | ⟨y', h, hf, _⟩⟩
        · cases h
        · cases h
          rw [name_iff.mpr hf] at hn
          cases hn
    | some n' =>
      cases hl : w.load with
      | none =>
        simp only
        constructor
        · intro h; cases h
        · rintro ⟨_, ⟨h, _⟩ | ⟨y', _, _, h⟩⟩ <;> cases h
      | some l =>
        obtain ⟨mris, parts⟩ := l
        dsimp only
        cases parts with
        | true =>
          rw [if_pos rfl]
          constructor
          · intro h; cases h
          · rintro ⟨_, ⟨h, _⟩ | ⟨y', _, _, h⟩⟩ <;> cases h
        | false =>
          rw [if_neg (by decide)]
          simp only [Option.map_eq_some_iff, Prod.mk.injEq]
          constructor
          · rintro ⟨r, hr, rfl, rfl⟩
            obtain ⟨h1, h2⟩ := (addAll_iff (by simp)).mp hr
            rw [List.nil_append] at h1
            subst h1
            exact ⟨h2, .inr ⟨y, rfl, name_iff.mp hn, rfl⟩⟩
          · rintro ⟨hd, ⟨h, _⟩ | ⟨y', h, hf, h2⟩⟩
            · cases h
            · cases h
              rw [name_iff.mpr hf] at hn
              cases hn
              cases h2
              exact ⟨_, (addAll_iff (by simp)).mpr ⟨rfl, hd⟩, rfl, rfl⟩

theorem withClient_iff {have_ r : List Text} {c : Option Text} (hn : have_.Nodup) :
    withClient have_ c = some r ↔ ∃ cs, r = have_ ++ cs ∧ r.Nodup ∧
      ((c = none ∧ cs = []) ∨ ∃ c' k, c = some c' ∧ ClientOf c' k ∧ cs = [k.mri]) := by
  cases c with
  | none =>
    simp only [withClient, Option.some.injEq]
    constructor
    · rintro rfl
      exact ⟨[], by simp, hn, .inl ⟨trivial, rfl⟩⟩
    · rintro ⟨cs, rfl, _, ⟨_, rfl⟩ | ⟨_, _, h, _⟩⟩
      · simp
      · cases h
  | some c =>
    simp only [withClient, Option.bind_eq_some_iff]
    constructor
    · rintro ⟨k, hk, hr⟩
      obtain ⟨h1, h2⟩ := (addAll_iff hn).mp hr
      exact ⟨_, h1, h2, .inr ⟨c, k, rfl, client_iff.mp hk, rfl⟩⟩
    · rintro ⟨cs, h1, h2, ⟨h, _⟩ | ⟨c', k, h, hk, rfl⟩⟩
      · cases h
      · cases h
        exact ⟨k, client_iff.mpr hk, (addAll_iff hn).mpr ⟨h1, h2⟩⟩

theorem made_iff {a : Args} {w : World} {n : Text} {mris : List Text} : made a w = some (n, mris) ↔ Makes a w n mris := by
  unfold made
  constructor
  · intro h
    split at h
    · cases h
    · rename_i n' ys hy
      obtain ⟨r, hr, he⟩ := Option.map_eq_some_iff.mp h
      cases he
      obtain ⟨hd, hy'⟩ := fromYaml_iff.mp hy
      obtain ⟨cs, h1, h2, h3⟩ := (withClient_iff hd).mp hr
      exact ⟨ys, cs, h1, h2, hy', h3⟩
  · rintro ⟨ys, cs, h1, h2, hy, hc⟩
    have hd : ys.Nodup := by rw [h1] at h2; exact (List.nodup_append.mp h2).1
    rw [fromYaml_iff.mpr ⟨hd, hy⟩]
    dsimp only
    rw [(withClient_iff hd).mpr ⟨cs, h1, h2, hc⟩]
    rfl

theorem prepare_eq (a : Args) (w : World) :
    prepare a w = (match made a w with
      | none => .fail (if a.yaml.isSome then w.loading else 0)
      | some (n, mris) =>
        match start (some 60000) w.times (if a.yaml.isSome then w.loading else 0) with
        | .done t => .ok t n mris
        | .raised t => .fail t
        | .never => .never) := by
  unfold prepare made
  dsimp only
  cases fromYaml w a.yaml with
  | none => rfl
  | some p =>
    obtain ⟨n, ys⟩ := p
    dsimp only
    cases withClient ys a.client with
    | none => rfl
    | some r => rfl

/-- When loading started and when it was done -/
theorem prompt_cases {a : Args} {w : World} {n : Text} {mris : List Text} :
    prompt a w = some (n, mris) ↔ Makes a w n mris ∧
      ∃ t, start (some 60000) w.times (if a.yaml.isSome then w.loading else 0) = .done t ∧ t ≤ 65000 := by
  unfold prompt
  rw [prepare_eq, ← made_iff]
  cases made a w with
  | none => simp
  | some p =>
    obtain ⟨n', r⟩ := p
    dsimp only
    cases start (some 60000) w.times (if a.yaml.isSome then w.loading else 0) with
    | done t =>
      dsimp only
      by_cases ht : t ≤ 65000
      · simp [ht]
      · rw [if_neg ht]
        constructor
        · intro h; cases h
        · rintro ⟨_, t', h1, h2⟩
          cases h1
          exact absurd h2 ht
    | raised t => simp
    | never => simp

/-- If there is a prompt, the process has the name and the blocks of the arguments and no others, and all of them have started -/
theorem prompt_has {a : Args} {w : World} {n : Text} {mris : List Text} (h : prompt a w = some (n, mris)) :
    Makes a w n mris ∧ Within 65000 w.times.start := by
  obtain ⟨h1, t, ht, hb⟩ := prompt_cases.mp h
  refine ⟨h1, fun e he => ?_⟩
  obtain ⟨_, hs, _⟩ := started ht
  obtain ⟨s, rfl, hs'⟩ := hs e he
  exact ⟨s, rfl, by omega⟩

/-- There is a prompt if the arguments make a process and loading and starting it takes 65 seconds at most -/
theorem prompts {a : Args} {w : World} {n : Text} {mris : List Text} {d d' : Nat} (h : Makes a w n mris)
    (hs : Within d w.times.start) (hp : Within d' w.times.publish) (ht : w.loading + d + d' ≤ 65000) :
    prompt a w = some (n, mris) := by
  obtain ⟨t, h1, h2⟩ := starts_within (to := some 60000) (now := if a.yaml.isSome then w.loading else 0) hs (fun _ => hp)
  refine prompt_cases.mpr ⟨h, t, h1, ?_⟩
  split at h2 <;> omega

def here : World := ⟨800, some (["BL:DET".toList, "BL:SCAN".toList], false), ⟨[some 20, some 1000, some 30], false, [some 4]⟩⟩

example : prompt ⟨some "/dls/bl.yaml".toList, some "ws://pc1:8008".toList⟩ here =
    some ("bl".toList, ["BL:DET".toList, "BL:SCAN".toList, "pc1:8008".toList]) := by decide

/-- It exits with an error exactly if the arguments make no process -/
theorem exits_1_iff {a : Args} {w : World} {s : Res} : main a w s = .exit 1 ↔ ¬ ∃ n mris, Makes a w n mris := by
  have hm : (∃ n mris, Makes a w n mris) ↔ (made a w).isSome := by
    constructor
    · rintro ⟨n, mris, h⟩
      rw [made_iff.mpr h]; rfl
    · intro h
      obtain ⟨p, hp⟩ := Option.isSome_iff_exists.mp h
      exact ⟨p.1, p.2, made_iff.mp hp⟩
  rw [hm]
  unfold main
  rw [prepare_eq]
  cases hmd : made a w with
  | none => simp
  | some p =>
    obtain ⟨n, mris⟩ := p
    dsimp only
    cases hst : start (some 60000) w.times (if a.yaml.isSome then w.loading else 0) with
    | raised t => exact absurd hst start_never_raises
    | never => simp
    | done t =>
      dsimp only
      by_cases ht : t ≤ 65000
      · rw [if_pos ht]
        cases s <;> simp
      · rw [if_neg ht]; simp

example : main ⟨some "/dls/bl.yaml".toList, some "ws://pc1".toList⟩ here (.done 0) = .exit 1 := by decide

/-- It exits normally exactly if there was a prompt and stopping ended well -/
theorem exits_0_iff {a : Args} {w : World} {s : Res} :
    main a w s = .exit 0 ↔ (∃ n mris, prompt a w = some (n, mris)) ∧ ∃ t, s = .done t := by
  unfold main prompt
  cases prepare a w with
  | fail t => simp
  | never => simp
  | ok t n mris =>
    dsimp only
    by_cases ht : t ≤ 65000
    · rw [if_pos ht, if_pos ht]
      cases s <;> simp
    · rw [if_neg ht, if_neg ht]; simp

/-- It exits when the user leaves the prompt, if the functions of the blocks return and those that were spawned end in a tenth of
a second. Missing: if they do not. -/
theorem quits_partial {a : Args} {w : World} {n : Text} {mris : List Text} (h : prompt a w = some (n, mris)) {now d : Nat}
    {hooks spawned : List (Option Nat)} (hh : Within d hooks) (hs : AllBy (now + 100) spawned) :
    main a w (stop 100 hooks spawned now) = .exit 0 := by
  obtain ⟨t, ht⟩ := stops (to := 100) (now := now) hh hs
  exact exits_0_iff.mpr ⟨⟨n, mris, h⟩, t, ht⟩

example : main ⟨some "/dls/bl.yaml".toList, none⟩ here (stop 100 [some 40, some 900] [some 70000, some 70800] 70000) = .exit 0 := by
  decide

/-- What is spawned takes longer to end: the program stays -/
theorem does_not_quit : main ⟨some "/dls/bl.yaml".toList, none⟩ here (stop 100 [some 40] [some 70141] 70000) = .hangs := by decide

/-- A minute to load and six seconds to start: no prompt, and the program stays -/
theorem slow_hangs : prompt ⟨some "/dls/bl.yaml".toList, none⟩ { here with loading := 60000, times := ⟨[some 6000], true, []⟩ } = none ∧
    main ⟨some "/dls/bl.yaml".toList, none⟩ { here with loading := 60000, times := ⟨[some 6000], true, []⟩ } .never = .hangs := by
  decide

/-! Interrupts -/

/-- The first call is the one that was asked for, all others abort the same block, and there is one more call than there were
interrupts -/
theorem calls_made (mri method : Text) (ends : List CallEnd) :
    (userPost mri method ends).1 =
      (mri, method) :: List.replicate (ends.takeWhile (· = .interrupted)).length (mri, "abort".toList) := by
  induction ends generalizing method with
  | nil => rfl
  | cons e es ih =>
    cases e with
    | result r => simp [userPost]
    | interrupted =>
      rw [userPost, ih]
      simp [List.replicate_succ]

/-- After each interrupt the block is aborted -/
theorem interrupted_aborts (mri method : Text) (ends : List CallEnd) :
    AbortedAfter mri ends (userPost mri method ends).1 := by
  intro i hi hj
  induction ends generalizing method i with
  | nil => simp at hi
  | cons e es ih =>
    have he : e = .interrupted := by
      cases i with
      | zero => simpa using hi
      | succ i => simpa using hj 0 (by omega)
    subst he
    rw [userPost]
    cases i with
    | zero =>
      cases es with
      | nil => rfl
      | cons x xs => cases x <;> rfl
    | succ i =>
      rw [List.getElem?_cons_succ]
      exact ih _ _ (by simpa using hi) (fun j hji => by simpa using hj (j + 1) (by omega))

/-- A result is given exactly if the call was not interrupted -/
theorem result_iff (mri method : Text) (ends : List CallEnd) (r : Nat) :
    (userPost mri method ends).2 = some r ↔ ends.head? = some (.result r) := by
  cases ends with
  | nil => simp [userPost]
  | cons e es => cases e <;> simp [userPost]

example : userPost "BL:SCAN".toList "run".toList [.interrupted, .result 0] =
    ([("BL:SCAN".toList, "run".toList), ("BL:SCAN".toList, "abort".toList)], none) := by decide

end Verif.Props.Launch
