import Verif.Spec.DetStep
import Verif.Proofs.Steps
/-!
C70: a scan and its detectors are in step.
-/
set_option linter.unusedSectionVars false
namespace Verif.Props.DetStep
open Verif Verif.Steps Verif.DetStep Verif.Spec.DetStep

variable {A : Type} [DecidableEq A] {P : Type} [DecidableEq P] {Q : Type} [DecidableEq Q]

/-! ### the generator of the detector -/

theorem consume_snoc {ax : A} : ∀ (as s : List A), ax ∉ as → consume as (s ++ [ax]) = (consume as s).map (· ++ [ax]) := by
  intro as
  induction as with
  | nil => intro s _; rfl
  | cons a as ih =>
    intro s h
    rw [List.mem_cons, not_or] at h
    unfold consume
    have hne : a ≠ ax := fun e => h.1 e.symm
    have hm : a ∈ s ++ [ax] ↔ a ∈ s := by simp [hne]
    by_cases ha : a ∈ s
    · rw [if_pos (hm.2 ha), if_pos ha]
      have : (s ++ [ax]).filter (· ≠ a) = s.filter (· ≠ a) ++ [ax] := by
        rw [List.filter_append]
        have : [ax].filter (· ≠ a) = [ax] := by simp [h.1]
        rw [this]
      rw [this, ih _ h.2]
    · rw [if_neg (fun h => ha (hm.1 h)), if_neg ha]
      rfl

theorem consume_append : ∀ (as bs s : List A), consume (as ++ bs) s = (consume as s).bind (consume bs) := by
  intro as
  induction as with
  | nil => intro bs s; rfl
  | cons a as ih =>
    intro bs s
    rw [List.cons_append, consume, consume]
    by_cases ha : a ∈ s
    · rw [if_pos ha, if_pos ha, ih]
    · rw [if_neg ha, if_neg ha]; rfl

theorem consume_last {ax : A} (as s : List A) (h1 : ax ∉ as) (h2 : ax ∉ s) :
    consume (as ++ [ax]) (s ++ [ax]) = consume as s := by
  rw [consume_append, consume_snoc _ _ h1]
  cases h : consume as s with
  | none => rfl
  | some s' =>
    have hs' : ax ∉ s' := fun hh => h2 (((consume_spec h).2 ax).1 hh).1
    simp only [Option.map_some, Option.bind_some, consume]
    rw [if_pos (by simp)]
    congr 1
    rw [List.filter_append]
    have h3 : s'.filter (· ≠ ax) = s' := List.filter_eq_self.2 (fun a ha => by
      simp only [ne_eq, decide_eq_true_eq]; rintro rfl; exact hs' ha)
    rw [h3]
    simp

/-- the steps of one run of the detector -/
theorem inner_multiplied {ax : A} {frames : Nat} (hf : 1 < frames) {dims dims' : List (Dim A)} {s : List A}
    (hd : ∀ d ∈ dims, ax ∉ d.axes) (hs : ax ∉ s) (hm : multiplyDims ax frames dims = some dims') {n n' : Nat}
    (hn : innerSteps dims.reverse s = some n) (hn' : innerSteps dims'.reverse (s ++ [ax]) = some n') : n' = frames * n := by
  unfold multiplyDims at hm
  rw [if_pos hf] at hm
  cases hl : dims.getLast? with
  | none => rw [hl] at hm; cases hm
  | some d =>
    rw [hl] at hm
    simp only at hm
    have hdm : d ∈ dims := List.mem_of_getLast? hl
    have hrev : dims.reverse = d :: dims.dropLast.reverse := by
      have h1 : dims.dropLast ++ [d] = dims := by
        have hne : dims ≠ [] := by rintro rfl; cases hl
        have h2 := List.getLast?_eq_some_getLast hne
        rw [hl] at h2
        cases h2
        exact List.dropLast_concat_getLast hne
      rw [← h1, List.reverse_append]
      simp
    by_cases ha : d.axes = []
    · rw [if_pos ha] at hm
      cases hm
      rw [List.reverse_append] at hn'
      simp only [List.reverse_cons, List.reverse_nil, List.nil_append, List.singleton_append] at hn'
      rw [innerSteps, if_neg (by simp)] at hn'
      have : consume [ax] (s ++ [ax]) = some s := by
        have := consume_last (ax := ax) [] s (by simp) hs
        simpa [consume] using this
      rw [this] at hn'
      simp only [hn, Option.map_some] at hn'
      cases hn'
      rfl
    · rw [if_neg ha] at hm
      cases hm
      rw [List.reverse_append] at hn'
      simp only [List.reverse_cons, List.reverse_nil, List.nil_append, List.singleton_append] at hn'
      rw [innerSteps, if_neg (by simp)] at hn'
      rw [consume_last _ _ (hd d hdm) hs] at hn'
      rw [hrev, innerSteps] at hn
      by_cases hse : s = []
      · -- nothing is left to move: the detector refuses
        subst hse
        have : consume d.axes ([] : List A) = none := by
          cases hax : d.axes with
          | nil => exact absurd hax ha
          | cons a as => simp [consume]
        rw [this] at hn'
        cases hn'
      · rw [if_neg (by simp [hse])] at hn
        cases hc : consume d.axes s with
        | none => rw [hc] at hn; cases hn
        | some s' =>
          rw [hc] at hn hn'
          simp only at hn hn'
          cases hi : innerSteps dims.dropLast.reverse s' with
          | none => rw [hi] at hn; cases hn
          | some k =>
            rw [hi] at hn hn'
            cases hn
            cases hn'
            show d.size * frames * k = frames * (d.size * k)
            rw [Nat.mul_comm d.size frames, Nat.mul_assoc]

theorem size_multiplied {ax : A} {frames : Nat} (hf : 1 < frames) {dims dims' : List (Dim A)}
    (hm : multiplyDims ax frames dims = some dims') : genSize dims' = frames * genSize dims := by
  unfold multiplyDims at hm
  rw [if_pos hf] at hm
  cases hl : dims.getLast? with
  | none => rw [hl] at hm; cases hm
  | some d =>
    rw [hl] at hm
    simp only at hm
    have h1 : dims.dropLast ++ [d] = dims := by
      have hne : dims ≠ [] := by rintro rfl; cases hl
      have h2 := List.getLast?_eq_some_getLast hne
      rw [hl] at h2
      cases h2
      exact List.dropLast_concat_getLast hne
    by_cases ha : d.axes = []
    · rw [if_pos ha] at hm
      cases hm
      rw [genSize_append]
      simp [genSize, Nat.mul_comm]
    · rw [if_neg ha] at hm
      cases hm
      rw [genSize_append]
      rw (occs := .pos [2]) [← h1]
      rw [genSize_append]
      simp only [genSize, Nat.mul_one]
      rw [Nat.mul_comm d.size frames, ← Nat.mul_assoc, Nat.mul_comm _ frames, Nat.mul_assoc]

/-! ### what matters of a scan -/

/-- the plan of a detector for the plan of a scan -/
structure Static (f : Nat) (s : Scan P) (c : Scan Q) : Prop where
  total : c.total = f * s.total
  useBp : c.useBp = s.useBp
  spr : c.spr = s.spr.map ((f : Int) * ·)
  bpSteps : s.useBp = true → c.bpSteps = s.bpSteps.map ((f : Int) * ·)

/-- what the end of a run makes of it -/
def nxt (s : Scan P) : Option (Int × Nat × Window) :=
  match postRun s with
  | .ok (s', w) => some (s'.configured, s'.bpIndex, w.getD (s'.completed, 0))
  | .error _ => none

theorem nxt_eq (s : Scan P) : nxt s =
    if s.configured < s.total then
      (s.spr[if s.useBp then s.bpIndex + 1 else s.bpIndex]?).map
        (fun todo => (s.configured + todo, (if s.useBp then s.bpIndex + 1 else s.bpIndex), (s.configured, todo)))
    else some (s.configured, s.bpIndex, (s.configured, 0)) := by
  unfold nxt postRun
  by_cases h : s.configured < s.total
  · simp only [h, if_true]
    cases hs : s.spr[if s.useBp = true then s.bpIndex + 1 else s.bpIndex]? <;> rfl
  · simp only [h, if_false]
    rfl

theorem nxt_scale {f : Nat} (hf : 0 < f) {s : Scan P} {c : Scan Q} (hs : Static f s c)
    (hc : c.configured = f * s.configured) (hi : c.bpIndex = s.bpIndex) :
    nxt c = (nxt s).map (fun x => ((f : Int) * x.1, x.2.1, framesOf f x.2.2)) := by
  rw [nxt_eq, nxt_eq, hs.total, hc, hi, hs.useBp, hs.spr]
  have hlt : ((f : Int) * s.configured < (f : Int) * s.total) ↔ s.configured < s.total :=
    Int.mul_lt_mul_left (by omega)
  by_cases h : s.configured < s.total
  · rw [if_pos (hlt.2 h), if_pos h, List.getElem?_map]
    cases hx : s.spr[if s.useBp = true then s.bpIndex + 1 else s.bpIndex]? with
    | none => rfl
    | some x => simp [framesOf, Int.mul_add]
  · rw [if_neg (fun hh => h (hlt.1 hh)), if_neg h]
    simp [framesOf]

theorem nxt_idx {s : Scan P} (h : s.useBp = false) {a : Int} {i : Nat} {w : Window} (hn : nxt s = some (a, i, w)) :
    i = s.bpIndex := by
  rw [nxt_eq, h] at hn
  simp only [Bool.false_eq_true, if_false] at hn
  split at hn
  · cases hx : s.spr[s.bpIndex]? with
    | none => rw [hx] at hn; cases hn
    | some x => rw [hx] at hn; cases hn; rfl
  · cases hn; rfl

theorem nxt_updateCompleted (s : Scan P) (p : P) (n : Int) : nxt (updateCompleted s p n) = nxt s := by
  obtain ⟨h1, h2, h3, h4, h5, h6, -⟩ := updateCompleted_frame s p n
  rw [nxt_eq, nxt_eq, h1, h2, h3, h4, h6]

theorem Static.left {f : Nat} {s s' : Scan P} {c : Scan Q} (h : Static f s c) (h1 : s'.total = s.total)
    (h2 : s'.useBp = s.useBp) (h3 : s'.spr = s.spr) (h4 : s'.bpSteps = s.bpSteps) : Static f s' c :=
  ⟨by rw [h1]; exact h.total, by rw [h2]; exact h.useBp, by rw [h3]; exact h.spr, by rw [h2, h4]; exact h.bpSteps⟩

theorem Static.right {f : Nat} {s : Scan P} {c c' : Scan Q} (h : Static f s c) (h1 : c'.total = c.total)
    (h2 : c'.useBp = c.useBp) (h3 : c'.spr = c.spr) (h4 : c'.bpSteps = c.bpSteps) : Static f s c' :=
  ⟨by rw [h1]; exact h.total, by rw [h2]; exact h.useBp, by rw [h3]; exact h.spr, by rw [h4]; exact h.bpSteps⟩

/-- the plan is not touched -/
structure SamePlan (s s' : Scan P) : Prop where
  total : s'.total = s.total
  useBp : s'.useBp = s.useBp
  spr : s'.spr = s.spr
  bpSteps : s'.bpSteps = s.bpSteps

theorem Static.move {f : Nat} {s s' : Scan P} {c c' : Scan Q} (h : Static f s c) (h1 : SamePlan s s') (h2 : SamePlan c c') :
    Static f s' c' :=
  (h.left h1.total h1.useBp h1.spr h1.bpSteps).right h2.total h2.useBp h2.spr h2.bpSteps

theorem SamePlan.refl (s : Scan P) : SamePlan s s := ⟨rfl, rfl, rfl, rfl⟩

theorem SamePlan.updateCompleted (s : Scan P) (p : P) (n : Int) : SamePlan s (updateCompleted s p n) := by
  obtain ⟨h1, h2, h3, h4, h5, h6, -⟩ := updateCompleted_frame s p n
  exact ⟨h1, h4, h3, h5⟩

theorem postRun_plan {s s' : Scan P} {w : Option Window} (h : postRun s = .ok (s', w)) : SamePlan s s' := by
  unfold postRun at h
  simp only at h
  split at h
  · generalize (s.spr[if s.useBp = true then s.bpIndex + 1 else s.bpIndex]?) = o at h
    cases o with
    | none => cases h
    | some x => cases h; exact ⟨rfl, rfl, rfl, rfl⟩
  · cases h; exact ⟨rfl, rfl, rfl, rfl⟩

/-- the end of the run hooks of one block -/
theorem done_spec (m : Machine P) {l : Bool} (h : m.phase = .running l) :
    (nxt m.scan = none ∧ (m.step .runHooksDone).phase = .fault) ∨
    (nxt m.scan = some ((m.step .runHooksDone).scan.configured, (m.step .runHooksDone).scan.bpIndex, (m.step .runHooksDone).window) ∧
      SamePlan m.scan (m.step .runHooksDone).scan ∧
      ((m.step .runHooksDone).phase = .armed ∨ (m.step .runHooksDone).phase = .finished)) := by
  unfold Machine.step
  simp only [h]
  cases hp : postRun m.scan with
  | error e => exact .inl ⟨by unfold nxt; rw [hp], rfl⟩
  | ok r =>
    obtain ⟨s', w⟩ := r
    refine .inr ⟨by unfold nxt; rw [hp], postRun_plan hp, ?_⟩
    cases l
    · exact .inl rfl
    · exact .inr rfl

/-! ### pausing with one frame in each step -/

/-- what a pause makes of it -/
def pz (s : Scan P) (t : Int) : Option (Int × Nat × Window) :=
  match doPause s t with
  | .ok (s', w) => some (s'.configured, s'.bpIndex, w)
  | .error _ => none

theorem pz_eq (s : Scan P) (t : Int) : pz s t =
    if s.useBp then
      (getBreakpointIndex s.bpSteps t).bind (fun idx => (s.bpSteps[idx]?).bind (fun m =>
        if m = 0 then none else some (t + (m - Int.fmod t m), idx, (t, m - Int.fmod t m))))
    else (s.spr[s.bpIndex]?).bind (fun m => if m = 0 then none else some (t + (m - Int.fmod t m), s.bpIndex, (t, m - Int.fmod t m))) := by
  unfold pz doPause
  cases hb : s.useBp
  · simp only [Bool.false_eq_true, if_false]
    cases h : s.spr[s.bpIndex]? with
    | none => rfl
    | some m => by_cases hm : m = 0 <;> simp [hm]
  · simp only [if_true]
    cases hi : getBreakpointIndex s.bpSteps t with
    | none => rfl
    | some idx =>
      simp only [Option.bind_some]
      cases h : s.bpSteps[idx]? with
      | none => rfl
      | some m => by_cases hm : m = 0 <;> simp [hm]

theorem map_one (l : List Int) : l.map (((1 : Nat) : Int) * ·) = l := by
  induction l with
  | nil => rfl
  | cons x l ih => rw [List.map_cons, ih]; simp

theorem pz_one {s : Scan P} {c : Scan Q} (h : Static 1 s c) (hi : s.useBp = false → c.bpIndex = s.bpIndex) (t : Int) :
    pz c t = pz s t := by
  rw [pz_eq, pz_eq, h.useBp]
  cases hb : s.useBp
  · simp only [Bool.false_eq_true, if_false]
    rw [h.spr, hi hb, map_one]
  · simp only [if_true]
    rw [h.bpSteps hb, map_one]

theorem doPause_plan {s s' : Scan P} {t : Int} {w : Window} (h : doPause s t = .ok (s', w)) : SamePlan s s' := by
  unfold doPause at h
  split at h
  · cases hi : getBreakpointIndex s.bpSteps t with
    | none => rw [hi] at h; cases h
    | some idx =>
      rw [hi] at h
      simp only at h
      cases hm : s.bpSteps[idx]? with
      | none => rw [hm] at h; cases h
      | some m =>
        rw [hm] at h
        simp only at h
        split at h
        · cases h
        · cases h; exact ⟨rfl, rfl, rfl, rfl⟩
  · cases hm : s.spr[s.bpIndex]? with
    | none => rw [hm] at h; cases h
    | some m =>
      rw [hm] at h
      simp only at h
      split at h
      · cases h
      · cases h; exact ⟨rfl, rfl, rfl, rfl⟩

/-- where a phase goes at a pause -/
def pausedPhase : Phase → Phase
  | .running last => .paused last
  | .paused last => .paused last
  | _ => .armed

/-- a pause of one block -/
theorem pause_spec (m : Machine P) (lg t : Int) (hp : m.phase ≠ .fault) (ht : pauseTarget m.scan m.phase lg = some t) :
    (pz m.scan t = none ∧ (m.step (.pause lg)).phase = .fault) ∨
    (pz m.scan t = some ((m.step (.pause lg)).scan.configured, (m.step (.pause lg)).scan.bpIndex, (m.step (.pause lg)).window) ∧
      SamePlan m.scan (m.step (.pause lg)).scan ∧ (m.step (.pause lg)).phase = pausedPhase m.phase) := by
  unfold Machine.step
  cases hd : doPause m.scan t with
  | error e =>
    refine .inl ⟨by unfold pz; rw [hd], ?_⟩
    cases hph : m.phase <;> rw [hph] at ht hp <;> first
      | exact absurd rfl hp
      | (simp only [ht, hd])
  | ok r =>
    obtain ⟨s', w⟩ := r
    have hpz : pz m.scan t = some (s'.configured, s'.bpIndex, w) := by unfold pz; rw [hd]
    have hpl := doPause_plan hd
    rw [hpz]
    right
    cases hph : m.phase <;> rw [hph] at ht hp <;> first
      | exact absurd rfl hp
      | (simp only [ht, hd]; exact ⟨trivial, hpl, rfl⟩)
      | (simp only [ht, hd]; exact ⟨rfl, hpl, rfl⟩)

/-! ### the two together -/

inductive Rel (f : Nat) (p : Pair P) : Prop
  /-- neither of them is ahead -/
  | level (static : Static f p.scan.scan p.det.scan) (cfg : p.det.scan.configured = f * p.scan.scan.configured)
      (idx : p.det.scan.bpIndex = p.scan.scan.bpIndex) (window : p.det.window = framesOf f p.scan.window)
      (running : isRunning p.scan.phase = isRunning p.det.phase) (paused : ∀ l, p.det.phase = .paused l → ∃ l', p.scan.phase = .paused l')
      (fault : p.det.phase ≠ .fault)
  /-- the detector is done with this run -/
  | ahead (static : Static f p.scan.scan p.det.scan) (running : isRunning p.scan.phase = true)
      (det : p.det.phase = .armed ∨ p.det.phase = .finished)
      (next : ∃ cfg w, nxt p.scan.scan = some (cfg, p.det.scan.bpIndex, w) ∧ p.det.scan.configured = f * cfg ∧ p.det.window = framesOf f w)
  | broken (fault : p.scan.phase = .fault)

theorem report_scan (f : Nat) (m : Machine (Option P)) (det : Machine P) :
    (report f m det).scan = updateCompleted m.scan none (det.scan.completed / (f : Int)) ∧ (report f m det).phase = m.phase ∧
    (report f m det).window = m.window := ⟨rfl, rfl, rfl⟩

theorem rel_progress_scan {f : Nat} {p : Pair P} (h : Rel f p) (q : Option P) (n : Int) :
    Rel f { p with scan := p.scan.step (.progress q n) } := by
  obtain ⟨h1, h2, h3, h4, h5, h6, -⟩ := updateCompleted_frame p.scan.scan q n
  cases h with
  | level a b c d e g i =>
    exact .level (a.move (.updateCompleted _ _ _) (.refl _)) (by show _ = _ * (updateCompleted p.scan.scan q n).configured; rw [h2]; exact b)
      (by show _ = (updateCompleted p.scan.scan q n).bpIndex; rw [h6]; exact c) d e g i
  | ahead a b c d =>
    refine .ahead (a.move (.updateCompleted _ _ _) (.refl _)) b c ?_
    show ∃ cfg w, nxt (updateCompleted p.scan.scan q n) = some _ ∧ _ ∧ _
    rw [nxt_updateCompleted]
    exact d
  | broken a => exact .broken a

theorem rel_progress_det {f : Nat} {p : Pair P} (h : Rel f p) (q : P) (n : Int) :
    Rel f { p with det := p.det.step (.progress q n) } := by
  obtain ⟨h1, h2, h3, h4, h5, h6, -⟩ := updateCompleted_frame p.det.scan q n
  cases h with
  | level a b c d e g i =>
    exact .level (a.move (.refl _) (.updateCompleted _ _ _)) (by show (updateCompleted p.det.scan q n).configured = _; rw [h2]; exact b)
      (by show (updateCompleted p.det.scan q n).bpIndex = _; rw [h6]; exact c) d e g i
  | ahead a b c d =>
    refine .ahead (a.move (.refl _) (.updateCompleted _ _ _)) b c ?_
    show ∃ cfg w, nxt p.scan.scan = some (_, (updateCompleted p.det.scan q n).bpIndex, _) ∧ (updateCompleted p.det.scan q n).configured = _ ∧ _
    rw [h6, h2]
    exact d
  | broken a => exact .broken a

theorem rel_follow {f : Nat} {p : Pair P} {det : Machine P} (h : Rel f { p with det := det }) : Rel f (follow f p det) := by
  have h2 := rel_progress_scan h none (det.scan.completed / (f : Int))
  unfold follow
  split
  · split
    · exact h
    · exact h2
  · exact h

theorem rel_onRun {f : Nat} {p : Pair P} {l : Bool} (hl : p.scan.phase = .running l)
    (static : Static f p.scan.scan p.det.scan) (cfg : p.det.scan.configured = f * p.scan.scan.configured)
    (idx : p.det.scan.bpIndex = p.scan.scan.bpIndex) (window : p.det.window = framesOf f p.scan.window) :
    Rel f (onRun f p) := by
  obtain ⟨h1, h2, h3, h4, h5, h6, -⟩ := updateCompleted_frame p.scan.scan none (p.det.scan.completed / (f : Int))
  unfold onRun
  simp only
  cases hd : p.det.phase with
  | armed =>
    simp only
    have hstep : (p.det.step .run) = { p.det with phase := .running (!decide (p.det.scan.configured < p.det.scan.total)) } := by
      unfold Machine.step; simp only [hd]
    rw [hstep]
    refine .level (static.move (.updateCompleted _ _ _) (.refl _)) ?_ ?_ window ?_ ?_ ?_
    · show _ = _ * (updateCompleted _ _ _).configured; rw [h2]; exact cfg
    · show _ = (updateCompleted _ _ _).bpIndex; rw [h6]; exact idx
    · show isRunning p.scan.phase = _; rw [hl]; rfl
    · intro l h; cases h
    · intro h; cases h
  | paused l' =>
    simp only
    have hstep : (p.det.step .resume) = { p.det with phase := .running l' } := by
      unfold Machine.step; simp only [hd]
    rw [hstep]
    refine .level (static.move (.updateCompleted _ _ _) (.refl _)) ?_ ?_ window ?_ ?_ ?_
    · show _ = _ * (updateCompleted _ _ _).configured; rw [h2]; exact cfg
    · show _ = (updateCompleted _ _ _).bpIndex; rw [h6]; exact idx
    · show isRunning p.scan.phase = _; rw [hl]; rfl
    · intro l h; cases h
    · intro h; cases h
  | running l' => exact .broken rfl
  | finished => exact .broken rfl
  | fault => exact .broken rfl

theorem rel_done {f : Nat} {p : Pair P} (h : Rel f p) : Rel f (step f p .done) := by
  unfold step
  cases hd : p.det.phase with
  | running l => exact h
  | paused l => exact h
  | fault => exact h
  | armed =>
    simp only
    cases h with
    | level a b c d e g i =>
      have hnr : isRunning p.scan.phase = false := by rw [e, hd]; rfl
      have hs : p.scan.step .runHooksDone = p.scan := by
        unfold Machine.step
        cases hp : p.scan.phase <;> first | rfl | (rw [hp] at hnr; cases hnr)
      rw [hs]
      exact .level a b c d e g i
    | ahead a b c d =>
      cases hp : p.scan.phase <;> rw [hp] at b <;> first | cases b | skip
      rename_i l
      obtain ⟨cfg, w, n1, n2, n3⟩ := d
      rcases done_spec p.scan hp with ⟨-, h2⟩ | ⟨h1, h2, h3⟩
      · exact .broken h2
      · rw [n1] at h1
        have h1' := Option.some.inj h1
        have e1 : cfg = (p.scan.step .runHooksDone).scan.configured := (Prod.mk.inj h1').1
        have e2 := (Prod.mk.inj (Prod.mk.inj h1').2).1
        have e3 := (Prod.mk.inj (Prod.mk.inj h1').2).2
        refine .level (a.move h2 (.refl _)) (by show _ = _ * (p.scan.step .runHooksDone).scan.configured; rw [← e1]; exact n2) e2
          (by show _ = framesOf f (p.scan.step .runHooksDone).window; rw [← e3]; exact n3) ?_ ?_ (by show p.det.phase ≠ _; rw [hd]; intro h; cases h)
        · show isRunning (p.scan.step .runHooksDone).phase = isRunning p.det.phase
          rcases h3 with h3 | h3 <;> rw [h3, hd] <;> rfl
        · intro l h; rw [show p.det.phase = _ from h] at hd; cases hd
    | broken a =>
      have hs : p.scan.step .runHooksDone = p.scan := by unfold Machine.step; simp only [a]
      rw [hs]
      exact .broken a
  | finished =>
    simp only
    cases h with
    | level a b c d e g i =>
      have hnr : isRunning p.scan.phase = false := by rw [e, hd]; rfl
      have hs : p.scan.step .runHooksDone = p.scan := by
        unfold Machine.step
        cases hp : p.scan.phase <;> first | rfl | (rw [hp] at hnr; cases hnr)
      rw [hs]
      exact .level a b c d e g i
    | ahead a b c d =>
      cases hp : p.scan.phase <;> rw [hp] at b <;> first | cases b | skip
      rename_i l
      obtain ⟨cfg, w, n1, n2, n3⟩ := d
      rcases done_spec p.scan hp with ⟨-, h2⟩ | ⟨h1, h2, h3⟩
      · exact .broken h2
      · rw [n1] at h1
        have h1' := Option.some.inj h1
        have e1 : cfg = (p.scan.step .runHooksDone).scan.configured := (Prod.mk.inj h1').1
        have e2 := (Prod.mk.inj (Prod.mk.inj h1').2).1
        have e3 := (Prod.mk.inj (Prod.mk.inj h1').2).2
        refine .level (a.move h2 (.refl _)) (by show _ = _ * (p.scan.step .runHooksDone).scan.configured; rw [← e1]; exact n2) e2
          (by show _ = framesOf f (p.scan.step .runHooksDone).window; rw [← e3]; exact n3) ?_ ?_ (by show p.det.phase ≠ _; rw [hd]; intro h; cases h)
        · show isRunning (p.scan.step .runHooksDone).phase = isRunning p.det.phase
          rcases h3 with h3 | h3 <;> rw [h3, hd] <;> rfl
        · intro l h; rw [show p.det.phase = _ from h] at hd; cases hd
    | broken a =>
      have hs : p.scan.step .runHooksDone = p.scan := by unfold Machine.step; simp only [a]
      rw [hs]
      exact .broken a

theorem rel_detDone {f : Nat} (hf : 0 < f) {p : Pair P} (h : Rel f p) : Rel f (step f p .detDone) := by
  unfold step
  simp only
  by_cases hfault : (p.det.step .runHooksDone).phase = .fault
  · rw [if_pos hfault]; exact .broken rfl
  · rw [if_neg hfault]
    refine rel_follow ?_
    cases hd : p.det.phase with
    | running l =>
      cases h with
      | level a b c d e g i =>
        rcases done_spec p.det hd with ⟨-, h2⟩ | ⟨h1, h2, h3⟩
        · exact absurd h2 hfault
        · rw [nxt_scale hf a b c] at h1
          cases hn : nxt p.scan.scan with
          | none => rw [hn] at h1; cases h1
          | some x =>
            rw [hn] at h1
            have h1' := Option.some.inj h1
            have e1 := (Prod.mk.inj h1').1
            have e2 := (Prod.mk.inj (Prod.mk.inj h1').2).1
            have e3 := (Prod.mk.inj (Prod.mk.inj h1').2).2
            refine .ahead (a.move (.refl _) h2) (by rw [e, hd]; rfl) h3 ⟨x.1, x.2.2, ?_, e1.symm, e3.symm⟩
            show nxt p.scan.scan = some (x.1, (p.det.step .runHooksDone).scan.bpIndex, x.2.2)
            rw [hn, ← e2]
      | ahead a b c d => rcases c with c | c <;> rw [hd] at c <;> cases c
      | broken a => exact .broken a
    | _ =>
      have hs : p.det.step .runHooksDone = p.det := by unfold Machine.step; simp only [hd]
      rw [hs]
      exact h

theorem rel_run {f : Nat} {p : Pair P} (h : Rel f p) : Rel f (step f p .run) := by
  unfold step
  cases hp : p.scan.phase with
  | armed =>
    simp only
    have hs : p.scan.step .run = { p.scan with phase := .running (!decide (p.scan.scan.configured < p.scan.scan.total)) } := by
      unfold Machine.step; simp only [hp]
    rw [hs]
    cases h with
    | level a b c d e g i => exact rel_onRun rfl a b c d
    | ahead a b c d => rw [hp] at b; cases b
    | broken a => rw [hp] at a; cases a
  | _ => exact h

theorem rel_resume {f : Nat} {p : Pair P} (h : Rel f p) : Rel f (step f p .resume) := by
  unfold step
  cases hp : p.scan.phase with
  | paused l =>
    simp only
    have hs : p.scan.step .resume = { p.scan with phase := .running l } := by
      unfold Machine.step; simp only [hp]
    rw [hs]
    cases h with
    | level a b c d e g i => exact rel_onRun rfl a b c d
    | ahead a b c d => rw [hp] at b; cases b
    | broken a => rw [hp] at a; cases a
  | _ => exact h

theorem pauseTarget_ne {s : Scan P} {ph : Phase} {lg t : Int} (hph : (∃ l, ph = .running l) ∨ ∃ l, ph = .paused l)
    (h : pauseTarget s ph lg = some t) : t ≠ s.configured := by
  unfold pauseTarget at h
  split at h
  · cases h
  · simp only at h
    rcases hph with ⟨l, rfl⟩ | ⟨l, rfl⟩ <;>
    · simp only [Option.some.injEq] at h
      subst h
      generalize (if lg < 0 then s.completed else if lg ≥ s.total then s.total - 1 else lg) = x
      split <;> omega

theorem pauseTarget_exact {s : Scan P} {ph : Phase} {t : Int} (h0 : 0 ≤ t) (h1 : t < s.total)
    (hne : ((∃ l, ph = .running l) ∨ ∃ l, ph = .paused l) → t ≠ s.configured) (hf : ph ≠ .fault) : pauseTarget s ph t = some t := by
  unfold pauseTarget
  rw [if_neg (by omega)]
  simp only
  rw [if_neg (by omega), if_neg (by omega)]
  cases ph with
  | armed => rfl
  | finished => rfl
  | running l => simp only; rw [if_neg (hne (.inl ⟨l, rfl⟩))]
  | paused l => simp only; rw [if_neg (hne (.inr ⟨l, rfl⟩))]
  | fault => exact absurd rfl hf

theorem pausedPhase_running (ph : Phase) : isRunning (pausedPhase ph) = false := by cases ph <;> rfl

theorem rel_pause_one {p : Pair P} (h : Rel 1 p) (lg : Int)
    (hsane : ∀ t, pauseTarget p.scan.scan p.scan.phase lg = some t → 0 ≤ t ∧ t < p.scan.scan.total) :
    Rel 1 (step 1 p (.pause lg)) := by
  show Rel 1 (pause p lg)
  by_cases hflt : p.scan.phase = .fault
  · have : pause p lg = p := by unfold pause; simp only [hflt]
    rw [this]; exact h
  · -- the target
    cases ht : pauseTarget p.scan.scan p.scan.phase lg with
    | none =>
      have : pause p lg = p := by
        unfold pause
        cases hp : p.scan.phase <;> rw [hp] at ht hflt <;> first
          | exact absurd rfl hflt
          | simp only [ht]
      rw [this]; exact h
    | some t =>
      obtain ⟨h0, h1⟩ := hsane t ht
      have hpause : pause p lg = match doPause p.scan.scan t with
          | .error _ => { p with scan := p.scan.step (.pause lg) }
          | .ok _ => if (p.det.step (.pause t)).phase = .fault then { scan := { p.scan with phase := .fault }, det := p.det.step (.pause t) }
            else { scan := p.scan.step (.pause lg), det := p.det.step (.pause t) } := by
        unfold pause
        cases hp : p.scan.phase <;> rw [hp] at ht hflt <;> first
          | exact absurd rfl hflt
          | (simp only [ht]; cases doPause p.scan.scan t <;> rfl)
      rw [hpause]
      rcases pause_spec p.scan lg t hflt ht with ⟨hz, hfa⟩ | ⟨hz, hpl, hph⟩
      · cases hd : doPause p.scan.scan t with
        | error e => exact .broken hfa
        | ok r => unfold pz at hz; rw [hd] at hz; cases hz
      · cases hd : doPause p.scan.scan t with
        | error e => unfold pz at hz; rw [hd] at hz; cases hz
        | ok r =>
          simp only
          split
          · exact .broken rfl
          · rename_i hdf
            -- the detector goes to the same step
            have key : ∀ (static : Static 1 p.scan.scan p.det.scan) (hidx : p.scan.scan.useBp = false → p.det.scan.bpIndex = p.scan.scan.bpIndex)
                (hcfg : ((∃ l, p.det.phase = .running l) ∨ ∃ l, p.det.phase = .paused l) → t ≠ p.det.scan.configured)
                (hdet : p.det.phase ≠ .fault)
                (hpau : ∀ l, pausedPhase p.det.phase = .paused l → ∃ l', pausedPhase p.scan.phase = .paused l'),
                Rel 1 ({ scan := p.scan.step (.pause lg), det := p.det.step (.pause t) } : Pair P) := by
              intro static hidx hcfg hdet hpau
              have htot : p.det.scan.total = p.scan.scan.total := by rw [static.total]; simp
              have hdt : pauseTarget p.det.scan p.det.phase t = some t := pauseTarget_exact h0 (by rw [htot]; exact h1) hcfg hdet
              rcases pause_spec p.det t t hdet hdt with ⟨-, hx⟩ | ⟨dz, dpl, dph⟩
              · exact absurd hx hdf
              · rw [pz_one static hidx, hz] at dz
                have h1' := Option.some.inj dz
                have e1 := (Prod.mk.inj h1').1
                have e2 := (Prod.mk.inj (Prod.mk.inj h1').2).1
                have e3 := (Prod.mk.inj (Prod.mk.inj h1').2).2
                refine .level (static.move hpl dpl) (by show (p.det.step (.pause t)).scan.configured = _; rw [← e1]; simp) e2.symm
                  (by show (p.det.step (.pause t)).window = _; rw [← e3]; simp [framesOf]) ?_ ?_ hdf
                · show isRunning (p.scan.step (.pause lg)).phase = isRunning (p.det.step (.pause t)).phase
                  rw [hph, dph, pausedPhase_running, pausedPhase_running]
                · intro l hl
                  show ∃ l', (p.scan.step (.pause lg)).phase = _
                  rw [hph]
                  rw [show (p.det.step (.pause t)).phase = _ from hl] at dph
                  exact hpau l dph.symm
            cases h with
            | level a b c d e g i =>
              have hstate : ((∃ l, p.det.phase = .running l) ∨ ∃ l, p.det.phase = .paused l) →
                  ((∃ l, p.scan.phase = .running l) ∨ ∃ l, p.scan.phase = .paused l) := by
                rintro (⟨l, hl⟩ | ⟨l, hl⟩)
                · left
                  rw [hl] at e
                  cases hp : p.scan.phase <;> rw [hp] at e <;> first | exact ⟨_, rfl⟩ | cases e
                · right; exact g l hl
              refine key a (fun _ => c) ?_ i ?_
              · intro hh
                have := pauseTarget_ne (hstate hh) ht
                rw [b]; simpa using this
              · intro l hl
                have : (∃ l, p.det.phase = .running l) ∨ ∃ l, p.det.phase = .paused l := by
                  cases hp : p.det.phase <;> rw [hp] at hl <;> first | exact .inl ⟨_, rfl⟩ | exact .inr ⟨_, rfl⟩ | cases hl
                rcases hstate this with ⟨l', h'⟩ | ⟨l', h'⟩ <;> rw [h'] <;> exact ⟨l', rfl⟩
            | ahead a b c d =>
              obtain ⟨cfg, w, n1, n2, n3⟩ := d
              refine key a (fun hb => nxt_idx hb n1) ?_ (by rcases c with c | c <;> rw [c] <;> intro h <;> cases h) ?_
              · rintro (⟨l, hl⟩ | ⟨l, hl⟩) <;> rcases c with c | c <;> rw [hl] at c <;> cases c
              · intro l hl
                rcases c with c | c <;> rw [c] at hl <;> cases hl
            | broken a => exact absurd a hflt

theorem rel_detProgress {f : Nat} {p : Pair P} (h : Rel f p) (q : P) (n : Int) : Rel f (step f p (.detProgress q n)) := by
  have h1 := rel_progress_det h q n
  exact rel_follow h1

theorem rel_run_all {f : Nat} (hf : 0 < f) : ∀ (evs : List (DetStep.Ev P)) (p : Pair P), Rel f p →
    (f = 1 ∨ evs.all noPause = true) → Sane f p evs → Rel f (run f p evs) := by
  intro evs
  induction evs with
  | nil => intro p h _ _; exact h
  | cons e es ih =>
    intro p h hok hs
    refine ih (step f p e) ?_ ?_ hs.2
    · cases e with
      | run => exact rel_run h
      | resume => exact rel_resume h
      | pause lg =>
        rcases hok with rfl | hok
        · exact rel_pause_one h lg (hs.1 lg rfl)
        · simp [noPause] at hok
      | detProgress q n => exact rel_detProgress h q n
      | progress q n => exact rel_progress_scan h (some q) n
      | detDone => exact rel_detDone hf h
      | done => exact rel_done h
    · rcases hok with h | h
      · exact .inl h
      · simp only [List.all_cons, Bool.and_eq_true] at h
        exact .inr h.2

theorem rel_configured {ax : A} {frames : Nat} (hf : 1 ≤ frames) {s : Scan (Option P)} {d : Scan P} {dims : List (Dim A)}
    {axesToMove : List A} {bps : List Int} {p : Pair P} (hax : 1 < frames → ax ∉ axesToMove ∧ ∀ x ∈ dims, ax ∉ x.axes)
    (hone : frames = 1 ∨ bps = []) (hc : DetStep.configure ax frames s d dims axesToMove bps = some p) : Rel frames p := by
  unfold DetStep.configure at hc
  cases hs : configured s dims axesToMove bps with
  | error e => rw [hs] at hc; cases hc
  | ok sm =>
  rw [hs] at hc
  simp only at hc
  cases hm : multiplyDims ax frames dims with
  | none => rw [hm] at hc; cases hc
  | some dims' =>
  rw [hm] at hc
  simp only at hc
  cases hd : configured d dims' (multiplyAxes ax frames axesToMove) bps with
  | error e => rw [hd] at hc; cases hc
  | ok dm =>
  rw [hd] at hc
  cases hc
  unfold configured doConfigure at hs hd
  cases hsp : getStepsPerRun dims axesToMove bps with
  | error e => rw [hsp] at hs; cases hs
  | ok sp =>
  cases hdp : getStepsPerRun dims' (multiplyAxes ax frames axesToMove) bps with
  | error e => rw [hdp] at hd; cases hd
  | ok dp =>
  rw [hsp] at hs
  rw [hdp] at hd
  simp only at hs hd
  cases h0 : sp.steps[0]? with
  | none => rw [h0] at hs; cases hs
  | some x =>
  cases h0' : dp.steps[0]? with
  | none => rw [h0'] at hd; cases hd
  | some y =>
  rw [h0] at hs
  rw [h0'] at hd
  simp only at hs hd
  cases hs
  cases hd
  have main : dp.steps = sp.steps.map ((frames : Int) * ·) ∧ dp.useBp = sp.useBp ∧
      (sp.useBp = true → dp.bpSteps.getD d.bpSteps = (sp.bpSteps.getD s.bpSteps).map ((frames : Int) * ·)) ∧
      genSize dims' = frames * genSize dims := by
    by_cases h1 : 1 < frames
    · have hb : bps = [] := by rcases hone with h | h; · omega
                               · exact h
      subst hb
      obtain ⟨hax1, hax2⟩ := hax h1
      unfold getStepsPerRun at hsp hdp
      have hma : multiplyAxes ax frames axesToMove = axesToMove ++ [ax] := by unfold multiplyAxes; rw [if_pos h1]
      rw [hma] at hdp
      cases hi : innerSteps dims.reverse axesToMove with
      | none => rw [hi] at hsp; cases hsp
      | some n =>
      cases hi' : innerSteps dims'.reverse (axesToMove ++ [ax]) with
      | none => rw [hi'] at hdp; cases hdp
      | some n' =>
      rw [hi] at hsp
      rw [hi'] at hdp
      simp only [List.length_nil, gt_iff_lt, Nat.lt_irrefl, if_false] at hsp hdp
      cases hsp
      cases hdp
      have := inner_multiplied h1 hax2 hax1 hm hi hi'
      subst this
      exact ⟨by simp, rfl, (fun h => by cases h), size_multiplied h1 hm⟩
    · have h2 : frames = 1 := by omega
      subst h2
      have hm' : dims' = dims := by
        unfold multiplyDims at hm
        rw [if_neg h1] at hm
        exact (Option.some.inj hm).symm
      have hma : multiplyAxes ax 1 axesToMove = axesToMove := by unfold multiplyAxes; rw [if_neg h1]
      subst hm'
      rw [hma, hsp] at hdp
      cases hdp
      refine ⟨(map_one _).symm, rfl, ?_, by simp⟩
      intro hu
      have : ∃ l, sp.bpSteps = some l := by
        unfold getStepsPerRun at hsp
        cases hi : innerSteps dims'.reverse axesToMove with
        | none => rw [hi] at hsp; cases hsp
        | some n =>
          rw [hi] at hsp
          simp only at hsp
          split at hsp
          · split at hsp
            · cases hsp; exact ⟨_, rfl⟩
            · cases hsp
          · cases hsp; cases hu
      obtain ⟨l, hl⟩ := this
      rw [hl]
      exact (map_one _).symm
  obtain ⟨m1, m2, m3, m4⟩ := main
  have hxy : y = frames * x := by
    rw [m1, List.getElem?_map, h0] at h0'
    exact (Option.some.inj h0').symm
  refine .level ⟨?_, m2, m1, m3⟩ hxy rfl ?_ rfl ?_ (fun h => by cases h)
  · show ((genSize dims' : Nat) : Int) = frames * ((genSize dims : Nat) : Int)
    rw [m4]; simp
  · show ((0 : Int), y) = framesOf frames (0, x)
    rw [hxy]; simp [framesOf]
  · intro l h; cases h

theorem Rel.inStep {f : Nat} {p : Pair P} (h : Rel f p) : p.scan.phase = .fault ∨ InStep f p := by
  cases h with
  | level a b c d e g i => exact .inr ⟨a.total, fun _ => d, fun h => by rw [e]; exact h⟩
  | ahead a b c d =>
    refine .inr ⟨a.total, fun h => ?_, fun _ => b⟩
    rw [b] at h
    rcases c with c | c <;> rw [c] at h <;> cases h
  | broken a => exact .inl a

/-- **C70** (in part). A scan is configured with a detector that takes `frames` frames in each step, under a name for
the frames which is not an axis of the scan, and then run, paused, sought and resumed in any way, while its parts and those
of the detector report any progress. Unless the scan has failed, the detector takes or is about to take exactly the frames
of the steps that the scan does or is about to do, and takes none when the scan is not running. For several frames in each
step it is proved for scans without breakpoints which are not paused: with either it does not hold, see
`seek_misplaces_frames` and `breakpoints_misplace_frames`. -/
theorem in_step_partial {ax : A} {frames : Nat} (hf : 1 ≤ frames) {s : Scan (Option P)} {d : Scan P} {dims : List (Dim A)}
    {axesToMove : List A} {bps : List Int} {p : Pair P} {evs : List (DetStep.Ev P)}
    (hax : 1 < frames → ax ∉ axesToMove ∧ ∀ x ∈ dims, ax ∉ x.axes)
    (hone : frames = 1 ∨ (bps = [] ∧ evs.all noPause = true)) (hsane : Sane frames p evs)
    (hc : DetStep.configure ax frames s d dims axesToMove bps = some p) :
    (run frames p evs).scan.phase = .fault ∨ InStep frames (run frames p evs) := by
  have h0 := rel_configured hf hax (by rcases hone with h | ⟨h, -⟩; · exact .inl h
                                       · exact .inr h) hc
  exact (rel_run_all (by omega) evs p h0 (by rcases hone with h | ⟨-, h⟩; · exact .inl h
                                             · exact .inr h) hsane).inStep

/-- A pause at a step which is given, of a scan with steps of which some are configured, is sane. -/
theorem explicit_pause_sane {s : Scan P} {ph : Phase} {lg t : Int} (h0 : 0 ≤ lg) (ht : 0 < s.total) (hc : 0 < s.configured)
    (h : pauseTarget s ph lg = some t) : 0 ≤ t ∧ t < s.total := by
  unfold pauseTarget at h
  rw [if_neg (by omega)] at h
  simp only at h
  rw [if_neg (by omega)] at h
  have hx : ∃ x, (if lg ≥ s.total then s.total - 1 else lg) = x ∧ 0 ≤ x ∧ x < s.total := by
    refine ⟨_, rfl, ?_⟩
    split <;> omega
  obtain ⟨x, hx, h1, h2⟩ := hx
  rw [hx] at h
  cases ph <;> simp only [Option.some.injEq] at h <;> subst h <;> (try split) <;> omega

/-- **C70**: the progress that the detector reports to the scan is the number of steps of which it has taken every frame. -/
theorem reports_whole_steps {frames : Nat} (hf : 1 ≤ frames) (m : Machine (Option P)) (det : Machine P) :
    ∃ n, Dict.get? (report frames m det).scan.progress none = some n ∧ frames * n ≤ det.scan.completed ∧
      det.scan.completed < frames * (n + 1) := by
  refine ⟨det.scan.completed / (frames : Int), ?_, ?_, ?_⟩
  · show Dict.get? (updateCompleted m.scan none (det.scan.completed / (frames : Int))).progress none = _
    have : (updateCompleted m.scan none (det.scan.completed / (frames : Int))).progress =
        Dict.set m.scan.progress none (det.scan.completed / (frames : Int)) := by
      unfold updateCompleted
      simp only
      split
      · rfl
      · split <;> rfl
    rw [this, Dict.get?_set_self]
  · exact Int.mul_ediv_self_le (by omega)
  · have h := Int.lt_mul_ediv_self_add (x := det.scan.completed) (k := (frames : Int)) (by omega)
    rw [Int.mul_add, Int.mul_one]
    exact h

theorem updateCompleted_progress (s : Scan P) (q : P) (n : Int) : (updateCompleted s q n).progress = Dict.set s.progress q n := by
  unfold updateCompleted
  simp only
  split
  · rfl
  · split <;> rfl

/-- The scan knows what the detector has done -/
def Current (f : Nat) (p : Pair P) : Prop :=
  isRunning p.scan.phase = true → isRunning p.det.phase = true →
    Dict.get? p.scan.scan.progress none = some (p.det.scan.completed / (f : Int))

theorem current_follow {f : Nat} {p : Pair P} {det : Machine P} (h : Current f p) (hd : isRunning det.phase = true → isRunning p.det.phase = true) :
    Current f (follow f p det) := by
  unfold follow
  cases hp : p.scan.phase with
  | running l =>
    simp only
    split
    · rename_i he
      intro h1 h2
      have := h h1 (hd h2)
      show Dict.get? p.scan.scan.progress none = some (det.scan.completed / (f : Int))
      rw [this, he]
    · intro _ _
      show Dict.get? (updateCompleted p.scan.scan none (det.scan.completed / (f : Int))).progress none = _
      rw [updateCompleted_progress, Dict.get?_set_self]
  | _ => intro h1; rw [show (Pair.scan _).phase = _ from hp] at h1; cases h1

theorem current_onRun {f : Nat} (p : Pair P) : Current f (onRun f p) := by
  unfold onRun
  simp only
  cases hd : p.det.phase with
  | armed =>
    simp only
    intro _ _
    show Dict.get? (updateCompleted p.scan.scan none (p.det.scan.completed / (f : Int))).progress none =
      some ((p.det.step .run).scan.completed / (f : Int))
    have : (p.det.step .run).scan = p.det.scan := by unfold Machine.step; simp only [hd]
    rw [updateCompleted_progress, Dict.get?_set_self, this]
  | paused l =>
    simp only
    intro _ _
    show Dict.get? (updateCompleted p.scan.scan none (p.det.scan.completed / (f : Int))).progress none =
      some ((p.det.step .resume).scan.completed / (f : Int))
    have : (p.det.step .resume).scan = p.det.scan := by unfold Machine.step; simp only [hd]
    rw [updateCompleted_progress, Dict.get?_set_self, this]
  | _ => intro h; cases h

theorem step_paused_not_running (m : Machine P) (lg t : Int) (hp : m.phase ≠ .fault) (ht : pauseTarget m.scan m.phase lg = some t) :
    isRunning (m.step (.pause lg)).phase = false := by
  rcases pause_spec m lg t hp ht with ⟨-, h⟩ | ⟨-, -, h⟩
  · rw [h]; rfl
  · rw [h, pausedPhase_running]

theorem current_step {f : Nat} {p : Pair P} (h : Current f p) (e : DetStep.Ev P) : Current f (step f p e) := by
  cases e with
  | run =>
    unfold step
    cases hp : p.scan.phase <;> simp only <;> first | exact current_onRun _ | exact h
  | resume =>
    unfold step
    cases hp : p.scan.phase <;> simp only <;> first | exact current_onRun _ | exact h
  | pause lg =>
    show Current f (pause p lg)
    unfold pause
    split
    · exact h
    · rename_i hne
      have hflt : p.scan.phase ≠ .fault := by
        intro hh; exact hne hh
      split
      · exact h
      · rename_i t ht
        have hnr := step_paused_not_running p.scan lg t hflt ht
        split
        · intro h1; rw [show isRunning (Pair.scan _).phase = _ from hnr] at h1; cases h1
        · simp only
          split
          · intro h1; cases h1
          · intro h1; rw [show isRunning (Pair.scan _).phase = _ from hnr] at h1; cases h1
  | detProgress q n => exact current_follow h (fun h => h)
  | progress q n =>
    intro h1 h2
    have := h h1 h2
    show Dict.get? (updateCompleted p.scan.scan (some q) n).progress none = _
    rw [updateCompleted_progress, Dict.get?_set_ne (k := some q) (k2 := none) _ _ (fun h => by cases h)]
    exact this
  | detDone =>
    unfold step
    simp only
    split
    · intro h1; cases h1
    · refine current_follow h (fun hh => ?_)
      cases hd : p.det.phase with
      | running l => rfl
      | _ =>
        have hs : p.det.step .runHooksDone = p.det := by unfold Machine.step; simp only [hd]
        rw [hs, hd] at hh
        exact hh
  | done =>
    unfold step
    cases hd : p.det.phase <;> simp only <;> first
      | exact h
      | (intro _ h2; rw [show (Pair.det _).phase = _ from hd] at h2; cases h2)

/-- **C70**: while both are running, whatever happened before, the progress which the scan has for the detector is the number
of steps that the detector has by now taken every frame of. -/
theorem progress_is_current {ax : A} {frames : Nat} (hf : 1 ≤ frames) {s : Scan (Option P)} {d : Scan P} {dims : List (Dim A)}
    {axesToMove : List A} {bps : List Int} {p : Pair P} (evs : List (DetStep.Ev P))
    (hc : DetStep.configure ax frames s d dims axesToMove bps = some p)
    (hs : isRunning (run frames p evs).scan.phase = true) (hd : isRunning (run frames p evs).det.phase = true) :
    ∃ n, Dict.get? (run frames p evs).scan.scan.progress none = some n ∧ frames * n ≤ (run frames p evs).det.scan.completed ∧
      (run frames p evs).det.scan.completed < frames * (n + 1) := by
  have h0 : Current frames p := by
    unfold DetStep.configure at hc
    split at hc
    · cases hc
    · rename_i sm hsm
      split at hc
      · cases hc
      · split at hc
        · cases hc
        · cases hc
          intro h1
          unfold configured at hsm
          split at hsm
          · cases hsm
          · cases hsm; cases h1
  have hall : ∀ (evs : List (DetStep.Ev P)) (p : Pair P), Current frames p → Current frames (run frames p evs) := by
    intro evs
    induction evs with
    | nil => intro p h; exact h
    | cons e es ih => intro p h; exact ih _ (current_step h e)
  refine ⟨_, hall evs p h0 hs hd, Int.mul_ediv_self_le (by omega), ?_⟩
  have h := Int.lt_mul_ediv_self_add (x := (run frames p evs).det.scan.completed) (k := (frames : Int)) (by omega)
  rw [Int.mul_add, Int.mul_one]
  exact h

/-! ### cases -/

example : ∃ p, DetStep.configure "f" 3 ({} : Scan (Option String)) {} [⟨["y"], 2⟩, ⟨["x"], 5⟩] ["x"] [] = some p ∧
    isRunning (run 3 p [.run, .detProgress "arr" 7]).scan.phase = true ∧
    isRunning (run 3 p [.run, .detProgress "arr" 7]).det.phase = true ∧
    Dict.get? (run 3 p [.run, .detProgress "arr" 7]).scan.scan.progress none = some 2 :=
  ⟨_, rfl, by decide +kernel, by decide +kernel, by decide +kernel⟩

/-- rows of 5 steps, all moved in one run: two runs of it with a detector that takes 3 frames in each step -/
def cell : Option (Pair String) :=
  DetStep.configure "det_frames_per_step" 3 {} {} [⟨["y"], 2⟩, ⟨["x"], 5⟩] ["x"] []

example : ∃ p, cell = some p ∧ p.scan.window = (0, 5) ∧ p.det.window = (0, 15) ∧
    Sane 3 p [.run, .detProgress "arr" 7, .detDone, .done] ∧
    (run 3 p [.run, .detProgress "arr" 7]).scan.scan.completed = 2 ∧
    (run 3 p [.run, .detProgress "arr" 7, .detDone, .done]).scan.window = (5, 5) ∧
    (run 3 p [.run, .detProgress "arr" 7, .detDone, .done]).det.window = (15, 15) :=
  ⟨_, rfl, by decide +kernel, by decide +kernel, ⟨nofun, nofun, nofun, nofun, trivial⟩, by decide +kernel, by decide +kernel, by decide +kernel⟩

/-- one frame in each step, breakpoints, and a pause -/
def single : Option (Pair String) := DetStep.configure "f" 1 {} {} [⟨["x"], 10⟩] ["x"] [4, 2]

example : ∃ p, single = some p ∧ Sane 1 p [.run, .detProgress "arr" 3, .pause 1, .resume] ∧
    (run 1 p [.run, .detProgress "arr" 3, .pause 1, .resume]).scan.window = (1, 3) ∧
    (run 1 p [.run, .detProgress "arr" 3, .pause 1, .resume]).det.window = (1, 3) ∧
    isRunning (run 1 p [.run, .detProgress "arr" 3, .pause 1, .resume]).det.phase = true := by
  refine ⟨_, rfl, ⟨nofun, nofun, ?_, nofun, trivial⟩, by decide +kernel, by decide +kernel, by decide +kernel⟩
  intro lg h t ht
  cases h
  exact explicit_pause_sane (by decide) (by decide +kernel) (by decide +kernel) ht

/-- Two frames in each of 10 steps. The scan is paused at step 4. The scan goes on with its last 6 steps, but the detector
goes on at frame 4, which is the first of step 2, and will take 16 frames: it is paused at the step of the scan
(detectorchildpart.py 385), not at the frame. -/
theorem seek_misplaces_frames : ∃ p : Pair String, DetStep.configure "f" 2 {} {} [⟨["x"], 10⟩] ["x"] [] = some p ∧
    (run 2 p [.run, .detProgress "arr" 9, .pause 4]).scan.window = (4, 6) ∧
    (run 2 p [.run, .detProgress "arr" 9, .pause 4]).det.window = (4, 16) :=
  ⟨_, rfl, by decide +kernel, by decide +kernel⟩

/-- Two frames in each of 10 steps, with a breakpoint after 5 steps: the scan does two runs of 5 steps, the detector runs of 5
frames and 15 frames, because the breakpoints are passed on as they are (detectorchildpart.py 290). -/
theorem breakpoints_misplace_frames : ∃ p : Pair String, DetStep.configure "f" 2 {} {} [⟨["x"], 10⟩] ["x"] [5] = some p ∧
    p.scan.window = (0, 5) ∧ p.det.window = (0, 5) ∧
    (run 2 p [.run, .detDone, .done]).scan.window = (5, 5) ∧ (run 2 p [.run, .detDone, .done]).det.window = (5, 15) :=
  ⟨_, rfl, by decide +kernel, by decide +kernel, by decide +kernel, by decide +kernel⟩

/-- A scan that moves no axes itself can be configured, but not with a detector that takes two frames in each step: the new
axis is squashed with the last axis of the scan, which the detector then finds is not among its axes to move. -/
theorem no_axes_refused : (configured ({} : Scan (Option String)) [⟨["x"], 10⟩] [] []).toOption.isSome = true ∧
    (DetStep.configure "f" 2 ({} : Scan (Option String)) {} [⟨["x"], 10⟩] [] []).isSome = false ∧
    (DetStep.configure "f" 1 ({} : Scan (Option String)) {} [⟨["x"], 10⟩] [] []).isSome = true := by
  decide +kernel

end Verif.Props.DetStep
