import Verif.Props.FileWrite
import Verif.Model.DetArm
import Verif.Spec.DetArm
/-!
C86 (a detector takes one frame for each step).
-/
set_option linter.unusedSectionVars false
namespace Verif.Props.DetArm
open Verif Verif.Steps Verif.DetArm Verif.Spec.DetArm Verif.Spec.Steps

variable {A : Type} [DecidableEq A] {P : Type} [DecidableEq P]

/-- The scans that a detector can do: an xmap is told the pixels of a run once in a scan without breakpoints, and the detectors
that are stopped after a run are not started again. -/
def Suits (parts : List Int) (p : Part) : Prop :=
  match p.kind with
  | .standard => True
  | .xmap => p.breakpoints = true ∨ p.hardware = false ∨ parts.length = 1
  | .stopped => p.hardware = true ∧ parts.length = 1

/-- What the scan is told -/
def told : DetArm.Ev P → Option (Steps.Ev (Option P))
  | .pause lg => some (.pause lg)
  | .progress q n => some (.progress (some q) n)
  | _ => none

/-- Pauses and the reports of other parts are as C09 demands. -/
def Permitted (parts : List Int) : Sys P → List (DetArm.Ev P) → Prop
  | _, [] => True
  | s, e :: es => (∀ x, told e = some x → Steps.Allowed parts s.scan x) ∧ Permitted parts (s.step e) es

/-- For how many images the driver is still to be there at a step of a window -/
def due (p : Part) (stop cursor : Int) : Int :=
  if p.hardware && !p.breakpoints then (if p.kind = .xmap then stop else p.size) - cursor else stop - cursor

/-- The part and its driver are where the scan is. -/
structure Link (parts : List Int) (s : Sys P) : Prop where
  good : ∃ j, Steps.Good parts s.scan j
  suits : Suits parts s.part
  size : s.part.size = s.scan.scan.total
  lost : s.lost = []
  twice : s.twice = false
  frames : s.scan.start ≤ s.cursor ∧ StepsFrom s.scan.start s.cursor s.frames
  fin : s.scan.phase = .finished → s.cursor = s.part.size ∧ s.driver.acquiring = false
  low : s.scan.phase ≠ .finished → s.scan.window.1 ≤ s.cursor ∧ s.cursor ≤ s.stopAt
  rest : s.scan.phase ≠ .finished → (∀ l, s.scan.phase ≠ .running l) → s.cursor = s.scan.window.1
  counted : s.scan.phase ≠ .finished → s.part.kind ≠ .stopped →
    s.driver.counter + s.part.offset = s.cursor ∧ s.part.done + s.part.offset = s.stopAt
  armed : s.scan.phase ≠ .finished → (s.part.hardware = true ∨ ∃ l, s.scan.phase = .running l) →
    s.driver.left = due s.part s.stopAt s.cursor ∧ (s.driver.acquiring = true ↔ 0 < s.driver.left)
  unarmed : s.scan.phase ≠ .finished → s.part.hardware = false → (∀ l, s.scan.phase ≠ .running l) →
    s.driver.acquiring = false ∧ s.driver.images = s.stopAt - s.cursor

theorem stepsFrom_self (a : Int) : StepsFrom a a [] := by simp [StepsFrom]

theorem stepsFrom_snoc {a b : Int} {l : List Int} (h : StepsFrom a b l) (hab : a ≤ b) : StepsFrom a (b + 1) (l ++ [b]) := by
  unfold StepsFrom at h ⊢
  have : (b + 1 - a).toNat = (b - a).toNat + 1 := by omega
  rw [this, List.range_succ, List.map_append, ← h]
  simp only [List.map_cons, List.map_nil, List.append_cancel_left_eq, List.cons.injEq, and_true]
  omega

theorem link_position {parts : List Int} {s : Sys P} (hg : ∃ j, Steps.Good parts s.scan j) (hs : Suits parts s.part)
    (hz : s.part.size = s.scan.scan.total) (hl : s.lost = []) (ht : s.twice = false) (ha : s.driver.acquiring = false)
    (hst : s.scan.start = s.scan.window.1) (hf : s.scan.phase ≠ .finished) (hr : ∀ l, s.scan.phase ≠ .running l) (initial : Bool) :
    Link parts (s.position s.scan.window initial) := by
  obtain ⟨j, hj⟩ := hg
  have hpos := (hj.notfin hf).2.1
  cases hh : s.part.hardware with
  | true =>
    have e : s.position s.scan.window initial = { (s.setup s.scan.window (s.part.numImages s.scan.window) initial).arm with
        cursor := s.scan.window.1, frames := [] } := by
      simp [Sys.position, Sys.setup, Sys.arm, hh]
    rw [e]
    refine ⟨⟨j, hj⟩, hs, hz, hl, by simp [Sys.arm, Sys.setup, ht, ha], ⟨by simp [Sys.arm, Sys.setup, hst], ?_⟩, fun h => absurd h hf, fun _ => ?_, fun _ _ => rfl, ?_, ?_, ?_⟩
    · show StepsFrom s.scan.start s.scan.window.1 []
      rw [hst]; exact stepsFrom_self _
    · constructor
      · exact Int.le_refl _
      · show s.scan.window.1 ≤ s.scan.window.1 + s.scan.window.2; omega
    · intro _ _
      simp only [Sys.arm, Sys.setup, Sys.stopAt]
      omega
    · intro _ _
      refine ⟨?_, by simp [Sys.arm]⟩
      simp only [Sys.arm, Sys.setup, due, Part.numImages, hh, Sys.stopAt]
      repeat' split
      all_goals simp_all
      all_goals omega
    · intro _ h; simp only [Sys.arm, Sys.setup] at h; rw [hh] at h; cases h
  | false =>
    have e : s.position s.scan.window initial = { s.setup s.scan.window (s.part.numImages s.scan.window) initial with
        cursor := s.scan.window.1, frames := [] } := by
      simp [Sys.position, Sys.setup, hh]
    rw [e]
    refine ⟨⟨j, hj⟩, hs, hz, hl, ht, ⟨by simp [Sys.setup, hst], ?_⟩, fun h => absurd h hf, fun _ => ?_, fun _ _ => rfl, ?_, ?_, ?_⟩
    · show StepsFrom s.scan.start s.scan.window.1 []
      rw [hst]; exact stepsFrom_self _
    · constructor
      · exact Int.le_refl _
      · show s.scan.window.1 ≤ s.scan.window.1 + s.scan.window.2; omega
    · intro _ _
      simp only [Sys.setup, Sys.stopAt]
      omega
    · intro _ h
      rcases h with h | ⟨l, h⟩
      · simp only [Sys.setup] at h; rw [hh] at h; cases h
      · exact absurd h (hr l)
    · intro _ _ _
      refine ⟨ha, ?_⟩
      simp only [Sys.setup, Part.numImages, hh, Sys.stopAt]
      simp only [Bool.false_and, Bool.false_eq_true, if_false]
      split <;> omega

theorem link_pause {parts : List Int} {s : Sys P} (h : Link parts s) (lg : Int) (ha : Steps.Allowed parts s.scan (.pause lg)) :
    Link parts (s.pause lg) := by
  obtain ⟨j, hj⟩ := h.good
  have key : ∀ t, pauseTarget s.scan.scan s.scan.phase lg = some t → ∀ s' w, doPause s.scan.scan t = .ok (s', w) →
      Link parts (({ s.stop with scan := s.scan.step (.pause lg) } : Sys P).position w false) := by
    intro t ht s' w hd
    obtain ⟨s'', w', hd', h1, h2, h3, h4, h5, h6, h7, h8, h9, h10⟩ := FileWrite.pause_told hj lg t ha ht
    rw [hd] at hd'
    cases hd'
    have hst : (s.scan.step (.pause lg)).start = t := by
      cases hp : s.scan.phase <;> first | exact absurd hp hj.nofault | (rw [hp] at ht; simp [Machine.step, hp, ht, hd])
    have := link_position (s := { s.stop with scan := s.scan.step (.pause lg) }) (initial := false) (Steps.good_step hj _ ha) h.suits
      (by show s.part.size = (s.scan.step (.pause lg)).scan.total; rw [h2, h8]; exact h.size) h.lost h.twice rfl
      (by show (s.scan.step (.pause lg)).start = (s.scan.step (.pause lg)).window.1; rw [hst, h1, h3]) h9 h10
    simp only [h1] at this
    exact this
  have bad : ∀ t, pauseTarget s.scan.scan s.scan.phase lg = some t → ∀ x, doPause s.scan.scan t ≠ .error x := by
    intro t ht x hx
    obtain ⟨s'', w', hd', -⟩ := FileWrite.pause_told hj lg t ha ht
    rw [hx] at hd'; cases hd'
  unfold Sys.pause
  cases hph : s.scan.phase with
  | fault => exact absurd hph hj.nofault
  | _ =>
    simp only
    rw [hph] at key bad
    split
    · exact h
    · rename_i t ht
      split
      · rename_i x hx; exact absurd hx (bad t ht x)
      · rename_i s' w hd; exact key t ht s' w hd

/-- A call of `run` or `resume` -/
theorem link_onRun {parts : List Int} {s : Sys P} (h : Link parts s) {m : Machine (Option P)} {l : Bool} (hg : ∃ j, Steps.Good parts m j)
    (hf : s.scan.phase ≠ .finished) (hr : ∀ l, s.scan.phase ≠ .running l)
    (hm : m.phase = .running l) (hsc : m.scan = s.scan.scan) (hw : m.window = s.scan.window) (hst : m.start = s.scan.start) :
    Link parts ({ s with scan := m } : Sys P).onRun := by
  have hc := h.rest hf hr
  have hsu := h.suits
  cases hh : s.part.hardware with
  | true =>
    have e : ({ s with scan := m } : Sys P).onRun = { s with scan := m } := by
      unfold Sys.onRun; simp only; split
      · rfl
      · simp [hh]
    rw [e]
    obtain ⟨ha1, ha2⟩ := h.armed hf (Or.inl hh)
    refine ⟨hg, hsu, by simp only [hsc]; exact h.size, h.lost, h.twice, by simp only [hst]; exact h.frames, ?_, ?_, ?_, ?_, ?_, ?_⟩
    · intro hx; rw [hm] at hx; cases hx
    · intro _; simp only [Sys.stopAt, hw]; exact h.low hf
    · intro _ hx; exact absurd hm (hx l)
    · intro _ hk; simp only [Sys.stopAt, hw]; exact h.counted hf hk
    · intro _ _; simp only [Sys.stopAt, hw]; exact ⟨ha1, ha2⟩
    · intro _ hx; rw [hh] at hx; cases hx
  | false =>
    have hk : s.part.kind ≠ .stopped := by
      intro hk; unfold Suits at hsu; rw [hk] at hsu; simp [hh] at hsu
    have e : ({ s with scan := m } : Sys P).onRun = ({ s with scan := m } : Sys P).arm := by
      unfold Sys.onRun
      cases hkk : s.part.kind <;> simp_all
    rw [e]
    obtain ⟨hu1, hu2⟩ := h.unarmed hf hh hr
    refine ⟨hg, hsu, by simp only [Sys.arm, hsc]; exact h.size, h.lost, by simp [Sys.arm, h.twice, hu1], by simp only [Sys.arm, hst]; exact h.frames, ?_, ?_, ?_, ?_, ?_, ?_⟩
    · intro hx; simp only [Sys.arm] at hx; rw [hm] at hx; cases hx
    · intro _; simp only [Sys.arm, Sys.stopAt, hw]; exact h.low hf
    · intro _ hx; exact absurd hm (hx l)
    · intro _ hk; simp only [Sys.arm, Sys.stopAt, hw]; exact h.counted hf hk
    · intro _ _
      refine ⟨?_, by simp [Sys.arm]⟩
      simp only [Sys.arm, Sys.stopAt, hw, due, hh, Bool.false_and, Bool.false_eq_true, if_false]
      exact hu2
    · intro _ _ hx; exact absurd hm (hx l)

theorem good_single {parts : List Int} {m : Machine P} {j : Nat} (h : Steps.Good parts m j) (h1 : parts.length = 1) :
    m.scan.configured = m.scan.total := by
  have hlt := h.wf.lt
  rw [h.wf.cfg, h.wf.total, List.take_of_length_le (by omega)]

theorem link_trigger {parts : List Int} {s : Sys P} (h : Link parts s) : Link parts s.trigger := by
  obtain ⟨j, hj⟩ := h.good
  unfold Sys.trigger
  cases hr : s.scan.phase with
  | running l =>
    simp only
    have hnf : s.scan.phase ≠ .finished := by rw [hr]; simp
    have hcfg := (hj.notfin hnf).1
    split
    · rename_i hlt
      obtain ⟨ha1, ha2⟩ := h.armed hnf (Or.inr ⟨l, hr⟩)
      obtain ⟨hlo, hhi⟩ := h.low hnf
      have hdue : 0 < s.driver.left := by
        rw [ha1]
        have hz := h.size
        have hcl := hj.wf.cfg_le
        unfold due
        unfold Sys.stopAt at hlt ⊢
        repeat' split
        all_goals omega
      have hacq := ha2.2 hdue
      rw [if_pos hacq]
      have core : ∀ m : Machine (Option P), (∃ j, Steps.Good parts m j) → m.phase = .running l → m.scan.total = s.scan.scan.total →
          m.window = s.scan.window → m.start = s.scan.start →
          Link parts { s with driver := { s.driver with counter := s.driver.counter + 1, left := s.driver.left - 1, acquiring := decide (1 < s.driver.left) },
                              frames := s.frames ++ [s.cursor], cursor := s.cursor + 1, scan := m } := by
        intro m hg hm htot hw hst
        refine ⟨hg, h.suits, by simp only [htot]; exact h.size, h.lost, h.twice, ⟨?_, ?_⟩, ?_, ?_, ?_, ?_, ?_, ?_⟩
        · have := h.frames.1; simp only [hst]; omega
        · simp only [hst]; exact stepsFrom_snoc h.frames.2 h.frames.1
        · intro hx; simp only at hx; rw [hm] at hx; cases hx
        · intro _
          simp only [Sys.stopAt, hw] at hlt ⊢
          omega
        · intro _ hx; exact absurd hm (hx l)
        · intro _ hk
          obtain ⟨c1, c2⟩ := h.counted hnf hk
          simp only [Sys.stopAt, hw] at c2 ⊢
          omega
        · intro _ _
          refine ⟨?_, ?_⟩
          · simp only [Sys.stopAt, hw] at ha1 ⊢
            unfold due at ha1 ⊢
            repeat' split
            all_goals simp_all
            all_goals omega
          · simp only [decide_eq_true_eq]; omega
        · intro _ _ hx; exact absurd hm (hx l)
      split
      · exact core s.scan ⟨j, hj⟩ hr rfl rfl rfl
      · rename_i hk
        refine core _ (Steps.good_step hj _ ?_) hr (updateCompleted_frame _ _ _).1 rfl rfl
        refine ⟨⟨l, hr⟩, ?_⟩
        obtain ⟨c1, c2⟩ := h.counted hnf hk
        simp only [Sys.reported]
        unfold Sys.stopAt at hlt
        omega
    · exact h
  | _ => exact h

theorem link_progress {parts : List Int} {s : Sys P} (h : Link parts s) (q : Option P) (n : Int)
    (ha : Steps.Allowed parts s.scan (.progress q n)) : Link parts { s with scan := s.scan.step (.progress q n) } := by
  obtain ⟨j, hj⟩ := h.good
  exact ⟨Steps.good_step hj _ ha, h.suits, by simpa [Machine.step, (updateCompleted_frame s.scan.scan q n).1] using h.size, h.lost, h.twice, h.frames, h.fin, h.low, h.rest, h.counted, h.armed, h.unarmed⟩

theorem link_done {parts : List Int} {s : Sys P} (h : Link parts s) : Link parts s.done := by
  obtain ⟨j, hj⟩ := h.good
  unfold Sys.done
  cases hr : s.scan.phase with
  | running l =>
    simp only
    have hnf : s.scan.phase ≠ .finished := by rw [hr]; simp
    have hcfg := (hj.notfin hnf).1
    obtain ⟨ha1, ha2⟩ := h.armed hnf (Or.inr ⟨l, hr⟩)
    have hlast := hj.last l (Or.inl hr)
    split
    · rename_i hd
      obtain ⟨hd1, hd2⟩ := hd
      by_cases hlt : s.scan.scan.configured < s.scan.scan.total
      · have hl' : l = false := by
          cases l with
          | false => rfl
          | true => have := hlast.1 rfl; omega
        subst hl'
        obtain ⟨hi, s', hp, hwf', hcmp, hcf', -⟩ := postRun_more hj.wf hlt
        rw [hp]
        have hm : s.scan.step .runHooksDone = {
            scan := s', phase := .armed, window := (s.scan.scan.configured, parts[j + 1]),
            ran := s.scan.ran ++ [s.scan.window], start := s.scan.start } := by simp [Machine.step, hr, hp]
        have hpos := hj.wf.pos _ (List.getElem_mem hi)
        have hsu := h.suits
        have h1 : parts.length ≠ 1 := fun hx => by have := good_single hj hx; omega
        have hk : s.part.kind ≠ .stopped := by
          intro hk; unfold Suits at hsu; rw [hk] at hsu; exact h1 hsu.2
        obtain ⟨c1, c2⟩ := h.counted hnf hk
        have hg := Steps.good_step hj .runHooksDone trivial
        rw [hm] at hg
        have hcur : s.cursor = s.scan.scan.configured := by rw [hd1]; exact hcfg
        have hz : s.part.size = s'.total := by rw [h.size, hwf'.total, hj.wf.total]
        simp only [hm]
        unfold Sys.next
        split
        · rename_i hx; exact absurd hx hk
        · simp only
          cases hagain : (s.part.breakpoints || !s.part.hardware) with
          | true =>
            simp only [if_true]
            have hnb : (s.part.hardware && !s.part.breakpoints) = false := by
              cases hb : s.part.breakpoints <;> cases hh : s.part.hardware <;> simp_all
            have hidle : s.driver.acquiring = false := by
              cases hq : s.driver.acquiring with
              | false => rfl
              | true =>
                have := ha2.1 hq
                rw [ha1] at this
                simp only [due, hnb, Bool.false_eq_true, if_false] at this
                omega
            have himg : ∀ k : Int, (if s.part.kind = Kind.xmap then k else k) = k := fun k => by split <;> rfl
            cases hh : s.part.hardware with
            | true =>
              simp only [Sys.setup, hh, if_true, Sys.arm, himg]
              have hb : s.part.breakpoints = true := by rw [hh] at hnb; simpa using hnb
              refine ⟨hg, by simpa [Suits, hh] using hsu, hz, h.lost, by simp [h.twice, hidle], h.frames, by simp, ?_, ?_, ?_, ?_, ?_⟩
              · intro _; simp only [Sys.stopAt]; omega
              · intro _ _; exact hcur
              · intro _ _; simp only [Sys.stopAt] at c2 ⊢
                simp only [Bool.false_eq_true, if_false]
                omega
              · intro _ _
                simp only [due, hb, Sys.stopAt, decide_eq_true_eq, iff_self, and_true, Bool.and_false, Bool.not_true, Bool.false_eq_true, if_false]
                omega
              · intro _ hx; simp only at hx; cases hx
            | false =>
              simp only [Sys.setup, hh, Bool.false_eq_true, if_false, himg]
              refine ⟨hg, by simpa [Suits, hh] using hsu, hz, h.lost, h.twice, h.frames, by simp, ?_, ?_, ?_, ?_, ?_⟩
              · intro _; simp only [Sys.stopAt]; omega
              · intro _ _; exact hcur
              · intro _ _; simp only [Sys.stopAt] at c2 ⊢; omega
              · intro _ hx
                rcases hx with hx | ⟨l, hx⟩
                · simp only at hx; cases hx
                · cases hx
              · intro _ _ _
                refine ⟨hidle, ?_⟩
                simp only [Sys.stopAt]; omega
          | false =>
            simp only [Bool.false_eq_true, if_false]
            have hh : s.part.hardware = true := by cases hh : s.part.hardware <;> simp_all
            have hb : s.part.breakpoints = false := by cases hb : s.part.breakpoints <;> simp_all
            have hx : s.part.kind ≠ .xmap := by
              intro hx; unfold Suits at hsu; rw [hx] at hsu
              rcases hsu with a | a | a
              · rw [hb] at a; cases a
              · rw [hh] at a; cases a
              · exact h1 a
            refine ⟨hg, hsu, hz, h.lost, h.twice, h.frames, by simp, ?_, ?_, ?_, ?_, ?_⟩
            · intro _; simp only [Sys.stopAt]; omega
            · intro _ _; exact hcur
            · intro _ _; simp only [Sys.stopAt] at c2 ⊢; omega
            · intro _ _
              refine ⟨?_, ha2⟩
              simp only [due, hh, hb, hx, if_false] at ha1 ⊢
              exact ha1
            · intro _ hx; simp only at hx; rw [hh] at hx; cases hx
      · have hcl := hj.wf.cfg_le
        have hl' : l = true := hlast.2 (by omega)
        subst hl'
        rw [postRun_last hlt]
        have hm : s.scan.step .runHooksDone = {
            scan := { s.scan.scan with completed := s.scan.scan.configured },
            phase := .finished, window := (s.scan.scan.configured, 0), ran := s.scan.ran ++ [s.scan.window],
            start := s.scan.start } := by simp [Machine.step, hr, postRun_last hlt]
        have hg := Steps.good_step hj .runHooksDone trivial
        rw [hm] at hg
        have hcur : s.cursor = s.part.size := by
          rw [hd1, h.size]; unfold Sys.stopAt; omega
        have hidle : s.driver.acquiring = false := by
          cases hq : s.driver.acquiring with
          | false => rfl
          | true =>
            have := ha2.1 hq
            rw [ha1] at this
            have hz := h.size
            unfold due at this
            repeat' split at this
            all_goals omega
        simp only [hm]
        split
        · refine ⟨hg, h.suits, h.size, h.lost, h.twice, h.frames, fun _ => ⟨hcur, rfl⟩, ?_, ?_, ?_, ?_, ?_⟩ <;>
            (intro hx; exact absurd rfl hx)
        · refine ⟨hg, h.suits, h.size, h.lost, h.twice, h.frames, fun _ => ⟨hcur, hidle⟩, ?_, ?_, ?_, ?_, ?_⟩ <;>
            (intro hx; exact absurd rfl hx)
    · exact h
  | _ => exact h

theorem link_step {parts : List Int} {s : Sys P} (h : Link parts s) (e : DetArm.Ev P)
    (ha : ∀ x, told e = some x → Steps.Allowed parts s.scan x) : Link parts (s.step e) := by
  obtain ⟨j, hj⟩ := h.good
  cases e with
  | run =>
    simp only [Sys.step]
    cases hp : s.scan.phase with
    | armed =>
      exact link_onRun h (Steps.good_step hj .run trivial) (by rw [hp]; simp) (by intro l; rw [hp]; simp)
        (by simp only [Machine.step, hp]; rfl) (by simp only [Machine.step, hp]) (by simp only [Machine.step, hp]) (by simp only [Machine.step, hp])
    | _ => exact h
  | resume =>
    simp only [Sys.step]
    cases hp : s.scan.phase with
    | paused l =>
      exact link_onRun h (Steps.good_step hj .resume trivial) (by rw [hp]; simp) (by intro l; rw [hp]; simp)
        (by simp only [Machine.step, hp]; rfl) (by simp only [Machine.step, hp]) (by simp only [Machine.step, hp]) (by simp only [Machine.step, hp])
    | _ => exact h
  | pause lg => exact link_pause h lg (ha _ rfl)
  | trigger => exact link_trigger h
  | done => exact link_done h
  | progress q n => exact link_progress h _ n (ha _ rfl)

theorem link_run {parts : List Int} : ∀ (evs : List (DetArm.Ev P)) {s : Sys P}, Link parts s → Permitted parts s evs → Link parts (s.run evs)
  | [], _, h, _ => h
  | e :: es, _, h, hp => link_run es (link_step h e hp.1) hp.2

theorem link_start {parts : List Int} {m : Machine (Option P)} {j : Nat} (hj : Steps.Good parts m j) (hst : m.start = m.window.1) (hf : m.phase = .armed)
    (kind : Kind) (hardware : Bool) (bps : List Int)
    (hs : Suits parts { kind := kind, hardware := hardware, breakpoints := !bps.isEmpty, size := m.scan.total }) :
    Link parts (start m kind hardware bps) :=
  link_position (s := { scan := m, part := { kind := kind, hardware := hardware, breakpoints := !bps.isEmpty, size := m.scan.total },
                        driver := {}, cursor := m.window.1 }) ⟨j, hj⟩ hs rfl rfl rfl rfl hst (by rw [hf]; simp) (by intro l; rw [hf]; simp) true

/-- C86: after a configure the detector counts from 0, and is done when it has counted the steps of the first run; it reports the first step -/
theorem starts_at_zero (m : Machine (Option P)) (kind : Kind) (hardware : Bool) (bps : List Int) :
    (start m kind hardware bps).driver.counter = 0 ∧ (start m kind hardware bps).part.done = m.window.2 ∧
    (start m kind hardware bps).part.offset = m.window.1 ∧ (start m kind hardware bps).reported = m.window.1 := by
  unfold start Sys.position
  dsimp only
  split <;> simp [Sys.setup, Sys.arm, Sys.reported]

/-- C86, for the histories that C09 is proved for and the scans that suit the detector: whatever is run, paused, resumed and
rewound, no trigger finds the detector idle and it is never started while it acquires; since the last configure or seek it has
taken one frame for each step, in order; it reports the steps it has frames for; once the triggers of a run have come nothing
more is waited for; and when the scan is finished the last step has its frame and the detector has stopped by itself.
What is missing: scans with several runs on the detectors of `xmap_loses_triggers` and `stopped_loses_triggers`, of which C86 is
false, and the pauses that C09 is false for. -/
theorem one_frame_per_step_partial {dims : List (Dim A)} (hg : Steps.AxedGenerator dims) {axesToMove : List A} {bps : List Int}
    (hpos : ∀ b ∈ bps, 0 < b) {s0 : Scan (Option P)} {m : Machine (Option P)} (h : configured s0 dims axesToMove bps = .ok m)
    (kind : Kind) (hardware : Bool) :
    ∃ parts, Steps.Segments (genSize dims) bps parts ∧
      ((kind = .standard ∨ (kind = .xmap ∧ (bps ≠ [] ∨ hardware = false ∨ parts.length = 1)) ∨
        (kind = .stopped ∧ hardware = true ∧ parts.length = 1)) →
      ∀ evs, Permitted parts (start m kind hardware bps) evs →
        let s := (start m kind hardware bps).run evs
        s.lost = [] ∧ s.twice = false ∧ StepsFrom s.scan.start s.cursor s.frames ∧
        (∀ l, s.scan.phase = .running l → kind ≠ .stopped → s.reported = s.cursor) ∧
        (∀ l, s.scan.phase = .running l → s.cursor = s.stopAt → s.waited = true) ∧
        (s.scan.phase = .finished → s.cursor = genSize dims ∧ s.driver.acquiring = false)) := by
  obtain ⟨parts, hseg, hgood, htot⟩ := Steps.good_configured hg hpos h
  refine ⟨parts, hseg, fun hk evs hp => ?_⟩
  obtain ⟨_, first, _, _, _, _, _, _, hw, hph, _, hst⟩ := Steps.configured_spec hg hpos h
  have hl := link_run evs (link_start hgood (by rw [hst, hw]) hph kind hardware bps (by
    unfold Suits
    rcases hk with rfl | ⟨rfl, hx | hx | hx⟩ | ⟨rfl, hx⟩
    · trivial
    · left; cases bps with
      | nil => exact absurd rfl hx
      | cons b bs => rfl
    · right; left; exact hx
    · right; right; exact hx
    · exact hx)) hp
  have hkind : ∀ (evs : List (DetArm.Ev P)) (s : Sys P), (s.run evs).part.kind = s.part.kind ∧ (s.run evs).part.size = s.part.size := by
    intro evs
    induction evs with
    | nil => intro s; exact ⟨rfl, rfl⟩
    | cons e es ih =>
      intro s
      have : (s.step e).part.kind = s.part.kind ∧ (s.step e).part.size = s.part.size := by
        have h1 : ∀ (s : Sys P) w n i, (s.setup w n i).part.kind = s.part.kind ∧ (s.setup w n i).part.size = s.part.size := fun _ _ _ _ => ⟨rfl, rfl⟩
        have h2 : ∀ (s : Sys P) w i, (s.position w i).part.kind = s.part.kind ∧ (s.position w i).part.size = s.part.size := by
          intro s w i; unfold Sys.position; simp only; split <;> exact ⟨rfl, rfl⟩
        have h3 : ∀ (s : Sys P), s.onRun.part = s.part := by
          intro s; unfold Sys.onRun; repeat' split
          all_goals rfl
        have h4 : ∀ (s : Sys P) w, (s.next w).part.kind = s.part.kind ∧ (s.next w).part.size = s.part.size := by
          intro s w; unfold Sys.next; split
          · exact ⟨rfl, rfl⟩
          · simp only; repeat' split
            all_goals exact ⟨rfl, rfl⟩
        cases e with
        | run => simp only [Sys.step]; split <;> first | exact ⟨rfl, rfl⟩ | (rw [h3]; exact ⟨rfl, rfl⟩)
        | resume => simp only [Sys.step]; split <;> first | exact ⟨rfl, rfl⟩ | (rw [h3]; exact ⟨rfl, rfl⟩)
        | pause lg =>
          simp only [Sys.step, Sys.pause]
          split
          · exact ⟨rfl, rfl⟩
          · split
            · exact ⟨rfl, rfl⟩
            · split
              · exact ⟨rfl, rfl⟩
              · exact h2 _ _ _
        | trigger =>
          simp only [Sys.step, Sys.trigger]
          repeat' split
          all_goals exact ⟨rfl, rfl⟩
        | done =>
          simp only [Sys.step, Sys.done]
          repeat' split
          all_goals first | exact ⟨rfl, rfl⟩ | exact h4 _ _
        | progress q n => exact ⟨rfl, rfl⟩
      have ih := ih (s.step e)
      exact ⟨ih.1.trans this.1, ih.2.trans this.2⟩
  have hk0 : (start m kind hardware bps).part.kind = kind ∧ (start m kind hardware bps).part.size = m.scan.total := by
    unfold start Sys.position; simp only; split <;> exact ⟨rfl, rfl⟩
  have hk1 := hkind evs (start m kind hardware bps)
  rw [hk0.1, hk0.2] at hk1
  refine ⟨hl.lost, hl.twice, hl.frames.2, ?_, ?_, ?_⟩
  · intro l hr hns
    exact (hl.counted (by rw [hr]; simp) (by rw [hk1.1]; exact hns)).1
  · intro l hr hc
    unfold Sys.waited
    split
    · rfl
    · rename_i hns
      have := hl.counted (by rw [hr]; simp) hns
      rw [decide_eq_true_eq]; omega
  · intro hf
    have := hl.fin hf
    exact ⟨by rw [this.1, hk1.2, htot], this.2⟩

/-! ### Cases -/

/-- Two rows of two points, a run for each row -/
def rows : List (Dim String) := [⟨["y"], 2⟩, ⟨["x"], 2⟩]

def rowScan : Machine (Option Nat) :=
  { scan := { total := 4, completed := 0, configured := 2, spr := [2], useBp := false, bpSteps := [], bpIndex := 0, progress := [] }
    phase := .armed, window := (0, 2) }

theorem rows_configured : configured ({} : Scan (Option Nat)) rows ["x"] [] = .ok rowScan := rfl

-- the hypotheses hold: a scan that is paused in the middle of its second run and rewound is finished with a frame for each step
example : let evs : List (DetArm.Ev Nat) := [.run, .trigger, .trigger, .done, .run, .trigger, .pause 2, .resume, .trigger, .trigger, .done]
    Permitted [2, 2] (start rowScan .standard true []) evs ∧
    ((start rowScan .standard true []).run evs).scan.phase = .finished ∧ ((start rowScan .standard true []).run evs).frames = [2, 3] := by
  refine ⟨⟨?_, ?_, ?_, ?_, ?_, ?_, ?_, ?_, ?_, ?_, ?_, trivial⟩, by decide, by decide⟩
  case refine_7 =>
    intro x hx
    cases hx
    intro _
    exact Or.inr ⟨[2], 2, [], rfl, by decide, by decide, by decide⟩
  all_goals intro x hx; cases hx

/-- C86 is false of an xmap in a scan with two runs: it is told the pixels of the first when the scan is configured, and nothing
after it. The triggers of the second run are lost, and its wait for the frames does not end. -/
theorem xmap_loses_triggers : ∃ evs : List (DetArm.Ev Nat), let s := (start rowScan .xmap true []).run evs
    configured ({} : Scan (Option Nat)) rows ["x"] [] = .ok rowScan ∧ Permitted [2, 2] (start rowScan .xmap true []) evs ∧
    s.lost = [2, 3] ∧ s.scan.phase = .running true ∧ s.cursor = s.stopAt ∧ s.waited = false :=
  ⟨[.run, .trigger, .trigger, .done, .run, .trigger, .trigger], rfl, by
    refine ⟨?_, ?_, ?_, ?_, ?_, ?_, ?_, trivial⟩
    all_goals (intro x hx; cases hx), by decide⟩

/-- And of the detectors that are stopped after each run, which are not started again: the second run takes no frames, and the
scan is finished all the same as far as this part is concerned. -/
theorem stopped_loses_triggers : ∃ evs : List (DetArm.Ev Nat), let s := (start rowScan .stopped true []).run evs
    configured ({} : Scan (Option Nat)) rows ["x"] [] = .ok rowScan ∧ Permitted [2, 2] (start rowScan .stopped true []) evs ∧
    s.lost = [2, 3] ∧ s.scan.phase = .finished :=
  ⟨[.run, .trigger, .trigger, .done, .run, .trigger, .trigger, .done], rfl, by
    refine ⟨?_, ?_, ?_, ?_, ?_, ?_, ?_, ?_, trivial⟩
    all_goals (intro x hx; cases hx), by decide⟩

end Verif.Props.DetArm
