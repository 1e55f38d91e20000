import Verif.Spec.Prepare
/-!
C124. When a configure has ended well the driver acquires continuously; one that did so before is not touched. The configure fails if the monitor of
the file server says that something is wrong, unless it was told not to.
-/
namespace Verif.Props.Prepare
open Verif Verif.Prepare Verif.Spec.Prepare

theorem run_append (w : World) (es fs : List Ev) : w.run (es ++ fs) = (w.run es).run fs := List.foldl_append ..

/-- **At the moment it ends the driver acquires**, or did when it was looked at first: then nothing was sent. -/
theorem ends_acquiring (d : Driver) (es : List Ev) (e : Ev) (h : EndsNow (World.start d) es e) :
    ((World.start d).run (es ++ [e])).driver.acquiring = true
    ∨ (((World.start d).run (es ++ [e])).sent = [] ∧ ((World.start d).run (es ++ [e])).driver.continuous = true) := by
  obtain ⟨h1, h2⟩ := h
  have inv : ∀ es : List Ev, ∀ w : World, (w.pc = .running → w.sent = []) ∧ (w.pc = .begin → w.sent = []) →
      ((w.run es).pc = .running → (w.run es).sent = []) ∧ ((w.run es).pc = .begin → (w.run es).sent = []) := by
    intro es
    induction es with
    | nil => intro w h; exact h
    | cons e es ih =>
      intro w h
      refine ih (w.step e) ?_
      obtain ⟨⟨a, c⟩, pc, sent⟩ := w
      cases e <;> cases pc <;> cases a <;> cases c <;> simp_all [World.step]
  have hi := (inv es (World.start d) ⟨fun _ => rfl, fun _ => rfl⟩)
  rw [run_append] at h2 ⊢
  generalize hw : (World.start d).run es = w at *
  obtain ⟨⟨a, c⟩, pc, sent⟩ := w
  unfold Ended World.run at *
  simp only [List.foldl_cons, List.foldl_nil] at *
  cases e <;> cases pc <;> cases a <;> cases c <;> simp_all [World.step]

/-- **It acquires continuously**, if nobody else puts the mode meanwhile. `_partial`: false otherwise (`changed_meanwhile`). -/
theorem ends_continuous_partial (d : Driver) (es : List Ev) (hm : ∀ e ∈ es, NoMode e) (h : Ended ((World.start d).run es)) :
    ((World.start d).run es).driver.continuous = true := by
  have inv : ∀ es : List Ev, ∀ w : World, (∀ e ∈ es, NoMode e) → (w.pc = .ready ∨ w.pc = .starting ∨ w.pc = .done → w.driver.continuous = true) →
      ((w.run es).pc = .ready ∨ (w.run es).pc = .starting ∨ (w.run es).pc = .done → (w.run es).driver.continuous = true) := by
    intro es
    induction es with
    | nil => intro w _ h; exact h
    | cons e es ih =>
      intro w hm h
      refine ih (w.step e) (fun x hx => hm x (List.mem_cons_of_mem _ hx)) ?_
      have he := hm e (List.mem_cons_self ..)
      obtain ⟨⟨a, c⟩, pc, sent⟩ := w
      cases e <;> cases pc <;> cases a <;> cases c <;> simp_all [World.step, NoMode]
  exact inv es (World.start d) hm (by simp [World.start]) (.inr (.inr h))

/-- **What the driver is told**: nothing, or the mode and then a start, after a stop if it was running; whatever happens meanwhile. -/
theorem told (d : Driver) (es : List Ev) :
    ((World.start d).run es).sent <+: [Cmd.setMode, .start] ∨ ((World.start d).run es).sent <+: [Cmd.stop, .setMode, .start] := by
  have inv : ∀ es : List Ev, ∀ w : World,
      (match w.pc with
        | .begin => w.sent = [] | .running => w.sent = [] | .stopping => w.sent = [.stop]
        | .free => w.sent = [] ∨ w.sent = [.stop] | .ready => w.sent = [.setMode] ∨ w.sent = [.stop, .setMode]
        | .starting => w.sent = [.setMode, .start] ∨ w.sent = [.stop, .setMode, .start]
        | .done => w.sent = [] ∨ w.sent = [.setMode, .start] ∨ w.sent = [.stop, .setMode, .start]
        | .failed => w.sent = [.stop] ∨ w.sent = [.setMode, .start] ∨ w.sent = [.stop, .setMode, .start]) →
      (w.run es).sent = [] ∨ (w.run es).sent = [.setMode] ∨ (w.run es).sent = [.setMode, .start] ∨ (w.run es).sent = [.stop]
        ∨ (w.run es).sent = [.stop, .setMode] ∨ (w.run es).sent = [.stop, .setMode, .start] := by
    intro es
    induction es with
    | nil =>
      intro w h
      obtain ⟨d, pc, sent⟩ := w
      cases pc <;> simp only [World.run, List.foldl_nil] at * <;> grind
    | cons e es ih =>
      intro w h
      refine ih (w.step e) ?_
      obtain ⟨⟨a, c⟩, pc, sent⟩ := w
      cases e <;> cases pc <;> cases a <;> cases c <;> simp_all [World.step] <;> grind
  rcases inv es (World.start d) rfl with h | h | h | h | h | h <;> rw [h] <;> decide

/-- **A driver that acquires continuously is left alone**: as long as nobody else does anything to it, nothing is ever sent, and the part ends. -/
theorem left_alone (es : List Ev) (h : ∀ e ∈ es, e = .part ∨ e = .timeout) :
    ((World.start ⟨true, true⟩).run es).sent = [] ∧ ((World.start ⟨true, true⟩).run es).driver = ⟨true, true⟩
    ∧ (2 ≤ es.countP (· = .part) → Ended ((World.start ⟨true, true⟩).run es)) := by
  have inv : ∀ es : List Ev, ∀ w : World, (∀ e ∈ es, e = .part ∨ e = .timeout) → w.driver = ⟨true, true⟩ → w.sent = [] →
      (w.pc = .begin ∨ w.pc = .running ∨ w.pc = .done) →
      (w.run es).sent = [] ∧ (w.run es).driver = ⟨true, true⟩
      ∧ ((if w.pc = .begin then 2 else if w.pc = .running then 1 else 0) ≤ es.countP (· = .part) → (w.run es).pc = .done) := by
    intro es
    induction es with
    | nil =>
      intro w _ hd hs hp
      refine ⟨hs, hd, ?_⟩
      rcases hp with hp | hp | hp <;> simp [hp, World.run]
    | cons e es ih =>
      intro w hm hd hs hp
      obtain ⟨d, pc, sent⟩ := w
      cases hd; cases hs
      have hk := fun w h1 h2 h3 => ih w (fun x hx => hm x (List.mem_cons_of_mem _ hx)) h1 h2 h3
      rcases hm e (List.mem_cons_self ..) with rfl | rfl
      · rcases hp with hp | hp | hp <;> cases hp
        · obtain ⟨k1, k2, k3⟩ := hk ⟨⟨true, true⟩, .running, []⟩ rfl rfl (.inr (.inl rfl))
          refine ⟨k1, k2, fun hc => k3 ?_⟩
          simp at hc ⊢; omega
        · obtain ⟨k1, k2, k3⟩ := hk ⟨⟨true, true⟩, .done, []⟩ rfl rfl (.inr (.inr rfl))
          exact ⟨k1, k2, fun _ => k3 (by simp)⟩
        · obtain ⟨k1, k2, k3⟩ := hk ⟨⟨true, true⟩, .done, []⟩ rfl rfl (.inr (.inr rfl))
          exact ⟨k1, k2, fun _ => k3 (by simp)⟩
      · rcases hp with hp | hp | hp <;> cases hp
        · obtain ⟨k1, k2, k3⟩ := hk ⟨⟨true, true⟩, .begin, []⟩ rfl rfl (.inl rfl)
          refine ⟨k1, k2, fun hc => k3 ?_⟩
          simp at hc ⊢; omega
        · obtain ⟨k1, k2, k3⟩ := hk ⟨⟨true, true⟩, .running, []⟩ rfl rfl (.inr (.inl rfl))
          refine ⟨k1, k2, fun hc => k3 ?_⟩
          simp at hc ⊢; omega
        · obtain ⟨k1, k2, k3⟩ := hk ⟨⟨true, true⟩, .done, []⟩ rfl rfl (.inr (.inr rfl))
          exact ⟨k1, k2, fun _ => k3 (by simp)⟩
  obtain ⟨k1, k2, k3⟩ := inv es (World.start ⟨true, true⟩) h rfl rfl (.inl rfl)
  exact ⟨k1, k2, fun hc => k3 (by simpa [World.start] using hc)⟩

/-- **The mode is put only when the driver does not run**: as long as nothing starts it meanwhile, a driver that was told a mode had stopped before. -/
theorem set_when_stopped (d : Driver) (es : List Ev) (h : ∀ e ∈ es, e ≠ .acquires true) (hs : Cmd.setMode ∈ ((World.start d).run es).sent) :
    ((World.start d).run es).driver.acquiring = false := by
  have inv : ∀ es : List Ev, ∀ w : World, (∀ e ∈ es, e ≠ .acquires true) →
      ((w.pc = .free ∨ Cmd.setMode ∈ w.sent) → w.driver.acquiring = false) →
      (((w.run es).pc = .free ∨ Cmd.setMode ∈ (w.run es).sent) → (w.run es).driver.acquiring = false) := by
    intro es
    induction es with
    | nil => intro w _ h; exact h
    | cons e es ih =>
      intro w hm h
      refine ih (w.step e) (fun x hx => hm x (List.mem_cons_of_mem _ hx)) ?_
      have he := hm e (List.mem_cons_self ..)
      obtain ⟨⟨a, c⟩, pc, sent⟩ := w
      cases e with
      | acquires b => cases b <;> simp_all [World.step]
      | part => cases pc <;> cases a <;> cases c <;> simp_all [World.step]
      | timeout => cases pc <;> cases a <;> cases c <;> simp_all [World.step]
      | mode b => cases pc <;> cases a <;> simp_all [World.step]
  exact inv es (World.start d) h (by simp [World.start]) (.inr hs)

example : Cmd.setMode ∈ ((World.start ⟨true, false⟩).run [.part, .part, .acquires false, .part, .part]).sent := by decide

/-- **A driver that does not obey in time fails the configure**, for good. -/
theorem too_late (w : World) (h : w.pc = .stopping ∨ w.pc = .starting) (es : List Ev) :
    (w.run (.timeout :: es)).pc = .failed ∧ (w.run (.timeout :: es)).sent = w.sent := by
  have inv : ∀ es : List Ev, ∀ w : World, w.pc = .failed → (w.run es).pc = .failed ∧ (w.run es).sent = w.sent := by
    intro es
    induction es with
    | nil => intro w h; exact ⟨h, rfl⟩
    | cons e es ih =>
      intro w h
      have : (w.step e).pc = .failed ∧ (w.step e).sent = w.sent := by cases e <;> simp [World.step, h]
      obtain ⟨k1, k2⟩ := ih (w.step e) this.1
      exact ⟨k1, k2.trans this.2⟩
  have h1 : (w.step .timeout).pc = .failed ∧ (w.step .timeout).sent = w.sent := by rcases h with h | h <;> simp [World.step, h]
  obtain ⟨k1, k2⟩ := inv es (w.step .timeout) h1.1
  exact ⟨k1, k2.trans h1.2⟩

/-- a driver that obeys after any delay: `n` steps of the part that get nowhere, then it does what it was told -/
def rounds (w : World) : List Nat → World
  | [] => w
  | n :: ns => rounds ((w.run (List.replicate n .part)).obey) ns

/-- **It ends, with the driver acquiring continuously**, for a driver that obeys, whatever it did before and however late it obeys: three rounds
in which the part gets all its steps are enough. -/
theorem ends (d : Driver) (n1 n2 n3 : Nat) :
    let w := (rounds (World.start d) [n1 + 4, n2 + 3, n3 + 1]).step .part
    w.pc = .done ∧ w.driver = ⟨true, true⟩ := by
  have stay : ∀ (n : Nat) (w : World), w.step .part = w → w.run (List.replicate n .part) = w := by
    intro n
    induction n with
    | zero => intro w _; rfl
    | succ n ih => intro w h; show (w.step .part).run (List.replicate n .part) = w; rw [h]; exact ih w h
  have add : ∀ (n k : Nat) (w : World), w.run (List.replicate (n + k) .part) = (w.run (List.replicate k .part)).run (List.replicate n .part) := by
    intro n k w
    rw [Nat.add_comm, ← List.replicate_append_replicate, run_append]
  obtain ⟨a, c⟩ := d
  simp only [rounds]
  rw [add n1 4, add n2 3, add n3 1]
  cases a <;> cases c
  · rw [stay n1 ((World.start ⟨false, false⟩).run (List.replicate 4 .part)) (by decide)]
    rw [stay n2 _ (by decide), stay n3 _ (by decide)]; decide
  · rw [stay n1 ((World.start ⟨false, true⟩).run (List.replicate 4 .part)) (by decide)]
    rw [stay n2 _ (by decide), stay n3 _ (by decide)]; decide
  · rw [stay n1 ((World.start ⟨true, false⟩).run (List.replicate 4 .part)) (by decide)]
    rw [stay n2 _ (by decide), stay n3 _ (by decide)]; decide
  · rw [stay n1 ((World.start ⟨true, true⟩).run (List.replicate 4 .part)) (by decide)]
    rw [stay n2 _ (by decide), stay n3 _ (by decide)]; decide

/-- non-vacuity: one that was running in another mode is stopped, set and started -/
example : (World.start ⟨true, false⟩).run [.part, .part, .part, .acquires false, .part, .part, .part, .part, .acquires true, .part]
    = ⟨⟨true, true⟩, .done, [.stop, .setMode, .start]⟩ := by decide

/-- **Over, and not continuous**: somebody else puts the mode after the part has. -/
theorem changed_meanwhile : ∃ es, EndsNow (World.start ⟨false, false⟩) es .part
    ∧ ((World.start ⟨false, false⟩).run (es ++ [.part])).driver = ⟨true, false⟩ :=
  ⟨[.part, .part, .mode false, .part, .acquires true], ⟨by decide, by decide⟩, by decide⟩

/-- **Over, and not acquiring**: the driver came to its end between the two looks at it. -/
theorem ended_meanwhile : ∃ es, EndsNow (World.start ⟨true, true⟩) es .part
    ∧ ((World.start ⟨true, true⟩).run (es ++ [.part])).driver.acquiring = false :=
  ⟨[.part, .acquires false], ⟨by decide, by decide⟩, by decide⟩

/-! ### the monitor of the file server -/

/-- **The configure goes on exactly when the monitor is well, or is not and errors are not wanted.** -/
theorem goes_on_iff (mri host : String) (errorOnFail : Bool) (c : Check) :
    (checkDirectories mri host errorOnFail c).1 = none ↔ c = .good ∨ (c = .assertion ∧ errorOnFail = false) := by
  cases c <;> cases errorOnFail <;> simp [checkDirectories]

/-- A bad status is always written to the log, with the block and the server, and is what is raised; nothing else is written. -/
theorem bad_status_logged (mri host : String) (errorOnFail : Bool) (c : Check) :
    (checkDirectories mri host errorOnFail c).2 = (if c = .assertion then [mri ++ ": bad directory monitor status for server " ++ host] else [])
    ∧ ∀ s, (checkDirectories mri host errorOnFail c).1 = some (.value s) → (checkDirectories mri host errorOnFail c).2 = [s] := by
  cases c <;> cases errorOnFail <;> simp [checkDirectories, badStatus]

/-- **Errors are not wanted, and the configure fails**: the check ended with anything but an AssertionError, a timeout for one. -/
theorem fails_all_the_same (mri host e : String) (errorOnFail : Bool) :
    checkDirectories mri host errorOnFail (.other e) = (some (.other e), []) := rfl

end Verif.Props.Prepare
