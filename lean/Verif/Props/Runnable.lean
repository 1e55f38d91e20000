import Verif.Spec.Runnable
/-!
C01: every change of the state of a runnable block is an edge of the published table, whatever calls run at the same time.
C05: how each call ends.
-/
namespace Verif.Props.Runnable
open Verif Verif.Runnable Verif.Spec.Runnable Verif.Props.States

theorem transition_eq (w : World) (s : St) (m : Msg) : w.transition s m =
    if s ∈ edges w.state then
      some { w with state := s, message := if s = .disabled then "Disabled" else if s = .fault then m else "" }
    else none := by
  simp only [World.transition, runnable_transition_iff, Option.some.injEq, decide_eq_true_eq]

theorem transition_some {w w' : World} {s : St} {m : Msg} (h : w.transition s m = some w') :
    s ∈ edges w.state ∧
      w' = { w with state := s, message := if s = .disabled then "Disabled" else if s = .fault then m else "" } := by
  rw [transition_eq] at h; split at h
  · next hs => exact ⟨hs, by cases h; rfl⟩
  · cases h

theorem transition_none {w : World} {s : St} {m : Msg} (h : w.transition s m = none) : s ∉ edges w.state := by
  rw [transition_eq] at h; split at h
  · cases h
  · assumption

/-- What `abortable` gives -/
theorem abortable_ok {w w' : World} {s : St} (h : w.abortable s = .ok w') :
    w.selfStops = 0 ∧ s ∈ edges w.state ∧
      w' = { w with state := s, message := if s = .disabled then "Disabled" else if s = .fault then "" else "" } := by
  unfold World.abortable at h; split at h
  · cases h
  · next hz =>
    split at h
    · next hw => cases h; exact ⟨by omega, transition_some hw⟩
    · cases h

theorem abortable_aborted {w w' : World} {s : St} (h : w.abortable s = .aborted w') :
    w.selfStops ≠ 0 ∧ w' = { w with selfStops := w.selfStops - 1 } := by
  unfold World.abortable at h; split at h
  · next hz => cases h; exact ⟨hz, rfl⟩
  · split at h <;> cases h

@[simp] theorem setPc_state (w : World) (i : Nat) (p : Pc) : (w.setPc i p).state = w.state := rfl
@[simp] theorem stopAll_state (w : World) : w.stopAll.state = w.state := by
  unfold World.stopAll; split <;> rfl
@[simp] theorem put_state (w : World) (b : Bool) : (w.put b).state = w.state := by
  unfold World.put; split <;> rfl
@[simp] theorem stopHooks_state (w : World) (g : Nat) : (w.stopHooks g).state = w.state := rfl
@[simp] theorem runAborted_state (w : World) (i : Nat) (f : Bool) : (w.runAborted i f).state = w.state := by
  unfold World.runAborted; split <;> (try split) <;> rfl
@[simp] theorem configureAborted_state (w : World) (i : Nat) : (w.configureAborted i).state = w.state := by
  unfold World.configureAborted; split <;> rfl

/-- Each step leaves the state or follows an edge -/
theorem stepAt_edge (w : World) (i : Nat) (ch : Choice) (p : Pc) :
    (w.stepAt i ch p).state = w.state ∨ (w.stepAt i ch p).state ∈ edges w.state := by
  have ht : ∀ (s : St) (m : Msg) (w1 : World) (q : Pc), w.transition s m = some w1 →
      (w1.setPc i q).state = w.state ∨ (w1.setPc i q).state ∈ edges w.state := by
    intro s m w1 q h; right; have := transition_some h; rw [setPc_state, this.2]; exact this.1
  have ho : ∀ (s : St) (w1 : World) (q : Pc), w.abortable s = .ok w1 →
      (w1.setPc i q).state = w.state ∨ (w1.setPc i q).state ∈ edges w.state := by
    intro s w1 q h; right; have := abortable_ok h; rw [setPc_state, this.2.2]; exact this.2.1
  cases p with
  | sBegin k =>
    unfold World.stepAt; dsimp only; split
    · exact ht _ _ _ _ ‹_›
    · exact .inl (by simp)
  | sEnd k =>
    unfold World.stepAt; dsimp only; split
    · exact ht _ _ _ _ ‹_›
    · exact .inl (by simp)
  | cBegin f =>
    unfold World.stepAt; dsimp only; split
    · exact ht _ _ _ _ ‹_›
    · exact .inl (by simp)
  | rBegin f =>
    unfold World.stepAt; dsimp only; split
    · exact ht _ _ _ _ ‹_›
    · exact .inl (by simp)
  | resumeBegin =>
    unfold World.stepAt; dsimp only; split
    · exact ht _ _ _ _ ‹_›
    · exact .inl (by simp)
  | faulting m =>
    unfold World.stepAt; dsimp only; split
    · exact .inl (by simp)
    · split
      · exact ht _ _ _ _ ‹_›
      · exact .inl (by simp)
  | aBegin a =>
    unfold World.stepAt; dsimp only; split
    · next h =>
      have := transition_some h
      right; rw [setPc_state, stopAll_state, this.2]; exact this.1
    · exact .inl (by simp)
  | cEnd =>
    unfold World.stepAt; dsimp only; split
    · exact ho _ _ _ ‹_›
    · next h => left; rw [configureAborted_state, (abortable_aborted h).2]
    · exact .inl (by simp)
  | rEnd f =>
    unfold World.stepAt; dsimp only; split
    · exact ho _ _ _ ‹_›
    · next h => left; rw [runAborted_state, (abortable_aborted h).2]
    · exact .inl (by simp)
  | aEnd a =>
    unfold World.stepAt; dsimp only; split
    · exact ho _ _ _ ‹_›
    · next h => left; rw [setPc_state, (abortable_aborted h).2]
    · exact .inl (by simp)
  | rBetween f k =>
    unfold World.stepAt; dsimp only; split
    · split
      · exact ho _ _ _ ‹_›
      · next h => left; rw [runAborted_state, (abortable_aborted h).2]
      · exact .inl (by simp)
    · left; split <;> simp
  | done r => exact .inl rfl
  | _ => left; unfold World.stepAt; dsimp only; (try split) <;> (try split) <;> simp

/-- C01: whatever calls are made on a new block, in whatever order they go on and however the hooks of the parts end, each
state that the block shows is followed by itself or by a state to which the published table has an edge. The first one is
Disabled. -/
theorem shown_follow_edges (es : List Event) (i : Nat) (a b : St)
    (ha : (shown new es)[i]? = some a) (hb : (shown new es)[i + 1]? = some b) : b = a ∨ b ∈ edges a := by
  have gen : ∀ (es : List Event) (w : World) (i : Nat), (shown w es)[i]? = some a → (shown w es)[i + 1]? = some b →
      b = a ∨ b ∈ edges a := by
    intro es
    induction es with
    | nil => intro w i ha hb; simp [shown] at hb
    | cons e es ih =>
      intro w i ha hb
      cases i with
      | zero =>
        have hh : (shown (w.event e) es)[0]? = some b := hb
        have ha' : w.state = a := by simpa [shown] using ha
        have hb' : (w.event e).state = b := by
          cases es <;> simpa [shown] using hh
        subst ha' hb'
        cases e with
        | call c => left; rfl
        | step i ch =>
          simp only [World.event]
          split
          · exact stepAt_edge ..
          · left; rfl
      | succ i => exact ih (w.event e) i ha hb
  exact gen es new i ha hb

theorem shown_first (es : List Event) : (shown new es)[0]? = some .disabled := by cases es <;> rfl

theorem shown_length (w : World) (es : List Event) : (shown w es).length = es.length + 1 := by
  induction es generalizing w with
  | nil => rfl
  | cons e es ih => simp [shown, ih]

/-- A configure, a run that is paused and resumed, and what the block shows -/
example : (shown new [.call (.stateful .init), .step 0 .ok, .step 0 .ok, .step 0 .ok,
    .call .configure, .step 1 .ok, .step 1 .ok, .step 1 .ok, .step 1 .ok, .step 1 .ok, .step 1 .ok, .step 1 .ok,
    .step 1 .ok, .step 1 .ok, .step 1 .ok, .step 1 .ok, .step 1 .ok, .step 1 .ok, .step 1 .ok,
    .call (.run true), .step 2 .ok, .step 2 .ok, .call (.pause false), .step 3 .ok, .step 3 .ok, .step 3 .ok,
    .step 2 .aborted, .step 3 .ok, .step 3 .ok, .step 3 .ok, .step 3 .ok, .step 3 .ok, .step 3 .ok, .step 3 .ok,
    .step 3 .ok, .call .resume, .step 4 .ok]).eraseDups =
    [.disabled, .resetting, .ready, .configuring, .armed, .running, .seeking, .paused] := by decide +kernel

end Verif.Props.Runnable
