import Verif.Props.Runnable
/-!
C05: a pause, an abort, a disable and a failed hook reach the hooks that are going on.
-/
namespace Verif.Props.RunnableStops
open Verif Verif.Runnable Verif.Spec.Runnable Verif.Props.Runnable

/-- The contexts that a hook is run with, and how often they had been stopped when it was begun -/
def hookOf : Pc → Option (Nat × Nat)
  | .cHook _ g n => some (g, n)
  | .rHook _ _ g n => some (g, n)
  | .aHook _ _ g n => some (g, n)
  | _ => none

/-- what a step does to the calls and to the stops -/
structure Moved (w w' : World) (i : Nat) : Prop where
  stops : ∀ g, w.stops g ≤ w'.stops g
  threads : w'.threads = w.threads ∨ ∃ p, w'.threads = w.threads.set i p ∧ ∀ g n, hookOf p = some (g, n) → g = w.gen ∧ n = w.stops g ∧ w'.stops = w.stops

theorem stopAll_stops (w : World) (g : Nat) : w.stops g ≤ w.stopAll.stops g := by
  unfold World.stopAll; split
  · exact Nat.le_refl _
  · dsimp only; split <;> omega

theorem stopAll_threads (w : World) : w.stopAll.threads = w.threads := by unfold World.stopAll; split <;> rfl
theorem put_threads (w : World) (b : Bool) : (w.put b).threads = w.threads := by unfold World.put; split <;> rfl
theorem put_stops (w : World) (b : Bool) : (w.put b).stops = w.stops := by unfold World.put; split <;> rfl

theorem moved_pc {w w1 : World} {i : Nat} {p : Pc} (ht : w1.threads = w.threads) (hs : ∀ g, w.stops g ≤ w1.stops g) (hp : hookOf p = none) :
    Moved w (w1.setPc i p) i :=
  ⟨hs, .inr ⟨p, by show w1.threads.set i p = _; rw [ht], fun g n h => by rw [hp] at h; cases h⟩⟩

theorem moved_plain {w w1 : World} {i : Nat} {p : Pc} (ht : w1.threads = w.threads) (hs : w1.stops = w.stops) (hp : hookOf p = none) :
    Moved w (w1.setPc i p) i := moved_pc ht (fun g => by rw [hs]; exact Nat.le_refl _) hp

theorem moved_hooks {w : World} {i : Nat} {p : Pc} (g : Nat) (hp : hookOf p = none) : Moved w ((w.stopHooks g).setPc i p) i :=
  moved_pc rfl (fun h => by
    show w.stops h ≤ if h = g then w.stops h + 1 else w.stops h
    split <;> omega) hp

theorem moved_start {w : World} {i : Nat} {p : Pc} (hp : hookOf p = some (w.gen, w.stops w.gen)) : Moved w (w.setPc i p) i :=
  ⟨fun _ => Nat.le_refl _, .inr ⟨p, rfl, fun g n h => by rw [hp] at h; cases h; exact ⟨rfl, rfl, rfl⟩⟩⟩

theorem moved_runAborted {w w1 : World} {i : Nat} (f : Bool) (ht : w1.threads = w.threads) (hs : w1.stops = w.stops) :
    Moved w (w1.runAborted i f) i := by
  unfold World.runAborted
  split
  · exact moved_plain ht hs rfl
  · split <;> exact moved_plain ht hs rfl

theorem moved_configureAborted {w w1 : World} {i : Nat} (ht : w1.threads = w.threads) (hs : w1.stops = w.stops) :
    Moved w (w1.configureAborted i) i := by
  unfold World.configureAborted
  split <;> exact moved_plain ht hs rfl

theorem transition_same {w w' : World} {s : St} {m : Msg} (h : w.transition s m = some w') : w'.threads = w.threads ∧ w'.stops = w.stops := by
  rw [(transition_some h).2]; exact ⟨rfl, rfl⟩

theorem stepAt_moved (w : World) (i : Nat) (ch : Choice) (p : Pc) : Moved w (w.stepAt i ch p) i := by
  have ht : ∀ {w1 : World} {s : St} {m : Msg} {q : Pc}, w.transition s m = some w1 → hookOf q = none → Moved w (w1.setPc i q) i :=
    fun h hq => moved_plain (transition_same h).1 (transition_same h).2 hq
  have ho : ∀ {w1 : World} {s : St} {q : Pc}, w.abortable s = .ok w1 → hookOf q = none → Moved w (w1.setPc i q) i := by
    intro w1 s q h hq
    refine moved_plain ?_ ?_ hq <;> rw [(abortable_ok h).2.2]
  have ha : ∀ {w1 : World} {s : St}, w.abortable s = .aborted w1 → w1.threads = w.threads ∧ w1.stops = w.stops := by
    intro w1 s h; rw [(abortable_aborted h).2]; exact ⟨rfl, rfl⟩
  cases p with
  | sBegin k =>
    unfold World.stepAt; dsimp only; split
    · exact ht ‹_› (by split <;> rfl)
    · exact moved_plain rfl rfl rfl
  | sStop =>
    exact moved_pc (by rw [put_threads, stopAll_threads]) (fun g => by rw [put_stops]; exact stopAll_stops w g) rfl
  | sHook k => unfold World.stepAt; dsimp only; split <;> exact moved_plain rfl rfl rfl
  | sEnd k =>
    unfold World.stepAt; dsimp only; split
    · exact ht ‹_› rfl
    · exact moved_plain rfl rfl rfl
  | cValidate => unfold World.stepAt; dsimp only; split <;> exact moved_plain rfl rfl rfl
  | cRead => exact moved_plain rfl rfl rfl
  | cBegin f =>
    unfold World.stepAt; dsimp only; split
    · exact ht ‹_› (by split <;> rfl)
    · exact moved_plain rfl rfl rfl
  | cReset =>
    unfold World.stepAt; dsimp only; split
    · exact moved_plain rfl rfl rfl
    · exact moved_configureAborted rfl rfl
    · exact moved_plain rfl rfl rfl
  | cContexts => exact moved_plain rfl rfl rfl
  | cBetween k =>
    unfold World.stepAt; dsimp only; split
    · exact moved_plain rfl rfl rfl
    · split
      · exact moved_start rfl
      · exact moved_plain rfl rfl rfl
  | cHook k g n =>
    unfold World.stepAt; dsimp only; split
    · exact moved_hooks g rfl
    · exact moved_configureAborted rfl rfl
    · exact moved_plain rfl rfl rfl
  | cEnd =>
    unfold World.stepAt; dsimp only; split
    · exact ho ‹_› rfl
    · next h => exact moved_configureAborted (ha h).1 (ha h).2
    · exact moved_plain rfl rfl rfl
  | rBegin f =>
    unfold World.stepAt; dsimp only; split
    · exact ht ‹_› rfl
    · exact moved_plain rfl rfl rfl
  | rBetween f k =>
    unfold World.stepAt; dsimp only; split
    · split
      · exact ho ‹_› rfl
      · next h => exact moved_runAborted f (ha h).1 (ha h).2
      · exact moved_plain rfl rfl rfl
    · split
      · exact moved_plain rfl rfl rfl
      · exact moved_start rfl
      · exact moved_start rfl
  | rHook f k g n =>
    unfold World.stepAt; dsimp only; split
    · exact moved_hooks g rfl
    · exact moved_runAborted f rfl rfl
    · exact moved_plain rfl rfl (by split <;> rfl)
  | rEnd f =>
    unfold World.stepAt; dsimp only; split
    · exact ho ‹_› rfl
    · next h => exact moved_runAborted f (ha h).1 (ha h).2
    · exact moved_plain rfl rfl rfl
  | rWait f q =>
    unfold World.stepAt; dsimp only; split
    · exact ⟨fun _ => Nat.le_refl _, .inl rfl⟩
    · exact moved_plain rfl rfl (by split <;> rfl)
  | pFirst g => unfold World.stepAt; dsimp only; split <;> exact moved_plain rfl rfl rfl
  | pSecond => exact moved_plain rfl rfl rfl
  | aBegin a =>
    unfold World.stepAt; dsimp only; split
    · next h =>
      have := transition_same h
      refine moved_pc (by rw [stopAll_threads, this.1]) (fun g => ?_) (by split <;> rfl)
      refine Nat.le_trans ?_ (stopAll_stops _ g)
      rw [this.2]; exact Nat.le_refl _
    · exact moved_plain rfl rfl rfl
  | aWait a => exact moved_plain rfl rfl rfl
  | aIgnore a => exact moved_plain rfl rfl rfl
  | aFresh a => unfold World.stepAt; dsimp only; split <;> exact moved_plain rfl rfl (by first | rfl | (split <;> rfl))
  | aBetween a k =>
    unfold World.stepAt; dsimp only; split
    · exact moved_plain rfl rfl rfl
    · exact moved_start rfl
  | aHook a k g n =>
    unfold World.stepAt; dsimp only; split
    · exact moved_hooks g rfl
    · exact moved_plain rfl rfl rfl
    · exact moved_plain rfl rfl (by split <;> rfl)
  | aEnd a =>
    unfold World.stepAt; dsimp only; split
    · exact ho ‹_› (by split <;> rfl)
    · next h => exact moved_plain (ha h).1 (ha h).2 rfl
    · exact moved_plain rfl rfl rfl
  | aPut => exact moved_plain (put_threads w _) (put_stops w _) rfl
  | resumeBegin =>
    unfold World.stepAt; dsimp only; split
    · exact ht ‹_› rfl
    · exact moved_plain rfl rfl rfl
  | resumePut =>
    unfold World.stepAt; dsimp only; split
    · exact moved_plain rfl rfl rfl
    · exact moved_plain (put_threads w _) (put_stops w _) rfl
  | failing m => exact moved_plain (put_threads w _) (put_stops w _) rfl
  | faulting m =>
    unfold World.stepAt; dsimp only; split
    · exact moved_plain rfl rfl rfl
    · split
      · exact ht ‹_› rfl
      · exact moved_plain rfl rfl rfl
  | done o => exact ⟨fun _ => Nat.le_refl _, .inl rfl⟩

/-- No hook has been begun after more stops than there were -/
def Begun (w : World) : Prop := ∀ (j : Nat) p g n, w.threads[j]? = some p → hookOf p = some (g, n) → n ≤ w.stops g

theorem begun_event {w : World} (h : Begun w) (e : Event) : Begun (w.event e) := by
  cases e with
  | call c =>
    intro j p g n hj hp
    have hj : (w.threads ++ [c.begin])[j]? = some p := hj
    rw [List.getElem?_append] at hj
    split at hj
    · exact h j p g n hj hp
    · rw [List.getElem?_singleton] at hj
      split at hj
      · cases hj; cases c <;> cases hp
      · cases hj
  | step i ch =>
    unfold World.event
    dsimp only
    split
    · rename_i q hq
      have m := stepAt_moved w i ch q
      intro j p g n hj hp
      rcases m.threads with ht | ⟨p', ht, hh⟩
      · rw [ht] at hj; exact Nat.le_trans (h j p g n hj hp) (m.stops g)
      · rw [ht, List.getElem?_set] at hj
        split at hj
        · split at hj
          · cases hj
            obtain ⟨-, hn, -⟩ := hh g n hp
            rw [hn]; exact m.stops g
          · cases hj
        · exact Nat.le_trans (h j p g n hj hp) (m.stops g)
    · exact h

theorem begun_run (es : List Event) : Begun (World.run {} es) := by
  have : ∀ (es : List Event) (w : World), Begun w → Begun (w.run es) := by
    intro es
    induction es with
    | nil => intro w h; exact h
    | cons e es ih => intro w h; exact ih _ (begun_event h e)
  refine this es _ ?_
  intro j p g n hj; cases hj

/-- The hook that a call is in has been told to stop since it was begun, so that it may raise an AbortedError -/
def toldToStop (w : World) (j : Nat) : Prop := ∃ p g n, w.threads[j]? = some p ∧ hookOf p = some (g, n) ∧ n < w.stops g

/-- A call is in a hook of the parts, with the contexts `g` -/
def inHook (w : World) (j g : Nat) : Prop := ∃ p n, w.threads[j]? = some p ∧ hookOf p = some (g, n)

theorem told_of {w w' : World} {i j g : Nat} (hb : Begun w) (hm : Moved w w' i) (hij : j ≠ i) (hh : inHook w j g)
    (hs : w.stops g < w'.stops g) : toldToStop w' j := by
  obtain ⟨p, n, hj, hp⟩ := hh
  refine ⟨p, g, n, ?_, hp, Nat.lt_of_le_of_lt (hb j p g n hj hp) hs⟩
  rcases hm.threads with ht | ⟨p', ht, -⟩
  · rw [ht, hj]
  · rw [ht, List.getElem?_set_ne (Ne.symm hij), hj]

theorem event_step {w : World} {i : Nat} {p : Pc} (h : w.threads[i]? = some p) (ch : Choice) : w.event (.step i ch) = w.stepAt i ch p := by
  unfold World.event; simp only [h]

/-- After any history of calls: a hook that fails tells every other hook that goes on with the same contexts to stop. -/
theorem failure_reaches (es : List Event) (i j g : Nat) (m : Msg) (hi : inHook (World.run {} es) i g) (hj : inHook (World.run {} es) j g)
    (hij : j ≠ i) : toldToStop ((World.run {} es).event (.step i (.failed m))) j := by
  obtain ⟨p, n, hpi, hp⟩ := hi
  rw [event_step hpi]
  refine told_of (begun_run es) (stepAt_moved _ i _ p) hij hj ?_
  generalize World.run {} es = w at *
  have key : w.stops g < (w.stopHooks g).stops g := by
    show w.stops g < if g = g then w.stops g + 1 else w.stops g
    rw [if_pos rfl]; omega
  cases p <;> cases hp <;> exact key

theorem stopAll_more {w : World} (h : w.gen ≠ 0) : w.stops w.gen < w.stopAll.stops w.gen := by
  unfold World.stopAll
  rw [if_neg h]
  dsimp only
  rw [if_pos rfl]; omega

/-- After any history of calls: an abort or a pause that is allowed tells every hook that goes on with the contexts of the last configure to
stop. -/
theorem abort_reaches (es : List Event) (i j : Nat) (a : Abort) (ch : Choice) (hi : (World.run {} es).threads[i]? = some (.aBegin a))
    (ha : a.start ∈ Props.States.edges (World.run {} es).state) (hg : (World.run {} es).gen ≠ 0)
    (hj : inHook (World.run {} es) j (World.run {} es).gen) : toldToStop ((World.run {} es).event (.step i ch)) j := by
  have hij : j ≠ i := by
    rintro rfl
    obtain ⟨p, n, h1, h2⟩ := hj
    rw [hi] at h1; cases h1; cases h2
  rw [event_step hi]
  refine told_of (begun_run es) (stepAt_moved _ i _ _) hij hj ?_
  generalize World.run {} es = w at *
  unfold World.stepAt
  dsimp only
  rw [transition_eq, if_pos ha]
  exact stopAll_more (w := { w with abortQ := true, state := a.start, message := _ }) hg

/-- A run of a configured block, and an abort that is about to begin -/
def runThenAbort : List Event :=
  .call (.stateful .reset) :: List.replicate 3 (.step 0 .ok) ++ .call .configure :: List.replicate 14 (.step 1 .ok) ++
    [.call (.run true), .step 2 .ok, .step 2 .ok, .call .abort]

example : toldToStop ((World.run {} runThenAbort).event (.step 3 .ok)) 2 := by
  have hg : (World.run {} runThenAbort).gen = 1 := by decide +kernel
  refine abort_reaches runThenAbort 3 2 .abort .ok (by decide +kernel) (by decide +kernel) (by rw [hg]; decide) ?_
  rw [hg]
  exact ⟨.rHook true 0 1 0, 0, by decide +kernel, rfl⟩

/-- ... and so does a disable -/
theorem disable_reaches (es : List Event) (i j : Nat) (ch : Choice) (hi : (World.run {} es).threads[i]? = some .sStop)
    (hg : (World.run {} es).gen ≠ 0) (hj : inHook (World.run {} es) j (World.run {} es).gen) :
    toldToStop ((World.run {} es).event (.step i ch)) j := by
  have hij : j ≠ i := by
    rintro rfl
    obtain ⟨p, n, h1, h2⟩ := hj
    rw [hi] at h1; cases h1; cases h2
  rw [event_step hi]
  refine told_of (begun_run es) (stepAt_moved _ i _ _) hij hj ?_
  generalize World.run {} es = w at *
  show w.stops w.gen < ((w.stopAll.put false).setPc i _).stops w.gen
  show w.stops w.gen < (w.stopAll.put false).stops w.gen
  rw [put_stops]
  exact stopAll_more hg

/-- Once told, a hook stays told to stop, whatever other calls do -/
theorem told_stays {w : World} {j : Nat} (h : toldToStop w j) (e : Event) (he : ∀ ch, e ≠ .step j ch) : toldToStop (w.event e) j := by
  obtain ⟨p, g, n, hj, hp, hn⟩ := h
  cases e with
  | call c =>
    refine ⟨p, g, n, ?_, hp, hn⟩
    show (w.threads ++ [c.begin])[j]? = some p
    rw [List.getElem?_append_left (by exact (List.getElem?_eq_some_iff.1 hj).1), hj]
  | step i ch =>
    have hij : j ≠ i := fun e => he ch (by rw [e])
    unfold World.event
    dsimp only
    split
    · rename_i q _
      have m := stepAt_moved w i ch q
      refine ⟨p, g, n, ?_, hp, Nat.lt_of_lt_of_le hn (m.stops g)⟩
      rcases m.threads with ht | ⟨p', ht, -⟩
      · rw [ht, hj]
      · rw [ht, List.getElem?_set_ne (Ne.symm hij), hj]
    · exact ⟨p, g, n, hj, hp, hn⟩

/-- Whatever was stopped before a configure makes its contexts is forgotten: neither the next transition nor the next hook is told to stop. -/
theorem contexts_forget {w : World} {j : Nat} (h : w.threads[j]? = some .cContexts) :
    (w.event (.step j .ok)).selfStops = 0 ∧ inHook ((w.event (.step j .ok)).event (.step j .ok)) j (w.gen + 1)
    ∧ ¬ toldToStop ((w.event (.step j .ok)).event (.step j .ok)) j := by
  have hj : j < w.threads.length := (List.getElem?_eq_some_iff.mp h).1
  have e1 : w.stepAt j .ok .cContexts = ({ w with gen := w.gen + 1, selfStops := 0 } : World).setPc j (.cBetween 0) := rfl
  have e2 : ∀ v : World, v.stepAt j .ok (.cBetween 0) = v.setPc j (.cHook 0 v.gen (v.stops v.gen)) := fun _ => rfl
  rw [event_step h, e1]
  have h1 : (({ w with gen := w.gen + 1, selfStops := 0 } : World).setPc j (.cBetween 0)).threads[j]? = some (.cBetween 0) := by
    unfold World.setPc
    exact List.getElem?_set_self hj
  rw [event_step h1, e2]
  have h2 : ((({ w with gen := w.gen + 1, selfStops := 0 } : World).setPc j (.cBetween 0)).setPc j
      (.cHook 0 (w.gen + 1) (w.stops (w.gen + 1)))).threads[j]? = some (.cHook 0 (w.gen + 1) (w.stops (w.gen + 1))) := by
    unfold World.setPc
    exact List.getElem?_set_self (by rw [List.length_set]; exact hj)
  refine ⟨rfl, ⟨_, _, h2, rfl⟩, ?_⟩
  rintro ⟨p, g, n, hp, hh, hn⟩
  have hp2 := h2.symm.trans hp
  cases hp2
  cases hh
  exact Nat.lt_irrefl _ hn

end Verif.Props.RunnableStops
