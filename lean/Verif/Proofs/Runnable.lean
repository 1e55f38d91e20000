import Verif.Props.Runnable
/-!
The steps of Verif.Model.Runnable as a relation, one rule for each branch.
-/
namespace Verif.Proofs.Runnable
open Verif Verif.Runnable Verif.Spec.Runnable Verif.Props.States Verif.Props.Runnable

/-- The world after a transition that is allowed -/
def to (w : World) (s : St) (m : Msg := "") : World :=
  { w with state := s, message := if s = .disabled then "Disabled" else if s = .fault then m else "" }

/-- Points from which a call can fail with an exception that takes the block to Fault -/
def canFail : Pc → Bool
  | .sBegin _ | .sHook _ | .sEnd _ | .cBegin _ | .cReset | .cBetween _ | .cHook .. | .cEnd | .rBegin _ | .rBetween ..
  | .rHook .. | .rEnd _ | .aBegin _ | .aFresh _ | .aBetween .. | .aHook .. | .aEnd _ => true
  | _ => false

/-- The same world but for a stop that `sleep` has taken -/
def took (w : World) : World := { w with selfStops := w.selfStops - 1 }

/-- `Step w ch p w1 p1`: with the choice `ch`, a call at `p` goes to `p1` and the rest of the world becomes that of `w1`,
which has the threads of `w`. -/
inductive Step (w : World) (ch : Choice) : Pc → World → Pc → Prop
  | fail {p : Pc} (w1 : World) (m : Msg) : canFail p = true → w1.threads = w.threads → w1.state = w.state →
      w1.message = w.message → w1.rq = w.rq → w1.queues = w.queues → Step w ch p w1 (.failing m)
  | sBegin (k : Kind) : k.start ∈ edges w.state →
      Step w ch (.sBegin k) (to w k.start) (if k = .disable then .sStop else .sHook k)
  | sStop : Step w ch .sStop (w.stopAll.put false) (.sHook .disable)
  | sHook (k : Kind) : Step w ch (.sHook k) w (.sEnd k)
  | sEnd (k : Kind) : k.finish ∈ edges w.state → Step w ch (.sEnd k) (to w k.finish) (.done .returned)
  | cInvalid (r : Result) : r ≠ .returned → Step w ch .cValidate w (.done r)
  | cValid : Step w ch .cValidate w .cRead
  | cRead : Step w ch .cRead w (.cBegin (w.state = .finished))
  | cBegin (f : Bool) : .configuring ∈ edges w.state →
      Step w ch (.cBegin f) (to w .configuring) (if f then .cReset else .cContexts)
  | cResetAborted (r : Result) : ch = .aborted → r ≠ .returned → Step w ch .cReset w (.done r)
  | cReset : Step w ch .cReset w .cContexts
  | cContexts : Step w ch .cContexts { w with gen := w.gen + 1, selfStops := 0 } (.cBetween 0)
  | cBetween (k : Nat) : Step w ch (.cBetween k) w (.cHook k w.gen (w.stops w.gen))
  | cQueue (k : Nat) : Step w ch (.cBetween k)
      { w with rq := w.rq + 1, queues := fun q => if q = w.rq + 1 then [] else w.queues q } .cEnd
  | cHookAborted (k g n : Nat) (r : Result) : ch = .aborted → r ≠ .returned → Step w ch (.cHook k g n) w (.done r)
  | cHook (k g n : Nat) : Step w ch (.cHook k g n) w (.cBetween (k + 1))
  | cEndAborted (r : Result) : w.selfStops ≠ 0 → r ≠ .returned → Step w ch .cEnd (took w) (.done r)
  | cEnd : w.selfStops = 0 → .armed ∈ edges w.state → Step w ch .cEnd (to w .armed) (.done .returned)
  | rBegin (f : Bool) : .running ∈ edges w.state → Step w ch (.rBegin f) (to w .running) (.rBetween f 0)
  | rPostAborted (f : Bool) : w.selfStops ≠ 0 → w.rq ≠ 0 → Step w ch (.rBetween f 2) (took w) (.rWait f w.rq)
  | rPost (f : Bool) : w.selfStops = 0 → .postrun ∈ edges w.state →
      Step w ch (.rBetween f 2) (to w .postrun) (.rBetween f 3)
  | rBetween (f : Bool) (k k' : Nat) : Step w ch (.rBetween f k) w (.rHook f k' w.gen (w.stops w.gen))
  | rHookAborted (f : Bool) (k g n : Nat) : ch = .aborted → w.rq ≠ 0 → Step w ch (.rHook f k g n) w (.rWait f w.rq)
  | rHook (f : Bool) (k g n : Nat) : Step w ch (.rHook f k g n) w (if k < 4 then .rBetween f (k + 1) else .rEnd f)
  | rEndAborted (f : Bool) : w.selfStops ≠ 0 → w.rq ≠ 0 → Step w ch (.rEnd f) (took w) (.rWait f w.rq)
  | rEnd (f : Bool) : w.selfStops = 0 → (if f then St.finished else .armed) ∈ edges w.state →
      Step w ch (.rEnd f) (to w (if f then .finished else .armed)) (.done .returned)
  | rBlocked (f : Bool) (q : Nat) : w.queues q = [] → Step w ch (.rWait f q) w (.rWait f q)
  | rResumed (f : Bool) (q : Nat) (rest : List Bool) : w.queues q = true :: rest →
      Step w ch (.rWait f q) { w with queues := fun p => if p = q then rest else w.queues p } (.rBetween f 0)
  | rEnded (f : Bool) (q : Nat) (rest : List Bool) : w.queues q = false :: rest →
      Step w ch (.rWait f q) { w with queues := fun p => if p = q then rest else w.queues p } (.done .aborted)
  | pFinished : w.state = .finished → Step w ch (.pFirst false) w (.done .returned)
  | pFirst (given : Bool) : Step w ch (.pFirst given) w .pSecond
  | pSecond : Step w ch .pSecond w
      (.aBegin (.pause (if w.state = .armed ∨ w.state = .finished then .armed else .paused)))
  | aBegin (a : Abort) (p : Pc) : a.start ∈ edges w.state → p = .aIgnore a ∨ p = .aWait a →
      Step w ch (.aBegin a) (to { w with abortQ := true } a.start).stopAll p
  | aWait (a : Abort) : Step w ch (.aWait a) w (.aIgnore a)
  | aIgnore (a : Abort) : Step w ch (.aIgnore a) { w with selfStops := 0 } (.aFresh a)
  | aFreshAborted (a : Abort) : ch = .aborted → Step w ch (.aFresh a) w (.done .aborted)
  | aFresh (a : Abort) (p : Pc) : p = .aEnd a ∨ p = .aBetween a 0 → Step w ch (.aFresh a) w p
  | aBetween (a : Abort) (k : Nat) : Step w ch (.aBetween a k) w (.aHook a k w.gen (w.stops w.gen))
  | aHookAborted (a : Abort) (k g n : Nat) : ch = .aborted → Step w ch (.aHook a k g n) w (.done .aborted)
  | aHook (a : Abort) (k g n : Nat) (p : Pc) : p = .aEnd a ∨ p = .aBetween a 1 → Step w ch (.aHook a k g n) w p
  | aEndAborted (a : Abort) : w.selfStops ≠ 0 → Step w ch (.aEnd a) (took w) (.done .aborted)
  | aEnd (a : Abort) : w.selfStops = 0 → a.finish ∈ edges w.state →
      Step w ch (.aEnd a) (to w a.finish) (if a = .abort then .aPut else .done .returned)
  | aPut : Step w ch .aPut (w.put false) (.done .returned)
  | resumeNot : Step w ch .resumeBegin w (.done (.raised typeError))
  | resumeBegin : .running ∈ edges w.state → Step w ch .resumeBegin (to w .running) .resumePut
  | resumeNoQueue : w.rq = 0 → Step w ch .resumePut w (.done (.raised "No resume queue"))
  | resumePut : w.rq ≠ 0 → Step w ch .resumePut (w.put true) (.done .returned)
  | failing (m : Msg) : Step w ch (.failing m) (w.put false) (.faulting m)
  | faulting (m : Msg) : .fault ∈ edges w.state → Step w ch (.faulting m) (to w .fault m) (.done (.raised m))
  | faultAlready (m : Msg) : w.state = .fault → Step w ch (.faulting m) w (.done (.raised m))
  | faultDisabled (m : Msg) : w.state = .disabled → Step w ch (.faulting m) w (.done (.raised typeError))
  | done (r : Result) : Step w ch (.done r) w (.done r)

@[simp] theorem stopAll_threads (w : World) : w.stopAll.threads = w.threads := by
  unfold World.stopAll; split <;> rfl
@[simp] theorem put_threads (w : World) (b : Bool) : (w.put b).threads = w.threads := by
  unfold World.put; split <;> rfl

theorem Step.threads {w w1 : World} {ch : Choice} {p p1 : Pc} (h : Step w ch p w1 p1) : w1.threads = w.threads := by
  cases h <;> first | assumption | rfl | simp [to]

theorem transition_to {w w' : World} {s : St} {m : Msg} (h : w.transition s m = some w') :
    s ∈ edges w.state ∧ w' = to w s m := transition_some h

theorem abortable_to {w w' : World} {s : St} (h : w.abortable s = .ok w') :
    w.selfStops = 0 ∧ s ∈ edges w.state ∧ w' = to w s := abortable_ok h

theorem abortable_took {w w' : World} {s : St} (h : w.abortable s = .aborted w') :
    w.selfStops ≠ 0 ∧ w' = took w := abortable_aborted h

theorem set_self {l : List Pc} {i : Nat} {p : Pc} (h : l[i]? = some p) : l.set i p = l := by
  apply List.ext_getElem?
  intro j
  rw [List.getElem?_set]
  split
  · next e => subst e; split
              · exact h.symm
              · next hn => rw [List.getElem?_eq_none (by omega)] at h; cases h
  · rfl

/-- Each step is one of the rules -/
theorem stepAt_step (w : World) (i : Nat) (ch : Choice) (p : Pc) (hi : w.threads[i]? = some p) :
    ∃ w1 p1, Step w ch p w1 p1 ∧ w.stepAt i ch p = w1.setPc i p1 := by
  have fl : ∀ (m : Msg), canFail p = true → ∃ w1 p1, Step w ch p w1 p1 ∧ w.setPc i (.failing m) = w1.setPc i p1 :=
    fun m h => ⟨w, _, .fail w m h rfl rfl rfl rfl rfl, rfl⟩
  have ra : ∀ (w1 : World) (f : Bool), canFail p = true → w1.threads = w.threads → w1.state = w.state →
      w1.message = w.message → w1.rq = w.rq → w1.queues = w.queues → (w1.rq ≠ 0 → Step w ch p w1 (.rWait f w1.rq)) →
      ∃ w2 p1, Step w ch p w2 p1 ∧ w1.runAborted i f = w2.setPc i p1 := by
    intro w1 f hc h1 h2 h3 h4 h5 hs
    unfold World.runAborted
    split
    · exact ⟨w1, _, .fail w1 _ hc h1 h2 h3 h4 h5, rfl⟩
    · split
      · exact ⟨w1, _, .fail w1 _ hc h1 h2 h3 h4 h5, rfl⟩
      · next hr => exact ⟨w1, _, hs hr, rfl⟩
  have ca : ∀ (w1 : World), (∀ r, r ≠ .returned → Step w ch p w1 (.done r)) →
      ∃ w2 p1, Step w ch p w2 p1 ∧ w1.configureAborted i = w2.setPc i p1 := by
    intro w1 hs
    unfold World.configureAborted
    split
    · exact ⟨w1, _, hs _ (by simp), rfl⟩
    · exact ⟨w1, _, hs _ (by simp), rfl⟩
  cases p with
  | sBegin k =>
    unfold World.stepAt; dsimp only; split
    · next h => obtain ⟨h1, rfl⟩ := transition_to h; exact ⟨_, _, .sBegin k h1, rfl⟩
    · exact fl _ rfl
  | sStop => exact ⟨_, _, .sStop, rfl⟩
  | sHook k =>
    unfold World.stepAt; dsimp only; split
    · exact fl _ rfl
    · exact fl _ rfl
    · exact ⟨_, _, .sHook k, rfl⟩
  | sEnd k =>
    unfold World.stepAt; dsimp only; split
    · next h => obtain ⟨h1, rfl⟩ := transition_to h; exact ⟨_, _, .sEnd k h1, rfl⟩
    · exact fl _ rfl
  | cValidate =>
    unfold World.stepAt; dsimp only; split
    · exact ⟨_, _, .cInvalid _ (by simp), rfl⟩
    · exact ⟨_, _, .cInvalid _ (by simp), rfl⟩
    · exact ⟨_, _, .cValid, rfl⟩
  | cRead => exact ⟨_, _, .cRead, rfl⟩
  | cBegin f =>
    unfold World.stepAt; dsimp only; split
    · next h => obtain ⟨h1, rfl⟩ := transition_to h; exact ⟨_, _, .cBegin f h1, rfl⟩
    · exact fl _ rfl
  | cReset =>
    unfold World.stepAt; dsimp only; split
    · exact fl _ rfl
    · exact ca w fun r hr => .cResetAborted r rfl hr
    · exact ⟨_, _, .cReset, rfl⟩
  | cContexts => exact ⟨_, _, .cContexts, rfl⟩
  | cBetween k =>
    unfold World.stepAt; dsimp only; split
    · exact fl _ rfl
    · split
      · exact ⟨_, _, .cBetween k, rfl⟩
      · exact ⟨_, _, .cQueue k, rfl⟩
  | cHook k g n =>
    unfold World.stepAt; dsimp only; split
    · exact ⟨_, _, .fail (w.stopHooks g) _ rfl rfl rfl rfl rfl rfl, rfl⟩
    · exact ca w fun r hr => .cHookAborted k g n r rfl hr
    · exact ⟨_, _, .cHook k g n, rfl⟩
  | cEnd =>
    unfold World.stepAt; dsimp only; split
    · next h => obtain ⟨h1, h2, rfl⟩ := abortable_to h; exact ⟨_, _, .cEnd h1 h2, rfl⟩
    · next h => obtain ⟨h1, rfl⟩ := abortable_took h; exact ca _ fun r hr => .cEndAborted r h1 hr
    · exact fl _ rfl
  | rBegin f =>
    unfold World.stepAt; dsimp only; split
    · next h => obtain ⟨h1, rfl⟩ := transition_to h; exact ⟨_, _, .rBegin f h1, rfl⟩
    · exact fl _ rfl
  | rBetween f k =>
    unfold World.stepAt; dsimp only; split
    · next hk =>
      subst hk
      split
      · next h => obtain ⟨h1, h2, rfl⟩ := abortable_to h; exact ⟨_, _, .rPost f h1 h2, rfl⟩
      · next h =>
        obtain ⟨h1, rfl⟩ := abortable_took h
        exact ra _ _ rfl rfl rfl rfl rfl rfl fun hr => .rPostAborted f h1 hr
      · exact fl _ rfl
    · split
      · exact fl _ rfl
      · exact ⟨_, _, .rBetween f k _, rfl⟩
      · exact ⟨_, _, .rBetween f k _, rfl⟩
  | rHook f k g n =>
    unfold World.stepAt; dsimp only; split
    · exact ⟨_, _, .fail (w.stopHooks g) _ rfl rfl rfl rfl rfl rfl, rfl⟩
    · exact ra _ _ rfl rfl rfl rfl rfl rfl fun hr => .rHookAborted f k g n rfl hr
    · exact ⟨_, _, .rHook f k g n, rfl⟩
  | rEnd f =>
    unfold World.stepAt; dsimp only; split
    · next h => obtain ⟨h1, h2, rfl⟩ := abortable_to h; exact ⟨_, _, .rEnd f h1 h2, rfl⟩
    · next h =>
      obtain ⟨h1, rfl⟩ := abortable_took h
      exact ra _ _ rfl rfl rfl rfl rfl rfl fun hr => .rEndAborted f h1 hr
    · exact fl _ rfl
  | rWait f q =>
    unfold World.stepAt; dsimp only; split
    · next h => exact ⟨_, _, .rBlocked f q h, by simp [World.setPc, set_self hi]⟩
    · next b rest h =>
      cases b
      · exact ⟨_, _, .rEnded f q rest h, rfl⟩
      · exact ⟨_, _, .rResumed f q rest h, rfl⟩
  | pFirst given =>
    unfold World.stepAt; dsimp only; split
    · next h =>
      obtain ⟨h1, h2⟩ := h
      cases given
      · exact ⟨_, _, .pFinished h2, rfl⟩
      · simp at h1
    · exact ⟨_, _, .pFirst given, rfl⟩
  | pSecond => exact ⟨_, _, .pSecond, rfl⟩
  | aBegin a =>
    unfold World.stepAt; dsimp only; split
    · next h =>
      obtain ⟨h1, rfl⟩ := transition_to h
      exact ⟨_, _, .aBegin a _ h1 (by split <;> simp), rfl⟩
    · exact ⟨_, _, .fail { w with abortQ := true } _ rfl rfl rfl rfl rfl rfl, rfl⟩
  | aWait a => exact ⟨_, _, .aWait a, rfl⟩
  | aIgnore a => exact ⟨_, _, .aIgnore a, rfl⟩
  | aFresh a =>
    unfold World.stepAt; dsimp only; split
    · exact fl _ rfl
    · exact ⟨_, _, .aFreshAborted a rfl, rfl⟩
    · exact ⟨_, _, .aFresh a _ (by split <;> simp), rfl⟩
  | aBetween a k =>
    unfold World.stepAt; dsimp only; split
    · exact fl _ rfl
    · exact ⟨_, _, .aBetween a k, rfl⟩
  | aHook a k g n =>
    unfold World.stepAt; dsimp only; split
    · exact ⟨_, _, .fail (w.stopHooks g) _ rfl rfl rfl rfl rfl rfl, rfl⟩
    · exact ⟨_, _, .aHookAborted a k g n rfl, rfl⟩
    · exact ⟨_, _, .aHook a k g n _ (by split <;> simp), rfl⟩
  | aEnd a =>
    unfold World.stepAt; dsimp only; split
    · next h => obtain ⟨h1, h2, rfl⟩ := abortable_to h; exact ⟨_, _, .aEnd a h1 h2, rfl⟩
    · next h => obtain ⟨h1, rfl⟩ := abortable_took h; exact ⟨_, _, .aEndAborted a h1, rfl⟩
    · exact fl _ rfl
  | aPut => exact ⟨_, _, .aPut, rfl⟩
  | resumeBegin =>
    unfold World.stepAt; dsimp only; split
    · next h => obtain ⟨h1, rfl⟩ := transition_to h; exact ⟨_, _, .resumeBegin h1, rfl⟩
    · exact ⟨_, _, .resumeNot, rfl⟩
  | resumePut =>
    unfold World.stepAt; dsimp only; split
    · next h => exact ⟨_, _, .resumeNoQueue h, rfl⟩
    · next h => exact ⟨_, _, .resumePut h, rfl⟩
  | failing m => exact ⟨_, _, .failing m, rfl⟩
  | faulting m =>
    unfold World.stepAt; dsimp only; split
    · next h => exact ⟨_, _, .faultAlready m h, rfl⟩
    · next hf =>
      split
      · next h => obtain ⟨h1, rfl⟩ := transition_to h; exact ⟨_, _, .faulting m h1, rfl⟩
      · next h =>
        refine ⟨_, _, .faultDisabled m ?_, rfl⟩
        have := transition_none h
        revert this hf
        generalize w.state = s
        cases s <;> simp [edges]
  | done r => exact ⟨_, _, .done r, by show w = _; simp [World.setPc, set_self hi]⟩

/-- A step of the call `i` -/
theorem event_step (w : World) (i : Nat) (ch : Choice) (p : Pc) (hi : w.threads[i]? = some p) :
    ∃ w1 p1, Step w ch p w1 p1 ∧ w.event (.step i ch) = w1.setPc i p1 ∧
      (w.event (.step i ch)).threads = w.threads.set i p1 := by
  obtain ⟨w1, p1, h1, h2⟩ := stepAt_step w i ch p hi
  have : w.event (.step i ch) = w1.setPc i p1 := by simp only [World.event, hi]; exact h2
  exact ⟨w1, p1, h1, this, by rw [this]; show w1.threads.set i p1 = _; rw [h1.threads]⟩

theorem event_none (w : World) (i : Nat) (ch : Choice) (hi : w.threads[i]? = none) : w.event (.step i ch) = w := by
  simp only [World.event, hi]

end Verif.Proofs.Runnable
