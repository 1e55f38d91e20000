import Verif.Proofs.Runnable
/-!
C05: how each call on a runnable block ends, whatever other calls go on at the same time and however the hooks end.
-/
namespace Verif.Props.RunnableEnds
open Verif Verif.Runnable Verif.Spec.Runnable Verif.Props.States Verif.Props.Runnable Verif.Proofs.Runnable

/-- The calls that go through `try_aborting_function` -/
def ofAbort (c : Call) : Abort → Prop
  | .abort => c = .abort
  | .pause n => (∃ given, c = .pause given) ∧ (n = .armed ∨ n = .paused)

/-- The call that can be at a point -/
def points (c : Call) : Pc → Prop
  | .sBegin k | .sHook k | .sEnd k => c = .stateful k
  | .sStop => c = .stateful .disable
  | .cValidate | .cRead | .cBegin _ | .cReset | .cContexts | .cBetween _ | .cHook .. | .cEnd => c = .configure
  | .rBegin f | .rBetween f _ | .rHook f .. | .rEnd f | .rWait f _ => c = .run f
  | .pFirst given => c = .pause given
  | .pSecond => ∃ given, c = .pause given
  | .aBegin a | .aWait a | .aIgnore a | .aFresh a | .aBetween a _ | .aHook a .. | .aEnd a => ofAbort c a
  | .aPut => c = .abort
  | .resumeBegin | .resumePut => c = .resume
  | .failing _ | .faulting _ => c ≠ .resume
  | .done _ => True

theorem ofAbort_ne {c : Call} {a : Abort} (h : ofAbort c a) : c ≠ .resume := by
  rintro rfl; cases a <;> simp [ofAbort] at h

theorem points_step {w w1 : World} {ch : Choice} {p p1 : Pc} {c : Call} (h : Step w ch p w1 p1)
    (hp : points c p) : points c p1 := by
  cases h with
  | fail w1 m hc =>
    show c ≠ .resume
    cases p <;> first | (exact ofAbort_ne hp) | (simp [canFail] at hc; done) | (simp only [points] at hp; simp [hp])
  | sBegin k => have : c = .stateful k := hp; subst this; cases k <;> simp [points]
  | cBegin f => have : c = .configure := hp; subst this; cases f <;> simp [points]
  | rHook f k g n => have : c = .run f := hp; subst this; split <;> rfl
  | pFirst given => exact ⟨_, hp⟩
  | pSecond => exact ⟨hp, by split <;> simp⟩
  | aBegin a p h1 h2 => rcases h2 with rfl | rfl <;> exact hp
  | aFresh a p h2 => rcases h2 with rfl | rfl <;> exact hp
  | aHook a k g n p h2 => rcases h2 with rfl | rfl <;> exact hp
  | aEnd a =>
    split
    · next e => subst e; exact hp
    · exact trivial
  | _ => first | exact hp | exact trivial

theorem run_snoc (w : World) (es : List Event) (e : Event) : w.run (es ++ [e]) = (w.run es).event e := by
  simp [World.run]

theorem calls_snoc (es : List Event) (e : Event) :
    calls (es ++ [e]) = calls es ++ (match e with | .call c => [c] | .step _ _ => []) := by
  cases e <;> simp [calls]

theorem snoc_ind {P : List Event → Prop} (h0 : P []) (h1 : ∀ es e, P es → P (es ++ [e])) (es : List Event) : P es := by
  have : ∀ l : List Event, P l.reverse := by
    intro l; induction l with
    | nil => exact h0
    | cons a l ih => rw [List.reverse_cons]; exact h1 _ _ ih
  simpa using this es.reverse

theorem event_length (w : World) (i : Nat) (ch : Choice) :
    (w.event (.step i ch)).threads.length = w.threads.length := by
  cases hi : w.threads[i]? with
  | none => rw [event_none w i ch hi]
  | some p =>
    obtain ⟨_, p1, _, _, ht⟩ := event_step w i ch p hi
    rw [ht, List.length_set]

/-- Each thread is at a point of its call -/
theorem threads_points (es : List Event) : (new.run es).threads.length = (calls es).length ∧
    ∀ (i : Nat) c p, (calls es)[i]? = some c → (new.run es).threads[i]? = some p → points c p := by
  induction es using snoc_ind with
  | h0 => exact ⟨rfl, fun i c p h => by simp [calls] at h⟩
  | h1 es e ih =>
    obtain ⟨ih1, ih2⟩ := ih
    rw [run_snoc, calls_snoc]
    cases e with
    | call c0 =>
      show ((new.run es).threads ++ [c0.begin]).length = _ ∧ ∀ (i : Nat) c p, _ → ((new.run es).threads ++ [c0.begin])[i]? = _ → _
      refine ⟨by simp [ih1], ?_⟩
      intro i c p hc hp
      by_cases hi : i < (calls es).length
      · rw [List.getElem?_append_left hi] at hc
        rw [List.getElem?_append_left (by omega)] at hp
        exact ih2 i c p hc hp
      · rw [List.getElem?_append_right (by omega)] at hc
        rw [List.getElem?_append_right (by omega), ih1] at hp
        obtain ⟨hd, hc⟩ : i - (calls es).length = 0 ∧ c0 = c := by
          cases hk : i - (calls es).length with
          | zero => rw [hk] at hc; exact ⟨rfl, by simpa using hc⟩
          | succ k => rw [hk] at hc; simp at hc
        rw [hd] at hp
        have hp : c0.begin = p := by simpa using hp
        subst hc hp
        cases c0 <;> rfl
    | step i ch =>
      refine ⟨by rw [event_length]; simpa using ih1, ?_⟩
      intro j c p hc hp
      have hc : (calls es)[j]? = some c := by simpa using hc
      cases hi : (new.run es).threads[i]? with
      | none => rw [event_none _ i ch hi] at hp; exact ih2 j c p hc hp
      | some p0 =>
        obtain ⟨w1, p1, hst, _, ht⟩ := event_step _ i ch p0 hi
        rw [ht, List.getElem?_set] at hp
        split at hp
        · next e =>
          subst e
          split at hp
          · cases hp; exact points_step hst (ih2 i c p0 hc hi)
          · cases hp
        · exact ih2 j c p hc hp

theorem not_over {o : Option Pc} (h : o.any over = false) (r : Result) : o ≠ some (.done r) := by
  rintro rfl; simp [over] at h

theorem took_snoc {es : List Event} {i : Nat} {a b : St} (h : Took es i a b) (e : Event) : Took (es ++ [e]) i a b := by
  obtain ⟨es1, ch, es2, h1, h2, h3⟩ := h
  exact ⟨es1, ch, es2 ++ [e], by simp [h1], h2, h3⟩

theorem mem_aborted {s : St} (h : St.aborted ∈ edges s) : s = .aborting := by
  revert h; cases s <;> simp [edges]

/-- An abort that has only to tell the run has taken the block from Aborting to Aborted, a resume from Paused or Armed to
Running -/
theorem took_first (es : List Event) : ∀ i : Nat,
    ((new.run es).threads[i]? = some .aPut → Took es i .aborting .aborted) ∧
    ((new.run es).threads[i]? = some .resumePut → Took es i .paused .running ∨ Took es i .armed .running) := by
  induction es using snoc_ind with
  | h0 => intro i; exact ⟨fun h => by simp [World.run, new] at h, fun h => by simp [World.run, new] at h⟩
  | h1 es e ih =>
    intro i
    have old : ((new.run es).threads[i]? = some .aPut → Took (es ++ [e]) i .aborting .aborted) ∧
        ((new.run es).threads[i]? = some .resumePut → Took (es ++ [e]) i .paused .running ∨ Took (es ++ [e]) i .armed .running) :=
      ⟨fun h => took_snoc ((ih i).1 h) e, fun h => ((ih i).2 h).imp (took_snoc · e) (took_snoc · e)⟩
    cases e with
    | call c0 =>
      rw [run_snoc]
      show (((new.run es).threads ++ [c0.begin])[i]? = _ → _) ∧ (((new.run es).threads ++ [c0.begin])[i]? = _ → _)
      by_cases hi : i < (new.run es).threads.length
      · rw [List.getElem?_append_left hi]; exact old
      · rw [List.getElem?_append_right (by omega)]
        cases i - (new.run es).threads.length with
        | zero => cases c0 <;> simp [Call.begin]
        | succ k => simp
    | step j ch =>
      cases hj : (new.run es).threads[j]? with
      | none => rw [run_snoc, event_none _ j ch hj]; exact old
      | some p =>
        obtain ⟨w1, p1, hst, hw, ht⟩ := event_step _ j ch p hj
        by_cases hij : j = i
        · subst hij
          have hlt : j < (new.run es).threads.length := by
            rcases Nat.lt_or_ge j (new.run es).threads.length with h | h
            · exact h
            · rw [List.getElem?_eq_none h] at hj; cases hj
          rw [run_snoc, ht, List.getElem?_set]
          simp only [hlt, if_true, Option.some.injEq]
          have hstate : (new.run (es ++ [.step j ch])).state = w1.state := by rw [run_snoc, hw]; rfl
          constructor
          · intro h1; subst h1
            generalize hq : Pc.aPut = q at hst
            cases hst <;> try (simp at hq; done)
            case sBegin k _ => split at hq <;> simp at hq
            case cBegin f _ => split at hq <;> simp at hq
            case rHook f k g n => split at hq <;> simp at hq
            case aBegin a h2 h3 => subst hq; simp at h3
            case aFresh a h3 => subst hq; simp at h3
            case aHook a k g n h3 => subst hq; simp at h3
            case aEnd a h2 h3 =>
              split at hq
              · next e =>
                subst e
                exact ⟨es, ch, [], rfl, mem_aborted h3, hstate⟩
              · simp at hq
          · intro h1; subst h1
            generalize hq : Pc.resumePut = q at hst
            cases hst <;> try (simp at hq; done)
            case sBegin k _ => split at hq <;> simp at hq
            case cBegin f _ => split at hq <;> simp at hq
            case rHook f k g n => split at hq <;> simp at hq
            case aBegin a h2 h3 => subst hq; simp at h3
            case aFresh a h3 => subst hq; simp at h3
            case aHook a k g n h3 => subst hq; simp at h3
            case aEnd a h2 h3 => split at hq <;> simp at hq
            case resumeBegin h2 =>
              have : (new.run es).state = .paused ∨ (new.run es).state = .armed := by
                revert h2; generalize (new.run es).state = s; cases s <;> simp [edges]
              rcases this with h | h
              · exact .inl ⟨es, ch, [], rfl, h, hstate⟩
              · exact .inr ⟨es, ch, [], rfl, h, hstate⟩
        · rw [run_snoc, ht, List.getElem?_set_ne hij]; exact old

/-- C05: every call that ends, ends as `Ending` says, whatever calls were made before on a new block, in whatever order they
went on and however the hooks of the parts ended. -/
theorem ends (es : List Event) (i : Nat) (ch : Choice) (c : Call) (r : Result) (hc : (calls es)[i]? = some c)
    (he : EndsBy es i ch r) :
    Ending es i (new.run es).state (new.run (es ++ [.step i ch])).state r c := by
  obtain ⟨hn, he⟩ := he
  have hn := not_over hn
  cases hi : (new.run es).threads[i]? with
  | none => rw [run_snoc, event_none _ i ch hi, hi] at he; cases he
  | some p =>
    obtain ⟨w1, p1, hst, hw, ht⟩ := event_step _ i ch p hi
    have hlt : i < (new.run es).threads.length := by
      rcases Nat.lt_or_ge i (new.run es).threads.length with h | h
      · exact h
      · rw [List.getElem?_eq_none h] at hi; cases hi
    have hstate : (new.run (es ++ [.step i ch])).state = w1.state := by rw [run_snoc, hw]; rfl
    rw [run_snoc, ht, List.getElem?_set_self hlt] at he
    have hp1 : p1 = .done r := by simpa using he
    have hpt := (threads_points es).2 i c p hc hi
    have hf := took_first es i
    rw [hstate]
    generalize hq : Pc.done r = q at hp1
    rw [hp1] at hst
    cases hst <;> try (simp at hq; done)
    case sBegin k _ => split at hq <;> simp at hq
    case cBegin f _ => split at hq <;> simp at hq
    case rHook f k g n => split at hq <;> simp at hq
    case aBegin a h2 h3 => subst hq; simp at h3
    case aFresh a h3 => subst hq; simp at h3
    case aHook a k g n h3 => subst hq; simp at h3
    case sEnd k h => cases Pc.done.inj hq; have : c = .stateful k := hpt; subst this; rfl
    case cInvalid r' h => cases Pc.done.inj hq; have : c = .configure := hpt; subst this; cases r <;> simp_all [Ending]
    case cResetAborted r' _ h => cases Pc.done.inj hq; have : c = .configure := hpt; subst this; cases r <;> simp_all [Ending]
    case cHookAborted r' _ h => cases Pc.done.inj hq; have : c = .configure := hpt; subst this; cases r <;> simp_all [Ending]
    case cEndAborted r' _ h => cases Pc.done.inj hq; have : c = .configure := hpt; subst this; cases r <;> simp_all [Ending, took]
    case cEnd _ _ => cases Pc.done.inj hq; have : c = .configure := hpt; subst this; rfl
    case rEnd f _ _ => cases Pc.done.inj hq; have : c = .run f := hpt; subst this; rfl
    case rEnded f q rest _ => cases Pc.done.inj hq; have : c = .run f := hpt; subst this; rfl
    case pFinished h => cases Pc.done.inj hq; have : c = .pause false := hpt; subst this; simp [Ending, h]
    case aFreshAborted a _ =>
      cases Pc.done.inj hq; cases a
      · have : c = .abort := hpt; subst this; rfl
      · obtain ⟨⟨g, rfl⟩, _⟩ := hpt; rfl
    case aHookAborted a _ _ _ _ =>
      cases Pc.done.inj hq; cases a
      · have : c = .abort := hpt; subst this; rfl
      · obtain ⟨⟨g, rfl⟩, _⟩ := hpt; rfl
    case aEndAborted a _ =>
      cases Pc.done.inj hq; cases a
      · have : c = .abort := hpt; subst this; rfl
      · obtain ⟨⟨g, rfl⟩, _⟩ := hpt; rfl
    case aEnd a _ _ =>
      split at hq
      · simp at hq
      · cases hq
        cases a
        · simp at *
        · next n => 
          obtain ⟨⟨g, rfl⟩, hn⟩ := hpt
          rcases hn with rfl | rfl
          · exact .inl rfl
          · exact .inr (.inl rfl)
    case aPut => cases Pc.done.inj hq; have : c = .abort := hpt; subst this; exact ⟨hf.1 hi, by simp⟩
    case resumeNot => cases Pc.done.inj hq; have : c = .resume := hpt; subst this; rfl
    case resumeNoQueue _ => cases Pc.done.inj hq; have : c = .resume := hpt; subst this; rfl
    case resumePut _ => cases Pc.done.inj hq; have : c = .resume := hpt; subst this; exact ⟨hf.2 hi, by simp⟩
    case faulting m _ =>
      cases Pc.done.inj hq; have : c ≠ .resume := hpt
      cases c <;> simp [Ending, to] at this ⊢
    case faultAlready m h =>
      cases Pc.done.inj hq; have : c ≠ .resume := hpt
      cases c <;> simp [Ending, h] at this ⊢
    case faultDisabled m h =>
      cases Pc.done.inj hq; have : c ≠ .resume := hpt
      cases c <;> simp [Ending, h] at this ⊢
    case done r' => exact absurd hi (hn r')

/-- Configure and then run a block, as in the examples below: the block is Armed, the run is the call 2 -/
def armed : List Event :=
  [.call (.stateful .init), .step 0 .ok, .step 0 .ok, .step 0 .ok, .call .configure] ++
    List.replicate 14 (.step 1 .ok) ++ [.call (.run true)]

/-- Each way of ending happens: an init, a configure, a run, a run that is paused, an abort that stops a run -/
example : EndsBy [.call (.stateful .init), .step 0 .ok, .step 0 .ok] 0 .ok .returned ∧
    EndsBy ([.call (.stateful .init), .step 0 .ok, .step 0 .ok, .step 0 .ok, .call .configure] ++
      List.replicate 13 (.step 1 .ok)) 1 .ok .returned ∧
    EndsBy (armed ++ List.replicate 10 (.step 2 .ok)) 2 .ok .returned ∧
    EndsBy (armed ++ [.step 2 .ok, .step 2 .ok, .call (.pause false), .step 3 .ok, .step 3 .ok, .step 3 .ok,
      .step 2 .aborted] ++ List.replicate 7 (.step 3 .ok)) 3 .ok .returned ∧
    EndsBy (armed ++ [.step 2 .ok, .step 2 .ok, .call .abort, .step 3 .ok, .step 2 .aborted] ++
      List.replicate 5 (.step 3 .ok)) 2 .ok .aborted := by
  unfold EndsBy
  decide +kernel

/-- What a step of a failed call does -/
theorem failed_step {w : World} {j : Nat} {ch : Choice} {i : Nat} {m : Msg}
    (h : w.threads[i]? = some (.failing m) ∨ w.threads[i]? = some (.faulting m)) :
    let w' := w.event (.step j ch)
    w'.threads[i]? = some (.failing m) ∨ w'.threads[i]? = some (.faulting m) ∨
      (j = i ∧ ((w'.threads[i]? = some (.done (.raised m)) ∧ w'.state = .fault ∧ (w'.message = m ∨ w.state = .fault)) ∨
        (w'.threads[i]? = some (.done (.raised typeError)) ∧ w.state = .disabled ∧ w'.state = .disabled))) := by
  dsimp only
  by_cases hji : j = i
  · subst hji
    have hlt : j < w.threads.length := by
      rcases Nat.lt_or_ge j w.threads.length with h' | h'
      · exact h'
      · rw [List.getElem?_eq_none h'] at h; rcases h with h | h <;> cases h
    rcases h with h | h
    · obtain ⟨w1, p1, hst, hw, ht⟩ := event_step w j ch _ h
      rw [ht, List.getElem?_set_self hlt]
      cases hst with
      | fail _ _ hc => cases hc
      | failing => right; left; rfl
    · obtain ⟨w1, p1, hst, hw, ht⟩ := event_step w j ch _ h
      rw [ht, List.getElem?_set_self hlt, hw]
      right; right
      refine ⟨rfl, ?_⟩
      cases hst with
      | fail _ _ hc => cases hc
      | faulting _ he => left; exact ⟨rfl, rfl, .inl (by simp [World.setPc, to])⟩
      | faultAlready _ he => left; exact ⟨rfl, he, .inr he⟩
      | faultDisabled _ he => right; exact ⟨rfl, he, he⟩
  · cases hj : w.threads[j]? with
    | none => rw [event_none w j ch hj]; rcases h with h | h <;> simp [h]
    | some p =>
      obtain ⟨w1, p1, hst, hw, ht⟩ := event_step w j ch p hj
      rw [ht, List.getElem?_set_ne hji]
      rcases h with h | h <;> simp [h]

/-- A part that fails in a hook makes its call fail -/
theorem hook_fails (w : World) (i : Nat) (m : Msg) (p : Pc) (hi : w.threads[i]? = some p) (hp : inHooks p = true) :
    (w.event (.step i (.failed m))).threads[i]? = some (.failing m) := by
  have hlt : i < w.threads.length := by
    rcases Nat.lt_or_ge i w.threads.length with h' | h'
    · exact h'
    · rw [List.getElem?_eq_none h'] at hi; cases hi
  simp only [World.event, hi]
  cases p <;> simp only [inHooks, Bool.false_eq_true] at hp <;>
    (show (w.threads.set i (.failing m))[i]? = _; rw [List.getElem?_set_self hlt])

theorem done_stays (w : World) (e : Event) (i : Nat) (r : Result) (h : w.threads[i]? = some (.done r)) :
    (w.event e).threads[i]? = some (.done r) := by
  have hlt : i < w.threads.length := by
    rcases Nat.lt_or_ge i w.threads.length with h' | h'
    · exact h'
    · rw [List.getElem?_eq_none h'] at h; cases h
  cases e with
  | call c => show (w.threads ++ [c.begin])[i]? = _; rw [List.getElem?_append_left hlt]; exact h
  | step j ch =>
    cases hj : w.threads[j]? with
    | none => rw [event_none w j ch hj]; exact h
    | some p =>
      obtain ⟨w1, p1, hst, hw, ht⟩ := event_step w j ch p hj
      rw [ht]
      by_cases hji : j = i
      · subst hji
        rw [h] at hj; cases hj
        cases hst with
        | fail _ _ hc => cases hc
        | done => rw [List.getElem?_set_self hlt]
      · rw [List.getElem?_set_ne hji]; exact h

/-- C05: if a part fails with the error `m` in any hook of any call `i`, then, whatever goes on until the call ends, it ends
with this error and the block in Fault, with this error as its message unless it already was in Fault; or else, if the block
was Disabled in the meantime, it stays so and the call ends with an error. -/
theorem failure_ends_in_fault (es1 es2 : List Event) (i : Nat) (m : Msg) (ch : Choice) (r : Result) (p : Pc)
    (hp : (new.run es1).threads[i]? = some p) (hh : inHooks p = true)
    (he : EndsBy (es1 ++ .step i (.failed m) :: es2) i ch r) :
    let before := new.run (es1 ++ .step i (.failed m) :: es2)
    let after := new.run (es1 ++ .step i (.failed m) :: es2 ++ [.step i ch])
    (r = .raised m ∧ after.state = .fault ∧ (after.message = m ∨ before.state = .fault)) ∨
    (r = .raised typeError ∧ before.state = .disabled ∧ after.state = .disabled) := by
  obtain ⟨hn, hd⟩ := he
  have hn := not_over hn
  have h1 := hook_fails _ i m p hp hh
  have key : ∀ es2 : List Event,
      (new.run (es1 ++ .step i (.failed m) :: es2)).threads[i]? = some (.failing m) ∨
      (new.run (es1 ++ .step i (.failed m) :: es2)).threads[i]? = some (.faulting m) ∨
      ∃ r', (new.run (es1 ++ .step i (.failed m) :: es2)).threads[i]? = some (.done r') := by
    intro es2
    induction es2 using snoc_ind with
    | h0 => left; rw [run_snoc]; exact h1
    | h1 es2 e ih =>
      rw [show es1 ++ Event.step i (.failed m) :: (es2 ++ [e]) = (es1 ++ Event.step i (.failed m) :: es2) ++ [e] by simp,
        run_snoc]
      have frame : ∀ q, (new.run (es1 ++ .step i (.failed m) :: es2)).threads[i]? = some q →
          ∀ c : Call, ((new.run (es1 ++ .step i (.failed m) :: es2)).event (.call c)).threads[i]? = some q := by
        intro q hq c
        show (_ ++ [c.begin])[i]? = _
        have hlt : i < (new.run (es1 ++ .step i (.failed m) :: es2)).threads.length := by
          rcases Nat.lt_or_ge i (new.run (es1 ++ .step i (.failed m) :: es2)).threads.length with h' | h'
          · exact h'
          · rw [List.getElem?_eq_none h'] at hq; cases hq
        rw [List.getElem?_append_left hlt]; exact hq
      rcases ih with h | h | ⟨r', h⟩
      · cases e with
        | call c => left; exact frame _ h c
        | step j ch =>
          rcases failed_step (j := j) (ch := ch) (.inl h) with h | h | ⟨_, h⟩
          · exact .inl h
          · exact .inr (.inl h)
          · rcases h with h | h <;> exact .inr (.inr ⟨_, h.1⟩)
      · cases e with
        | call c => right; left; exact frame _ h c
        | step j ch =>
          rcases failed_step (j := j) (ch := ch) (.inr h) with h | h | ⟨_, h⟩
          · exact .inl h
          · exact .inr (.inl h)
          · rcases h with h | h <;> exact .inr (.inr ⟨_, h.1⟩)
      · exact .inr (.inr ⟨r', done_stays _ e i r' h⟩)
  have hk : (new.run (es1 ++ .step i (.failed m) :: es2)).threads[i]? = some (.failing m) ∨
      (new.run (es1 ++ .step i (.failed m) :: es2)).threads[i]? = some (.faulting m) := by
    rcases key es2 with h | h | ⟨r', h⟩
    · exact .inl h
    · exact .inr h
    · exact absurd h (hn r')
  dsimp only
  have hs := failed_step (j := i) (ch := ch) hk
  dsimp only at hs
  rw [← run_snoc] at hs
  rcases hs with h | h | ⟨_, h | h⟩
  · rw [h] at hd; cases hd
  · rw [h] at hd; cases hd
  · left; refine ⟨?_, h.2⟩; have := h.1.symm.trans hd; simpa using this.symm
  · right; refine ⟨?_, h.2⟩; have := h.1.symm.trans hd; simpa using this.symm

/-- A failed call that goes on ends after two steps, so the theorem above speaks of all failures -/
theorem failure_ends (w : World) (i : Nat) (m : Msg) (ch1 ch2 : Choice) (h : w.threads[i]? = some (.failing m)) :
    ∃ r, ((w.event (.step i ch1)).event (.step i ch2)).threads[i]? = some (.done r) := by
  have hlt : i < w.threads.length := by
    rcases Nat.lt_or_ge i w.threads.length with h' | h'
    · exact h'
    · rw [List.getElem?_eq_none h'] at h; cases h
  obtain ⟨w1, p1, hst, hw, ht⟩ := event_step w i ch1 _ h
  have h1 : (w.event (.step i ch1)).threads[i]? = some (.faulting m) := by
    rw [ht, List.getElem?_set_self hlt]
    cases hst with
    | fail _ _ hc => cases hc
    | failing => rfl
  obtain ⟨w2, p2, hst, hw, ht⟩ := event_step (w.event (.step i ch1)) i ch2 _ h1
  rw [ht, List.getElem?_set_self (by rw [event_length]; exact hlt)]
  cases hst with
  | fail _ _ hc => cases hc
  | faulting => exact ⟨_, rfl⟩
  | faultAlready => exact ⟨_, rfl⟩
  | faultDisabled => exact ⟨_, rfl⟩

/-- A part fails in a hook of a run while the block is being aborted -/
example :
    let es1 := armed ++ [.step 2 .ok, .step 2 .ok, .call .abort, .step 3 .ok]
    let es2 : List Event := [.step 2 .ok, .step 3 .ok]
    (new.run es1).threads[2]? = some (.rHook true 0 1 0) ∧
    (new.run (es1 ++ .step 2 (.failed "no beam") :: es2)).state = .aborting ∧
    (new.run (es1 ++ .step 2 (.failed "no beam") :: es2 ++ [.step 2 .ok])).state = .fault ∧
    (new.run (es1 ++ .step 2 (.failed "no beam") :: es2 ++ [.step 2 .ok])).message = "no beam" := by decide +kernel

end Verif.Props.RunnableEnds
