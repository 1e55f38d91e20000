import Verif.Props.Context
import Verif.Spec.WaitTime
/-! C114: a wait ends in time, and not before. -/
set_option linter.unusedVariables false
namespace Verif.Props.WaitTime
open Verif Verif.WaitTime Verif.Spec.WaitTime
open Verif.Context (Ctx Wait Op Item Result runWait stepWait Known Inv Track inv_run inv_init)
open Verif.Props.Context (Made)
variable {V : Type}

/-! ### the responses are those of Model/Context -/

/-- what happens, without the time -/
def untimed (t : Timed V) : Ev V → List (Context.Ev V)
  | .elsewhere op => [.elsewhere op]
  | .pass _ => []
  | .turn body raises _ => if t.waiting && !t.ctx.q.isEmpty then [.turn body raises] else []
  | .expire => []

theorem step_untimed (t : Timed V) (ev : Ev V) :
    ((t.step ev).ctx, (t.step ev).wait) = runWait (t.ctx, t.wait) (untimed t ev) := by
  cases ev with
  | elsewhere op => rfl
  | pass d => rfl
  | turn body raises cost =>
    unfold Timed.step untimed
    by_cases h : (t.waiting && !t.ctx.q.isEmpty) = true
    · simp only [h, if_true]; rfl
    · simp only [h]; rfl
  | expire =>
    unfold Timed.step untimed
    dsimp only
    split <;> rfl

theorem run_untimed (t : Timed V) (evs : List (Ev V)) :
    ∃ evs', ((t.run evs).ctx, (t.run evs).wait) = runWait (t.ctx, t.wait) evs' ∧
      ((∀ ev ∈ evs, Sole ev) → ∀ ev ∈ evs', ev.Sole) := by
  induction evs generalizing t with
  | nil => exact ⟨[], rfl, by simp⟩
  | cons ev evs ih =>
    obtain ⟨evs', h1, h2⟩ := ih (t.step ev)
    refine ⟨untimed t ev ++ evs', ?_, ?_⟩
    · show (((t.step ev).run evs).ctx, ((t.step ev).run evs).wait) = _
      rw [h1, step_untimed]
      simp [runWait, List.foldl_append]
    · intro hs e he
      rcases List.mem_append.1 he with he | he
      · have hx := hs ev List.mem_cons_self
        cases ev with
        | elsewhere op => simp only [untimed, List.mem_singleton] at he; subst he; exact hx
        | pass d => simp [untimed] at he
        | turn body raises cost =>
          unfold untimed at he
          dsimp only at he
          split at he
          · simp only [List.mem_singleton] at he; subst he; exact hx
          · simp at he
        | expire => simp [untimed] at he
      · exact h2 (fun x hx => hs x (List.mem_cons_of_mem _ hx)) e he

/-- The operations on the context that a wait comes to -/
theorem runWait_ops (sw : Ctx V × Wait) (evs : List (Context.Ev V)) : ∃ ops, (runWait sw evs).1 = sw.1.run ops := by
  induction evs generalizing sw with
  | nil => exact ⟨[], rfl⟩
  | cons ev evs ih =>
    obtain ⟨ops, h⟩ := ih (stepWait sw ev)
    have h1 : ∃ ops1, (stepWait sw ev).1 = sw.1.run ops1 := by
      cases ev with
      | elsewhere op => exact ⟨[op], rfl⟩
      | turn body raises =>
        show ∃ ops1, (sw.2.turn sw.1 body raises).1 = sw.1.run ops1
        unfold Wait.turn
        split
        · dsimp only
          have hp : sw.1.pop.1 = sw.1.run [.pop] := rfl
          split
          · exact ⟨[.pop], hp⟩
          · exact ⟨[.pop], hp⟩
          · exact ⟨[.pop], hp⟩
          · exact ⟨[.pop], hp⟩
          · split
            · have : sw.1.pop.1.run body = sw.1.run (.pop :: body) := rfl
              split
              · exact ⟨.pop :: body, this⟩
              · exact ⟨.pop :: body, this⟩
            · exact ⟨[.pop], hp⟩
          · exact ⟨[.pop], hp⟩
          · split <;> exact ⟨[.pop], hp⟩
        · exact ⟨[], rfl⟩
    obtain ⟨ops1, h1⟩ := h1
    refine ⟨ops1 ++ ops, ?_⟩
    show (runWait (stepWait sw ev) evs).1 = _
    rw [h, h1]
    simp [Ctx.run, List.foldl_append]

/-! ### not before -/

structure TInv (now0 : Nat) (timeout event : Option Nat) (t : Timed V) : Prop where
  fin : t.fin = timeout.map (now0 + ·)
  ev : t.event = event
  expires : t.expires = deadline t.last t.fin t.event
  early : ∀ n, t.at_ = some n → (∃ T, timeout = some T ∧ now0 + T < n) ∨ (∃ E, event = some E ∧ t.last + E < n)

theorem tinv_start (ctx : Ctx V) (fs : List Nat) (now : Nat) (timeout event : Option Nat) :
    TInv now timeout event (Timed.start ctx fs now timeout event) :=
  ⟨rfl, rfl, rfl, by intro n h; cases h⟩

theorem deadline_past {now n : Nat} {fin event : Option Nat} (h : ∃ u, deadline now fin event = some u ∧ u < n) :
    (∃ f, fin = some f ∧ f < n) ∨ (∃ e, event = some e ∧ now + e < n) := by
  obtain ⟨u, h1, h2⟩ := h
  unfold deadline at h1
  cases event with
  | none => exact .inl ⟨u, h1, h2⟩
  | some e =>
    cases fin with
    | none => simp only [Option.some.injEq] at h1; subst h1; exact .inr ⟨e, rfl, h2⟩
    | some f =>
      simp only [Option.some.injEq] at h1; subst h1
      rcases Nat.le_total (now + e) f with hle | hle
      · rw [Nat.min_eq_left hle] at h2; exact .inr ⟨e, rfl, h2⟩
      · rw [Nat.min_eq_right hle] at h2; exact .inl ⟨f, rfl, h2⟩

theorem tinv_step {now0 : Nat} {timeout event : Option Nat} {t : Timed V} (h : TInv now0 timeout event t) (ev : Ev V) :
    TInv now0 timeout event (t.step ev) := by
  cases ev with
  | elsewhere op => exact ⟨h.fin, h.ev, h.expires, h.early⟩
  | pass d => exact ⟨h.fin, h.ev, h.expires, h.early⟩
  | turn body raises cost =>
    unfold Timed.step
    dsimp only
    split
    · rename_i hw
      refine ⟨h.fin, h.ev, rfl, ?_⟩
      intro n hn
      simp only [Timed.waiting, Bool.and_eq_true] at hw
      rw [show t.at_ = some n from hn] at hw
      simp at hw
    · exact h
  | expire =>
    unfold Timed.step
    dsimp only
    split
    · rename_i hw
      refine ⟨h.fin, h.ev, h.expires, ?_⟩
      intro n hn
      simp only [Option.some.injEq] at hn
      subst hn
      simp only [Bool.and_eq_true, expired] at hw
      cases he : t.expires with
      | none => rw [he] at hw; simp at hw
      | some u =>
        rw [he] at hw
        have hu := of_decide_eq_true hw.2.2
        rcases deadline_past ⟨u, by rw [← h.expires]; exact he, hu⟩ with ⟨f, h1, h2⟩ | ⟨e, h1, h2⟩
        · left
          rw [h.fin] at h1
          cases timeout with
          | none => cases h1
          | some T => simp only [Option.map_some, Option.some.injEq] at h1; exact ⟨T, rfl, by omega⟩
        · right
          rw [h.ev] at h1
          exact ⟨e, h1, h2⟩
    · exact h

theorem tinv_run {now0 : Nat} {timeout event : Option Nat} {t : Timed V} (h : TInv now0 timeout event t) (evs : List (Ev V)) :
    TInv now0 timeout event (t.run evs) := by
  induction evs generalizing t with
  | nil => exact h
  | cons ev evs ih => exact ih (tinv_step h ev)

/-- C114: TimeoutError is not raised before its time: if it is raised then the total time given is over, or nothing has been dealt with for the time
given between responses. -/
theorem never_early (ctx : Ctx V) (fs : List Nat) (now : Nat) (timeout event : Option Nat) (evs : List (Ev V)) (n : Nat)
    (h : ((Timed.start ctx fs now timeout event).run evs).at_ = some n) :
    (∃ T, timeout = some T ∧ now + T < n) ∨
    (∃ E, event = some E ∧ ((Timed.start ctx fs now timeout event).run evs).last + E < n) :=
  (tinv_run (tinv_start ctx fs now timeout event) evs).early n h

/-! ### nothing that came in time is missed -/

/-- TimeoutError was raised with nothing in the queue, by a wait that had not ended -/
theorem timed_out_split (t : Timed V) (evs : List (Ev V)) (n : Nat) (h0 : t.at_ = none) (h : (t.run evs).at_ = some n) :
    ∃ evs1 evs2, evs = evs1 ++ .expire :: evs2 ∧ (t.run evs1).waiting = true ∧ (t.run evs1).ctx.q = [] ∧ (t.run evs1).now = n := by
  induction evs generalizing t with
  | nil => rw [show t.run [] = t from rfl, h0] at h; cases h
  | cons ev evs ih =>
    by_cases hs : (t.step ev).at_ = none
    · obtain ⟨evs1, evs2, h1, h2⟩ := ih (t.step ev) hs h
      exact ⟨ev :: evs1, evs2, by rw [h1]; rfl, h2⟩
    · cases ev with
      | elsewhere op => exact absurd h0 hs
      | pass d => exact absurd h0 hs
      | turn body raises cost =>
        unfold Timed.step at hs
        dsimp only at hs
        split at hs <;> exact absurd h0 hs
      | expire =>
        have hx : (t.waiting && expired t.ctx.q t.expires t.now) = true := by
          unfold Timed.step at hs
          dsimp only at hs
          split at hs
          · assumption
          · exact absurd h0 hs
        have hn : (t.step .expire).at_ = some t.now := by
          unfold Timed.step
          simp only [hx, if_true]
        have hk : ∀ (s : Timed V) (l : List (Ev V)) m, s.at_ = some m → (s.run l).at_ = some m := by
          intro s l
          induction l generalizing s with
          | nil => intro m hm; exact hm
          | cons e l ihl =>
            intro m hm
            refine ihl _ m ?_
            have hw : s.waiting = false := by simp [Timed.waiting, hm]
            cases e with
            | elsewhere op => exact hm
            | pass d => exact hm
            | turn body raises cost => unfold Timed.step; simp only [hw, Bool.false_and]; exact hm
            | expire => unfold Timed.step; simp only [hw, Bool.false_and]; exact hm
        have := hk _ evs _ hn
        have hnn : t.now = n := by
          have h' : ((t.step .expire).run evs).at_ = some n := h
          rw [this] at h'
          simpa using h'
        simp only [Bool.and_eq_true, expired, List.isEmpty_iff] at hx
        exact ⟨[], evs, rfl, hx.1, hx.2.1, hnn⟩

/-- C114, in part: if TimeoutError is raised then one of the futures is not done, and no response to it was in the queue when the wait started
or has been put there since: whatever came before the time was up has been seen. Missing: waits inside callbacks or of other threads on the
same context, and the same future given twice, for which it is false (C18). -/
theorem timed_out_missing_partial (before : List (Op V)) (fs : List Nat) (now : Nat) (timeout event : Option Nat) (evs : List (Ev V))
    (hk : ∀ f ∈ fs, Made (Ctx.run {} before) f) (hs : ∀ ev ∈ evs, Sole ev) (hd : fs.Nodup) (n : Nat)
    (h : ((Timed.start (Ctx.run {} before) fs now timeout event).run evs).at_ = some n) :
    ∃ evs1 evs2, evs = evs1 ++ .expire :: evs2 ∧ ((Timed.start (Ctx.run {} before) fs now timeout event).run evs1).now = n ∧
      ∃ f ∈ fs, Dict.get? ((Timed.start (Ctx.run {} before) fs now timeout event).run evs1).ctx.results f = none ∧
        ∀ x ∈ Arrived (Ctx.run {} before) ((Timed.start (Ctx.run {} before) fs now timeout event).run evs1).ctx, ¬ Answers f x := by
  obtain ⟨evs1, evs2, h1, h2, h3, h4⟩ := timed_out_split _ evs n rfl h
  refine ⟨evs1, evs2, h1, h4, ?_⟩
  obtain ⟨evs', h5, h6⟩ := run_untimed (Timed.start (Ctx.run {} before) fs now timeout event) evs1
  have hsole := h6 (fun ev hev => hs ev (by rw [h1]; exact List.mem_append_left _ hev))
  have hctx := congrArg Prod.fst h5
  have hwait := congrArg Prod.snd h5
  dsimp only [Timed.start] at hctx hwait h5
  have hend : (runWait (Ctx.run ({} : Ctx V) before, Wait.start (Ctx.run {} before) fs) evs').2.ended = none := by
    rw [← hwait]
    simp only [Timed.waiting, Bool.and_eq_true, Option.isNone_iff_eq_none] at h2
    exact h2.1
  obtain ⟨f, hf, hr⟩ := Props.Context.wait_waits_for_something_partial before fs evs' hk hsole hd hend
  rw [← hctx] at hr
  refine ⟨f, hf, hr, ?_⟩
  obtain ⟨ops, hops⟩ := runWait_ops (Ctx.run ({} : Ctx V) before, Wait.start (Ctx.run {} before) fs) evs'
  rw [← hctx] at hops
  -- the future was not done when the wait started
  have hi : Inv (Ctx.run ({} : Ctx V) before) := inv_run inv_init before
  have hn0 : Dict.get? (Ctx.run ({} : Ctx V) before).results f = none := by
    cases hg : Dict.get? (Ctx.run ({} : Ctx V) before).results f with
    | none => rfl
    | some r =>
      have := Context.results_run hi ops f r hg
      rw [← hops] at this
      exact absurd (this.symm.trans hr) (by simp)
  have htr : Track f (Ctx.run ({} : Ctx V) before).popped.length (Ctx.run ({} : Ctx V) before) := by
    refine ⟨Nat.le_refl _, ?_, ?_⟩
    · rw [List.drop_length, hn0]; rfl
    · intro _
      rcases hk f hf with hk | hk
      · exact hk
      · rw [Context.mem_keys_iff'] at hk; exact absurd hn0 hk
  have ht := Context.track_run htr hi ops
  rw [← hops] at ht
  intro x hx
  unfold Arrived at hx
  have hq : ((Timed.start (Ctx.run {} before) fs now timeout event).run evs1).ctx.q = [] := h3
  rw [hq, List.append_nil] at hx
  have hres := ht.res
  have key : ∀ l : List (Item V), Context.firstSettled f l = none → ∀ y ∈ l, ¬ Answers f y := by
    intro l
    induction l with
    | nil => intro _ y hy; cases hy
    | cons z l ih =>
      intro hl y hy
      unfold Context.firstSettled at hl
      cases hz : z.settles f with
      | some r => rw [hz] at hl; cases hl
      | none =>
        rw [hz] at hl
        rcases List.mem_cons.1 hy with rfl | hy
        · cases y with
          | ret i v => intro (hc : i = f); simp [Context.Item.settles, hc] at hz
          | error i e => intro (hc : i = f); simp [Context.Item.settles, hc] at hz
          | _ => exact fun hc => hc
        · exact ih hl y hy
  exact key _ (hres.symm.trans hr) x hx

/-! ### in time -/

structure Late (now0 T c : Nat) (t : Timed V) : Prop where
  fin : t.fin = some (now0 + T)
  expires : ∃ u, t.expires = some u ∧ u ≤ now0 + T
  now : t.waiting = true → t.now ≤ now0 + T + 1 + c
  at_ : ∀ n, t.at_ = some n → n ≤ now0 + T + 1 + c

theorem deadline_le (now f : Nat) (event : Option Nat) : ∃ u, deadline now (some f) event = some u ∧ u ≤ f := by
  unfold deadline
  cases event with
  | none => exact ⟨f, rfl, Nat.le_refl _⟩
  | some e => exact ⟨_, rfl, Nat.min_le_right _ _⟩

theorem late_step {now0 T c : Nat} {t : Timed V} (h : Late now0 T c t) (ev : Ev V)
    (hp : ∀ d, ev = .pass d → Prompt t.waiting t.ctx.q t.expires t.now d) :
    Late now0 T (c + callbacks [ev]) (t.step ev) := by
  cases ev with
  | elsewhere op => exact ⟨h.fin, h.expires, h.now, h.at_⟩
  | pass d =>
    refine ⟨h.fin, h.expires, ?_, h.at_⟩
    intro hw
    obtain ⟨u, hu, hle⟩ := h.expires
    have h1 := (hp d rfl hw).2 u hu
    have h2 := h.now hw
    show t.now + d ≤ _
    simp only [callbacks]
    omega
  | turn body raises cost =>
    unfold Timed.step
    dsimp only
    split
    · rename_i hw
      simp only [Bool.and_eq_true] at hw
      have h1 := h.now hw.1
      refine ⟨h.fin, ?_, ?_, ?_⟩
      · show ∃ u, deadline _ t.fin _ = some u ∧ _
        rw [h.fin]; exact deadline_le _ _ _
      · intro _
        show t.now + cost ≤ _
        simp only [callbacks]; omega
      · intro n hn
        have := h.at_ n hn
        simp only [callbacks]; omega
    · refine ⟨h.fin, h.expires, fun hw => ?_, fun n hn => ?_⟩
      · have := h.now hw; simp only [callbacks]; omega
      · have := h.at_ n hn; simp only [callbacks]; omega
  | expire =>
    unfold Timed.step
    dsimp only
    split
    · rename_i hw
      simp only [Bool.and_eq_true] at hw
      have h1 := h.now hw.1
      refine ⟨h.fin, h.expires, ?_, ?_⟩
      · intro hc; simp [Timed.waiting] at hc
      · intro n hn
        simp only [Option.some.injEq] at hn
        subst hn
        exact h1
    · exact ⟨h.fin, h.expires, h.now, h.at_⟩

theorem callbacks_cons (ev : Ev V) (evs : List (Ev V)) : callbacks (ev :: evs) = callbacks [ev] + callbacks evs := by
  cases ev <;> simp [callbacks]

theorem late_run {now0 T c : Nat} {t : Timed V} (h : Late now0 T c t) (evs : List (Ev V)) (hp : PromptWait t evs) :
    Late now0 T (c + callbacks evs) (t.run evs) := by
  induction evs generalizing t c with
  | nil => exact h
  | cons ev evs ih =>
    have := ih (late_step h ev hp.1) hp.2
    rw [callbacks_cons, ← Nat.add_assoc]
    exact this

/-- C114, in part: if the thread is woken promptly then a wait with a total time goes on, or raises TimeoutError, no later than a tick after
that time, apart from the time that callbacks take. Missing: callbacks that take time, which can keep it going for ever (`never_ends`). -/
theorem in_time_partial (ctx : Ctx V) (fs : List Nat) (now T : Nat) (event : Option Nat) (evs : List (Ev V))
    (hp : PromptWait (Timed.start ctx fs now (some T) event) evs) :
    (((Timed.start ctx fs now (some T) event).run evs).waiting = true →
      ((Timed.start ctx fs now (some T) event).run evs).now ≤ now + T + 1 + callbacks evs) ∧
    ∀ n, ((Timed.start ctx fs now (some T) event).run evs).at_ = some n → n ≤ now + T + 1 + callbacks evs := by
  have h0 : Late now T 0 (Timed.start ctx fs now (some T) event) := by
    refine ⟨rfl, deadline_le _ _ _, fun _ => ?_, ?_⟩
    · show now ≤ _; omega
    · intro n hn; cases hn
  have := late_run h0 evs hp
  rw [Nat.zero_add] at this
  exact ⟨this.now, this.at_⟩

structure Quiet (E : Nat) (t : Timed V) : Prop where
  event : t.event = some E
  expires : ∃ u, t.expires = some u ∧ u ≤ t.last + E
  now : t.waiting = true → t.now ≤ t.last + E + 1
  at_ : ∀ n, t.at_ = some n → n ≤ t.last + E + 1

theorem deadline_event (now E : Nat) (fin : Option Nat) : ∃ u, deadline now fin (some E) = some u ∧ u ≤ now + E := by
  unfold deadline
  cases fin with
  | none => exact ⟨_, rfl, Nat.le_refl _⟩
  | some f => exact ⟨_, rfl, Nat.min_le_left _ _⟩

theorem quiet_step {E : Nat} {t : Timed V} (h : Quiet E t) (ev : Ev V)
    (hp : ∀ d, ev = .pass d → Prompt t.waiting t.ctx.q t.expires t.now d) : Quiet E (t.step ev) := by
  cases ev with
  | elsewhere op => exact ⟨h.event, h.expires, h.now, h.at_⟩
  | pass d =>
    refine ⟨h.event, h.expires, ?_, h.at_⟩
    intro hw
    obtain ⟨u, hu, hle⟩ := h.expires
    have h1 := (hp d rfl hw).2 u hu
    have h2 := h.now hw
    show t.now + d ≤ t.last + E + 1
    omega
  | turn body raises cost =>
    unfold Timed.step
    dsimp only
    split
    · rename_i hw
      refine ⟨h.event, ?_, ?_, ?_⟩
      · show ∃ u, deadline _ _ t.event = some u ∧ _
        rw [h.event]; exact deadline_event _ _ _
      · intro _
        show t.now + cost ≤ t.now + cost + E + 1
        omega
      · intro n hn
        simp only [Timed.waiting, Bool.and_eq_true] at hw
        rw [show t.at_ = some n from hn] at hw
        simp at hw
    · exact h
  | expire =>
    unfold Timed.step
    dsimp only
    split
    · rename_i hw
      simp only [Bool.and_eq_true] at hw
      have h1 := h.now hw.1
      refine ⟨h.event, h.expires, ?_, ?_⟩
      · intro hc; simp [Timed.waiting] at hc
      · intro n hn
        simp only [Option.some.injEq] at hn
        subst hn
        exact h1
    · exact h

/-- C114: if the thread is woken promptly then a wait with a time between responses ends a tick after that time has passed since the last response
was dealt with. -/
theorem quiet_in_time (ctx : Ctx V) (fs : List Nat) (now E : Nat) (timeout : Option Nat) (evs : List (Ev V))
    (hp : PromptWait (Timed.start ctx fs now timeout (some E)) evs) :
    (((Timed.start ctx fs now timeout (some E)).run evs).waiting = true →
      ((Timed.start ctx fs now timeout (some E)).run evs).now ≤ ((Timed.start ctx fs now timeout (some E)).run evs).last + E + 1) ∧
    ∀ n, ((Timed.start ctx fs now timeout (some E)).run evs).at_ = some n →
      n ≤ ((Timed.start ctx fs now timeout (some E)).run evs).last + E + 1 := by
  have h0 : Quiet E (Timed.start ctx fs now timeout (some E)) := by
    refine ⟨rfl, deadline_event _ _ _, fun _ => ?_, ?_⟩
    · show now ≤ now + E + 1; omega
    · intro n hn; cases hn
  have key : ∀ (evs : List (Ev V)) (t : Timed V), Quiet E t → PromptWait t evs → Quiet E (t.run evs) := by
    intro evs
    induction evs with
    | nil => intro t h _; exact h
    | cons ev evs ih => intro t h hp; exact ih _ (quiet_step h ev hp.1) hp.2
  have := key evs _ h0 hp
  exact ⟨this.now, this.at_⟩

/-- C114: once the total time is over, or the time between responses, a wait that has nothing in its queue raises TimeoutError when it is woken. -/
theorem wakes (ctx : Ctx V) (fs : List Nat) (now : Nat) (timeout event : Option Nat) (evs : List (Ev V))
    (hw : ((Timed.start ctx fs now timeout event).run evs).waiting = true) (hq : ((Timed.start ctx fs now timeout event).run evs).ctx.q = [])
    (h : (∃ T, timeout = some T ∧ now + T < ((Timed.start ctx fs now timeout event).run evs).now) ∨
      (∃ E, event = some E ∧ ((Timed.start ctx fs now timeout event).run evs).last + E < ((Timed.start ctx fs now timeout event).run evs).now)) :
    ((Timed.start ctx fs now timeout event).run (evs ++ [.expire])).at_ = some ((Timed.start ctx fs now timeout event).run evs).now := by
  have hi := tinv_run (tinv_start ctx fs now timeout event) evs
  have hr : (Timed.start ctx fs now timeout event).run (evs ++ [.expire]) = ((Timed.start ctx fs now timeout event).run evs).step .expire := by
    simp [Timed.run, List.foldl_append]
  rw [hr]
  generalize (Timed.start ctx fs now timeout event).run evs = t at *
  have hu : ∃ u, t.expires = some u ∧ u < t.now := by
    rw [hi.expires, hi.fin, hi.ev]
    unfold deadline
    rcases h with ⟨T, rfl, hT⟩ | ⟨E, rfl, hE⟩
    · cases event with
      | none => exact ⟨_, rfl, hT⟩
      | some e =>
        refine ⟨_, rfl, ?_⟩
        exact Nat.lt_of_le_of_lt (Nat.min_le_right _ _) hT
    · cases timeout with
      | none => exact ⟨_, rfl, hE⟩
      | some T =>
        refine ⟨_, rfl, ?_⟩
        exact Nat.lt_of_le_of_lt (Nat.min_le_left _ _) hE
  obtain ⟨u, hu, hlt⟩ := hu
  unfold Timed.step
  simp [hw, expired, hq, hu, hlt]

-- a Put that is waited for 5 ticks and answered after 3, and one that is not answered; a second wait then gets the answer
example :
    let s := Ctx.run ({} : Ctx Nat) [.request false]
    ((Timed.start s [1] 10 (some 5) none).run [.pass 3, .elsewhere (.ret 1 7), .turn [] false 0]).wait.ended = some .returned ∧
    ((Timed.start s [1] 10 (some 5) none).run [.pass 5, .expire, .pass 1, .expire, .elsewhere (.ret 1 7), .turn [] false 0]).at_ = some 16 ∧
    ((Timed.start ((Timed.start s [1] 10 (some 5) none).run [.pass 6, .expire, .elsewhere (.ret 1 7)]).ctx [1] 20 (some 5) none).run
      [.turn [] false 0]).wait.ended = some .returned := by decide

/-- the callback takes a tick, and meanwhile there is another update -/
def busyTurn : Ev Nat := .turn [.update 1 0] false 1

theorem busy_run (n : Nat) (t : Timed Nat) (h1 : t.ctx.q = [.update 1 0]) (h2 : t.ctx.subs = [1]) (h3 : t.wait = { futures := [2] })
    (h4 : t.ctx.requests = [(1, true), (2, false)]) (h5 : t.at_ = none) :
    PromptWait t (List.replicate n busyTurn) ∧ (t.run (List.replicate n busyTurn)).waiting = true ∧
    (t.run (List.replicate n busyTurn)).now = t.now + n := by
  induction n generalizing t with
  | zero =>
    refine ⟨trivial, ?_, rfl⟩
    show t.waiting = true
    simp [Timed.waiting, h3, h5]
  | succ n ih =>
    have hw : t.waiting = true := by simp [Timed.waiting, h3, h5]
    have hs : t.step busyTurn = { t with
        ctx := ((t.ctx.pop).1.run [.update 1 0]), now := t.now + 1, last := t.now + 1,
        expires := deadline (t.now + 1) t.fin t.event } := by
      unfold Timed.step busyTurn
      simp only [hw, h1, List.isEmpty_cons, Bool.not_false, Bool.and_self, if_true]
      have ht : t.wait.turn t.ctx [.update 1 0] false = ((t.ctx.pop).1.run [.update 1 0], t.wait) := by
        rw [h3]
        unfold Wait.turn
        simp only [if_true]
        have hp : t.ctx.pop.2 = .update 1 0 := by
          unfold Ctx.pop; rw [h1]; simp [h2]
        rw [hp]
        simp only [h2, List.mem_singleton, if_true]
        have hr : (t.ctx.pop.1.run [.update 1 0]).requests = [(1, true), (2, false)] := by
          unfold Ctx.pop; rw [h1]; simp [h2, h4, Ctx.run, Ctx.step]
        rw [hr]
        rfl
      rw [ht]
    obtain ⟨a, b, c⟩ := ih (t.step busyTurn)
      (by rw [hs]; show (t.ctx.pop.1.run [.update 1 0]).q = _; unfold Ctx.pop; rw [h1]; simp [h2, Ctx.run, Ctx.step])
      (by rw [hs]; show (t.ctx.pop.1.run [.update 1 0]).subs = _; unfold Ctx.pop; rw [h1]; simp [h2, Ctx.run, Ctx.step])
      (by rw [hs]; exact h3)
      (by rw [hs]; show (t.ctx.pop.1.run [.update 1 0]).requests = _; unfold Ctx.pop; rw [h1]; simp [h2, h4, Ctx.run, Ctx.step])
      (by rw [hs]; exact h5)
    refine ⟨⟨(by intro d hd; cases hd), a⟩, b, ?_⟩
    show ((t.step busyTurn).run (List.replicate n busyTurn)).now = _
    rw [c, hs]
    show t.now + 1 + n = _
    omega

/-- Disagreement with C114: a wait for at most one tick that goes on for ever: a subscription on the same context is updated while its callback
deals with the update before, so that there is always something in the queue, and the time is only looked at when there is nothing. -/
theorem never_ends (n : Nat) :
    ∃ evs : List (Ev Nat), PromptWait (Timed.start (Ctx.run ({} : Ctx Nat) [.request true, .request false, .update 1 0]) [2] 0 (some 1) none) evs ∧
      (∀ ev ∈ evs, Sole ev) ∧
      ((Timed.start (Ctx.run ({} : Ctx Nat) [.request true, .request false, .update 1 0]) [2] 0 (some 1) none).run evs).waiting = true ∧
      n ≤ ((Timed.start (Ctx.run ({} : Ctx Nat) [.request true, .request false, .update 1 0]) [2] 0 (some 1) none).run evs).now := by
  obtain ⟨a, b, c⟩ := busy_run n (Timed.start (Ctx.run ({} : Ctx Nat) [.request true, .request false, .update 1 0]) [2] 0 (some 1) none)
    (by decide) (by decide) (by decide) (by decide) (by decide)
  refine ⟨List.replicate n busyTurn, a, ?_, b, ?_⟩
  · intro ev hev
    rw [List.mem_replicate] at hev
    rw [hev.2]
    intro op hop
    simp only [List.mem_singleton] at hop
    subst hop
    simp
  · rw [c]; exact Nat.le_add_left _ _

/-! ### Future.result and Future.exception -/

/-- C114: whatever happens, if `result` returns a value then the call that the future stands for returned it; if it raises the exception of a call
then it is that of this one; it never returns without a result. -/
theorem result_own (before : List (Op V)) (f now : Nat) (timeout : Option Nat) (evs : List (Ev V)) (hk : Made (Ctx.run {} before) f) :
    (∀ v, callResult (Ctx.run {} before) f now timeout evs = some (.value v) →
      Dict.get? ((Timed.start (Ctx.run {} before) [f] now timeout none).run evs).ctx.results f = some (.value v)) ∧
    (∀ e, callResult (Ctx.run {} before) f now timeout evs = some (.raised e) →
      Dict.get? ((Timed.start (Ctx.run {} before) [f] now timeout none).run evs).ctx.results f = some (.exc e)) ∧
    callResult (Ctx.run {} before) f now timeout evs ≠ some .nothing := by
  obtain ⟨evs', h5, _⟩ := run_untimed (Timed.start (Ctx.run {} before) [f] now timeout none) evs
  have hctx : ((Timed.start (Ctx.run {} before) [f] now timeout none).run evs).ctx =
      (runWait (Ctx.run ({} : Ctx V) before, Wait.start (Ctx.run {} before) [f]) evs').1 := congrArg Prod.fst h5
  have hwait : ((Timed.start (Ctx.run {} before) [f] now timeout none).run evs).wait =
      (runWait (Ctx.run ({} : Ctx V) before, Wait.start (Ctx.run {} before) [f]) evs').2 := congrArg Prod.snd h5
  clear h5
  have hk' : ∀ g ∈ [f], Made (Ctx.run ({} : Ctx V) before) g := by intro g hg; simp only [List.mem_singleton] at hg; subst hg; exact hk
  obtain ⟨ops, hops⟩ := runWait_ops (Ctx.run ({} : Ctx V) before, Wait.start (Ctx.run {} before) [f]) evs'
  have hret := Props.Context.wait_returns_when_done before [f] evs' hk'
  have hfail := Props.Context.wait_raises_own_error before [f] evs' hk'
  rw [← hctx] at hops hret hfail
  rw [← hwait] at hret hfail
  unfold callResult
  dsimp only
  generalize (Timed.start (Ctx.run {} before) [f] now timeout none).run evs = t at *
  by_cases hd : (Dict.get? (Ctx.run ({} : Ctx V) before).results f).isSome
  · rw [if_pos hd]
    cases hr : Dict.get? (Ctx.run ({} : Ctx V) before).results f with
    | none => rw [hr] at hd; cases hd
    | some r =>
      have hl := Context.results_run (inv_run inv_init before) ops f r hr
      rw [← hops] at hl
      unfold getResult
      rw [hr]
      rw [hl]
      cases r with
      | value v => simp
      | exc e => simp
  · rw [if_neg hd]
    split
    · simp
    · rename_i hw
      cases hat : t.at_ with
      | some n => simp [Timed.raises, hat]
      | none =>
        cases hen : t.wait.ended with
        | none => simp [Timed.waiting, hat, hen] at hw
        | some en =>
          simp only [Timed.raises, hat, hen]
          cases en with
          | returned =>
            obtain ⟨r, hr⟩ := hret hen f (by simp)
            simp only [getResult, hr]
            cases r <;> simp
          | aborted => simp
          | keyError => simp
          | callbackRaised => simp
          | failed g e =>
            have := hfail g e hen
            simp only [List.mem_singleton] at this
            obtain ⟨hg, h2⟩ := this
            subst hg
            refine ⟨by simp, ?_, by simp⟩
            intro e' he
            simp only [Option.some.injEq, Outcome.raised.injEq] at he
            rw [h2, he]

/-- C114, in part: `exception` of a future that is done gives its exception, or None if there is none. Missing: a future that is not done, for which
it is false (`exception_raises`). -/
theorem exception_done_partial (before : List (Op V)) (f now : Nat) (timeout : Option Nat) (evs : List (Ev V)) :
    (∀ e, Dict.get? (Ctx.run ({} : Ctx V) before).results f = some (.exc e) →
      callException (Ctx.run {} before) f now timeout evs = some (.gives e)) ∧
    (∀ v, Dict.get? (Ctx.run ({} : Ctx V) before).results f = some (.value v) →
      callException (Ctx.run {} before) f now timeout evs = some .nothing) := by
  constructor <;> (intro x h; unfold callException; rw [h]; unfold getException; rw [h]; rfl)

/-- Disagreement with C114: called while the call goes on, `exception` never returns the exception (unless somebody else took the response): if
it returns then the call has succeeded. -/
theorem exception_never_given (before : List (Op V)) (f now : Nat) (timeout : Option Nat) (evs : List (Ev V)) (hk : Made (Ctx.run {} before) f)
    (hn : Dict.get? (Ctx.run ({} : Ctx V) before).results f = none) (hs : ∀ ev ∈ evs, Sole ev) (e : Nat) :
    callException (Ctx.run {} before) f now timeout evs ≠ some (.gives e) := by
  obtain ⟨evs', h5, h6⟩ := run_untimed (Timed.start (Ctx.run {} before) [f] now timeout none) evs
  have hctx : ((Timed.start (Ctx.run {} before) [f] now timeout none).run evs).ctx =
      (runWait (Ctx.run ({} : Ctx V) before, Wait.start (Ctx.run {} before) [f]) evs').1 := congrArg Prod.fst h5
  have hwait : ((Timed.start (Ctx.run {} before) [f] now timeout none).run evs).wait =
      (runWait (Ctx.run ({} : Ctx V) before, Wait.start (Ctx.run {} before) [f]) evs').2 := congrArg Prod.snd h5
  clear h5
  have hk' : ∀ g ∈ [f], Made (Ctx.run ({} : Ctx V) before) g := by intro g hg; simp only [List.mem_singleton] at hg; subst hg; exact hk
  have hret := Props.Context.wait_returned_none_failed_partial before [f] evs' hk' (h6 hs)
  rw [← hctx, ← hwait] at hret
  unfold callException
  rw [hn]
  dsimp only [Option.isSome]
  rw [if_neg (by simp)]
  generalize (Timed.start (Ctx.run {} before) [f] now timeout none).run evs = t at *
  split
  · simp
  · rename_i hw
    cases hat : t.at_ with
    | some n => simp [Timed.raises, hat]
    | none =>
      cases hen : t.wait.ended with
      | none => simp [Timed.waiting, hat, hen] at hw
      | some en =>
        simp only [Timed.raises, hat, hen]
        cases en with
        | returned =>
          obtain ⟨v, hr⟩ := hret hen f (by simp)
          simp only [getException, hr]
          simp
        | aborted => simp
        | keyError => simp
        | callbackRaised => simp
        | failed g e => simp

/-- Disagreement with C114: the documentation says that `exception` returns the exception of the call; it raises it. -/
theorem exception_raises :
    callException (Ctx.run ({} : Ctx Nat) [.request false]) 1 0 none [.elsewhere (.error 1 7), .turn [] false 0] = some (.raised 7) := by
  decide

example :
    callResult (Ctx.run ({} : Ctx Nat) [.request false]) 1 0 (some 5) [.elsewhere (.ret 1 7), .turn [] false 0] = some (.value 7) ∧
    callResult (Ctx.run ({} : Ctx Nat) [.request false]) 1 0 (some 5) [.elsewhere (.error 1 7), .turn [] false 0] = some (.raised 7) ∧
    callResult (Ctx.run ({} : Ctx Nat) [.request false]) 1 0 (some 5) [.pass 6, .expire] = some .timeout ∧
    callException (Ctx.run ({} : Ctx Nat) [.request false, .error 1 7, .pop]) 1 0 (some 5) [] = some (.gives 7) := by decide

/-! ### sleep -/

/-- The callback does not raise TimeoutError -/
def NoTimeouts : SEv V → Prop
  | .turn _ raises _ => raises ≠ some .timeoutError
  | _ => True

structure SlInv (start seconds : Nat) (t : Sleep V) : Prop where
  expires : t.expires = start + seconds
  slept : ∀ n, t.ended = some (.slept, n) → start + seconds < n

theorem slinv_step {start seconds : Nat} {t : Sleep V} (h : SlInv start seconds t) (ev : SEv V) (hn : NoTimeouts ev) :
    SlInv start seconds (t.step ev) := by
  cases ev with
  | elsewhere op => exact ⟨h.expires, h.slept⟩
  | pass d => exact ⟨h.expires, h.slept⟩
  | turn body raises cost =>
    unfold Sleep.step
    dsimp only
    split
    · rename_i hw
      simp only [Bool.and_eq_true, Option.isNone_iff_eq_none] at hw
      have hno : ∀ n, t.ended = some (.slept, n) → start + seconds < n := h.slept
      split
      · exact ⟨h.expires, by intro n hc; simp at hc⟩
      · exact ⟨h.expires, by intro n hc; simp at hc⟩
      · split
        · split
          · exact absurd rfl hn
          · exact ⟨h.expires, by intro n hc; simp at hc⟩
          · exact ⟨h.expires, hno⟩
        · exact ⟨h.expires, hno⟩
      · exact ⟨h.expires, hno⟩
    · exact h
  | expire =>
    unfold Sleep.step
    dsimp only
    split
    · rename_i hw
      simp only [Bool.and_eq_true, expired, decide_eq_true_eq] at hw
      refine ⟨h.expires, ?_⟩
      intro n hc
      simp only [Option.some.injEq, Prod.mk.injEq, true_and] at hc
      rw [← hc, ← h.expires]; exact hw.2.2
    · exact h

/-- C114, in part: `sleep` does not return before its time. Missing: callbacks of subscriptions that raise TimeoutError, for which it is false
(`sleep_cut_short`). -/
theorem sleep_long_enough_partial (ctx : Ctx V) (start seconds : Nat) (evs : List (SEv V)) (hn : ∀ ev ∈ evs, NoTimeouts ev) (n : Nat)
    (h : ((Sleep.start ctx start seconds).run evs).ended = some (.slept, n)) : start + seconds < n := by
  have key : ∀ (evs : List (SEv V)) (t : Sleep V), SlInv start seconds t → (∀ ev ∈ evs, NoTimeouts ev) → SlInv start seconds (t.run evs) := by
    intro evs
    induction evs with
    | nil => intro t h _; exact h
    | cons ev evs ih =>
      intro t h hn
      exact ih _ (slinv_step h ev (hn ev List.mem_cons_self)) (fun e he => hn e (List.mem_cons_of_mem _ he))
  exact (key evs (Sleep.start ctx start seconds) ⟨rfl, by intro n hc; cases hc⟩ hn).slept n h

structure SLate (start seconds c : Nat) (t : Sleep V) : Prop where
  expires : t.expires = start + seconds
  now : t.ended = none → t.now ≤ start + seconds + 1 + c
  ended : ∀ w n, t.ended = some (w, n) → n ≤ start + seconds + 1 + c

theorem slate_step {start seconds c : Nat} {t : Sleep V} (h : SLate start seconds c t) (ev : SEv V)
    (hp : ∀ d, ev = .pass d → Prompt t.ended.isNone t.ctx.q (some t.expires) t.now d) :
    SLate start seconds (c + sleepCallbacks [ev]) (t.step ev) := by
  cases ev with
  | elsewhere op => exact ⟨h.expires, h.now, h.ended⟩
  | pass d =>
    refine ⟨h.expires, ?_, h.ended⟩
    intro hw
    have hw' : t.ended = none := hw
    have h1 := (hp d rfl (by rw [hw']; rfl)).2 _ rfl
    have h2 := h.now hw'
    have h3 := h.expires
    show t.now + d ≤ _
    simp only [sleepCallbacks]
    omega
  | turn body raises cost =>
    have hc : sleepCallbacks [SEv.turn body raises cost] = cost := by simp [sleepCallbacks]
    rw [hc]
    unfold Sleep.step
    dsimp only
    split
    · rename_i hw
      simp only [Bool.and_eq_true, Option.isNone_iff_eq_none] at hw
      have h1 := h.now hw.1
      have fin : ∀ (s : Ctx V) (w : Woken), SLate start seconds (c + cost) { t with ctx := s, now := t.now + cost, ended := some (w, t.now + cost) } := by
        intro s w
        refine ⟨h.expires, (by intro hx; cases hx), ?_⟩
        intro w' n hn
        simp only [Option.some.injEq, Prod.mk.injEq] at hn
        omega
      have goes : ∀ (s : Ctx V), SLate start seconds (c + cost) { t with ctx := s, now := t.now + cost } := by
        intro s
        refine ⟨h.expires, ?_, ?_⟩
        · intro _; show t.now + cost ≤ _; omega
        · intro w n hn
          rw [show t.ended = some (w, n) from hn] at hw
          simp at hw
      split
      · exact fin _ _
      · exact fin _ _
      · split
        · split
          · exact fin _ _
          · exact fin _ _
          · exact goes _
        · exact goes _
      · exact goes _
    · refine ⟨h.expires, fun hw => ?_, fun w n hn => ?_⟩
      · have := h.now hw; omega
      · have := h.ended w n hn; omega
  | expire =>
    unfold Sleep.step
    dsimp only
    split
    · rename_i hw
      simp only [Bool.and_eq_true, Option.isNone_iff_eq_none] at hw
      have h1 := h.now hw.1
      refine ⟨h.expires, (by intro hx; cases hx), ?_⟩
      intro w n hn
      simp only [Option.some.injEq, Prod.mk.injEq] at hn
      rw [← hn.2]
      exact h1
    · exact ⟨h.expires, h.now, h.ended⟩

theorem sleepCallbacks_cons (ev : SEv V) (evs : List (SEv V)) : sleepCallbacks (ev :: evs) = sleepCallbacks [ev] + sleepCallbacks evs := by
  cases ev <;> simp [sleepCallbacks]

/-- C114, in part: if the thread is woken promptly then `sleep` goes on no longer than a tick after its time, apart from the time that callbacks take. -/
theorem sleep_in_time_partial (ctx : Ctx V) (start seconds : Nat) (evs : List (SEv V)) (hp : PromptSleep (Sleep.start ctx start seconds) evs) :
    (((Sleep.start ctx start seconds).run evs).ended = none →
      ((Sleep.start ctx start seconds).run evs).now ≤ start + seconds + 1 + sleepCallbacks evs) ∧
    ∀ w n, ((Sleep.start ctx start seconds).run evs).ended = some (w, n) → n ≤ start + seconds + 1 + sleepCallbacks evs := by
  have key : ∀ (evs : List (SEv V)) (c : Nat) (t : Sleep V), SLate start seconds c t → PromptSleep t evs →
      SLate start seconds (c + sleepCallbacks evs) (t.run evs) := by
    intro evs
    induction evs with
    | nil => intro c t h _; exact h
    | cons ev evs ih =>
      intro c t h hp
      have := ih _ _ (slate_step h ev hp.1) hp.2
      rw [sleepCallbacks_cons, ← Nat.add_assoc]
      exact this
  have h0 : SLate start seconds 0 (Sleep.start ctx start seconds) := by
    refine ⟨rfl, fun _ => ?_, by intro w n hc; cases hc⟩
    show start ≤ _; omega
  have := key evs 0 _ h0 hp
  rw [Nat.zero_add] at this
  exact ⟨this.now, this.ended⟩

/-- C114: once its time is over, a sleep that has nothing in its queue returns when it is woken. -/
theorem sleep_wakes (ctx : Ctx V) (start seconds : Nat) (evs : List (SEv V))
    (hw : ((Sleep.start ctx start seconds).run evs).ended = none) (hq : ((Sleep.start ctx start seconds).run evs).ctx.q = [])
    (h : start + seconds < ((Sleep.start ctx start seconds).run evs).now) :
    ((Sleep.start ctx start seconds).run (evs ++ [.expire])).ended = some (.slept, ((Sleep.start ctx start seconds).run evs).now) := by
  have hr : (Sleep.start ctx start seconds).run (evs ++ [.expire]) = ((Sleep.start ctx start seconds).run evs).step .expire := by
    simp [Sleep.run, List.foldl_append]
  have he : ∀ (evs : List (SEv V)) (t : Sleep V), (t.run evs).expires = t.expires := by
    intro evs
    induction evs with
    | nil => intro t; rfl
    | cons ev evs ih =>
      intro t
      show ((t.step ev).run evs).expires = _
      rw [ih]
      cases ev with
      | elsewhere op => rfl
      | pass d => rfl
      | turn body raises cost =>
        unfold Sleep.step
        dsimp only
        repeat' split
        all_goals rfl
      | expire => unfold Sleep.step; dsimp only; split <;> rfl
  have hx := he evs (Sleep.start ctx start seconds)
  have hs : (Sleep.start ctx start seconds).expires = start + seconds := rfl
  rw [hs] at hx
  rw [hr]
  generalize (Sleep.start ctx start seconds).run evs = t at *
  unfold Sleep.step
  simp [hw, expired, hq, hx, h]

/-- C114: a stop that is taken during a sleep ends it with AbortedError -/
theorem sleep_stopped (t : Sleep V) (body : List (Op V)) (raises : Option Exn) (cost : Nat) (h : t.ended = none) (hq : t.ctx.q ≠ [])
    (hp : t.ctx.pop.2 = .aborted) : (t.step (.turn body raises cost)).ended = some (.aborted, t.now + cost) := by
  unfold Sleep.step
  have : t.ctx.q.isEmpty = false := by cases hx : t.ctx.q with | nil => exact absurd hx hq | cons a b => rfl
  simp only [h, this, hp]
  simp

/-- Disagreement with C114: a callback that raises TimeoutError, for instance from a wait of its own, ends a sleep of any length at once, and
nobody is told. -/
theorem sleep_cut_short (seconds : Nat) :
    ((Sleep.start (Ctx.run ({} : Ctx Nat) [.request true, .update 1 0]) 0 seconds).run [.turn [] (some .timeoutError) 0]).ended = some (.slept, 0) := by
  rfl

example :
    ((Sleep.start (Ctx.run ({} : Ctx Nat) [.request true, .update 1 0]) 0 3).run
      [.turn [] none 0, .pass 2, .expire, .elsewhere (.update 1 5), .turn [] none 1, .expire, .pass 1, .expire]).ended = some (.slept, 4) ∧
    ((Sleep.start (Ctx.run ({} : Ctx Nat) [.request true, .stop]) 0 3).run [.turn [] none 0]).ended = some (.aborted, 0) := by decide

end Verif.Props.WaitTime
