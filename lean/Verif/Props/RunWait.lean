import Verif.Spec.RunWait
import Verif.Props.RunnableLive
import Verif.Props.RunnableWitness
/-!
C111: a run() that was stopped is told how to go on.
-/
namespace Verif.Props.RunWait
open Verif Verif.Runnable Verif.Spec.Runnable Verif.Spec.RunWait Verif.Props.States Verif.Props.Runnable Verif.Proofs.Runnable
open Verif.Props.RunnableLive

/-! ### The invariant, in numbers -/

/-- A pause that was made in Armed or Finished -/
def pa (p : Pc) : Bool := pausing .armed p

def isAPut : Pc → Bool
  | .aPut => true
  | _ => false

def isSStop : Pc → Bool
  | .sStop => true
  | _ => false

def code : St → Nat
  | .armed => 1
  | .finished => 2
  | .configuring => 3
  | .running => 4
  | .postrun => 5
  | .paused => 6
  | .seeking => 7
  | .aborting => 8
  | _ => 0

/-- `r` runs, `c` configures, `a` pauses made in Armed or Finished, `f` calls about to go to Fault, `ap` aborts and `ss` disables about to
tell a run to end, `b` says that it has been told -/
structure Kn (r c a f ap ss rq b s : Nat) : Prop where
  one : r ≤ 1
  oneC : c ≤ 1
  oneP : a ≤ 1
  rc : c = 0 ∨ r = 0
  fin : s = 1 ∨ s = 2 → r = 0
  pr : a = 0 ∨ r = 0
  pArm : s = 1 ∨ s = 3 → a = 0
  cSt : 1 ≤ s → s ≤ 7 → s ≠ 3 → c = 0
  flt : f = 0 ∨ r = 0 ∨ rq = 0 ∨ b = 1
  rel : r = 0 ∨ rq = 0 ∨ b = 1 ∨ (4 ≤ s ∧ s ≤ 8) ∨ ap > 0 ∨ ss > 0

def told (w : World) : Nat := if false ∈ w.queues w.rq then 1 else 0

def K (w : World) : Prop :=
  Kn (w.threads.countP running) (w.threads.countP configuring) (w.threads.countP pa) (w.threads.countP faulting)
    (w.threads.countP isAPut) (w.threads.countP isSStop) w.rq (told w) (code w.state)

/-- A run() waits on the queue there is -/
def Wt (w : World) : Prop := ∀ f q, Pc.rWait f q ∈ w.threads → q = w.rq ∧ q ≠ 0

theorem count_set {l : List Pc} {i : Nat} {p p1 : Pc} (hi : l[i]? = some p) (f : Pc → Bool) :
    (l.set i p1).countP f + (if f p then 1 else 0) = l.countP f + (if f p1 then 1 else 0) ∧ (f p = true → 1 ≤ l.countP f) := by
  obtain ⟨hlt, he⟩ := List.getElem?_eq_some_iff.1 hi
  have hp : f p = true → 1 ≤ l.countP f := by
    intro h
    exact List.countP_pos_iff.2 ⟨p, List.mem_of_getElem? hi, h⟩
  refine ⟨?_, hp⟩
  rw [List.countP_set hlt, he]
  split
  · rename_i h; have := hp h; omega
  · omega

theorem count_zero {l : List Pc} {i : Nat} {p : Pc} (hi : l[i]? = some p) (f g : Pc → Bool)
    (h : ∀ j, j < l.length → j ≠ i → l[j]?.any f = false) (hg : ∀ q, g q = true → f q = true) (hp : g p = false) :
    l.countP g = 0 := by
  rw [List.countP_eq_zero]
  intro q hq hgq
  obtain ⟨j, hj⟩ := List.mem_iff_getElem?.1 hq
  by_cases hji : j = i
  · subst hji; rw [hi] at hj; cases hj; rw [hp] at hgq; cases hgq
  · have := others h j q hj hji
    rw [hg q hgq] at this
    cases this

theorem put_rq (w : World) (b : Bool) : (w.put b).rq = w.rq := by unfold World.put; split <;> rfl
theorem stopAll_rq (w : World) : w.stopAll.rq = w.rq := by unfold World.stopAll; split <;> rfl
theorem stopAll_queues (w : World) : w.stopAll.queues = w.queues := by unfold World.stopAll; split <;> rfl

theorem told_put_false (w : World) : w.rq = 0 ∨ told (w.put false) = 1 := by
  by_cases h : w.rq = 0
  · exact .inl h
  · right
    unfold told World.put
    simp [h]

theorem told_put_true (w : World) : told (w.put true) = told w := by
  unfold told World.put
  split
  · rfl
  · simp

theorem told_le (w : World) : told w ≤ 1 := by unfold told; split <;> omega

theorem told_setPc (w : World) (i : Nat) (p : Pc) : told (w.setPc i p) = told w := rfl

theorem told_same {w w1 : World} (h1 : w1.rq = w.rq) (h2 : w1.queues = w.queues) : told w1 = told w := by
  unfold told; rw [h1, h2]

/-- from which states a state can be reached -/
theorem from_code {s t : St} (h : t ∈ edges s) :
    (t = .armed → s = .configuring ∨ s = .postrun ∨ s = .seeking) ∧ (t = .finished → s = .postrun ∨ s = .seeking) ∧
    (t = .running → s = .armed ∨ s = .paused) ∧ (t = .postrun → s = .running) ∧ (t = .paused → s = .seeking) ∧
    (t = .configuring → code s ≤ 2) ∧ (t = .seeking → 1 ≤ code s ∧ code s ≤ 6 ∧ code s ≠ 3) ∧
    (t = .resetting → code s ≤ 2) ∧ (t = .saving → code s = 0) ∧ (t = .loading → code s = 0) ∧ (t = .ready → code s = 0) ∧
    (t = .disabled → code s = 0) ∧ (t = .aborted → code s = 8) := by
  cases s <;> cases t <;> simp [edges, code] at h ⊢

/-- a step that leaves the state, the queue and what is told -/
theorem Kn.keep {r c a f ap ss rq b s r' c' a' f' ap' ss' b' : Nat} (k : Kn r c a f ap ss rq b s) (hr : r' ≤ r) (hc : c' ≤ c) (ha : a' ≤ a)
    (hf : f' ≤ f) (hap : ap ≤ ap') (hss : ss ≤ ss') (hb : b = 1 → b' = 1 ∨ r' = 0) : Kn r' c' a' f' ap' ss' rq b' s where
  one := by have := k.one; omega
  oneC := by have := k.oneC; omega
  oneP := by have := k.oneP; omega
  rc := by have := k.rc; omega
  fin := by have := k.fin; omega
  pr := by have := k.pr; omega
  pArm := by have := k.pArm; omega
  cSt := by have := k.cSt; omega
  flt := by have := k.flt; omega
  rel := by have := k.rel; omega

/-- What a step does to the numbers -/
theorem k_of {w w1 : World} {i : Nat} {p p1 : Pc} (hi : w.threads[i]? = some p) (hthr : w1.threads = w.threads) (hk : K w)
    (H : ∀ r c a f ap ss r' c' a' f' ap' ss', Kn r c a f ap ss w.rq (told w) (code w.state) →
      r = w.threads.countP running → c = w.threads.countP configuring → a = w.threads.countP pa → f = w.threads.countP faulting →
      (r' + (if running p then 1 else 0) = r + (if running p1 then 1 else 0) ∧ (running p = true → 1 ≤ r)) →
      (c' + (if configuring p then 1 else 0) = c + (if configuring p1 then 1 else 0) ∧ (configuring p = true → 1 ≤ c)) →
      (a' + (if pa p then 1 else 0) = a + (if pa p1 then 1 else 0) ∧ (pa p = true → 1 ≤ a)) →
      (f' + (if faulting p then 1 else 0) = f + (if faulting p1 then 1 else 0) ∧ (faulting p = true → 1 ≤ f)) →
      (ap' + (if isAPut p then 1 else 0) = ap + (if isAPut p1 then 1 else 0)) →
      (ss' + (if isSStop p then 1 else 0) = ss + (if isSStop p1 then 1 else 0)) →
      Kn r' c' a' f' ap' ss' w1.rq (told w1) (code w1.state)) : K (w1.setPc i p1) := by
  unfold K
  show Kn (w1.threads.set i p1 |>.countP _) (w1.threads.set i p1 |>.countP _) (w1.threads.set i p1 |>.countP _) (w1.threads.set i p1 |>.countP _)
    (w1.threads.set i p1 |>.countP _) (w1.threads.set i p1 |>.countP _) w1.rq (told w1) (code w1.state)
  rw [hthr]
  exact H _ _ _ _ _ _ _ _ _ _ _ _ hk rfl rfl rfl rfl (count_set hi running) (count_set hi configuring) (count_set hi pa) (count_set hi faulting)
    (count_set hi isAPut).1 (count_set hi isSStop).1

/-- A step that leaves the state, the queue and what is told -/
theorem k_keep {w w1 : World} {i : Nat} {p p1 : Pc} (hi : w.threads[i]? = some p) (hthr : w1.threads = w.threads) (hk : K w)
    (hs : w1.state = w.state) (hq : w1.rq = w.rq) (hb : told w = 1 → told w1 = 1)
    (h1 : running p1 = true → running p = true) (h2 : configuring p1 = true → configuring p = true) (h3 : pa p1 = true → pa p = true)
    (h4 : faulting p1 = true → faulting p = true) (h5 : isAPut p = true → isAPut p1 = true) (h6 : isSStop p = true → isSStop p1 = true) :
    K (w1.setPc i p1) := by
  refine k_of hi hthr hk ?_
  intro r c a f ap ss r' c' a' f' ap' ss' k _ _ _ _ e1 e2 e3 e4 e5 e6
  rw [hs, hq]
  refine k.keep ?_ ?_ ?_ ?_ ?_ ?_ (fun h => .inl (hb h))
  · cases h : running p1 <;> cases h' : running p <;> simp_all <;> omega
  · cases h : configuring p1 <;> cases h' : configuring p <;> simp_all <;> omega
  · cases h : pa p1 <;> cases h' : pa p <;> simp_all <;> omega
  · cases h : faulting p1 <;> cases h' : faulting p <;> simp_all <;> omega
  · cases h : isAPut p1 <;> cases h' : isAPut p <;> simp_all <;> omega
  · cases h : isSStop p1 <;> cases h' : isSStop p <;> simp_all <;> omega

set_option hygiene false in
macro "kp" : tactic => `(tactic| (refine k_keep hi rfl hk rfl rfl (fun h => h) ?_ ?_ ?_ ?_ ?_ ?_ <;> (intro h; first | (cases h; done) | exact h | rfl)))

set_option hygiene false in
macro "nums" : tactic => `(tactic| (
  refine k_of hi ‹_› hk ?_
  intro r c a f ap ss r' c' a' f' ap' ss' k er ec ea ef e1 e2 e3 e4 e5 e6
  simp only [running, Spec.Runnable.configuring, pa, pausing, abortOf, faulting, isAPut, isSStop, reduceCtorEq, decide_false, decide_true, if_true,
    if_false, Bool.false_eq_true, Option.some.injEq, Abort.pause.injEq, decide_eq_true_eq, false_implies, true_implies, and_true] at e1 e2 e3 e4 e5 e6))

theorem k_step {w w1 : World} {i : Nat} {ch : Choice} {p p1 : Pc} (hi : w.threads[i]? = some p) (ht : Tidy w (.step i ch)) (hwf : Wf w)
    (hwt : Wt w) (hk : K w) (hst : Step w ch p w1 p1) : K (w1.setPc i p1) := by
  obtain ⟨htame, htidy⟩ := ht
  have htidy := htidy i ch
  have hthr := hst.threads
  have hle := told_le w
  simp only [Tame, hi] at htame
  cases hst
  case fail m hc _ hs _ hq1 hq2 =>
    refine k_keep hi hthr hk hs hq1 (fun h => by rw [told_same hq1 hq2]; exact h) ?_ ?_ ?_ ?_ ?_ ?_ <;> intro h
    all_goals first | (cases h; done) | (cases p <;> first | (cases h; done) | (cases hc; done))
  case sHook => kp
  case cInvalid => kp
  case cValid => kp
  case cRead => kp
  case cResetAborted => kp
  case cReset => kp
  case cContexts => kp
  case cBetween => kp
  case cHookAborted => kp
  case cHook => kp
  case cEndAborted => kp
  case rPostAborted => kp
  case rBetween => kp
  case rHookAborted => kp
  case rHook => split <;> kp
  case rEndAborted => kp
  case rBlocked => kp
  case pFinished => kp
  case pFirst => kp
  case pSecond => kp
  case aWait => kp
  case aIgnore => kp
  case aFreshAborted => kp
  case aFresh h => rcases h with rfl | rfl <;> kp
  case aBetween => kp
  case aHookAborted => kp
  case aHook h => rcases h with rfl | rfl <;> kp
  case aEndAborted => kp
  case resumeNot => kp
  case resumeNoQueue => kp
  case faultAlready => kp
  case faultDisabled => kp
  case done => kp
  case resumePut h =>
    refine k_keep hi hthr hk (put_state w true) (put_rq w true) (fun h => by rw [told_put_true]; exact h) ?_ ?_ ?_ ?_ ?_ ?_ <;>
      (intro h; cases h)
  case rResumed f q rest h =>
    refine k_keep hi hthr hk rfl rfl ?_ ?_ ?_ ?_ ?_ ?_ ?_
    · intro ht1
      have hm : false ∈ w.queues w.rq := by
        unfold told at ht1
        split at ht1
        · assumption
        · cases ht1
      have hq : q = w.rq := (hwt f q (List.mem_of_getElem? hi)).1
      subst hq
      unfold told
      show (if false ∈ (if w.rq = w.rq then rest else w.queues w.rq) then 1 else 0) = 1
      rw [h] at hm
      simpa using hm
    all_goals (intro h; first | (cases h; done) | rfl)
  case rEnded f q rest h =>
    nums
    have := k.one
    refine k.keep ?_ ?_ ?_ ?_ ?_ ?_ (fun _ => .inr ?_) <;> omega
  case sBegin kd h =>
    have hc := from_code h
    cases kd with
    | disable =>
      nums
      show Kn _ _ _ _ _ _ w.rq (told w) 0
      refine ⟨?_, ?_, ?_, ?_, ?_, ?_, ?_, ?_, ?_, ?_⟩
      · have := k.one; omega
      · have := k.oneC; omega
      · have := k.oneP; omega
      · have := k.rc; omega
      · omega
      · have := k.pr; omega
      · omega
      · omega
      · have := k.flt; omega
      · omega
    | _ =>
      nums
      show Kn _ _ _ _ _ _ w.rq (told w) 0
      have hcode : code w.state ≤ 2 := by
        simp [Kind.start] at hc; omega
      refine ⟨?_, ?_, ?_, ?_, ?_, ?_, ?_, ?_, ?_, ?_⟩
      · have := k.one; omega
      · have := k.oneC; omega
      · have := k.oneP; omega
      · have := k.rc; omega
      · omega
      · have := k.pr; omega
      · omega
      · omega
      · have := k.flt; omega
      · have := k.rel; have := k.fin; omega
  case sStop =>
    have hthr' : ((w.stopAll).put false).threads = w.threads := by rw [put_threads, stopAll_threads]
    nums
    have h1 : ((w.stopAll).put false).rq = w.rq := by rw [put_rq, stopAll_rq]
    have h2 : ((w.stopAll).put false).state = w.state := by rw [put_state, stopAll_state]
    have h3 := told_put_false w.stopAll
    rw [stopAll_rq] at h3
    rw [h1, h2]
    refine ⟨?_, ?_, ?_, ?_, ?_, ?_, ?_, ?_, ?_, ?_⟩
    · have := k.one; omega
    · have := k.oneC; omega
    · have := k.oneP; omega
    · have := k.rc; omega
    · have := k.fin; omega
    · have := k.pr; omega
    · have := k.pArm; omega
    · have := k.cSt; omega
    · omega
    · omega
  case aPut =>
    have hthr' : (w.put false).threads = w.threads := by rw [put_threads]
    nums
    have h3 := told_put_false w
    rw [put_rq, put_state]
    refine ⟨?_, ?_, ?_, ?_, ?_, ?_, ?_, ?_, ?_, ?_⟩
    · have := k.one; omega
    · have := k.oneC; omega
    · have := k.oneP; omega
    · have := k.rc; omega
    · have := k.fin; omega
    · have := k.pr; omega
    · have := k.pArm; omega
    · have := k.cSt; omega
    · omega
    · omega
  case failing m =>
    have hthr' : (w.put false).threads = w.threads := by rw [put_threads]
    nums
    have h3 := told_put_false w
    rw [put_rq, put_state]
    refine ⟨?_, ?_, ?_, ?_, ?_, ?_, ?_, ?_, ?_, ?_⟩
    · have := k.one; omega
    · have := k.oneC; omega
    · have := k.oneP; omega
    · have := k.rc; omega
    · have := k.fin; omega
    · have := k.pr; omega
    · have := k.pArm; omega
    · have := k.cSt; omega
    · omega
    · omega
  case faulting m h =>
    nums
    show Kn _ _ _ _ _ _ w.rq (told w) 0
    refine ⟨?_, ?_, ?_, ?_, ?_, ?_, ?_, ?_, ?_, ?_⟩
    · have := k.one; omega
    · have := k.oneC; omega
    · have := k.oneP; omega
    · have := k.rc; omega
    · omega
    · have := k.pr; omega
    · omega
    · omega
    · have := k.flt; omega
    · have := k.flt; omega
  case sEnd kd h =>
    have hc := from_code h
    nums
    have hz : code (to w kd.finish).state = 0 := by cases kd <;> rfl
    rw [hz]
    show Kn _ _ _ _ _ _ w.rq (told w) 0
    have hcode : code w.state = 0 := by cases kd <;> simp [Kind.finish] at hc <;> omega
    rw [hcode] at k
    refine k.keep ?_ ?_ ?_ ?_ ?_ ?_ (fun h => .inl h) <;> omega
  case cBegin fi h =>
    have hr0 := count_zero hi busy running htame (fun q hq => by simp [busy, hq]) rfl
    have hc0 := count_zero hi busy configuring htame (fun q hq => by simp [busy, hq]) rfl
    have ha0 := count_zero hi busy pa htame (fun q hq => by
      cases q <;> first | (cases hq; done) | rfl) rfl
    cases fi <;> nums <;> (show Kn _ _ _ _ _ _ w.rq (told w) 3)
    all_goals
      refine ⟨?_, ?_, ?_, ?_, ?_, ?_, ?_, ?_, ?_, ?_⟩ <;> omega
  case cQueue kk =>
    nums
    show Kn _ _ _ _ _ _ (w.rq + 1) _ (code w.state)
    have hr0 : r' = 0 := by have := k.rc; omega
    refine ⟨?_, ?_, ?_, ?_, ?_, ?_, ?_, ?_, ?_, ?_⟩
    · omega
    · have := k.oneC; omega
    · have := k.oneP; omega
    · omega
    · omega
    · omega
    · have := k.pArm; omega
    · have := k.cSt; omega
    · omega
    · omega
  case cEnd h0 h =>
    have hc := (from_code h).1 rfl
    nums
    show Kn _ _ _ _ _ _ w.rq (told w) 1
    have hr0 : r' = 0 := by have := k.rc; omega
    have hcs : w.state = .configuring := by
      rcases hc with h | h | h
      · exact h
      · have := k.cSt; rw [h] at this; simp [code] at this; omega
      · have := k.cSt; rw [h] at this; simp [code] at this; omega
    have hp := k.pArm
    rw [hcs] at hp
    simp [code] at hp
    refine ⟨?_, ?_, ?_, ?_, ?_, ?_, ?_, ?_, ?_, ?_⟩
    · omega
    · have := k.oneC; omega
    · omega
    · omega
    · omega
    · omega
    · omega
    · have := k.oneC; omega
    · omega
    · omega
  case rBegin f h =>
    have hc := (from_code h).2.2.1 rfl
    obtain ⟨hnp, hnf⟩ := htidy f rfl hi
    have hcs : w.state = .armed := by
      rcases hc with h | h
      · exact h
      · exact absurd h hnp
    have hf0 : w.threads.countP faulting = 0 := by
      rw [List.countP_eq_zero]
      intro q hq hfq
      rw [List.all_eq_true] at hnf
      have := hnf q hq
      rw [hfq] at this
      cases this
    nums
    rw [hcs] at k
    show Kn _ _ _ _ _ _ w.rq (told w) 4
    have hr0 := k.fin (.inl rfl)
    have ha0 := k.pArm (.inl rfl)
    have hc0 := k.cSt (by decide) (by decide) (by decide)
    refine ⟨?_, ?_, ?_, ?_, ?_, ?_, ?_, ?_, ?_, ?_⟩ <;> omega
  case rPost f h0 h =>
    have hc := (from_code h).2.2.2.1 rfl
    nums
    rw [hc] at k
    show Kn _ _ _ _ _ _ w.rq (told w) 5
    refine ⟨?_, ?_, ?_, ?_, ?_, ?_, ?_, ?_, ?_, ?_⟩
    · have := k.one; omega
    · have := k.oneC; omega
    · have := k.oneP; omega
    · have := k.rc; omega
    · omega
    · have := k.pr; omega
    · omega
    · have := k.rc; omega
    · have := k.flt; omega
    · omega
  case rEnd f h0 h =>
    nums
    have hr0 : r' = 0 := by have := k.one; omega
    have hc0 : c' = 0 := by have := k.rc; omega
    have ha0 : a' = 0 := by have := k.pr; omega
    refine ⟨?_, ?_, ?_, ?_, ?_, ?_, ?_, ?_, ?_, ?_⟩ <;> omega
  case aBegin a h h2 =>
    have hthr' : (to { w with abortQ := true } a.start).stopAll.threads = w.threads := by rw [stopAll_threads]; rfl
    have q1 : (to { w with abortQ := true } a.start).stopAll.rq = w.rq := by rw [stopAll_rq]; rfl
    have q2 : told (to { w with abortQ := true } a.start).stopAll = told w := told_same q1 (by rw [stopAll_queues]; rfl)
    have q3 : (to { w with abortQ := true } a.start).stopAll.state = a.start := by rw [stopAll_state]; rfl
    cases a with
    | abort =>
      have h8 : code (Abort.abort).start = 8 := rfl
      rcases h2 with rfl | rfl <;> nums <;> rw [q1, q2, q3, h8]
      all_goals
        refine ⟨?_, ?_, ?_, ?_, ?_, ?_, ?_, ?_, ?_, ?_⟩
        · have := k.one; omega
        · have := k.oneC; omega
        · have := k.oneP; omega
        · have := k.rc; omega
        · omega
        · have := k.pr; omega
        · omega
        · omega
        · have := k.flt; omega
        · omega
    | pause next =>
      have h7 : code (Abort.pause next).start = 7 := rfl
      obtain ⟨hn, hnext⟩ := htame
      have ha0 := count_zero hi stopping pa hn (fun q hq => by cases q <;> first | (cases hq; done) | rfl) rfl
      have hc := (from_code h).2.2.2.2.2.2.1 rfl
      by_cases hs : w.state = .armed ∨ w.state = .finished
      · rw [if_pos hs] at hnext
        subst hnext
        rcases h2 with rfl | rfl <;> nums <;> rw [q1, q2, q3, h7]
        all_goals
          have hr0 : r = 0 := k.fin (by rcases hs with hs | hs <;> rw [hs] <;> simp [code])
          have hc0 := k.cSt hc.1 (by omega) hc.2.2
          refine ⟨?_, ?_, ?_, ?_, ?_, ?_, ?_, ?_, ?_, ?_⟩ <;> omega
      · rw [if_neg hs] at hnext
        subst hnext
        rcases h2 with rfl | rfl <;> nums <;> rw [q1, q2, q3, h7]
        all_goals
          have hc0 := k.cSt hc.1 (by omega) hc.2.2
          refine ⟨?_, ?_, ?_, ?_, ?_, ?_, ?_, ?_, ?_, ?_⟩
          · have := k.one; omega
          · omega
          · omega
          · omega
          · omega
          · omega
          · omega
          · omega
          · have := k.flt; omega
          · omega
  case aEnd a h0 h =>
    cases a with
    | abort =>
      nums
      show Kn _ _ _ _ _ _ w.rq (told w) 0
      refine ⟨?_, ?_, ?_, ?_, ?_, ?_, ?_, ?_, ?_, ?_⟩
      · have := k.one; omega
      · have := k.oneC; omega
      · have := k.oneP; omega
      · have := k.rc; omega
      · omega
      · have := k.pr; omega
      · omega
      · omega
      · have := k.flt; omega
      · omega
    | pause next =>
      rcases hwf i _ hi next rfl with rfl | rfl
      · have hc := (from_code h).1 rfl
        nums
        show Kn _ _ _ _ _ _ w.rq (told w) 1
        have hr0 : r' = 0 := by have := k.pr; omega
        have ha0 : a' = 0 := by have := k.oneP; omega
        have hc0 : c' = 0 := by
          rcases hc with h | h | h <;> rw [h] at k
          · have := k.pArm (.inr rfl); omega
          · have := k.cSt (by decide) (by decide) (by decide); omega
          · have := k.cSt (by decide) (by decide) (by decide); omega
        refine ⟨?_, ?_, ?_, ?_, ?_, ?_, ?_, ?_, ?_, ?_⟩ <;> omega
      · have hc := (from_code h).2.2.2.2.1 rfl
        nums
        rw [hc] at k
        show Kn _ _ _ _ _ _ w.rq (told w) 6
        have hc0 := k.cSt (by decide) (by decide) (by decide)
        refine ⟨?_, ?_, ?_, ?_, ?_, ?_, ?_, ?_, ?_, ?_⟩
        · have := k.one; omega
        · omega
        · have := k.oneP; omega
        · omega
        · omega
        · have := k.pr; omega
        · omega
        · omega
        · have := k.flt; omega
        · omega
  case resumeBegin h =>
    have hc := (from_code h).2.2.1 rfl
    have hcs : w.state = .paused := by
      rcases hc with h | h
      · exact absurd h htame
      · exact h
    nums
    rw [hcs] at k
    show Kn _ _ _ _ _ _ w.rq (told w) 4
    have hc0 := k.cSt (by decide) (by decide) (by decide)
    refine ⟨?_, ?_, ?_, ?_, ?_, ?_, ?_, ?_, ?_, ?_⟩
    · have := k.one; omega
    · omega
    · have := k.oneP; omega
    · omega
    · omega
    · have := k.pr; omega
    · omega
    · omega
    · have := k.flt; omega
    · omega

theorem wt_step {w w1 : World} {i : Nat} {ch : Choice} {p p1 : Pc} (hi : w.threads[i]? = some p) (hwt : Wt w) (hk : K w)
    (hst : Step w ch p w1 p1) : Wt (w1.setPc i p1) := by
  intro f q hmem
  have hmem : Pc.rWait f q ∈ w1.threads.set i p1 := hmem
  rw [hst.threads] at hmem
  show q = w1.rq ∧ q ≠ 0
  have hor := List.mem_or_eq_of_mem_set hmem
  clear hmem
  rcases hor with hm | hm
  · have h := hwt f q hm
    have : w1.rq = w.rq := by
      cases hst <;> first | rfl | assumption | (simp only [put_rq, stopAll_rq]; done) | skip
      · -- the queue is made anew: there is no run
        exfalso
        have h1 : 1 ≤ w.threads.countP configuring := List.countP_pos_iff.2 ⟨_, List.mem_of_getElem? hi, rfl⟩
        have h2 : 1 ≤ w.threads.countP running := List.countP_pos_iff.2 ⟨Pc.rWait f q, hm, rfl⟩
        have := hk.rc
        omega
      · rw [stopAll_rq]; rfl
    rw [this]
    exact h
  · cases hst <;> first | (cases hm; done) | skip
    case sBegin k _ => cases k <;> cases hm
    case cBegin k _ => cases k <;> cases hm
    case rPostAborted _ hr => cases hm; exact ⟨rfl, hr⟩
    case rHookAborted _ hr => cases hm; exact ⟨rfl, hr⟩
    case rHook => split at hm <;> cases hm
    case rEndAborted _ hr => cases hm; exact ⟨rfl, hr⟩
    case rBlocked _ _ _ => cases hm; exact hwt _ _ (List.mem_of_getElem? hi)
    case aBegin h => rcases h with rfl | rfl <;> cases hm
    case aFresh h => rcases h with rfl | rfl <;> cases hm
    case aHook h => rcases h with rfl | rfl <;> cases hm
    case aEnd => split at hm <;> cases hm

theorem k_call (w : World) (c : Call) (h : K w) : K (w.event (.call c)) := by
  have : ∀ f ∈ [running, configuring, pa, faulting, isAPut, isSStop], (w.threads ++ [c.begin]).countP f = w.threads.countP f := by
    intro f hf
    rw [List.countP_append]
    have : f c.begin = false := by
      simp only [List.mem_cons, List.not_mem_nil, or_false] at hf
      rcases hf with rfl | rfl | rfl | rfl | rfl | rfl <;> cases c <;> rfl
    simp [List.countP_cons, this]
  simp only [List.mem_cons, List.not_mem_nil, or_false, forall_eq_or_imp, forall_eq] at this
  unfold K
  show Kn ((w.threads ++ [c.begin]).countP _) ((w.threads ++ [c.begin]).countP _) ((w.threads ++ [c.begin]).countP _)
    ((w.threads ++ [c.begin]).countP _) ((w.threads ++ [c.begin]).countP _) ((w.threads ++ [c.begin]).countP _) w.rq (told w) (code w.state)
  rw [this.1, this.2.1, this.2.2.1, this.2.2.2.1, this.2.2.2.2.1, this.2.2.2.2.2]
  exact h

theorem wt_call (w : World) (c : Call) (h : Wt w) : Wt (w.event (.call c)) := by
  intro f q hm
  have hm : Pc.rWait f q ∈ w.threads ++ [c.begin] := hm
  rcases List.mem_append.1 hm with hm | hm
  · exact h f q hm
  · cases c <;> simp [Call.begin] at hm

theorem k_run (es : List Event) : ∀ w : World, TidyRun w es → Wf w ∧ Wt w ∧ K w → Wf (w.run es) ∧ Wt (w.run es) ∧ K (w.run es) := by
  induction es with
  | nil => intro w _ h; exact h
  | cons e es ih =>
    intro w ht h
    refine ih (w.event e) ht.2 ?_
    cases e with
    | call c => exact ⟨wf_call w c h.1, wt_call w c h.2.1, k_call w c h.2.2⟩
    | step i ch =>
      cases hi : w.threads[i]? with
      | none => rw [event_none w i ch hi]; exact h
      | some p =>
        obtain ⟨w1, p1, hst, hw, _⟩ := event_step w i ch p hi
        rw [hw]
        exact ⟨wf_step hi ht.1.1 h.1 hst, wt_step hi h.2.1 h.2.2 hst, k_step hi ht.1 h.1 h.2.1 h.2.2 hst⟩

theorem k_new : Wf new ∧ Wt new ∧ K new :=
  ⟨inv_new.1, (fun f q h => nomatch h), ⟨by decide, by decide, by decide, by decide, by decide, by decide, by decide, by decide, by decide,
    by decide⟩⟩

theorem tidy_tame (es : List Event) : ∀ w : World, TidyRun w es → TameRun w es := by
  induction es with
  | nil => intro w _; trivial
  | cons e es ih => intro w h; exact ⟨h.1.1, ih _ h.2⟩

/-! ### The property -/

/-- C111, for tidy histories: while a run() waits and has not been told how to go on, the block is Running, PostRun, Paused, Seeking or
Aborting, or an abort or a disable is about to tell it. -/
theorem waits_to_be_told_partial (es : List Event) (ht : TidyRun new es) (i : Nat) (f : Bool) (q : Nat)
    (hi : (new.run es).threads[i]? = some (.rWait f q)) (hq : false ∉ (new.run es).queues q) :
    (new.run es).state ∈ [St.running, .postrun, .paused, .seeking, .aborting] ∨ Pc.aPut ∈ (new.run es).threads ∨
      Pc.sStop ∈ (new.run es).threads := by
  obtain ⟨_, hwt, k⟩ := k_run es new ht k_new
  obtain ⟨rfl, h0⟩ := hwt f q (List.mem_of_getElem? hi)
  have h1 : 1 ≤ (new.run es).threads.countP running := List.countP_pos_iff.2 ⟨_, List.mem_of_getElem? hi, rfl⟩
  have ht0 : told (new.run es) = 0 := by unfold told; rw [if_neg hq]
  have := k.rel
  rw [ht0] at this
  rcases this with h | h | h | h | h | h
  · omega
  · exact absurd h h0
  · cases h
  · left
    cases hs : (new.run es).state <;> rw [hs] at h <;> simp [code] at h ⊢
  · right; left
    obtain ⟨p, hp, hpp⟩ := List.countP_pos_iff.1 h
    cases p <;> first | (cases hpp; done) | exact hp
  · right; right
    obtain ⟨p, hp, hpp⟩ := List.countP_pos_iff.1 h
    cases p <;> first | (cases hpp; done) | exact hp

/-- C111, for tidy histories: at most one run() goes on or waits. -/
theorem one_run_partial (es : List Event) (ht : TidyRun new es) (i j : Nat) (p q : Pc) (hi : (new.run es).threads[i]? = some p)
    (hj : (new.run es).threads[j]? = some q) (hp : running p = true) (hq : running q = true) : i = j := by
  have k := (k_run es new ht k_new).2.2.one
  revert k hi hj
  generalize (new.run es).threads = l
  intro hi hj k
  refine Classical.byContradiction fun hne => ?_
  have h1 := (count_set (p1 := .done .returned) hi running)
  have h2 : running q = true → 1 ≤ (l.set i (.done .returned)).countP running := fun h =>
    List.countP_pos_iff.2 ⟨q, List.mem_of_getElem? (i := j) (by rw [List.getElem?_set_ne hne]; exact hj), h⟩
  have h2 := h2 hq
  rw [if_pos hp, if_neg (show ¬ running (.done .returned) = true by decide)] at h1
  omega

/-- C111, for tidy histories: when nothing goes on, a run() waits if and only if the block is Paused. -/
theorem waits_iff_paused_partial (es : List Event) (ht : TidyRun new es) (hq : Quiet (new.run es)) :
    (∃ i, Waiting (new.run es) i) ↔ (new.run es).state = .paused := by
  constructor
  · rintro ⟨i, f, q, hi⟩
    have hn : (new.run es).queues q = [] := by
      have := hq _ (List.mem_of_getElem? hi)
      simpa [canMove] using this
    have hrest := finished_calls_rest_partial es (tidy_tame es new ht) (fun i p hi => hq p (List.mem_of_getElem? hi))
    rcases waits_to_be_told_partial es ht i f q hi (by rw [hn]; simp) with h | h | h
    · revert h hrest
      generalize (new.run es).state = s
      cases s <;> simp [rest]
    · exact absurd trivial (hq _ h)
    · exact absurd trivial (hq _ h)
  · intro hs
    obtain ⟨_, hinv⟩ := inv_run es new (tidy_tame es new ht) inv_new
    rcases hinv with ⟨j, p, hj, hp⟩ | hc
    · exact absurd (by cases p <;> first | (cases hp; done) | trivial) (hq p (List.mem_of_getElem? hj))
    · unfold Core at hc
      rw [hs] at hc
      obtain ⟨_, _, j, p, hj, hp⟩ := hc
      have := hq p (List.mem_of_getElem? hj)
      cases p <;> simp [running, canMove] at hp this
      exact ⟨j, _, _, hj⟩

/-! ### What resume(), abort() and disable() do to a run() that waits -/

/-- the call that was made last goes on `k` steps -/
def goes (n k : Nat) : List Event := List.replicate k (.step n .ok)

theorem event_last {w : World} {l : List Pc} {p : Pc} (h : w.threads = l ++ [p]) (ch : Choice) :
    w.event (.step l.length ch) = w.stepAt l.length ch p := by
  have : w.threads[l.length]? = some p := by rw [h]; simp
  simp only [World.event, this]

theorem setPc_last (w : World) (l : List Pc) (p p1 : Pc) (h : w.threads = l ++ [p]) : (w.setPc l.length p1) = { w with threads := l ++ [p1] } := by
  unfold World.setPc
  rw [h]
  simp

theorem allowed {w : World} {s : St} (h : s ∈ edges w.state) (m : Msg) : w.transition s m = some (to w s m) := by
  unfold World.transition
  rw [runnable_transition_iff, if_pos (by simp [h])]
  rfl

theorem get_app {l : List Pc} {i : Nat} {p : Pc} (h : l[i]? = some p) (x : Pc) : (l ++ [x])[i]? = some p := by
  obtain ⟨hlt, _⟩ := List.getElem?_eq_some_iff.1 h
  rw [List.getElem?_append_left hlt, h]

theorem set_app {l : List Pc} {i : Nat} {p : Pc} (h : l[i]? = some p) (x y : Pc) :
    ((l ++ [x]).set i y)[i]? = some y ∧ ((l ++ [x]).set i y)[l.length]? = some x := by
  obtain ⟨hlt, _⟩ := List.getElem?_eq_some_iff.1 h
  refine ⟨List.getElem?_set_self (by simp; omega), ?_⟩
  rw [List.getElem?_set_ne (by omega)]
  simp

/-- the block with one more call, at `p` -/
def att (v : World) (p : Pc) : World := { v with threads := v.threads ++ [p] }

theorem att_event (v : World) (p : Pc) (ch : Choice) : (att v p).event (.step v.threads.length ch) = (att v p).stepAt v.threads.length ch p :=
  event_last rfl ch

theorem att_set (v : World) (p p1 : Pc) : (att v p).setPc v.threads.length p1 = att v p1 := by
  rw [setPc_last (att v p) v.threads p p1 rfl]; rfl

theorem att_stopAll (v : World) (p : Pc) : (att v p).stopAll = att v.stopAll p := by
  unfold World.stopAll
  by_cases h : v.gen = 0
  · rw [if_pos h, if_pos (show (att v p).gen = 0 from h)]
  · rw [if_neg h, if_neg (show ¬ (att v p).gen = 0 from h)]; rfl

theorem att_put (v : World) (b : Bool) (p : Pc) : (att v p).put b = att (v.put b) p := by
  unfold World.put
  by_cases h : v.rq = 0
  · rw [if_pos h, if_pos (show (att v p).rq = 0 from h)]
  · rw [if_neg h, if_neg (show ¬ (att v p).rq = 0 from h)]; rfl

theorem att_allowed {v : World} {s : St} (p : Pc) (h : s ∈ edges v.state) : (att v p).transition s = some (att (to v s) p) := by
  rw [allowed (w := att v p) h]; rfl

theorem stopAll_same (v : World) : v.stopAll.rq = v.rq ∧ v.stopAll.queues = v.queues ∧ v.stopAll.threads = v.threads ∧ v.stopAll.state = v.state := by
  unfold World.stopAll
  split <;> simp

theorem put_same (v : World) (b : Bool) : (v.put b).rq = v.rq ∧ (v.put b).threads = v.threads ∧ (v.put b).state = v.state := by
  unfold World.put
  split <;> simp

theorem put_queue {v : World} (h0 : v.rq ≠ 0) (hn : v.queues v.rq = []) (b : Bool) : (v.put b).queues v.rq = [b] := by
  unfold World.put
  rw [if_neg h0]
  simp [hn]

theorem step_resumeBegin (w : World) (i : Nat) (ch : Choice) : w.stepAt i ch .resumeBegin =
    match w.transition .running with
    | some w => w.setPc i .resumePut
    | none => w.setPc i (.done (.raised typeError)) := by
  unfold World.stepAt
  cases h : w.transition .running <;> simp only [Abort.start, Kind.start, Kind.finish, h, if_pos]

theorem step_resumePut (w : World) (i : Nat) (ch : Choice) : w.stepAt i ch .resumePut =
    if w.rq = 0 then w.setPc i (.done (.raised "No resume queue")) else (w.put true).setPc i (.done .returned) := by
  unfold World.stepAt; rfl

theorem step_aBegin (w : World) (i : Nat) (ch : Choice) : w.stepAt i ch (.aBegin .abort) =
    match ({ w with abortQ := true } : World).transition .aborting with
    | some w' => w'.stopAll.setPc i (if w.state ∈ [St.ready, .armed, .paused, .finished] then .aIgnore .abort else .aWait .abort)
    | none => ({ w with abortQ := true } : World).setPc i (.failing typeError) := by
  unfold World.stepAt
  cases h : ({ w with abortQ := true } : World).transition .aborting <;> simp only [Abort.start, Kind.start, Kind.finish, h, if_pos]

theorem step_aEnd (w : World) (i : Nat) (ch : Choice) : w.stepAt i ch (.aEnd .abort) =
    match w.abortable .aborted with
    | .ok w => w.setPc i .aPut
    | .aborted w => w.setPc i (.done .aborted)
    | .typeError => w.setPc i (.failing typeError) := by
  unfold World.stepAt; rfl

theorem step_aPut (w : World) (i : Nat) (ch : Choice) : w.stepAt i ch .aPut = (w.put false).setPc i (.done .returned) := by
  unfold World.stepAt; rfl

theorem step_sBegin (w : World) (i : Nat) (ch : Choice) : w.stepAt i ch (.sBegin .disable) =
    match w.transition .disabling with
    | some w => w.setPc i .sStop
    | none => w.setPc i (.failing typeError) := by
  unfold World.stepAt
  cases h : w.transition .disabling <;> simp only [Abort.start, Kind.start, Kind.finish, h, if_pos]

theorem step_sStop (w : World) (i : Nat) (ch : Choice) : w.stepAt i ch .sStop = (w.stopAll.put false).setPc i (.sHook .disable) := by
  unfold World.stepAt; rfl

theorem step_sEnd (w : World) (i : Nat) (ch : Choice) : w.stepAt i ch (.sEnd .disable) =
    match w.transition .disabled with
    | some w => w.setPc i (.done .returned)
    | none => w.setPc i (.failing typeError) := by
  unfold World.stepAt
  cases h : w.transition .disabled <;> simp only [Abort.start, Kind.start, Kind.finish, h, if_pos]

theorem step_rWait (w : World) (i : Nat) (ch : Choice) (f : Bool) (q : Nat) : w.stepAt i ch (.rWait f q) =
    match w.queues q with
    | [] => w
    | b :: rest =>
      { w with queues := fun p => if p = q then rest else w.queues p }.setPc i (if b then .rBetween f 0 else .done .aborted) := by
  unfold World.stepAt; rfl

theorem event_at {w : World} {i : Nat} {p : Pc} (h : w.threads[i]? = some p) (ch : Choice) : w.event (.step i ch) = w.stepAt i ch p := by
  simp only [World.event, h]

/-- a run() that waits and has been told `b` -/
theorem takes (u : World) (n i : Nat) (f b : Bool) (q : Nat) (hn : u.threads.length = n) (hq : u.queues q = [b])
    (hi : u.threads[i]? = some (.rWait f q)) (r : Pc) :
    let w := (att u r).event (.step i .ok)
    w.threads[n]? = some r ∧ w.state = u.state ∧ w.threads[i]? = some (if b then .rBetween f 0 else .done .aborted) := by
  obtain ⟨h1, h2⟩ := set_app hi r (if b then .rBetween f 0 else .done .aborted)
  have hg : (att u r).threads[i]? = some (.rWait f q) := get_app hi r
  have hq' : (att u r).queues q = [b] := hq
  subst hn
  rw [event_at hg, step_rWait, hq']
  exact ⟨h2, rfl, h1⟩

theorem run_cons (w : World) (e : Event) (es : List Event) : w.run (e :: es) = (w.event e).run es := rfl

theorem goes_succ (n k : Nat) (es : List Event) : goes n (k + 1) ++ es = .step n .ok :: (goes n k ++ es) := rfl

theorem goes_zero (n : Nat) (es : List Event) : goes n 0 ++ es = es := rfl

theorem resume_run (v : World) (i : Nat) (f : Bool) (hs : v.state = .paused) (h0 : v.rq ≠ 0) (hn : v.queues v.rq = [])
    (hi : v.threads[i]? = some (.rWait f v.rq)) :
    let w := v.run (.call .resume :: (goes v.threads.length 2 ++ [.step i .ok]))
    w.threads[v.threads.length]? = some (.done .returned) ∧ w.state = .running ∧ w.threads[i]? = some (.rBetween f 0) := by
  have e1 : (att v .resumeBegin).event (.step v.threads.length .ok) = att (to v .running) .resumePut := by
    rw [att_event, step_resumeBegin, att_allowed (v := v) (s := .running) .resumeBegin (by rw [hs]; decide)]
    exact att_set (to v .running) _ _
  have e2 : (att (to v .running) .resumePut).event (.step v.threads.length .ok) = att ((to v .running).put true) (.done .returned) := by
    rw [show v.threads.length = (to v .running).threads.length from rfl, att_event, step_resumePut, if_neg (show ¬ (att (to v .running) .resumePut).rq = 0 from h0), att_put]
    have := att_set ((to v .running).put true) .resumePut (.done .returned)
    rwa [(put_same _ true).2.1] at this
  intro w
  have hw : w = (att ((to v .running).put true) (.done .returned)).event (.step i .ok) := by
    show (att v .resumeBegin).run (goes v.threads.length 2 ++ [.step i .ok]) = _
    rw [goes_succ, run_cons, e1, goes_succ, run_cons, e2]
    rfl
  rw [hw]
  have := takes ((to v .running).put true) v.threads.length i f true v.rq (by rw [(put_same _ true).2.1]; rfl)
    (put_queue (v := to v .running) h0 hn true) (by rw [(put_same _ true).2.1]; exact hi) (.done .returned)
  rwa [(put_same _ true).2.2] at this

theorem abort_run (v : World) (i : Nat) (f : Bool) (hs : v.state = .paused) (h0 : v.rq ≠ 0) (hn : v.queues v.rq = [])
    (hi : v.threads[i]? = some (.rWait f v.rq)) :
    let w := v.run (.call .abort :: (goes v.threads.length 5 ++ [.step i .ok]))
    w.threads[v.threads.length]? = some (.done .returned) ∧ w.state = .aborted ∧ w.threads[i]? = some (.done .aborted) := by
  obtain ⟨v1, hv1⟩ : ∃ x, x = (to { v with abortQ := true } .aborting).stopAll := ⟨_, rfl⟩
  have q1 : v1.rq = v.rq ∧ v1.queues = v.queues ∧ v1.threads = v.threads ∧ v1.state = .aborting := by
    rw [hv1]; exact stopAll_same (to { v with abortQ := true } .aborting)
  have e1 : (att v (.aBegin .abort)).event (.step v.threads.length .ok) = att v1 (.aIgnore .abort) := by
    rw [att_event]
    have ha : ({ att v (.aBegin .abort) with abortQ := true } : World).transition .aborting
        = some (att (to { v with abortQ := true } .aborting) (.aBegin .abort)) :=
      att_allowed (v := { v with abortQ := true }) (s := .aborting) (.aBegin .abort) (by show _ ∈ edges v.state; rw [hs]; decide)
    have hm : (att v (.aBegin .abort)).state ∈ [St.ready, .armed, .paused, .finished] := by
      show v.state ∈ _
      rw [hs]; decide
    rw [step_aBegin, ha]
    dsimp only
    rw [if_pos hm, att_stopAll, ← hv1, ← q1.2.2.1, att_set]
  obtain ⟨v2, hv2⟩ : ∃ x : World, x = { v1 with selfStops := 0 } := ⟨_, rfl⟩
  have q2 : v2.rq = v.rq ∧ v2.queues = v.queues ∧ v2.threads = v.threads ∧ v2.state = .aborting := by rw [hv2]; exact q1
  have e2 : (att v1 (.aIgnore .abort)).event (.step v.threads.length .ok) = att v2 (.aFresh .abort) := by
    rw [← q1.2.2.1, att_event]
    rw [hv2]
    exact att_set { v1 with selfStops := 0 } _ _
  have e3 : (att v2 (.aFresh .abort)).event (.step v.threads.length .ok) = att v2 (.aEnd .abort) := by
    rw [← q2.2.2.1, att_event]
    exact att_set v2 _ _
  have e4 : (att v2 (.aEnd .abort)).event (.step v.threads.length .ok) = att (to v2 .aborted) .aPut := by
    rw [← q2.2.2.1, att_event]
    have ha := att_allowed (v := v2) (s := .aborted) (.aEnd .abort) (by rw [q2.2.2.2]; decide)
    have hz : (att v2 (.aEnd .abort)).selfStops = 0 := by rw [hv2]; rfl
    have hb : (att v2 (.aEnd .abort)).abortable .aborted = .ok (att (to v2 .aborted) (.aEnd .abort)) := by
      unfold World.abortable
      rw [if_neg (by simp [hz]), ha]
    rw [step_aEnd, hb]
    exact att_set (to v2 .aborted) _ _
  have e5 : (att (to v2 .aborted) .aPut).event (.step v.threads.length .ok) = att ((to v2 .aborted).put false) (.done .returned) := by
    rw [← q2.2.2.1, show v2.threads.length = (to v2 .aborted).threads.length from rfl, att_event]
    rw [step_aPut, att_put]
    have := att_set ((to v2 .aborted).put false) .aPut (.done .returned)
    rwa [(put_same _ false).2.1] at this
  intro w
  have hw : w = (att ((to v2 .aborted).put false) (.done .returned)).event (.step i .ok) := by
    show (att v (.aBegin .abort)).run (goes v.threads.length 5 ++ [.step i .ok]) = _
    rw [goes_succ, run_cons, e1, goes_succ, run_cons, e2, goes_succ, run_cons, e3, goes_succ, run_cons, e4, goes_succ, run_cons, e5]
    rfl
  rw [hw]
  have hr : (to v2 .aborted).rq = v.rq := q2.1
  have hqq : (to v2 .aborted).queues = v.queues := q2.2.1
  have ht : (to v2 .aborted).threads = v.threads := q2.2.2.1
  have := takes ((to v2 .aborted).put false) v.threads.length i f false v.rq (by rw [(put_same _ false).2.1, ht])
    (by rw [← hr]; exact put_queue (by rw [hr]; exact h0) (by rw [hr, hqq]; exact hn) false)
    (by rw [(put_same _ false).2.1, ht]; exact hi) (.done .returned)
  rwa [(put_same _ false).2.2] at this

theorem disable_run (v : World) (i : Nat) (f : Bool) (hs : v.state = .paused) (h0 : v.rq ≠ 0) (hn : v.queues v.rq = [])
    (hi : v.threads[i]? = some (.rWait f v.rq)) :
    let w := v.run (.call (.stateful .disable) :: (goes v.threads.length 4 ++ [.step i .ok]))
    w.threads[v.threads.length]? = some (.done .returned) ∧ w.state = .disabled ∧ w.threads[i]? = some (.done .aborted) := by
  have e1 : (att v (.sBegin .disable)).event (.step v.threads.length .ok) = att (to v .disabling) .sStop := by
    rw [att_event]
    have ha := att_allowed (v := v) (s := .disabling) (.sBegin .disable) (by rw [hs]; decide)
    rw [step_sBegin, ha]
    exact att_set (to v .disabling) _ _
  obtain ⟨v1, hv1⟩ : ∃ x, x = (to v .disabling).stopAll := ⟨_, rfl⟩
  have q1 : v1.rq = v.rq ∧ v1.queues = v.queues ∧ v1.threads = v.threads ∧ v1.state = .disabling := by
    rw [hv1]; exact stopAll_same (to v .disabling)
  obtain ⟨v2, hv2⟩ : ∃ x, x = v1.put false := ⟨_, rfl⟩
  have q2 : v2.threads = v.threads ∧ v2.state = .disabling ∧ v2.queues v.rq = [false] := by
    rw [hv2, (put_same _ false).2.1, (put_same _ false).2.2]
    exact ⟨q1.2.2.1, q1.2.2.2, by rw [← q1.1]; exact put_queue (by rw [q1.1]; exact h0) (by rw [q1.1, q1.2.1]; exact hn) false⟩
  have e2 : (att (to v .disabling) .sStop).event (.step v.threads.length .ok) = att v2 (.sHook .disable) := by
    rw [show v.threads.length = (to v .disabling).threads.length from rfl, att_event]
    rw [step_sStop, att_stopAll, att_put, ← hv1, ← hv2, show (to v .disabling).threads = v2.threads from q2.1.symm, att_set]
  have e3 : (att v2 (.sHook .disable)).event (.step v.threads.length .ok) = att v2 (.sEnd .disable) := by
    rw [← q2.1, att_event]
    exact att_set v2 _ _
  have e4 : (att v2 (.sEnd .disable)).event (.step v.threads.length .ok) = att (to v2 .disabled) (.done .returned) := by
    rw [← q2.1, att_event]
    have ha := att_allowed (v := v2) (s := .disabled) (.sEnd .disable) (by rw [q2.2.1]; decide)
    rw [step_sEnd, ha]
    exact att_set (to v2 .disabled) _ _
  intro w
  have hw : w = (att (to v2 .disabled) (.done .returned)).event (.step i .ok) := by
    show (att v (.sBegin .disable)).run (goes v.threads.length 4 ++ [.step i .ok]) = _
    rw [goes_succ, run_cons, e1, goes_succ, run_cons, e2, goes_succ, run_cons, e3, goes_succ, run_cons, e4]
    rfl
  rw [hw]
  exact takes (to v2 .disabled) v.threads.length i f false v.rq (by rw [← q2.1]; rfl) q2.2.2 (by show v2.threads[i]? = _; rw [q2.1]; exact hi)
    (.done .returned)

theorem run_append (w : World) (a b : List Event) : w.run (a ++ b) = (w.run a).run b := by
  unfold World.run; rw [List.foldl_append]

theorem at_rest (es : List Event) (ht : TidyRun new es) (hq : Quiet (new.run es)) (i : Nat) (f : Bool) (q : Nat)
    (hi : (new.run es).threads[i]? = some (.rWait f q)) :
    (new.run es).state = .paused ∧ (new.run es).rq ≠ 0 ∧ (new.run es).queues (new.run es).rq = [] ∧ q = (new.run es).rq := by
  obtain ⟨_, hwt, _⟩ := k_run es new ht k_new
  obtain ⟨hq', h0⟩ := hwt f q (List.mem_of_getElem? hi)
  refine ⟨(waits_iff_paused_partial es ht hq).1 ⟨i, f, _, hi⟩, by rw [← hq']; exact h0, ?_, hq'⟩
  rw [← hq']
  simpa [canMove] using hq _ (List.mem_of_getElem? hi)

/-- C111, for tidy histories: when nothing goes on and a run() waits, a resume() returns with the block Running, and the run() goes on. -/
theorem resume_goes_on_partial (es : List Event) (ht : TidyRun new es) (hq : Quiet (new.run es)) (i : Nat) (f : Bool) (q : Nat)
    (hi : (new.run es).threads[i]? = some (.rWait f q)) :
    let n := (new.run es).threads.length
    let w := new.run (es ++ (.call .resume :: (goes n 2 ++ [.step i .ok])))
    w.threads[n]? = some (.done .returned) ∧ w.state = .running ∧ w.threads[i]? = some (.rBetween f 0) := by
  obtain ⟨hs, h0, hn, rfl⟩ := at_rest es ht hq i f q hi
  simp only
  rw [run_append]
  exact resume_run _ i f hs h0 hn hi

/-- C111, for tidy histories: when nothing goes on and a run() waits, an abort() whose hooks end well returns with the block Aborted, and the
run() ends. -/
theorem abort_ends_partial (es : List Event) (ht : TidyRun new es) (hq : Quiet (new.run es)) (i : Nat) (f : Bool) (q : Nat)
    (hi : (new.run es).threads[i]? = some (.rWait f q)) :
    let n := (new.run es).threads.length
    let w := new.run (es ++ (.call .abort :: (goes n 5 ++ [.step i .ok])))
    w.threads[n]? = some (.done .returned) ∧ w.state = .aborted ∧ w.threads[i]? = some (.done .aborted) := by
  obtain ⟨hs, h0, hn, rfl⟩ := at_rest es ht hq i f q hi
  simp only
  rw [run_append]
  exact abort_run _ i f hs h0 hn hi

/-- C111, for tidy histories: when nothing goes on and a run() waits, a disable() whose hooks end well returns with the block Disabled, and the
run() ends. -/
theorem disable_ends_partial (es : List Event) (ht : TidyRun new es) (hq : Quiet (new.run es)) (i : Nat) (f : Bool) (q : Nat)
    (hi : (new.run es).threads[i]? = some (.rWait f q)) :
    let n := (new.run es).threads.length
    let w := new.run (es ++ (.call (.stateful .disable) :: (goes n 4 ++ [.step i .ok])))
    w.threads[n]? = some (.done .returned) ∧ w.state = .disabled ∧ w.threads[i]? = some (.done .aborted) := by
  obtain ⟨hs, h0, hn, rfl⟩ := at_rest es ht hq i f q hi
  simp only
  rw [run_append]
  exact disable_run _ i f hs h0 hn hi

/-- C111, for tidy histories: when the block is in Fault, Aborted, Disabled, Ready, Armed or Finished, and no abort or disable is about to tell
it, each run() that waits has been told to end. -/
theorem told_to_end_partial (es : List Event) (ht : TidyRun new es) (i : Nat) (f : Bool) (q : Nat)
    (hi : (new.run es).threads[i]? = some (.rWait f q))
    (hs : (new.run es).state ∈ [St.fault, .aborted, .disabled, .ready, .armed, .finished])
    (h1 : Pc.aPut ∉ (new.run es).threads) (h2 : Pc.sStop ∉ (new.run es).threads) : false ∈ (new.run es).queues q := by
  refine Classical.byContradiction fun hn => ?_
  rcases waits_to_be_told_partial es ht i f q hi hn with h | h | h
  · revert h hs
    generalize (new.run es).state = s
    cases s <;> simp
  · exact h1 h
  · exact h2 h

/-! ### Cases -/

/-- A scan that is paused: the run is the call 2, the pause the call 3 -/
def stopped : List Event :=
  RunnableEnds.armed ++ [.step 2 .ok, .step 2 .ok, .call (.pause false), .step 3 .ok, .step 3 .ok, .step 3 .ok, .step 2 .aborted] ++
    List.replicate 8 (.step 3 .ok)

/-- It is tidy, nothing goes on and the run waits; at other times of it the run waits too, but the pause goes on -/
example : TidyRun new stopped ∧ Quiet (new.run stopped) ∧ (new.run stopped).threads[2]? = some (.rWait true 1) ∧
    (new.run stopped).state = .paused ∧ (new.run stopped).threads.length = 4 := by decide +kernel

/-- So is the rest of it: resume, abort while the run goes on, reset -/
example : TidyRun new scan ∧ Quiet (new.run scan) ∧ (new.run scan).state = .ready := by decide +kernel

/-- An abort in Paused that has not yet told the run: the block is Aborted and the run waits. When it has, the run has been told to end. -/
example : let es := stopped ++ .call .abort :: goes 4 4
    TidyRun new (es ++ goes 4 1) ∧ (new.run es).threads[2]? = some (.rWait true 1) ∧ false ∉ (new.run es).queues 1 ∧ (new.run es).state = .aborted ∧
    Pc.aPut ∈ (new.run es).threads ∧ (new.run (es ++ goes 4 1)).threads[2]? = some (.rWait true 1) ∧
    false ∈ (new.run (es ++ goes 4 1)).queues 1 ∧ Pc.aPut ∉ (new.run (es ++ goes 4 1)).threads ∧
    Pc.sStop ∉ (new.run (es ++ goes 4 1)).threads ∧ (new.run (es ++ goes 4 1)).state = .aborted := by decide +kernel

/-! ### Histories on which the claim fails -/

open RunnableWitness

/-- A run() that is called in Paused gets through. When it is paused too, two calls wait. One abort() lets one of them end, the other waits for
ever, in Aborted. -/
theorem second_run_waits :
    let es := armed ++ .call (.run true) :: steps 2 2 ++ .call (.pause false) :: steps 3 3 ++ [.step 2 .aborted] ++ steps 3 8 ++
      .call (.run true) :: steps 4 2 ++ .call (.pause false) :: steps 5 3 ++ [.step 4 .aborted] ++ steps 5 8
    (new.run es).state = .paused ∧ Stuck (new.run es) ∧ Waiting (new.run es) 2 ∧ Waiting (new.run es) 4 ∧
    let w := new.run (es ++ .call .abort :: steps 6 5 ++ steps 2 1)
    w.state = .aborted ∧ Stuck w ∧ w.threads[6]? = some (.done .returned) ∧ w.threads[2]? = some (.done .aborted) ∧ Waiting w 4 := by
  refine ⟨by decide +kernel, by decide +kernel, ⟨true, 1, by decide +kernel⟩, ⟨true, 1, by decide +kernel⟩, ?_⟩
  exact ⟨by decide +kernel, by decide +kernel, by decide +kernel, by decide +kernel, true, 1, by decide +kernel⟩

/-- A save() that has failed tells no run to end, as there is none yet. Before it puts the block into Fault, the block is disabled, reset,
configured, run and paused. Then the run waits for ever, in Fault. -/
theorem late_fault_waits :
    let w := new.run (ready ++ .call (.stateful .save) :: steps 1 1 ++ [.step 1 (.failed "no")] ++ steps 1 1 ++
      .call (.stateful .disable) :: steps 2 4 ++ .call (.stateful .reset) :: steps 3 3 ++ .call .configure :: steps 4 14 ++
      .call (.run true) :: steps 5 2 ++ .call (.pause false) :: steps 6 3 ++ [.step 5 .aborted] ++ steps 6 8 ++ steps 1 1)
    w.state = .fault ∧ Stuck w ∧ Waiting w 5 :=
  ⟨by decide +kernel, by decide +kernel, true, 1, by decide +kernel⟩

/-- An abort() of a paused run() has taken the block to Aborted but has not yet told the run to end. The block is reset and configured, which
makes a new queue, and now the abort tells that one. The abort has returned, the block is Armed, and the run waits for ever. -/
theorem late_put_waits :
    let w := new.run (armed ++ .call (.run true) :: steps 2 2 ++ .call (.pause false) :: steps 3 3 ++ [.step 2 .aborted] ++ steps 3 8 ++
      .call .abort :: steps 4 4 ++ .call (.stateful .reset) :: steps 5 3 ++ .call .configure :: steps 6 14 ++ steps 4 1)
    w.state = .armed ∧ Stuck w ∧ w.threads[4]? = some (.done .returned) ∧ Waiting w 2 :=
  ⟨by decide +kernel, by decide +kernel, by decide +kernel, true, 1, by decide +kernel⟩

/-- A run() whose part stops only after abort() has given up waiting for it, and after the block was reset and configured: it waits on the new
queue, while the block is Armed. When the next run() is paused and resumed, it is the old one that is resumed: the new one waits for ever, in
Running. -/
theorem late_hook_waits :
    let es := armed ++ .call (.run true) :: steps 2 2 ++ .call .abort :: steps 3 6 ++ .call (.stateful .reset) :: steps 4 3 ++
      .call .configure :: steps 5 14 ++ [.step 2 .aborted]
    (new.run es).state = .armed ∧ Stuck (new.run es) ∧ (new.run es).threads[3]? = some (.done .returned) ∧ Waiting (new.run es) 2 ∧
    let es' := es ++ .call (.run true) :: steps 6 2 ++ .call (.pause false) :: steps 7 3 ++ [.step 6 .aborted] ++ steps 7 8 ++
      .call .resume :: steps 8 2 ++ steps 2 1
    (new.run es').state = .running ∧ (new.run es').threads[2]? = some (.rBetween true 0) ∧ Waiting (new.run es') 6 ∧
    (new.run es').queues 2 = [] := by
  refine ⟨by decide +kernel, by decide +kernel, by decide +kernel, ⟨true, 2, by decide +kernel⟩, ?_⟩
  exact ⟨by decide +kernel, by decide +kernel, ⟨true, 2, by decide +kernel⟩, by decide +kernel⟩

end Verif.Props.RunWait
