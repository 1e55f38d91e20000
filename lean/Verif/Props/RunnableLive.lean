import Verif.Props.RunnableEnds
/-!
C05: while a runnable block is in a transitional state some call can go on, so that no finished call leaves it there.
-/
namespace Verif.Props.RunnableLive
open Verif Verif.Runnable Verif.Spec.Runnable Verif.Props.States Verif.Props.Runnable Verif.Proofs.Runnable
open Verif.Props.RunnableEnds (run_snoc snoc_ind event_length)

/-- Points from which a call always goes on to take the block to Ready, Disabled or Fault -/
def fin : Pc → Bool
  | .sStop | .sHook _ | .sEnd _ | .failing _ | .faulting _ => true
  | _ => false

/-- The call at `p` will not be stopped by what has happened so far -/
def Good (w : World) : Pc → Prop
  | .cBetween _ | .cEnd => w.selfStops = 0
  | .cHook _ g n => w.selfStops = 0 ∧ w.stops g ≤ n
  | .rHook _ _ g n => w.stops g ≤ n
  | .aFresh _ | .aBetween .. | .aEnd _ => w.selfStops = 0
  | .aHook _ _ g n => w.selfStops = 0 ∧ w.stops g ≤ n
  | .rWait .. => False
  | _ => True

/-- What an abort or pause that has begun is -/
def abortOf : Pc → Option Abort
  | .aWait a | .aIgnore a | .aFresh a | .aBetween a _ | .aHook a .. | .aEnd a => some a
  | _ => none

def pausing (n : St) (p : Pc) : Bool := decide (abortOf p = some (.pause n))

def aborting (p : Pc) : Bool := decide (abortOf p = some .abort)

def Has (l : List Pc) (P : Pc → Prop) : Prop := ∃ (j : Nat) (p : Pc), l[j]? = some p ∧ P p
def All (l : List Pc) (P : Pc → Prop) : Prop := ∀ (j : Nat) (p : Pc), l[j]? = some p → P p
/-- One has `P` and no other `S` -/
def Only (l : List Pc) (P S : Pc → Prop) : Prop :=
  ∃ (j : Nat) (p : Pc), l[j]? = some p ∧ P p ∧ ∀ (k : Nat) (q : Pc), l[k]? = some q → k ≠ j → ¬S q

/-- What is at no point once a configure is over -/
def CleanPc (rq : Nat) : Pc → Prop
  | .cReset | .cContexts | .cBetween _ | .cHook .. | .cEnd => False
  | .aPut => False
  | .rWait _ q => q = rq
  | _ => True

def Clean (w : World) : Prop := All w.threads (CleanPc w.rq) ∧ w.rq ≠ 0 ∧ false ∉ w.queues w.rq

/-- The configure that goes on -/
def Conf (w : World) (p : Pc) : Prop :=
  configuring p = true ∧ Good w p ∧ (p = .cEnd → w.rq ≠ 0 ∧ false ∉ w.queues w.rq)

def CoreAt (w : World) : St → Prop
  | .configuring => Only w.threads (Conf w) (fun p => busy p = true)
  | .armed | .finished => Clean w ∧ w.selfStops = 0
  | .paused => Clean w ∧ w.selfStops = 0 ∧ Has w.threads (fun p => running p = true)
  | .running | .postrun => Clean w ∧ w.selfStops = 0 ∧
      (Has w.threads (fun p => running p = true ∧ Good w p) ∨
        Has w.threads (fun p => running p = true) ∧ (true ∈ w.queues w.rq ∨ Has w.threads (fun p => p = .resumePut)))
  | .seeking => Clean w ∧
      (Only w.threads (fun p => pausing .armed p = true ∧ Good w p) (fun p => stopping p = true) ∨
        Only w.threads (fun p => pausing .paused p = true ∧ Good w p) (fun p => stopping p = true) ∧
          Has w.threads (fun p => running p = true))
  | .aborting => Has w.threads (fun p => aborting p = true ∧ Good w p)
  | .resetting | .saving | .loading | .disabling => False
  | .ready | .disabled | .fault | .aborted => True

def Core (w : World) : Prop := CoreAt w w.state

def Inv (w : World) : Prop := Has w.threads (fun p => fin p = true) ∨ Core w

/-- What the invariant gives: in a transitional state some call can go on -/
theorem inv_moves (w : World) (h : Inv w) (hs : w.state ∉ rest) : Has w.threads (canMove w) := by
  rcases h with ⟨j, p, hj, hp⟩ | h
  · exact ⟨j, p, hj, by cases p <;> simp [fin, canMove] at hp ⊢⟩
  · have run : Has w.threads (fun p => running p = true ∧ Good w p) → Has w.threads (canMove w) := by
      rintro ⟨j, p, hj, hp, hg⟩
      exact ⟨j, p, hj, by cases p <;> simp [running, canMove, Good] at hp hg ⊢⟩
    have stop : ∀ {P : Pc → Prop}, (∀ p, P p → stopping p = true) → Has w.threads P → Has w.threads (canMove w) := by
      rintro P hP ⟨j, p, hj, hp⟩
      have := hP p hp
      exact ⟨j, p, hj, by cases p <;> simp [stopping, canMove] at this ⊢⟩
    have wait : Clean w → (Has w.threads (fun p => running p = true ∧ Good w p) ∨
        Has w.threads (fun p => running p = true) ∧ (true ∈ w.queues w.rq ∨ Has w.threads (fun p => p = .resumePut))) →
        Has w.threads (canMove w) := by
      rintro hc (h | ⟨⟨j, p, hj, hp⟩, h | ⟨k, q, hk, hq⟩⟩)
      · exact run h
      · refine ⟨j, p, hj, ?_⟩
        have hcp := hc.1 j p hj
        cases p <;> simp [running, canMove, CleanPc] at hp hcp ⊢
        rw [hcp]; intro he; rw [he] at h; simp at h
      · exact ⟨k, q, hk, by rw [hq]; trivial⟩
    unfold Core at h
    cases hst : w.state <;> rw [hst] at h hs <;> simp [rest] at hs
    all_goals simp only [CoreAt] at h
    case configuring =>
      obtain ⟨j, p, hj, ⟨hp, _⟩, _⟩ := h
      exact ⟨j, p, hj, by cases p <;> simp [Spec.Runnable.configuring, canMove] at hp ⊢⟩
    case running => exact wait h.1 h.2.2
    case postrun => exact wait h.1 h.2.2
    case seeking =>
      rcases h.2 with ⟨j, p, hj, ⟨hp, _⟩, _⟩ | ⟨⟨j, p, hj, ⟨hp, _⟩, _⟩, _⟩
      · refine ⟨j, p, hj, ?_⟩; cases p <;> simp [pausing, abortOf, canMove] at hp ⊢
      · refine ⟨j, p, hj, ?_⟩; cases p <;> simp [pausing, abortOf, canMove] at hp ⊢
    case aborting =>
      obtain ⟨j, p, hj, hp, _⟩ := h
      refine ⟨j, p, hj, ?_⟩; cases p <;> simp [aborting, abortOf, canMove] at hp ⊢

/-! ### Lists of threads -/

theorem Has.set {l : List Pc} {i : Nat} {p p1 : Pc} {P Q : Pc → Prop} (hi : l[i]? = some p) (h : Has l P)
    (h1 : ∀ q, P q → Q q) (h2 : P p → Q p1) : Has (l.set i p1) Q := by
  obtain ⟨j, q, hj, hq⟩ := h
  have hlt : i < l.length := by
    rcases Nat.lt_or_ge i l.length with h' | h'
    · exact h'
    · rw [List.getElem?_eq_none h'] at hi; cases hi
  by_cases hij : i = j
  · subst hij; rw [hi] at hj; cases hj
    exact ⟨i, p1, by rw [List.getElem?_set_self hlt], h2 hq⟩
  · exact ⟨j, q, by rw [List.getElem?_set_ne hij]; exact hj, h1 q hq⟩

theorem Has.new {l : List Pc} {i : Nat} {p p1 : Pc} {Q : Pc → Prop} (hi : l[i]? = some p) (h : Q p1) :
    Has (l.set i p1) Q := by
  have hlt : i < l.length := by
    rcases Nat.lt_or_ge i l.length with h' | h'
    · exact h'
    · rw [List.getElem?_eq_none h'] at hi; cases hi
  exact ⟨i, p1, by rw [List.getElem?_set_self hlt], h⟩

theorem All.set {l : List Pc} {i : Nat} {p1 : Pc} {P Q : Pc → Prop} (h : All l P) (h1 : ∀ q, P q → Q q) (h2 : Q p1) :
    All (l.set i p1) Q := by
  intro j q hj
  rw [List.getElem?_set] at hj
  split at hj
  · split at hj
    · cases hj; exact h2
    · cases hj
  · exact h1 q (h j q hj)

theorem Only.set {l : List Pc} {i : Nat} {p p1 : Pc} {P Q S : Pc → Prop} (hi : l[i]? = some p) (h : Only l P S)
    (h1 : ∀ q, P q → Q q) (h2 : P p → Q p1) (h3 : S p1 → S p) : Only (l.set i p1) Q S := by
  obtain ⟨j, q, hj, hq, hn⟩ := h
  have hlt : i < l.length := by
    rcases Nat.lt_or_ge i l.length with h' | h'
    · exact h'
    · rw [List.getElem?_eq_none h'] at hi; cases hi
  by_cases hij : i = j
  · subst hij; rw [hi] at hj; cases hj
    refine ⟨i, p1, by rw [List.getElem?_set_self hlt], h2 hq, ?_⟩
    intro k r hk hki; rw [List.getElem?_set_ne (Ne.symm hki)] at hk; exact hn k r hk hki
  · refine ⟨j, q, by rw [List.getElem?_set_ne hij]; exact hj, h1 q hq, ?_⟩
    intro k r hk hkj
    rw [List.getElem?_set] at hk
    split at hk
    · next e =>
      subst e
      have hk : p1 = r := by simpa [hlt] using hk
      subst hk; exact fun hs => hn i p hi hkj (h3 hs)
    · exact hn k r hk hkj

theorem Only.new {l : List Pc} {i : Nat} {p p1 : Pc} {Q S : Pc → Prop} (hi : l[i]? = some p)
    (hn : ∀ (j : Nat) q, l[j]? = some q → j ≠ i → ¬S q) (h : Q p1) : Only (l.set i p1) Q S := by
  have hlt : i < l.length := by
    rcases Nat.lt_or_ge i l.length with h' | h'
    · exact h'
    · rw [List.getElem?_eq_none h'] at hi; cases hi
  refine ⟨i, p1, by rw [List.getElem?_set_self hlt], h, ?_⟩
  intro k r hk hki; rw [List.getElem?_set_ne (Ne.symm hki)] at hk; exact hn k r hk hki

/-- The one that has `P` is the one that has `S` -/
theorem Only.at {l : List Pc} {i : Nat} {p : Pc} {P S : Pc → Prop} (h : Only l P S) (hi : l[i]? = some p) (hs : S p) :
    P p ∧ ∀ (k : Nat) q, l[k]? = some q → k ≠ i → ¬S q := by
  obtain ⟨j, q, hj, hq, hn⟩ := h
  by_cases hij : i = j
  · subst hij; rw [hi] at hj; cases hj; exact ⟨hq, hn⟩
  · exact absurd hs (hn i p hi hij)

/-! ### Steps that leave the state -/

theorem Good.mono {w w1 : World} {q : Pc} (h1 : w1.stops = w.stops) (h2 : w1.selfStops ≤ w.selfStops) (h : Good w q) :
    Good w1 q := by
  cases q <;> simp only [Good, h1] at h ⊢ <;> omega

theorem Conf.mono {w w1 : World} {q : Pc} (h1 : w1.stops = w.stops) (h2 : w1.selfStops ≤ w.selfStops)
    (h3 : w1.rq = w.rq) (h4 : false ∉ w.queues w.rq → false ∉ w1.queues w.rq) (h : Conf w q) : Conf w1 q :=
  ⟨h.1, h.2.1.mono h1 h2, fun he => ⟨by rw [h3]; exact (h.2.2 he).1, by rw [h3]; exact h4 (h.2.2 he).2⟩⟩

theorem Core.keep {w w1 : World} {i : Nat} {p p1 : Pc} (hi : w.threads[i]? = some p) (hc : Core w)
    (hthr : w1.threads = w.threads) (hst : w1.state = w.state) (hstops : w1.stops = w.stops)
    (hself : w1.selfStops ≤ w.selfStops) (hrq : w1.rq = w.rq)
    (hq : false ∉ w.queues w.rq → false ∉ w1.queues w.rq)
    (hbusy : busy p1 = true → busy p = true) (hstop : stopping p1 = true → stopping p = true)
    (hconf : configuring p = false)
    (hclean : CleanPc w.rq p → CleanPc w.rq p1)
    (hrun : Clean w → running p = true → running p1 = true)
    (hgood : w.selfStops = 0 → running p = true ∧ Good w p → running p1 = true ∧ Good w1 p1)
    (htrue : Clean w → true ∈ w.queues w.rq → true ∈ w1.queues w.rq ∨ (running p1 = true ∧ Good w1 p1))
    (hres : p = .resumePut → w.rq ≠ 0 → true ∈ w1.queues w.rq)
    (hpause : ∀ n, pausing n p = true ∧ Good w p → pausing n p1 = true ∧ Good w1 p1)
    (habort : aborting p = true ∧ Good w p → aborting p1 = true ∧ Good w1 p1) :
    Core (w1.setPc i p1) := by
  have hT : (w1.setPc i p1).threads = w.threads.set i p1 := by show w1.threads.set i p1 = _; rw [hthr]
  have hC : Clean w → Clean (w1.setPc i p1) := by
    rintro ⟨h1, h2, h3⟩
    refine ⟨?_, ?_, ?_⟩
    · rw [hT]
      exact h1.set (fun q hq => by show CleanPc w1.rq q; rw [hrq]; exact hq)
        (by show CleanPc w1.rq p1; rw [hrq]; exact hclean (h1 i p hi))
    · show w1.rq ≠ 0; rw [hrq]; exact h2
    · show false ∉ w1.queues w1.rq; rw [hrq]; exact hq h3
  have hS : w.selfStops = 0 → (w1.setPc i p1).selfStops = 0 := by
    intro h; show w1.selfStops = 0; omega
  have hG : ∀ q, Good w q → Good (w1.setPc i p1) q := fun q h => h.mono hstops hself
  have hR : Clean w → Has w.threads (fun p => running p = true) →
      Has (w1.setPc i p1).threads (fun p => running p = true) := by
    intro hcl h; rw [hT]; exact h.set hi (fun _ h => h) (hrun hcl)
  have hW : Clean w → w.selfStops = 0 → (Has w.threads (fun p => running p = true ∧ Good w p) ∨
        Has w.threads (fun p => running p = true) ∧ (true ∈ w.queues w.rq ∨ Has w.threads (fun p => p = .resumePut))) →
      (Has (w1.setPc i p1).threads (fun p => running p = true ∧ Good (w1.setPc i p1) p) ∨
        Has (w1.setPc i p1).threads (fun p => running p = true) ∧ (true ∈ (w1.setPc i p1).queues (w1.setPc i p1).rq ∨
          Has (w1.setPc i p1).threads (fun p => p = .resumePut))) := by
    have hqq : (w1.setPc i p1).queues (w1.setPc i p1).rq = w1.queues w.rq := by show w1.queues w1.rq = _; rw [hrq]
    intro hcl h0 h
    rw [hqq]
    rcases h with h | ⟨h1, h2 | ⟨k, q, hk, rfl⟩⟩
    · left; rw [hT]; exact h.set hi (fun q h => ⟨h.1, hG q h.2⟩) (hgood h0)
    · rcases htrue hcl h2 with h | h
      · exact .inr ⟨hR hcl h1, .inl h⟩
      · left; rw [hT]; exact Has.new hi h
    · refine .inr ⟨hR hcl h1, ?_⟩
      by_cases hik : i = k
      · subst hik; rw [hi] at hk; cases hk
        exact .inl (hres rfl hcl.2.1)
      · right; rw [hT]; exact ⟨k, _, by rw [List.getElem?_set_ne hik]; exact hk, rfl⟩
  have hst' : (w1.setPc i p1).state = w.state := hst
  unfold Core at hc ⊢
  rw [hst']
  cases hs : w.state <;> rw [hs] at hc <;> simp only [CoreAt] at hc ⊢
  case configuring =>
    rw [hT]
    exact hc.set hi (fun q h => h.mono hstops hself hrq hq)
      (fun h => by rw [h.1] at hconf; cases hconf) hbusy
  case armed => exact ⟨hC hc.1, hS hc.2⟩
  case finished => exact ⟨hC hc.1, hS hc.2⟩
  case paused => exact ⟨hC hc.1, hS hc.2.1, hR hc.1 hc.2.2⟩
  case running => exact ⟨hC hc.1, hS hc.2.1, hW hc.1 hc.2.1 hc.2.2⟩
  case postrun => exact ⟨hC hc.1, hS hc.2.1, hW hc.1 hc.2.1 hc.2.2⟩
  case seeking =>
    refine ⟨hC hc.1, ?_⟩
    rcases hc.2 with h | ⟨h, hr⟩
    · left; rw [hT]; exact h.set hi (fun q h => ⟨h.1, hG q h.2⟩) (hpause _) hstop
    · right
      refine ⟨?_, hR hc.1 hr⟩
      rw [hT]; exact h.set hi (fun q h => ⟨h.1, hG q h.2⟩) (hpause _) hstop
  case aborting =>
    rw [hT]; exact hc.set hi (fun q h => ⟨h.1, hG q h.2⟩) habort

/-- A step of a configure -/
theorem Core.conf {w w1 : World} {i : Nat} {p p1 : Pc} (hi : w.threads[i]? = some p) (hc : Core w)
    (hthr : w1.threads = w.threads) (hst : w1.state = w.state) (hstops : w1.stops = w.stops)
    (hself : w1.selfStops ≤ w.selfStops) (hconf : configuring p = true) (h1 : Conf w p → Conf w1 p1) :
    Core (w1.setPc i p1) := by
  have hT : (w1.setPc i p1).threads = w.threads.set i p1 := by show w1.threads.set i p1 = _; rw [hthr]
  have hst' : (w1.setPc i p1).state = w.state := hst
  have hno : Clean w → False := by
    intro h
    have := h.1 i p hi
    cases p <;> simp [Spec.Runnable.configuring, CleanPc] at hconf this
  unfold Core at hc ⊢
  rw [hst']
  cases hs : w.state <;> rw [hs] at hc <;> simp only [CoreAt] at hc ⊢
  case configuring =>
    rw [hT]
    obtain ⟨h2, h3⟩ := Only.at hc hi (by simp [busy, hconf])
    exact Only.new hi h3 (h1 h2)
  case armed => exact (hno hc.1).elim
  case finished => exact (hno hc.1).elim
  case paused => exact (hno hc.1).elim
  case running => exact (hno hc.1).elim
  case postrun => exact (hno hc.1).elim
  case seeking => exact (hno hc.1).elim
  case aborting =>
    rw [hT]
    exact hc.set hi (fun q h => ⟨h.1, h.2.mono hstops hself⟩)
      (fun h => by cases p <;> simp [Spec.Runnable.configuring, aborting, abortOf] at hconf h)

set_option hygiene false in
macro "kp" : tactic => `(tactic| (clear hrest hT hf1 hfp; apply Core.keep hi hc <;> first
  | rfl
  | (simp_all [busy, stopping, running, Spec.Runnable.configuring, CleanPc, Good, pausing, aborting, abortOf, took]; done)
  | skip))

/-- A pause that has begun goes to Armed or Paused -/
def Wf (w : World) : Prop := All w.threads fun p => ∀ n, abortOf p = some (.pause n) → n = .armed ∨ n = .paused

theorem wf_step {w w1 : World} {i : Nat} {ch : Choice} {p p1 : Pc} (hi : w.threads[i]? = some p)
    (ht : Tame w (.step i ch)) (hwf : Wf w) (hst : Step w ch p w1 p1) : Wf (w1.setPc i p1) := by
  have hT : (w1.setPc i p1).threads = w.threads.set i p1 := by show w1.threads.set i p1 = _; rw [hst.threads]
  unfold Wf
  rw [hT]
  refine hwf.set (fun _ h => h) ?_
  have hw := hwf i p hi
  simp only [Tame, hi] at ht
  cases hst <;> first | exact hw | (intro n hn; cases hn; done) | skip
  case sBegin k _ => cases k <;> (intro n hn; cases hn)
  case cBegin f _ => cases f <;> (intro n hn; cases hn)
  case rHook => split <;> (intro n hn; cases hn)
  case aBegin a _ h =>
    intro n hn
    have : a = .pause n := by rcases h with rfl | rfl <;> simpa [abortOf] using hn
    subst this
    rw [ht.2]; split <;> simp
  case aFresh h => rcases h with rfl | rfl <;> exact hw
  case aHook h => rcases h with rfl | rfl <;> exact hw
  case aEnd a _ _ => split <;> (intro n hn; cases hn)

theorem others {l : List Pc} {i : Nat} {f : Pc → Bool} (h : ∀ j, j < l.length → j ≠ i → l[j]?.any f = false)
    (j : Nat) (q : Pc) (hj : l[j]? = some q) (hji : j ≠ i) : f q = false := by
  have hlt : j < l.length := by
    rcases Nat.lt_or_ge j l.length with h' | h'
    · exact h'
    · rw [List.getElem?_eq_none h'] at hj; cases hj
  have := h j hlt hji
  rw [hj] at this; exact this

/-- The invariant is kept by each step -/
theorem inv_step {w w1 : World} {i : Nat} {ch : Choice} {p p1 : Pc} (hi : w.threads[i]? = some p) (hwf : Wf w)
    (ht : Tame w (.step i ch)) (hinv : Inv w) (hst : Step w ch p w1 p1) : Inv (w1.setPc i p1) := by
  have hT : (w1.setPc i p1).threads = w.threads.set i p1 := by show w1.threads.set i p1 = _; rw [hst.threads]
  by_cases hf1 : fin p1 = true
  · left; rw [hT]; exact Has.new hi hf1
  have hrest : w1.state = .ready ∨ w1.state = .disabled ∨ w1.state = .fault ∨ w1.state = .aborted →
      Core (w1.setPc i p1) := by
    intro h; show CoreAt _ w1.state
    rcases h with h | h | h | h <;> rw [h] <;> trivial
  by_cases hfp : fin p = true
  · cases hst <;> first | (exact absurd rfl hf1) | (cases hfp; done) | skip
    case sEnd k h => cases k <;> exact .inr (hrest (by simp [to, Kind.finish]))
    case faulting m h => exact .inr (hrest (.inr (.inr (.inl rfl))))
    case faultAlready m h => exact .inr (hrest (.inr (.inr (.inl h))))
    case faultDisabled m h => exact .inr (hrest (.inr (.inl h)))
  rcases hinv with ⟨j, q, hj, hq⟩ | hc
  · by_cases hij : i = j
    · subst hij; rw [hi] at hj; cases hj; exact absurd hq hfp
    · left; rw [hT]; exact ⟨j, q, by rw [List.getElem?_set_ne hij]; exact hj, hq⟩
  right
  simp only [Tame, hi] at ht
  cases hst <;> first | (exact absurd rfl hf1) | (exact absurd rfl hfp) | skip
  all_goals try dsimp only at ht
  case sBegin k h => cases k <;> exact absurd rfl hf1
  case cInvalid => kp
  case cValid => kp
  case cRead => kp
  case rBetween => kp
  case rBlocked => kp
  case pFinished => kp
  case pFirst => kp
  case pSecond => kp
  case aWait => kp
  case aIgnore => kp
  case aBetween => kp
  case resumeNot => kp
  case done => kp
  case rHookAborted h _ => have := ht h; kp
  case rHook => split <;> kp
  case rPostAborted => kp
  case rEndAborted => kp
  case aFreshAborted h => exact absurd h ht
  case aHookAborted h => have := ht h; kp
  case aFresh h => rcases h with rfl | rfl <;> kp
  case aHook h => rcases h with rfl | rfl <;> kp
  case aEndAborted => kp
  case resumeNoQueue h => kp
  case resumePut h =>
    have hp : w.put true = { w with queues := fun q => if q = w.rq then w.queues q ++ [true] else w.queues q } := by
      simp [World.put, h]
    rw [hp] at hT hrest ⊢
    kp
  case rResumed q rest h =>
    kp
    intro hn
    show false ∉ if w.rq = q then rest else w.queues w.rq
    split
    · next e => rw [e, h] at hn; simpa using hn
    · exact hn
  case rEnded f q rest h =>
    have hno : Clean w → False := by
      intro hcl
      have h1 : q = w.rq := hcl.1 i _ hi
      have h2 := hcl.2.2
      rw [← h1, h] at h2; simp at h2
    kp
    · intro hn
      show false ∉ if w.rq = q then rest else w.queues w.rq
      split
      · next e => rw [e, h] at hn; simp at hn
      · exact hn
  case cResetAborted h _ => exact absurd h ht
  case cReset => exact Core.conf hi hc rfl rfl rfl (Nat.le_refl _) rfl (by simp [Conf, Spec.Runnable.configuring, Good])
  case cContexts => exact Core.conf hi hc rfl rfl rfl (Nat.zero_le _) rfl (by simp [Conf, Spec.Runnable.configuring, Good])
  case cBetween => exact Core.conf hi hc rfl rfl rfl (Nat.le_refl _) rfl (by simp [Conf, Spec.Runnable.configuring, Good])
  case cQueue => exact Core.conf hi hc rfl rfl rfl (Nat.le_refl _) rfl (by simp [Conf, Spec.Runnable.configuring, Good])
  case cHookAborted h _ =>
    have := ht h
    exact Core.conf hi hc rfl rfl rfl (Nat.le_refl _) rfl (by simp [Conf, Spec.Runnable.configuring, Good]; omega)
  case cHook => exact Core.conf hi hc rfl rfl rfl (Nat.le_refl _) rfl (by simp [Conf, Spec.Runnable.configuring, Good]; omega)
  case cEndAborted h _ =>
    exact Core.conf hi hc rfl rfl rfl (Nat.sub_le _ _) rfl (by simp [Conf, Spec.Runnable.configuring, Good, h])
  case cBegin f h =>
    show CoreAt _ .configuring
    simp only [CoreAt]
    rw [hT]
    refine Only.new hi (fun j q hj hji => by simp [others ht j q hj hji]) ?_
    cases f <;> simp [Conf, Spec.Runnable.configuring, Good]
  case cEnd h0 h =>
    have hno : Clean w → False := fun h => h.1 i _ hi
    show CoreAt _ .armed
    have hcs : w.state = .configuring := by
      unfold Core at hc
      cases hs : w.state <;> rw [hs] at hc h <;> simp [edges] at h <;> simp only [CoreAt] at hc
      case postrun => exact (hno hc.1).elim
      case seeking => exact (hno hc.1).elim
    unfold Core at hc
    rw [hcs] at hc
    simp only [CoreAt] at hc ⊢
    obtain ⟨h1, h2⟩ := Only.at hc hi rfl
    refine ⟨⟨?_, (h1.2.2 rfl).1, (h1.2.2 rfl).2⟩, h0⟩
    rw [hT]
    intro j q hj
    by_cases hij : i = j
    · subst hij; rw [List.getElem?_set_self (by
        rcases Nat.lt_or_ge i w.threads.length with h' | h'
        · exact h'
        · rw [List.getElem?_eq_none h'] at hi; cases hi)] at hj
      cases hj; trivial
    · rw [List.getElem?_set_ne hij] at hj
      have := h2 j q hj (Ne.symm hij)
      cases q <;> simp [busy, Spec.Runnable.configuring, running, stopping, CleanPc] at this ⊢
  case rBegin f h =>
    show CoreAt _ .running
    have hcl : Clean w ∧ w.selfStops = 0 := by
      unfold Core at hc
      cases hs : w.state <;> rw [hs] at hc h <;> simp [edges] at h <;> simp only [CoreAt] at hc
      case armed => exact hc
      case paused => exact ⟨hc.1, hc.2.1⟩
    simp only [CoreAt]
    refine ⟨⟨?_, hcl.1.2⟩, hcl.2, .inl ?_⟩
    · rw [hT]; exact hcl.1.1.set (fun _ h => h) trivial
    · rw [hT]; exact Has.new hi ⟨rfl, trivial⟩
  case rPost f h0 h =>
    show CoreAt _ .postrun
    have hcl : Clean w := by
      unfold Core at hc
      cases hs : w.state <;> rw [hs] at hc h <;> simp [edges] at h <;> simp only [CoreAt] at hc
      case running => exact hc.1
    simp only [CoreAt]
    refine ⟨⟨?_, hcl.2⟩, h0, .inl ?_⟩
    · rw [hT]; exact hcl.1.set (fun _ h => h) trivial
    · rw [hT]; exact Has.new hi ⟨rfl, trivial⟩
  case rEnd f h0 h =>
    have hcl : Clean w := by
      unfold Core at hc
      cases hs : w.state <;> rw [hs] at hc h <;> cases f <;> simp [edges] at h <;> simp only [CoreAt] at hc
      case postrun.false => exact hc.1
      case postrun.true => exact hc.1
      case seeking.false => exact hc.1
      case seeking.true => exact hc.1
      case configuring.false =>
        have := (Only.at hc hi (by simp [busy, running])).1.1
        simp [Spec.Runnable.configuring] at this
    have : CoreAt ((to w (if f then .finished else .armed)).setPc i (.done .returned)) .armed := by
      simp only [CoreAt]
      refine ⟨⟨?_, hcl.2⟩, h0⟩
      rw [hT]; exact hcl.1.set (fun _ h => h) trivial
    show CoreAt _ (if f then .finished else .armed)
    cases f <;> exact this
  case aBegin a h h2 =>
    have hT' := hT
    have hg : ∀ v : World, Good v p1 := by rcases h2 with rfl | rfl <;> exact fun _ => trivial
    have hcp : ∀ n, CleanPc n p1 := by rcases h2 with rfl | rfl <;> exact fun _ => trivial
    have ha : abortOf p1 = some a := by rcases h2 with rfl | rfl <;> rfl
    cases a with
    | abort =>
      show CoreAt _ (World.stopAll _).state
      rw [stopAll_state]
      show CoreAt _ .aborting
      simp only [CoreAt]
      rw [hT]
      exact Has.new hi ⟨by simp [aborting, ha], hg _⟩
    | pause next =>
      show CoreAt _ (World.stopAll _).state
      rw [stopAll_state]
      show CoreAt _ .seeking
      obtain ⟨hn, hnext⟩ := ht
      have hcl : Clean w ∧ (w.state ≠ .armed → w.state ≠ .finished → Has w.threads (fun p => running p = true)) := by
        unfold Core at hc
        cases hs : w.state <;> rw [hs] at hc h <;> simp [edges, Abort.start] at h <;> simp only [CoreAt] at hc
        case armed => exact ⟨hc.1, by simp⟩
        case finished => exact ⟨hc.1, by simp⟩
        case paused => exact ⟨hc.1, fun _ _ => hc.2.2⟩
        case running =>
          refine ⟨hc.1, fun _ _ => ?_⟩
          rcases hc.2.2 with ⟨j, q, hj, hq, _⟩ | ⟨h, _⟩
          · exact ⟨j, q, hj, hq⟩
          · exact h
        case postrun =>
          refine ⟨hc.1, fun _ _ => ?_⟩
          rcases hc.2.2 with ⟨j, q, hj, hq, _⟩ | ⟨h, _⟩
          · exact ⟨j, q, hj, hq⟩
          · exact h
      have hq : (to { w with abortQ := true } (Abort.pause next).start).stopAll.rq = w.rq ∧
          (to { w with abortQ := true } (Abort.pause next).start).stopAll.queues = w.queues := by
        unfold World.stopAll; split <;> exact ⟨rfl, rfl⟩
      simp only [CoreAt]
      refine ⟨⟨?_, ?_, ?_⟩, ?_⟩
      · rw [hT]
        exact hcl.1.1.set (fun q h => by show CleanPc (World.stopAll _).rq q; rw [hq.1]; exact h) (hcp _)
      · show (World.stopAll _).rq ≠ 0; rw [hq.1]; exact hcl.1.2.1
      · show false ∉ (World.stopAll _).queues (World.stopAll _).rq; rw [hq.1, hq.2]; exact hcl.1.2.2
      · rw [hT]
        by_cases hs : w.state = .armed ∨ w.state = .finished
        · rw [if_pos hs] at hnext; subst hnext
          left
          exact Only.new hi (fun j q hj hji => by simp [others hn j q hj hji]) ⟨by simp [pausing, ha], hg _⟩
        · rw [if_neg hs] at hnext; subst hnext
          right
          refine ⟨Only.new hi (fun j q hj hji => by simp [others hn j q hj hji]) ⟨by simp [pausing, ha], hg _⟩, ?_⟩
          exact (hcl.2 (fun e => hs (.inl e)) (fun e => hs (.inr e))).set hi (fun _ h => h) (fun h => by cases h)
  case aEnd a h0 h =>
    cases a with
    | abort => exact hrest (.inr (.inr (.inr rfl)))
    | pause next =>
      have hnext : next = .armed ∨ next = .paused := hwf i _ hi next rfl
      have hpt : ∀ n : St, pausing n (.aEnd (.pause next)) = true → next = n := by
        intro n hn; simpa [pausing, abortOf] using hn
      have hcl : Clean w ∧ (next = .paused → Has w.threads (fun p => running p = true)) := by
        unfold Core at hc
        cases hs : w.state <;> rw [hs] at hc h <;> rcases hnext with rfl | rfl <;> simp [edges, Abort.finish] at h <;>
          simp only [CoreAt] at hc
        case configuring.inl =>
          have := (Only.at hc hi (by simp [busy, stopping])).1.1
          simp [Spec.Runnable.configuring] at this
        case postrun.inl => exact ⟨hc.1, by simp⟩
        case seeking.inl => exact ⟨hc.1, by simp⟩
        case seeking.inr =>
          refine ⟨hc.1, fun _ => ?_⟩
          rcases hc.2 with h | h
          · have := hpt _ (Only.at h hi rfl).1.1; cases this
          · exact h.2
      have hC : Clean ((to w next).setPc i (.done .returned)) := by
        refine ⟨?_, hcl.1.2⟩
        have hT : ((to w next).setPc i (.done .returned)).threads = w.threads.set i (.done .returned) := hT
        rw [hT]; exact hcl.1.1.set (fun _ h => h) trivial
      show CoreAt _ next
      rcases hnext with rfl | rfl
      · simp only [CoreAt]; exact ⟨hC, h0⟩
      · simp only [CoreAt]
        refine ⟨hC, h0, ?_⟩
        rw [hT]
        exact (hcl.2 rfl).set hi (fun _ h => h) (fun h => by cases h)
  case aPut =>
    have hno : Clean w → False := fun h => h.1 i _ hi
    have hp : (w.put false).stops = w.stops ∧ (w.put false).selfStops = w.selfStops := by
      unfold World.put; split <;> exact ⟨rfl, rfl⟩
    show CoreAt _ (w.put false).state
    rw [put_state]
    unfold Core at hc
    cases hs : w.state <;> rw [hs] at hc <;> simp only [CoreAt] at hc ⊢
    case configuring =>
      have := (Only.at hc hi (by simp [busy])).1.1
      simp [Spec.Runnable.configuring] at this
    case armed => exact (hno hc.1).elim
    case finished => exact (hno hc.1).elim
    case paused => exact (hno hc.1).elim
    case running => exact (hno hc.1).elim
    case postrun => exact (hno hc.1).elim
    case seeking => exact (hno hc.1).elim
    case aborting =>
      rw [hT]
      exact hc.set hi (fun q h => ⟨h.1, h.2.mono hp.1 (Nat.le_of_eq hp.2)⟩) (fun h => by simp [aborting, abortOf] at h)
  case resumeBegin h =>
    show CoreAt _ .running
    unfold Core at hc
    have hs : w.state = .paused := by
      cases hs : w.state <;> rw [hs] at h <;> simp [edges] at h
      · exact absurd hs ht
    rw [hs] at hc
    simp only [CoreAt] at hc ⊢
    refine ⟨⟨?_, hc.1.2⟩, hc.2.1, .inr ⟨?_, .inr ?_⟩⟩
    · rw [hT]; exact hc.1.1.set (fun _ h => h) trivial
    · rw [hT]; exact hc.2.2.set hi (fun _ h => h) (fun h => by cases h)
    · rw [hT]; exact Has.new hi rfl

theorem begin_points (c : Call) : fin c.begin = false ∧ busy c.begin = false ∧ stopping c.begin = false ∧
    abortOf c.begin = none ∧ (∀ n, CleanPc n c.begin) := by
  cases c <;> simp [Call.begin, fin, busy, Spec.Runnable.configuring, running, stopping, abortOf, CleanPc]

theorem Has.snoc {l : List Pc} {P : Pc → Prop} (h : Has l P) (x : Pc) : Has (l ++ [x]) P := by
  obtain ⟨j, q, hj, hq⟩ := h
  refine ⟨j, q, ?_, hq⟩
  rcases Nat.lt_or_ge j l.length with h' | h'
  · rw [List.getElem?_append_left h']; exact hj
  · rw [List.getElem?_eq_none h'] at hj; cases hj

theorem All.snoc {l : List Pc} {P : Pc → Prop} (h : All l P) {x : Pc} (hx : P x) : All (l ++ [x]) P := by
  intro j q hj
  rcases Nat.lt_or_ge j l.length with h' | h'
  · rw [List.getElem?_append_left h'] at hj; exact h j q hj
  · rw [List.getElem?_append_right h'] at hj
    cases hk : j - l.length with
    | zero => rw [hk] at hj; have : x = q := by simpa using hj
              subst this; exact hx
    | succ k => rw [hk] at hj; simp at hj

theorem Only.snoc {l : List Pc} {P S : Pc → Prop} (h : Only l P S) {x : Pc} (hx : ¬S x) : Only (l ++ [x]) P S := by
  obtain ⟨j, q, hj, hq, hn⟩ := h
  have hlt : j < l.length := by
    rcases Nat.lt_or_ge j l.length with h' | h'
    · exact h'
    · rw [List.getElem?_eq_none h'] at hj; cases hj
  refine ⟨j, q, by rw [List.getElem?_append_left hlt]; exact hj, hq, ?_⟩
  intro k r hk hkj
  rcases Nat.lt_or_ge k l.length with h' | h'
  · rw [List.getElem?_append_left h'] at hk; exact hn k r hk hkj
  · rw [List.getElem?_append_right h'] at hk
    cases hk' : k - l.length with
    | zero => rw [hk'] at hk; have : x = r := by simpa using hk
              subst this; exact hx
    | succ k => rw [hk'] at hk; simp at hk

theorem inv_call (w : World) (c : Call) (h : Inv w) : Inv (w.event (.call c)) := by
  obtain ⟨b1, b2, b3, b4, b5⟩ := begin_points c
  rcases h with h | h
  · exact .inl (h.snoc _)
  · right
    have hC : Clean w → Clean (w.event (.call c)) := fun h => ⟨h.1.snoc (b5 _), h.2⟩
    have hs' : (w.event (.call c)).state = w.state := rfl
    unfold Core at h ⊢
    rw [hs']
    cases hs : w.state <;> rw [hs] at h <;> simp only [CoreAt] at h ⊢
    case configuring => exact Only.snoc h (by simp [b2])
    case armed => exact ⟨hC h.1, h.2⟩
    case finished => exact ⟨hC h.1, h.2⟩
    case paused => exact ⟨hC h.1, h.2.1, h.2.2.snoc _⟩
    case running =>
      exact ⟨hC h.1, h.2.1, h.2.2.imp (·.snoc _) fun h => ⟨h.1.snoc _, h.2.imp id (·.snoc _)⟩⟩
    case postrun =>
      exact ⟨hC h.1, h.2.1, h.2.2.imp (·.snoc _) fun h => ⟨h.1.snoc _, h.2.imp id (·.snoc _)⟩⟩
    case seeking =>
      exact ⟨hC h.1, h.2.imp (Only.snoc · (by simp [b3])) fun h => ⟨Only.snoc h.1 (by simp [b3]), h.2.snoc _⟩⟩
    case aborting => exact Has.snoc h _

theorem wf_call (w : World) (c : Call) (h : Wf w) : Wf (w.event (.call c)) :=
  h.snoc (by intro n hn; rw [(begin_points c).2.2.2.1] at hn; cases hn)

theorem inv_event (w : World) (e : Event) (ht : Tame w e) (h : Wf w ∧ Inv w) : Wf (w.event e) ∧ Inv (w.event e) := by
  cases e with
  | call c => exact ⟨wf_call w c h.1, inv_call w c h.2⟩
  | step i ch =>
    cases hi : w.threads[i]? with
    | none => rw [event_none w i ch hi]; exact h
    | some p =>
      obtain ⟨w1, p1, hst, hw, _⟩ := event_step w i ch p hi
      rw [hw]
      exact ⟨wf_step hi ht h.1 hst, inv_step hi h.1 ht h.2 hst⟩

theorem inv_run (es : List Event) : ∀ w : World, TameRun w es → Wf w ∧ Inv w → Wf (w.run es) ∧ Inv (w.run es) := by
  induction es with
  | nil => intro w _ h; exact h
  | cons e es ih => intro w ht h; exact ih (w.event e) ht.2 (inv_event w e ht.1 h)

theorem inv_new : Wf new ∧ Inv new :=
  ⟨fun j p h => by simp [new] at h, .inr trivial⟩

/-- C05, for tame histories: whatever calls are made on a new block, in whatever order they go on and however the hooks end:
when the block is in a state in which it may not stay, some call can go on (it is not over, and does not wait for another
call). -/
theorem transitional_moves_partial (es : List Event) (ht : TameRun new es) (hs : (new.run es).state ∉ rest) :
    ∃ (i : Nat) (p : Pc), (new.run es).threads[i]? = some p ∧ canMove (new.run es) p :=
  inv_moves _ (inv_run es new ht inv_new).2 hs

/-- C05, for tame histories: when all calls are over, or wait for a resume that nobody has called, then the block is in a
state in which it may stay: no finished call leaves it in a transitional state. -/
theorem finished_calls_rest_partial (es : List Event) (ht : TameRun new es)
    (hd : ∀ (i : Nat) (p : Pc), (new.run es).threads[i]? = some p → ¬canMove (new.run es) p) :
    (new.run es).state ∈ rest := by
  refine Classical.byContradiction fun hn => ?_
  obtain ⟨i, p, hi, hp⟩ := transitional_moves_partial es ht hn
  exact hd i p hi hp

/-- A scan: configure, run, pause in a hook of the run, resume; then abort while the run goes on, reset -/
def scan : List Event :=
  RunnableEnds.armed ++ [.step 2 .ok, .step 2 .ok, .call (.pause false), .step 3 .ok, .step 3 .ok, .step 3 .ok,
    .step 2 .aborted] ++ List.replicate 8 (.step 3 .ok) ++ [.call .resume, .step 4 .ok, .step 4 .ok, .step 2 .ok,
    .step 2 .ok, .call .abort, .step 5 .ok, .step 2 .aborted] ++ List.replicate 5 (.step 5 .ok) ++ [.step 2 .ok,
    .call (.stateful .reset), .step 6 .ok, .step 6 .ok, .step 6 .ok]

/-- It is tame, and all of its prefixes are; it shows all of these states, and at the end all calls are over -/
example : TameRun new scan ∧
    (shown new scan).eraseDups = [.disabled, .resetting, .ready, .configuring, .armed, .running, .seeking, .paused,
      .aborting, .aborted] ∧
    (new.run scan).threads = [.done .returned, .done .returned, .done .aborted, .done .returned, .done .returned,
      .done .returned, .done .returned] := by
  decide +kernel

/-- While it is Seeking the run waits and cannot move, but the pause can -/
example : let w := new.run (scan.take 28)
    w.state = .seeking ∧ w.threads[2]? = some (.rWait true 1) ∧ ¬canMove w (.rWait true 1) := by decide +kernel

end Verif.Props.RunnableLive
