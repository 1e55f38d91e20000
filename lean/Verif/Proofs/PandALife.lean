import Verif.Spec.PandALife
import Verif.Proofs.States
/-! Invariants of the life of the manager of a PandA. -/
namespace Verif.Proofs.PandALife
open Verif Verif.PandALife Verif.Spec.PandALife

theorem allowed_iff (a b : St) : allowed a b = true ↔ (a, b) ∈
    [(St.resetting, St.ready), (.resetting, .fault), (.resetting, .disabling), (.ready, .saving), (.ready, .loading),
     (.ready, .fault), (.ready, .disabling), (.saving, .ready), (.saving, .fault), (.saving, .disabling),
     (.loading, .ready), (.loading, .fault), (.loading, .disabling), (.fault, .resetting), (.fault, .disabling),
     (.disabling, .fault), (.disabling, .disabled), (.disabled, .resetting)] := by
  unfold allowed
  rw [managerStates_eq]
  revert a b
  intro a b
  cases a <;> cases b <;> decide

/-- The places of a call that makes the PandA work -/
def Up (p : Pc) : Prop := p ∈ [Pc.connect, .make, .spawn, .hooks, .layout, .ending]

instance (p : Pc) : Decidable (Up p) := by unfold Up; infer_instance

/-- What is left to do of each part of the invariant -/
local macro "fin" : tactic => `(tactic| (constructor <;> simp_all [Up] <;> first | assumption | (intros; simp_all; done) | grind))

structure Inv (m : Mgr) : Prop where
  live : ∀ i ∈ m.live, m.spawned = some i
  idle : m.job = none → m.st ∈ [St.ready, .saving, .loading, .fault, .disabled]
  up : ∀ j p, m.job = some (j, p) → Up p → m.st ∈ [St.resetting, .fault]
  down : ∀ j p, m.job = some (j, p) → ¬ Up p → m.st ∈ [St.disabling, .fault]
  client : m.spawned ≠ none → m.client = true
  conn : ∀ j p, m.job = some (j, p) → p ∈ [Pc.make, .spawn, .hooks, .layout, .ending] → m.client = true
  off : m.st = .disabled → m.spawned = none ∧ m.client = false
  wait : ∀ j, m.job = some (j, .dWait) → m.spawned ≠ none
  cl : ∀ j, m.job = some (j, .dClient) → m.spawned = none
  en : ∀ j, m.job = some (j, .dEnding) → m.spawned = none ∧ m.client = false
  msgs : 0 < m.msgs → m.client = false ∨ ∃ j, m.job = some (j, .dWait) ∨ m.job = some (j, .dClient)
  made : m.st ∈ [St.ready, .saving, .loading] → m.made ≠ .nothing
  makes : ∀ j p, m.job = some (j, p) → p ∈ [Pc.spawn, .hooks, .layout, .ending] → m.made ≠ .nothing

theorem inv_start : Inv start := by
  constructor <;> simp [start]

/-- The state after an error -/
theorem goError_st {m : Mgr} (h : m.st ∈ [St.ready, .saving, .loading, .fault, .resetting, .disabling]) :
    goError m = { m with st := .fault } := by
  unfold goError
  by_cases hf : m.st = .fault
  · rw [if_pos hf, ← hf]
  · rw [if_neg hf, if_pos]
    rw [allowed_iff]
    simp only [List.mem_cons, List.not_mem_nil, or_false] at h
    rcases h with h | h | h | h | h | h <;> simp_all

theorem goError_off {m : Mgr} (h : m.st = .disabled) : goError m = m := by
  unfold goError
  rw [h, if_neg (by decide), if_neg]
  rw [allowed_iff]
  decide

theorem jobSt {m : Mgr} (i : Inv m) {x : Job × Pc} (h : m.job = some x) : m.st ∈ [St.resetting, .disabling, .fault] := by
  by_cases hu : Up x.2
  · have := i.up x.1 x.2 h hu; simp at this ⊢; rcases this with h | h <;> simp [h]
  · have := i.down x.1 x.2 h hu; simp at this ⊢; rcases this with h | h <;> simp [h]

theorem inv_failJob {m : Mgr} (h1 : ∀ i ∈ m.live, m.spawned = some i)
    (h2 : m.st ∈ [St.ready, .saving, .loading, .fault, .resetting, .disabling])
    (h3 : m.spawned ≠ none → m.client = true) (h4 : m.msgs = 0 ∨ m.client = false) : Inv (failJob m) := by
  have e : failJob m = { m with job := none, st := .fault } := goError_st (m := { m with job := none }) h2
  rw [e]
  fin

theorem inv_call_to {m : Mgr} (i : Inv m) (hj : m.job = none) {t : St} {j : Job} {p : Pc}
    (h : t = .disabling ∧ p = .dHooks ∨ t = .resetting ∧ p = .connect) :
    Inv (if allowed m.st t then { m with st := t, job := some (j, p) } else goError m) := by
  have hs := i.idle hj
  have hnm : 0 < m.msgs → m.client = false := fun h => by
    rcases i.msgs h with h | ⟨j, h | h⟩
    · exact h
    · rw [hj] at h; cases h
    · rw [hj] at h; cases h
  by_cases ha : allowed m.st t = true
  · rw [if_pos ha]
    rw [allowed_iff] at ha
    obtain ⟨h1, h2, h3, h4, h5, h6, h7, h8, h9, h10, h11, h12, h13⟩ := i
    rcases h with ⟨rfl, rfl⟩ | ⟨rfl, rfl⟩
    · fin
    · fin
  · rw [if_neg ha]
    by_cases hd : m.st = .disabled
    · rw [goError_off hd]; exact i
    · rw [goError_st]
      · obtain ⟨h1, h2, h3, h4, h5, h6, h7, h8, h9, h10, h11, h12, h13⟩ := i
        fin
      · simp at hs ⊢
        rcases hs with h | h | h | h | h <;> simp_all

theorem inv_call {m : Mgr} (i : Inv m) (j : Job) : Inv (call m j) := by
  unfold call
  split
  · exact i
  · rename_i hj
    dsimp only
    by_cases hd : j = .disable
    · rw [if_pos hd, if_pos hd]; exact inv_call_to i hj (Or.inl ⟨rfl, rfl⟩)
    · rw [if_neg hd, if_neg hd]; exact inv_call_to i hj (Or.inr ⟨rfl, rfl⟩)

set_option maxHeartbeats 1000000 in
theorem inv_go {m : Mgr} (i : Inv m) (r : Out) : Inv (go m r) := by
  have hjs := @jobSt m i
  have key : ∀ x, m.job = some x → m.st ∈ [St.ready, .saving, .loading, .fault, .resetting, .disabling] := by
    intro x hx
    have := hjs hx
    simp at this ⊢
    rcases this with h | h | h <;> simp [h]
  unfold go
  split
  · exact i
  all_goals (rename_i hj; have hk := key _ hj; clear hjs key)
  · -- connect
    split
    · obtain ⟨h1, h2, h3, h4, h5, h6, h7, h8, h9, h10, h11, h12, h13⟩ := i
      fin
    · dsimp only
      split
      · obtain ⟨h1, h2, h3, h4, h5, h6, h7, h8, h9, h10, h11, h12, h13⟩ := i
        fin
      · exact inv_failJob i.live hk i.client (Or.inl rfl)
  · -- make
    have hnm : m.msgs = 0 ∨ m.client = false := by
      by_cases h0 : m.msgs = 0
      · exact Or.inl h0
      · rcases i.msgs (by omega) with h | ⟨j', h | h⟩
        · exact Or.inr h
        · rw [hj] at h; cases h
        · rw [hj] at h; cases h
    split
    · split
      · obtain ⟨h1, h2, h3, h4, h5, h6, h7, h8, h9, h10, h11, h12, h13⟩ := i
        fin
      · exact inv_failJob i.live hk i.client hnm
      · exact inv_failJob (m := { m with made := .part }) i.live hk i.client hnm
    · obtain ⟨h1, h2, h3, h4, h5, h6, h7, h8, h9, h10, h11, h12, h13⟩ := i
      fin
  · -- spawn
    split
    · rename_i hn
      have hl : m.live = [] := by
        cases hl : m.live with
        | nil => rfl
        | cons a l => have := i.live a (by rw [hl]; exact List.mem_cons_self); rw [hn] at this; cases this
      obtain ⟨h1, h2, h3, h4, h5, h6, h7, h8, h9, h10, h11, h12, h13⟩ := i
      fin
    · obtain ⟨h1, h2, h3, h4, h5, h6, h7, h8, h9, h10, h11, h12, h13⟩ := i
      fin
  · -- hooks
    have hnm : m.msgs = 0 ∨ m.client = false := by
      by_cases h0 : m.msgs = 0
      · exact Or.inl h0
      · rcases i.msgs (by omega) with h | ⟨j', h | h⟩
        · exact Or.inr h
        · rw [hj] at h; cases h
        · rw [hj] at h; cases h
    rename_i j'
    split
    · obtain ⟨h1, h2, h3, h4, h5, h6, h7, h8, h9, h10, h11, h12, h13⟩ := i
      have hp : (if j' = Job.init then Pc.layout else Pc.ending) ∈ [Pc.layout, .ending] := by split <;> decide
      generalize (if _ = Job.init then Pc.layout else Pc.ending) = p at hp ⊢
      rcases (by simpa using hp : p = .layout ∨ p = .ending) with rfl | rfl <;> clear hp <;> fin
    · exact inv_failJob i.live hk i.client hnm
  · -- layout
    have hnm : m.msgs = 0 ∨ m.client = false := by
      by_cases h0 : m.msgs = 0
      · exact Or.inl h0
      · rcases i.msgs (by omega) with h | ⟨j', h | h⟩
        · exact Or.inr h
        · rw [hj] at h; cases h
        · rw [hj] at h; cases h
    split
    · obtain ⟨h1, h2, h3, h4, h5, h6, h7, h8, h9, h10, h11, h12, h13⟩ := i
      fin
    · exact inv_failJob i.live hk i.client hnm
  · -- ending
    have hnm : m.msgs = 0 ∨ m.client = false := by
      by_cases h0 : m.msgs = 0
      · exact Or.inl h0
      · rcases i.msgs (by omega) with h | ⟨j', h | h⟩
        · exact Or.inr h
        · rw [hj] at h; cases h
        · rw [hj] at h; cases h
    unfold finish
    split
    · obtain ⟨h1, h2, h3, h4, h5, h6, h7, h8, h9, h10, h11, h12, h13⟩ := i
      fin
    · exact inv_failJob i.live hk i.client hnm
  · -- dHooks
    have hnm : m.msgs = 0 ∨ m.client = false := by
      by_cases h0 : m.msgs = 0
      · exact Or.inl h0
      · rcases i.msgs (by omega) with h | ⟨j', h | h⟩
        · exact Or.inr h
        · rw [hj] at h; cases h
        · rw [hj] at h; cases h
    split
    · obtain ⟨h1, h2, h3, h4, h5, h6, h7, h8, h9, h10, h11, h12, h13⟩ := i
      fin
    · exact inv_failJob i.live hk i.client hnm
  · -- dPut
    obtain ⟨h1, h2, h3, h4, h5, h6, h7, h8, h9, h10, h11, h12, h13⟩ := i
    split
    · fin
    · fin
  · -- dWait
    split
    · exact i
    · rename_i x hx
      split
      · exact i
      · rename_i hnx
        have hl : m.live = [] := by
          cases hl : m.live with
          | nil => rfl
          | cons a l =>
            have := i.live a (by rw [hl]; exact List.mem_cons_self)
            rw [hx] at this
            cases this
            exact absurd (show x ∈ m.live by rw [hl]; exact List.mem_cons_self) hnx
        obtain ⟨h1, h2, h3, h4, h5, h6, h7, h8, h9, h10, h11, h12, h13⟩ := i
        fin
  · -- dClient
    obtain ⟨h1, h2, h3, h4, h5, h6, h7, h8, h9, h10, h11, h12, h13⟩ := i
    fin
  · -- dEnding
    unfold finish
    split
    · obtain ⟨h1, h2, h3, h4, h5, h6, h7, h8, h9, h10, h11, h12, h13⟩ := i
      fin
    · exact inv_failJob i.live hk i.client (Or.inr (i.en _ hj).2)

theorem inv_step {m : Mgr} (i : Inv m) (e : Ev) : Inv (step m e) := by
  cases e with
  | call j => exact inv_call i j
  | go r => exact inv_go i r
  | poll a =>
    unfold step
    dsimp only
    split
    · obtain ⟨h1, h2, h3, h4, h5, h6, h7, h8, h9, h10, h11, h12, h13⟩ := i
      exact ⟨h1, h2, h3, h4, h5, h6, h7, h8, h9, h10, h11, h12, h13⟩
    · exact i
  | pollFail a =>
    unfold step
    dsimp only
    split
    · rename_i ha
      have hs := i.live a ha
      rw [goError_st]
      · obtain ⟨h1, h2, h3, h4, h5, h6, h7, h8, h9, h10, h11, h12, h13⟩ := i
        fin
      · show m.st ∈ _
        by_cases hd : m.st = .disabled
        · rw [(i.off hd).1] at hs; cases hs
        · cases hj : m.job with
          | none => have := i.idle hj; simp at this ⊢; rcases this with h | h | h | h | h <;> simp_all
          | some x => have := jobSt i hj; simp at this ⊢; rcases this with h | h | h <;> simp_all
    · exact i
  | take a =>
    unfold step
    dsimp only
    split
    · rename_i ha
      have hm := i.msgs ha.2
      obtain ⟨h1, h2, h3, h4, h5, h6, h7, h8, h9, h10, h11, h12, h13⟩ := i
      exact ⟨fun x hx => h1 x ((List.mem_filter.1 hx).1), h2, h3, h4, h5, h6, h7, h8, h9, h10, fun _ => hm, h12, h13⟩
    · exact i
  | design t =>
    unfold step
    dsimp only
    split
    · rename_i h
      obtain ⟨hj, ht, ha⟩ := h
      have hs := i.idle hj
      rw [allowed_iff] at ha
      obtain ⟨h1, h2, h3, h4, h5, h6, h7, h8, h9, h10, h11, h12, h13⟩ := i
      have hm : m.st ∈ [St.ready, .saving, .loading] := by
        simp at hs ht ha ⊢
        rcases ht with h | h | h <;> subst h <;> rcases hs with h | h | h | h | h <;> simp_all
      have hm2 := h12 hm
      have hd : t ≠ .disabled := by intro h; subst h; simp at ht
      refine ⟨h1, fun _ => ?_, ?_, ?_, h5, h6, fun h => absurd h hd, h8, h9, h10, h11, fun _ => hm2, h13⟩
      · simp at ht ⊢; rcases ht with h | h | h <;> simp [h]
      · intro j p h; rw [hj] at h; cases h
      · intro j p h; rw [hj] at h; cases h
    · exact i

theorem inv_run {m : Mgr} (i : Inv m) (es : List Ev) : Inv (run m es) := by
  induction es generalizing m with
  | nil => exact i
  | cons e es ih => exact ih (inv_step i e)

theorem inv (es : List Ev) : Inv (run start es) := inv_run inv_start es

end Verif.Proofs.PandALife
