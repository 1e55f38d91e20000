import Verif.Proofs.PandALife
/-!
C74: a PandA that is Ready is polled, one that is Disabled is left alone, and what it takes to get from one to the other.
-/
namespace Verif.Props.PandALife
open Verif Verif.PandALife Verif.Spec.PandALife Verif.Proofs.PandALife

/-! ### polling -/

theorem goError_polls (m : Mgr) : (goError m).polls = m.polls := by unfold goError; split <;> (try split) <;> rfl
theorem goError_live (m : Mgr) : (goError m).live = m.live := by unfold goError; split <;> (try split) <;> rfl
theorem goError_spawned (m : Mgr) : (goError m).spawned = m.spawned := by unfold goError; split <;> (try split) <;> rfl
theorem goError_made (m : Mgr) : (goError m).made = m.made := by unfold goError; split <;> (try split) <;> rfl
theorem goError_inited (m : Mgr) : (goError m).inited = m.inited := by unfold goError; split <;> (try split) <;> rfl
theorem goError_job (m : Mgr) : (goError m).job = m.job := by unfold goError; split <;> (try split) <;> rfl

theorem call_keeps (m : Mgr) (j : Job) : (call m j).polls = m.polls ∧ (call m j).live = m.live ∧
    (call m j).spawned = m.spawned ∧ (call m j).made = m.made ∧ (call m j).inited = m.inited := by
  unfold call
  split
  · exact ⟨rfl, rfl, rfl, rfl, rfl⟩
  · dsimp only
    generalize (if j = Job.disable then St.disabling else St.resetting) = t
    by_cases h : allowed m.st t = true
    · rw [if_pos h]; exact ⟨rfl, rfl, rfl, rfl, rfl⟩
    · rw [if_neg h]; exact ⟨goError_polls m, goError_live m, goError_spawned m, goError_made m, goError_inited m⟩

theorem go_polls (m : Mgr) (r : Out) : (go m r).polls = m.polls := by
  unfold go finish failJob
  repeat' (split <;> try rfl)
  all_goals exact goError_polls _

theorem polled_iff (m : Mgr) : Polled m ↔ m.live ≠ [] := by
  constructor
  · rintro ⟨e, h⟩ hl
    cases e with
    | call j => rw [step, (call_keeps m j).1] at h; omega
    | go r => rw [step, go_polls] at h; omega
    | poll i => rw [step, hl] at h; simp at h
    | pollFail i => rw [step, hl] at h; simp at h
    | take i => rw [step, hl] at h; simp at h
    | design t => rw [step] at h; split at h <;> simp at h
  · intro h
    cases hl : m.live with
    | nil => exact absurd hl h
    | cons a l => exact ⟨.poll a, by rw [step, hl, if_pos List.mem_cons_self]; exact Nat.lt_succ_self _⟩

theorem can_poll {m : Mgr} {i : Nat} (h : m.polls < (step m (.poll i)).polls) : i ∈ m.live := by
  rw [step] at h
  split at h
  · assumption
  · omega

/-- However often a PandA is disabled and reset, and wherever it fails, no two loops poll it -/
theorem one_loop (es : List Ev) : OneLoop (run start es) := by
  intro i k hi hk
  have a := (inv es).live i (can_poll hi)
  have b := (inv es).live k (can_poll hk)
  rw [a] at b
  exact Option.some.inj b

example : Polled (run start initOk) := ⟨.poll 0, by decide +kernel⟩

/-- A PandA that is Disabled is not polled, and there is no connection to it -/
theorem disabled_is_quiet (es : List Ev) (h : (run start es).st = .disabled) :
    ¬ Polled (run start es) ∧ (run start es).client = false := by
  obtain ⟨h1, h2⟩ := (inv es).off h
  refine ⟨fun hp => (polled_iff _).1 hp ?_, h2⟩
  cases hl : (run start es).live with
  | nil => rfl
  | cons a l => have := (inv es).live a (by rw [hl]; exact List.mem_cons_self); rw [h1] at this; cases this

example : (run start (initOk ++ disableOk (run start initOk))).st = .disabled ∧
    (run start initOk).st = .ready ∧ (run start initOk).client = true := by decide +kernel

/-- What polls a PandA has a connection to it -/
theorem polled_is_connected (es : List Ev) (h : Polled (run start es)) : (run start es).client = true := by
  cases hl : (run start es).live with
  | nil => exact absurd hl ((polled_iff _).1 h)
  | cons a l =>
    have := (inv es).live a (by rw [hl]; exact List.mem_cons_self)
    exact (inv es).client (by rw [this]; simp)

/-- A PandA that is Ready has made its blocks, or at least some of them -/
theorem ready_has_blocks (es : List Ev) (h : (run start es).st = .ready) : (run start es).made ≠ .nothing :=
  (inv es).made (by rw [h]; decide)

/-! ### Ready means polled -/

/-- A loop that was spawned is at work, or has been told to stop -/
structure Clean (m : Mgr) : Prop where
  alive : ∀ i, m.spawned = some i → i ∈ m.live ∨ ∃ j, m.job = some (j, .dWait)
  jobs : ∀ j p, m.job = some (j, p) → p ∈ [Pc.hooks, .layout, .ending] → m.spawned ≠ none
  ready : m.st ∈ [St.ready, .saving, .loading] → m.spawned ≠ none

theorem alive_of {m : Mgr} (c : Clean m) (h : ∀ j, m.job ≠ some (j, .dWait)) {x : Nat} (hx : m.spawned = some x) :
    x ∈ m.live := by
  rcases c.alive x hx with h' | ⟨j, h'⟩
  · exact h'
  · exact absurd h' (h j)

theorem clean_off {m : Mgr} (i : Inv m) (h : m.st = .disabled) : Clean m := by
  have hs := (i.off h).1
  refine ⟨fun x hx => (by rw [hs] at hx; cases hx), fun j p hj hp => ?_, fun hr => by rw [h] at hr; simp at hr⟩
  have hjs := jobSt i hj
  rw [h] at hjs
  simp at hjs

theorem clean_goError {m : Mgr} (c : Clean m) : Clean (goError m) := by
  unfold goError
  split
  · exact c
  · split
    · exact ⟨c.alive, c.jobs, by simp⟩
    · exact c

theorem clean_failJob {m : Mgr} (c : Clean m) (h : ∀ j, m.job ≠ some (j, .dWait)) : Clean (failJob m) := by
  unfold failJob
  refine clean_goError ⟨fun i hi => ?_, by simp, c.ready⟩
  rcases c.alive i hi with h' | ⟨j, h'⟩
  · exact Or.inl h'
  · exact absurd h' (h j)

theorem clean_go {m : Mgr} (i : Inv m) (c : Clean m) (r : Out) : Clean (go m r) := by
  have key : ∀ x, m.job = some x → m.st ∉ [St.ready, .saving, .loading] := by
    intro x hx hr
    have := jobSt i hx
    simp at this hr
    rcases this with h | h | h <;> rw [h] at hr <;> simp at hr
  unfold go
  split
  · exact c
  all_goals (rename_i hj; have hk := key _ hj; clear key)
  · split
    · exact ⟨fun x hx => Or.inl (alive_of c (by rw [hj]; simp) hx), by simp, fun h => absurd h hk⟩
    · dsimp only
      split
      · exact ⟨fun x hx => Or.inl (alive_of c (by rw [hj]; simp) hx), by simp, fun h => absurd h hk⟩
      · exact clean_failJob (m := { m with msgs := 0 }) ⟨c.alive, c.jobs, c.ready⟩ (by rw [hj]; simp)
  · split
    · split
      · exact ⟨fun x hx => Or.inl (alive_of c (by rw [hj]; simp) hx), by simp, fun h => absurd h hk⟩
      · exact clean_failJob c (by rw [hj]; simp)
      · exact clean_failJob (m := { m with made := .part }) ⟨c.alive, c.jobs, c.ready⟩ (by rw [hj]; simp)
    · exact ⟨fun x hx => Or.inl (alive_of c (by rw [hj]; simp) hx), by simp, fun h => absurd h hk⟩
  · split
    · exact ⟨fun x hx => Or.inl (by cases hx; exact List.mem_cons_self), by simp, fun h => absurd h hk⟩
    · rename_i hn
      exact ⟨fun x hx => Or.inl (alive_of c (by rw [hj]; simp) hx), fun _ _ _ _ => hn, fun h => absurd h hk⟩
  · have hn := c.jobs _ _ hj (by decide)
    split
    · exact ⟨fun x hx => Or.inl (alive_of c (by rw [hj]; simp) hx), fun _ _ _ _ => hn, fun h => absurd h hk⟩
    · exact clean_failJob c (by rw [hj]; simp)
  · have hn := c.jobs _ _ hj (by decide)
    split
    · exact ⟨fun x hx => Or.inl (alive_of c (by rw [hj]; simp) hx), fun _ _ _ _ => hn, fun h => absurd h hk⟩
    · exact clean_failJob c (by rw [hj]; simp)
  · have hn := c.jobs _ _ hj (by decide)
    unfold finish
    split
    · exact ⟨fun x hx => Or.inl (alive_of c (by rw [hj]; simp) hx), by simp, fun _ => hn⟩
    · exact clean_failJob c (by rw [hj]; simp)
  · split
    · exact ⟨fun x hx => Or.inl (alive_of c (by rw [hj]; simp) hx), by simp, fun h => absurd h hk⟩
    · exact clean_failJob c (by rw [hj]; simp)
  · split
    · exact ⟨fun x hx => Or.inr ⟨_, rfl⟩, by simp, fun h => absurd h hk⟩
    · rename_i hs
      exact ⟨fun x hx => (by rw [hx] at hs; simp at hs), by simp, fun h => absurd h hk⟩
  · split
    · exact c
    · split
      · exact c
      · exact ⟨fun x hx => (by cases hx), by simp, fun h => absurd h hk⟩
  · exact ⟨fun x hx => (by rw [i.cl _ hj] at hx; cases hx), by simp, fun h => absurd h hk⟩
  · have hn := (i.en _ hj).1
    unfold finish
    split
    · exact ⟨fun x hx => (by rw [hn] at hx; cases hx), by simp, by simp⟩
    · exact clean_failJob c (by rw [hj]; simp)

theorem clean_step {m : Mgr} (i : Inv m) (c : Clean m) (e : Ev) (hp : ∀ x, e ≠ .pollFail x) : Clean (step m e) := by
  cases e with
  | call j =>
    show Clean (call m j)
    unfold call
    split
    · exact c
    · rename_i hj
      dsimp only
      split
      · split
        · exact ⟨fun x hx => Or.inl (alive_of c (by rw [hj]; simp) hx), by simp, by simp⟩
        · exact clean_goError c
      · split
        · exact ⟨fun x hx => Or.inl (alive_of c (by rw [hj]; simp) hx), by simp, by simp⟩
        · exact clean_goError c
  | go r => exact clean_go i c r
  | poll a =>
    rw [step]
    split
    · exact ⟨c.alive, c.jobs, c.ready⟩
    · exact c
  | pollFail a => exact absurd rfl (hp a)
  | take a =>
    rw [step]
    split
    · rename_i h
      refine ⟨fun x hx => ?_, c.jobs, c.ready⟩
      rcases i.msgs h.2 with h' | ⟨j, h' | h'⟩
      · have := i.client (by rw [i.live a h.1]; simp); rw [h'] at this; cases this
      · exact Or.inr ⟨j, h'⟩
      · have := i.live a h.1; rw [i.cl j h'] at this; cases this
    · exact c
  | design t =>
    rw [step]
    split
    · rename_i h
      obtain ⟨hj, ht, ha⟩ := h
      refine ⟨c.alive, c.jobs, fun _ => c.ready ?_⟩
      rw [allowed_iff] at ha
      have hs := i.idle hj
      simp at ht hs ha ⊢
      rcases ht with h | h | h <;> subst h <;> rcases hs with h | h | h | h | h <;> simp_all
    · exact c

theorem clean_run {m : Mgr} (i : Inv m) (c : Clean m) (es : List Ev) (hp : ∀ x, Ev.pollFail x ∉ es) : Clean (run m es) := by
  induction es generalizing m with
  | nil => exact c
  | cons e es ih =>
    refine ih (inv_step i e) (clean_step i c e fun x h => hp x (by rw [h]; exact List.mem_cons_self)) fun x h => ?_
    exact hp x (List.mem_cons_of_mem _ h)

/-- If polling has not failed since the PandA was last Disabled, which it is to begin with, then while it is Ready it is
polled.  What is missing for the whole claim is what follows a failure: see `failed_poll_is_final`. -/
theorem ready_is_polled_partial (before since : List Ev) (hd : (run start before).st = .disabled)
    (hp : ∀ i, Ev.pollFail i ∉ since) (h : (run start (before ++ since)).st = .ready) :
    Polled (run start (before ++ since)) ∧ (run start (before ++ since)).client = true := by
  have i := inv (before ++ since)
  have c : Clean (run start (before ++ since)) := by
    rw [run, List.foldl_append]
    exact clean_run (inv before) (clean_off (inv before) hd) since hp
  have hn := c.ready (by rw [h]; decide)
  refine ⟨(polled_iff _).2 fun hl => ?_, i.client hn⟩
  cases hs : (run start (before ++ since)).spawned with
  | none => exact hn hs
  | some x =>
    rcases c.alive x hs with h' | ⟨j, h'⟩
    · rw [hl] at h'; cases h'
    · have := jobSt i h'
      rw [h] at this
      simp at this

example : (run start (initOk ++ disableOk (run start initOk))).st = .disabled ∧
    (run start (initOk ++ disableOk (run start initOk) ++ resetOk)).st = .ready := by decide +kernel

/-! ### a failed poll -/

/-- The loop that was spawned has ended, and nobody has disabled the PandA since -/
structure Dead (m : Mgr) : Prop where
  spawned : m.spawned ≠ none
  live : m.live = []
  job : ∀ j p, m.job = some (j, p) → Up p

theorem dead_step {m : Mgr} (d : Dead m) (e : Ev) (hd : e ≠ .call .disable) : Dead (step m e) := by
  obtain ⟨hs, hl, hj⟩ := d
  have fail : ∀ m' : Mgr, m'.spawned = m.spawned → m'.live = m.live → Dead (failJob m') := by
    intro m' h1 h2
    unfold failJob
    refine ⟨?_, ?_, ?_⟩
    · rw [goError_spawned]; show m'.spawned ≠ none; rw [h1]; exact hs
    · rw [goError_live]; show m'.live = []; rw [h2]; exact hl
    · intro j p h; rw [goError_job] at h; cases h
  have err : Dead (goError m) := by
    refine ⟨?_, ?_, ?_⟩
    · rw [goError_spawned]; exact hs
    · rw [goError_live]; exact hl
    · intro j p h; rw [goError_job] at h; exact hj j p h
  cases e with
  | call j =>
    show Dead (call m j)
    unfold call
    split
    · exact ⟨hs, hl, hj⟩
    · have hne : j ≠ .disable := fun h => hd (by rw [h])
      rw [if_neg hne, if_neg hne]
      dsimp only
      by_cases ha : allowed m.st .resetting = true
      · rw [if_pos ha]; exact ⟨hs, hl, fun a b h => by cases h; decide⟩
      · rw [if_neg ha]; exact err
  | go r =>
    show Dead (go m r)
    unfold go
    split
    · exact ⟨hs, hl, hj⟩
    all_goals (rename_i hx; have hu := hj _ _ hx)
    · split
      · exact ⟨hs, hl, fun a b h => by cases h; decide⟩
      · dsimp only
        split
        · exact ⟨hs, hl, fun a b h => by cases h; decide⟩
        · exact fail _ rfl rfl
    · split
      · split
        · exact ⟨hs, hl, fun a b h => by cases h; decide⟩
        · exact fail _ rfl rfl
        · exact fail _ rfl rfl
      · exact ⟨hs, hl, fun a b h => by cases h; decide⟩
    · rw [if_neg hs]
      exact ⟨hs, hl, fun a b h => by cases h; decide⟩
    · split
      · refine ⟨hs, hl, fun a b h => ?_⟩
        dsimp only at h
        split at h <;> cases h <;> decide
      · exact fail _ rfl rfl
    · split
      · exact ⟨hs, hl, fun a b h => by cases h; decide⟩
      · exact fail _ rfl rfl
    · unfold finish
      split
      · exact ⟨hs, hl, fun a b h => by cases h⟩
      · exact fail _ rfl rfl
    all_goals exact absurd hu (by decide)
  | poll a => rw [step, hl]; exact ⟨hs, hl, hj⟩
  | pollFail a => rw [step, hl]; exact ⟨hs, hl, hj⟩
  | take a =>
    rw [step, if_neg (by rw [hl]; simp)]; exact ⟨hs, hl, hj⟩
  | design t =>
    rw [step]
    split
    · exact ⟨hs, hl, hj⟩
    · exact ⟨hs, hl, hj⟩

theorem dead_run {m : Mgr} (d : Dead m) (es : List Ev) (hd : Ev.call .disable ∉ es) : Dead (run m es) := by
  induction es generalizing m with
  | nil => exact d
  | cons e es ih =>
    refine ih (dead_step d e fun h => hd (by rw [h]; exact List.mem_cons_self)) fun h => hd (List.mem_cons_of_mem _ h)

/-- A call of `disable` is at its own places -/
def Own (m : Mgr) : Prop := ∀ j p, m.job = some (j, p) → (j = .disable ↔ ¬ Up p)

theorem own_step {m : Mgr} (o : Own m) (e : Ev) : Own (step m e) := by
  have err : ∀ m' : Mgr, m'.job = m.job ∨ m'.job = none → Own (goError m') := by
    intro m' h j p hj
    rw [goError_job] at hj
    rcases h with h | h
    · rw [h] at hj; exact o j p hj
    · rw [h] at hj; cases hj
  cases e with
  | call j =>
    show Own (call m j)
    unfold call
    split
    · exact o
    · by_cases hd : j = .disable
      · subst hd
        rw [if_pos rfl, if_pos rfl]
        dsimp only
        by_cases ha : allowed m.st .disabling = true
        · rw [if_pos ha]; intro a b h; cases h; decide
        · rw [if_neg ha]; exact err m (Or.inl rfl)
      · rw [if_neg hd, if_neg hd]
        dsimp only
        by_cases ha : allowed m.st .resetting = true
        · rw [if_pos ha]; intro a b h; cases h; revert hd; cases j <;> decide
        · rw [if_neg ha]; exact err m (Or.inl rfl)
  | go r =>
    show Own (go m r)
    unfold go
    split
    · exact o
    all_goals (rename_i hx; have hu := o _ _ hx; rename_i j)
    all_goals first
      | (split
         · intro a b h; simp at h; obtain ⟨rfl, rfl⟩ := h; revert hu; cases j <;> decide
         · intro a b h; simp at h; obtain ⟨rfl, rfl⟩ := h; revert hu; cases j <;> decide)
      | skip
    · split
      · intro a b h; simp at h; obtain ⟨rfl, rfl⟩ := h; revert hu; cases j <;> decide
      · dsimp only
        split
        · intro a b h; simp at h; obtain ⟨rfl, rfl⟩ := h; revert hu; cases j <;> decide
        · exact err _ (Or.inr rfl)
    · split
      · split
        · intro a b h; simp at h; obtain ⟨rfl, rfl⟩ := h; revert hu; cases j <;> decide
        · exact err _ (Or.inr rfl)
        · exact err _ (Or.inr rfl)
      · intro a b h; simp at h; obtain ⟨rfl, rfl⟩ := h; revert hu; cases j <;> decide
    · split
      · intro a b h; simp at h; obtain ⟨rfl, rfl⟩ := h; revert hu; cases j <;> decide
      · exact err _ (Or.inr rfl)
    · split
      · intro a b h; simp at h; obtain ⟨rfl, rfl⟩ := h; revert hu; cases j <;> decide
      · exact err _ (Or.inr rfl)
    · unfold finish
      split
      · intro a b h; cases h
      · exact err _ (Or.inr rfl)
    · split
      · intro a b h; simp at h; obtain ⟨rfl, rfl⟩ := h; revert hu; cases j <;> decide
      · exact err _ (Or.inr rfl)
    · split
      · exact o
      · split
        · exact o
        · intro a b h; simp at h; obtain ⟨rfl, rfl⟩ := h; revert hu; cases j <;> decide
    · intro a b h; simp at h; obtain ⟨rfl, rfl⟩ := h; revert hu; cases j <;> decide
    · unfold finish
      split
      · intro a b h; cases h
      · exact err _ (Or.inr rfl)
  | poll a => rw [step]; split <;> exact o
  | pollFail a => rw [step]; split <;> first | exact o | exact err _ (Or.inl rfl)
  | take a => rw [step]; split <;> exact o
  | design t => rw [step]; split <;> exact o

theorem own (es : List Ev) : Own (run start es) := by
  suffices ∀ m, Own m → Own (run m es) from this start (by intro j p h; cases h)
  induction es with
  | nil => exact fun m o => o
  | cons e es ih => exact fun m o => ih _ (own_step o e)

/-- Once polling a PandA has failed, it is never polled again until it is disabled: `reset` does not see that the loop has
ended -/
theorem failed_poll_is_final (es more : List Ev) (i : Nat) (hp : (run start es).polls < (run start (es ++ [.poll i])).polls)
    (hj : ∀ p, (run start es).job ≠ some (.disable, p)) (hd : Ev.call .disable ∉ more) :
    ¬ Polled (run start (es ++ [.pollFail i] ++ more)) := by
  replace hp : i ∈ (run start es).live := by
    rw [run, run, List.foldl_append] at hp
    exact can_poll hp
  have hj2 : ∀ j p, (run start es).job = some (j, p) → Up p := by
    intro j p h
    have := own es j p h
    by_cases hu : Up p
    · exact hu
    · exact absurd (this.2 hu ▸ h) (hj p)
  have d : Dead (step (run start es) (.pollFail i)) := by
    have hs := (inv es).live i hp
    rw [step, if_pos hp]
    refine ⟨?_, ?_, ?_⟩
    · rw [goError_spawned]; show (run start es).spawned ≠ none; rw [hs]; simp
    · rw [goError_live]
      show (run start es).live.filter (· ≠ i) = []
      rw [List.filter_eq_nil_iff]
      intro a ha
      have := (inv es).live a ha
      rw [hs] at this
      cases this
      simp
    · intro j p h; rw [goError_job] at h; exact hj2 j p h
  have := dead_run d more hd
  rw [run, List.foldl_append, List.foldl_append]
  exact fun h => (polled_iff _).1 h this.live

theorem goError_fault {m : Mgr} (h : m.st = .fault) : (goError m).st = .fault := by
  unfold goError; rw [if_pos h]; exact h

theorem fault_step {m : Mgr} (h : m.st = .fault) (e : Ev) (he : ∀ j, e ≠ .call j) : (step m e).st = .fault := by
  have hn : ∀ t, t ∈ [St.ready, .disabled, .saving, .loading] → allowed m.st t = false := by
    intro t ht
    rw [h]
    cases ha : allowed .fault t with
    | false => rfl
    | true =>
      rw [allowed_iff] at ha
      simp at ht
      rcases ht with rfl | rfl | rfl | rfl <;> simp at ha
  cases e with
  | call j => exact absurd rfl (he j)
  | go r =>
    show (go m r).st = .fault
    unfold go finish failJob
    split
    · exact h
    all_goals (repeat' split)
    all_goals first
      | exact h
      | exact goError_fault h
      | (rename_i ha; rw [hn _ (by decide)] at ha; cases ha)
  | poll a => rw [step]; split <;> exact h
  | pollFail a => rw [step]; split <;> first | exact h | exact goError_fault h
  | take a => rw [step]; split <;> exact h
  | design t =>
    rw [step]
    split
    · rename_i hx
      obtain ⟨-, ht, ha⟩ := hx
      rw [hn t (by simp at ht ⊢; rcases ht with h | h | h <;> simp [h])] at ha
      cases ha
    · exact h

/-- When polling fails the block is in Fault, whatever is under way, and stays there until it is next reset or disabled: a
`reset` or `disable` that is under way does not hide it -/
theorem failed_poll_shows (es more : List Ev) (i : Nat) (hp : (run start es).polls < (run start (es ++ [.poll i])).polls)
    (hm : ∀ j, Ev.call j ∉ more) : (run start (es ++ [.pollFail i] ++ more)).st = .fault := by
  replace hp : i ∈ (run start es).live := by
    rw [run, run, List.foldl_append] at hp
    exact can_poll hp
  have h0 : (step (run start es) (.pollFail i)).st = .fault := by
    have iv := inv es
    have hs := iv.live i hp
    rw [step, if_pos hp, goError_st]
    show (run start es).st ∈ _
    by_cases hd : (run start es).st = .disabled
    · rw [(iv.off hd).1] at hs; cases hs
    · cases hj : (run start es).job with
      | none => have := iv.idle hj; simp at this ⊢; rcases this with h | h | h | h | h <;> simp_all
      | some x => have := jobSt iv hj; simp at this ⊢; rcases this with h | h | h <;> simp_all
  rw [run, List.foldl_append, List.foldl_append]
  show (run (step (run start es) (.pollFail i)) more).st = .fault
  generalize step (run start es) (.pollFail i) = m at h0
  induction more generalizing m with
  | nil => exact h0
  | cons e more ih =>
    exact ih (fun j h => hm j (List.mem_cons_of_mem _ h)) _
      (fault_step h0 e fun j h => hm j (by rw [h]; exact List.mem_cons_self))

/-- a poll that fails while the PandA is being reset -/
example : let es := [Ev.call .init, .go .ok, .go .ok, .go .ok]
    (run start es).polls < (run start (es ++ [.poll 0])).polls ∧ (run start es).job ≠ none ∧
    (run start (es ++ [.go .ok, .go .ok, .go .ok])).st = .ready ∧
    (run start (es ++ [.pollFail 0] ++ [.go .ok, .go .ok, .go .ok])).st = .fault := by decide +kernel

/-- A PandA that lost its connection and was reset is Ready, and is not polled: not now, nor after any number of resets -/
theorem ready_not_polled : (run start (initOk ++ [.pollFail 0] ++ resetOk)).st = .ready ∧
    ∀ more, Ev.call .disable ∉ more → ¬ Polled (run start (initOk ++ [.pollFail 0] ++ (resetOk ++ more))) := by
  refine ⟨by decide +kernel, fun more hm => failed_poll_is_final _ _ 0 (by decide +kernel) ?_ ?_⟩
  · have h : (run start initOk).job = none := by decide +kernel
    rw [h]; simp
  · intro h
    rcases List.mem_append.1 h with h | h
    · exact absurd h (by decide)
    · exact hm h

/-! ### disable and reset -/

theorem run_append (m : Mgr) (a b : List Ev) : run m (a ++ b) = run (run m a) b := List.foldl_append

theorem takes_idle {m : Mgr} (hl : m.live = []) (l : List Nat) : run m (l.map .take) = m := by
  induction l with
  | nil => rfl
  | cons a l ih =>
    show run (step m (.take a)) (l.map .take) = m
    rw [step, if_neg (by rw [hl]; simp)]
    exact ih

theorem takes {m : Mgr} (hm : 0 < m.msgs) (hu : ∀ i ∈ m.live, ∀ k ∈ m.live, i = k) :
    ∃ n, run m (m.live.map .take) = { m with live := [], msgs := n } := by
  cases hl : m.live with
  | nil => exact ⟨m.msgs, by rw [List.map_nil, ← hl]; rfl⟩
  | cons a l =>
    have hf : m.live.filter (· ≠ a) = [] := by
      rw [List.filter_eq_nil_iff]
      intro b hb
      have := hu b hb a (by rw [hl]; exact List.mem_cons_self)
      simp [this]
    refine ⟨m.msgs - 1, ?_⟩
    show run (step m (.take a)) (l.map .take) = _
    rw [step, if_pos ⟨by rw [hl]; exact List.mem_cons_self, hm⟩, hf]
    exact takes_idle rfl l

/-- Where the manager is after `disable` -/
theorem disabled_at {m : Mgr} (i : Inv m) (hj : m.job = none) :
    ∃ n, run m (disableOk m) = { m with st := .disabled, client := false, spawned := none, live := [], msgs := n, job := none } := by
  by_cases hd : m.st = .disabled
  · obtain ⟨h1, h2⟩ := i.off hd
    have hl : m.live = [] := by
      cases hl : m.live with
      | nil => rfl
      | cons a l => have := i.live a (by rw [hl]; exact List.mem_cons_self); rw [h1] at this; cases this
    have hna : allowed .disabled .disabling = false := by
      cases h : allowed .disabled .disabling with
      | false => rfl
      | true => rw [allowed_iff] at h; simp at h
    have hc : step m (.call .disable) = m := by
      show call m .disable = m
      unfold call
      rw [hj, hd]
      dsimp only
      rw [if_pos rfl, if_pos rfl, hna, if_neg (by simp), goError_off hd]
    have hg : step m (.go .ok) = m := by
      show go m .ok = m
      unfold go
      rw [hj]
    refine ⟨m.msgs, ?_⟩
    rw [disableOk, hl]
    show step (step (step (step (step (step m (.call .disable)) (.go .ok)) (.go .ok)) (.go .ok)) (.go .ok)) (.go .ok) = _
    rw [hc, hg, hg, hg, hg, hg]
    obtain ⟨st, client, made, inited, spawned, live, next, msgs, polls, job⟩ := m
    simp_all
  · have ha : allowed m.st .disabling = true := by
      have := i.idle hj
      rw [allowed_iff]
      simp at this ⊢
      rcases this with h | h | h | h | h <;> simp_all
    have hc : step m (.call .disable) = { m with st := .disabling, job := some (.disable, .dHooks) } := by
      show call m .disable = _
      unfold call
      rw [hj]
      dsimp only
      rw [if_pos rfl, if_pos rfl, ha, if_pos rfl]
    have hu : ∀ i ∈ m.live, ∀ k ∈ m.live, i = k := by
      intro a h1 b h2
      have e1 := i.live a h1
      rw [i.live b h2] at e1
      exact (Option.some.inj e1).symm
    have hdis : allowed .disabling .disabled = true := by rw [allowed_iff]; decide
    rw [disableOk, run_append, run_append]
    show ∃ n, run (run (run (step m (.call .disable)) [.go .ok, .go .ok]) (m.live.map .take)) [.go .ok, .go .ok, .go .ok] = _
    rw [hc]
    rcases Option.eq_none_or_eq_some m.spawned with hs | ⟨x, hs⟩
    · have hl : m.live = [] := by
        cases hl : m.live with
        | nil => rfl
        | cons a l => have := i.live a (by rw [hl]; exact List.mem_cons_self); rw [hs] at this; cases this
      have e1 : run { m with st := .disabling, job := some (.disable, .dHooks) } [.go .ok, .go .ok] =
          { m with st := .disabling, job := some (.disable, .dClient) } := by
        simp [run, step, go, hs]
      rw [e1, hl]
      refine ⟨m.msgs, ?_⟩
      simp [run, step, go, hs, hl, finish, hdis]
    · have e1 : run { m with st := .disabling, job := some (.disable, .dHooks) } [.go .ok, .go .ok] =
          { m with st := .disabling, msgs := m.msgs + 1, job := some (.disable, .dWait) } := by
        simp [run, step, go, hs]
      rw [e1]
      obtain ⟨n, e2⟩ := takes (m := { m with st := .disabling, msgs := m.msgs + 1, job := some (.disable, .dWait) })
        (by simp) hu
      rw [e2]
      refine ⟨n, ?_⟩
      simp [run, step, go, hs, finish, hdis]

/-- Whatever happened before, a PandA that is disabled while nothing else is going on becomes Disabled, if nothing raises -/
theorem disable_disables (es : List Ev) (hj : (run start es).job = none) :
    (run start (es ++ disableOk (run start es))).st = .disabled := by
  rw [run_append]
  obtain ⟨n, e⟩ := disabled_at (inv es) hj
  rw [e]

/-- Whatever happened before, a PandA that is disabled and then reset, while nothing else is going on and nothing raises, is
Ready, connected and polled.  This is how to get one back of which polling failed. -/
theorem disable_then_reset (es : List Ev) (hj : (run start es).job = none) :
    (run start (es ++ disableOk (run start es) ++ resetOk)).st = .ready ∧
      (run start (es ++ disableOk (run start es) ++ resetOk)).client = true ∧
      Polled (run start (es ++ disableOk (run start es) ++ resetOk)) := by
  rw [run_append, run_append, polled_iff]
  obtain ⟨n, e⟩ := disabled_at (inv es) hj
  rw [e]
  generalize run start es = m
  have h1 : allowed .disabled .resetting = true := by rw [allowed_iff]; decide
  have h2 : allowed .resetting .ready = true := by rw [allowed_iff]; decide
  by_cases hm : m.made = .nothing
  · simp [resetOk, run, step, go, call, h1, h2, hm, finish]
  · simp [resetOk, run, step, go, call, h1, h2, hm, finish]

example : (run start (initOk ++ [.pollFail 0])).job = none ∧ (run start (initOk ++ [.pollFail 0])).st = .fault ∧
    (run start (initOk ++ [.pollFail 0] ++ disableOk (run start (initOk ++ [.pollFail 0])) ++ resetOk)).live = [1] := by
  decide +kernel

/-! ### blocks -/

theorem go_made (m : Mgr) (r : Out) (h : m.made ≠ .nothing) : (go m r).made = m.made := by
  unfold go finish failJob
  repeat' (split <;> try rfl)
  all_goals first
    | exact goError_made _
    | exact absurd ‹_› h

theorem made_run {m : Mgr} (h : m.made ≠ .nothing) (es : List Ev) : (run m es).made = m.made := by
  induction es generalizing m with
  | nil => rfl
  | cons e es ih =>
    have hs : (step m e).made = m.made := by
      cases e with
      | call j => exact (call_keeps m j).2.2.2.1
      | go r => exact go_made m r h
      | poll a => rw [step]; split <;> rfl
      | pollFail a => rw [step]; split <;> first | rfl | exact goError_made _
      | take a => rw [step]; split <;> rfl
      | design t => rw [step]; split <;> rfl
    show (run (step m e) es).made = m.made
    rw [ih (by rw [hs]; exact h), hs]

/-- The blocks of a PandA are made once: whatever happens after, there are no others -/
theorem blocks_made_once (es more : List Ev) (h : (run start es).made ≠ .nothing) :
    (run start (es ++ more)).made = (run start es).made := by
  rw [run_append]; exact made_run h more

/-- If making its blocks never failed half way through, a PandA that is Ready has all of them.  What is missing for the whole
claim: see `some_blocks_never_made`. -/
theorem ready_has_all_blocks_partial (es : List Ev) (hf : Ev.go .failHalfWay ∉ es) (h : (run start es).st = .ready) :
    (run start es).made = .whole := by
  have hn := ready_has_blocks es h
  have key : ∀ m : Mgr, m.made ≠ .part → (run m es).made ≠ .part := by
    clear hn h
    induction es with
    | nil => exact fun m h => h
    | cons e es ih =>
      intro m hm
      refine ih (fun h => hf (List.mem_cons_of_mem _ h)) _ ?_
      cases e with
      | call j => show (call m j).made ≠ _; rw [(call_keeps m j).2.2.2.1]; exact hm
      | go r =>
        show (go m r).made ≠ _
        have hr : r ≠ .failHalfWay := fun h => hf (by rw [h]; exact List.mem_cons_self)
        unfold go finish failJob
        repeat' (split <;> try first | exact hm | (simp; done))
        all_goals first
          | (rw [goError_made]; exact hm)
          | exact absurd rfl hr
      | poll a => rw [step]; split <;> exact hm
      | pollFail a => rw [step]; split <;> first | exact hm | (rw [goError_made]; exact hm)
      | take a => rw [step]; split <;> exact hm
      | design t => rw [step]; split <;> exact hm
  have := key start (by decide)
  cases hx : (run start es).made with
  | nothing => exact absurd hx hn
  | part => exact absurd hx this
  | whole => rfl

example : Ev.go .failHalfWay ∉ initOk ∧ (run start initOk).st = .ready := by decide +kernel

/-- If one block of a PandA could not be made when the process started, the PandA can be reset, is Ready and is polled, but
those of its blocks that come after are missing, and no call brings them back -/
theorem some_blocks_never_made :
    let es := [Ev.call .init, .go .ok, .go .failHalfWay] ++ resetOk
    (run start es).st = .ready ∧ Polled (run start es) ∧ ∀ more, (run start (es ++ more)).made = .part := by
  refine ⟨by decide +kernel, (polled_iff _).2 (by decide +kernel), fun more => ?_⟩
  rw [blocks_made_once _ more (by decide +kernel)]
  decide +kernel

/-! ### the layout -/

/-- `init` is not under way -/
def NoInit (m : Mgr) : Prop := ∀ j p, m.job = some (j, p) → j ≠ .init ∧ p ≠ .layout

theorem noInit_step {m : Mgr} (o : NoInit m) (e : Ev) (he : e ≠ .call .init) :
    NoInit (step m e) ∧ (step m e).inited = m.inited := by
  have err : ∀ m' : Mgr, (m'.job = m.job ∨ m'.job = none) → m'.inited = m.inited →
      NoInit (goError m') ∧ (goError m').inited = m.inited := by
    intro m' h hi
    refine ⟨fun j p hj => ?_, by rw [goError_inited, hi]⟩
    rw [goError_job] at hj
    rcases h with h | h
    · rw [h] at hj; exact o j p hj
    · rw [h] at hj; cases hj
  cases e with
  | call j =>
    have hi : j ≠ .init := fun h => he (by rw [h])
    refine ⟨?_, (call_keeps m j).2.2.2.2⟩
    show NoInit (call m j)
    unfold call
    split
    · exact o
    · by_cases hd : j = .disable
      · subst hd
        rw [if_pos rfl, if_pos rfl]
        dsimp only
        by_cases ha : allowed m.st .disabling = true
        · rw [if_pos ha]; intro a b h; cases h; decide
        · rw [if_neg ha]; exact (err m (Or.inl rfl) rfl).1
      · rw [if_neg hd, if_neg hd]
        dsimp only
        by_cases ha : allowed m.st .resetting = true
        · rw [if_pos ha]; intro a b h; cases h; exact ⟨hi, by decide⟩
        · rw [if_neg ha]; exact (err m (Or.inl rfl) rfl).1
  | go r =>
    show NoInit (go m r) ∧ (go m r).inited = m.inited
    unfold go finish failJob
    split
    · exact ⟨o, rfl⟩
    all_goals (rename_i hx; obtain ⟨hu, hv⟩ := o _ _ hx)
    all_goals (repeat' split)
    all_goals first
      | exact ⟨o, rfl⟩
      | exact err _ (Or.inr rfl) rfl
      | exact absurd rfl hv
      | (refine ⟨fun a b h => ?_, rfl⟩; simp at h; obtain ⟨rfl, rfl⟩ := h; exact ⟨hu, by first | decide | (simp [hu])⟩)
      | (refine ⟨fun a b h => ?_, rfl⟩; cases h)
  | poll a => rw [step]; split <;> exact ⟨o, rfl⟩
  | pollFail a => rw [step]; split <;> first | exact ⟨o, rfl⟩ | exact err _ (Or.inl rfl) rfl
  | take a => rw [step]; split <;> exact ⟨o, rfl⟩
  | design t => rw [step]; split <;> exact ⟨o, rfl⟩

theorem noInit_run {m : Mgr} (o : NoInit m) (es : List Ev) (he : Ev.call .init ∉ es) : (run m es).inited = m.inited := by
  induction es generalizing m with
  | nil => rfl
  | cons e es ih =>
    obtain ⟨h1, h2⟩ := noInit_step o e fun h => he (by rw [h]; exact List.mem_cons_self)
    show (run (step m e) es).inited = _
    rw [ih h1 fun h => he (List.mem_cons_of_mem _ h), h2]

/-- If a PandA could not be reached when the process started, it can be reset when it can: it is then Ready, has its blocks
and is polled.  But what `init` has left to do (the parts find their blocks, the first layout or the initial design) is not done
by then or by any later call, as only the start of the process calls `init`. -/
theorem reset_leaves_out_layout :
    let es := [Ev.call .init, .go .fail] ++ resetOk
    (run start es).st = .ready ∧ (run start es).made = .whole ∧ Polled (run start es) ∧
      ∀ more, Ev.call .init ∉ more → (run start (es ++ more)).inited = false := by
  refine ⟨by decide +kernel, by decide +kernel, (polled_iff _).2 (by decide +kernel), fun more hm => ?_⟩
  have hj : (run start ([Ev.call .init, .go .fail] ++ resetOk)).job = none := by decide +kernel
  have hi : (run start ([Ev.call .init, .go .fail] ++ resetOk)).inited = false := by decide +kernel
  rw [run_append, noInit_run (by intro j p h; rw [hj] at h; cases h) more hm, hi]

/-- Nothing but `init` has made the PandA Ready -/
structure First (m : Mgr) : Prop where
  job : ∀ j p, m.job = some (j, p) → j ≠ .reset
  ready : m.st ∈ [St.ready, .saving, .loading] → m.inited = true
  ending : ∀ j, m.job = some (j, .ending) → m.inited = true

theorem first_goError {m m' : Mgr} (f : First m) (h : m'.job = m.job ∨ m'.job = none) (hi : m'.inited = m.inited)
    (hs : m'.st = m.st) : First (goError m') := by
  have hj : ∀ j p, (goError m').job = some (j, p) → m.job = some (j, p) := by
    intro j p hj
    rw [goError_job] at hj
    rcases h with h | h
    · rw [h] at hj; exact hj
    · rw [h] at hj; cases hj
  refine ⟨fun j p hx => f.job j p (hj j p hx), fun hr => ?_, fun j hx => ?_⟩
  · rw [goError_inited, hi]
    refine f.ready ?_
    unfold goError at hr
    split at hr
    · rw [hs] at hr; exact hr
    · split at hr
      · simp at hr
      · rw [hs] at hr; exact hr
  · rw [goError_inited, hi]; exact f.ending j (hj j _ hx)

theorem first_step {m : Mgr} (i : Inv m) (o : Own m) (f : First m) (e : Ev) (he : e ≠ .call .reset) : First (step m e) := by
  have err : ∀ m' : Mgr, (m'.job = m.job ∨ m'.job = none) → m'.inited = m.inited → m'.st = m.st → First (goError m') :=
    fun m' => first_goError f
  cases e with
  | call j =>
    have hi : j ≠ .reset := fun h => he (by rw [h])
    show First (call m j)
    unfold call
    split
    · exact f
    · by_cases hd : j = .disable
      · subst hd
        rw [if_pos rfl, if_pos rfl]
        dsimp only
        by_cases ha : allowed m.st .disabling = true
        · rw [if_pos ha]; exact ⟨fun a b h => by cases h; decide, by simp, fun a h => by cases h⟩
        · rw [if_neg ha]; exact err m (Or.inl rfl) rfl rfl
      · rw [if_neg hd, if_neg hd]
        dsimp only
        by_cases ha : allowed m.st .resetting = true
        · rw [if_pos ha]; exact ⟨fun a b h => by cases h; exact hi, by simp, fun a h => by cases h⟩
        · rw [if_neg ha]; exact err m (Or.inl rfl) rfl rfl
  | go r =>
    show First (go m r)
    have key : ∀ x, m.job = some x → m.st ∉ [St.ready, .saving, .loading] := by
      intro x hx hr
      have := jobSt i hx
      simp at this hr
      rcases this with h | h | h <;> rw [h] at hr <;> simp at hr
    unfold go finish failJob
    split
    · exact f
    all_goals (rename_i hx; have hu := f.job _ _ hx; have hk := key _ hx; have ho := o _ _ hx; clear key)
    all_goals (repeat' split)
    all_goals first
      | exact f
      | exact err _ (Or.inr rfl) rfl rfl
      | (refine ⟨fun a b h => ?_, fun h => absurd h hk, fun a h => ?_⟩
         · simp at h; obtain ⟨rfl, rfl⟩ := h; exact hu
         · simp at h; done)
      | (refine ⟨fun a b h => ?_, fun h => absurd h hk, fun a h => ?_⟩
         · simp at h; obtain ⟨rfl, rfl⟩ := h; exact hu
         · first | rfl | exact (absurd ((ho.2 (by decide)) : _ = Job.disable) (by assumption)))
      | skip
    · rename_i j _ hni
      cases j with
      | init => exact absurd rfl hni
      | reset => exact absurd rfl hu
      | disable => exact absurd (by decide) (ho.1 rfl)
    · exact ⟨fun a b h => (by cases h), fun _ => f.ending _ hx, fun a h => by cases h⟩
    · exact ⟨fun a b h => (by cases h), by simp, fun a h => by cases h⟩
  | poll a => rw [step]; split <;> exact ⟨f.job, f.ready, f.ending⟩
  | pollFail a => rw [step]; split <;> first | exact f | exact err _ (Or.inl rfl) rfl rfl
  | take a => rw [step]; split <;> exact ⟨f.job, f.ready, f.ending⟩
  | design t =>
    rw [step]
    split
    · rename_i h
      obtain ⟨hj, ht, ha⟩ := h
      refine ⟨f.job, fun _ => f.ready ?_, f.ending⟩
      rw [allowed_iff] at ha
      have hs := i.idle hj
      simp at ht hs ha ⊢
      rcases ht with h | h | h <;> subst h <;> rcases hs with h | h | h | h | h <;> simp_all
    · exact f

/-- A PandA that is Ready without having been reset has its first layout or its initial design.  What is missing for the whole
claim: see `reset_leaves_out_layout`. -/
theorem ready_is_laid_out_partial (es : List Ev) (hr : Ev.call .reset ∉ es) (h : (run start es).st = .ready) :
    (run start es).inited = true := by
  suffices ∀ m, Proofs.PandALife.Inv m → Own m → First m → First (run m es) by
    exact (this start inv_start (by intro j p h; cases h)
      ⟨fun j p h => (by cases h), by simp [start], fun j h => by cases h⟩).ready (by rw [h]; decide)
  clear h
  induction es with
  | nil => exact fun m _ _ f => f
  | cons e es ih =>
    intro m i o f
    exact ih (fun h => hr (List.mem_cons_of_mem _ h)) _ (inv_step i e) (own_step o e)
      (first_step i o f e fun h => hr (by rw [h]; exact List.mem_cons_self))

example : Ev.call .reset ∉ initOk ∧ (run start initOk).st = .ready := by decide +kernel

end Verif.Props.PandALife
