import Verif.Spec.Spawned
/-! C92: results of spawned functions, and stopping a process. -/
namespace Verif.Props.Spawned
open Verif Verif.Spawned

/-! ### results -/

/-- What holds in every history: the calls that have ended got the result or timed out, there are
tokens only once the result is there, and no more than one. -/
structure Inv {R : Type} (s : Spawned R) : Prop where
  ended : ∀ p ∈ s.ended, p.2 = .timedOut ∨ ∃ r, s.result = some r ∧ p.2 = .got r
  sig : s.signalled = true → s.result.isSome
  tok : s.queue ≤ 1 ∧ (s.signalled = false → s.queue = 0)

theorem answer_got {R : Type} {s : Spawned R} (h : s.result.isSome) : ∃ r, s.result = some r ∧ s.answer = .got r := by
  cases hr : s.result with
  | none => rw [hr] at h; cases h
  | some r => exact ⟨r, rfl, by unfold Spawned.answer; rw [hr]⟩

theorem inv_step {R : Type} (s : Spawned R) (op : Op R) (h : Inv s) : Inv (s.step op) := by
  obtain ⟨h1, h2, h3⟩ := h
  have ha : s.result.isSome → ∀ t, ∀ p ∈ s.ended ++ [(t, s.answer)],
      p.2 = .timedOut ∨ ∃ r, s.result = some r ∧ p.2 = .got r := by
    intro hs t p hp
    rcases List.mem_append.1 hp with hp | hp
    · exact h1 p hp
    · simp only [List.mem_singleton] at hp
      subst hp
      exact .inr (answer_got hs)
  cases op with
  | finish r =>
    unfold Spawned.step
    dsimp only
    split
    · rename_i hn
      have hn' : s.result = none := by simpa using hn
      refine ⟨?_, fun _ => rfl, h3⟩
      intro p hp
      rcases h1 p hp with h | ⟨r', hr, _⟩
      · exact .inl h
      · rw [hn'] at hr; cases hr
    · exact ⟨h1, h2, h3⟩
  | signal =>
    unfold Spawned.step
    dsimp only
    split
    · rename_i hn
      refine ⟨h1, fun _ => hn.1, ?_, by simp⟩
      have := h3.2 hn.2
      show s.queue + 1 ≤ 1
      omega
    · exact ⟨h1, h2, h3⟩
  | call t =>
    unfold Spawned.step
    dsimp only
    split
    · exact ⟨h1, h2, h3⟩
    · split
      · exact ⟨h1, h2, h3⟩
      · rename_i r hr
        exact ⟨ha (by rw [hr]; rfl) t, h2, h3⟩
  | take t =>
    unfold Spawned.step
    dsimp only
    split
    · rename_i hc
      have hsig : s.signalled = true := by
        cases hsg : s.signalled with
        | true => rfl
        | false => have := h3.2 hsg; omega
      refine ⟨ha (h2 hsig) t, h2, ?_, ?_⟩
      · show s.queue - 1 ≤ 1
        have := h3.1
        omega
      · intro hf; rw [show s.signalled = false from hf] at hsig; cases hsig
    · exact ⟨h1, h2, h3⟩
  | timeUp t =>
    unfold Spawned.step
    dsimp only
    split
    · refine ⟨?_, h2, h3⟩
      intro p hp
      rcases List.mem_append.1 hp with hp | hp
      · exact h1 p hp
      · simp only [List.mem_singleton] at hp
        subst hp
        exact .inl rfl
    · exact ⟨h1, h2, h3⟩

theorem inv_run {R : Type} (s : Spawned R) (ops : List (Op R)) (h : Inv s) : Inv (s.run ops) := by
  induction ops generalizing s with
  | nil => exact h
  | cons op ops ih => exact ih _ (inv_step s op h)

theorem inv_init {R : Type} : Inv ({} : Spawned R) := ⟨by simp, by simp, by simp⟩

theorem result_step {R : Type} (s : Spawned R) (op : Op R) (r : R) (h : s.result = some r) :
    (s.step op).result = some r := by
  cases op with
  | finish r' => simp [Spawned.step, h]
  | signal => unfold Spawned.step; dsimp only; split <;> exact h
  | call t =>
    unfold Spawned.step
    dsimp only
    split
    · exact h
    · rw [h]
  | take t => unfold Spawned.step; dsimp only; split <;> exact h
  | timeUp t => unfold Spawned.step; dsimp only; split <;> exact h

/-- C92. In every history, whoever waits and however the threads are interleaved: a call of `get` that
has ended gave what the function gave (its value, or its exception raised), or timed out; and what the
function gave is what it is for good. -/
theorem get_gives_result {R : Type} (ops : List (Op R)) (t : Nat) (o : Outcome R)
    (h : (t, o) ∈ (({} : Spawned R).run ops).ended) :
    o = .timedOut ∨ ∃ r, o = .got r ∧ ∀ more, ((({} : Spawned R).run ops).run more).result = some r := by
  rcases (inv_run {} ops inv_init).ended (t, o) h with h1 | ⟨r, h1, h2⟩
  · exact .inl h1
  · refine .inr ⟨r, h2, ?_⟩
    intro more
    generalize (({} : Spawned R).run ops) = s at h1
    clear h h2
    induction more generalizing s with
    | nil => exact h1
    | cons op more ih => exact ih _ (result_step s op r h1)

/-- C92. A call made when the function has finished ends at once with the result. -/
theorem get_after_end {R : Type} (s : Spawned R) (r : R) (hr : s.result = some r) (t : Nat) (ht : t ∉ s.waiting) :
    (s.step (.call t)).ended = s.ended ++ [(t, .got r)] ∧ (s.step (.call t)).waiting = s.waiting := by
  unfold Spawned.step
  dsimp only
  rw [if_neg ht, hr]
  simp [Spawned.answer, hr]

/-- If one thread waits at a time the token is there for the one that waits. -/
structure One {R : Type} (s : Spawned R) : Prop where
  inv : Inv s
  one : s.waiting.length ≤ 1
  tok : s.waiting ≠ [] → s.signalled = true → s.queue = 1

theorem one_step {R : Type} (s : Spawned R) (op : Op R) (h : One s)
    (hc : ∀ t, op = .call t → s.waiting = []) : One (s.step op) := by
  have hi := inv_step s op h.inv
  obtain ⟨h0, h1, h2⟩ := h
  have herase : ∀ t ∈ s.waiting, s.waiting.erase t = [] := by
    intro t ht
    apply List.eq_nil_of_length_eq_zero
    rw [List.length_erase_of_mem ht]; omega
  cases op with
  | finish r =>
    refine ⟨hi, ?_, ?_⟩ <;> (unfold Spawned.step; dsimp only; split)
    · exact h1
    · exact h1
    · exact h2
    · exact h2
  | signal =>
    refine ⟨hi, ?_, ?_⟩ <;> (unfold Spawned.step; dsimp only; split)
    · exact h1
    · exact h1
    · rename_i hn
      intro _ _
      show s.queue + 1 = 1
      rw [h0.tok.2 hn.2]
    · exact h2
  | call t =>
    have hw := hc t rfl
    refine ⟨hi, ?_, ?_⟩ <;> (unfold Spawned.step; dsimp only; split)
    · exact h1
    · split
      · simp [hw]
      · exact h1
    · exact h2
    · split
      · rename_i hr
        intro _ hs
        have := h0.sig hs
        rw [hr] at this; cases this
      · exact h2
  | take t =>
    refine ⟨hi, ?_, ?_⟩ <;> (unfold Spawned.step; dsimp only; split)
    · rename_i hn
      show (s.waiting.erase t).length ≤ 1
      rw [herase t hn.1]; simp
    · exact h1
    · rename_i hn
      intro hne
      exact absurd (herase t hn.1) hne
    · exact h2
  | timeUp t =>
    refine ⟨hi, ?_, ?_⟩ <;> (unfold Spawned.step; dsimp only; split)
    · rename_i hn
      show (s.waiting.erase t).length ≤ 1
      rw [herase t hn.1]; simp
    · exact h1
    · rename_i hn
      intro hne
      exact absurd (herase t hn.1) hne
    · exact h2

theorem one_run {R : Type} (s : Spawned R) (ops : List (Op R)) (h : One s) (ho : OneAtATime s ops) : One (s.run ops) := by
  induction ops generalizing s with
  | nil => exact h
  | cons op ops ih =>
    have hstep : One (s.step op) ∧ OneAtATime (s.step op) ops := by
      cases op with
      | call t => exact ⟨one_step s _ h (fun _ _ => ho.1), ho.2⟩
      | finish r => exact ⟨one_step s _ h (by intro t ht; cases ht), ho⟩
      | signal => exact ⟨one_step s _ h (by intro t ht; cases ht), ho⟩
      | take t => exact ⟨one_step s _ h (by intro t ht; cases ht), ho⟩
      | timeUp t => exact ⟨one_step s _ h (by intro t ht; cases ht), ho⟩
    exact ih _ hstep.1 hstep.2

/-- C92, in part: if threads call `get` one at a time then once the function has ended a thread that
waits does not time out, and its next step gives it the result. Missing: several threads waiting at a
time, of which only one is woken (`second_waiter_stuck`). -/
theorem waiter_woken_partial {R : Type} (ops : List (Op R)) (ho : OneAtATime {} ops) (t : Nat)
    (s : Spawned R) (hs : s = ({} : Spawned R).run ops) (ht : t ∈ s.waiting) (he : s.signalled = true) :
    ∃ r, s.result = some r ∧ (s.step (.take t)).ended = s.ended ++ [(t, .got r)] ∧
      (s.step (.take t)).waiting = [] ∧ s.step (.timeUp t) = s := by
  have h := one_run {} ops ⟨inv_init, by simp, by simp⟩ ho
  rw [← hs] at h
  have hne : s.waiting ≠ [] := List.ne_nil_of_mem ht
  have hq := h.tok hne he
  obtain ⟨r, hr, ha⟩ := answer_got (h.inv.sig he)
  refine ⟨r, hr, ?_, ?_, ?_⟩
  · unfold Spawned.step; dsimp only
    rw [if_pos ⟨ht, by omega⟩, ha]
  · unfold Spawned.step; dsimp only
    rw [if_pos ⟨ht, by omega⟩]
    apply List.eq_nil_of_length_eq_zero
    have := h.one
    show (s.waiting.erase t).length = 0
    rw [List.length_erase_of_mem ht]; omega
  · unfold Spawned.step; dsimp only
    rw [if_neg]
    rintro ⟨_, h0⟩
    omega

-- a thread times out, calls again and is woken; another calls later
example :
    let ops : List (Op Nat) := [.call 1, .timeUp 1, .call 1, .finish 5, .signal]
    OneAtATime {} ops ∧ (({} : Spawned Nat).run ops).waiting = [1] ∧
    (({} : Spawned Nat).run (ops ++ [.take 1, .call 2])).ended = [(1, .timedOut), (1, .got 5), (2, .got 5)] :=
  ⟨by simp [OneAtATime, Spawned.step], by decide, by decide⟩

theorem stuck_step {R : Type} (s : Spawned R) (op : Op R) (hr : s.result.isSome) (hs : s.signalled = true)
    (hq : s.queue = 0) : (s.step op).result.isSome ∧ (s.step op).signalled = true ∧ (s.step op).queue = 0 := by
  cases op with
  | finish r => simp only [Spawned.step]; split <;> simp_all
  | signal => simp only [Spawned.step]; split <;> simp_all
  | call t =>
    unfold Spawned.step
    dsimp only
    split
    · exact ⟨hr, hs, hq⟩
    · split <;> exact ⟨hr, hs, hq⟩
  | take t => simp only [Spawned.step]; split <;> simp_all
  | timeUp t => simp only [Spawned.step]; split <;> simp_all

/-- Disagreement with C92: two threads wait, the function ends and one of them is woken; whatever
happens afterwards the other one goes on waiting until its time is up, for ever if it gave none. -/
theorem second_waiter_stuck (more : List (Op Nat)) :
    let s := (({} : Spawned Nat).run [.call 1, .call 2, .finish 5, .signal, .take 1])
    s.ended = [(1, .got 5)] ∧ (2 ∈ (s.run more).waiting ∨ (2, .timedOut) ∈ (s.run more).ended) := by
  intro s
  refine ⟨by decide, ?_⟩
  have key : ∀ (more : List (Op Nat)) (s : Spawned Nat), s.result.isSome → s.signalled = true → s.queue = 0 →
      (2 ∈ s.waiting ∨ (2, Outcome.timedOut) ∈ s.ended) →
      (2 ∈ (s.run more).waiting ∨ (2, Outcome.timedOut) ∈ (s.run more).ended) := by
    intro more
    induction more with
    | nil => intro s _ _ _ h; exact h
    | cons op more ih =>
      intro s hr hs hq h
      obtain ⟨a, b, c⟩ := stuck_step s op hr hs hq
      refine ih _ a b c ?_
      cases op with
      | finish r => simp only [Spawned.step]; split <;> exact h
      | signal => simp only [Spawned.step]; split <;> exact h
      | call t =>
        unfold Spawned.step
        dsimp only
        split
        · exact h
        · split
          · exact h.imp (fun x => List.mem_append_left _ x) (fun x => x)
          · exact h.imp (fun x => x) (fun x => List.mem_append_left _ x)
      | take t => simp only [Spawned.step]; rw [if_neg (by omega)]; exact h
      | timeUp t =>
        simp only [Spawned.step]
        split
        · rcases h with h | h
          · by_cases ht : t = 2
            · subst ht; exact .inr (List.mem_append_right _ (by simp))
            · left
              show 2 ∈ s.waiting.erase t
              rw [List.mem_erase_of_ne (fun hc => ht hc.symm)]
              exact h
          · exact .inr (List.mem_append_left _ h)
        · exact h
  exact key more s (by decide) (by decide) (by decide) (.inl (by decide))

/-! ### stopping -/

/-- What holds in every history of a process that has not lost sight of a function: those spawned since
the start and not finished are in the list, and those the loop has passed have finished. -/
structure PInv (s : Proc) : Prop where
  listed : ∀ i, s.since ≤ i → i < s.next → i ∉ s.finished → i ∈ s.spawned
  since_le : s.since ≤ s.next
  live : ∀ l, s.loop = some l → l.old = none ∧ s.phase = .stopping ∧ l.at_ ≤ s.spawned.length ∧
    ∀ k i, k < l.at_ → s.spawned[k]? = some i → i ∈ s.finished
  quiet : s.phase ≠ .stopping → s.loop = none

theorem spawn_ok (limit : Nat) (s : Proc) (h : PInv s) (hp : s.loop ≠ none → s.count + 1 ≤ limit) :
    PInv (s.spawn limit) := by
  obtain ⟨h1, h2, h3, h5⟩ := h
  have hl : ∀ i, s.since ≤ i → i < s.next + 1 → i ∉ s.finished → i ∈ s.spawned ++ [s.next] := by
    intro i a b c
    by_cases he : i = s.next
    · subst he; simp
    · exact List.mem_append_left _ (h1 i a (by omega) c)
  unfold Proc.spawn
  dsimp only
  split
  · rename_i hc
    have hn : s.loop = none := by
      cases hl : s.loop with
      | none => rfl
      | some l => exact absurd (hp (by rw [hl]; simp)) (by omega)
    refine ⟨?_, ?_, ?_, ?_⟩
    · intro i a b c
      show i ∈ (s.spawned ++ [s.next]).filter (fun j => !decide (j ∈ s.finished))
      rw [List.mem_filter]
      exact ⟨hl i a b c, by simpa using c⟩
    · show s.since ≤ s.next + 1; omega
    · intro l hl'
      have : s.loop.map _ = some l := hl'
      rw [hn] at this; cases this
    · intro _
      show s.loop.map _ = none
      rw [hn]; rfl
  · refine ⟨hl, by show s.since ≤ s.next + 1; omega, ?_, h5⟩
    intro l hl'
    obtain ⟨a, b, b', c⟩ := h3 l hl'
    refine ⟨a, b, ?_, ?_⟩
    · show l.at_ ≤ (s.spawned ++ [s.next]).length
      rw [List.length_append]; omega
    · intro k i hk hi
      have hi' : (s.spawned ++ [s.next])[k]? = some i := hi
      rw [List.getElem?_append_left (by omega)] at hi'
      exact c k i hk hi'

theorem pinv_step (limit : Nat) (s : Proc) (op : POp) (h : PInv s)
    (hp : op = .spawn → s.loop ≠ none → s.count + 1 ≤ limit) : PInv (s.step limit op) := by
  obtain ⟨h1, h2, h3, h5⟩ := h
  cases op with
  | start =>
    unfold Proc.step; dsimp only; split
    · rename_i hc
      have hn : s.loop = none := h5 (by rw [hc]; decide)
      refine ⟨?_, Nat.le_refl _, ?_, fun _ => hn⟩
      · intro i a b; exact absurd (show i < s.next from b) (by have : s.next ≤ i := a; omega)
      · intro l hl; rw [show s.loop = some l from hl] at hn; cases hn
    · exact ⟨h1, h2, h3, h5⟩
  | spawn =>
    unfold Proc.step; dsimp only; split
    · exact ⟨h1, h2, h3, h5⟩
    · exact spawn_ok limit s ⟨h1, h2, h3, h5⟩ (hp rfl)
  | finish i =>
    unfold Proc.step; dsimp only; split
    · refine ⟨?_, h2, ?_, h5⟩
      · intro j a b c
        exact h1 j a b (fun hc => c (List.mem_cons_of_mem _ hc))
      · intro l hl
        obtain ⟨a, b, b', c⟩ := h3 l hl
        exact ⟨a, b, b', fun k j hk hj => List.mem_cons_of_mem _ (c k j hk hj)⟩
    · exact ⟨h1, h2, h3, h5⟩
  | stop =>
    unfold Proc.step; dsimp only; split
    · refine ⟨h1, h2, ?_, fun hc => absurd rfl hc⟩
      intro l hl
      have : some ({} : Loop) = some l := hl
      cases this
      exact ⟨rfl, rfl, Nat.zero_le _, fun k i hk => absurd hk (Nat.not_lt_zero _)⟩
    · exact ⟨h1, h2, h3, h5⟩
  | next =>
    unfold Proc.step; dsimp only; split
    · exact ⟨h1, h2, h3, h5⟩
    · rename_i l hl
      split
      · exact ⟨h1, h2, h3, h5⟩
      · rename_i i hi
        split
        · rename_i hf
          obtain ⟨a, b, b', c⟩ := h3 l hl
          have hi' : s.spawned[l.at_]? = some i := by
            unfold Proc.list at hi; rw [a] at hi; exact hi
          refine ⟨h1, h2, ?_, ?_⟩
          · intro l' hl'
            have he : some ({ l with at_ := l.at_ + 1 } : Loop) = some l' := hl'
            cases he
            refine ⟨a, b, ?_, ?_⟩
            · show l.at_ + 1 ≤ s.spawned.length
              have := (List.getElem?_eq_some_iff.1 hi').1
              omega
            · intro k j hk hj
              have hk' : k < l.at_ + 1 := hk
              by_cases hkk : k = l.at_
              · subst hkk
                rw [show s.spawned[l.at_]? = some j from hj] at hi'
                cases hi'; exact hf
              · exact c k j (by omega) hj
          · intro hne
            exact absurd b hne
        · exact ⟨h1, h2, h3, h5⟩
  | timeUp =>
    unfold Proc.step; dsimp only; split
    · exact ⟨h1, h2, h3, h5⟩
    · split
      · exact ⟨h1, h2, h3, h5⟩
      · split
        · exact ⟨h1, h2, h3, h5⟩
        · exact ⟨h1, h2, (by intro l hl; exact nomatch hl), fun _ => rfl⟩
  | stopped =>
    unfold Proc.step; dsimp only; split
    · exact ⟨h1, h2, h3, h5⟩
    · rename_i l hl
      split
      · exact ⟨h1, h2, h3, h5⟩
      · rename_i hlt
        obtain ⟨a, b, b', c⟩ := h3 l hl
        have hlt' : ¬ l.at_ < s.spawned.length := by
          unfold Proc.list at hlt; rw [a] at hlt; exact hlt
        refine ⟨?_, h2, (by intro l hl; exact nomatch hl), fun _ => rfl⟩
        intro i x y z
        have hm := h1 i x y z
        obtain ⟨k, hk, hk2⟩ := List.getElem_of_mem hm
        exact absurd (c k i (by omega) (by rw [List.getElem?_eq_getElem hk, hk2])) z

/-- What holds in every history. -/
def WInv (s : Proc) : Prop :=
  PInv s ∨ (s.phase ≠ .started ∧ s.since ≤ s.next ∧ (s.phase ≠ .stopping → s.loop = none))

theorem winv_step (limit : Nat) (s : Proc) (op : POp) (h : WInv s) : WInv (s.step limit op) := by
  have hbase : ∀ op, s.phase ≠ .started → s.since ≤ s.next → (s.phase ≠ .stopping → s.loop = none) →
      WInv (s.step limit op) := by
    intro op a b c
    cases op with
    | start =>
      unfold Proc.step; dsimp only; split
      · rename_i hc
        have hn : s.loop = none := c (by rw [hc]; decide)
        refine .inl ⟨?_, Nat.le_refl _, ?_, fun _ => hn⟩
        · intro i a b; exact absurd (show i < s.next from b) (by have : s.next ≤ i := a; omega)
        · intro l hl; rw [show s.loop = some l from hl] at hn; cases hn
      · exact .inr ⟨a, b, c⟩
    | spawn =>
      unfold Proc.step; dsimp only; split
      · exact .inr ⟨a, b, c⟩
      · right
        unfold Proc.spawn
        dsimp only
        split
        · refine ⟨a, by show s.since ≤ s.next + 1; omega, ?_⟩
          intro hn
          show s.loop.map _ = none
          rw [c hn]; rfl
        · exact ⟨a, by show s.since ≤ s.next + 1; omega, c⟩
    | finish i =>
      unfold Proc.step; dsimp only; split
      · exact .inr ⟨a, b, c⟩
      · exact .inr ⟨a, b, c⟩
    | stop =>
      unfold Proc.step; dsimp only
      rw [if_neg a]
      exact .inr ⟨a, b, c⟩
    | next =>
      unfold Proc.step; dsimp only; split
      · exact .inr ⟨a, b, c⟩
      · rename_i l hl
        split
        · exact .inr ⟨a, b, c⟩
        · split
          · refine .inr ⟨a, b, ?_⟩
            intro hn
            rw [c hn] at hl; cases hl
          · exact .inr ⟨a, b, c⟩
    | timeUp =>
      unfold Proc.step; dsimp only; split
      · exact .inr ⟨a, b, c⟩
      · split
        · exact .inr ⟨a, b, c⟩
        · split
          · exact .inr ⟨a, b, c⟩
          · exact .inr ⟨a, b, fun _ => rfl⟩
    | stopped =>
      unfold Proc.step; dsimp only; split
      · exact .inr ⟨a, b, c⟩
      · split
        · exact .inr ⟨a, b, c⟩
        · exact .inr ⟨by simp, b, fun _ => rfl⟩
  rcases h with h | ⟨a, b, c⟩
  · by_cases hp : s.phase = .stopping
    · exact hbase op (by rw [hp]; decide) h.since_le (fun hc => absurd hp hc)
    · exact .inl (pinv_step limit s op h (fun _ hl => absurd (h.quiet hp) hl))
  · exact hbase op a b c

theorem winv_run (limit : Nat) (ops : List POp) (s : Proc) (h : WInv s) : WInv (s.run limit ops) := by
  induction ops generalizing s with
  | nil => exact h
  | cons op ops ih => exact ih _ (winv_step limit s op h)

theorem winv_init : WInv {} := .inl ⟨by simp, Nat.le_refl _, by simp, by simp⟩

theorem count_step (limit : Nat) (s : Proc) (op : POp) :
    (s.step limit op).count ≤ s.count + (if op = .spawn then 1 else 0) := by
  cases op with
  | start => unfold Proc.step; dsimp only; split <;> simp
  | spawn =>
    unfold Proc.step; dsimp only; split
    · simp
    · unfold Proc.spawn; dsimp only; split <;> simp
  | finish i => unfold Proc.step; dsimp only; split <;> simp
  | stop => unfold Proc.step; dsimp only; split <;> simp
  | next => unfold Proc.step; dsimp only; split; simp; split; simp; split <;> simp
  | timeUp => unfold Proc.step; dsimp only; split; simp; split; simp; split <;> simp
  | stopped => unfold Proc.step; dsimp only; split; simp; split <;> simp

theorem pinv_run (limit : Nat) (ops : List POp) (s : Proc) (h : PInv s) (hc : s.count + spawns ops ≤ limit) :
    PInv (s.run limit ops) := by
  induction ops generalizing s with
  | nil => exact h
  | cons op ops ih =>
    have hs : spawns (op :: ops) = (if op = .spawn then 1 else 0) + spawns ops := by
      cases op <;> simp [spawns]; omega
    rw [hs] at hc
    have := count_step limit s op
    refine ih _ (pinv_step limit s op h ?_) (by omega)
    intro he _
    rw [if_pos he] at hc
    omega

/-- C92, in part: `stop` returns only when every function that was spawned since the process was
started, also those spawned while it was stopping, has finished. Missing: it is proved if there is no
clearing of the list of functions, which happens at every thousandth spawn, while `stop` waits; it is
false otherwise (`running_after_stop`). -/
theorem stop_waits_partial (limit : Nat) (pre mid : List POp) (s0 s1 : Proc)
    (h0 : s0 = ({} : Proc).run limit pre) (hs0 : s0.phase = .started)
    (h1 : s1 = s0.run limit (.stop :: mid)) (hs1 : s1.phase = .stopping)
    (hc : s0.count + spawns mid ≤ limit) (hend : (s1.step limit .stopped).phase = .stopped) :
    ∀ i, s1.since ≤ i → i < s1.next → i ∈ s1.finished := by
  have hw := winv_run limit pre {} winv_init
  rw [← h0] at hw
  have hp : PInv s0 := by
    rcases hw with h | ⟨a, _, _⟩
    · exact h
    · exact absurd hs0 a
  have hp1 := pinv_run limit (.stop :: mid) s0 hp (by simpa [spawns] using hc)
  rw [← h1] at hp1
  intro i hi1 hi2
  by_cases hf : i ∈ s1.finished
  · exact hf
  · exfalso
    unfold Proc.step at hend
    dsimp only at hend
    split at hend
    · rw [hs1] at hend; cases hend
    · rename_i l hl
      split at hend
      · rw [hs1] at hend; cases hend
      · rename_i hlt
        obtain ⟨a, b, b', c⟩ := hp1.live l hl
        have hlt' : ¬ l.at_ < s1.spawned.length := by
          unfold Proc.list at hlt; rw [a] at hlt; exact hlt
        have hm := hp1.listed i hi1 hi2 hf
        obtain ⟨k, hk, hk2⟩ := List.getElem_of_mem hm
        exact hf (c k i (by omega) (by rw [List.getElem?_eq_getElem hk, hk2]))

-- two functions run when the process is stopped, and one spawns another
example :
    let pre : List POp := [.start, .spawn, .spawn]
    let mid : List POp := [.spawn, .finish 0, .next, .finish 2, .finish 1, .next, .next]
    (({} : Proc).run spawnClearCount pre).phase = .started ∧
    (({} : Proc).run spawnClearCount (pre ++ .stop :: mid)).phase = .stopping ∧
    (({} : Proc).run spawnClearCount (pre ++ .stop :: mid ++ [.stopped])).phase = .stopped ∧
    (({} : Proc).run spawnClearCount (pre ++ .stop :: [.spawn, .finish 0, .next, .next, .stopped])).phase = .stopping := by
  decide

/-- C92. In the process of any history, as long as a function runs that the loop of `stop` has in its
list, `stop` has not passed it. -/
theorem stop_never_passes_running (limit : Nat) (s : Proc) (l : Loop) (i : Nat) (hl : s.loop = some l)
    (hi : (s.list l)[l.at_]? = some i) (hf : i ∉ s.finished) :
    s.step limit .next = s ∧ s.step limit .stopped = s := by
  constructor
  · unfold Proc.step; dsimp only; rw [hl]; dsimp only; rw [hi]; dsimp only; rw [if_neg hf]
  · unfold Proc.step; dsimp only; rw [hl]; dsimp only
    rw [if_pos (List.getElem?_eq_some_iff.1 hi).1]

theorem spawn_many (limit n : Nat) (s : Proc) (hp : s.phase = .started) (hc : s.count + n ≤ limit) :
    s.run limit (List.replicate n .spawn) =
      { s with next := s.next + n, spawned := s.spawned ++ List.range' s.next n, count := s.count + n } := by
  induction n generalizing s with
  | zero => simp [Proc.run]
  | succ n ih =>
    have h1 : s.step limit .spawn =
        { s with next := s.next + 1, spawned := s.spawned ++ [s.next], count := s.count + 1 } := by
      unfold Proc.step; dsimp only
      rw [if_neg (by rw [hp]; decide)]
      unfold Proc.spawn; dsimp only
      rw [if_neg (by omega)]
    rw [List.replicate_succ]
    show (s.step limit .spawn).run limit (List.replicate n .spawn) = _
    rw [h1]
    have h2 := ih { s with next := s.next + 1, spawned := s.spawned ++ [s.next], count := s.count + 1 } hp
      (by show s.count + 1 + n ≤ limit; omega)
    dsimp only at h2
    rw [h2]
    simp only [List.append_assoc, List.range'_succ, List.singleton_append]
    congr 1 <;> omega

theorem finish_many (limit n : Nat) (s : Proc) (hn : n ≤ s.next) (hf : s.finished = []) :
    s.run limit ((List.range n).map .finish) = { s with finished := (List.range n).reverse } := by
  induction n with
  | zero =>
    show s = _
    obtain ⟨a, b, c, d, e, f, g⟩ := s
    simp only at hf
    subst hf
    rfl
  | succ n ih =>
    have h0 := ih (by omega)
    rw [List.range_succ, List.map_append]
    unfold Proc.run at h0 ⊢
    rw [List.foldl_append, h0]
    simp only [List.map_cons, List.map_nil, List.foldl_cons, List.foldl_nil]
    unfold Proc.step; dsimp only
    rw [if_pos]
    · simp
    · refine ⟨by omega, ?_⟩
      simp

theorem next_many (limit n : Nat) (s : Proc) (l : Loop) (hl : s.loop = some l)
    (h : ∀ k, k < l.at_ + n → ∃ i, (s.list l)[k]? = some i ∧ i ∈ s.finished) :
    s.run limit (List.replicate n .next) = { s with loop := some { l with at_ := l.at_ + n } } := by
  induction n generalizing s l with
  | zero =>
    show s = _
    obtain ⟨a, b, c, d, e, f, g⟩ := s
    simp only at hl
    subst hl
    rfl
  | succ n ih =>
    rw [List.replicate_succ]
    show (s.step limit .next).run limit (List.replicate n .next) = _
    obtain ⟨i, h1, h2⟩ := h l.at_ (by omega)
    have hs : s.step limit .next = { s with loop := some { l with at_ := l.at_ + 1 } } := by
      unfold Proc.step; dsimp only; rw [hl]; dsimp only; rw [h1]; dsimp only; rw [if_pos h2]
    rw [hs, ih _ { l with at_ := l.at_ + 1 } rfl]
    · dsimp only
      congr 3
      omega
    · intro k hk
      exact h k (by dsimp only at hk; omega)

/-- Disagreement with C92, for every count at which the list is cleared (it is 1000): that many
functions have been spawned and have finished when the process is stopped; a function that is spawned
while it stops (a handler of a request, say) spawns another one. `stop` returns with that one running. -/
theorem running_after_stop (limit : Nat) (h1 : 1 ≤ limit) :
    let s := ({} : Proc).run limit ([.start] ++ List.replicate limit .spawn ++
      (List.range limit).map .finish ++ [.stop, .spawn, .spawn, .finish limit] ++
      List.replicate (limit + 1) .next ++ [.stopped])
    s.phase = .stopped ∧ s.since = 0 ∧ s.next = limit + 2 ∧ limit + 1 ∉ s.finished := by
  intro s
  have happ : ∀ (s : Proc) (a b : List POp), s.run limit (a ++ b) = (s.run limit a).run limit b := by
    intro s a b; unfold Proc.run; rw [List.foldl_append]
  have hs : s = ({} : Proc).run limit ([.start] ++ List.replicate limit .spawn ++
      (List.range limit).map .finish ++ [.stop, .spawn, .spawn, .finish limit] ++
      List.replicate (limit + 1) .next ++ [.stopped]) := rfl
  rw [happ, happ, happ, happ, happ] at hs
  have e1 : ({} : Proc).run limit [.start] = { phase := .started } := rfl
  rw [e1, spawn_many limit limit _ rfl (by simp), finish_many limit limit _ (by simp) rfl] at hs
  simp only [Nat.zero_add, List.nil_append] at hs
  have hfil : (List.range' 0 limit ++ [limit]).filter (fun i => !decide (i ∈ (List.range limit).reverse)) = [limit] := by
    rw [List.filter_append]
    have h1 : (List.range' 0 limit).filter (fun i => !decide (i ∈ (List.range limit).reverse)) = [] := by
      rw [List.filter_eq_nil_iff]
      intro i hi
      simp only [List.mem_range'_1] at hi
      simp; omega
    rw [h1]
    simp
  have e2 : Proc.run limit
      { phase := .started, next := limit, finished := (List.range limit).reverse, spawned := List.range' 0 limit,
        count := limit } [.stop, .spawn, .spawn, .finish limit] =
      { phase := .stopping, next := limit + 2, finished := limit :: (List.range limit).reverse,
        spawned := [limit, limit + 1], count := 1,
        loop := some { at_ := 0, old := some (List.range' 0 limit ++ [limit]) } } := by
    have hlt : limit + 1 > limit := by omega
    have hnot : ¬ (0 + 1 > limit) := by omega
    simp only [Proc.run, List.foldl_cons, List.foldl_nil, Proc.step, Proc.spawn, if_true, reduceCtorEq, if_false,
      if_pos hlt, if_neg hnot, hfil, Proc.list, Option.map_some]
    rw [if_pos ⟨by omega, by simp⟩]
    rfl
  rw [e2] at hs
  rw [next_many limit (limit + 1) _ _ rfl] at hs
  · have e3 : s = Proc.mk .stopped (limit + 2) 0 (limit :: (List.range limit).reverse) [] 1 none := by
      rw [hs]
      show ite _ _ _ = _
      rw [if_neg]
      · show ¬ (0 + (limit + 1) < (List.range' 0 limit ++ [limit]).length)
        simp
    rw [e3]
    refine ⟨rfl, rfl, rfl, ?_⟩
    simp
  · intro k hk
    simp only [Nat.zero_add] at hk
    refine ⟨k, ?_, ?_⟩
    · show (List.range' 0 limit ++ [limit])[k]? = some k
      by_cases h : k < limit
      · rw [List.getElem?_append_left (by simpa using h)]
        simp [h]
      · have : k = limit := by omega
        subst this
        rw [List.getElem?_append_right (by simp)]
        simp
    · show k ∈ limit :: (List.range limit).reverse
      by_cases h : k < limit
      · exact List.mem_cons_of_mem _ (by simpa using h)
      · have : k = limit := by omega
        subst this; simp

/-- Disagreement with C92: when `stop` has timed out the process can never be stopped or started
again, even when the function has finished. -/
theorem no_stop_after_timeout (more : List POp) :
    ((({} : Proc).run spawnClearCount [.start, .spawn, .stop, .timeUp]).run spawnClearCount more).phase = .stopping := by
  have key : ∀ (more : List POp) (s : Proc), s.phase = .stopping → s.loop = none →
      (s.run spawnClearCount more).phase = .stopping := by
    intro more
    induction more with
    | nil => intro s h _; exact h
    | cons op more ih =>
      intro s hp hl
      have hn : (s.step spawnClearCount op).phase = .stopping ∧ (s.step spawnClearCount op).loop = none := by
        cases op with
        | start => unfold Proc.step; dsimp only; rw [if_neg (by rw [hp]; decide)]; exact ⟨hp, hl⟩
        | spawn =>
          unfold Proc.step; dsimp only; rw [if_neg (by rw [hp]; decide)]
          unfold Proc.spawn; dsimp only; split
          · refine ⟨hp, ?_⟩
            show s.loop.map _ = none
            rw [hl]; rfl
          · exact ⟨hp, hl⟩
        | finish i => unfold Proc.step; dsimp only; split <;> exact ⟨hp, hl⟩
        | stop => unfold Proc.step; dsimp only; rw [if_neg (by rw [hp]; decide)]; exact ⟨hp, hl⟩
        | next => unfold Proc.step; dsimp only; rw [hl]; exact ⟨hp, hl⟩
        | timeUp => unfold Proc.step; dsimp only; rw [hl]; exact ⟨hp, hl⟩
        | stopped => unfold Proc.step; dsimp only; rw [hl]; exact ⟨hp, hl⟩
      exact ih _ hn.1 hn.2
  exact key more _ (by decide) (by decide)

end Verif.Props.Spawned
