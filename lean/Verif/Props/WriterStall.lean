import Verif.Spec.WriterStall
/-!
C101: a run of the HDF writer ends when its frames are written, with an error if they stop coming, and not otherwise.
-/
namespace Verif.Props.WriterStall
open Verif.WriterStall Verif.Spec.WriterStall

/-! ### What is heard in a millisecond -/

structure Heard (n : Nat) (l : List Ev) (s s' : St) : Prop where
  phase : s'.phase = s.phase
  target : s'.target = s.target
  timeout : s'.timeout = s.timeout
  offset : s'.offset = s.offset
  captured : s'.captured = s.captured ∨ Ev.captured s'.captured ∈ l
  lastNew : inLoop s.phase = true → (∃ v, Ev.captured v ∈ l) → s'.last = n
  lastOld : (inLoop s.phase = false ∨ ∀ v, Ev.captured v ∉ l) → s'.last = s.last ∧ s'.reached = s.reached ∧ s'.progress = s.progress
  reached : s'.reached = true → s.reached = true ∨ Ev.captured s.target ∈ l
  reach : inLoop s.phase = true → Ev.captured s.target ∈ l → s'.reached = true
  keep : s.reached = true → s'.reached = true
  seen : s'.firstSeen = true ↔ s.firstSeen = true ∨ ∃ v, v > 0 ∧ Ev.array v ∈ l
  started : ∀ b, s.start = some b → s'.start = some b
  starts : s.start = none → (∀ b, Ev.start b ∉ l) → s'.start = none
  failing : s.start = none → Ev.start true ∉ l → Ev.start false ∈ l → s'.start = some false
  prog : ∀ p ∈ s'.progress, p ∈ s.progress ∨ (0 ≤ p ∧ Ev.captured (p + s.offset) ∈ l)

theorem hear_one (n : Nat) (s : St) (e : Ev) : Heard n [e] s (hear n s e) := by
  cases e with
  | array v =>
    refine ⟨rfl, rfl, rfl, rfl, Or.inl rfl, ?_, fun _ => ⟨rfl, rfl, rfl⟩, fun h => Or.inl h, ?_, fun h => h, ?_, fun _ h => h, fun h _ => h, ?_,
      fun p hp => Or.inl hp⟩
    · rintro _ ⟨v, h⟩; simp at h
    · intro _ h; simp at h
    · simp [hear]
    · intro _ _ h; simp at h
  | start ok =>
    refine ⟨rfl, rfl, rfl, rfl, Or.inl rfl, ?_, fun _ => ⟨rfl, rfl, rfl⟩, fun h => Or.inl h, ?_, fun h => h, ?_, ?_, ?_, ?_,
      fun p hp => Or.inl hp⟩
    · rintro _ ⟨v, h⟩; simp at h
    · intro _ h; simp at h
    · simp [hear]
    · intro b h; simp [hear, h]
    · intro h h2; exact (h2 ok (by simp)).elim
    · intro h h2 h3
      simp at h3; subst h3
      simp [hear, h]
  | captured v =>
    by_cases hl : inLoop s.phase = true
    · have e : hear n s (.captured v) = update { s with captured := v } n := by simp [hear, hl]
      rw [e]
      refine ⟨rfl, rfl, rfl, rfl, Or.inr (by simp [update]), fun _ _ => rfl, ?_, ?_, ?_, ?_, by simp [update], fun _ h => h, fun h _ => h, ?_, ?_⟩
      · rintro (h | h)
        · rw [hl] at h; cases h
        · exact (h v (by simp)).elim
      · intro h
        simp only [update, Bool.or_eq_true, decide_eq_true_eq] at h
        rcases h with h | h
        · exact Or.inl h
        · right; simp [h]
      · intro _ h
        simp at h
        simp [update, h]
      · intro h; simp [update, h]
      · intro _ _ h; simp at h
      · intro p hp
        simp only [update] at hp
        split at hp
        · rcases List.mem_cons.1 hp with rfl | hp
          · right; refine ⟨by omega, ?_⟩
            rw [show v - s.offset + s.offset = v by omega]; simp
          · exact Or.inl hp
        · exact Or.inl hp
    · have hf : inLoop s.phase = false := by simpa using hl
      have e : hear n s (.captured v) = { s with captured := v } := by simp [hear, hf]
      rw [e]
      refine ⟨rfl, rfl, rfl, rfl, Or.inr (by simp), ?_, fun _ => ⟨rfl, rfl, rfl⟩, fun h => Or.inl h, ?_, fun h => h, by simp, fun _ h => h, fun h _ => h, ?_,
        fun p hp => Or.inl hp⟩
      · intro h; exact (hl h).elim
      · intro h; exact (hl h).elim
      · intro _ _ h; simp at h

theorem heard (n : Nat) (l : List Ev) : ∀ s, Heard n l s (l.foldl (hear n) s) := by
  induction l with
  | nil =>
    intro s
    refine ⟨rfl, rfl, rfl, rfl, Or.inl rfl, ?_, fun _ => ⟨rfl, rfl, rfl⟩, fun h => Or.inl h, ?_, fun h => h, by simp, fun _ h => h, fun h _ => h, ?_,
      fun p hp => Or.inl hp⟩
    · rintro _ ⟨v, h⟩; cases h
    · intro _ h; cases h
    · intro _ _ h; cases h
  | cons e l ih =>
    intro s
    rw [List.foldl_cons]
    have a := hear_one n s e
    have b := ih (hear n s e)
    refine ⟨b.phase.trans a.phase, b.target.trans a.target, b.timeout.trans a.timeout, b.offset.trans a.offset, ?_, ?_, ?_, ?_, ?_,
      fun h => b.keep (a.keep h), ?_, fun x h => b.started x (a.started x h), ?_, ?_, ?_⟩
    · rcases b.captured with h | h
      · rw [h]
        rcases a.captured with h | h
        · exact Or.inl h
        · right; simp only [List.mem_singleton] at h; rw [h]; exact List.mem_cons_self
      · exact Or.inr (List.mem_cons_of_mem _ h)
    · rintro hl ⟨v, h⟩
      by_cases hx : ∃ v, Ev.captured v ∈ l
      · exact b.lastNew (by rw [a.phase]; exact hl) hx
      · rw [(b.lastOld (Or.inr (fun v hv => hx ⟨v, hv⟩))).1]
        rcases List.mem_cons.1 h with h | h
        · exact a.lastNew hl ⟨v, by rw [h]; simp⟩
        · exact (hx ⟨v, h⟩).elim
    · intro h
      have h1 : inLoop s.phase = false ∨ ∀ v, Ev.captured v ∉ [e] :=
        h.imp_right (fun h v hv => h v (by simp only [List.mem_singleton] at hv; rw [hv]; exact List.mem_cons_self))
      have h2 : inLoop (hear n s e).phase = false ∨ ∀ v, Ev.captured v ∉ l :=
        h.imp (fun h => by rw [a.phase]; exact h) (fun h v hv => h v (List.mem_cons_of_mem _ hv))
      obtain ⟨p, q, r⟩ := b.lastOld h2
      obtain ⟨p', q', r'⟩ := a.lastOld h1
      exact ⟨p.trans p', q.trans q', r.trans r'⟩
    · intro h
      rcases b.reached h with h | h
      · rcases a.reached h with h | h
        · exact Or.inl h
        · right; simp only [List.mem_singleton] at h; rw [h]; exact List.mem_cons_self
      · right; rw [a.target] at h; exact List.mem_cons_of_mem _ h
    · intro hl h
      rcases List.mem_cons.1 h with h | h
      · exact b.keep (a.reach hl (by rw [h]; simp))
      · exact b.reach (by rw [a.phase]; exact hl) (by rw [a.target]; exact h)
    · rw [b.seen, a.seen]
      constructor
      · rintro ((h | ⟨v, h1, h2⟩) | ⟨v, h1, h2⟩)
        · exact Or.inl h
        · exact Or.inr ⟨v, h1, by simp only [List.mem_singleton] at h2; rw [h2]; exact List.mem_cons_self⟩
        · exact Or.inr ⟨v, h1, List.mem_cons_of_mem _ h2⟩
      · rintro (h | ⟨v, h1, h2⟩)
        · exact Or.inl (Or.inl h)
        · rcases List.mem_cons.1 h2 with h2 | h2
          · exact Or.inl (Or.inr ⟨v, h1, by rw [h2]; simp⟩)
          · exact Or.inr ⟨v, h1, h2⟩
    · intro h hn
      refine b.starts (a.starts h (fun x hx => hn x ?_)) (fun x hx => hn x (List.mem_cons_of_mem _ hx))
      simp only [List.mem_singleton] at hx; rw [hx]; exact List.mem_cons_self
    · intro h ht hf
      have ht1 : Ev.start true ∉ [e] := fun hx => ht (by simp only [List.mem_singleton] at hx; rw [hx]; exact List.mem_cons_self)
      rcases List.mem_cons.1 hf with hf | hf
      · exact b.started _ (a.failing h ht1 (by rw [hf]; simp))
      · by_cases he : e = .start false
        · exact b.started _ (a.failing h ht1 (by rw [he]; simp))
        · refine b.failing (a.starts h (fun x hx => ?_)) (fun hx => ht (List.mem_cons_of_mem _ hx)) hf
          simp only [List.mem_singleton] at hx
          cases x
          · exact he hx.symm
          · exact ht1 (by rw [hx]; simp)
    · intro p hp
      rcases b.prog p hp with h | ⟨h1, h2⟩
      · rcases a.prog p h with h | ⟨h1, h2⟩
        · exact Or.inl h
        · right
          refine ⟨h1, ?_⟩
          simp only [List.mem_singleton] at h2; rw [h2]; exact List.mem_cons_self
      · right
        rw [a.offset] at h2
        exact ⟨h1, List.mem_cons_of_mem _ h2⟩

/-! ### What holds during a run -/

structure Inv (s0 : St) (n : Nat) (env : Nat → List Ev) (t : Nat) (s : St) : Prop where
  target : s.target = s0.target
  timeout : s.timeout = s0.timeout
  offset : s.offset = s0.offset
  captured : Told env s0.captured n t s.captured
  loop : inLoop s.phase = true → n ≤ s.last ∧ s.last ≤ t ∧ ∀ m, n < m → m ≤ t → Frame env m → m ≤ s.last
  reach : inLoop s.phase = true → s.reached = true → Told env s0.captured n t s0.target
  waiting : ∀ d, s.phase = .waiting d → t < d ∧ d ≤ t + 1000 ∧ s.reached = false
  flushing : ∀ u, s.phase = .flushing u → t < u
  seen : s.firstSeen = true ↔ s0.firstSeen = true ∨ ∃ m, n < m ∧ m ≤ t ∧ ∃ v, v > 0 ∧ Ev.array v ∈ env m
  first : s.phase = .first ↔ s.firstSeen = false
  idle : s.phase ≠ .idle
  ended : ∀ e r, s.phase = .ended e r → n ≤ e ∧ e ≤ t ∧ (r = .done → Told env s0.captured n e s0.target) ∧
    (r = .stalled → n + s0.timeout < e ∧ ∀ m, n < m → m ≤ e → Frame env m → m + s0.timeout < e)
  prog : ∀ p ∈ s.progress, p ∈ s0.progress ∨ (0 ≤ p ∧ Told env s0.captured n t (p + s0.offset))

theorem told_mono {env now n t t' v} (h : Told env now n t v) (ht : t ≤ t') : Told env now n t' v := by
  rcases h with h | ⟨m, h1, h2, h3⟩
  · exact Or.inl h
  · exact Or.inr ⟨m, h1, Nat.le_trans h2 ht, h3⟩

/-- the state when all has been heard and nothing been done yet -/
structure Mid (s0 : St) (n : Nat) (env : Nat → List Ev) (t : Nat) (s : St) : Prop where
  target : s.target = s0.target
  timeout : s.timeout = s0.timeout
  offset : s.offset = s0.offset
  nt : n ≤ t
  captured : Told env s0.captured n t s.captured
  loop : inLoop s.phase = true → n ≤ s.last ∧ s.last ≤ t ∧ ∀ m, n < m → m ≤ t → Frame env m → m ≤ s.last
  reach : inLoop s.phase = true → s.reached = true → Told env s0.captured n t s0.target
  waiting : ∀ d, s.phase = .waiting d → t ≤ d ∧ d ≤ t + 1000
  flushing : ∀ u, s.phase = .flushing u → t ≤ u
  seen : s.firstSeen = true ↔ s0.firstSeen = true ∨ ∃ m, n < m ∧ m ≤ t ∧ ∃ v, v > 0 ∧ Ev.array v ∈ env m
  first : s.phase ≠ .first → s.firstSeen = true
  idle : s.phase ≠ .idle
  ended : ∀ e r, s.phase = .ended e r → n ≤ e ∧ e ≤ t ∧ (r = .done → Told env s0.captured n e s0.target) ∧
    (r = .stalled → n + s0.timeout < e ∧ ∀ m, n < m → m ≤ e → Frame env m → m + s0.timeout < e)
  prog : ∀ p ∈ s.progress, p ∈ s0.progress ∨ (0 ≤ p ∧ Told env s0.captured n t (p + s0.offset))

/-- waiting again, or at the end -/
theorem await_inv {s0 n env t s} (h : Mid s0 n env t s) (hf : s.firstSeen = true)
    (hl : n ≤ s.last ∧ s.last ≤ t ∧ ∀ m, n < m → m ≤ t → Frame env m → m ≤ s.last)
    (hr : s.reached = true → Told env s0.captured n t s0.target) : Inv s0 n env t (await s t) := by
  unfold await
  have hseen := h.seen
  have hnt := h.nt
  split
  · rename_i hre
    refine ⟨h.target, h.timeout, h.offset, h.captured, ?_, ?_, ?_, ?_, hseen, ?_, ?_, ?_, h.prog⟩
    · intro hh; cases hh
    · intro hh; cases hh
    · intro d hd; cases hd
    · intro d hd; cases hd
    · exact ⟨fun hh => (by cases hh), fun hh => (by simp only at hh; rw [hf] at hh; cases hh)⟩
    · intro hh; cases hh
    · intro e r he
      simp only [Phase.ended.injEq] at he
      obtain ⟨rfl, rfl⟩ := he
      exact ⟨h.nt, Nat.le_refl _, fun _ => hr hre, fun hh => (by cases hh)⟩
  · rename_i hre
    refine ⟨h.target, h.timeout, h.offset, h.captured, fun _ => hl, fun _ => hr, ?_, ?_, hseen, ?_, ?_, ?_, h.prog⟩
    · intro d hd
      simp only [Phase.waiting.injEq] at hd
      subst hd
      exact ⟨by omega, Nat.le_refl _, by simpa using hre⟩
    · intro d hd; cases hd
    · exact ⟨fun hh => (by cases hh), fun hh => (by simp only at hh; rw [hf] at hh; cases hh)⟩
    · intro hh; cases hh
    · intro e r he; cases he

theorem check_inv {s0 n env t s} (h : Mid s0 n env t s) (hl : inLoop s.phase = true) : Inv s0 n env t (check s t) := by
  have hf : s.firstSeen = true := h.first (fun e => by rw [e] at hl; cases hl)
  unfold check
  split
  · rename_i hs
    refine ⟨h.target, h.timeout, h.offset, h.captured, ?_, ?_, ?_, ?_, h.seen, ?_, ?_, ?_, h.prog⟩
    · intro hh; cases hh
    · intro hh; cases hh
    · intro d hd; cases hd
    · intro d hd; cases hd
    · exact ⟨fun hh => (by cases hh), fun hh => (by simp only at hh; rw [hf] at hh; cases hh)⟩
    · intro hh; cases hh
    · intro e r he
      simp only [Phase.ended.injEq] at he
      obtain ⟨rfl, rfl⟩ := he
      obtain ⟨l1, l2, l3⟩ := h.loop hl
      have := h.timeout
      refine ⟨h.nt, Nat.le_refl _, fun hh => (by cases hh), fun _ => ⟨by omega, fun m h1 h2 h3 => ?_⟩⟩
      have := l3 m h1 h2 h3
      omega
  · exact await_inv h hf (h.loop hl) (h.reach hl)

theorem enter_inv {s0 n env t s} (h : Mid s0 n env t s) (hf : s.firstSeen = true) : Inv s0 n env t (enter s t) := by
  unfold enter
  have hm : Mid s0 n env t { update { s with reached := false } t with phase := .first } := by
    refine ⟨h.target, h.timeout, h.offset, h.nt, h.captured, ?_, ?_, ?_, ?_, h.seen, ?_, ?_, ?_, ?_⟩
    · intro hh; cases hh
    · intro hh; cases hh
    · intro d hd; cases hd
    · intro d hd; cases hd
    · intro hh; exact (hh rfl).elim
    · intro hh; cases hh
    · intro e r he; cases he
    · intro p hp
      simp only [update] at hp
      split at hp
      · rcases List.mem_cons.1 hp with rfl | hp
        · right
          have ho := h.offset
          refine ⟨by assumption, ?_⟩
          rw [ho, show s.captured - s0.offset + s0.offset = s.captured by omega]
          exact h.captured
        · exact h.prog p hp
      · exact h.prog p hp
  have e : await (update { s with reached := false } t) t =
      await { update { s with reached := false } t with phase := .first } t := by
    unfold await; rfl
  rw [e]
  refine await_inv hm hf ⟨h.nt, Nat.le_refl _, fun m _ h2 _ => h2⟩ ?_
  intro hr
  simp only [update, Bool.false_or, decide_eq_true_eq] at hr
  rw [h.target] at hr
  rw [← hr]
  exact h.captured

theorem mid_first {s0 n env t s} (h : Mid s0 n env t s) (hp : s.phase = .first) (hf : s.firstSeen = false) :
    Inv s0 n env t s := by
  refine ⟨h.target, h.timeout, h.offset, h.captured, h.loop, h.reach, ?_, ?_, h.seen, ?_, h.idle, h.ended, h.prog⟩
  · intro d hd; rw [hp] at hd; cases hd
  · intro d hd; rw [hp] at hd; cases hd
  · exact ⟨fun _ => hf, fun _ => hp⟩

theorem act_inv {s0 n env t s} (flush) (h : Mid s0 n env t s) : Inv s0 n env t (act flush s t) := by
  unfold act
  split
  · rename_i hp; exact (h.idle hp).elim
  · rename_i e r hp
    refine ⟨h.target, h.timeout, h.offset, h.captured, h.loop, h.reach, ?_, ?_, h.seen, ?_, h.idle, h.ended, h.prog⟩
    · intro d hd; rw [hp] at hd; cases hd
    · intro d hd; rw [hp] at hd; cases hd
    · have hf := h.first (by rw [hp]; intro hh; cases hh)
      exact ⟨fun hh => (by rw [hp] at hh; cases hh), fun hh => (by rw [hf] at hh; cases hh)⟩
  · rename_i hp
    split
    · rename_i hf; exact enter_inv h hf
    · rename_i hf; exact mid_first h hp (by simpa using hf)
  · rename_i d hp
    have hl : inLoop s.phase = true := by rw [hp]; rfl
    have hf := h.first (by rw [hp]; intro hh; cases hh)
    have hend : ∀ r : Result, r ≠ .stalled → (r = .done → Told env s0.captured n t s0.target) →
        Inv s0 n env t { s with phase := .ended t r } := by
      intro r hr hd'
      refine ⟨h.target, h.timeout, h.offset, h.captured, ?_, ?_, ?_, ?_, h.seen, ?_, ?_, ?_, h.prog⟩
      · intro hh; cases hh
      · intro hh; cases hh
      · intro d hd; cases hd
      · intro d hd; cases hd
      · exact ⟨fun hh => (by cases hh), fun hh => (by simp only at hh; rw [hf] at hh; cases hh)⟩
      · intro hh; cases hh
      · intro e r' he
        simp only [Phase.ended.injEq] at he
        obtain ⟨rfl, rfl⟩ := he
        exact ⟨h.nt, Nat.le_refl _, hd', fun hh => (hr hh).elim⟩
    split
    · rename_i hre
      exact hend .done (by intro hh; cases hh) (fun _ => h.reach hl hre)
    · rename_i hre
      split
      · split
        · exact hend .failed (by intro hh; cases hh) (by intro hh; cases hh)
        · exact check_inv h hl
        · split
          · exact check_inv h hl
          · rename_i hfl
            refine ⟨h.target, h.timeout, h.offset, h.captured, fun _ => h.loop hl, fun _ => h.reach hl, ?_, ?_, h.seen, ?_, ?_, ?_, h.prog⟩
            · intro d hd; cases hd
            · intro u hu
              simp only [Phase.flushing.injEq] at hu
              omega
            · exact ⟨fun hh => (by cases hh), fun hh => (by simp only at hh; rw [hf] at hh; cases hh)⟩
            · intro hh; cases hh
            · intro e r he; cases he
      · rename_i hd
        refine ⟨h.target, h.timeout, h.offset, h.captured, h.loop, h.reach, ?_, ?_, h.seen, ?_, h.idle, h.ended, h.prog⟩
        · intro d' hd'
          have := (h.waiting d' hd').2
          rw [hp] at hd'
          simp only [Phase.waiting.injEq] at hd'
          exact ⟨by omega, this, by simpa using hre⟩
        · intro u hu; rw [hp] at hu; cases hu
        · exact ⟨fun hh => (by rw [hp] at hh; cases hh), fun hh => (by rw [hf] at hh; cases hh)⟩
  · rename_i u hp
    have hl : inLoop s.phase = true := by rw [hp]; rfl
    have hf := h.first (by rw [hp]; intro hh; cases hh)
    split
    · exact check_inv h hl
    · rename_i hd
      refine ⟨h.target, h.timeout, h.offset, h.captured, h.loop, h.reach, ?_, ?_, h.seen, ?_, h.idle, h.ended, h.prog⟩
      · intro d' hd'; rw [hp] at hd'; cases hd'
      · intro u' hu
        rw [hp] at hu
        simp only [Phase.flushing.injEq] at hu
        omega
      · exact ⟨fun hh => (by rw [hp] at hh; cases hh), fun hh => (by rw [hf] at hh; cases hh)⟩

theorem hear_mid {s0 n env t s} (h : Inv s0 n env t s) (hn : n ≤ t) :
    Mid s0 n env (t + 1) ((env (t + 1)).foldl (hear (t + 1)) s) := by
  have a := heard (t + 1) (env (t + 1)) s
  refine ⟨a.target.trans h.target, a.timeout.trans h.timeout, a.offset.trans h.offset, by omega, ?_, ?_, ?_, ?_, ?_, ?_, ?_, ?_, ?_, ?_⟩
  · rcases a.captured with e | e
    · rw [e]; exact told_mono h.captured (by omega)
    · exact Or.inr ⟨t + 1, by omega, Nat.le_refl _, e⟩
  · rw [a.phase]
    intro hl
    obtain ⟨l1, l2, l3⟩ := h.loop hl
    by_cases hx : ∃ v, Ev.captured v ∈ env (t + 1)
    · rw [a.lastNew hl hx]
      exact ⟨by omega, Nat.le_refl _, fun m _ h2 _ => h2⟩
    · rw [(a.lastOld (Or.inr fun v hv => hx ⟨v, hv⟩)).1]
      refine ⟨l1, by omega, fun m h1 h2 h3 => ?_⟩
      by_cases hm : m = t + 1
      · subst hm; exact (hx h3).elim
      · exact l3 m h1 (by omega) h3
  · rw [a.phase]
    intro hl hr
    rcases a.reached hr with e | e
    · exact told_mono (h.reach hl e) (by omega)
    · rw [h.target] at e
      exact Or.inr ⟨t + 1, by omega, Nat.le_refl _, e⟩
  · intro d hd
    rw [a.phase] at hd
    have := h.waiting d hd
    omega
  · intro u hu
    rw [a.phase] at hu
    have := h.flushing u hu
    omega
  · rw [a.seen, h.seen]
    constructor
    · rintro ((e | ⟨m, h1, h2, h3⟩) | ⟨v, h1, h2⟩)
      · exact Or.inl e
      · exact Or.inr ⟨m, h1, by omega, h3⟩
      · exact Or.inr ⟨t + 1, by omega, Nat.le_refl _, v, h1, h2⟩
    · rintro (e | ⟨m, h1, h2, v, h3, h4⟩)
      · exact Or.inl (Or.inl e)
      · by_cases hm : m = t + 1
        · subst hm; exact Or.inr ⟨v, h3, h4⟩
        · exact Or.inl (Or.inr ⟨m, h1, by omega, v, h3, h4⟩)
  · intro hp
    rw [a.phase] at hp
    rw [a.seen]
    left
    cases hb : s.firstSeen with
    | true => rfl
    | false => exact (hp (h.first.2 hb)).elim
  · rw [a.phase]; exact h.idle
  · intro e r he
    rw [a.phase] at he
    obtain ⟨b1, b2, b3, b4⟩ := h.ended e r he
    exact ⟨b1, by omega, b3, b4⟩
  · intro p hp
    rcases a.prog p hp with e | ⟨e1, e2⟩
    · rcases h.prog p e with e | ⟨e1, e2⟩
      · exact Or.inl e
      · exact Or.inr ⟨e1, told_mono e2 (by omega)⟩
    · right
      rw [h.offset] at e2
      exact ⟨e1, Or.inr ⟨t + 1, by omega, Nat.le_refl _, e2⟩⟩

theorem begin_inv (s0 : St) (n : Nat) (env : Nat → List Ev) : Inv s0 n env n (begin s0 n) := by
  have hm : Mid s0 n env n { s0 with phase := .first } := by
    refine ⟨rfl, rfl, rfl, Nat.le_refl _, Or.inl rfl, ?_, ?_, ?_, ?_, ?_, ?_, ?_, ?_, fun p hp => Or.inl hp⟩
    · intro hh; cases hh
    · intro hh; cases hh
    · intro d hd; cases hd
    · intro d hd; cases hd
    · constructor
      · exact Or.inl
      · rintro (e | ⟨m, h1, h2, _⟩)
        · exact e
        · omega
    · intro hh; exact (hh rfl).elim
    · intro hh; cases hh
    · intro e r he; cases he
  unfold begin
  split
  · rename_i hf
    have e : enter s0 n = enter { s0 with phase := .first } n := by
      unfold enter await update; rfl
    rw [e]
    exact enter_inv hm hf
  · rename_i hf
    exact mid_first hm rfl (by simpa using hf)

theorem run_inv (flush env s0 n) : ∀ k, Inv s0 n env (n + k) (run flush env s0 n k)
  | 0 => begin_inv s0 n env
  | k + 1 => act_inv flush (hear_mid (run_inv flush env s0 n k) (Nat.le_add_right n k))

/-- C101: a run that has ended well has been told that all its frames were captured. -/
theorem done_means_all (flush env s n k) (h : Ended (run flush env s n k) .done) :
    Told env s.captured n (n + k) s.target := by
  obtain ⟨e, he⟩ := h
  obtain ⟨_, h2, h3, _⟩ := (run_inv flush env s n k).ended e .done he
  exact told_mono (h3 rfl) h2

/-- C101: a run is only ended as stalled if no frame was written for longer than the time allowed, and the run is that old. -/
theorem stalled_means_quiet (flush env s n k t) (h : (run flush env s n k).phase = .ended t .stalled) :
    n + s.timeout < t ∧ ∀ m, n < m → m ≤ t → Frame env m → m + s.timeout < t := by
  obtain ⟨_, _, _, h4⟩ := (run_inv flush env s n k).ended t .stalled h
  exact h4 rfl

/-- C101: a run in which a frame is written at least once in every `timeout` is never ended as stalled. -/
theorem steady_not_stalled (flush env s n) (hs : ∀ t, n + s.timeout < t → ∃ m, n < m ∧ m ≤ t ∧ t ≤ m + s.timeout ∧ Frame env m)
    (k) : ¬ Ended (run flush env s n k) .stalled := by
  rintro ⟨t, ht⟩
  obtain ⟨h1, h2⟩ := stalled_means_quiet flush env s n k t ht
  obtain ⟨m, m1, m2, m3, m4⟩ := hs t h1
  have := h2 m m1 m2 m4
  omega

/-- C101: what is reported as progress in a run is a number of frames that the plugin has told, less those of before. -/
theorem progress_true (flush env s n k) (p : Int) (h : p ∈ (run flush env s n k).progress) (hp : p ∉ s.progress) :
    0 ≤ p ∧ Told env s.captured n (n + k) (p + s.offset) :=
  ((run_inv flush env s n k).prog p h).resolve_left hp

/-- C101: the first run after configure waits for its first frame for as long as it takes. -/
theorem waits_for_first (flush env s n) (hs : s.firstSeen = false) (k) (hn : ∀ m v, m ≤ n + k → Ev.array v ∈ env m → v ≤ 0) :
    (run flush env s n k).phase = .first := by
  have hi := run_inv flush env s n k
  rw [hi.first]
  cases hf : (run flush env s n k).firstSeen with
  | false => rfl
  | true =>
    rcases hi.seen.1 hf with h | ⟨m, _, hm, v, h1, h2⟩
    · rw [hs] at h; cases h
    · have := hn m v hm h2
      omega

/-! ### Runs end -/

theorem run_succ (flush env s n k) : run flush env s n (k + 1) = tick flush (run flush env s n k) (n + k + 1) (env (n + k + 1)) := rfl

theorem ended_stays (flush env s n k e r) (h : (run flush env s n k).phase = .ended e r) :
    ∀ j, (run flush env s n (k + j)).phase = .ended e r
  | 0 => h
  | j + 1 => by
    have ih := ended_stays flush env s n k e r h j
    rw [show k + (j + 1) = (k + j) + 1 from rfl, run_succ]
    have a := heard (n + (k + j) + 1) (env (n + (k + j) + 1)) (run flush env s n (k + j))
    have hp := a.phase.trans ih
    unfold tick act
    rw [hp]
    exact hp

theorem ended_later {flush env s n k r} (h : Ended (run flush env s n k) r) {k'} (hk : k ≤ k') : Ended (run flush env s n k') r := by
  obtain ⟨e, he⟩ := h
  obtain ⟨j, rfl⟩ := Nat.le.dest hk
  exact ⟨e, ended_stays flush env s n k e r he j⟩

theorem await_start (s : St) (n : Nat) : (await s n).start = s.start := by unfold await; split <;> rfl

theorem act_start (flush) (s : St) (n : Nat) : (act flush s n).start = s.start := by
  unfold act
  split
  · rfl
  · rfl
  · split
    · unfold enter; rw [await_start]; rfl
    · rfl
  · split
    · rfl
    · split
      · split
        · rfl
        · unfold check; split
          · rfl
          · exact await_start _ _
        · split
          · unfold check; split
            · rfl
            · exact await_start _ _
          · rfl
      · rfl
  · split
    · unfold check; split
      · rfl
      · exact await_start _ _
    · rfl

/-- what a millisecond can do to a run that is waiting -/
theorem tick_waiting {flush n l s d} (hp : s.phase = .waiting d) :
    let m := l.foldl (hear n) s
    (m.reached = true ∧ (tick flush s n l).phase = .ended n .done) ∨
    (m.reached = false ∧ n < d ∧ tick flush s n l = m) ∨
    (m.reached = false ∧ d ≤ n ∧
      ((m.start = some false ∧ (tick flush s n l).phase = .ended n .failed) ∨
       (m.start ≠ some false ∧ tick flush s n l = check m n) ∨
       (m.start = none ∧ 0 < flush n ∧ tick flush s n l = { m with phase := .flushing (n + flush n) }))) := by
  intro m
  have hm : m.phase = .waiting d := (heard n l s).phase.trans hp
  show (m.reached = true ∧ (act flush m n).phase = _) ∨ (m.reached = false ∧ n < d ∧ act flush m n = m) ∨
    (m.reached = false ∧ d ≤ n ∧ ((m.start = some false ∧ (act flush m n).phase = _) ∨ (m.start ≠ some false ∧ act flush m n = _) ∨
      (m.start = none ∧ 0 < flush n ∧ act flush m n = _)))
  have e : act flush m n =
      if m.reached then { m with phase := .ended n .done }
      else if d ≤ n then
        match m.start with
        | some false => { m with phase := .ended n .failed }
        | some true => check m n
        | none => if flush n = 0 then check m n else { m with phase := .flushing (n + flush n) }
      else m := by
    unfold act
    rw [hm]
    rfl
  rw [e]
  by_cases hr : m.reached = true
  · left; rw [if_pos hr]; exact ⟨hr, rfl⟩
  · right
    have hr' : m.reached = false := by simpa using hr
    rw [if_neg hr]
    by_cases hd : d ≤ n
    · right
      rw [if_pos hd]
      refine ⟨hr', hd, ?_⟩
      cases hs : m.start with
      | none =>
        by_cases hf : flush n = 0
        · right; left
          exact ⟨by simp, by simp only [if_pos hf]⟩
        · right; right
          exact ⟨rfl, by omega, by simp only [if_neg hf]⟩
      | some b =>
        cases b
        · left; exact ⟨rfl, rfl⟩
        · right; left; exact ⟨by simp, rfl⟩
    · left
      rw [if_neg hd]
      exact ⟨hr', by omega, rfl⟩

theorem tick_flushing {flush n l s u} (hp : s.phase = .flushing u) :
    tick flush s n l = if u ≤ n then check (l.foldl (hear n) s) n else l.foldl (hear n) s := by
  have hm : (l.foldl (hear n) s).phase = .flushing u := (heard n l s).phase.trans hp
  unfold tick act
  rw [hm]

/-- a flush that is on will end in time -/
theorem flush_bound (flush env s n) (F : Nat) (hF : ∀ m, flush m ≤ F) (k u) (h : (run flush env s n k).phase = .flushing u) :
    u ≤ n + k + F := by
  induction k generalizing u with
  | zero =>
    exfalso
    have h : (begin s n).phase = .flushing u := h
    unfold begin enter await at h
    split at h
    · split at h <;> cases h
    · cases h
  | succ k ih =>
    have a := heard (n + k + 1) (env (n + k + 1)) (run flush env s n k)
    rw [run_succ] at h
    have hchk : ∀ (m : St) (q : Nat), (check m q).phase ≠ .flushing u := by
      intro m q hh
      unfold check await at hh
      split at hh
      · cases hh
      · split at hh <;> cases hh
    cases hp : (run flush env s n k).phase with
    | idle => exact ((run_inv flush env s n k).idle hp).elim
    | ended e r =>
      have := ended_stays flush env s n k e r hp 1
      rw [run_succ] at this
      rw [this] at h; cases h
    | first =>
      exfalso
      have hm := a.phase.trans hp
      unfold tick act at h
      rw [hm] at h
      simp only at h
      split at h
      · unfold enter await at h
        split at h <;> cases h
      · rw [hm] at h; cases h
    | waiting d =>
      rcases tick_waiting (flush := flush) (n := n + k + 1) (l := env (n + k + 1)) hp with ⟨_, e⟩ | ⟨_, _, e⟩ | ⟨_, _, ⟨_, e⟩ | ⟨_, e⟩ | ⟨_, _, e⟩⟩
      · rw [e] at h; cases h
      · rw [e, a.phase, hp] at h; cases h
      · rw [e] at h; cases h
      · rw [e] at h; exact (hchk _ _ h).elim
      · rw [e] at h
        simp only [Phase.flushing.injEq] at h
        have := hF (n + k + 1)
        omega
    | flushing u' =>
      rw [tick_flushing hp] at h
      split at h
      · exact (hchk _ _ h).elim
      · rw [a.phase, hp] at h
        simp only [Phase.flushing.injEq] at h
        have := ih u' hp
        omega

theorem await_ended_or (s : St) (n : Nat) : Ended (await s n) .done ∨ (await s n).phase = .waiting (n + 1000) := by
  unfold await
  split
  · left; exact ⟨_, rfl⟩
  · right; rfl

/-- after `T` nothing is written, and the time allowed is over -/
theorem late (flush env s n) (F T : Nat) (hF : ∀ m, flush m ≤ F) :
    ∀ j k, T + s.timeout ≤ n + k → Quiet env T (n + k + j) → (run flush env s n k).last ≤ T →
      (∀ u, (run flush env s n k).phase = .flushing u → u ≤ n + k + j → ∃ r, Ended (run flush env s n (k + j)) r) ∧
      (∀ d, (run flush env s n k).phase = .waiting d → d + F ≤ n + k + j → ∃ r, Ended (run flush env s n (k + j)) r) := by
  intro j
  induction j with
  | zero =>
    intro k hk _ hl
    have hi := run_inv flush env s n k
    refine ⟨fun u hu h => ?_, fun d hd h => ?_⟩
    · have := hi.flushing u hu; omega
    · have := hi.waiting d hd; omega
  | succ j ih =>
    intro k hk hq hl
    have hi := run_inv flush env s n k
    have a := heard (n + k + 1) (env (n + k + 1)) (run flush env s n k)
    obtain ⟨b1, b2, b3⟩ := a.lastOld (Or.inr (fun v hv => hq (n + k + 1) (by omega) (by omega) ⟨v, hv⟩))
    have hchk : Ended (check ((env (n + k + 1)).foldl (hear (n + k + 1)) (run flush env s n k)) (n + k + 1)) .stalled := by
      unfold check
      rw [b1, a.timeout, hi.timeout, if_pos (by omega)]
      exact ⟨_, rfl⟩
    have hq' : Quiet env T (n + (k + 1) + j) := fun m h1 h2 => hq m h1 (by omega)
    have ih' := ih (k + 1) (by omega) hq'
    have hend : ∀ r, Ended (run flush env s n (k + 1)) r → ∃ r, Ended (run flush env s n (k + (j + 1))) r :=
      fun r h => ⟨r, ended_later h (by omega)⟩
    have hkj : k + 1 + j = k + (j + 1) := by omega
    rw [hkj, run_succ] at ih'
    rw [run_succ] at hend
    refine ⟨fun u hu h => ?_, fun d hd h => ?_⟩
    · have e := tick_flushing (flush := flush) (n := n + k + 1) (l := env (n + k + 1)) hu
      by_cases hx : u ≤ n + k + 1
      · rw [if_pos hx] at e
        rw [← e] at hchk
        exact hend _ hchk
      · rw [if_neg hx] at e
        rw [e] at ih'
        rw [b1] at ih'
        exact (ih' hl).1 u (a.phase.trans hu) (by omega)
    · rcases tick_waiting (flush := flush) (n := n + k + 1) (l := env (n + k + 1)) hd with ⟨_, e⟩ | ⟨_, _, e⟩ | ⟨_, hdn, ⟨_, e⟩ | ⟨_, e⟩ | ⟨_, _, e⟩⟩
      · exact hend _ ⟨_, e⟩
      · rw [e] at ih'
        rw [b1] at ih'
        exact (ih' hl).2 d (a.phase.trans hd) (by omega)
      · exact hend _ ⟨_, e⟩
      · rw [← e] at hchk
        exact hend _ hchk
      · rw [e] at ih'
        have hdk := (hi.waiting d hd).1
        have := hF (n + k + 1)
        refine (ih' (by rw [← b1] at hl; exact hl)).1 (n + k + 1 + flush (n + k + 1)) rfl (by omega)

/-- in the loop, and nothing is written any more -/
theorem last_stays (flush env s n T) (hT : n ≤ T) (hseen : s.firstSeen = true ∨ ∃ m, n < m ∧ m ≤ T ∧ ∃ v, v > 0 ∧ Ev.array v ∈ env m) :
    ∀ j, Quiet env T (T + j) → inLoop (run flush env s n (T - n + j)).phase = true → (run flush env s n (T - n + j)).last ≤ T := by
  intro j
  induction j with
  | zero =>
    intro _ hl
    have hi := run_inv flush env s n (T - n + 0)
    have := (hi.loop hl).2.1
    omega
  | succ j ih =>
    intro hq hl
    have hi := run_inv flush env s n (T - n + j)
    have a := heard (n + (T - n + j) + 1) (env (n + (T - n + j) + 1)) (run flush env s n (T - n + j))
    have hfs : (run flush env s n (T - n + j)).firstSeen = true := by
      rw [hi.seen]
      rcases hseen with h | ⟨m, h1, h2, h3⟩
      · exact Or.inl h
      · exact Or.inr ⟨m, h1, by omega, h3⟩
    have hnf : (run flush env s n (T - n + j)).phase ≠ .first := fun h => by
      rw [hi.first] at h; rw [hfs] at h; cases h
    obtain ⟨b1, _, _⟩ := a.lastOld (Or.inr (fun v hv => hq (n + (T - n + j) + 1) (by omega) (by omega) ⟨v, hv⟩))
    rw [show T - n + (j + 1) = (T - n + j) + 1 by omega, run_succ] at hl ⊢
    have ih := ih (fun m h1 h2 => hq m h1 (by omega))
    have hcl : ∀ m q, (check m q).last = m.last := by
      intro m q; unfold check await; split
      · rfl
      · split <;> rfl
    cases hp : (run flush env s n (T - n + j)).phase with
    | idle => exact (hi.idle hp).elim
    | first => exact (hnf hp).elim
    | ended e r =>
      have := ended_stays flush env s n _ e r hp 1
      rw [run_succ] at this
      rw [this] at hl; cases hl
    | waiting d =>
      have ih := ih (by rw [hp]; rfl)
      rcases tick_waiting (flush := flush) (n := n + (T - n + j) + 1) (l := env (n + (T - n + j) + 1)) hp with ⟨_, e⟩ | ⟨_, _, e⟩ | ⟨_, _, ⟨_, e⟩ | ⟨_, e⟩ | ⟨_, _, e⟩⟩
      · rw [e] at hl; cases hl
      · rw [e, b1]; exact ih
      · rw [e] at hl; cases hl
      · rw [e, hcl, b1]; exact ih
      · rw [e]; simp only [b1]; exact ih
    | flushing u =>
      have ih := ih (by rw [hp]; rfl)
      rw [tick_flushing hp]
      split
      · rw [hcl, b1]; exact ih
      · rw [b1]; exact ih

/-- C101: a run whose first frame was seen by `T`, and of which no frame is written after `T`, is over soon after the
time allowed: a second, and the time of a flush. -/
theorem stall_noticed (flush env s n) (F T : Nat) (hF : ∀ m, flush m ≤ F) (hT : n ≤ T)
    (hseen : s.firstSeen = true ∨ ∃ m, n < m ∧ m ≤ T ∧ ∃ v, v > 0 ∧ Ev.array v ∈ env m)
    (hq : Quiet env T (T + s.timeout + 1000 + F)) :
    ∃ r, Ended (run flush env s n (T + s.timeout + 1000 + F - n)) r := by
  have hls := last_stays flush env s n T hT hseen s.timeout (fun m h1 h2 => hq m h1 (by omega))
  have hi := run_inv flush env s n (T - n + s.timeout)
  have hfs : (run flush env s n (T - n + s.timeout)).firstSeen = true := by
    rw [hi.seen]
    rcases hseen with h | ⟨m, h1, h2, h3⟩
    · exact Or.inl h
    · exact Or.inr ⟨m, h1, by omega, h3⟩
  have hnf : (run flush env s n (T - n + s.timeout)).phase ≠ .first := fun h => by
    rw [hi.first] at h; rw [hfs] at h; cases h
  have hl := fun h => late flush env s n F T hF (1000 + F) (T - n + s.timeout) (by omega) (fun m h1 h2 => hq m h1 (by omega)) (hls h)
  rw [show T - n + s.timeout + (1000 + F) = T + s.timeout + 1000 + F - n by omega] at hl
  cases hp : (run flush env s n (T - n + s.timeout)).phase with
  | idle => exact (hi.idle hp).elim
  | first => exact (hnf hp).elim
  | ended e r =>
    have he : Ended (run flush env s n (T - n + s.timeout)) r := ⟨e, hp⟩
    exact ⟨r, ended_later he (by omega)⟩
  | waiting d =>
    have := (hi.waiting d hp).2.1
    exact (hl (by rw [hp]; rfl)).2 d hp (by omega)
  | flushing u =>
    have := flush_bound flush env s n F hF _ u hp
    exact (hl (by rw [hp]; rfl)).1 u hp (by omega)

/-- while a flush is on, what was reached stays reached -/
theorem flush_done (flush env s n) :
    ∀ j k u, (run flush env s n k).phase = .flushing u → u ≤ n + k + j → (run flush env s n k).reached = true →
      u ≤ (run flush env s n k).last + s.timeout → Ended (run flush env s n (k + j)) .done := by
  intro j
  induction j with
  | zero =>
    intro k u hp hu
    have := (run_inv flush env s n k).flushing u hp
    omega
  | succ j ih =>
    intro k u hp hu hr hl
    have hi := run_inv flush env s n k
    have hll := (hi.loop (by rw [hp]; rfl)).2.1
    have a := heard (n + k + 1) (env (n + k + 1)) (run flush env s n k)
    have e := tick_flushing (flush := flush) (n := n + k + 1) (l := env (n + k + 1)) hp
    have hr' := a.keep hr
    have hl' : u ≤ ((env (n + k + 1)).foldl (hear (n + k + 1)) (run flush env s n k)).last + s.timeout := by
      by_cases hx : ∃ v, Ev.captured v ∈ env (n + k + 1)
      · rw [a.lastNew (by rw [hp]; rfl) hx]; omega
      · rw [(a.lastOld (Or.inr fun v hv => hx ⟨v, hv⟩)).1]; exact hl
    by_cases hx : u ≤ n + k + 1
    · rw [if_pos hx] at e
      have hu1 := hi.flushing u hp
      have : Ended (run flush env s n (k + 1)) .done := by
        rw [run_succ, e]
        unfold check
        rw [a.timeout, hi.timeout, if_neg (by omega)]
        unfold await
        rw [if_pos hr']
        exact ⟨_, rfl⟩
      exact ended_later this (by omega)
    · rw [if_neg hx] at e
      have h1 := ih (k + 1) u (by rw [run_succ, e]; exact a.phase.trans hp) (by omega) (by rw [run_succ, e]; exact hr')
        (by rw [run_succ, e]; exact hl')
      rw [show k + 1 + j = k + (j + 1) by omega] at h1
      exact h1

/-- C101: if flushing takes no longer than the time allowed, a run that is under way ends well when it is told that the frames are
captured: at once, or when the flush that is on is over. -/
theorem ends_when_reached (flush env s n) (F : Nat) (hF : ∀ m, flush m ≤ F) (hFT : F ≤ s.timeout) (k)
    (hseen : s.firstSeen = true ∨ ∃ m, n < m ∧ m ≤ n + k ∧ ∃ v, v > 0 ∧ Ev.array v ∈ env m)
    (hrun : ∀ r, ¬ Ended (run flush env s n k) r) (ht : Ev.captured s.target ∈ env (n + k + 1)) :
    Ended (run flush env s n (k + 1 + F)) .done := by
  have hi := run_inv flush env s n k
  have a := heard (n + k + 1) (env (n + k + 1)) (run flush env s n k)
  have hnf : (run flush env s n k).phase ≠ .first := fun h => by
    rw [hi.first] at h
    have := hi.seen.2 hseen
    rw [this] at h; cases h
  cases hp : (run flush env s n k).phase with
  | idle => exact (hi.idle hp).elim
  | first => exact (hnf hp).elim
  | ended e r => exact (hrun r ⟨e, hp⟩).elim
  | waiting d =>
    have hr := a.reach (by rw [hp]; rfl) (by rw [hi.target]; exact ht)
    rcases tick_waiting (flush := flush) (n := n + k + 1) (l := env (n + k + 1)) hp with ⟨_, e⟩ | ⟨hh, _⟩ | ⟨hh, _⟩
    · have : Ended (run flush env s n (k + 1)) .done := ⟨_, e⟩
      exact ended_later this (by omega)
    · rw [hr] at hh; cases hh
    · rw [hr] at hh; cases hh
  | flushing u =>
    have hr := a.reach (by rw [hp]; rfl) (by rw [hi.target]; exact ht)
    have hb := flush_bound flush env s n F hF _ u hp
    have hla := a.lastNew (by rw [hp]; rfl) ⟨_, ht⟩
    have e := tick_flushing (flush := flush) (n := n + k + 1) (l := env (n + k + 1)) hp
    by_cases hx : u ≤ n + k + 1
    · rw [if_pos hx] at e
      have : Ended (run flush env s n (k + 1)) .done := by
        rw [run_succ, e]
        unfold check
        rw [a.timeout, hi.timeout, hla, if_neg (by omega)]
        unfold await
        rw [if_pos hr]
        exact ⟨_, rfl⟩
      exact ended_later this (by omega)
    · rw [if_neg hx] at e
      exact flush_done flush env s n F (k + 1) u (by rw [run_succ, e]; exact a.phase.trans hp) (by omega)
        (by rw [run_succ, e]; exact hr) (by rw [run_succ, e, hla]; omega)

theorem start_stays (flush env s n k b) (h : (run flush env s n k).start = some b) (j) : (run flush env s n (k + j)).start = some b := by
  induction j with
  | zero => exact h
  | succ j ih =>
    rw [show k + (j + 1) = k + j + 1 by omega, run_succ]
    unfold tick
    rw [act_start]
    exact (heard _ _ _).started b ih

theorem begin_start (s : St) (n : Nat) : (begin s n).start = s.start := by
  unfold begin
  split
  · unfold enter; rw [await_start]; rfl
  · rfl

theorem start_none (flush env s n) (hs : s.start = none) :
    ∀ k, (∀ i b, n < i → i ≤ n + k → Ev.start b ∉ env i) → (run flush env s n k).start = none
  | 0, _ => (begin_start s n).trans hs
  | k + 1, h => by
    rw [run_succ]
    unfold tick
    rw [act_start]
    exact (heard _ _ _).starts (start_none flush env s n hs k (fun i b h1 h2 => h i b h1 (by omega)))
      (fun b => h (n + k + 1) b (by omega) (by omega))

/-- the call of `start` has failed -/
theorem failing (flush env s n) :
    ∀ j k, (run flush env s n k).start = some false →
      (∀ d, (run flush env s n k).phase = .waiting d → d ≤ n + k + j → ∃ r, Ended (run flush env s n (k + j)) r) ∧
      (∀ u, (run flush env s n k).phase = .flushing u → u + 1000 ≤ n + k + j → ∃ r, Ended (run flush env s n (k + j)) r) := by
  intro j
  induction j with
  | zero =>
    intro k _
    have hi := run_inv flush env s n k
    refine ⟨fun d hd h => ?_, fun u hu h => ?_⟩
    · have := hi.waiting d hd; omega
    · have := hi.flushing u hu; omega
  | succ j ih =>
    intro k hs
    have hi := run_inv flush env s n k
    have a := heard (n + k + 1) (env (n + k + 1)) (run flush env s n k)
    have hs' := start_stays flush env s n k false hs 1
    have ih' := ih (k + 1) hs'
    have hend : ∀ r, Ended (run flush env s n (k + 1)) r → ∃ r, Ended (run flush env s n (k + (j + 1))) r :=
      fun r h => ⟨r, ended_later h (by omega)⟩
    rw [show k + 1 + j = k + (j + 1) by omega] at ih'
    refine ⟨fun d hd h => ?_, fun u hu h => ?_⟩
    · rcases tick_waiting (flush := flush) (n := n + k + 1) (l := env (n + k + 1)) hd with ⟨_, e⟩ | ⟨_, _, e⟩ | ⟨_, hdn, ⟨_, e⟩ | ⟨hh, _⟩ | ⟨hh, _⟩⟩
      · exact hend .done ⟨_, e⟩
      · exact ih'.1 d (by rw [run_succ, e]; exact a.phase.trans hd) (by omega)
      · exact hend .failed ⟨_, e⟩
      · exact (hh (a.started _ hs)).elim
      · rw [a.started _ hs] at hh; cases hh
    · have e := tick_flushing (flush := flush) (n := n + k + 1) (l := env (n + k + 1)) hu
      have hu1 := hi.flushing u hu
      by_cases hx : u ≤ n + k + 1
      · rw [if_pos hx] at e
        unfold check at e
        split at e
        · exact hend .stalled ⟨n + k + 1, by rw [run_succ, e]⟩
        · rcases await_ended_or ((env (n + k + 1)).foldl (hear (n + k + 1)) (run flush env s n k)) (n + k + 1) with h1 | h1
          · exact hend .done (by rw [run_succ, e]; exact h1)
          · exact ih'.1 (n + k + 1 + 1000) (by rw [run_succ, e]; exact h1) (by omega)
      · rw [if_neg hx] at e
        exact ih'.2 u (by rw [run_succ, e]; exact a.phase.trans hu) (by omega)

/-- C101: if the plugin cannot be started the run is over within a second and the time of a flush. -/
theorem failure_noticed (flush env s n) (F : Nat) (hF : ∀ m, flush m ≤ F) (k) (hs : s.start = none)
    (hn : ∀ i b, n < i → i ≤ n + k → Ev.start b ∉ env i) (hf : Ev.start false ∈ env (n + k + 1)) (ht : Ev.start true ∉ env (n + k + 1))
    (hseen : s.firstSeen = true ∨ ∃ m, n < m ∧ m ≤ n + k + 1 ∧ ∃ v, v > 0 ∧ Ev.array v ∈ env m) :
    ∃ r, Ended (run flush env s n (k + 1 + 1000 + F)) r := by
  have h0 := start_none flush env s n hs k hn
  have h1 : (run flush env s n (k + 1)).start = some false := by
    rw [run_succ]; unfold tick; rw [act_start]
    exact (heard _ _ _).failing h0 ht hf
  have hi := run_inv flush env s n (k + 1)
  have hnf : (run flush env s n (k + 1)).phase ≠ .first := fun h => by
    rw [hi.first] at h
    rw [hi.seen.2 hseen] at h; cases h
  have hl := failing flush env s n (1000 + F) (k + 1) h1
  rw [show k + 1 + (1000 + F) = k + 1 + 1000 + F by omega] at hl
  cases hp : (run flush env s n (k + 1)).phase with
  | idle => exact (hi.idle hp).elim
  | first => exact (hnf hp).elim
  | ended e r =>
    have he : Ended (run flush env s n (k + 1)) r := ⟨e, hp⟩
    exact ⟨r, ended_later he (by omega)⟩
  | waiting d =>
    have := (hi.waiting d hp).2.1
    exact hl.1 d hp (by omega)
  | flushing u =>
    have := flush_bound flush env s n F hF _ u hp
    exact hl.2 u hp (by omega)

/-- where a failure comes from -/
theorem failed_inv (flush env s n) : ∀ k,
    ((run flush env s n k).start = some false ∨ Ended (run flush env s n k) .failed) →
      s.start = some false ∨ ∃ m, n < m ∧ m ≤ n + k ∧ Ev.start false ∈ env m := by
  intro k
  induction k with
  | zero =>
    rintro (h | ⟨e, h⟩)
    · exact Or.inl ((begin_start s n).symm.trans h)
    · exfalso
      have h : (begin s n).phase = .ended e .failed := h
      unfold begin enter await at h
      split at h
      · split at h <;> cases h
      · cases h
  | succ k ih =>
    have a := heard (n + k + 1) (env (n + k + 1)) (run flush env s n k)
    have hs : ((env (n + k + 1)).foldl (hear (n + k + 1)) (run flush env s n k)).start = some false →
        s.start = some false ∨ ∃ m, n < m ∧ m ≤ n + (k + 1) ∧ Ev.start false ∈ env m := by
      intro h
      by_cases hx : Ev.start false ∈ env (n + k + 1)
      · exact Or.inr ⟨n + k + 1, by omega, by omega, hx⟩
      · have : (run flush env s n k).start = some false := by
          cases hst : (run flush env s n k).start with
          | some b => rw [← a.started b hst]; exact h
          | none =>
            exfalso
            have : ∀ (l : List Ev) (x : St), (∀ e ∈ l, e ≠ .start false) → x.start ≠ some false →
                (l.foldl (hear (n + k + 1)) x).start ≠ some false := by
              intro l
              induction l with
              | nil => intro x _ h; exact h
              | cons e l ih2 =>
                intro x he h
                rw [List.foldl_cons]
                refine ih2 _ (fun e' he' => he e' (List.mem_cons_of_mem _ he')) ?_
                have he0 := he e List.mem_cons_self
                cases e with
                | captured v => simp only [hear]; split <;> exact h
                | array v => exact h
                | start ok =>
                  cases ok
                  · exact (he0 rfl).elim
                  · simp only [hear]
                    cases hxs : x.start with
                    | none => simp
                    | some b =>
                      rw [hxs] at h
                      simpa using h
            exact this _ _ (fun e he hh => hx (hh ▸ he)) (by rw [hst]; simp) h
        rcases ih (Or.inl this) with h | ⟨m, h1, h2, h3⟩
        · exact Or.inl h
        · exact Or.inr ⟨m, h1, by omega, h3⟩
    rintro (h | ⟨e, h⟩)
    · rw [run_succ] at h
      unfold tick at h
      rw [act_start] at h
      exact hs h
    · have hi := run_inv flush env s n k
      have hold : Ended (run flush env s n k) .failed → s.start = some false ∨ ∃ m, n < m ∧ m ≤ n + (k + 1) ∧ Ev.start false ∈ env m := by
        intro h
        rcases ih (Or.inr h) with h | ⟨m, h1, h2, h3⟩
        · exact Or.inl h
        · exact Or.inr ⟨m, h1, by omega, h3⟩
      have hchk : ∀ (m : St) (q : Nat), (check m q).phase ≠ .ended e .failed := by
        intro m q hh
        unfold check await at hh
        split at hh
        · cases hh
        · split at hh <;> cases hh
      rw [run_succ] at h
      cases hp : (run flush env s n k).phase with
      | idle => exact (hi.idle hp).elim
      | ended e' r =>
        have := ended_stays flush env s n k e' r hp 1
        rw [run_succ] at this
        rw [this] at h
        cases h
        exact hold ⟨e, hp⟩
      | first =>
        exfalso
        have hm := a.phase.trans hp
        unfold tick act at h
        rw [hm] at h
        simp only at h
        split at h
        · unfold enter await at h
          split at h <;> cases h
        · rw [hm] at h; cases h
      | waiting d =>
        rcases tick_waiting (flush := flush) (n := n + k + 1) (l := env (n + k + 1)) hp with ⟨_, x⟩ | ⟨_, _, x⟩ | ⟨_, _, ⟨x1, x⟩ | ⟨_, x⟩ | ⟨_, _, x⟩⟩
        · rw [x] at h; cases h
        · rw [x, a.phase, hp] at h; cases h
        · exact hs x1
        · rw [x] at h; exact (hchk _ _ h).elim
        · rw [x] at h; cases h
      | flushing u =>
        rw [tick_flushing hp] at h
        split at h
        · exact (hchk _ _ h).elim
        · rw [a.phase, hp] at h; cases h

/-- C101: a run is only ended as failed if the plugin could not be started. -/
theorem failed_means_start (flush env s n k) (h : Ended (run flush env s n k) .failed) :
    s.start = some false ∨ ∃ m, n < m ∧ m ≤ n + k ∧ Ev.start false ∈ env m :=
  failed_inv flush env s n k (Or.inr h)

/-- C101: a run that is told nothing that could end it well, and whose plugin does not fail, is ended as stalled soon after its
frames stop. -/
theorem stall_reported (flush env s n) (F T : Nat) (hF : ∀ m, flush m ≤ F) (hT : n ≤ T)
    (hseen : s.firstSeen = true ∨ ∃ m, n < m ∧ m ≤ T ∧ ∃ v, v > 0 ∧ Ev.array v ∈ env m)
    (hq : Quiet env T (T + s.timeout + 1000 + F))
    (hst : s.start ≠ some false) (hstart : ∀ m, Ev.start false ∉ env m) (htold : ¬ Told env s.captured n T s.target) :
    Ended (run flush env s n (T + s.timeout + 1000 + F - n)) .stalled := by
  obtain ⟨r, hr⟩ := stall_noticed flush env s n F T hF hT hseen hq
  cases r with
  | stalled => exact hr
  | failed =>
    rcases failed_means_start _ _ _ _ _ hr with h | ⟨m, _, _, h⟩
    · exact (hst h).elim
    · exact (hstart m h).elim
  | done =>
    rcases done_means_all _ _ _ _ _ hr with h | ⟨m, h1, h2, h3⟩
    · exact (htold (Or.inl h)).elim
    · by_cases hm : m ≤ T
      · exact (htold (Or.inr ⟨m, h1, hm, h3⟩)).elim
      · exact (hq m (by omega) (by omega) ⟨_, h3⟩).elim

/-! ### Runs after configure and seek -/

/-- C101: a first run ends well only if as many frames were captured as were asked for. -/
theorem first_run_frames (flush env n k) (steps duration : Int)
    (h : Ended (run flush env (configure 0 steps duration) n k) .done) : Told env 0 n (n + k) steps := by
  have := done_means_all _ _ _ _ _ h
  simpa [configure] using this

/-- C101: a run after a seek ends well only if as many frames were captured since as were asked for. -/
theorem later_run_frames (flush env s n k) (completed steps : Int)
    (h : Ended (run flush env (seek s completed steps) n k) .done) : Told env s.captured n (n + k) (s.captured + steps) :=
  done_means_all _ _ _ _ _ h

/-- C101: the progress reported in a run after a seek is the steps completed before and the frames captured since. -/
theorem later_progress (flush env s n k) (completed steps : Int) (p : Int)
    (h : p ∈ (run flush env (seek s completed steps) n k).progress) (hp : p ∉ s.progress) :
    ∃ v, Told env s.captured n (n + k) v ∧ p = completed + (v - s.captured) := by
  obtain ⟨_, h2⟩ := progress_true flush env (seek s completed steps) n k p h hp
  refine ⟨_, h2, ?_⟩
  simp only [seek]
  omega

/-- C101: a run whose frames take `duration` each and are at most a minute late is never ended as stalled. -/
theorem on_time_not_stalled (flush env n) (steps : Int) (duration : Nat) (hd : 0 < duration)
    (hs : ∀ t, n + 60000 + duration < t → ∃ m, n < m ∧ m ≤ t ∧ t ≤ m + 60000 + duration ∧ Frame env m)
    (k) : ¬ Ended (run flush env (configure 0 steps duration) n k) .stalled := by
  have ht : (configure 0 steps duration).timeout = 60000 + duration := by
    simp only [configure, frameTimeout]
    rw [if_pos (by omega), Int.toNat_natCast]
  refine steady_not_stalled flush env _ n ?_ k
  rw [ht]
  intro t h
  obtain ⟨m, h1, h2, h3, h4⟩ := hs t (by omega)
  exact ⟨m, h1, h2, by omega, h4⟩

/-- C101: a run of frames of `duration` each that stop coming is over 61 s after the next was due, and the time of a flush. -/
theorem stall_noticed_in (flush env n) (steps : Int) (duration : Nat) (hd : 0 < duration) (F T : Nat) (hF : ∀ m, flush m ≤ F) (hT : n ≤ T)
    (hseen : ∃ m, n < m ∧ m ≤ T ∧ ∃ v, v > 0 ∧ Ev.array v ∈ env m) (hq : Quiet env T (T + duration + 61000 + F)) :
    ∃ r, Ended (run flush env (configure 0 steps duration) n (T + duration + 61000 + F - n)) r := by
  have ht : (configure 0 steps duration).timeout = 60000 + duration := by
    simp only [configure, frameTimeout]
    rw [if_pos (by omega), Int.toNat_natCast]
  have h := stall_noticed flush env (configure 0 steps duration) n F T hF hT (Or.inr hseen)
  rw [ht, show T + (60000 + duration) + 1000 + F = T + duration + 61000 + F by omega] at h
  exact h hq

/-- C101: a run whose frames take no known time is not ended as stalled while a frame comes every two minutes. -/
theorem unknown_not_stalled (flush env n) (steps duration : Int) (hd : duration ≤ 0)
    (hs : ∀ t, n + 120000 < t → ∃ m, n < m ∧ m ≤ t ∧ t ≤ m + 120000 ∧ Frame env m)
    (k) : ¬ Ended (run flush env (configure 0 steps duration) n k) .stalled := by
  have ht : (configure 0 steps duration).timeout = 120000 := by
    simp only [configure, frameTimeout]
    rw [if_neg (by omega)]
  refine steady_not_stalled flush env _ n ?_ k
  rw [ht]
  exact hs

/-- C101: a run of frames that take no known time, and stop coming, is over two minutes and a second after the last, and the time of a
flush. -/
theorem unknown_stall_noticed (flush env n) (steps duration : Int) (hd : duration ≤ 0) (F T : Nat) (hF : ∀ m, flush m ≤ F) (hT : n ≤ T)
    (hseen : ∃ m, n < m ∧ m ≤ T ∧ ∃ v, v > 0 ∧ Ev.array v ∈ env m) (hq : Quiet env T (T + 121000 + F)) :
    ∃ r, Ended (run flush env (configure 0 steps duration) n (T + 121000 + F - n)) r := by
  have ht : (configure 0 steps duration).timeout = 120000 := by
    simp only [configure, frameTimeout]
    rw [if_neg (by omega)]
  have h := stall_noticed flush env (configure 0 steps duration) n F T hF hT (Or.inr hseen)
  rw [ht, show T + 120000 + 1000 + F = T + 121000 + F by omega] at h
  exact h hq

/-! ### Cases -/

/-- three frames, half a second each, written 10 ms later -/
def three (m : Nat) : List Ev :=
  if m = 3 then [.array 1] else if m = 13 then [.captured 1, .array 2] else if m = 513 then [.captured 2]
  else if m = 1013 then [.captured 3] else []

/-- a flush takes 20 ms -/
def quick (_ : Nat) : Nat := 20

set_option maxRecDepth 20000 in
example : (run quick three (configure 0 3 500) 0 2).phase = .first ∧ (run quick three (configure 0 3 500) 0 12).phase = .waiting 1003 ∧
    ((fun s : St => (s.phase, s.progress)) (run quick three (configure 0 3 500) 0 1023) = (.ended 1023 .done, [3, 2, 1, 0])) := by
  decide +kernel

/-- a frame at 10 ms and none after -/
def one (m : Nat) : List Ev :=
  if m = 5 then [.array 1] else if m = 10 then [.captured 1] else []

theorem one_quiet (b) : Quiet one 10 b := by
  rintro m hm _ ⟨v, hv⟩
  unfold one at hv
  rw [if_neg (by omega), if_neg (by omega)] at hv
  cases hv

example : Ended (run quick one (configure 0 5 1000) 0 62030) .stalled :=
  stall_reported quick one (configure 0 5 1000) 0 20 10 (fun _ => Nat.le_refl _) (by decide)
    (Or.inr ⟨5, by decide, by decide, 1, by decide, by simp [one]⟩) (one_quiet _) (by decide)
    (by intro m h; simp only [one] at h; repeat' split at h; all_goals simp at h)
    (by
      rintro (h | ⟨m, _, _, h⟩)
      · revert h; decide
      · simp only [one, configure] at h
        repeat' split at h
        all_goals simp at h)

/-- a frame every half a second -/
def steady (m : Nat) : List Ev := if m % 500 = 0 then [.array (m / 500), .captured (m / 500)] else []

example (k) : ¬ Ended (run quick steady (configure 0 1000 500) 0 k) .stalled := by
  refine on_time_not_stalled quick steady 0 1000 500 (by decide) ?_ k
  intro t ht
  refine ⟨t / 500 * 500, by omega, by omega, by omega, ((t / 500 * 500 : Nat) : Int) / 500, ?_⟩
  unfold steady
  rw [if_pos (by omega)]
  simp

example : ∃ r, Ended (run quick one (configure 0 5 1000) 0 62030) r :=
  stall_noticed_in quick one 0 5 1000 (by decide) 20 10 (fun _ => Nat.le_refl _) (by decide)
    ⟨5, by decide, by decide, 1, by decide, by simp [one]⟩ (one_quiet _)

example : ∃ r, Ended (run quick one (configure 0 5 0) 0 121030) r :=
  unknown_stall_noticed quick one 0 5 0 (by decide) 20 10 (fun _ => Nat.le_refl _) (by decide)
    ⟨5, by decide, by decide, 1, by decide, by simp [one]⟩ (one_quiet _)

example (k) : ¬ Ended (run quick steady (configure 0 1000 (-1)) 0 k) .stalled := by
  refine unknown_not_stalled quick steady 0 1000 (-1) (by decide) ?_ k
  intro t ht
  refine ⟨t / 500 * 500, by omega, by omega, by omega, ((t / 500 * 500 : Nat) : Int) / 500, ?_⟩
  unfold steady
  rw [if_pos (by omega)]
  simp

/-- the plugin fails at 700 ms -/
def broken (m : Nat) : List Ev :=
  if m = 5 then [.array 1] else if m = 700 then [.start false] else []

example : ∃ r, Ended (run quick broken (configure 0 5 1000) 0 1720) r :=
  failure_noticed quick broken (configure 0 5 1000) 0 20 (fun _ => Nat.le_refl _) 699 rfl
    (by
      intro i b h1 h2 h
      unfold broken at h
      rw [if_neg (show ¬ i = 700 by omega)] at h
      split at h <;> simp at h) (by simp [broken]) (by simp [broken]) (Or.inr ⟨5, by decide, by decide, 1, by decide, by simp [broken]⟩)

/-! ### Where it goes wrong -/

/-- a frame, but only after 70 s -/
def tardy (m : Nat) : List Ev :=
  if m = 70000 then [.array 6, .captured 6] else []

theorem tardy_none {m e} (h : e ∈ tardy m) : m = 70000 := by
  unfold tardy at h
  split at h
  · assumption
  · cases h

/-- C101 does not hold of the frames before the first of a later run: the first run waits for its first frame for as long as it
takes, but a later one after a seek is said to have stalled when that takes longer than the time allowed. -/
theorem later_run_hurried : ∃ s : St, s.firstSeen = true ∧ s.captured = 5 ∧ (seek s 5 5).timeout = 61000 ∧
    Ended (run quick tardy (seek s 5 5) 0 69999) .stalled ∧ (run quick tardy (configure 0 5 1000) 0 69999).phase = .first := by
  refine ⟨{ configure 0 5 1000 with firstSeen := true, captured := 5 }, rfl, rfl, rfl, ?_, ?_⟩
  · have h := stall_reported quick tardy (seek { configure 0 5 1000 with firstSeen := true, captured := 5 } 5 5) 0 20 0 (fun _ => Nat.le_refl _)
      (by decide) (Or.inl rfl)
      (by rintro m _ h ⟨v, hv⟩; have := tardy_none hv; simp [seek, configure, frameTimeout] at h; omega) (by decide)
      (by intro m h; have e := tardy_none h; subst e; simp [tardy] at h)
      (by
        rintro (h | ⟨m, h1, h2, _⟩)
        · revert h; decide
        · omega)
    exact ended_later h (by decide)
  · refine waits_for_first quick tardy _ 0 rfl 69999 ?_
    intro m v hm h
    have := tardy_none h
    omega

/-- more frames are written than were asked for, and the value asked for is not told -/
def over (m : Nat) : List Ev :=
  if m = 5 then [.array 1, .captured 4] else if m = 10 then [.captured 6] else []

/-- C101 does not hold of a number of frames that is passed without being told: all frames are captured, and more, yet the run is
said to have stalled. -/
theorem overshoot_stalls : Ended (run quick over (configure 0 5 1000) 0 62030) .stalled ∧
    Ev.captured 6 ∈ over 10 ∧ (configure 0 5 1000).target = 5 := by
  refine ⟨?_, by simp [over], rfl⟩
  exact stall_reported quick over (configure 0 5 1000) 0 20 10 (fun _ => Nat.le_refl _) (by decide)
    (Or.inr ⟨5, by decide, by decide, 1, by decide, by simp [over]⟩)
    (by
      rintro m hm _ ⟨v, hv⟩
      unfold over at hv
      rw [if_neg (by omega), if_neg (by omega)] at hv
      cases hv) (by decide)
    (by intro m h; simp only [over] at h; repeat' split at h; all_goals simp at h)
    (by
      rintro (h | ⟨m, _, _, h⟩)
      · revert h; decide
      · simp only [over, configure] at h
        repeat' split at h
        all_goals simp at h)

/-- frames of 130 s -/
def slow (m : Nat) : List Ev :=
  if m = 1 then [.array 1, .captured 1] else if m = 130001 then [.captured 2] else if m = 260001 then [.captured 3] else []

/-- C101 does not hold of long frames in a scan whose points do not all take the same time: the time allowed is 120 s whatever the
points take. -/
theorem long_frames_stall : Ended (run quick slow (configure 0 3 (-1)) 0 121021) .stalled := by
  exact stall_reported quick slow (configure 0 3 (-1)) 0 20 1 (fun _ => Nat.le_refl _) (by decide)
    (Or.inr ⟨1, by decide, by decide, 1, by decide, by simp [slow]⟩)
    (by
      rintro m hm hm2 ⟨v, hv⟩
      simp [configure, frameTimeout] at hm2
      unfold slow at hv
      rw [if_neg (by omega), if_neg (by omega), if_neg (by omega)] at hv
      cases hv) (by decide)
    (by
      intro m h
      unfold slow at h
      by_cases h1 : m = 1
      · rw [if_pos h1] at h; simp at h
      · rw [if_neg h1] at h
        by_cases h2 : m = 130001
        · rw [if_pos h2] at h; simp at h
        · rw [if_neg h2] at h
          by_cases h3 : m = 260001
          · rw [if_pos h3] at h; simp at h
          · rw [if_neg h3] at h; cases h)
    (by
      rintro (h | ⟨m, h1, h2, h⟩)
      · revert h; decide
      · unfold slow at h
        rw [if_pos (by omega)] at h
        simp [configure] at h)

/-- a flush holds the run up whatever is told -/
theorem flush_holds (flush env s n k u) (h : (run flush env s n k).phase = .flushing u) :
    ∀ j, n + k + j < u → (run flush env s n (k + j)).phase = .flushing u
  | 0, _ => h
  | j + 1, hj => by
    have ih := flush_holds flush env s n k u h j (by omega)
    rw [show k + (j + 1) = (k + j) + 1 from rfl, run_succ, tick_flushing ih, if_neg (by omega)]
    exact (heard _ _ _).phase.trans ih

/-- all frames are there after 1.1 s -/
def soon (m : Nat) : List Ev :=
  if m = 1 then [.array 1, .captured 1] else if m = 1100 then [.captured 5] else []

set_option maxRecDepth 20000 in
/-- C101 does not hold if the plugin is slow to flush: the run is not over until the flush is, though all frames are captured. -/
theorem flush_holds_up : (run (fun _ => 3600000) soon (configure 0 5 1000) 0 3600000).phase = .flushing 3601001 ∧
    Ev.captured (configure 0 5 1000).target ∈ soon 1100 := by
  refine ⟨?_, by simp [soon, configure]⟩
  have h : (run (fun _ => 3600000) soon (configure 0 5 1000) 0 1001).phase = .flushing 3601001 := by decide +kernel
  exact flush_holds _ _ _ 0 1001 3601001 h 3598999 (by decide)

end Verif.Props.WriterStall
