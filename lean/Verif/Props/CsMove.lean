import Verif.Spec.CsMove
/-!
C82: coordinated moves.
-/
namespace Verif.Props.CsMove
open Verif Verif.CsMove Verif.Spec.CsMove

/-! ### the demands -/

theorem mem_demands (m : Mover) (d : Demand) : d ∈ m.demands ↔ m.args d.1 = some d.2 := by
  unfold Mover.demands
  simp only [List.mem_filterMap, List.mem_finRange, true_and, Option.map_eq_some_iff]
  constructor
  · rintro ⟨a, v, h, rfl⟩; exact h
  · intro h; exact ⟨d.1, d.2, h, rfl⟩

theorem demands_axes (m : Mover) : (m.demands.map (·.1)).Nodup := by
  unfold Mover.demands
  have : ∀ l : List Axis, l.Nodup → ((l.filterMap (fun a => (m.args a).map (fun v => (a, v)))).map (·.1)).Nodup ∧
      ∀ x ∈ (l.filterMap (fun a => (m.args a).map (fun v => (a, v)))).map (·.1), x ∈ l := by
    intro l
    induction l with
    | nil => intro _; exact ⟨List.nodup_nil, by simp⟩
    | cons a l ih =>
      intro h
      rw [List.nodup_cons] at h
      obtain ⟨h1, h2⟩ := ih h.2
      cases ha : m.args a with
      | none => 
        rw [List.filterMap_cons_none (by rw [ha]; rfl)]
        exact ⟨h1, fun x hx => List.mem_cons_of_mem _ (h2 x hx)⟩
      | some v =>
        rw [List.filterMap_cons_some (b := (a, v)) (by rw [ha]; rfl), List.map_cons]
        refine ⟨List.nodup_cons.2 ⟨fun hm => h.1 (h2 _ hm), h1⟩, ?_⟩
        intro x hx
        rcases List.mem_cons.1 hx with rfl | hx
        · exact List.mem_cons_self
        · exact List.mem_cons_of_mem _ (h2 x hx)
  exact (this _ (List.nodup_finRange 9)).1

theorem demands_allOf (m : Mover) : AllOf m.args m.demands :=
  ⟨List.Pairwise.of_map (·.1) (fun a b (h : a.1 ≠ b.1) e => h (by rw [e])) (demands_axes m), fun d => mem_demands m d⟩

theorem allOf_perm {m : Mover} {l : List Demand} (h : l.Perm m.demands) : AllOf m.args l :=
  ⟨h.nodup_iff.2 (demands_allOf m).1, fun d => (h.mem_iff).trans (mem_demands m d)⟩

/-! ### one call -/

/-- Before the demands are put -/
structure Before (c0 c : Child) (m : Mover) : Prop where
  pc : (m.pc = .deferring ∧ c.deferred = false ∧ c.time = c0.time) ∨ (m.pc = .timing ∧ c.deferred = true) ∨
    (m.pc = .putting ∧ c.deferred = true ∧ c.time = m.moveTime * 1000) ∨ m.pc = .failed
  started : c.started = c0.started
  queue : c.queue = []
  inflight : m.inflight = []
  shown : c.shown = c0.shown

/-- The demands are put, and moves are deferred -/
structure Posted (c0 c : Child) (m : Mover) : Prop where
  pc : (∃ rest, m.pc = .waiting rest ∧ (∀ d ∈ rest, d ∈ m.demands) ∧ ∀ d ∈ m.demands, d ∉ rest → c.shown d.1 = d.2) ∨
    (m.pc = .releasing ∧ ∀ d ∈ m.demands, c.shown d.1 = d.2) ∨ m.pc = .failed
  deferred : c.deferred = true
  time : c.time = m.moveTime * 1000
  started : c.started = c0.started
  all : (c.queue ++ m.inflight).Perm m.demands
  shown : ∀ d ∈ m.inflight, c.shown d.1 = c0.shown d.1
  seen : ∀ d ∈ c.queue, c.shown d.1 = d.2

/-- Moves are no longer deferred -/
structure Released (c0 c : Child) (m : Mover) : Prop where
  pc : m.pc = .ending ∨ (m.pc = .done ∧ m.inflight = []) ∨ m.pc = .failed
  deferred : c.deferred = false
  queue : c.queue = []
  time : c.time = m.moveTime * 1000
  groups : ∃ (b late : List Demand), c.started = c0.started ++ (if b = [] then [] else [b]) ++ late.map (fun d => [d]) ∧
    (b ++ (late ++ m.inflight)).Perm m.demands ∧ ∀ d ∈ late ++ m.inflight, d.2 = c0.shown d.1

def Inv (c0 c : Child) (m : Mover) : Prop := Before c0 c m ∨ Posted c0 c m ∨ Released c0 c m

/-- two demands for one axis are the same -/
theorem one_axis {m : Mover} {l : List Demand} (h : l.Perm m.demands) {d e : Demand} (hd : d ∈ l) (he : e ∈ l) (hx : d.1 = e.1) : d = e := by
  have h1 := (mem_demands m d).1 (h.mem_iff.1 hd)
  have h2 := (mem_demands m e).1 (h.mem_iff.1 he)
  rw [hx, h2] at h1
  exact Prod.ext hx (Option.some.inj h1).symm

theorem nodup_of {m : Mover} {l : List Demand} (h : l.Perm m.demands) : l.Nodup := h.nodup_iff.2 (demands_allOf m).1

theorem inv_step {c0 c : Child} {m : Mover} (h : Inv c0 c m) : Inv c0 (stepMover c m).1 (stepMover c m).2 := by
  rcases h with h | h | h
  · rcases h.pc with ⟨hp, hd, ht⟩ | ⟨hp, hd⟩ | ⟨hp, hd, ht⟩ | hp
    · unfold stepMover; rw [hp]
      exact .inl ⟨.inr (.inl ⟨rfl, rfl⟩), h.started, h.queue, h.inflight, h.shown⟩
    · unfold stepMover; rw [hp]
      exact .inl ⟨.inr (.inr (.inl ⟨rfl, hd, rfl⟩)), h.started, h.queue, h.inflight, h.shown⟩
    · unfold stepMover; rw [hp]
      refine .inr (.inl ⟨.inl ⟨m.demands, rfl, fun d hd => hd, fun d hd hn => absurd hd hn⟩, hd, ht, h.started, ?_, fun d _ => by rw [h.shown],
        fun d hd => by rw [h.queue] at hd; cases hd⟩)
      show (c.queue ++ m.demands).Perm m.demands
      rw [h.queue]; exact .refl _
    · unfold stepMover; rw [hp]; exact .inl h
  · rcases h.pc with ⟨rest, hp, hr, hs⟩ | ⟨hp, hs⟩ | hp
    · unfold stepMover; rw [hp]
      cases rest with
      | nil =>
        exact .inr (.inl ⟨.inr (.inl ⟨rfl, fun d hd => hs d hd List.not_mem_nil⟩), h.deferred, h.time, h.started, h.all, h.shown, h.seen⟩)
      | cons d rest =>
        dsimp only
        split
        · rename_i hm
          refine .inr (.inl ⟨.inl ⟨rest, rfl, fun e he => hr e (List.mem_cons_of_mem _ he), fun e he hn => ?_⟩, h.deferred, h.time, h.started, h.all, h.shown, h.seen⟩)
          by_cases hed : e = d
          · rw [hed]; exact hm
          · exact hs e he (fun hmem => (List.mem_cons.1 hmem).elim hed hn)
        · exact .inr (.inl h)
    · unfold stepMover; rw [hp]
      refine .inr (.inr ⟨.inl rfl, rfl, rfl, h.time, c.queue, [], ?_, ?_, ?_⟩)
      · show (if c.queue = [] then c.started else c.started ++ [c.queue]) = _
        rw [h.started]
        split <;> simp
      · exact h.all
      · intro d hd
        have hd : d ∈ m.inflight := by simpa using hd
        have h1 := hs d (h.all.mem_iff.1 (List.mem_append_right _ hd))
        rw [← h1, h.shown d hd]
    · unfold stepMover; rw [hp]; exact .inr (.inl h)
  · rcases h.pc with hp | ⟨hp, hi⟩ | hp
    · unfold stepMover; rw [hp]
      dsimp only
      split
      · rename_i hi
        exact .inr (.inr ⟨.inr (.inl ⟨rfl, hi⟩), h.deferred, h.queue, h.time, h.groups⟩)
      · exact .inr (.inr h)
    · unfold stepMover; rw [hp]; exact .inr (.inr h)
    · unfold stepMover; rw [hp]; exact .inr (.inr h)

theorem erase_perm : ∀ {l : List Demand} {k : Nat} {d : Demand}, l[k]? = some d → (d :: l.eraseIdx k).Perm l
  | [], _, _, h => by cases h
  | x :: l, 0, d, h => by cases h; exact .refl _
  | x :: l, k + 1, d, h => (List.Perm.swap x d _).trans ((erase_perm (l := l) (k := k) h).cons x)

theorem inv_arrive {c0 c : Child} {m : Mover} (h : Inv c0 c m) {k : Nat} {d : Demand} (hk : m.inflight[k]? = some d) :
    Inv c0 (c.receive d) { m with inflight := m.inflight.eraseIdx k } := by
  have hd : d ∈ m.inflight := List.mem_of_getElem? hk
  have hp := erase_perm hk
  have hsub : ∀ e ∈ m.inflight.eraseIdx k, e ∈ m.inflight := fun e he => List.mem_of_mem_eraseIdx he
  rcases h with h | h | h
  · rw [h.inflight] at hd; cases hd
  · refine .inr (.inl ?_)
    have hall : (c.queue ++ [d] ++ m.inflight.eraseIdx k).Perm m.demands := by
      rw [List.append_assoc]
      exact (List.Perm.append_left _ hp).trans h.all
    have hrec : c.receive d = { c with shown := fun a => if a = d.1 then d.2 else c.shown a, queue := c.queue ++ [d] } := by
      unfold Child.receive
      simp only [h.deferred, if_true]
    rw [hrec]
    have hsh : ∀ e ∈ m.demands, c.shown e.1 = e.2 → (if e.1 = d.1 then d.2 else c.shown e.1) = e.2 := by
      intro e he hs
      split
      · rename_i hx
        have : e = d := one_axis (List.Perm.refl _) he (h.all.mem_iff.1 (List.mem_append_right _ hd)) hx
        rw [this]
      · exact hs
    refine ⟨?_, h.deferred, h.time, h.started, hall, ?_, ?_⟩
    · rcases h.pc with ⟨rest, hpc, hr, hs⟩ | ⟨hpc, hs⟩ | hpc
      · exact .inl ⟨rest, hpc, hr, fun e he hn => hsh e he (hs e he hn)⟩
      · exact .inr (.inl ⟨hpc, fun e he => hsh e he (hs e he)⟩)
      · exact .inr (.inr hpc)
    · intro e he
      show (if e.1 = d.1 then d.2 else c.shown e.1) = c0.shown e.1
      have hne : e.1 ≠ d.1 := by
        intro hx
        have hed : e = d := one_axis hall (List.mem_append_right _ he) (by simp) hx
        have hnd := nodup_of hall
        rw [List.nodup_append] at hnd
        exact hnd.2.2 d (by simp) e he hed.symm
      rw [if_neg hne]
      exact h.shown e (hsub e he)
    · intro e he
      rcases List.mem_append.1 he with he | he
      · exact hsh e (h.all.mem_iff.1 (List.mem_append_left _ he)) (h.seen e he)
      · rw [List.mem_singleton.1 he]; exact if_pos rfl
  · refine .inr (.inr ?_)
    obtain ⟨b, late, h1, h2, h3⟩ := h.groups
    have hrec : c.receive d = { c with shown := fun a => if a = d.1 then d.2 else c.shown a, started := c.started ++ [[d]] } := by
      unfold Child.receive
      simp only [h.deferred, Bool.false_eq_true, if_false]
    rw [hrec]
    refine ⟨?_, h.deferred, h.queue, h.time, b, late ++ [d], ?_, ?_, ?_⟩
    · rcases h.pc with hpc | ⟨hpc, hi⟩ | hpc
      · exact .inl hpc
      · rw [hi] at hd; cases hd
      · exact .inr (.inr hpc)
    · show c.started ++ [[d]] = _
      rw [h1, List.map_append, ← List.append_assoc]
      rfl
    · refine List.Perm.trans (List.Perm.append_left _ ?_) h2
      rw [List.append_assoc]
      exact List.Perm.append_left _ hp
    · intro e he
      refine h3 e ?_
      rcases List.mem_append.1 he with he | he
      · rcases List.mem_append.1 he with he | he
        · exact List.mem_append_left _ he
        · rw [List.mem_singleton.1 he]; exact List.mem_append_right _ hd
      · exact List.mem_append_right _ (hsub e he)

theorem inv_fail {c0 c : Child} {m : Mover} (h : Inv c0 c m) : Inv c0 c { m with pc := .failed } := by
  rcases h with h | h | h
  · exact .inl ⟨.inr (.inr (.inr rfl)), h.started, h.queue, h.inflight, h.shown⟩
  · exact .inr (.inl ⟨.inr (.inr rfl), h.deferred, h.time, h.started, h.all, h.shown, h.seen⟩)
  · exact .inr (.inr ⟨.inr (.inr rfl), h.deferred, h.queue, h.time, h.groups⟩)

theorem run_inv (c0 : Child) (args : Axis → Option Int) (t : Int) (es : List Event) (hes : ∀ e ∈ es, OnlyFirst e) :
    ∀ (c : Child) (m : Mover), Inv c0 c m → m.args = args → m.moveTime = t →
    ∃ c' m', World.run ⟨c, [m]⟩ es = ⟨c', [m']⟩ ∧ Inv c0 c' m' ∧ m'.args = args ∧ m'.moveTime = t := by
  induction es with
  | nil => intro c m h ha ht; exact ⟨c, m, rfl, h, ha, ht⟩
  | cons e es ih =>
    intro c m h ha ht
    have hrun : World.run ⟨c, [m]⟩ (e :: es) = World.run (World.event ⟨c, [m]⟩ e) es := rfl
    have hes' : ∀ e ∈ es, OnlyFirst e := fun e he => hes e (List.mem_cons_of_mem _ he)
    have he := hes e List.mem_cons_self
    cases e with
    | call _ _ => cases he
    | step i =>
      have he : i = 0 := he
      subst he
      rw [hrun]
      refine ih hes' _ _ (inv_step h) ?_ ?_
      · unfold stepMover; split <;> (try split) <;> exact ha
      · unfold stepMover; split <;> (try split) <;> exact ht
    | arrive i k =>
      have he : i = 0 := he
      subst he
      rw [hrun]
      cases hk : m.inflight[k]? with
      | none =>
        have : World.event ⟨c, [m]⟩ (.arrive 0 k) = ⟨c, [m]⟩ := by
          simp only [World.event, List.getElem?_cons_zero, hk]
        rw [this]
        exact ih hes' c m h ha ht
      | some d =>
        have : World.event ⟨c, [m]⟩ (.arrive 0 k) = ⟨c.receive d, [{ m with inflight := m.inflight.eraseIdx k }]⟩ := by
          simp only [World.event, List.getElem?_cons_zero, hk, List.set_cons_zero]
        rw [this]
        exact ih hes' _ _ (inv_arrive h hk) ha ht
    | fail i =>
      have he : i = 0 := he
      subst he
      rw [hrun]
      by_cases hd : m.pc = .done
      · have : World.event ⟨c, [m]⟩ (.fail 0) = ⟨c, [m]⟩ := by
          simp only [World.event, List.getElem?_cons_zero, if_pos hd]
        rw [this]
        exact ih hes' c m h ha ht
      · have : World.event ⟨c, [m]⟩ (.fail 0) = ⟨c, [{ m with pc := .failed }]⟩ := by
          simp only [World.event, List.getElem?_cons_zero, if_neg hd, List.set_cons_zero]
        rw [this]
        exact ih hes' _ _ (inv_fail h) ha ht

/-- A call of `move` at a controller at rest, and what comes of it -/
theorem call_inv {c0 : Child} (hr : AtRest c0) (args : Axis → Option Int) (t : Int) (es : List Event) (hes : ∀ e ∈ es, OnlyFirst e) :
    ∃ c m, World.run ⟨c0, []⟩ (.call args t :: es) = ⟨c, [m]⟩ ∧ Inv c0 c m ∧ m.args = args ∧ m.moveTime = t :=
  run_inv c0 args t es hes c0 { args, moveTime := t } (.inl ⟨.inl ⟨rfl, hr.1, rfl⟩, rfl, hr.2, rfl, rfl⟩) rfl rfl

/-- However the puts of a call arrive, and whatever fails: either nothing has been started, or all axes that were given have been started
with their demands, all together, after the time for the move had been set; if the call has returned, they have been, and the controller
is at rest again.

What is missing: an axis whose demand is what its attribute shows already, see `late_axis`; several calls at a time, see
`split_by_other`; a controller that is not at rest, see `left_deferred` and `stale_started`. -/
theorem starts_together_partial {c0 : Child} (hr : AtRest c0) (args : Axis → Option Int) (t : Int) (es : List Event)
    (hes : ∀ e ∈ es, OnlyFirst e) (hne : ∀ a v, args a = some v → c0.shown a ≠ v) (hsome : ∃ a v, args a = some v) :
    ∃ c m, World.run ⟨c0, []⟩ (.call args t :: es) = ⟨c, [m]⟩ ∧
      ((c.started = c0.started ∧ m.pc ≠ .done) ∨
       (∃ b, AllOf args b ∧ c.started = c0.started ++ [b] ∧ c.time = t * 1000 ∧ AtRest c)) := by
  obtain ⟨c, m, h1, h2, ha, ht⟩ := call_inv hr args t es hes
  refine ⟨c, m, h1, ?_⟩
  rcases h2 with h | h | h
  · refine .inl ⟨h.started, fun hd => ?_⟩
    rcases h.pc with h | h | h | h
    · rw [hd] at h; cases h.1
    · rw [hd] at h; cases h.1
    · rw [hd] at h; cases h.1
    · rw [hd] at h; cases h
  · refine .inl ⟨h.started, fun hd => ?_⟩
    rcases h.pc with ⟨r, h, -⟩ | h | h
    · rw [hd] at h; cases h
    · rw [hd] at h; cases h.1
    · rw [hd] at h; cases h
  · obtain ⟨b, late, hs, hp, hl⟩ := h.groups
    have hnone : late ++ m.inflight = [] := by
      cases hc : late ++ m.inflight with
      | nil => rfl
      | cons d l =>
        have hd : d ∈ late ++ m.inflight := by rw [hc]; simp
        have h2 := (mem_demands m d).1 (hp.mem_iff.1 (List.mem_append_right _ hd))
        rw [ha] at h2
        exact absurd (hl d hd).symm (hne _ _ h2)
    rw [hnone, List.append_nil] at hp
    have hlate : late = [] := (List.append_eq_nil_iff.1 hnone).1
    have hall := allOf_perm hp
    rw [ha] at hall
    have hb : b ≠ [] := by
      obtain ⟨a, v, hav⟩ := hsome
      intro hb
      have := (hall.2 (a, v)).2 hav
      rw [hb] at this; cases this
    refine .inr ⟨b, hall, ?_, by rw [h.time, ht], h.deferred, h.queue⟩
    rw [hs, hlate, if_neg hb]; simp

theorem run_append (w : World) (a b : List Event) : w.run (a ++ b) = (w.run a).run b := List.foldl_append

/-- the puts arrive, the first first -/
theorem arrives (c0 : Child) (m : Mover) (n : Nat) : ∀ (c : Child) (l : List Demand), l.length = n →
    Posted c0 c { m with inflight := l } →
    ∃ c', World.run ⟨c, [{ m with inflight := l }]⟩ (List.replicate n (.arrive 0 0)) = ⟨c', [{ m with inflight := [] }]⟩ ∧
      Posted c0 c' { m with inflight := [] } := by
  induction n with
  | zero => intro c l hl h; rw [List.length_eq_zero_iff.1 hl] at h ⊢; exact ⟨c, rfl, h⟩
  | succ n ih =>
    intro c l hl h
    cases l with
    | nil => cases hl
    | cons d l =>
      have h1 := inv_arrive (.inr (.inl h)) (k := 0) (d := d) rfl
      have hp : Posted c0 (c.receive d) { m with inflight := l } := by
        rcases h1 with h1 | h1 | h1
        · rcases h.pc with ⟨r, hp, -⟩ | ⟨hp, -⟩ | hp
          · have hp : m.pc = .waiting r := hp
            have h1 := h1.pc
            simp only [hp, reduceCtorEq, false_and, or_self] at h1
          · have hp : m.pc = .releasing := hp
            have h1 := h1.pc
            simp only [hp, reduceCtorEq, false_and, or_self] at h1
          · have hq := h1.queue
            unfold Child.receive at hq
            simp only [h.deferred, if_true] at hq
            simp at hq
        · exact h1
        · have hd := h1.deferred
          unfold Child.receive at hd
          simp only [h.deferred, if_true] at hd
          cases hd
      obtain ⟨c', h2, h3⟩ := ih (c.receive d) l (by simpa using hl) hp
      exact ⟨c', by rw [← h2]; rfl, h3⟩

/-- the waits pass once all has been seen -/
theorem waits (c : Child) (m : Mover) : ∀ rest : List Demand, (∀ d ∈ rest, c.shown d.1 = d.2) →
    World.run ⟨c, [{ m with pc := .waiting rest }]⟩ (List.replicate rest.length (.step 0)) = ⟨c, [{ m with pc := .waiting [] }]⟩ := by
  intro rest
  induction rest with
  | nil => intro _; rfl
  | cons d rest ih =>
    intro h
    have h1 : World.event ⟨c, [{ m with pc := .waiting (d :: rest) }]⟩ (.step 0) = ⟨c, [{ m with pc := .waiting rest }]⟩ := by
      simp only [World.event, List.getElem?_cons_zero, stepMover, if_pos (h d List.mem_cons_self), List.set_cons_zero]
    show World.run (World.event _ _) (List.replicate rest.length (.step 0)) = _
    rw [h1]
    exact ih (fun d hd => h d (List.mem_cons_of_mem _ hd))

/-- A call whose puts arrive and that nothing fails returns -/
theorem returns {c0 : Child} (hr : AtRest c0) (args : Axis → Option Int) (t : Int) : ∃ (n : Nat) (c : Child) (m : Mover),
    World.run ⟨c0, []⟩ (.call args t :: (List.replicate 3 (.step 0) ++ List.replicate n (.arrive 0 0) ++ List.replicate (n + 3) (.step 0))) =
      ⟨c, [m]⟩ ∧ m.pc = .done := by
  let m0 : Mover := { args, moveTime := t }
  let c1 : Child := { c0 with deferred := true, time := t * 1000 }
  have h1 : World.run ⟨c0, []⟩ (.call args t :: List.replicate 3 (.step 0)) = ⟨c1, [{ m0 with pc := .waiting m0.demands, inflight := m0.demands }]⟩ := rfl
  have hp : Posted c0 c1 { m0 with pc := .waiting m0.demands, inflight := m0.demands } := by
    refine ⟨.inl ⟨m0.demands, rfl, fun d hd => hd, fun d hd hn => absurd hd hn⟩, rfl, rfl, rfl, ?_, fun d _ => rfl, ?_⟩
    · show (c0.queue ++ m0.demands).Perm m0.demands
      rw [hr.2]; exact .refl _
    · intro d hd
      have hd : d ∈ c0.queue := hd
      rw [hr.2] at hd; cases hd
  obtain ⟨c2, h2, hp2⟩ := arrives c0 { m0 with pc := .waiting m0.demands } m0.demands.length c1 m0.demands rfl hp
  have hall : ∀ d ∈ m0.demands, c2.shown d.1 = d.2 := by
    intro d hd
    refine hp2.seen d ?_
    have := (hp2.all.mem_iff (a := d)).2 hd
    simpa using this
  have h3 := waits c2 m0 m0.demands hall
  refine ⟨m0.demands.length, c2.defer false, { m0 with pc := .done }, ?_, rfl⟩
  rw [← List.cons_append, ← List.cons_append, run_append, run_append, h1, h2, ← List.replicate_append_replicate, run_append, h3]
  rfl

theorem flatten_single : ∀ l : List Demand, (l.map (fun d => [d])).flatten = l
  | [] => rfl
  | d :: l => by rw [List.map_cons, List.flatten_cons, flatten_single l]; rfl

/-- A call that has returned has started each axis that was given exactly once, with its demand, and no other -/
theorem returned_started {c0 : Child} (hr : AtRest c0) (args : Axis → Option Int) (t : Int) (es : List Event)
    (hes : ∀ e ∈ es, OnlyFirst e) (c : Child) (m : Mover) (h : World.run ⟨c0, []⟩ (.call args t :: es) = ⟨c, [m]⟩) (hd : m.pc = .done) :
    AtRest c ∧ c.time = t * 1000 ∧ ∃ l, AllOf args l ∧ c.started.flatten = c0.started.flatten ++ l := by
  obtain ⟨c', m', h1, h2, ha, ht⟩ := call_inv hr args t es hes
  rw [h] at h1
  injection h1 with h1 h1'
  injection h1' with h1'
  subst h1 h1'
  rcases h2 with h | h | h
  · rcases h.pc with h | h | h | h
    · rw [hd] at h; cases h.1
    · rw [hd] at h; cases h.1
    · rw [hd] at h; cases h.1
    · rw [hd] at h; cases h
  · rcases h.pc with ⟨r, h, -⟩ | h | h
    · rw [hd] at h; cases h
    · rw [hd] at h; cases h.1
    · rw [hd] at h; cases h
  · refine ⟨⟨h.deferred, h.queue⟩, by rw [h.time, ht], ?_⟩
    obtain ⟨b, late, hs, hp, -⟩ := h.groups
    have hi : m.inflight = [] := by
      rcases h.pc with h | h | h
      · rw [hd] at h; cases h
      · exact h.2
      · rw [hd] at h; cases h
    rw [hi, List.append_nil] at hp
    have hall := allOf_perm hp
    rw [ha] at hall
    refine ⟨b ++ late, hall, ?_⟩
    rw [hs, List.flatten_append, List.flatten_append, flatten_single, List.append_assoc]
    congr 1
    split
    · rename_i hb; rw [hb]; rfl
    · simp

/-- Any number of calls one after the other: each starts the axes it was given and no others, in the order of the calls, and the
controller is at rest after them -/
theorem sequence_started {c0 c : Child} {calls : List (Axis → Option Int)} (h : OneAfterOther c0 calls c) (hr : AtRest c0) :
    AtRest c ∧ ∃ ls : List (List Demand), ls.length = calls.length ∧
      (∀ (i : Nat) args l, calls[i]? = some args → ls[i]? = some l → AllOf args l) ∧
      c.started.flatten = c0.started.flatten ++ ls.flatten := by
  induction h with
  | none c => exact ⟨hr, [], rfl, fun i args l h => by simp at h, by simp⟩
  | call hes hrun hd _ ih =>
    obtain ⟨h1, -, l, hl, hs⟩ := returned_started hr _ _ _ hes _ _ hrun hd
    obtain ⟨h2, ls, hn, hall, hf⟩ := ih h1
    refine ⟨h2, l :: ls, by simp [hn], fun i args l' ha hl' => ?_, by rw [hf, hs, List.flatten_cons, List.append_assoc]⟩
    cases i with
    | zero => simp only [List.getElem?_cons_zero, Option.some.injEq] at ha hl'; rw [← ha, ← hl']; exact hl
    | succ i => exact hall i args l' (by simpa using ha) (by simpa using hl')

/-- there are such sequences for all arguments -/
theorem sequence_exists {c0 : Child} (hr : AtRest c0) (calls : List (Axis → Option Int)) : ∃ c, OneAfterOther c0 calls c := by
  induction calls generalizing c0 with
  | nil => exact ⟨c0, .none c0⟩
  | cons args rest ih =>
    obtain ⟨n, c, m, hrun, hd⟩ := returns hr args 1
    have hes : ∀ e ∈ List.replicate 3 (Event.step 0) ++ List.replicate n (.arrive 0 0) ++ List.replicate (n + 3) (.step 0), OnlyFirst e := by
      intro e he
      rcases List.mem_append.1 he with he | he
      · rcases List.mem_append.1 he with he | he
        · rw [List.eq_of_mem_replicate he]; rfl
        · rw [List.eq_of_mem_replicate he]; rfl
      · rw [List.eq_of_mem_replicate he]; rfl
    obtain ⟨c', hc'⟩ := ih (returned_started hr args 1 _ hes c m hrun hd).1
    exact ⟨c', .call hes hrun hd hc'⟩

/-- As long as moves are deferred, whatever fails, nothing has been started -/
theorem nothing_started {c0 : Child} (hr : AtRest c0) (args : Axis → Option Int) (t : Int) (es : List Event)
    (hes : ∀ e ∈ es, OnlyFirst e) (hd : (World.run ⟨c0, []⟩ (.call args t :: es)).child.deferred = true) :
    (World.run ⟨c0, []⟩ (.call args t :: es)).child.started = c0.started := by
  obtain ⟨c, m, h1, h2, -, -⟩ := call_inv hr args t es hes
  rw [h1] at hd ⊢
  rcases h2 with h | h | h
  · exact h.started
  · exact h.started
  · rw [h.deferred] at hd; cases hd

/-- A move of A to 3 and X to 5, whose demands arrive in the other order -/
def twoAxes : Axis → Option Int := fun a => if a = 0 then some 3 else if a = 6 then some 5 else none
def oneMove : List Event := [.call twoAxes 2, .step 0, .step 0, .step 0, .step 0, .arrive 0 1, .step 0, .arrive 0 0, .step 0, .step 0, .step 0,
  .step 0, .step 0]

example : (World.run {} oneMove).child.started = [[(6, 5), (0, 3)]] ∧ (World.run {} oneMove).child.time = 2000 := by decide

example : ∃ c m, World.run {} oneMove = ⟨c, [m]⟩ ∧
      ((c.started = [] ∧ m.pc ≠ .done) ∨ (∃ b, AllOf twoAxes b ∧ c.started = [] ++ [b] ∧ c.time = 2 * 1000 ∧ AtRest c)) :=
  starts_together_partial (c0 := {}) ⟨rfl, rfl⟩ twoAxes 2 _ (by
    intro e he
    simp only [List.mem_cons, List.not_mem_nil, or_false] at he
    rcases he with rfl | rfl | rfl | rfl | rfl | rfl | rfl | rfl | rfl | rfl | rfl | rfl <;> rfl) (by
    intro a v h
    unfold twoAxes at h
    split at h
    · cases h; show (0 : Int) ≠ 3; decide
    · split at h
      · cases h; show (0 : Int) ≠ 5; decide
      · cases h) ⟨0, 3, rfl⟩

/-! ### where it is not so -/

/-- An axis whose attribute shows the demand already, because it was the last demand, though its motor may have been moved since: it is
not waited for, and starts on its own after the others -/
theorem late_axis : ∃ (c0 : Child) (args : Axis → Option Int) (es : List Event), AtRest c0 ∧ (∀ e ∈ es, OnlyFirst e) ∧
    (World.run ⟨c0, []⟩ (.call args 2 :: es)).child.started = [[(6, 5)], [(0, 3)]] ∧
    ((World.run ⟨c0, []⟩ (.call args 2 :: es)).movers.map (·.pc)) = [.done] := by
  refine ⟨{ shown := fun a => if a = 0 then 3 else 0 }, twoAxes,
    [.step 0, .step 0, .step 0, .arrive 0 1, .step 0, .step 0, .step 0, .step 0, .arrive 0 0, .step 0], ⟨rfl, rfl⟩, ?_, by decide, by decide⟩
  intro e he
  simp only [List.mem_cons, List.not_mem_nil, or_false] at he
  rcases he with rfl | rfl | rfl | rfl | rfl | rfl | rfl | rfl | rfl | rfl <;> rfl

/-- Two calls at a time: the axes of the one are started by the other before all of them have arrived -/
theorem split_by_other : ∃ es, (World.run {} (.call twoAxes 2 :: .call (fun a => if a = 1 then some 7 else none) 1 :: es)).child.started
    = [[(0, 3), (1, 7)], [(6, 5)]] :=
  ⟨[.step 0, .step 0, .step 0, .arrive 0 0, .step 1, .step 1, .step 1, .arrive 1 0, .step 1, .step 1, .step 1, .arrive 0 0], by decide⟩

/-- A call that fails while it waits leaves moves deferred: nothing that is put to the axes after it moves them ... -/
theorem left_deferred : ∃ es, (World.run {} (.call twoAxes 2 :: es)).child.deferred = true ∧
    ((World.run {} (.call twoAxes 2 :: es)).movers.map (·.pc)) = [.failed] :=
  ⟨[.step 0, .step 0, .step 0, .arrive 0 0, .step 0, .fail 0], by decide⟩

/-- ... and the next call starts the axes of the one that failed too -/
theorem stale_started : ∃ es, (World.run {} (.call twoAxes 2 :: es)).child.started = [[(0, 3), (1, 7)]] ∧
    ((World.run {} (.call twoAxes 2 :: es)).movers.map (·.pc)) = [.failed, .done] :=
  ⟨[.step 0, .step 0, .step 0, .arrive 0 0, .step 0, .fail 0, .call (fun a => if a = 1 then some 7 else none) 1, .step 1, .step 1, .step 1,
    .arrive 1 0, .step 1, .step 1, .step 1, .step 1], by decide⟩

/-! ### the port -/

/-- A port is accepted exactly if its name ends with the number -/
theorem port_accepted_iff (cs : Nat) (port : Text) : portAccepted cs port = true ↔ ∃ pre, port = pre ++ Nat.toDigits 10 cs := by
  unfold portAccepted
  rw [List.isSuffixOf_iff_suffix]
  constructor
  · rintro ⟨t, h⟩; exact ⟨t, h.symm⟩
  · rintro ⟨t, h⟩; exact ⟨t, h.symm⟩

/-- so that the port of coordinate system 12 is taken for number 2 -/
theorem port_of_other : portAccepted 2 "BRICK2CS12".toList = true := by decide

end Verif.Props.CsMove
