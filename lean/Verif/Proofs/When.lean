import Verif.Spec.When
import Verif.Proofs.Context
/-! Invariants of a context with Whens. -/
set_option linter.unusedVariables false
namespace Verif.When
open Verif Verif.Context
variable {V : Type}

/-- how often a wait has raised the exception of the condition of `id` -/
def bads (log : List (List Nat × End)) (id : Nat) : Nat :=
  (log.filter (fun p => decide (p.2 = .badValue id))).length

/-- Facts about one When. -/
structure K (c : Ctx V) (n : Nat) (id : Nat) (w : When V) : Prop where
  act : w.active = true → id ∈ c.subs ∧ id ∉ c.unsubs.map (·.1) ∧ (∀ v, Item.ret id v ∉ c.q) ∧
    (∀ v, Dict.get? c.results id ≠ some (.value v)) ∧ first w.cond (delivered c id) = none ∧ n = 0
  done : w.active = false → id ∈ c.unsubs.map (·.1) ∧ ∃ v, first w.cond (delivered c id) = some v ∧
    n = if w.cond v = .bad then 1 else 0

theorem delivered_pop {c : Ctx V} {x : Item V} {q : List (Item V)} (hq : c.q = x :: q) (id : Nat) :
    delivered c.pop.1 id = delivered c id ++ (valueFor id x).toList := by
  unfold delivered
  rw [(pop_popped c x q hq).1, List.filterMap_append]
  cases h : valueFor id x <;> simp [h]

theorem first_append (cond : V → Verdict) (a b : List V) :
    first cond (a ++ b) = (first cond a).or (first cond b) := by
  unfold first
  rw [List.find?_append]

theorem k_frame {c c' : Ctx V} {n id : Nat} {w : When V} (h : K c n id w)
    (h1 : id ∈ c.subs → id ∈ c'.subs) (h2 : id ∈ c'.unsubs.map (·.1) ↔ id ∈ c.unsubs.map (·.1))
    (h3 : ∀ v, w.active = true → Item.ret id v ∈ c'.q → Item.ret id v ∈ c.q) (h4 : c'.results = c.results)
    (h5 : c'.popped = c.popped) : K c' n id w := by
  have hd : delivered c' id = delivered c id := by unfold delivered; rw [h5]
  constructor
  · intro ha
    obtain ⟨a, b, d, e, f, g⟩ := h.act ha
    exact ⟨h1 a, fun hc => b (h2.1 hc), fun v hv => d v (h3 v ha hv), by rw [h4]; exact e, by rw [hd]; exact f, g⟩
  · intro ha
    obtain ⟨a, b⟩ := h.done ha
    exact ⟨h2.2 a, by rw [hd]; exact b⟩

theorem unsub_frame (c : Ctx V) (i : Nat) (alive : Bool) {id : Nat} (hne : id ≠ i) :
    (id ∈ c.subs → id ∈ (c.unsubscribe i alive).subs) ∧
    (id ∈ (c.unsubscribe i alive).unsubs.map (·.1) ↔ id ∈ c.unsubs.map (·.1)) := by
  unfold Ctx.unsubscribe
  split
  · exact ⟨fun x => x, Iff.rfl⟩
  · split
    · exact ⟨fun x => x, Iff.rfl⟩
    · split
      · constructor
        · intro h; exact List.mem_filter.2 ⟨h, by simpa using hne⟩
        · simp [hne]
      · exact ⟨fun x => x, Iff.rfl⟩

theorem k_unsub {c : Ctx V} {n id : Nat} {w : When V} (h : K c n id w) (i : Nat) (alive : Bool)
    (hne : id ≠ i) : K (c.unsubscribe i alive) n id w := by
  have hs := unsubscribe_same c i alive
  refine k_frame h (unsub_frame c i alive hne).1 (unsub_frame c i alive hne).2 ?_ hs.2.2.2.2.2.2.1 hs.2.1
  intro v _ hv; rw [hs.1] at hv; exact hv

/-- nothing decided by the next item -/
theorem k_pop {c : Ctx V} {n id : Nat} {w : When V} (h : K c n id w)
    (hx : ∀ v q, c.q = .update id v :: q → w.active = true → w.cond v = .wait) : K c.pop.1 n id w := by
  cases hq : c.q with
  | nil =>
    have : c.pop.1 = c := by unfold Ctx.pop; rw [hq]
    rw [this]; exact h
  | cons x q =>
    obtain ⟨_, _, _, _, hu, hsb⟩ := pop_history c
    have hpq := (pop_popped c x q hq).2
    have hd := delivered_pop hq id
    constructor
    · intro ha
      obtain ⟨a, b, d, e, f, g⟩ := h.act ha
      refine ⟨by rw [hsb]; exact a, by rw [hu]; exact b, ?_, ?_, ?_, g⟩
      · intro v hv; rw [hpq] at hv; exact d v (by rw [hq]; exact List.mem_cons_of_mem _ hv)
      · intro v hv
        have hv' := hv
        unfold Ctx.pop at hv
        rw [hq] at hv
        cases x with
        | ret i u =>
          dsimp only at hv
          have hne : i ≠ id := by
            intro hc; subst hc
            exact d u (by rw [hq]; exact List.mem_cons_self)
          split at hv
          · have hv2 : Dict.get? (Dict.set c.results i (.value u)) id = some (.value v) := hv
            rw [Dict.get?_set_ne _ _ (by first | exact hne | exact hne.symm)] at hv2
            exact e v hv2
          · exact e v hv
        | error i u =>
          dsimp only at hv
          split at hv
          · have hv2 : Dict.get? (Dict.set c.results i (.exc u)) id = some (.value v) := hv
            rw [Dict.get?_set] at hv2
            split at hv2
            · simp at hv2
            · exact e v hv2
          · exact e v hv
        | update i u => dsimp only at hv; split at hv <;> exact e v hv
        | stop m => dsimp only at hv; split at hv <;> exact e v hv
        | sentinel m => dsimp only at hv; split at hv <;> exact e v hv
      · rw [hd, first_append, f]
        cases x with
        | update i u =>
          by_cases hi : i = id
          · subst hi
            simp [valueFor, first, hx u q hq ha]
          · simp [valueFor, hi, first]
        | _ => simp [valueFor, first]
    · intro ha
      obtain ⟨a, v, b, d⟩ := h.done ha
      refine ⟨by rw [hu]; exact a, v, ?_, d⟩
      rw [hd, first_append, b]; rfl

/-- the next item decides -/
theorem k_final {c : Ctx V} {n id : Nat} {w : When V} (hqi : QuietInv c) (h : K c n id w) (v : V)
    (q : List (Item V)) (hq : c.q = .update id v :: q) (ha : w.active = true) (hv : w.cond v ≠ .wait)
    (alive : Bool) :
    K (c.pop.1.unsubscribe id alive) (if w.cond v = .bad then 1 else 0) id { w with active := false } := by
  obtain ⟨a, b, d, e, f, g⟩ := h.act ha
  have hreq : Dict.get? c.requests id = some true := by
    rcases hqi.dead id a with h1 | h1
    · exact h1
    · obtain ⟨y, hy, hy2⟩ := firstSettled_mem h1
      have ho := hqi.order
      rw [List.pairwise_append] at ho
      exact absurd (settles_of_later (ho.2.2 y hy (.update id v) (by rw [hq]; exact List.mem_cons_self))) hy2
  have hreq' : Dict.get? c.pop.1.requests id = some true := by
    unfold Ctx.pop; rw [hq]; dsimp only; split <;> exact hreq
  have hs := unsubscribe_same c.pop.1 id alive
  constructor
  · intro hc; simp at hc
  · intro _
    refine ⟨unsubscribe_does (inv_pop hqi.inv) id alive hreq', v, ?_, rfl⟩
    have hd : delivered (c.pop.1.unsubscribe id alive) id = delivered c.pop.1 id := by
      unfold delivered; rw [hs.2.1]
    rw [hd, delivered_pop hq, first_append, f]
    simp [valueFor, first, hv]

theorem called_iff (s : Sys V) (i : Nat) (vd : Verdict) :
    s.called = some (i, vd) ↔ ∃ v q w, s.ctx.q = .update i v :: q ∧ i ∈ s.ctx.subs ∧
      Dict.get? s.whens i = some w ∧ w.active = true ∧ vd = w.cond v := by
  unfold Sys.called Ctx.pop
  cases hq : s.ctx.q with
  | nil => simp
  | cons x q =>
    cases x with
    | update j v =>
      dsimp only
      by_cases hj : j ∈ s.ctx.subs
      · simp only [hj, if_true]
        cases hw : Dict.get? s.whens j with
        | none =>
          simp only [reduceCtorEq, false_iff]
          rintro ⟨v', q', w, he, h1, h2, h3⟩
          simp only [List.cons.injEq, Item.update.injEq] at he
          rw [← he.1.1, hw] at h2; cases h2
        | some w =>
          dsimp only
          by_cases hac : w.active = true
          · rw [if_pos hac]
            constructor
            · intro h
              simp only [Option.some.injEq, Prod.mk.injEq] at h
              exact ⟨v, q, w, by rw [h.1], h.1 ▸ hj, h.1 ▸ hw, hac, h.2.symm⟩
            · rintro ⟨v', q', w', he, h1, h2, h3, h4⟩
              simp only [List.cons.injEq, Item.update.injEq] at he
              rw [← he.1.1, hw] at h2
              cases h2
              rw [h4, ← he.1.1, ← he.1.2]
          · rw [if_neg hac]
            simp only [reduceCtorEq, false_iff]
            rintro ⟨v', q', w', he, h1, h2, h3, h4⟩
            simp only [List.cons.injEq, Item.update.injEq] at he
            rw [← he.1.1, hw] at h2
            cases h2
            exact hac h3
      · simp only [hj, if_false, reduceCtorEq, false_iff]
        rintro ⟨v', q', w', he, h1, h2⟩
        simp only [List.cons.injEq, Item.update.injEq] at he
        exact hj (he.1.1 ▸ h1)
    | ret j v => dsimp only; by_cases hc : Dict.mem s.ctx.requests j = true <;> simp [hc]
    | error j v => dsimp only; by_cases hc : Dict.mem s.ctx.requests j = true <;> simp [hc]
    | stop m => dsimp only; by_cases hc : s.ctx.sentinel = none <;> simp [hc]
    | sentinel m => dsimp only; by_cases hc : s.ctx.sentinel = some m <;> simp [hc]

theorem called_pop {s : Sys V} {i : Nat} {vd : Verdict} (h : s.called = some (i, vd)) :
    ∃ v, s.ctx.pop.2 = .update i v ∧ i ∈ s.ctx.subs := by
  obtain ⟨v, q, w, h1, h2, _⟩ := (called_iff s i vd).1 h
  refine ⟨v, ?_, h2⟩
  unfold Ctx.pop; rw [h1]; dsimp only; rw [if_pos h2]

theorem calls_nil (alive : Bool) {c : Option (Nat × Verdict)} (h : calls (V := V) alive c ≠ []) :
    ∃ i vd, c = some (i, vd) ∧ vd ≠ .wait ∧ calls (V := V) alive c = [.unsubscribe i alive] := by
  cases c with
  | none => exact absurd rfl h
  | some p =>
    obtain ⟨i, vd⟩ := p
    cases vd with
    | wait => exact absurd rfl h
    | good => exact ⟨i, .good, rfl, by simp, rfl⟩
    | bad => exact ⟨i, .bad, rfl, by simp, rfl⟩

/-- what a turn does to the context -/
theorem turn_ctx {s : Sys V} {w : Wait} (hw : w.ended = none) (alive : Bool) :
    (w.turn s.ctx (calls alive s.called) (raises s.called)).1 =
      s.ctx.pop.1.run (calls alive s.called) := by
  unfold Wait.turn
  rw [if_pos hw]
  by_cases hc : calls (V := V) alive s.called = []
  · rw [hc]
    show _ = s.ctx.pop.1
    have hr : s.ctx.pop.1.run ([] : List (Context.Op V)) = s.ctx.pop.1 := rfl
    dsimp only
    split <;> first | rfl | (split <;> first | rfl | (split <;> rfl))
  · obtain ⟨i, vd, h1, h2, h3⟩ := calls_nil alive hc
    obtain ⟨v, h4, h5⟩ := called_pop h1
    dsimp only
    rw [h4]
    dsimp only
    rw [if_pos h5]
    split <;> rfl

/-- a wait ends with the exception of a condition exactly if the condition called raises -/
theorem turn_raises {s : Sys V} {w : Wait} (hw : w.ended = none) (alive : Bool) :
    (w.turn s.ctx (calls alive s.called) (raises s.called)).2.ended = some .callbackRaised ↔
      raises s.called = true := by
  unfold Wait.turn
  rw [if_pos hw]
  have hck : ∀ u : Wait, u.ended = none → (Wait.check u).ended ≠ some .callbackRaised := by
    intro u hu
    unfold Wait.check
    split
    · simp
    · rw [hu]; simp
  constructor
  · intro h
    dsimp only at h
    cases hp : s.ctx.pop.2 with
    | update i v =>
      rw [hp] at h
      dsimp only at h
      split at h
      · split at h
        · rename_i hr; exact hr
        · exact absurd h (hck _ hw)
      · exact absurd h (hck _ hw)
    | failed i e =>
      rw [hp] at h
      dsimp only at h
      split at h
      · simp at h
      · rw [hw] at h; cases h
    | resolved i => rw [hp] at h; exact absurd h (hck _ hw)
    | empty => rw [hp] at h; dsimp only at h; rw [hw] at h; cases h
    | nothing => rw [hp] at h; dsimp only at h; rw [hw] at h; cases h
    | aborted => rw [hp] at h; simp at h
    | keyError => rw [hp] at h; simp at h
  · intro h
    cases hc : s.called with
    | none => rw [hc] at h; simp [raises] at h
    | some p =>
      obtain ⟨i, vd⟩ := p
      obtain ⟨v, h4, h5⟩ := called_pop hc
      dsimp only
      rw [h4]
      dsimp only
      rw [hc] at h
      rw [if_pos h5, if_pos h]

theorem get?_settle (whens : Dict Nat (When V)) (c : Option (Nat × Verdict)) (id : Nat) :
    Dict.get? (settle whens c) id = (Dict.get? whens id).map (fun w =>
      if c = some (id, .good) ∨ c = some (id, .bad) then { w with active := false } else w) := by
  have key : ∀ i : Nat, Dict.get? (List.map (fun p : Nat × When V =>
      if p.1 = i then (p.1, { p.2 with active := false }) else p) whens) id =
      (Dict.get? whens id).map (fun w => if i = id then { w with active := false } else w) := by
    intro i
    induction whens with
    | nil => rfl
    | cons p d ih =>
      obtain ⟨k, u⟩ := p
      simp only [List.map_cons]
      by_cases hk : k = i
      · rw [if_pos hk, Dict.get?_cons, Dict.get?_cons]
        by_cases hi : k = id
        · simp [hi, hk ▸ hi]
        · simp only [hi, if_false]; exact ih
      · rw [if_neg hk, Dict.get?_cons, Dict.get?_cons]
        by_cases hi : k = id
        · subst hi; simp; exact fun h => absurd h.symm hk
        · simp only [hi, if_false]; exact ih
  unfold settle
  split
  · rw [key]; simp
  · rw [key]; simp
  · rename_i h1 h2
    have : ¬ (c = some (id, .good) ∨ c = some (id, .bad)) := by
      rintro (h | h)
      · exact h1 _ h
      · exact h2 _ h
    simp [this]

theorem keys_settle (whens : Dict Nat (When V)) (c : Option (Nat × Verdict)) :
    (settle whens c).keys = whens.keys := by
  have key : ∀ i : Nat, Dict.keys (List.map (fun p : Nat × When V =>
      if p.1 = i then (p.1, { p.2 with active := false }) else p) whens) = whens.keys := by
    intro i
    unfold Dict.keys
    rw [List.map_map]
    apply List.map_congr_left
    intro p _
    simp only [Function.comp]
    split <;> rfl
  unfold settle
  split
  · exact key _
  · exact key _
  · rfl

/-- Facts true of every state. -/
structure Good (s : Sys V) : Prop where
  quiet : QuietInv s.ctx
  old : ∀ x ∈ s.ctx.popped ++ s.ctx.q, ∀ i, Item.id? x = some i → i < s.ctx.nextId
  keysLt : ∀ id ∈ s.whens.keys, id < s.ctx.nextId
  k : ∀ id w, Dict.get? s.whens id = some w → K s.ctx (bads s.log id) id w
  badKeys : ∀ fs id, (fs, End.badValue id) ∈ s.log → id ∈ s.whens.keys
  wait : ∀ fs w, s.wait = some (fs, w) → w.ended = none ∧ WInv fs (s.ctx, w) ∧ Alone fs (s.ctx, w)
  ret : ∀ fs, (fs, End.returned) ∈ s.log → ∀ f ∈ fs, ∃ v, Dict.get? s.ctx.results f = some (.value v)

theorem good_init : Good ({} : Sys V) := by
  constructor
  · exact quietInv_init
  all_goals simp [Dict.keys, Dict.get?]

theorem bads_zero {s : Sys V} (h : Good s) {id : Nat} (hid : id ∉ s.whens.keys) : bads s.log id = 0 := by
  unfold bads
  rw [List.length_eq_zero_iff, List.filter_eq_nil_iff]
  intro p hp hc
  have : p.2 = .badValue id := by simpa using hc
  exact hid (h.badKeys p.1 id (by rw [← this]; exact hp))

theorem bads_append (log : List (List Nat × End)) (p : List Nat × End) (id : Nat) :
    bads (log ++ [p]) id = bads log id + if p.2 = .badValue id then 1 else 0 := by
  unfold bads
  rw [List.filter_append, List.length_append]
  by_cases h : p.2 = .badValue id <;> simp [h]

theorem good_other {s : Sys V} (h : Good s) (op : Context.Op V) (hl : Op.Legal s (.other op)) :
    Good (s.step (.other op)) := by
  have hpop : op ≠ .pop := by intro hc; subst hc; exact hl
  have hcl : Context.Op.Legal s.ctx op := by
    cases op with
    | update id v => exact hl.2
    | _ => trivial
  have hres := results_same (s := s.ctx) op hpop
  have hnx : s.ctx.nextId ≤ (s.ctx.step op).nextId := by
    cases op with
    | pop => exact absurd rfl hpop
    | request b => exact Nat.le_succ _
    | unsubscribe i al => exact Nat.le_of_eq (unsubscribe_same s.ctx i al).2.2.2.2.2.2.2.1.symm
    | unsubscribeAll al => exact absurd hl id
    | _ => exact Nat.le_refl _
  refine ⟨quietInv_step h.quiet op hcl, ?_, fun id hid => Nat.lt_of_lt_of_le (h.keysLt id hid) hnx, ?_,
    h.badKeys, ?_, ?_⟩
  · show ∀ x ∈ (s.ctx.step op).popped ++ (s.ctx.step op).q, _
    rw [step_history]
    intro x hx i hi
    rcases List.mem_append.1 hx with hx | hx
    · exact Nat.lt_of_lt_of_le (h.old x hx i hi) hnx
    · apply Nat.lt_of_lt_of_le _ hnx
      cases op with
      | update id v =>
        have : x = .update id v := by simpa [Op.puts] using hx
        subst this; simp only [Item.id?, Option.some.injEq] at hi; subst hi; exact hl.1
      | ret id v =>
        have : x = .ret id v := by simpa [Op.puts] using hx
        subst this; simp only [Item.id?, Option.some.injEq] at hi; subst hi; exact hl.1
      | error id v =>
        have : x = .error id v := by simpa [Op.puts] using hx
        subst this; simp only [Item.id?, Option.some.injEq] at hi; subst hi; exact hl
      | stop =>
        have : x = .stop s.ctx.ignores := by simpa [Op.puts] using hx
        subst this; simp [Item.id?] at hi
      | ignore =>
        have : x = .sentinel s.ctx.ignores := by simpa [Op.puts] using hx
        subst this; simp [Item.id?] at hi
      | _ => simp [Op.puts] at hx
  · intro id w hw
    have hk := h.k id w hw
    have hlt := h.keysLt id (Dict.mem_iff.1 (by unfold Dict.mem; rw [show Dict.get? s.whens id = some w from hw]; rfl))
    show K (s.ctx.step op) (bads s.log id) id w
    cases op with
    | pop => exact absurd rfl hpop
    | unsubscribeAll al => exact absurd hl (fun x => x)
    | unsubscribe i al =>
      have hl' : i ∉ s.whens.keys := hl
      refine k_unsub hk i al ?_
      intro hc; subst hc
      exact hl' (Dict.mem_iff.1 (by unfold Dict.mem; rw [show Dict.get? s.whens id = some w from hw]; rfl))
    | ret i v =>
      have hl' : i < s.ctx.nextId ∧ (i ∈ s.whens.keys → (i, true) ∈ s.ctx.unsubs) := hl
      refine k_frame hk (fun x => x) Iff.rfl ?_ rfl rfl
      intro u hact hu
      have hu' : Item.ret id u ∈ s.ctx.q ++ [.ret i v] := hu
      rcases List.mem_append.1 hu' with hu' | hu'
      · exact hu'
      · simp only [List.mem_singleton, Item.ret.injEq] at hu'
        have hin := hl'.2 (hu'.1 ▸ Dict.mem_iff.1 (by unfold Dict.mem; rw [show Dict.get? s.whens id = some w from hw]; rfl))
        exact absurd (List.mem_map.2 ⟨_, hin, hu'.1.symm⟩) (hk.act hact).2.1
    | request b =>
      refine k_frame hk ?_ Iff.rfl (fun u _ hu => hu) rfl rfl
      intro hs
      show id ∈ (if b then s.ctx.subs ++ [s.ctx.nextId] else s.ctx.subs)
      cases b <;> simp [hs]
    | update i v =>
      refine k_frame hk (fun x => x) Iff.rfl ?_ rfl rfl
      intro u _ hu
      have hu' : Item.ret id u ∈ s.ctx.q ++ [.update i v] := hu
      simpa using hu'
    | error i v =>
      refine k_frame hk (fun x => x) Iff.rfl ?_ rfl rfl
      intro u _ hu
      have hu' : Item.ret id u ∈ s.ctx.q ++ [.error i v] := hu
      simpa using hu'
    | stop =>
      refine k_frame hk (fun x => x) Iff.rfl ?_ rfl rfl
      intro u _ hu
      have hu' : Item.ret id u ∈ s.ctx.q ++ [.stop s.ctx.ignores] := hu
      simpa using hu'
    | ignore =>
      refine k_frame hk (fun x => x) Iff.rfl ?_ rfl rfl
      intro u _ hu
      have hu' : Item.ret id u ∈ s.ctx.q ++ [.sentinel s.ctx.ignores] := hu
      simpa using hu'
  · intro fs w hw
    obtain ⟨a, b, c⟩ := h.wait fs w hw
    exact ⟨a, winv_elsewhere b op, alone_elsewhere c op hpop⟩
  · intro fs hm f hf
    obtain ⟨v, hv⟩ := h.ret fs hm f hf
    exact ⟨v, by show Dict.get? (s.ctx.step op).results f = _; rw [hres]; exact hv⟩

theorem good_when {s : Sys V} (h : Good s) (cond : V → Verdict) : Good (s.step (.when cond)) := by
  have hfresh : s.ctx.nextId ∉ s.whens.keys := fun hc => Nat.lt_irrefl _ (h.keysLt _ hc)
  have hi := h.quiet.inv
  have hopop : (Context.Op.request true : Context.Op V) ≠ .pop := by simp
  refine ⟨quietInv_step h.quiet (.request true) trivial, ?_, ?_, ?_, ?_, ?_, ?_⟩
  · intro x hx i hi
    exact Nat.lt_succ_of_lt (h.old x hx i hi)
  · intro id hid
    have hid' : id ∈ (Dict.set s.whens s.ctx.nextId { cond := cond }).keys := hid
    show id < s.ctx.nextId + 1
    rw [Dict.keys_set] at hid'
    split at hid'
    · exact Nat.lt_succ_of_lt (h.keysLt id hid')
    · rcases List.mem_append.1 hid' with h1 | h1
      · exact Nat.lt_succ_of_lt (h.keysLt id h1)
      · simp only [List.mem_singleton] at h1; omega
  · intro id w hw
    have hw' : Dict.get? (Dict.set s.whens s.ctx.nextId { cond := cond }) id = some w := hw
    show K (s.ctx.step (.request true)) (bads s.log id) id w
    by_cases he : id = s.ctx.nextId
    · rw [he, Dict.get?_set_self] at hw'
      cases hw'
      subst he
      constructor
      · intro _
        refine ⟨?_, ?_, ?_, ?_, ?_, bads_zero h hfresh⟩
        · show s.ctx.nextId ∈ s.ctx.subs ++ [s.ctx.nextId]; simp
        · exact fun hc => Nat.lt_irrefl _ (hi.unsubLt _ hc)
        · intro v hv
          exact Nat.lt_irrefl _ (h.old _ (List.mem_append_right _ hv) s.ctx.nextId rfl)
        · intro v hv
          have hv' : Dict.get? s.ctx.results s.ctx.nextId = some (.value v) := hv
          exact Nat.lt_irrefl _ (hi.resLt _ (mem_keys_iff'.2 (by rw [hv']; simp)))
        · have : delivered (s.ctx.step (.request true)) s.ctx.nextId = [] := by
            show s.ctx.popped.filterMap (valueFor s.ctx.nextId) = []
            rw [List.filterMap_eq_nil_iff]
            intro x hx
            cases x with
            | update i v =>
              have := h.old _ (List.mem_append_left _ hx) i rfl
              simp [valueFor, Nat.ne_of_lt this]
            | _ => rfl
          rw [this]; rfl
      · intro hc; simp at hc
    · rw [Dict.get?_set_ne _ _ (by first | exact he | exact fun hc => he hc.symm)] at hw'
      refine k_frame (h.k id w hw') ?_ Iff.rfl (fun u _ hu => hu) rfl rfl
      intro hs
      show id ∈ s.ctx.subs ++ [s.ctx.nextId]
      simp [hs]
  · intro fs id hm
    show id ∈ (Dict.set s.whens s.ctx.nextId { cond := cond }).keys
    rw [Dict.keys_set]
    split
    · exact h.badKeys fs id hm
    · exact List.mem_append_left _ (h.badKeys fs id hm)
  · intro fs w hw
    obtain ⟨a, b, c⟩ := h.wait fs w hw
    exact ⟨a, winv_elsewhere b (.request true), alone_elsewhere c (.request true) hopop⟩
  · intro fs hm f hf
    exact h.ret fs hm f hf

/-- The wait goes on or ends: the rest of the facts follow from those of the state without it. -/
theorem good_after {s : Sys V} {fs : List Nat} {c : Option (Nat × Verdict)} {w : Wait}
    (quiet : QuietInv s.ctx)
    (old : ∀ x ∈ s.ctx.popped ++ s.ctx.q, ∀ i, Item.id? x = some i → i < s.ctx.nextId)
    (keysLt : ∀ id ∈ s.whens.keys, id < s.ctx.nextId)
    (k : ∀ id u, Dict.get? s.whens id = some u →
      K s.ctx (bads s.log id + if c = some (id, .bad) then 1 else 0) id u)
    (badKeys : ∀ fs id, (fs, End.badValue id) ∈ s.log → id ∈ s.whens.keys)
    (cKeys : ∀ id vd, c = some (id, vd) → id ∈ s.whens.keys)
    (cEnd : w.ended = some .callbackRaised ↔ raises c = true)
    (hw : WInv fs (s.ctx, w)) (ha : Alone fs (s.ctx, w))
    (ret : ∀ fs, (fs, End.returned) ∈ s.log → ∀ f ∈ fs, ∃ v, Dict.get? s.ctx.results f = some (.value v)) :
    Good (s.after fs c w) := by
  have hr : ∀ id, c = some (id, .bad) → raises c = true := by intro id hc; rw [hc]; rfl
  have hr2 : raises c = true → ∃ id, c = some (id, .bad) := by
    intro h
    cases c with
    | none => simp [raises] at h
    | some p =>
      obtain ⟨i, vd⟩ := p
      cases vd with
      | bad => exact ⟨i, rfl⟩
      | _ => simp [raises] at h
  unfold Sys.after
  cases he : w.ended with
  | none =>
    refine ⟨quiet, old, keysLt, ?_, badKeys, ?_, ret⟩
    · intro id u hu
      have := k id u hu
      have hn : ¬ c = some (id, .bad) := by
        intro hc
        have := cEnd.2 (hr id hc)
        rw [he] at this; cases this
      rw [if_neg hn] at this
      exact this
    · intro fs' w' hw'
      have : (fs, w) = (fs', w') := Option.some.inj hw'
      cases this
      exact ⟨he, hw, ha⟩
  | some e =>
    have hbad : ∀ id, endOf c e = .badValue id ↔ c = some (id, .bad) := by
      intro id
      constructor
      · intro h
        cases e with
        | callbackRaised =>
          obtain ⟨j, hj⟩ := hr2 (cEnd.1 he)
          rw [hj] at h
          have h2 : End.badValue j = .badValue id := h
          cases h2; exact hj
        | returned => cases h
        | aborted => cases h
        | failed i e => cases h
        | keyError => cases h
      · intro h
        have h1 := cEnd.2 (hr id h)
        rw [he] at h1
        cases h1
        rw [h]; rfl
    refine ⟨quiet, old, keysLt, ?_, ?_, ?_, ?_⟩
    · intro id u hu
      show K s.ctx (bads (s.log ++ [(fs, endOf c e)]) id) id u
      rw [bads_append]
      have := k id u hu
      simp only [hbad]
      exact this
    · intro fs' id hm
      have hm' : (fs', End.badValue id) ∈ s.log ++ [(fs, endOf c e)] := hm
      rcases List.mem_append.1 hm' with h1 | h1
      · exact badKeys fs' id h1
      · simp only [List.mem_singleton, Prod.mk.injEq] at h1
        exact cKeys id _ ((hbad id).1 h1.2.symm)
    · intro fs' w' hw'; cases hw'
    · intro fs' hm f hf
      have hm' : (fs', End.returned) ∈ s.log ++ [(fs, endOf c e)] := hm
      rcases List.mem_append.1 hm' with h1 | h1
      · exact ret fs' h1 f hf
      · simp only [List.mem_singleton, Prod.mk.injEq] at h1
        have hret : w.ended = some .returned := by
          rw [he]
          cases e with
          | returned => rfl
          | aborted => cases h1.2
          | failed i e => cases h1.2
          | keyError => cases h1.2
          | callbackRaised =>
            obtain ⟨j, hj⟩ := hr2 (cEnd.1 he)
            rw [hj] at h1
            cases h1.2
        rw [h1.1] at hf
        rcases hw.left (.inr hret) f hf with h2 | h2
        · rw [mem_keys_iff'] at h2
          cases hg : Dict.get? s.ctx.results f with
          | none => exact absurd hg h2
          | some r =>
            cases r with
            | value v => exact ⟨v, rfl⟩
            | exc x => exact absurd hg (ha.noFail (.inr hret) f hf x)
        · rw [hw.ret hret] at h2; cases h2

theorem good_wait {s : Sys V} (h : Good s) (fs : List Nat) (hl : Op.Legal s (.wait fs)) :
    Good (s.step (.wait fs)) := by
  unfold Sys.step
  cases hw : s.wait with
  | some p => exact h
  | none =>
    dsimp only
    refine good_after h.quiet h.old h.keysLt ?_ h.badKeys (by simp) ?_
      (winv_start h.quiet.inv fs hl) (alone_start fs hl) h.ret
    · intro id u hu; simpa using h.k id u hu
    · constructor
      · intro he
        unfold Wait.start at he
        split at he
        · simp at he
        · simp only at he
          split at he <;> simp at he
      · intro hc; simp [raises] at hc

theorem good_turn {s : Sys V} (h : Good s) (alive : Bool) : Good (s.step (.turn alive)) := by
  unfold Sys.step
  cases hw : s.wait with
  | none => exact h
  | some p =>
    obtain ⟨fs, w⟩ := p
    obtain ⟨hn, hwi, hal⟩ := h.wait fs w hw
    dsimp only
    have hctx := turn_ctx (s := s) hn alive
    have hbody : ∀ op ∈ calls (V := V) alive s.called, op ≠ .pop := by
      intro op ho
      by_cases hc : calls (V := V) alive s.called = []
      · rw [hc] at ho; cases ho
      · obtain ⟨i, vd, _, _, h3⟩ := calls_nil alive hc
        rw [h3] at ho
        simp only [List.mem_singleton] at ho
        rw [ho]; simp
    have hw2 := winv_turn hwi (calls alive s.called) (raises s.called)
    have ha2 := alone_turn hwi hal (calls alive s.called) hbody (raises s.called)
    have hq1 : QuietInv s.ctx.pop.1 := quietInv_step h.quiet .pop trivial
    have hq2 : QuietInv (s.ctx.pop.1.run (calls alive s.called)) := by
      by_cases hc : calls (V := V) alive s.called = []
      · rw [hc]; exact hq1
      · obtain ⟨i, vd, _, _, h3⟩ := calls_nil alive hc
        rw [h3]; exact quietInv_step hq1 (.unsubscribe i alive) trivial
    have hhist : (s.ctx.pop.1.run (calls alive s.called)).popped ++ (s.ctx.pop.1.run (calls alive s.called)).q
        = s.ctx.popped ++ s.ctx.q ∧ (s.ctx.pop.1.run (calls alive s.called)).nextId = s.ctx.nextId := by
      have hp := pop_history s.ctx
      by_cases hc : calls (V := V) alive s.called = []
      · rw [hc]; exact ⟨hp.1, hp.2.2.1⟩
      · obtain ⟨i, vd, _, _, h3⟩ := calls_nil alive hc
        rw [h3]
        have hu := unsubscribe_same s.ctx.pop.1 i alive
        show (s.ctx.pop.1.unsubscribe i alive).popped ++ (s.ctx.pop.1.unsubscribe i alive).q = _ ∧
          (s.ctx.pop.1.unsubscribe i alive).nextId = _
        rw [hu.1, hu.2.1, hu.2.2.2.2.2.2.2.1]
        exact ⟨hp.1, hp.2.2.1⟩
    refine good_after (s := { s with ctx := _, whens := _ }) ?_ ?_ ?_ ?_ ?_ ?_ (turn_raises hn alive) ?_ ?_ ?_
    · rw [hctx]; exact hq2
    · show ∀ x ∈ (w.turn s.ctx (calls alive s.called) (raises s.called)).1.popped ++
        (w.turn s.ctx (calls alive s.called) (raises s.called)).1.q, _
      rw [hctx, hhist.1, hhist.2]; exact h.old
    · show ∀ id ∈ (settle s.whens s.called).keys, _
      rw [hctx, hhist.2, keys_settle]; exact h.keysLt
    · intro id u hu
      have hu' : Dict.get? (settle s.whens s.called) id = some u := hu
      rw [get?_settle] at hu'
      show K (w.turn s.ctx (calls alive s.called) (raises s.called)).1 _ id u
      rw [hctx]
      cases hg : Dict.get? s.whens id with
      | none => rw [hg] at hu'; cases hu'
      | some w0 =>
        rw [hg] at hu'
        simp only [Option.map_some, Option.some.injEq] at hu'
        have hk := h.k id w0 hg
        show K _ (bads s.log id + _) id u
        by_cases hd : s.called = some (id, .good) ∨ s.called = some (id, .bad)
        · rw [if_pos hd] at hu'
          have hvd : ∃ vd, s.called = some (id, vd) ∧ vd ≠ .wait ∧
              calls (V := V) alive s.called = [.unsubscribe id alive] := by
            rcases hd with hd | hd
            · exact ⟨_, hd, by simp, by rw [hd]; rfl⟩
            · exact ⟨_, hd, by simp, by rw [hd]; rfl⟩
          obtain ⟨vd, hc, hne, hcl⟩ := hvd
          obtain ⟨v, q, w1, hq, hsub, hw1, hact, hv⟩ := (called_iff s id vd).1 hc
          rw [hg] at hw1
          cases hw1
          rw [hcl]
          have hf := k_final h.quiet hk v q hq hact (hv ▸ hne) alive
          have h0 := (hk.act hact).2.2.2.2.2
          rw [← hu', h0, hc, hv]
          show K (s.ctx.pop.1.unsubscribe id alive) _ id _
          simpa using hf
        · rw [if_neg hd] at hu'
          subst hu'
          have hnb : ¬ s.called = some (id, .bad) := fun hc => hd (.inr hc)
          rw [if_neg hnb, Nat.add_zero]
          have hp : K s.ctx.pop.1 (bads s.log id) id w0 := by
            apply k_pop hk
            intro v q hq hact
            have hsub := (hk.act hact).1
            have hc := (called_iff s id (w0.cond v)).2 ⟨v, q, w0, hq, hsub, hg, hact, rfl⟩
            cases hcv : w0.cond v with
            | wait => rfl
            | good => rw [hcv] at hc; exact absurd (.inl hc) hd
            | bad => rw [hcv] at hc; exact absurd (.inr hc) hd
          by_cases hc : calls (V := V) alive s.called = []
          · rw [hc]; exact hp
          · obtain ⟨i, vd, h1, h2, h3⟩ := calls_nil alive hc
            rw [h3]
            refine k_unsub hp i alive ?_
            intro hi
            subst hi
            cases vd with
            | wait => exact h2 rfl
            | good => exact hd (.inl h1)
            | bad => exact hd (.inr h1)
    · show ∀ fs id, (fs, End.badValue id) ∈ s.log → id ∈ (settle s.whens s.called).keys
      rw [keys_settle]; exact h.badKeys
    · intro id vd hc
      show id ∈ (settle s.whens s.called).keys
      rw [keys_settle]
      obtain ⟨v, q, w1, _, _, hw1, _⟩ := (called_iff s id vd).1 hc
      exact Dict.mem_iff.1 (by unfold Dict.mem; rw [hw1]; rfl)
    · exact hw2
    · exact ha2
    · intro fs' hm f hf
      obtain ⟨v, hv⟩ := h.ret fs' hm f hf
      refine ⟨v, ?_⟩
      show Dict.get? (w.turn s.ctx (calls alive s.called) (raises s.called)).1.results f = _
      rw [hctx]
      exact results_run (inv_pop h.quiet.inv) _ f _ (results_pop h.quiet.inv f _ hv)

theorem good_step {s : Sys V} (h : Good s) (op : Op V) (hl : op.Legal s) : Good (s.step op) := by
  cases op with
  | «when» cond => exact good_when h cond
  | wait fs => exact good_wait h fs hl
  | turn alive => exact good_turn h alive
  | other op => exact good_other h op hl

theorem good_run {s : Sys V} (h : Good s) (ops : List (Op V)) (hl : LegalFrom s ops) : Good (s.run ops) := by
  induction ops generalizing s with
  | nil => exact h
  | cons op ops ih => exact ih (good_step h op hl.1) hl.2

end Verif.When
