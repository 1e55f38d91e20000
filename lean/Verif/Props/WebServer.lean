import Verif.Spec.WebServer
import Verif.Proofs.PyDict
/-!
C42: "The web server forwards each response to the client connection that made the request with the client's own id; a
second subscription with an id in use by that client is rejected."

C61: "A web client may put and post exactly if its address is in the network of one of the interfaces that were up, or
if this check is switched off; a client that may not never makes a block change."
-/
namespace Verif.Props.WebServer
open Verif.WebServer Verif.Spec.WebServer

/-- What message a request comes from -/
def Origin (msgs : List (Nat × Msg)) (r : Req) : Prop :=
  ∃ m, msgs[r.tag]? = some (r.conn, m) ∧ m.id = some r.id ∧
    ((r.kind ≠ .unsubscribe ∧ m.body = some (r.kind, r.mri)) ∨
      (r.kind = .unsubscribe ∧ (IsSubscribe m ∨ ∃ mri, m.body = some (.unsubscribe, mri))))

/-- What message a response comes from -/
def OriginR (msgs : List (Nat × Msg)) (x : Nat × Resp) : Prop :=
  ∃ m, msgs[x.2.tag]? = some (x.1, m) ∧ m.id.getD (-1) = x.2.id ∧ (x.2.answer = .update → IsSubscribe m)

/-- Subscriptions that are alive, or about to be -/
def live (s : State) : List Req := s.queue.filter (fun r => r.kind == .subscribe) ++ s.subs

/-- Everything that there is for message number `t` -/
def life (s : State) (t : Nat) : Nat :=
  answers s t + s.queue.countP (fun r => r.tag == t) + s.subs.countP (fun r => r.tag == t)

/-- The undoing of a subscription: only for connections that have gone -/
def Gone (msgs : List (Nat × Msg)) (s : State) (r : Req) : Prop :=
  r.kind = .unsubscribe → ∀ m, msgs[r.tag]? = some (r.conn, m) → IsSubscribe m → (s.conns r.conn).alive = false

/-- What always holds; `pend` is a message that is being answered -/
structure Inv (msgs : List (Nat × Msg)) (s : State) (pend : Option Nat) : Prop where
  count : s.count = msgs.length
  queue : ∀ r ∈ s.queue, Origin msgs r
  subs : ∀ r ∈ s.subs, r.kind = .subscribe ∧ Origin msgs r
  out : ∀ x ∈ s.out, OriginR msgs x
  life : ∀ (t c : Nat) (m : Msg), msgs[t]? = some (c, m) → (s.conns c).alive = true → ¬ IsUnsubscribe m →
    life s t + (if pend = some t then 1 else 0) = 1
  uniq : (live s).Pairwise fun a b => ¬ (a.conn = b.conn ∧ a.id = b.id)
  ids : ∀ r ∈ live s, (s.conns r.conn).alive = true → (s.conns r.conn).ids.mem r.id = true
  gone : ∀ r ∈ s.queue, Gone msgs s r

theorem origin_r {msgs : List (Nat × Msg)} {r : Req} (h : Origin msgs r) (a : Answer) (ha : a = .update → r.kind = .subscribe) :
    OriginR msgs (r.conn, ⟨r.id, a, r.tag⟩) := by
  obtain ⟨m, h1, h2, h3⟩ := h
  refine ⟨m, h1, by simp [h2], fun hu => ?_⟩
  have hk := ha hu
  rcases h3 with h3 | h3
  · exact ⟨r.mri, by rw [h3.2, hk]⟩
  · rw [h3.1] at hk; cases hk

/-- An answer is written, or lost as the client has gone -/
theorem write_final {msgs : List (Nat × Msg)} {s : State} {c : Nat} {r : Resp} (h : Inv msgs s (some r.tag))
    (ho : OriginR msgs (c, r)) (hf : r.answer ≠ .update) : Inv msgs (write s c r) none := by
  unfold write
  split
  · rename_i ha
    refine ⟨h.count, h.queue, h.subs, ?_, ?_, h.uniq, h.ids, h.gone⟩
    · intro x hx
      simp only [List.mem_append, List.mem_singleton] at hx
      rcases hx with hx | rfl
      · exact h.out x hx
      · exact ho
    · intro t c' m ht hc hm
      have := h.life t c' m ht hc hm
      simp only [life, answers, List.countP_append, List.countP_singleton, Option.some.injEq] at this ⊢
      by_cases e : r.tag = t
      · simp only [e, if_true, beq_self_eq_true, Bool.true_and, bne_iff_ne, ne_eq, hf, not_false_eq_true, if_true] at this ⊢
        simp
        omega
      · simp [e] at this ⊢
        omega
  · rename_i ha
    refine ⟨h.count, h.queue, h.subs, h.out, ?_, h.uniq, h.ids, h.gone⟩
    intro t c' m ht hc hm
    have := h.life t c' m ht hc hm
    by_cases e : r.tag = t
    · obtain ⟨m', g1, _⟩ := ho
      simp only at g1
      rw [e, ht] at g1
      simp only [Option.some.injEq, Prod.mk.injEq] at g1
      rw [g1.1] at hc
      exact absurd hc ha
    · simpa [e] using this

theorem report_inv {msgs : List (Nat × Msg)} {s : State} {r : Req} (h : Inv msgs s (some r.tag)) (ho : Origin msgs r)
    (hu : r.kind = .subscribe → (∀ q ∈ live s, ¬ (q.conn = r.conn ∧ q.id = r.id)) ∧
      ((s.conns r.conn).alive = true → (s.conns r.conn).ids.mem r.id = true)) (hg : Gone msgs s r) :
    Inv msgs (report s r) none := by
  unfold report
  split
  · refine ⟨h.count, ?_, h.subs, h.out, ?_, ?_, ?_, ?_⟩
    · intro q hq
      simp only [List.mem_append, List.mem_singleton] at hq
      rcases hq with hq | rfl
      · exact h.queue q hq
      · exact ho
    · intro t c' m ht hc hm
      have := h.life t c' m ht hc hm
      simp only [life, answers, List.countP_append, List.countP_singleton, Option.some.injEq] at this ⊢
      by_cases e : r.tag = t
      · simp only [e, if_true, beq_self_eq_true] at this ⊢; simp; omega
      · simp [e] at this ⊢; omega
    · have hperm : (live { s with queue := s.queue ++ [r] }) =
          s.queue.filter (fun r => r.kind == .subscribe) ++ ([r].filter (fun r => r.kind == .subscribe) ++ s.subs) := by
        simp [live, List.filter_append]
      rw [hperm]
      have h0 := h.uniq
      simp only [live, List.pairwise_append] at h0 ⊢
      obtain ⟨u1, u2, u3⟩ := h0
      by_cases hk : r.kind = .subscribe
      · obtain ⟨hu, _⟩ := hu hk
        have hkb : (r.kind == Kind.subscribe) = true := by simp [hk]
        refine ⟨u1, ⟨?_, u2, ?_⟩, ?_⟩
        · simp [List.filter_cons, hkb]
        · intro a ha b hb
          simp only [List.filter_cons, hkb, if_true, List.filter_nil, List.mem_singleton] at ha
          subst ha
          intro hh
          exact hu b (by simp [live, hb]) ⟨hh.1.symm, hh.2.symm⟩
        · intro a ha b hb
          simp only [List.filter_cons, hkb, if_true, List.filter_nil, List.mem_append, List.mem_singleton] at hb
          rcases hb with rfl | hb
          · exact hu a (by simp only [live, List.mem_append]; exact Or.inl ha)
          · exact u3 a ha b hb
      · have hkb : (r.kind == Kind.subscribe) = false := by simp [hk]
        simp only [List.filter_cons, hkb, Bool.false_eq_true, if_false, List.filter_nil, List.nil_append]
        refine ⟨u1, ⟨List.Pairwise.nil, u2, by simp⟩, u3⟩
    · intro q hq
      simp only [live, List.filter_append, List.mem_append] at hq
      rcases hq with (hq | hq) | hq
      · exact h.ids q (by simp only [live, List.mem_append]; exact Or.inl hq)
      · simp only [List.mem_filter, List.mem_singleton, beq_iff_eq] at hq
        obtain ⟨rfl, hk⟩ := hq
        exact (hu hk).2
      · exact h.ids q (by simp only [live, List.mem_append]; exact Or.inr hq)
    · intro q hq
      simp only [List.mem_append, List.mem_singleton] at hq
      rcases hq with hq | rfl
      · exact h.gone q hq
      · exact hg
  · exact write_final h (origin_r ho _ (by intro h; cases h)) (by simp)

/-- An update is written, or starts to undo its subscription -/
theorem update_inv {msgs : List (Nat × Msg)} {s : State} {r : Req} (h : Inv msgs s none) (ho : Origin msgs r)
    (hk : r.kind = .subscribe) : Inv msgs (onResponse s r.conn ⟨r.id, .update, r.tag⟩) none := by
  unfold onResponse
  split
  · rename_i ha
    unfold write
    rw [if_pos ha]
    refine ⟨h.count, h.queue, h.subs, ?_, ?_, h.uniq, h.ids, h.gone⟩
    · intro x hx
      simp only [List.mem_append, List.mem_singleton] at hx
      rcases hx with hx | rfl
      · exact h.out x hx
      · exact origin_r ho _ (fun _ => hk)
    · intro t c' m ht hc hm
      have := h.life t c' m ht hc hm
      simpa [life, answers, List.countP_append, List.countP_singleton] using this
  · rename_i ha
    rw [if_pos rfl]
    dsimp only
    cases hg : (s.conns r.conn).ids.get? r.id with
    | none => exact h
    | some mri =>
      simp only
      refine report_inv (r := ⟨r.conn, r.id, .unsubscribe, mri, r.tag⟩) ?_ ?_ (by intro h; cases h)
        (fun _ _ _ _ => by simpa [setConn] using ha)
      · refine ⟨h.count, h.queue, h.subs, h.out, ?_, h.uniq, ?_, ?_⟩
        · intro t c' m ht hc hm
          have hc' : (s.conns c').alive = true := by
            simp only [setConn] at hc
            split at hc
            · rename_i e; rw [e]; exact hc
            · exact hc
          have := h.life t c' m ht hc' hm
          simp only [Option.some.injEq]
          have hne : r.tag ≠ t := by
            intro e
            obtain ⟨m', g1, _⟩ := ho
            rw [e, ht] at g1
            simp only [Option.some.injEq, Prod.mk.injEq] at g1
            rw [g1.1] at hc'
            exact ha hc'
          simpa [life, answers, setConn, hne] using this
        · intro q hq hal
          simp only [setConn] at hal ⊢
          split at hal
          · exact absurd hal ha
          · rename_i e
            rw [if_neg e]
            exact h.ids q hq hal
        · intro q hq hk m hm hs
          have := h.gone q hq hk m hm hs
          simp only [setConn]
          split
          · rename_i e; rw [← e]; exact this
          · exact this
      · obtain ⟨m, g1, g2, g3⟩ := ho
        refine ⟨m, g1, g2, Or.inr ⟨rfl, Or.inl ?_⟩⟩
        rcases g3 with g3 | g3
        · exact ⟨r.mri, by rw [g3.2, hk]⟩
        · rw [g3.1] at hk; cases hk

theorem final_inv {msgs : List (Nat × Msg)} {s : State} {c : Nat} {r : Resp} (h : Inv msgs s (some r.tag))
    (ho : OriginR msgs (c, r)) (hf : r.answer ≠ .update) : Inv msgs (onResponse s c r) none := by
  have := write_final h ho hf
  unfold onResponse
  split
  · exact this
  · rename_i ha
    simpa [write, ha] using this

theorem mem_filter_live {s : State} {f : Req → Bool} {q : Req} (h : q ∈ live { s with subs := s.subs.filter f }) : q ∈ live s := by
  simp only [live, List.mem_append, List.mem_filter] at h ⊢
  rcases h with h | h
  · exact Or.inl h
  · exact Or.inr h.1

/-- Taking out what is the only one with its key -/
theorem filter_unique {l : List Req} (hp : l.Pairwise fun a b => ¬ (a.conn = b.conn ∧ a.id = b.id)) {q : Req} (hq : q ∈ l) {r : Req}
    (hk : sameKey q r = true) (t : Nat) :
    (l.filter fun x => !sameKey x r).countP (fun x => x.tag == t) + (if q.tag = t then 1 else 0) = l.countP (fun x => x.tag == t) := by
  induction l with
  | nil => cases hq
  | cons a l ih =>
    obtain ⟨p1, p2⟩ := List.pairwise_cons.1 hp
    rcases List.mem_cons.1 hq with rfl | hq
    · have : l.filter (fun x => !sameKey x r) = l := by
        apply List.filter_eq_self.2
        intro b hb
        simp only [Bool.not_eq_true', Bool.eq_false_iff]
        intro hbk
        simp only [sameKey, Bool.and_eq_true, beq_iff_eq] at hk hbk
        exact p1 b hb ⟨hk.1.2.trans hbk.1.2.symm, hk.2.trans hbk.2.symm⟩
      simp only [List.filter_cons, hk, Bool.not_true, Bool.false_eq_true, if_false, this, List.countP_cons, beq_iff_eq]
    · have ha : sameKey a r = false := by
        rw [Bool.eq_false_iff]
        intro hak
        simp only [sameKey, Bool.and_eq_true, beq_iff_eq] at hk hak
        exact p1 q hq ⟨hak.1.2.trans hk.1.2.symm, hak.2.trans hk.2.symm⟩
      have := ih p2 hq
      simp only [List.filter_cons, ha, Bool.not_false, if_true, List.countP_cons, beq_iff_eq]
      omega

/-- A controller handles a request that has been taken off the queue -/
theorem handle_inv {msgs : List (Nat × Msg)} {s : State} {r : Req} (ok : Bool) (h : Inv msgs s (some r.tag)) (ho : Origin msgs r)
    (hu : r.kind = .subscribe → (∀ q ∈ live s, ¬ (q.conn = r.conn ∧ q.id = r.id)) ∧
      ((s.conns r.conn).alive = true → (s.conns r.conn).ids.mem r.id = true)) (hgone : Gone msgs s r) :
    Inv msgs (handle s r ok) none := by
  have base : ∀ a : Answer, a ≠ .update → Inv msgs (onResponse s r.conn ⟨r.id, a, r.tag⟩) none := by
    intro a ha
    exact final_inv h (origin_r ho a (fun e => absurd e ha)) ha
  unfold handle
  cases hk : r.kind with
  | get => simp only; cases ok <;> exact base _ (by simp)
  | put => simp only; cases ok <;> exact base _ (by simp)
  | post => simp only; cases ok <;> exact base _ (by simp)
  | subscribe =>
    simp only
    cases ok with
    | false => exact base _ (by simp)
    | true =>
      simp only [if_true]
      obtain ⟨hu1, hu2⟩ := hu hk
      have hf : s.subs.filter (fun q => !sameKey q r) = s.subs := by
        apply List.filter_eq_self.2
        intro b hb
        simp only [Bool.not_eq_true', Bool.eq_false_iff]
        intro hbk
        simp only [sameKey, Bool.and_eq_true, beq_iff_eq] at hbk
        exact hu1 b (by simp only [live, List.mem_append]; exact Or.inr hb) ⟨hbk.1.2, hbk.2⟩
      rw [hf]
      refine update_inv ?_ ho hk
      refine ⟨h.count, h.queue, ?_, h.out, ?_, ?_, ?_, h.gone⟩
      · intro q hq
        simp only [List.mem_append, List.mem_singleton] at hq
        rcases hq with hq | rfl
        · exact h.subs q hq
        · exact ⟨hk, ho⟩
      · intro t c' m ht hc hm
        have := h.life t c' m ht hc hm
        simp only [life, answers, List.countP_append, List.countP_singleton, Option.some.injEq, beq_iff_eq] at this ⊢
        by_cases e : r.tag = t
        · simp only [e, if_true] at this ⊢; simp; omega
        · simp [e] at this ⊢; omega
      · have h0 := h.uniq
        rw [show live { s with subs := s.subs ++ [r] } = live s ++ [r] by simp [live]]
        rw [List.pairwise_append]
        refine ⟨h0, List.pairwise_singleton _ _, fun a ha b hb => ?_⟩
        simp only [List.mem_singleton] at hb
        subst hb
        exact hu1 a ha
      · intro q hq
        rw [show live { s with subs := s.subs ++ [r] } = live s ++ [r] by simp [live]] at hq
        simp only [List.mem_append, List.mem_singleton] at hq
        rcases hq with hq | rfl
        · exact h.ids q hq
        · exact hu2
  | unsubscribe =>
    simp only
    cases hg : s.subs.find? (fun q => sameKey q r) with
    | none => exact base _ (by simp)
    | some q =>
      simp only
      have hq := List.mem_of_find?_eq_some hg
      have hqk : sameKey q r = true := by simpa using List.find?_some hg
      obtain ⟨hqs, hqo⟩ := h.subs q hq
      refine final_inv ?_ (origin_r hqo _ (by intro e; cases e)) (by simp)
      have hsubp : s.subs.Pairwise fun a b => ¬ (a.conn = b.conn ∧ a.id = b.id) := by
        have := h.uniq
        simp only [live, List.pairwise_append] at this
        exact this.2.1
      refine ⟨h.count, h.queue, ?_, h.out, ?_, ?_, ?_, h.gone⟩
      · intro x hx
        simp only [List.mem_filter] at hx
        exact h.subs x hx.1
      · intro t c' m ht hc hm
        have := h.life t c' m ht hc hm
        have hfu := filter_unique hsubp hq hqk t
        simp only [life, answers, Option.some.injEq] at this ⊢
        have hrt : r.tag ≠ t := by
          intro e
          obtain ⟨m', g1, g2, g3⟩ := ho
          rw [e, ht] at g1
          simp only [Option.some.injEq, Prod.mk.injEq] at g1
          obtain ⟨g11, rfl⟩ := g1
          rcases g3 with g3 | ⟨_, g3 | g3⟩
          · exact g3.1 hk
          · have := hgone hk m (by rw [e, ht, g11]) g3
            rw [g11] at hc
            rw [this] at hc
            cases hc
          · exact hm ⟨by rw [g2]; simp, g3⟩
        rw [if_neg hrt] at this
        omega
      · have h0 := h.uniq
        simp only [live, List.pairwise_append] at h0 ⊢
        refine ⟨h0.1, h0.2.1.filter _, fun a ha b hb => ?_⟩
        exact h0.2.2 a ha b (List.mem_filter.1 hb).1
      · intro x hx
        exact h.ids x (mem_filter_live hx)

theorem origin_app {msgs : List (Nat × Msg)} {r : Req} (h : Origin msgs r) (x : List (Nat × Msg)) : Origin (msgs ++ x) r := by
  obtain ⟨m, h1, h2⟩ := h
  exact ⟨m, by rw [List.getElem?_append_left (List.getElem?_eq_some_iff.1 h1).1]; exact h1, h2⟩

theorem originR_app {msgs : List (Nat × Msg)} {r : Nat × Resp} (h : OriginR msgs r) (x : List (Nat × Msg)) :
    OriginR (msgs ++ x) r := by
  obtain ⟨m, h1, h2⟩ := h
  exact ⟨m, by rw [List.getElem?_append_left (List.getElem?_eq_some_iff.1 h1).1]; exact h1, h2⟩

theorem tag_lt {msgs : List (Nat × Msg)} {r : Req} (h : Origin msgs r) : r.tag < msgs.length := by
  obtain ⟨m, h1, _⟩ := h
  exact (List.getElem?_eq_some_iff.1 h1).1

/-- A message has come in -/
theorem extend_inv {msgs : List (Nat × Msg)} {s : State} (h : Inv msgs s none) (c : Nat) (m : Msg) :
    Inv (msgs ++ [(c, m)]) { s with count := s.count + 1 } (some s.count) := by
  refine ⟨by simp [h.count], fun r hr => origin_app (h.queue r hr) _, fun r hr => ⟨(h.subs r hr).1, origin_app (h.subs r hr).2 _⟩,
    fun r hr => originR_app (h.out r hr) _, ?_, h.uniq, h.ids, ?_⟩
  · intro t c' m' ht hc hm
    simp only [Option.some.injEq]
    by_cases e : s.count = t
    · rw [if_pos e]
      have z1 : answers s t = 0 := by
        simp only [answers, List.countP_eq_zero]
        intro x hx
        obtain ⟨m, h1, _⟩ := h.out x hx
        have := (List.getElem?_eq_some_iff.1 h1).1
        have := h.count
        simp
        omega
      have z2 : s.queue.countP (fun r => r.tag == t) = 0 := by
        simp only [List.countP_eq_zero]
        intro x hx
        have := tag_lt (h.queue x hx)
        have := h.count
        simp
        omega
      have z3 : s.subs.countP (fun r => r.tag == t) = 0 := by
        simp only [List.countP_eq_zero]
        intro x hx
        have := tag_lt (h.subs x hx).2
        have := h.count
        simp
        omega
      simp only [life, answers] at z1 ⊢
      omega
    · rw [if_neg e]
      have hlt : t < msgs.length := by
        have := (List.getElem?_eq_some_iff.1 ht).1
        simp at this
        have := h.count
        omega
      rw [List.getElem?_append_left hlt] at ht
      simpa [life, answers] using h.life t c' m' ht hc hm
  · intro r hr hk m' hm' hs
    have := tag_lt (h.queue r hr)
    rw [List.getElem?_append_left this] at hm'
    exact h.gone r hr hk m' hm' hs

theorem dispatch_inv {msgs : List (Nat × Msg)} {s : State} {c : Nat} {id : Int} {k : Kind} {mri : Mri} {tag : Nat}
    (h : Inv msgs s (some tag)) (hm : msgs[tag]? = some (c, ⟨some id, some (k, mri)⟩)) (ha : (s.conns c).alive = true) :
    Inv msgs (dispatch s c id k mri tag) none := by
  have hfail : Inv msgs (fail s c id tag) none :=
    write_final (r := ⟨id, .error, tag⟩) h ⟨_, hm, rfl, by intro e; cases e⟩ (by simp)
  have hreport : k ≠ .subscribe → k ≠ .unsubscribe → Inv msgs (report s ⟨c, id, k, mri, tag⟩) none := by
    intro h1 h2
    exact report_inv (r := ⟨c, id, k, mri, tag⟩) h ⟨_, hm, rfl, Or.inl ⟨h2, rfl⟩⟩ (fun e => absurd e h1)
      (fun e => absurd e h2)
  unfold dispatch
  cases k with
  | get => exact hreport (by simp) (by simp)
  | put =>
    simp only
    split
    · exact hreport (by simp) (by simp)
    · exact hfail
  | post =>
    simp only
    split
    · exact hreport (by simp) (by simp)
    · exact hfail
  | unsubscribe =>
    simp only
    cases (s.conns c).ids.get? id with
    | none => exact hfail
    | some m =>
      simp only
      refine report_inv (r := ⟨c, id, .unsubscribe, m, tag⟩) h ⟨_, hm, rfl, Or.inr ⟨rfl, Or.inr ⟨mri, rfl⟩⟩⟩
        (by intro e; cases e) ?_
      intro _ m' hm' hs
      simp only at hm'
      rw [hm] at hm'
      simp only [Option.some.injEq, Prod.mk.injEq, true_and] at hm'
      obtain ⟨x, hx⟩ := hs
      rw [← hm'] at hx
      simp at hx
  | subscribe =>
    simp only
    split
    · exact hfail
    · rename_i hid
      refine report_inv (r := ⟨c, id, .subscribe, mri, tag⟩) ?_ ⟨_, hm, rfl, Or.inl ⟨by simp, rfl⟩⟩ ?_ (by intro e; cases e)
      · refine ⟨h.count, h.queue, h.subs, h.out, ?_, h.uniq, ?_, ?_⟩
        · intro t c' m' ht hc hm'
          have hc' : (s.conns c').alive = true := by
            simp only [setConn] at hc
            split at hc
            · rename_i e; rw [e]; exact hc
            · exact hc
          simpa [life, answers, setConn] using h.life t c' m' ht hc' hm'
        · intro q hq hal
          have hal' : (s.conns q.conn).alive = true := by
            simp only [setConn] at hal
            split at hal
            · rename_i e; rw [e]; exact hal
            · exact hal
          have := h.ids q hq hal'
          simp only [setConn]
          split
          · rename_i e
            rw [e] at this
            simp only [Dict.mem, Dict.get?_set] at this ⊢
            split
            · rfl
            · exact this
          · exact this
        · intro q hq hk m' hm' hs
          have := h.gone q hq hk m' hm' hs
          simp only [setConn]
          split
          · rename_i e; rw [← e]; exact this
          · exact this
      · intro _
        refine ⟨fun q hq hh => ?_, fun _ => ?_⟩
        · have hq' : q ∈ live s := hq
          simp only at hh
          have := h.ids q hq' (by rw [hh.1]; exact ha)
          rw [hh.1, hh.2] at this
          exact hid this
        · simp [setConn, Dict.mem, Dict.get?_set]

theorem onMessage_inv {msgs : List (Nat × Msg)} {s : State} (h : Inv msgs s none) (c : Nat) (m : Msg)
    (ha : (s.conns c).alive = true) : Inv (msgs ++ [(c, m)]) (onMessage s c m) none := by
  have h1 := extend_inv h c m
  have hm : (msgs ++ [(c, m)])[s.count]? = some (c, m) := by
    rw [h.count]; simp
  obtain ⟨mid, mb⟩ := m
  unfold onMessage
  cases mid with
  | none => exact write_final (r := ⟨-1, .error, s.count⟩) h1 ⟨_, hm, rfl, by intro e; cases e⟩ (by simp)
  | some id =>
    cases mb with
    | none => exact write_final (r := ⟨id, .error, s.count⟩) h1 ⟨_, hm, rfl, by intro e; cases e⟩ (by simp)
    | some x =>
      obtain ⟨k, mri⟩ := x
      exact dispatch_inv h1 hm ha

theorem step_inv {msgs : List (Nat × Msg)} {s : State} (h : Inv msgs s none) (op : Op) :
    Inv (msgs ++ messages [op]) (step s op) none := by
  cases op with
  | message c m =>
    simp only [messages, List.filterMap_cons, List.filterMap_nil, step]
    split
    · rename_i ha
      exact onMessage_inv h c m ha
    · rename_i ha
      have h1 := extend_inv h c m
      refine ⟨h1.count, h1.queue, h1.subs, h1.out, ?_, h1.uniq, h1.ids, h1.gone⟩
      intro t c' m' ht hc hm
      have := h1.life t c' m' ht hc hm
      have hne : s.count ≠ t := by
        intro e
        rw [← e, h.count] at ht
        simp only [List.getElem?_concat_length, Option.some.injEq, Prod.mk.injEq] at ht
        rw [← ht.1] at hc
        exact ha hc
      simpa [hne] using this
  | handle n ok =>
    simp only [messages, List.filterMap_cons, List.filterMap_nil, List.append_nil, step]
    cases hn : s.queue[n]? with
    | none => exact h
    | some r =>
      simp only
      obtain ⟨hlt, hget⟩ := List.getElem?_eq_some_iff.1 hn
      have hsplit : s.queue = s.queue.take n ++ r :: s.queue.drop (n + 1) := by
        rw [← hget, List.getElem_cons_drop, List.take_append_drop]
      have herase : s.queue.eraseIdx n = s.queue.take n ++ s.queue.drop (n + 1) := List.eraseIdx_eq_take_drop_succ ..
      have hmem : r ∈ s.queue := List.mem_iff_getElem?.2 ⟨n, hn⟩
      have hsub : ∀ q ∈ s.queue.eraseIdx n, q ∈ s.queue := fun q hq => List.mem_of_mem_eraseIdx hq
      have hlive : ∀ q ∈ live { s with queue := s.queue.eraseIdx n }, q ∈ live s := by
        intro q hq
        simp only [live, List.mem_append, List.mem_filter] at hq ⊢
        rcases hq with hq | hq
        · exact Or.inl ⟨hsub q hq.1, hq.2⟩
        · exact Or.inr hq
      have huniq := h.uniq
      refine handle_inv ok ?_ (h.queue r hmem) ?_ (h.gone r hmem)
      · refine ⟨h.count, fun q hq => h.queue q (hsub q hq), h.subs, h.out, ?_, ?_, fun q hq => h.ids q (hlive q hq),
          fun q hq => h.gone q (hsub q hq)⟩
        · intro t c' m' ht hc hm
          have := h.life t c' m' ht hc hm
          simp only [life, answers, Option.some.injEq, reduceCtorEq, if_false] at this ⊢
          rw [hsplit] at this
          rw [herase]
          simp only [List.countP_append, List.countP_cons, beq_iff_eq] at this ⊢
          omega
        · simp only [live] at huniq ⊢
          exact huniq.sublist ((List.Sublist.filter _ (List.eraseIdx_sublist ..)).append (List.Sublist.refl _))
      · intro hk
        have hkb : (r.kind == Kind.subscribe) = true := by simp [hk]
        refine ⟨fun q hq hh => ?_, h.ids r (by simp only [live, List.mem_append, List.mem_filter]; exact Or.inl ⟨hmem, hkb⟩)⟩
        simp only [live] at huniq
        rw [hsplit] at huniq
        simp only [List.filter_append, List.filter_cons, hkb, if_true, List.append_assoc, List.cons_append] at huniq
        rw [List.pairwise_append] at huniq
        obtain ⟨u1, u2, u3⟩ := huniq
        simp only [live, herase, List.filter_append, List.append_assoc, List.mem_append] at hq
        rcases hq with hq | hq
        · exact u3 q hq r (List.mem_cons_self ..) hh
        · exact (List.pairwise_cons.1 u2).1 q (by simpa using hq) ⟨hh.1.symm, hh.2.symm⟩
  | change n =>
    simp only [messages, List.filterMap_cons, List.filterMap_nil, List.append_nil, step]
    cases hn : s.subs[n]? with
    | none => exact h
    | some r =>
      have hr := h.subs r (List.mem_iff_getElem?.2 ⟨n, hn⟩)
      exact update_inv h hr.2 hr.1
  | close c =>
    simp only [messages, List.filterMap_cons, List.filterMap_nil, List.append_nil, step]
    have hal : ∀ d, ((setConn s c { s.conns c with alive := false }).conns d).alive = true → (s.conns d).alive = true ∧ d ≠ c := by
      intro d hd
      simp only [setConn] at hd
      split at hd
      · cases hd
      · rename_i e; exact ⟨hd, e⟩
    refine ⟨h.count, h.queue, h.subs, h.out, ?_, h.uniq, ?_, ?_⟩
    · intro t c' m' ht hc hm
      simpa [life, answers, setConn] using h.life t c' m' ht (hal c' hc).1 hm
    · intro q hq hq2
      obtain ⟨g1, g2⟩ := hal _ hq2
      have := h.ids q hq g1
      simpa [setConn, g2] using this
    · intro q hq hk m' hm' hs
      have := h.gone q hq hk m' hm' hs
      simp only [setConn]
      split
      · rfl
      · exact this

theorem messages_append (a b : List Op) : messages (a ++ b) = messages a ++ messages b := by simp [messages]

theorem run_inv (ops : List Op) : ∀ {s : State} {msgs : List (Nat × Msg)}, Inv msgs s none →
    Inv (msgs ++ messages ops) (run s ops) none := by
  induction ops with
  | nil => intro s msgs h; simpa [messages, run] using h
  | cons op ops ih =>
    intro s msgs h
    have := ih (step_inv h op)
    rw [show op :: ops = [op] ++ ops from rfl, messages_append, ← List.append_assoc]
    exact this

theorem start_inv (known : Mri → Bool) (writeable : Nat → Bool) : Inv [] (start known writeable) none :=
  ⟨rfl, by simp [start], by simp [start], by simp [start], by simp, by simp [live, start], by simp [live, start], by simp [start]⟩

theorem reach (known : Mri → Bool) (writeable : Nat → Bool) (ops : List Op) :
    Inv (messages ops) (run (start known writeable) ops) none := by
  simpa using run_inv ops (start_inv known writeable)

/-- C42, first part. Each response that is written to a connection answers a message that came in on that connection,
and carries the id of that message; an update answers a message that asks for a subscription. -/
theorem answered_to_sender (known : Mri → Bool) (writeable : Nat → Bool) (ops : List Op) (c : Nat) (r : Resp)
    (h : (c, r) ∈ (run (start known writeable) ops).out) :
    ∃ m, (messages ops)[r.tag]? = some (c, m) ∧ r.id = m.id.getD (-1) ∧ (r.answer = .update → IsSubscribe m) := by
  obtain ⟨m, h1, h2, h3⟩ := (reach known writeable ops).out _ h
  exact ⟨m, h1, h2.symm, h3⟩

theorem alive_of (ops : List Op) (c : Nat) : ∀ s : State, (s.conns c).alive = true → Connected ops c →
    ((run s ops).conns c).alive = true := by
  have hset : ∀ (s : State) (d : Nat) (k : Conn), k.alive = (s.conns d).alive → (s.conns c).alive = true →
      ((setConn s d k).conns c).alive = true := by
    intro s d k hk h
    simp only [setConn]
    split
    · rename_i e; rw [hk, ← e]; exact h
    · exact h
  have hwrite : ∀ (s : State) (d : Nat) (r : Resp), (s.conns c).alive = true → ((write s d r).conns c).alive = true := by
    intro s d r h; unfold write; split <;> exact h
  have hreport : ∀ (s : State) (r : Req), (s.conns c).alive = true → ((report s r).conns c).alive = true := by
    intro s r h; unfold report; split
    · exact h
    · exact hwrite _ _ _ h
  have hresp : ∀ (s : State) (d : Nat) (r : Resp), (s.conns c).alive = true → ((onResponse s d r).conns c).alive = true := by
    intro s d r h
    unfold onResponse
    split
    · exact hwrite _ _ _ h
    · split
      · split
        · exact hreport _ _ (hset _ _ _ rfl h)
        · exact h
      · exact h
  have hdisp : ∀ (s : State) (d : Nat) (id : Int) (k : Kind) (mri : Mri) (tag : Nat), (s.conns c).alive = true →
      ((dispatch s d id k mri tag).conns c).alive = true := by
    intro s d id k mri tag h
    unfold dispatch
    dsimp only
    split
    · split
      · exact hwrite _ _ _ h
      · exact hreport _ _ (hset _ _ _ rfl h)
    · split
      · exact hreport _ _ h
      · exact hwrite _ _ _ h
    · split
      · exact hreport _ _ h
      · exact hwrite _ _ _ h
    · split
      · exact hreport _ _ h
      · exact hwrite _ _ _ h
    · exact hreport _ _ h
  induction ops with
  | nil => intro s h _; exact h
  | cons op ops ih =>
    intro s h hc
    have hc2 : Connected ops c := fun hm => hc (List.mem_cons_of_mem _ hm)
    refine ih (step s op) ?_ hc2
    cases op with
    | message d m =>
      simp only [step]
      split
      · unfold onMessage
        dsimp only
        split
        · exact hwrite _ _ _ h
        · split
          · exact hwrite _ _ _ h
          · exact hdisp _ _ _ _ _ _ h
      · exact h
    | handle n ok =>
      simp only [step]
      split
      · unfold handle
        split
        · split
          · exact hresp _ _ _ h
          · exact hresp _ _ _ h
        · split
          · exact hresp _ _ _ h
          · exact hresp _ _ _ h
        · exact hresp _ _ _ h
      · exact h
    | change n =>
      simp only [step]
      split
      · exact hresp _ _ _ h
      · exact h
    | close d =>
      have hne : c ≠ d := by
        intro e; apply hc; rw [e]; exact List.mem_cons_self ..
      simp only [step, setConn, if_neg hne]
      exact h

/-- C42, first part, the other way round. As long as a client stays connected, each of its messages that does not end a
subscription is either still with a controller, or a subscription that is alive, or has been answered, by a value or an
error, and it has been answered only once. -/
theorem answered_once (known : Mri → Bool) (writeable : Nat → Bool) (ops : List Op) (t c : Nat) (m : Msg)
    (hm : (messages ops)[t]? = some (c, m)) (hc : Connected ops c) (hu : ¬ IsUnsubscribe m) :
    let s := run (start known writeable) ops
    answers s t + s.queue.countP (fun r => r.tag == t) + s.subs.countP (fun r => r.tag == t) = 1 := by
  have := (reach known writeable ops).life t c m hm (alive_of ops c _ rfl hc) hu
  simpa [life] using this

/-- Where a new response comes from -/
def NewOut (s s' : State) : Prop := ∃ l, s'.out = s.out ++ l ∧ l.length ≤ 1 ∧
  ∀ x ∈ l, x.2.tag = s.count ∨ ∃ r, (r ∈ s.queue ∨ r ∈ s.subs) ∧ x.2.tag = r.tag

theorem write_out (s : State) (c : Nat) (r : Resp) : ∃ l, (write s c r).out = s.out ++ l ∧ l.length ≤ 1 ∧ ∀ x ∈ l, x = (c, r) := by
  unfold write
  split
  · exact ⟨[(c, r)], rfl, by simp, by simp⟩
  · exact ⟨[], by simp, by simp, by simp⟩

theorem report_out (s : State) (r : Req) : ∃ l, (report s r).out = s.out ++ l ∧ l.length ≤ 1 ∧ ∀ x ∈ l, x = (r.conn, ⟨r.id, .error, r.tag⟩) := by
  unfold report
  split
  · exact ⟨[], by simp, by simp, by simp⟩
  · exact write_out ..

theorem resp_out (s : State) (c : Nat) (r : Resp) : ∃ l, (onResponse s c r).out = s.out ++ l ∧ l.length ≤ 1 ∧
    ∀ x ∈ l, x.1 = c ∧ x.2.tag = r.tag ∧ x.2.id = r.id := by
  unfold onResponse
  split
  · obtain ⟨l, h1, h0, h2⟩ := write_out s c r
    exact ⟨l, h1, h0, fun x hx => by rw [h2 x hx]; exact ⟨rfl, rfl, rfl⟩⟩
  · split
    · split
      · rename_i mri _
        obtain ⟨l, h1, h0, h2⟩ := report_out (setConn s c { s.conns c with ids := (s.conns c).ids.erase r.id })
          ⟨c, r.id, .unsubscribe, mri, r.tag⟩
        exact ⟨l, h1, h0, fun x hx => by rw [h2 x hx]; exact ⟨rfl, rfl, rfl⟩⟩
      · exact ⟨[], by simp, by simp, by simp⟩
    · exact ⟨[], by simp, by simp, by simp⟩

theorem dispatch_out (s : State) (c : Nat) (id : Int) (k : Kind) (mri : Mri) (tag : Nat) :
    ∃ l, (dispatch s c id k mri tag).out = s.out ++ l ∧ l.length ≤ 1 ∧ ∀ x ∈ l, x.1 = c ∧ x.2.tag = tag := by
  have hf : ∃ l, (fail s c id tag).out = s.out ++ l ∧ l.length ≤ 1 ∧ ∀ x ∈ l, x.1 = c ∧ x.2.tag = tag := by
    obtain ⟨l, h1, h0, h2⟩ := write_out s c ⟨id, .error, tag⟩
    exact ⟨l, h1, h0, fun x hx => by rw [h2 x hx]; exact ⟨rfl, rfl⟩⟩
  have hr : ∀ (s' : State) m, s'.out = s.out → ∃ l, (report s' ⟨c, id, k, m, tag⟩).out = s.out ++ l ∧ l.length ≤ 1 ∧ ∀ x ∈ l, x.1 = c ∧ x.2.tag = tag := by
    intro s' m e
    obtain ⟨l, h1, h0, h2⟩ := report_out s' ⟨c, id, k, m, tag⟩
    exact ⟨l, by rw [h1, e], h0, fun x hx => by rw [h2 x hx]; exact ⟨rfl, rfl⟩⟩
  unfold dispatch
  dsimp only
  split
  · split
    · exact hf
    · exact hr _ _ rfl
  · split
    · exact hr _ _ rfl
    · exact hf
  · split
    · exact hr _ _ rfl
    · exact hf
  · split
    · exact hr _ _ rfl
    · exact hf
  · exact hr _ _ rfl

theorem step_out (s : State) (op : Op) : NewOut s (step s op) := by
  cases op with
  | message c m =>
    simp only [step]
    split
    · unfold onMessage
      dsimp only
      split
      · obtain ⟨l, h1, h0, h2⟩ := write_out { s with count := s.count + 1 } c ⟨-1, .error, s.count⟩
        exact ⟨l, h1, h0, fun x hx => by rw [h2 x hx]; exact Or.inl rfl⟩
      · rename_i id _
        split
        · obtain ⟨l, h1, h0, h2⟩ := write_out { s with count := s.count + 1 } c ⟨id, .error, s.count⟩
          exact ⟨l, h1, h0, fun x hx => by rw [h2 x hx]; exact Or.inl rfl⟩
        · obtain ⟨l, h1, h0, h2⟩ := dispatch_out { s with count := s.count + 1 } c id _ _ s.count
          exact ⟨l, h1, h0, fun x hx => Or.inl (h2 x hx).2⟩
    · exact ⟨[], by simp, by simp, by simp⟩
  | handle n ok =>
    simp only [step]
    split
    · rename_i r hn
      have hr : r ∈ s.queue := List.mem_iff_getElem?.2 ⟨n, hn⟩
      have aux : ∀ (s' : State) (c : Nat) (q : Req) (i : Int) (a : Answer), s'.out = s.out → (q ∈ s.queue ∨ q ∈ s.subs) →
          NewOut s (onResponse s' c ⟨i, a, q.tag⟩) := by
        intro s' c q i a e hq
        obtain ⟨l, h1, h0, h2⟩ := resp_out s' c ⟨i, a, q.tag⟩
        exact ⟨l, by rw [h1, e], h0, fun x hx => Or.inr ⟨q, hq, (h2 x hx).2.1⟩⟩
      unfold handle
      split
      · split
        · exact aux _ _ r _ _ rfl (Or.inl hr)
        · exact aux _ _ r _ _ rfl (Or.inl hr)
      · split
        · rename_i q hq
          exact aux _ _ q _ _ rfl (Or.inr (List.mem_of_find?_eq_some hq))
        · exact aux _ _ r _ _ rfl (Or.inl hr)
      · exact aux _ _ r _ _ rfl (Or.inl hr)
    · exact ⟨[], by simp, by simp, by simp⟩
  | change n =>
    simp only [step]
    split
    · rename_i r hn
      obtain ⟨l, h1, h0, h2⟩ := resp_out s r.conn ⟨r.id, .update, r.tag⟩
      exact ⟨l, h1, h0, fun x hx => Or.inr ⟨r, Or.inr (List.mem_iff_getElem?.2 ⟨n, hn⟩), (h2 x hx).2.1⟩⟩
    · exact ⟨[], by simp, by simp, by simp⟩
  | close c => exact ⟨[], by simp [step, setConn], by simp, by simp⟩

theorem snoc_ind {α : Type} {P : List α → Prop} (h0 : P []) (h1 : ∀ l a, P l → P (l ++ [a])) (l : List α) : P l := by
  have : ∀ l : List α, P l.reverse := by
    intro l
    induction l with
    | nil => exact h0
    | cons a l ih => rw [List.reverse_cons]; exact h1 _ _ ih
  simpa using this l.reverse

theorem run_snoc (s : State) (ops : List Op) (op : Op) : run s (ops ++ [op]) = step (run s ops) op := by
  simp [run]

/-- C42: after the value or the error that answers a message, nothing more is written for it; in particular no update
comes after the end of a subscription. -/
theorem nothing_after_the_end (known : Mri → Bool) (writeable : Nat → Bool) (ops : List Op) (t c : Nat) (m : Msg)
    (hm : (messages ops)[t]? = some (c, m)) (hc : Connected ops c) (hu : ¬ IsUnsubscribe m)
    (before after : List (Nat × Resp)) (x : Nat × Resp)
    (hx : (run (start known writeable) ops).out = before ++ x :: after) (hxt : x.2.tag = t) (hxf : x.2.answer ≠ .update) :
    ∀ y ∈ after, y.2.tag ≠ t := by
  revert before after hm hc
  refine snoc_ind (P := fun ops => (messages ops)[t]? = some (c, m) → Connected ops c → ∀ (before after : List (Nat × Resp)),
    (run (start known writeable) ops).out = before ++ x :: after → ∀ y ∈ after, y.2.tag ≠ t) ?_ ?_ ops
  · intro hm; simp [messages] at hm
  · intro ops op ih hm hc before after hx
    have hc1 : Connected ops c := fun h => hc (List.mem_append_left _ h)
    rw [run_snoc] at hx
    obtain ⟨l, hl, hlen, hnew⟩ := step_out (run (start known writeable) ops) op
    rw [hl] at hx
    -- the answer is among the old responses, or it is the new one
    have inv := reach known writeable ops
    rcases List.append_eq_append_iff.1 hx with ⟨as, h1, h2⟩ | ⟨bs, h1, h2⟩
    · -- before = out ++ as, l = as ++ x :: after
      rw [h2] at hlen
      simp at hlen
      have : after = [] := List.length_eq_zero_iff.1 (by omega)
      intro y hy
      rw [this] at hy
      cases hy
    · cases bs with
      | nil =>
        simp only [List.nil_append] at h2
        rw [← h2] at hlen
        simp at hlen
        intro y hy
        rw [hlen] at hy
        cases hy
      | cons b bs =>
        simp only [List.cons_append, List.cons.injEq] at h2
        obtain ⟨rfl, h2⟩ := h2
        have htag : t < (messages ops).length := by
          obtain ⟨m', g1, _⟩ := inv.out x (by rw [h1]; simp)
          rw [← hxt]
          exact (List.getElem?_eq_some_iff.1 g1).1
        have hm' : (messages ops)[t]? = some (c, m) := by
          rw [messages_append, List.getElem?_append_left htag] at hm
          exact hm
        have hlife := answered_once known writeable ops t c m hm' hc1 hu
        simp only at hlife
        have hpos : 1 ≤ answers (run (start known writeable) ops) t := by
          rw [answers, h1]
          apply List.countP_pos_iff.2
          exact ⟨x, by simp, by simp [hxt, hxf]⟩
        have hq0 : (run (start known writeable) ops).queue.countP (fun r => r.tag == t) = 0 := by omega
        have hs0 : (run (start known writeable) ops).subs.countP (fun r => r.tag == t) = 0 := by omega
        rw [List.countP_eq_zero] at hq0 hs0
        intro y hy
        rw [h2] at hy
        rcases List.mem_append.1 hy with hy | hy
        · exact ih hm' hc1 before bs h1 y hy
        · rcases hnew y hy with e | ⟨r, hr, e⟩
          · rw [e, inv.count]; omega
          · intro e2
            rcases hr with hr | hr
            · exact hq0 r hr (by simp [← e, e2])
            · exact hs0 r hr (by simp [← e, e2])

end Verif.Props.WebServer
