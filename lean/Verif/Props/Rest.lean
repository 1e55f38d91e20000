import Verif.Spec.Rest
/-!
C96: "Each request made over HTTP is done at most once and gets at most one reply, the one to that very request, whatever
the order in which threads run; as long as the process runs each gets one."
-/
set_option linter.unusedVariables false
namespace Verif.Props.Rest
open Verif.Rest Verif.Spec.Rest

variable {W J : Type}

/-! ### urls -/

theorem split_ne (u : Text) : split u ≠ [] := by
  cases u with
  | nil => simp [split]
  | cons c cs =>
    unfold split
    split
    · simp
    · split <;> simp

theorem url_split (u : Text) : url (split u) = u := by
  induction u with
  | nil => rfl
  | cons c cs ih =>
    unfold split
    cases h : split cs with
    | nil => exact absurd h (split_ne cs)
    | cons e es =>
      rw [h] at ih
      split
      · rename_i hc
        subst hc
        show [] ++ '/' :: url (e :: es) = _
        rw [ih]; rfl
      · show url ((c :: e) :: es) = _
        cases es with
        | nil =>
          have : e = cs := ih
          show c :: e = _
          rw [this]
        | cons e' es =>
          have : e ++ '/' :: url (e' :: es) = cs := ih
          show (c :: e) ++ '/' :: url (e' :: es) = _
          rw [List.cons_append, this]

theorem split_no_slash (u : Text) : ∀ e ∈ split u, '/' ∉ e := by
  induction u with
  | nil => simp [split]
  | cons c cs ih =>
    unfold split
    split
    · intro e he
      rcases List.mem_cons.1 he with e' | he
      · subst e'; simp
      · exact ih e he
    · rename_i hc
      cases h : split cs with
      | nil => exact absurd h (split_ne cs)
      | cons e0 es =>
        rw [h] at ih
        intro e he
        rcases List.mem_cons.1 he with e' | he
        · subst e'
          intro hm
          rcases List.mem_cons.1 hm with e' | hm
          · exact hc e'.symm
          · exact ih e0 (List.mem_cons_self ..) hm
        · exact ih e (List.mem_cons_of_mem _ he)

theorem split_elem (e : Text) (h : '/' ∉ e) : split e = [e] := by
  induction e with
  | nil => rfl
  | cons c e ih =>
    unfold split
    rw [if_neg (fun hc => h (by rw [hc]; exact List.mem_cons_self ..)), ih (fun hm => h (List.mem_cons_of_mem _ hm))]

theorem split_cons (e : Text) (h : '/' ∉ e) (rest : Text) : split (e ++ '/' :: rest) = e :: split rest := by
  induction e with
  | nil => rfl
  | cons c e ih =>
    have hc : c ≠ '/' := fun hc => h (by rw [hc]; exact List.mem_cons_self ..)
    have : split (c :: (e ++ '/' :: rest)) = match split (e ++ '/' :: rest) with
        | [] => [[c]]
        | e :: es => (c :: e) :: es := by
      show (if c = '/' then _ else _) = _
      rw [if_neg hc]
      rfl
    rw [List.cons_append, this, ih (fun hm => h (List.mem_cons_of_mem _ hm))]

/-- **C96 (i)** Every path whose elements have no slash in them can be asked for, by its url. -/
theorem path_of_url (p : List Text) (hp : p ≠ []) (h : ∀ e ∈ p, '/' ∉ e) : split (url p) = p := by
  induction p with
  | nil => exact absurd rfl hp
  | cons e es ih =>
    cases es with
    | nil => exact split_elem e (h e (List.mem_cons_self ..))
    | cons e' es =>
      show split (e ++ '/' :: url (e' :: es)) = _
      rw [split_cons e (h e (List.mem_cons_self ..)), ih (by simp) (fun x hx => h x (List.mem_cons_of_mem _ hx))]

example : split "BLOCK/attr/value".toList = ["BLOCK".toList, "attr".toList, "value".toList] := by decide

/-- A field whose name has a slash in it cannot be asked for. -/
theorem slash_not_reached (u : Text) (p q : List Text) (e : Text) (h : '/' ∈ e) : split u ≠ p ++ e :: q := by
  intro he
  exact split_no_slash u e (by rw [he]; simp) h

theorem makeRequest_asked (env : Env W J) (u : Text) (b : Option Text) (r : Request J)
    (h : makeRequest env u b = some r) : AskedFor env u b r := by
  unfold makeRequest at h
  cases b with
  | none =>
    cases h
    exact ⟨split_ne u, url_split u, split_no_slash u, .inl ⟨rfl, rfl⟩⟩
  | some b =>
    dsimp only at h
    cases hd : env.decode b with
    | none => rw [hd] at h; cases h
    | some v =>
      rw [hd] at h
      cases h
      exact ⟨split_ne u, url_split u, split_no_slash u, .inr ⟨b, v, rfl, hd, rfl⟩⟩

/-- There is only one request a client can have asked for. -/
theorem asked_unique (env : Env W J) (u : Text) (b : Option Text) (r r' : Request J) (h : AskedFor env u b r)
    (h' : AskedFor env u b r') : r = r' := by
  obtain ⟨a1, a2, a3, a4⟩ := h
  obtain ⟨b1, b2, b3, b4⟩ := h'
  obtain ⟨p, q⟩ := r
  obtain ⟨p', q'⟩ := r'
  dsimp only at *
  have hp : p = p' := by rw [← path_of_url p a1 a3, ← path_of_url p' b1 b3, a2, b2]
  have hq : q = q' := by
    rcases a4 with ⟨e1, e2⟩ | ⟨x, v, e1, e2, e3⟩ <;> rcases b4 with ⟨f1, f2⟩ | ⟨y, w, f1, f2, f3⟩
    · rw [e2, f2]
    · rw [e1] at f1; cases f1
    · rw [e1] at f1; cases f1
    · rw [e1] at f1
      cases f1
      rw [e2] at f2
      rw [e3, f3, Option.some.inj f2]
  rw [hp, hq]

theorem render_shows (env : Env W J) (a : Response J) : Shows env a (render env a) := by
  cases a with
  | ret v =>
    cases h : env.encode v with
    | none =>
      have : render env (.ret v) = .failed none := by unfold render; simp only [h]
      rw [this]; exact .noValue v h
    | some t =>
      have : render env (.ret v) = .ok (t ++ ['\n']) := by unfold render; simp only [h]
      rw [this]; exact .value v t h
  | error m => exact .error m
  | other => exact .other _

/-! ### where a request can be -/

/-- where the request of a handler is: `cb th lp lg` are the callbacks, threads, calls of the loop and log of it -/
inductive Phase (env : Env W J) (running : Bool) (h : Nat) (cb th : List (Nat × Request J)) (lp : List (Nat × Response J))
    (lg : List (Nat × Request J × W × Response J)) (x : Handler J) : Prop
  | refused : x.waiting = false → x.replies = [.failed none] → x.queue = [] → cb = [] → th = [] → lp = [] → lg = [] →
      Phase env running h cb th lp lg x
  | called (r) : x.waiting = true → x.replies = [] → x.queue = [] → AskedFor env x.url x.body r → cb = [(h, r)] → th = [] →
      lp = [] → lg = [] → Phase env running h cb th lp lg x
  | spawned (r) : x.waiting = true → x.replies = [] → x.queue = [] → AskedFor env x.url x.body r → cb = [] → th = [(h, r)] →
      lp = [] → lg = [] → Phase env running h cb th lp lg x
  | lost : running = false → x.waiting = true → x.replies = [] → x.queue = [] → cb = [] → th = [] → lp = [] → lg = [] →
      Phase env running h cb th lp lg x
  | inLoop (r w) : x.waiting = true → x.replies = [] → x.queue = [] → AskedFor env x.url x.body r → cb = [] → th = [] →
      lp = [(h, (env.handle w r).2)] → lg = [(h, r, w, (env.handle w r).2)] → Phase env running h cb th lp lg x
  | queued (r w) : x.waiting = true → x.replies = [] → x.queue = [(env.handle w r).2] → AskedFor env x.url x.body r → cb = [] →
      th = [] → lp = [] → lg = [(h, r, w, (env.handle w r).2)] → Phase env running h cb th lp lg x
  | replied (r w) : x.waiting = false → x.replies = [render env (env.handle w r).2] → x.queue = [] →
      AskedFor env x.url x.body r → cb = [] → th = [] → lp = [] → lg = [(h, r, w, (env.handle w r).2)] →
      Phase env running h cb th lp lg x

/-- those of handler `h` -/
def of {A : Type} (h : Nat) (l : List (Nat × A)) : List (Nat × A) := l.filter (fun x => decide (x.1 = h))

theorem of_append {A : Type} (h : Nat) (l l' : List (Nat × A)) : of h (l ++ l') = of h l ++ of h l' := List.filter_append ..

theorem of_cons_self {A : Type} (h : Nat) (a : A) (l : List (Nat × A)) : of h ((h, a) :: l) = (h, a) :: of h l := by
  unfold of; rw [List.filter_cons, if_pos (by simp)]

theorem of_cons_ne {A : Type} {h h' : Nat} (e : h' ≠ h) (a : A) (l : List (Nat × A)) : of h ((h', a) :: l) = of h l := by
  unfold of; rw [List.filter_cons, if_neg (by simp [e])]

theorem of_nil_of_lt {A : Type} (n : Nat) (l : List (Nat × A)) (h : ∀ x ∈ l, x.1 < n) : of n l = [] := by
  unfold of
  rw [List.filter_eq_nil_iff]
  intro x hx
  have := h x hx
  simp; omega

structure Inv (env : Env W J) (s : State W J) : Prop where
  cb : ∀ x ∈ s.callbacks, x.1 < s.handlers.length
  th : ∀ x ∈ s.threads, x.1 < s.handlers.length
  lp : ∀ x ∈ s.loop, x.1 < s.handlers.length
  lg : ∀ x ∈ s.log, x.1 < s.handlers.length
  phase : ∀ h x, s.handlers[h]? = some x →
    Phase env s.running h (of h s.callbacks) (of h s.threads) (of h s.loop) (of h s.log) x

theorem eraseIdx_split {A : Type} (l : List A) : ∀ (i : Nat) (a : A), l[i]? = some a →
    ∃ l1 l2, l = l1 ++ a :: l2 ∧ l.eraseIdx i = l1 ++ l2 := by
  induction l with
  | nil => intro i a h; simp at h
  | cons b l ih =>
    intro i a h
    cases i with
    | zero =>
      rw [List.getElem?_cons_zero] at h
      cases h
      exact ⟨[], l, rfl, rfl⟩
    | succ i =>
      rw [List.getElem?_cons_succ] at h
      obtain ⟨l1, l2, e1, e2⟩ := ih i a h
      exact ⟨b :: l1, l2, by rw [e1]; rfl, by rw [List.eraseIdx_cons_succ, e2]; rfl⟩

theorem arrive_inv (env : Env W J) (s : State W J) (u : Text) (b : Option Text) (h : Inv env s) : Inv env (arrive env s u b) := by
  have hrej : Inv env { s with handlers := s.handlers ++ [⟨u, b, [], false, [.failed none]⟩] } := by
    have hl : (s.handlers ++ [(⟨u, b, [], false, [.failed none]⟩ : Handler J)]).length = s.handlers.length + 1 := by simp
    refine ⟨?_, ?_, ?_, ?_, ?_⟩
    · intro x hx; have := h.cb x hx; show x.1 < List.length (_ ++ _); rw [hl]; omega
    · intro x hx; have := h.th x hx; show x.1 < List.length (_ ++ _); rw [hl]; omega
    · intro x hx; have := h.lp x hx; show x.1 < List.length (_ ++ _); rw [hl]; omega
    · intro x hx; have := h.lg x hx; show x.1 < List.length (_ ++ _); rw [hl]; omega
    · intro k x hx
      dsimp only at hx ⊢
      by_cases hk : k < s.handlers.length
      · rw [List.getElem?_append_left hk] at hx
        exact h.phase k x hx
      · rw [List.getElem?_append_right (by omega)] at hx
        have hk0 : k - s.handlers.length = 0 := by
          have := (List.getElem?_eq_some_iff.1 hx).1
          simp at this
          omega
        rw [hk0] at hx
        cases hx
        have : k = s.handlers.length := by omega
        subst this
        exact .refused rfl rfl rfl (of_nil_of_lt _ _ h.cb) (of_nil_of_lt _ _ h.th) (of_nil_of_lt _ _ h.lp) (of_nil_of_lt _ _ h.lg)
  unfold arrive
  cases hm : makeRequest env u b with
  | none => exact hrej
  | some r =>
    dsimp only
    split
    · have hl : (s.handlers ++ [(⟨u, b, [], true, []⟩ : Handler J)]).length = s.handlers.length + 1 := by simp
      refine ⟨?_, ?_, ?_, ?_, ?_⟩
      · intro x hx
        show x.1 < List.length (_ ++ _)
        rw [hl]
        rcases List.mem_append.1 hx with hx | hx
        · have := h.cb x hx; omega
        · rw [List.mem_singleton.1 hx]; exact Nat.lt_succ_self _
      · intro x hx; have := h.th x hx; show x.1 < List.length (_ ++ _); rw [hl]; omega
      · intro x hx; have := h.lp x hx; show x.1 < List.length (_ ++ _); rw [hl]; omega
      · intro x hx; have := h.lg x hx; show x.1 < List.length (_ ++ _); rw [hl]; omega
      · intro k x hx
        dsimp only at hx ⊢
        rw [of_append]
        by_cases hk : k < s.handlers.length
        · rw [List.getElem?_append_left hk] at hx
          rw [of_cons_ne (by omega), show of k ([] : List (Nat × Request J)) = [] from rfl, List.append_nil]
          exact h.phase k x hx
        · rw [List.getElem?_append_right (by omega)] at hx
          have hk0 : k - s.handlers.length = 0 := by
            have := (List.getElem?_eq_some_iff.1 hx).1
            simp at this
            omega
          rw [hk0] at hx
          cases hx
          have : k = s.handlers.length := by omega
          subst this
          rw [of_cons_self, of_nil_of_lt _ _ h.cb]
          exact .called r rfl rfl rfl (makeRequest_asked env u b r hm) rfl (of_nil_of_lt _ _ h.th) (of_nil_of_lt _ _ h.lp)
            (of_nil_of_lt _ _ h.lg)
    · exact hrej

theorem callback_inv (env : Env W J) (s : State W J) (h : Inv env s) : Inv env (callback s) := by
  unfold callback
  cases hc : s.callbacks with
  | nil => exact h
  | cons c cs =>
    obtain ⟨k0, r0⟩ := c
    have hcb := h.cb
    have hph := h.phase
    rw [hc] at hcb hph
    dsimp only
    by_cases hr : s.running = true
    · rw [if_pos hr]
      refine ⟨fun x hx => hcb x (List.mem_cons_of_mem _ hx), ?_, h.lp, h.lg, ?_⟩
      · intro x hx
        rcases List.mem_append.1 hx with hx | hx
        · exact h.th x hx
        · rw [List.mem_singleton.1 hx]; exact hcb _ (List.mem_cons_self ..)
      · intro k x hx
        have hp := hph k x hx
        dsimp only at hx ⊢
        rw [of_append]
        by_cases e : k0 = k
        · subst e
          rw [of_cons_self] at hp
          rw [of_cons_self]
          cases hp with
          | refused _ _ _ e4 => cases e4
          | called r e1 e2 e3 e4 e5 e6 e7 e8 =>
            obtain ⟨e51, e52⟩ := List.cons.inj e5
            cases e51
            rw [e6]
            exact .spawned r0 e1 e2 e3 e4 e52 rfl e7 e8
          | spawned r e1 e2 e3 e4 e5 => cases e5
          | lost _ _ _ _ e5 => cases e5
          | inLoop r w e1 e2 e3 e4 e5 => cases e5
          | queued r w e1 e2 e3 e4 e5 => cases e5
          | replied r w e1 e2 e3 e4 e5 => cases e5
        · rw [of_cons_ne e] at hp
          rw [of_cons_ne e, show of k ([] : List (Nat × Request J)) = [] from rfl, List.append_nil]
          exact hp
    · have hr' : s.running = false := by cases hh : s.running <;> simp_all
      rw [if_neg hr]
      refine ⟨fun x hx => hcb x (List.mem_cons_of_mem _ hx), h.th, h.lp, h.lg, ?_⟩
      intro k x hx
      have hp := hph k x hx
      dsimp only at hx ⊢
      by_cases e : k0 = k
      · subst e
        rw [of_cons_self] at hp
        cases hp with
        | refused _ _ _ e4 => cases e4
        | called r e1 e2 e3 e4 e5 e6 e7 e8 =>
          obtain ⟨e51, e52⟩ := List.cons.inj e5
          exact .lost hr' e1 e2 e3 e52 e6 e7 e8
        | spawned r e1 e2 e3 e4 e5 => cases e5
        | lost _ _ _ _ e5 => cases e5
        | inLoop r w e1 e2 e3 e4 e5 => cases e5
        | queued r w e1 e2 e3 e4 e5 => cases e5
        | replied r w e1 e2 e3 e4 e5 => cases e5
      · rw [of_cons_ne e] at hp
        exact hp

theorem run_inv (env : Env W J) (s : State W J) (i : Nat) (h : Inv env s) : Inv env (run env s i) := by
  unfold run
  cases hi : s.threads[i]? with
  | none => exact h
  | some c =>
    obtain ⟨k0, r0⟩ := c
    obtain ⟨l1, l2, e1, e2⟩ := eraseIdx_split _ _ _ hi
    have hk0 := h.th _ (List.mem_of_getElem? hi)
    dsimp only at hk0 ⊢
    rw [e2]
    have hth := h.th
    have hph := h.phase
    rw [e1] at hth hph
    refine ⟨h.cb, ?_, ?_, ?_, ?_⟩
    · intro x hx
      refine hth x ?_
      rcases List.mem_append.1 hx with hx | hx
      · exact List.mem_append_left _ hx
      · exact List.mem_append_right _ (List.mem_cons_of_mem _ hx)
    · intro x hx
      rcases List.mem_append.1 hx with hx | hx
      · exact h.lp x hx
      · rw [List.mem_singleton.1 hx]; exact hk0
    · intro x hx
      rcases List.mem_append.1 hx with hx | hx
      · exact h.lg x hx
      · rw [List.mem_singleton.1 hx]; exact hk0
    · intro k x hx
      have hp := hph k x hx
      dsimp only at hx ⊢
      rw [of_append, of_append, of_append]
      rw [of_append] at hp
      by_cases e : k0 = k
      · subst e
        rw [of_cons_self] at hp
        rw [of_cons_self, of_cons_self]
        have hne : of k0 l1 ++ (k0, r0) :: of k0 l2 ≠ [] := by simp
        cases hp with
        | refused _ _ _ _ e4 => exact absurd e4 hne
        | called r _ _ _ _ _ e4 => exact absurd e4 hne
        | spawned r f1 f2 f3 f4 f5 f6 f7 f8 =>
          have : of k0 l1 = [] ∧ (k0, r0) = (k0, r) ∧ of k0 l2 = [] := by
            cases hq : of k0 l1 with
            | nil =>
              rw [hq] at f6
              obtain ⟨g1, g2⟩ := List.cons.inj f6
              exact ⟨rfl, g1, g2⟩
            | cons y ys =>
              rw [hq] at f6
              have := (List.cons.inj f6).2
              simp at this
          obtain ⟨g1, g2, g3⟩ := this
          cases g2
          rw [g1, g3, f7, f8]
          exact .inLoop r0 s.world f1 f2 f3 f4 f5 rfl rfl rfl
        | lost _ _ _ _ _ e5 => exact absurd e5 hne
        | inLoop r w _ _ _ _ _ e5 => exact absurd e5 hne
        | queued r w _ _ _ _ _ e5 => exact absurd e5 hne
        | replied r w _ _ _ _ _ e5 => exact absurd e5 hne
      · rw [of_cons_ne e] at hp
        rw [of_cons_ne e, of_cons_ne e, show of k ([] : List (Nat × Response J)) = [] from rfl,
          show of k ([] : List (Nat × Request J × W × Response J)) = [] from rfl, List.append_nil, List.append_nil]
        exact hp

theorem tick_inv (env : Env W J) (s : State W J) (h : Inv env s) : Inv env (tick s) := by
  unfold tick
  cases hc : s.loop with
  | nil => exact h
  | cons c cs =>
    obtain ⟨k0, a0⟩ := c
    have hlp := h.lp
    have hph := h.phase
    rw [hc] at hlp hph
    dsimp only
    refine ⟨?_, ?_, ?_, ?_, ?_⟩
    · intro x hx; show x.1 < List.length (List.modify ..); rw [List.length_modify]; exact h.cb x hx
    · intro x hx; show x.1 < List.length (List.modify ..); rw [List.length_modify]; exact h.th x hx
    · intro x hx; show x.1 < List.length (List.modify ..); rw [List.length_modify]; exact hlp x (List.mem_cons_of_mem _ hx)
    · intro x hx; show x.1 < List.length (List.modify ..); rw [List.length_modify]; exact h.lg x hx
    · intro k x hx
      dsimp only at hx ⊢
      rw [List.getElem?_modify] at hx
      obtain ⟨y, hy, hx⟩ := Option.map_eq_some_iff.1 hx
      have hp := hph k y hy
      by_cases e : k0 = k
      · subst e
        rw [of_cons_self] at hp
        rw [if_pos rfl] at hx
        subst hx
        cases hp with
        | refused _ _ _ _ _ e4 => cases e4
        | called r _ _ _ _ _ _ e4 => cases e4
        | spawned r _ _ _ _ _ _ e4 => cases e4
        | lost _ _ _ _ _ _ e5 => cases e5
        | inLoop r w f1 f2 f3 f4 f5 f6 f7 f8 =>
          obtain ⟨g1, g2⟩ := List.cons.inj f7
          cases g1
          exact .queued r w f1 f2 (by show y.queue ++ _ = _; rw [f3]; rfl) f4 f5 f6 g2 f8
        | queued r w _ _ _ _ _ _ e5 => cases e5
        | replied r w _ _ _ _ _ _ e5 => cases e5
      · rw [of_cons_ne e] at hp
        rw [if_neg e] at hx
        subst hx
        exact hp

theorem resume_inv (env : Env W J) (s : State W J) (i : Nat) (h : Inv env s) : Inv env (resume env s i) := by
  unfold resume
  refine ⟨?_, ?_, ?_, ?_, ?_⟩
  · intro x hx; show x.1 < List.length (List.modify ..); rw [List.length_modify]; exact h.cb x hx
  · intro x hx; show x.1 < List.length (List.modify ..); rw [List.length_modify]; exact h.th x hx
  · intro x hx; show x.1 < List.length (List.modify ..); rw [List.length_modify]; exact h.lp x hx
  · intro x hx; show x.1 < List.length (List.modify ..); rw [List.length_modify]; exact h.lg x hx
  · intro k x hx
    dsimp only at hx ⊢
    rw [List.getElem?_modify] at hx
    obtain ⟨y, hy, hx⟩ := Option.map_eq_some_iff.1 hx
    have hp := h.phase k y hy
    by_cases e : i = k
    · rw [if_pos e] at hx
      subst hx
      have hidle : y.queue = [] → resumed env y = y := by
        intro hq
        unfold resumed
        rw [hq]
        split <;> rfl
      cases hp with
      | refused f1 f2 f3 f4 f5 f6 f7 => rw [hidle f3]; exact .refused f1 f2 f3 f4 f5 f6 f7
      | called r f1 f2 f3 f4 f5 f6 f7 f8 => rw [hidle f3]; exact .called r f1 f2 f3 f4 f5 f6 f7 f8
      | spawned r f1 f2 f3 f4 f5 f6 f7 f8 => rw [hidle f3]; exact .spawned r f1 f2 f3 f4 f5 f6 f7 f8
      | lost f0 f1 f2 f3 f4 f5 f6 f7 => rw [hidle f3]; exact .lost f0 f1 f2 f3 f4 f5 f6 f7
      | inLoop r w f1 f2 f3 f4 f5 f6 f7 f8 => rw [hidle f3]; exact .inLoop r w f1 f2 f3 f4 f5 f6 f7 f8
      | queued r w f1 f2 f3 f4 f5 f6 f7 f8 =>
        have : resumed env y = { y with queue := [], waiting := false, replies := y.replies ++ [render env (env.handle w r).2] } := by
          unfold resumed
          rw [if_pos f1, f3]
        rw [this]
        exact .replied r w rfl (by show y.replies ++ _ = _; rw [f2]; rfl) rfl f4 f5 f6 f7 f8
      | replied r w f1 f2 f3 f4 f5 f6 f7 f8 => rw [hidle f3]; exact .replied r w f1 f2 f3 f4 f5 f6 f7 f8
    · rw [if_neg e] at hx
      subst hx
      exact hp

theorem stop_phase {env : Env W J} {b : Bool} {h cb th lp lg} {x : Handler J} (hp : Phase env b h cb th lp lg x) :
    Phase env false h cb th lp lg x := by
  cases hp with
  | refused f1 f2 f3 f4 f5 f6 f7 => exact .refused f1 f2 f3 f4 f5 f6 f7
  | called r f1 f2 f3 f4 f5 f6 f7 f8 => exact .called r f1 f2 f3 f4 f5 f6 f7 f8
  | spawned r f1 f2 f3 f4 f5 f6 f7 f8 => exact .spawned r f1 f2 f3 f4 f5 f6 f7 f8
  | lost f0 f1 f2 f3 f4 f5 f6 f7 => exact .lost rfl f1 f2 f3 f4 f5 f6 f7
  | inLoop r w f1 f2 f3 f4 f5 f6 f7 f8 => exact .inLoop r w f1 f2 f3 f4 f5 f6 f7 f8
  | queued r w f1 f2 f3 f4 f5 f6 f7 f8 => exact .queued r w f1 f2 f3 f4 f5 f6 f7 f8
  | replied r w f1 f2 f3 f4 f5 f6 f7 f8 => exact .replied r w f1 f2 f3 f4 f5 f6 f7 f8

theorem step_inv (env : Env W J) (s : State W J) (e : Event W) (h : Inv env s) : Inv env (step env s e) := by
  cases e with
  | arrive u b => exact arrive_inv env s u b h
  | callback => exact callback_inv env s h
  | run i => exact run_inv env s i h
  | tick => exact tick_inv env s h
  | resume i => exact resume_inv env s i h
  | change w => exact ⟨h.cb, h.th, h.lp, h.lg, h.phase⟩
  | stop => exact ⟨h.cb, h.th, h.lp, h.lg, fun k x hx => stop_phase (h.phase k x hx)⟩

theorem runs_inv (env : Env W J) (w : W) (es : List (Event W)) : Inv env (runs env { world := w } es) := by
  have key : ∀ (es : List (Event W)) (s : State W J), Inv env s → Inv env (runs env s es) := by
    intro es
    induction es with
    | nil => intro s h; exact h
    | cons e es ih => intro s h; exact ih _ (step_inv env s e h)
  refine key es _ ⟨?_, ?_, ?_, ?_, ?_⟩
  · intro x hx; cases hx
  · intro x hx; cases hx
  · intro x hx; cases hx
  · intro x hx; cases hx
  · intro h x hx; cases hx

/-- **C96 (ii)** In every history each HTTP request is given to a controller at most once and replied to at most once. The
reply is a plain 500 without anything having been done, or it shows the response of the controller to the very request
the client asked for. -/
theorem own_reply (env : Env W J) (w : W) (es : List (Event W)) (h : Nat) (x : Handler J)
    (hx : (runs env { world := w } es).handlers[h]? = some x) :
    x.replies.length ≤ 1 ∧ (done (runs env { world := w } es) h).length ≤ 1 ∧
    ∀ y ∈ x.replies, (y = .failed none ∧ done (runs env { world := w } es) h = []) ∨
      ∃ r w', done (runs env { world := w } es) h = [(h, r, w', (env.handle w' r).2)] ∧ AskedFor env x.url x.body r ∧
        Shows env (env.handle w' r).2 y := by
  have hp := (runs_inv env w es).phase h x hx
  change Phase env _ h _ _ _ (done _ h) x at hp
  cases hp with
  | refused f1 f2 f3 f4 f5 f6 f7 =>
    rw [f2, f7]
    exact ⟨Nat.le_refl _, Nat.zero_le _, fun y hy => .inl ⟨List.mem_singleton.1 hy, rfl⟩⟩
  | called r f1 f2 f3 f4 f5 f6 f7 f8 => rw [f2, f8]; exact ⟨Nat.zero_le _, Nat.zero_le _, by simp⟩
  | spawned r f1 f2 f3 f4 f5 f6 f7 f8 => rw [f2, f8]; exact ⟨Nat.zero_le _, Nat.zero_le _, by simp⟩
  | lost f0 f1 f2 f3 f4 f5 f6 f7 => rw [f2, f7]; exact ⟨Nat.zero_le _, Nat.zero_le _, by simp⟩
  | inLoop r w f1 f2 f3 f4 f5 f6 f7 f8 => rw [f2, f8]; exact ⟨Nat.zero_le _, Nat.le_refl _, by simp⟩
  | queued r w f1 f2 f3 f4 f5 f6 f7 f8 => rw [f2, f8]; exact ⟨Nat.zero_le _, Nat.le_refl _, by simp⟩
  | replied r w' f1 f2 f3 f4 f5 f6 f7 f8 =>
    rw [f2, f8]
    refine ⟨Nat.le_refl _, Nat.le_refl _, fun y hy => .inr ⟨r, w', rfl, f4, ?_⟩⟩
    rw [List.mem_singleton.1 hy]
    exact render_shows env _

/-- **C96 (iii)** What is done is what some client asked for. -/
theorem only_what_was_asked (env : Env W J) (w : W) (es : List (Event W)) (h : Nat) (r : Request J) (w' : W) (a : Response J)
    (hm : (h, r, w', a) ∈ (runs env { world := w } es).log) :
    ∃ x, (runs env { world := w } es).handlers[h]? = some x ∧ AskedFor env x.url x.body r ∧ a = (env.handle w' r).2 := by
  have hinv := runs_inv env w es
  have hlt := hinv.lg _ hm
  have hx : (runs env { world := w } es).handlers[h]? = some _ := List.getElem?_eq_getElem hlt
  have hmem : (h, r, w', a) ∈ of h (runs env { world := w } es).log := List.mem_filter.2 ⟨hm, by simp⟩
  refine ⟨_, hx, ?_⟩
  have hp := hinv.phase h _ hx
  cases hp with
  | refused f1 f2 f3 f4 f5 f6 f7 => rw [f7] at hmem; cases hmem
  | called r f1 f2 f3 f4 f5 f6 f7 f8 => rw [f8] at hmem; cases hmem
  | spawned r f1 f2 f3 f4 f5 f6 f7 f8 => rw [f8] at hmem; cases hmem
  | lost f0 f1 f2 f3 f4 f5 f6 f7 => rw [f7] at hmem; cases hmem
  | inLoop r w f1 f2 f3 f4 f5 f6 f7 f8 => rw [f8] at hmem; cases List.mem_singleton.1 hmem; exact ⟨f4, rfl⟩
  | queued r w f1 f2 f3 f4 f5 f6 f7 f8 => rw [f8] at hmem; cases List.mem_singleton.1 hmem; exact ⟨f4, rfl⟩
  | replied r w f1 f2 f3 f4 f5 f6 f7 f8 => rw [f8] at hmem; cases List.mem_singleton.1 hmem; exact ⟨f4, rfl⟩

/-- **C96 (iv)** While the process runs, once nothing is left to be done every request has one reply. -/
theorem all_replied (env : Env W J) (w : W) (es : List (Event W)) (hr : (runs env { world := w } es).running = true)
    (hi : Idle (runs env { world := w } es)) :
    ∀ x ∈ (runs env { world := w } es).handlers, x.replies.length = 1 := by
  intro x hx
  obtain ⟨h, hlt, he⟩ := List.mem_iff_getElem.1 hx
  have hp := (runs_inv env w es).phase h x (by rw [List.getElem?_eq_getElem hlt, he])
  obtain ⟨i1, i2, i3, i4⟩ := hi
  rw [i1, i2, i3] at hp
  cases hp with
  | refused f1 f2 => rw [f2]; rfl
  | called r f1 f2 f3 f4 f5 => cases f5
  | spawned r f1 f2 f3 f4 f5 f6 => cases f6
  | lost f0 => rw [hr] at f0; cases f0
  | inLoop r w f1 f2 f3 f4 f5 f6 f7 => cases f7
  | queued r w f1 f2 f3 => have := i4 x hx f1; rw [f3] at this; cases this
  | replied r w f1 f2 => rw [f2]; rfl

/-! ### it comes to rest -/

/-- the responses handlers are still to take -/
def inQueues (l : List (Handler J)) : Nat := (l.map (fun x => if x.waiting then x.queue.length else 0)).sum

/-- the steps still to be made -/
def work (s : State W J) : Nat := 4 * s.callbacks.length + 3 * s.threads.length + 2 * s.loop.length + inQueues s.handlers

theorem inQueues_modify_le (f : Handler J → Handler J) (n : Nat) (hf : ∀ x, (if (f x).waiting then (f x).queue.length else 0) ≤
    (if x.waiting then x.queue.length else 0) + n) (l : List (Handler J)) : ∀ i,
    inQueues (l.modify i f) ≤ inQueues l + n := by
  induction l with
  | nil => intro i; rw [List.modify_nil]; exact Nat.le_add_right _ _
  | cons x l ih =>
    intro i
    cases i with
    | zero =>
      rw [List.modify_zero_cons]
      have := hf x
      unfold inQueues at *
      simp only [List.map_cons, List.sum_cons]
      omega
    | succ i =>
      rw [List.modify_succ_cons]
      have := ih i
      unfold inQueues at *
      simp only [List.map_cons, List.sum_cons]
      omega

theorem inQueues_resume (env : Env W J) (l : List (Handler J)) : ∀ i x, l[i]? = some x → x.waiting = true → x.queue ≠ [] →
    inQueues (l.modify i (resumed env)) < inQueues l := by
  induction l with
  | nil => intro i x h; cases h
  | cons y l ih =>
    intro i x h hw hq
    cases i with
    | zero =>
      rw [List.getElem?_cons_zero] at h
      cases h
      rw [List.modify_zero_cons]
      unfold inQueues resumed
      rw [if_pos hw]
      cases hq' : y.queue with
      | nil => exact absurd hq' hq
      | cons a q =>
        have e1 : (if y.waiting = true then y.queue.length else 0) = q.length + 1 := by rw [if_pos hw, hq']; rfl
        simp only [List.map_cons, List.sum_cons, Bool.false_eq_true, if_false]
        rw [e1]
        omega
    | succ i =>
      rw [List.modify_succ_cons]
      have := ih i x h hw hq
      unfold inQueues at *
      simp only [List.map_cons, List.sum_cons]
      omega

/-- **C96 (v)** Unless nothing is left to be done there is a step that does some of it, and each such step leaves less:
without new requests the system comes to rest, whatever order things are done in. -/
theorem comes_to_rest (env : Env W J) (s : State W J) :
    (Idle s ↔ work s = 0) ∧
    (s.callbacks ≠ [] → work (step env s .callback) < work s) ∧
    (∀ i, i < s.threads.length → work (step env s (.run i)) < work s) ∧
    (s.loop ≠ [] → work (step env s .tick) < work s) ∧
    (∀ h x, s.handlers[h]? = some x → x.waiting = true → x.queue ≠ [] → work (step env s (.resume h)) < work s) := by
  refine ⟨?_, ?_, ?_, ?_, ?_⟩
  · unfold Idle work inQueues
    constructor
    · rintro ⟨h1, h2, h3, h4⟩
      rw [h1, h2, h3]
      have : (s.handlers.map (fun x => if x.waiting then x.queue.length else 0)).sum = 0 := by
        rw [List.sum_eq_zero_iff_forall_eq_nat]
        intro n hn
        obtain ⟨x, hx, e⟩ := List.mem_map.1 hn
        rw [← e]
        split
        · rename_i hw
          rw [h4 x hx hw]; rfl
        · rfl
      rw [this]; rfl
    · intro h
      have h4 : (s.handlers.map (fun x => if x.waiting then x.queue.length else 0)).sum = 0 := by omega
      refine ⟨List.eq_nil_of_length_eq_zero (by omega), List.eq_nil_of_length_eq_zero (by omega),
        List.eq_nil_of_length_eq_zero (by omega), fun x hx hw => ?_⟩
      rw [List.sum_eq_zero_iff_forall_eq_nat] at h4
      have := h4 _ (List.mem_map.2 ⟨x, hx, rfl⟩)
      rw [if_pos hw] at this
      exact List.eq_nil_of_length_eq_zero this
  · intro h
    show work (callback s) < _
    unfold callback
    cases hc : s.callbacks with
    | nil => exact absurd hc h
    | cons c cs =>
      dsimp only
      split
      · unfold work
        simp only [hc, List.length_cons, List.length_append, List.length_nil]
        omega
      · unfold work
        simp only [hc, List.length_cons]
        omega
  · intro i hi
    show work (run env s i) < _
    unfold run
    rw [List.getElem?_eq_getElem hi]
    dsimp only
    unfold work
    simp only [List.length_eraseIdx_of_lt hi, List.length_append, List.length_cons, List.length_nil]
    omega
  · intro h
    show work (tick s) < _
    unfold tick
    cases hc : s.loop with
    | nil => exact absurd hc h
    | cons c cs =>
      obtain ⟨k, a⟩ := c
      dsimp only
      have := inQueues_modify_le (fun x : Handler J => { x with queue := x.queue ++ [a] }) 1 (by
        intro x
        dsimp only
        split
        · simp
        · simp) s.handlers k
      unfold work
      simp only [hc, List.length_cons]
      omega
  · intro i x hx hw hq
    have := inQueues_resume env s.handlers i x hx hw hq
    show work (resume env s i) < _
    unfold resume work
    dsimp only
    omega

/-! ### where the code does not keep the property -/

/-- a request that has been dropped is never replied to, whatever happens -/
theorem lost_for_ever (env : Env W J) (s : State W J) (h : Nat) (hi : Inv env s) (x : Handler J) (hx : s.handlers[h]? = some x)
    (hw : x.waiting = true) (hc : of h s.callbacks = [] ∧ of h s.threads = [] ∧ of h s.loop = [] ∧ x.queue = []) :
    ∀ es : List (Event W), ∃ x', (runs env s es).handlers[h]? = some x' ∧ x'.replies = x.replies ∧ x'.waiting = true := by
  intro es
  induction es generalizing s x with
  | nil => exact ⟨x, hx, rfl, hw⟩
  | cons e es ih =>
    obtain ⟨c1, c2, c3, c4⟩ := hc
    have hlt : h < s.handlers.length := (List.getElem?_eq_some_iff.1 hx).1
    show ∃ x', (runs env (step env s e) es).handlers[h]? = some x' ∧ _
    have hi' := step_inv env s e hi
    cases e with
    | arrive u b =>
      show ∃ x', (runs env (arrive env s u b) es).handlers[h]? = some x' ∧ _
      change Inv env (arrive env s u b) at hi'
      unfold arrive at hi' ⊢
      cases hm : makeRequest env u b with
      | none =>
        rw [hm] at hi'
        exact ih _ hi' x (by show (_ ++ _)[h]? = _; rw [List.getElem?_append_left hlt]; exact hx) hw ⟨c1, c2, c3, c4⟩
      | some r =>
        rw [hm] at hi'
        dsimp only at hi' ⊢
        by_cases ha : accepted env s.world r = true
        · rw [if_pos ha] at hi' ⊢
          refine ih _ hi' x (by show (_ ++ _)[h]? = _; rw [List.getElem?_append_left hlt]; exact hx) hw ⟨?_, c2, c3, c4⟩
          show of h (_ ++ _) = []
          rw [of_append, c1, of_cons_ne (by omega)]
          rfl
        · rw [if_neg ha] at hi' ⊢
          exact ih _ hi' x (by show (_ ++ _)[h]? = _; rw [List.getElem?_append_left hlt]; exact hx) hw ⟨c1, c2, c3, c4⟩
    | callback =>
      show ∃ x', (runs env (callback s) es).handlers[h]? = some x' ∧ _
      change Inv env (callback s) at hi'
      unfold callback at hi' ⊢
      cases hcb : s.callbacks with
      | nil => rw [hcb] at hi'; exact ih s hi' x hx hw ⟨c1, c2, c3, c4⟩
      | cons c cs =>
        obtain ⟨k, r⟩ := c
        rw [hcb] at hi' c1
        dsimp only at hi' ⊢
        have hk : k ≠ h := by
          intro e; subst e; rw [of_cons_self] at c1; cases c1
        rw [of_cons_ne hk] at c1
        by_cases hr : s.running = true
        · rw [if_pos hr] at hi' ⊢
          refine ih _ hi' x hx hw ⟨c1, ?_, c3, c4⟩
          show of h (_ ++ _) = []
          rw [of_append, c2, of_cons_ne hk]
          rfl
        · rw [if_neg hr] at hi' ⊢
          exact ih _ hi' x hx hw ⟨c1, c2, c3, c4⟩
    | run i =>
      show ∃ x', (runs env (run env s i) es).handlers[h]? = some x' ∧ _
      change Inv env (run env s i) at hi'
      unfold run at hi' ⊢
      cases hth : s.threads[i]? with
      | none => rw [hth] at hi'; exact ih s hi' x hx hw ⟨c1, c2, c3, c4⟩
      | some c =>
        obtain ⟨k, r⟩ := c
        rw [hth] at hi'
        dsimp only at hi' ⊢
        obtain ⟨l1, l2, e1, e2⟩ := eraseIdx_split _ _ _ hth
        rw [e1, of_append] at c2
        have hk : k ≠ h := by
          intro e; subst e; rw [of_cons_self] at c2; simp at c2
        rw [of_cons_ne hk] at c2
        refine ih _ hi' x hx hw ⟨c1, ?_, ?_, c4⟩
        · show of h (s.threads.eraseIdx i) = []
          rw [e2, of_append]; exact c2
        · show of h (_ ++ _) = []
          rw [of_append, c3, of_cons_ne hk]; rfl
    | tick =>
      show ∃ x', (runs env (tick s) es).handlers[h]? = some x' ∧ _
      change Inv env (tick s) at hi'
      unfold tick at hi' ⊢
      cases hl : s.loop with
      | nil => rw [hl] at hi'; exact ih s hi' x hx hw ⟨c1, c2, c3, c4⟩
      | cons c cs =>
        obtain ⟨k, a⟩ := c
        rw [hl] at hi' c3
        dsimp only at hi' ⊢
        have hk : k ≠ h := by
          intro e; subst e; rw [of_cons_self] at c3; cases c3
        rw [of_cons_ne hk] at c3
        refine ih _ hi' x ?_ hw ⟨c1, c2, c3, c4⟩
        show (List.modify ..)[h]? = _
        rw [List.getElem?_modify, hx]
        show some (if k = h then _ else x) = _
        rw [if_neg hk]
    | resume i =>
      show ∃ x', (runs env (resume env s i) es).handlers[h]? = some x' ∧ _
      refine ih _ hi' x ?_ hw ⟨c1, c2, c3, c4⟩
      show (List.modify ..)[h]? = _
      rw [List.getElem?_modify, hx]
      show some (if i = h then resumed env x else x) = _
      by_cases hk : i = h
      · rw [if_pos hk]
        unfold resumed
        rw [if_pos hw, c4]
      · rw [if_neg hk]
    | change w => exact ih _ hi' x hx hw ⟨c1, c2, c3, c4⟩
    | stop => exact ih _ hi' x hx hw ⟨c1, c2, c3, c4⟩

/-- a system with one block, that answers with a number -/
def env1 : Env Nat Nat := ⟨fun _ m => decide (m = "B".toList), fun w r => match r.params with
  | none => (w, .ret w)
  | some v => (v, .ret (w + v)), fun t => if t = "5".toList then some 5 else none, fun v => some (toString v).toList⟩

/-- two requests that cross: each gets its own reply; one for no block and one without JSON get a 500 -/
example : (runs env1 { world := 7 } [.arrive "B/a".toList none, .arrive "B/f".toList (some "5".toList), .arrive "C/a".toList none,
    .arrive "B/f".toList (some "x".toList), .callback, .callback, .run 1, .run 0, .tick, .tick, .resume 1, .resume 0]).handlers.map
      (fun x => x.replies) = [[.ok "5\n".toList], [.ok "12\n".toList], [.failed none], [.failed none]] := by decide +kernel

/-- A request that has come in when the process is stopped is never replied to: the client waits for ever. -/
theorem stopped_never_replied : ∀ es : List (Event Nat), ∃ x,
    (runs env1 (runs env1 { world := 7 } [.arrive "B/a".toList none, .stop, .callback]) es).handlers[0]? = some x ∧ x.replies = [] ∧
      x.waiting = true := by
  intro es
  exact lost_for_ever env1 _ 0 (runs_inv env1 7 [.arrive "B/a".toList none, .stop, .callback])
    ⟨"B/a".toList, none, [], true, []⟩ rfl rfl ⟨rfl, rfl, rfl, rfl⟩ es

end Verif.Props.Rest
