import Verif.Spec.Deliver
/-! C115: subscribers are told everything, in order, whatever the others do. -/
namespace Verif.Props.Deliver
open Verif.Deliver Verif.Spec.Deliver
variable {V : Type}

theorem of_append (s : Nat) (a b : List (Nat × Nat × Msg V)) : of s (a ++ b) = of s a ++ of s b := by
  simp [of, List.filterMap_append]

theorem of_all {s t : Nat} {v : Msg V} (l : List Nat) (hn : l.Nodup) :
    of s (l.map (fun i => (t, i, v))) = if s ∈ l then [v] else [] := by
  induction l with
  | nil => simp [of]
  | cons a l ih =>
    rw [List.nodup_cons] at hn
    have h1 := ih hn.2
    unfold of at *
    simp only [List.map_cons, List.filterMap_cons, List.mem_cons]
    by_cases h : a = s
    · subst h
      rw [if_pos rfl, h1, if_neg hn.1]
      simp
    · rw [if_neg h, h1]
      have : s ≠ a := fun hc => h hc.symm
      simp [this]

/-- The subscriptions are distinct, and what has become of what was due -/
structure Inv (w : World V) : Prop where
  nodup : w.subs.Nodup
  told : ∀ s, (w.got s ++ of s w.left ++ w.missed s).Perm (w.due s)

theorem split_first {p : Nat × Nat × Msg V → Bool} {l : List (Nat × Nat × Msg V)} {x} (h : l.find? p = some x) :
    ∃ a b, l = a ++ x :: b ∧ l.eraseP p = a ++ b ∧ p x = true := by
  induction l with
  | nil => cases h
  | cons y l ih =>
    by_cases hy : p y = true
    · simp only [List.find?_cons, hy, Option.some.injEq] at h
      subst h
      exact ⟨[], l, rfl, by simp [List.eraseP_cons, hy], hy⟩
    · simp only [List.find?_cons, hy] at h
      obtain ⟨a, b, h1, h2, h3⟩ := ih h
      exact ⟨y :: a, b, by rw [h1]; rfl, by simp [List.eraseP_cons, hy, h2], h3⟩

theorem filter_parts (t i : Nat) (l : List (Nat × Nat × Msg V)) :
    (of i (l.filter (·.1 ≠ t)) ++ of i (l.filter (·.1 = t))).Perm (of i l) := by
  have : (l.filter (fun x => decide (x.1 = t)) ++ l.filter (fun x => !decide (x.1 = t))).Perm l := List.filter_append_perm _ _
  have h2 : (l.filter (·.1 ≠ t) ++ l.filter (·.1 = t)).Perm l := by
    refine (List.perm_append_comm).trans ?_
    simpa using this
  rw [← of_append]
  exact h2.filterMap _

theorem inv_call {w : World V} (h : Inv w) (t : Nat) (raises : Bool) : Inv (call w t raises) := by
  unfold call
  split
  · exact h
  · rename_i x s m hf
    obtain ⟨a, b, h1, h2, h3⟩ := split_first hf
    have key : ∀ i, ((if i = s then w.got i ++ [m] else w.got i) ++ of i (w.left.eraseP (·.1 = t)) ++ w.missed i).Perm (w.due i) := by
      intro i
      refine List.Perm.trans ?_ (h.told i)
      rw [h2, h1]
      apply List.Perm.append_right
      rw [of_append, of_append]
      by_cases hi : i = s
      · subst hi
        simp only [if_true]
        have : of i ((x, i, m) :: b) = m :: of i b := by simp [of]
        rw [this, List.append_assoc]
        apply List.Perm.append_left
        exact (List.perm_middle (l₁ := of i a) (a := m) (l₂ := of i b)).symm
      · rw [if_neg hi]
        have : of i ((x, s, m) :: b) = of i b := by simp [of, Ne.symm hi]
        rw [this]
    dsimp only
    split
    · refine ⟨h.nodup, fun i => ?_⟩
      refine List.Perm.trans ?_ (key i)
      dsimp only
      rw [List.append_assoc, List.append_assoc]
      apply List.Perm.append_left
      refine List.Perm.trans ?_ (List.Perm.append_right _ (filter_parts t i _))
      rw [List.append_assoc]
      apply List.Perm.append_left
      exact List.perm_append_comm
    · exact ⟨h.nodup, key⟩

theorem perm_add {g l m d : List (Msg V)} (x : Msg V) (h : (g ++ l ++ m).Perm d) : (g ++ ([x] ++ l) ++ m).Perm (d ++ [x]) := by
  have h1 : g ++ ([x] ++ l) ++ m = g ++ x :: (l ++ m) := by simp
  rw [h1]
  refine List.perm_middle.trans ?_
  have h2 : (x :: (g ++ (l ++ m))).Perm (x :: d) := List.Perm.cons x (by rw [← List.append_assoc]; exact h)
  exact h2.trans (List.perm_append_comm (l₁ := [x]) (l₂ := d))

theorem inv_step {w : World V} (h : Inv w) (e : Ev V) : Inv (step w e) := by
  cases e with
  | change t v =>
    refine ⟨h.nodup, fun s => ?_⟩
    show (w.got s ++ of s (w.subs.map (fun i => (t, i, Msg.update v)) ++ w.left) ++ w.missed s).Perm (if s ∈ w.subs then w.due s ++ [Msg.update v] else w.due s)
    rw [of_append, of_all _ h.nodup]
    split
    · exact perm_add _ (h.told s)
    · simpa using h.told s
  | subscribe t s =>
    unfold step
    dsimp only
    split
    · exact h
    · rename_i hs
      refine ⟨?_, fun i => ?_⟩
      · show (w.subs ++ [s]).Nodup
        rw [List.nodup_append]
        refine ⟨h.nodup, by simp, ?_⟩
        intro a ha b hb
        simp only [List.mem_singleton] at hb
        subst hb
        exact fun hc => hs (hc ▸ ha)
      · show (w.got i ++ of i ((t, s, .update w.cur) :: w.left) ++ w.missed i).Perm (if i = s then w.due i ++ [.update w.cur] else w.due i)
        by_cases hi : i = s
        · subst hi
          simp only [if_true]
          have : of i ((t, i, Msg.update w.cur) :: w.left) = [Msg.update w.cur] ++ of i w.left := by simp [of]
          rw [this]
          exact perm_add _ (h.told i)
        · rw [if_neg hi]
          have : of i ((t, s, Msg.update w.cur) :: w.left) = of i w.left := by simp [of, Ne.symm hi]
          rw [this]; exact h.told i
  | unsubscribe t s =>
    unfold step
    dsimp only
    split
    · refine ⟨h.nodup.erase _, fun i => ?_⟩
      show (w.got i ++ of i ((t, s, .ret) :: w.left) ++ w.missed i).Perm (if i = s then w.due i ++ [.ret] else w.due i)
      by_cases hi : i = s
      · subst hi
        simp only [if_true]
        have : of i ((t, i, Msg.ret) :: w.left) = [Msg.ret] ++ of i w.left := by simp [of]
        rw [this]
        exact perm_add _ (h.told i)
      · rw [if_neg hi]
        have : of i ((t, s, Msg.ret) :: w.left) = of i w.left := by simp [of, Ne.symm hi]
        rw [this]; exact h.told i
    · exact h
  | call t raises => exact inv_call h t raises

theorem inv_run (es : List (Ev V)) {w : World V} (h : Inv w) : Inv (run w es) := by
  induction es generalizing w with
  | nil => exact h
  | cons e es ih => exact ih (inv_step h e)

theorem inv_init (v0 : V) : Inv (init v0) := ⟨by simp [init], fun s => by simp [init, of]⟩

/-- what is due is what the specification says -/
theorem due_call (w : World V) (t : Nat) (r : Bool) : (call w t r).due = w.due ∧ (call w t r).subs = w.subs ∧ (call w t r).cur = w.cur := by
  unfold call
  split
  · exact ⟨rfl, rfl, rfl⟩
  · dsimp only; split <;> exact ⟨rfl, rfl, rfl⟩

theorem due_told (s : Nat) (es : List (Ev V)) (w : World V) (hn : w.subs.Nodup) :
    (run w es).due s = w.due s ++ Told s w.cur (decide (s ∈ w.subs)) es := by
  induction es generalizing w with
  | nil => simp [run, Told]
  | cons e es ih =>
    have hn' : (step w e).subs.Nodup := by
      cases e with
      | change t v => exact hn
      | subscribe t i =>
        unfold step; dsimp only; split
        · exact hn
        · rename_i hs
          show (w.subs ++ [i]).Nodup
          rw [List.nodup_append]
          refine ⟨hn, by simp, ?_⟩
          intro a ha b hb
          simp only [List.mem_singleton] at hb
          subst hb
          exact fun hc => hs (hc ▸ ha)
      | unsubscribe t i => unfold step; dsimp only; split; exact hn.erase _; exact hn
      | call t r => show (call w t r).subs.Nodup; rw [(due_call w t r).2.1]; exact hn
    show (run (step w e) es).due s = _
    rw [ih _ hn']
    cases e with
    | change t v =>
      simp only [Told]
      unfold step
      dsimp only
      by_cases h : s ∈ w.subs <;> simp [h]
    | subscribe t i =>
      simp only [Told]
      unfold step
      dsimp only
      by_cases hi : i = s
      · subst hi
        by_cases h : i ∈ w.subs <;> simp [h]
      · by_cases h : i ∈ w.subs
        · simp [h, hi]
        · have hne : s ≠ i := fun hc => hi hc.symm
          simp [h, hi, hne]
    | unsubscribe t i =>
      simp only [Told]
      unfold step
      dsimp only
      by_cases hi : i = s
      · subst hi
        by_cases h : i ∈ w.subs
        · have : i ∉ w.subs.erase i := fun hc => by
            rw [hn.mem_erase_iff] at hc; exact hc.1 rfl
          simp [h, this]
        · simp [h]
      · by_cases h : i ∈ w.subs
        · have hne : s ≠ i := fun hc => hi hc.symm
          have : s ∈ w.subs.erase i ↔ s ∈ w.subs := by rw [hn.mem_erase_iff]; simp [hne]
          simp [h, hi, hne, this]
        · simp [h, hi]
    | call t r =>
      show (call w t r).due s ++ Told s (call w t r).cur (decide (s ∈ (call w t r).subs)) es = _
      obtain ⟨h1, h2, h3⟩ := due_call w t r
      rw [h1, h2, h3]
      rfl

/-- C115: whatever threads change the field, wait in callbacks, subscribe and unsubscribe, and whichever callbacks raise: what a subscription should be
told, it is told once, or will be, or is lost to an exception. -/
theorem once_each (v0 : V) (es : List (Ev V)) (s : Nat) :
    ((run (init v0) es).got s ++ of s (run (init v0) es).left ++ (run (init v0) es).missed s).Perm (Told s v0 false es) := by
  have h := (inv_run es (inv_init v0)).told s
  rw [due_told s es (init v0) (by simp [init])] at h
  simpa [init] using h

theorem missed_fine (es : List (Ev V)) (w : World V) (hf : ∀ e ∈ es, Fine e) :
    (run w es).missed = w.missed ∧ (run w es).raised = w.raised := by
  induction es generalizing w with
  | nil => exact ⟨rfl, rfl⟩
  | cons e es ih =>
    have h1 := hf e List.mem_cons_self
    have h2 := ih (step w e) (fun x hx => hf x (List.mem_cons_of_mem _ hx))
    have h3 : (step w e).missed = w.missed ∧ (step w e).raised = w.raised := by
      cases e with
      | change t v => exact ⟨rfl, rfl⟩
      | subscribe t i => unfold step; dsimp only; split <;> exact ⟨rfl, rfl⟩
      | unsubscribe t i => unfold step; dsimp only; split <;> exact ⟨rfl, rfl⟩
      | call t r =>
        have hr : r = false := h1
        subst hr
        show (call w t false).missed = _ ∧ (call w t false).raised = _
        unfold call
        split
        · exact ⟨rfl, rfl⟩
        · exact ⟨rfl, rfl⟩
    show (run (step w e) es).missed = _ ∧ (run (step w e) es).raised = _
    rw [h2.1, h2.2]; exact h3

/-- C115, in part: if no callback raises then no subscription misses anything, and no change raises: once all callbacks have been made each has been told all
that it should, in some order. Missing: callbacks that raise (`starved`). -/
theorem all_told_partial (v0 : V) (es : List (Ev V)) (hf : ∀ e ∈ es, Fine e) (hq : (run (init v0) es).left = []) (s : Nat) :
    ((run (init v0) es).got s).Perm (Told s v0 false es) ∧ (run (init v0) es).raised = [] := by
  obtain ⟨h1, h2⟩ := missed_fine es (init v0) hf
  refine ⟨?_, by rw [h2]; rfl⟩
  have := once_each v0 es s
  rw [hq, h1] at this
  simpa [init, of] using this

/-! ### in order -/

/-- All that is left is left to one thread, and in order -/
structure Ord (w : World V) : Prop where
  one : ∃ t, ∀ x ∈ w.left, x.1 = t
  told : ∀ s, w.got s ++ of s w.left = w.due s
  nodup : w.subs.Nodup

theorem ord_call {w : World V} (h : Ord w) (t : Nat) : Ord (call w t false) := by
  unfold call
  split
  · exact h
  · rename_i x s m hf
    obtain ⟨t', ht'⟩ := h.one
    cases hl : w.left with
    | nil => rw [hl] at hf; cases hf
    | cons y l =>
      rw [hl] at hf ht'
      have hy := ht' y List.mem_cons_self
      have hyt : y.1 = t := by
        have := List.find?_some hf
        simp only [decide_eq_true_eq] at this
        have h2 := ht' _ (List.mem_of_find?_eq_some hf)
        rw [hy, ← h2]; exact this
      simp only [List.find?_cons, hyt, decide_true, Option.some.injEq] at hf
      subst hf
      have he : List.eraseP (fun y => decide (y.1 = t)) ((x, s, m) :: l) = l := by
        rw [List.eraseP_cons]
        simp only [show x = t from hyt, decide_true, cond_true]
      refine ⟨⟨t', ?_⟩, fun i => ?_, h.nodup⟩
      · simp only [Bool.false_eq_true, if_false]
        rw [he]
        exact fun z hz => ht' z (List.mem_cons_of_mem _ hz)
      · simp only [Bool.false_eq_true, if_false]
        rw [he]
        have ho := h.told i
        rw [hl] at ho
        rw [← ho]
        by_cases hi : i = s
        · subst hi
          simp [of]
        · simp [of, hi, Ne.symm hi]

theorem ord_step {w : World V} (h : Ord w) (e : Ev V) (hq : w.left = []) (hc : ∀ t r, e ≠ .call t r) : Ord (step w e) := by
  have hg : ∀ s, w.got s = w.due s := by intro s; have := h.told s; rw [hq] at this; simpa [of] using this
  cases e with
  | change t v =>
    refine ⟨⟨t, ?_⟩, fun s => ?_, h.nodup⟩
    · intro x hx
      have hx : x ∈ w.subs.map (fun s => (t, s, Msg.update v)) ++ w.left := hx
      rw [hq, List.append_nil, List.mem_map] at hx
      obtain ⟨s, _, hs⟩ := hx
      rw [← hs]
    · show w.got s ++ of s (w.subs.map (fun i => (t, i, Msg.update v)) ++ w.left) = if s ∈ w.subs then w.due s ++ [.update v] else w.due s
      rw [hq, List.append_nil, of_all _ h.nodup, hg]
      split <;> simp
  | subscribe t s =>
    unfold step; dsimp only; split
    · exact h
    · rename_i hs
      refine ⟨⟨t, ?_⟩, fun i => ?_, ?_⟩
      · intro x hx
        have hx : x ∈ (t, s, Msg.update w.cur) :: w.left := hx
        rw [hq, List.mem_singleton] at hx
        rw [hx]
      · show w.got i ++ of i ((t, s, Msg.update w.cur) :: w.left) = if i = s then w.due i ++ [.update w.cur] else w.due i
        rw [hq, hg]
        by_cases hi : i = s
        · simp [of, hi]
        · simp [of, hi, Ne.symm hi]
      · show (w.subs ++ [s]).Nodup
        rw [List.nodup_append]
        refine ⟨h.nodup, by simp, ?_⟩
        intro a ha b hb
        simp only [List.mem_singleton] at hb
        subst hb
        exact fun hc => hs (hc ▸ ha)
  | unsubscribe t s =>
    unfold step; dsimp only; split
    · refine ⟨⟨t, ?_⟩, fun i => ?_, h.nodup.erase _⟩
      · intro x hx
        have hx : x ∈ (t, s, Msg.ret) :: w.left := hx
        rw [hq, List.mem_singleton] at hx
        rw [hx]
      · show w.got i ++ of i ((t, s, Msg.ret) :: w.left) = if i = s then w.due i ++ [.ret] else w.due i
        rw [hq, hg]
        by_cases hi : i = s
        · simp [of, hi]
        · simp [of, hi, Ne.symm hi]
    · exact h
  | call t r => exact absurd rfl (hc t r)

theorem ord_run (es : List (Ev V)) {w : World V} (h : Ord w) (hc : Calm w es) (hf : ∀ e ∈ es, Fine e) : Ord (run w es) := by
  induction es generalizing w with
  | nil => exact h
  | cons e es ih =>
    have hf2 := fun x hx => hf x (List.mem_cons_of_mem e hx)
    have h1 := hf e List.mem_cons_self
    cases e with
    | call t r =>
      have hr : r = false := h1
      subst hr
      exact ih (ord_call h t) hc hf2
    | change t v => exact ih (ord_step h _ hc.1 (by simp)) hc.2 hf2
    | subscribe t s => exact ih (ord_step h _ hc.1 (by simp)) hc.2 hf2
    | unsubscribe t s => exact ih (ord_step h _ hc.1 (by simp)) hc.2 hf2

/-- C115, in part: if nothing is changed, subscribed or unsubscribed before what was before has been told, and no callback raises, then every subscription is
told what it should be, in order. Missing: changes while callbacks wait (`overtaken`, `after_the_end`) or by callbacks (`nested`), for which it is false. -/
theorem in_order_partial (v0 : V) (es : List (Ev V)) (hc : Calm (init v0) es) (hf : ∀ e ∈ es, Fine e) (s : Nat) :
    (run (init v0) es).got s <+: Told s v0 false es ∧
    ((run (init v0) es).left = [] → (run (init v0) es).got s = Told s v0 false es) := by
  have h0 : Ord (init v0) := ⟨⟨0, by simp [init]⟩, fun s => by simp [init, of], by simp [init]⟩
  have h := (ord_run es h0 hc hf).told s
  rw [due_told s es (init v0) (by simp [init])] at h
  have h' : (run (init v0) es).got s ++ of s (run (init v0) es).left = Told s v0 false es := by simpa [init] using h
  refine ⟨⟨_, h'⟩, fun hq => ?_⟩
  rw [hq] at h'
  simpa [of] using h'

/-- what is told last, to a subscription that goes on and to one that has ended -/
theorem due_last (s : Nat) : ∀ (es : List (Ev V)) (w : World V), w.subs.Nodup →
    (if s ∈ w.subs then (w.due s).getLast? = some (.update w.cur) else w.due s = [] ∨ (w.due s).getLast? = some .ret) →
    (if s ∈ (run w es).subs then ((run w es).due s).getLast? = some (.update (run w es).cur)
      else (run w es).due s = [] ∨ ((run w es).due s).getLast? = some .ret) := by
  intro es
  induction es with
  | nil => intro w _ h; exact h
  | cons e es ih =>
    intro w hn h
    refine ih (step w e) ?_ ?_
    · cases e with
      | change t v => exact hn
      | subscribe t i =>
        unfold step; dsimp only; split
        · exact hn
        · rename_i hs
          show (w.subs ++ [i]).Nodup
          rw [List.nodup_append]
          refine ⟨hn, by simp, ?_⟩
          intro a ha b hb
          simp only [List.mem_singleton] at hb
          subst hb
          exact fun hc => hs (hc ▸ ha)
      | unsubscribe t i => unfold step; dsimp only; split; exact hn.erase _; exact hn
      | call t r => show (call w t r).subs.Nodup; rw [(due_call w t r).2.1]; exact hn
    · cases e with
      | change t v =>
        unfold step
        dsimp only
        by_cases hs : s ∈ w.subs
        · simp [hs]
        · simpa [hs] using h
      | subscribe t i =>
        unfold step
        dsimp only
        split
        · exact h
        · rename_i hi
          by_cases hs : s = i
          · subst hs; simp
          · simpa [hs] using h
      | unsubscribe t i =>
        unfold step
        dsimp only
        split
        · rename_i hi
          by_cases hs : s = i
          · subst hs
            have : s ∉ w.subs.erase s := fun hc => by
              rw [hn.mem_erase_iff] at hc; exact hc.1 rfl
            simp [this]
          · have : s ∈ w.subs.erase i ↔ s ∈ w.subs := by rw [hn.mem_erase_iff]; simp [hs]
            simpa [hs, this] using h
        · exact h
      | call t r =>
        show if s ∈ (call w t r).subs then ((call w t r).due s).getLast? = some (.update (call w t r).cur)
          else (call w t r).due s = [] ∨ ((call w t r).due s).getLast? = some .ret
        obtain ⟨h1, h2, h3⟩ := due_call w t r
        rw [h1, h2, h3]; exact h

/-- C115, in part: under the same conditions, once all callbacks have been made the last that a subscription was told is the value of the field, or that it
has ended. -/
theorem shown_partial (v0 : V) (es : List (Ev V)) (hc : Calm (init v0) es) (hf : ∀ e ∈ es, Fine e) (hq : (run (init v0) es).left = []) (s : Nat) :
    (s ∈ (run (init v0) es).subs → ((run (init v0) es).got s).getLast? = some (.update (run (init v0) es).cur)) ∧
    (s ∉ (run (init v0) es).subs → (run (init v0) es).got s = [] ∨ ((run (init v0) es).got s).getLast? = some .ret) := by
  have h0 : Ord (init v0) := ⟨⟨0, by simp [init]⟩, fun s => by simp [init, of], by simp [init]⟩
  have ho := (ord_run es h0 hc hf).told s
  rw [hq] at ho
  have ho : (run (init v0) es).got s = (run (init v0) es).due s := by simpa [of] using ho
  rw [ho]
  have h := due_last s es (init v0) (by simp [init]) (by simp [init])
  constructor
  · intro hs; rw [if_pos hs] at h; exact h
  · intro hs; rw [if_neg hs] at h; exact h

-- two subscriptions, two changes by two threads one after the other, and one subscription ended
example :
    let es : List (Ev Nat) := [.subscribe 0 1, .call 0 false, .subscribe 0 2, .call 0 false, .change 1 5, .call 1 false, .call 1 false,
      .change 2 6, .call 2 false, .call 2 false, .unsubscribe 0 1, .call 0 false]
    (run (init 0) es).got 1 = [.update 0, .update 5, .update 6, .ret] ∧ (run (init 0) es).got 2 = [.update 0, .update 5, .update 6] ∧
    (run (init 0) es).left = [] := by decide

example : Calm (init 0) [Ev.subscribe 0 1, .call 0 false, .change 1 5, .call 1 false] ∧ (∀ e ∈ [Ev.subscribe 0 1, .call 0 false, .change 1 5, .call 1 false], Fine e) := by
  refine ⟨⟨rfl, ?_⟩, ?_⟩
  · exact ⟨by decide, trivial⟩
  · intro e he
    simp only [List.mem_cons, List.not_mem_nil, or_false] at he
    rcases he with rfl | rfl | rfl | rfl <;> simp [Fine]

/-! ### what can go wrong -/

/-- two subscriptions -/
def two : List (Ev Nat) := [.subscribe 0 1, .call 0 false, .subscribe 0 2, .call 0 false]

/-- Disagreement with C115: the callback of the first subscription waits; meanwhile another thread changes the field and tells both; then the second
subscription is told of the change before. All is told, and it shows an old value. -/
theorem overtaken :
    let w := run (init 0) (two ++ [.change 1 5, .call 1 false, .change 2 6, .call 2 false, .call 2 false, .call 1 false])
    w.left = [] ∧ w.cur = 6 ∧ 2 ∈ w.subs ∧ w.got 2 = [.update 0, .update 6, .update 5] := by decide

/-- Disagreement with C115: no second thread is needed: a callback that changes the field in which it is told of a change makes every subscription after it show an
old value. -/
theorem nested :
    let w := run (init 0) (two ++ [.change 1 5, .call 1 false, .change 1 6, .call 1 false, .call 1 false, .call 1 false])
    w.left = [] ∧ w.cur = 6 ∧ 2 ∈ w.subs ∧ w.got 2 = [.update 0, .update 6, .update 5] := by decide

/-- Disagreement with C115: a subscription is told of a change after it was told that it has ended. -/
theorem after_the_end :
    let w := run (init 0) (two ++ [.change 1 5, .call 1 false, .unsubscribe 2 2, .call 2 false, .call 1 false])
    w.left = [] ∧ w.got 2 = [.update 0, .ret, .update 5] := by decide

/-- Disagreement with C115: the callback of one subscription raises; the others are never told of the change, and whoever made it gets the exception. -/
theorem starved :
    let w := run (init 0) (two ++ [.change 1 5, .call 1 true])
    w.left = [] ∧ w.cur = 5 ∧ 2 ∈ w.subs ∧ w.got 2 = [.update 0] ∧ w.missed 2 = [.update 5] ∧ w.raised = [1] := by decide

end Verif.Props.Deliver
