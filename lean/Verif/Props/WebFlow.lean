import Verif.Spec.WebFlow
/-!
C109: every change of a block is told to every subscription of a web client once and in order, every response is sent, and whoever
hands one over is not held up for ever.
-/
namespace Verif.Props.WebFlow
open Verif.WebFlow Verif.Spec.WebFlow

/-! ### What one step does -/

theorem conns_upd (w : World) (c d : Nat) (f : Conn → Conn) :
    (w.upd c f).conns d = if d = c then f (w.conns d) else w.conns d := rfl

theorem conns_push (w : World) (m : Msg) (d : Nat) : (push w m).conns d
    = if d = m.conn then { w.conns d with counter := (w.conns d).counter + 1 } else w.conns d := rfl

theorem told_append (s : Nat) (a b : List Msg) : told s (a ++ b) = told s a ++ told s b := by
  simp [told, List.filterMap_append]

theorem unfit_append (c : Nat) (a b : List Msg) : unfit c (a ++ b) = unfit c a + unfit c b := by simp [unfit, of]

theorem of_append (c : Nat) (a b : List Msg) : of c (a ++ b) = of c a ++ of c b := by simp [of]

/-- What the waiting threads still need of a connection -/
def needs (c : Nat) : List Held → Nat
  | [] => 0
  | h :: hs => (if h.conn = c then h.need else 0) + needs c hs

theorem needs_append (c : Nat) (a b : List Held) : needs c (a ++ b) = needs c a + needs c b := by
  induction a with
  | nil => simp [needs]
  | cons h a ih => simp only [List.cons_append, needs, ih]; omega

theorem needs_eraseIdx (c : Nat) : ∀ (l : List Held) (i : Nat) (h : Held), l[i]? = some h →
    needs c l = needs c (l.eraseIdx i) + (if h.conn = c then h.need else 0)
  | [], i, h, e => by simp at e
  | x :: l, 0, h, e => by
    simp at e; subst e; simp only [List.eraseIdx_cons_zero, needs]; omega
  | x :: l, i + 1, h, e => by
    simp at e
    have := needs_eraseIdx c l i h e
    simp only [List.eraseIdx_cons_succ, needs, this]; omega

theorem needs_set (c : Nat) (g : Held) : ∀ (l : List Held) (i : Nat) (h : Held), l[i]? = some h →
    needs c (l.set i g) + (if h.conn = c then h.need else 0) = needs c l + (if g.conn = c then g.need else 0)
  | [], i, h, e => by simp at e
  | x :: l, 0, h, e => by
    simp at e; subst e; simp only [List.set_cons_zero, needs]; omega
  | x :: l, i + 1, h, e => by
    simp at e
    have := needs_set c g l i h e
    simp only [List.set_cons_succ, needs]; omega

theorem needs_zero_iff (c : Nat) : ∀ (l : List Held), (∀ h ∈ l, 1 ≤ h.need) → (needs c l = 0 ↔ ∀ h ∈ l, h.conn ≠ c)
  | [], _ => by simp [needs]
  | x :: l, p => by
    have ih := needs_zero_iff c l (fun h m => p h (List.mem_cons_of_mem _ m))
    have px := p x (List.mem_cons_self ..)
    simp only [needs, Nat.add_eq_zero_iff, ih, List.forall_mem_cons]
    refine and_congr ?_ Iff.rfl
    by_cases hx : x.conn = c <;> simp [hx]; omega

/-- The books of a connection balance, and what is known of the messages -/
structure Inv (w : World) : Prop where
  books : ∀ c, (w.conns c).counter + needs c w.held
    = (of c w.todo).length + (w.conns c).tokens + (w.conns c).lost + 10 * ((w.conns c).counter / 10)
  need : ∀ h ∈ w.held, 1 ≤ h.need ∧ h.need ≤ 10
  counted : ∀ c, (w.conns c).counter = (of c w.handed).length
  sent : ∀ c, (w.conns c).alive = true → (of c w.handed).filter (·.ok) = (w.conns c).written ++ (of c w.todo).filter (·.ok)
  start : ∀ c, ∃ r, (of c w.handed).filter (·.ok) = (w.conns c).written ++ r
  threads : (w.held.map (·.thread)).Nodup
  known : ∀ m ∈ w.todo, m ∈ w.handed
  lost : ∀ c, unfit c w.handed = (w.conns c).lost + unfit c w.todo

theorem inv_init (subs : List Nat) : Inv (init subs) := by
  constructor <;> simp [init, needs, of, unfit]

theorem inv_push {w : World} (v : Inv w) (m : Msg)
    (k : (w.conns m.conn).counter % 10 ≠ 9) : Inv (push w m) := by
  constructor
  · intro c
    have b := v.books c
    simp only [conns_push]
    by_cases e : c = m.conn
    · subst e
      simp only [if_true]
      show _ + 1 + needs _ w.held = (of _ (w.todo ++ [m])).length + _ + _ + _
      rw [of_append, List.length_append, show (of m.conn [m]).length = 1 by simp [of]]
      omega
    · simp only [if_neg e]
      show _ + needs _ w.held = (of _ (w.todo ++ [m])).length + _ + _ + _
      rw [of_append, List.length_append, show (of c [m]).length = 0 by simp [of, Ne.symm e]]
      omega
  · exact v.need
  · intro c
    have b := v.counted c
    simp only [conns_push]
    show _ = (of c (w.handed ++ [m])).length
    rw [of_append, List.length_append]
    by_cases e : c = m.conn
    · subst e; simp [of] at b ⊢; omega
    · simp [e, b]; simp [of, Ne.symm e]
  · intro c a
    have a' : (w.conns c).alive = true := by
      rw [conns_push] at a; split at a <;> exact a
    have b := v.sent c a'
    have e : ((push w m).conns c).written = (w.conns c).written := by rw [conns_push]; split <;> rfl
    rw [e]
    show (of c (w.handed ++ [m])).filter _ = _ ++ (of c (w.todo ++ [m])).filter _
    rw [of_append, of_append, List.filter_append, List.filter_append, b, List.append_assoc]
  · intro c
    obtain ⟨r, hr⟩ := v.start c
    have e : ((push w m).conns c).written = (w.conns c).written := by rw [conns_push]; split <;> rfl
    refine ⟨r ++ (of c [m]).filter (·.ok), ?_⟩
    rw [e]
    show (of c (w.handed ++ [m])).filter _ = _
    rw [of_append, List.filter_append, hr, List.append_assoc]
  · exact v.threads
  · intro x hx
    show x ∈ w.handed ++ [m]
    rcases List.mem_append.mp (show x ∈ w.todo ++ [m] from hx) with h | h
    · exact List.mem_append_left _ (v.known x h)
    · exact List.mem_append_right _ h
  · intro c
    have b := v.lost c
    have e : ((push w m).conns c).lost = (w.conns c).lost := by rw [conns_push]; split <;> rfl
    show unfit c (w.handed ++ [m]) = ((push w m).conns c).lost + unfit c (w.todo ++ [m])
    rw [unfit_append, unfit_append, e]; omega

/-- What is different when the caller has to wait -/
theorem inv_push_wait {w : World} (v : Inv w) (m : Msg) (t : Nat) (ms : List Msg)
    (k : (w.conns m.conn).counter % 10 = 9) (f : ∀ h ∈ w.held, h.thread ≠ t) :
    Inv { push w m with held := (push w m).held ++ [⟨t, m.conn, 10, ms⟩] } := by
  constructor
  · intro c
    have b := v.books c
    show ((push w m).conns c).counter + needs c (w.held ++ [⟨t, m.conn, 10, ms⟩])
      = (of c (w.todo ++ [m])).length + ((push w m).conns c).tokens + ((push w m).conns c).lost
        + 10 * (((push w m).conns c).counter / 10)
    rw [needs_append, of_append, List.length_append, conns_push]
    by_cases e : c = m.conn
    · subst e
      rw [show (of m.conn [m]).length = 1 by simp [of]]
      simp only [needs, if_true]
      omega
    · rw [show (of c [m]).length = 0 by simp [of, Ne.symm e]]
      simp only [needs, if_neg e, if_neg (Ne.symm e)]
      omega
  · intro h hh
    rcases List.mem_append.mp hh with hh | hh
    · exact v.need h hh
    · simp at hh; subst hh; simp
  · intro c
    have b := v.counted c
    show ((push w m).conns c).counter = (of c (w.handed ++ [m])).length
    rw [conns_push, of_append, List.length_append]
    by_cases e : c = m.conn
    · subst e; simp [of] at b ⊢; omega
    · simp [e, b]; simp [of, Ne.symm e]
  · intro c a
    have a' : (w.conns c).alive = true := by
      change ((push w m).conns c).alive = true at a
      rw [conns_push] at a; split at a <;> exact a
    have b := v.sent c a'
    have e : ((push w m).conns c).written = (w.conns c).written := by rw [conns_push]; split <;> rfl
    show (of c (w.handed ++ [m])).filter _ = ((push w m).conns c).written ++ (of c (w.todo ++ [m])).filter _
    rw [e, of_append, of_append, List.filter_append, List.filter_append, b, List.append_assoc]
  · intro c
    obtain ⟨r, hr⟩ := v.start c
    have e : ((push w m).conns c).written = (w.conns c).written := by rw [conns_push]; split <;> rfl
    refine ⟨r ++ (of c [m]).filter (·.ok), ?_⟩
    show (of c (w.handed ++ [m])).filter _ = ((push w m).conns c).written ++ _
    rw [e, of_append, List.filter_append, hr, List.append_assoc]
  · show ((w.held ++ [(⟨t, m.conn, 10, ms⟩ : Held)]).map (·.thread)).Nodup
    rw [List.map_append, List.nodup_append]
    refine ⟨v.threads, by simp, ?_⟩
    intro a ha b hb
    simp at hb; subst hb
    obtain ⟨h, hh, rfl⟩ := List.mem_map.mp ha
    exact f h hh
  · intro x hx
    show x ∈ w.handed ++ [m]
    rcases List.mem_append.mp (show x ∈ w.todo ++ [m] from hx) with h | h
    · exact List.mem_append_left _ (v.known x h)
    · exact List.mem_append_right _ h
  · intro c
    have b := v.lost c
    have e : ((push w m).conns c).lost = (w.conns c).lost := by rw [conns_push]; split <;> rfl
    show unfit c (w.handed ++ [m]) = ((push w m).conns c).lost + unfit c (w.todo ++ [m])
    rw [unfit_append, unfit_append, e]; omega

theorem count_push (w : World) (m : Msg) :
    ((push w m).conns m.conn).counter = (w.conns m.conn).counter + 1 := by rw [conns_push]; simp

theorem inv_handOver (t : Nat) : ∀ (ms : List Msg) (w : World), Inv w → (∀ h ∈ w.held, h.thread ≠ t) → Inv (handOver w t ms)
  | [], _, v, _ => v
  | m :: ms, w, v, f => by
    rw [handOver, count_push]
    split
    · exact inv_push_wait v m t ms (by omega) f
    · exact inv_handOver t ms _ (inv_push v m (by omega)) f

theorem free_of {w : World} {t : Nat} (h : ¬ w.held.any (·.thread = t) = true) : ∀ x ∈ w.held, x.thread ≠ t := by
  intro x hx e
  exact h (List.any_eq_true.mpr ⟨x, hx, by simpa using e⟩)

theorem inv_ver {w : World} (v : Inv w) (n : Nat) : Inv { w with ver := n } :=
  ⟨v.books, v.need, v.counted, v.sent, v.start, v.threads, v.known, v.lost⟩

theorem nodup_erase_ne {α β : Type} (f : α → β) : ∀ (l : List α) (i : Nat) (h : α), l[i]? = some h → (l.map f).Nodup →
    ((l.eraseIdx i).map f).Nodup ∧ ∀ x ∈ l.eraseIdx i, f x ≠ f h
  | [], i, h, e, _ => by simp at e
  | x :: l, 0, h, e, n => by
    simp at e; subst e
    rw [List.map_cons, List.nodup_cons] at n
    refine ⟨n.2, fun y hy c => n.1 (List.mem_map.mpr ⟨y, hy, c⟩)⟩
  | x :: l, i + 1, h, e, n => by
    simp at e
    rw [List.map_cons, List.nodup_cons] at n
    obtain ⟨a, b⟩ := nodup_erase_ne f l i h e n.2
    rw [List.eraseIdx_cons_succ, List.map_cons, List.nodup_cons]
    refine ⟨⟨fun c => ?_, a⟩, ?_⟩
    · obtain ⟨y, hy, hc⟩ := List.mem_map.mp c
      exact n.1 (List.mem_map.mpr ⟨y, List.mem_of_mem_eraseIdx hy, hc⟩)
    · intro y hy
      rcases List.mem_cons.mp hy with rfl | hy
      · intro c
        exact n.1 (List.mem_map.mpr ⟨h, List.mem_of_getElem? e, c.symm⟩)
      · exact b y hy

theorem map_set_same {α β : Type} (f : α → β) : ∀ (l : List α) (i : Nat) (h g : α), l[i]? = some h → f g = f h →
    (l.set i g).map f = l.map f
  | [], i, h, g, e, _ => by simp at e
  | x :: l, 0, h, g, e, k => by simp at e; subst e; simp [k]
  | x :: l, i + 1, h, g, e, k => by
    simp at e
    simp [map_set_same f l i h g e k]

theorem mem_set {α : Type} : ∀ (l : List α) (i : Nat) (g x : α), x ∈ l.set i g → x ∈ l ∨ x = g := by
  intro l i g x hx
  exact List.mem_or_eq_of_mem_set hx

theorem inv_tok {w : World} (v : Inv w) {i : Nat} {h : Held} (e : w.held[i]? = some h) (tk : (w.conns h.conn).tokens ≠ 0) :
    (h.need ≤ 1 → Inv { spend w h.conn with held := w.held.eraseIdx i }) ∧
    (1 < h.need → Inv { spend w h.conn with
      held := w.held.set i { h with need := h.need - 1 } }) := by
  have hn := v.need h (List.mem_of_getElem? e)
  have same : ∀ c, ((spend w h.conn).conns c).counter = (w.conns c).counter ∧
      ((spend w h.conn).conns c).lost = (w.conns c).lost ∧
      ((spend w h.conn).conns c).written = (w.conns c).written ∧
      ((spend w h.conn).conns c).alive = (w.conns c).alive := by
    intro c; rw [spend, conns_upd]; split <;> simp
  have tok : ∀ c, ((spend w h.conn).conns c).tokens
      = (w.conns c).tokens - (if h.conn = c then 1 else 0) := by
    intro c; rw [spend, conns_upd]
    by_cases k : c = h.conn
    · subst k; simp
    · simp [k, Ne.symm k]
  constructor
  · intro n1
    constructor
    · intro c
      have b := v.books c
      have q := needs_eraseIdx c w.held i h e
      obtain ⟨s1, s2, -, -⟩ := same c
      have s3 := tok c
      show ((spend w h.conn).conns c).counter + needs c (w.held.eraseIdx i) = (of c w.todo).length
        + ((spend w h.conn).conns c).tokens + ((spend w h.conn).conns c).lost + 10 * (((spend w h.conn).conns c).counter / 10)
      rw [s1, s2, s3]
      by_cases k : h.conn = c
      · subst k; simp at q ⊢; omega
      · simp [k] at q ⊢; omega
    · intro x hx; exact v.need x (List.mem_of_mem_eraseIdx hx)
    · intro c; have := (same c).1; show ((spend w h.conn).conns c).counter = _; rw [this]; exact v.counted c
    · intro c a
      have k := same c
      show _ = ((spend w h.conn).conns c).written ++ _
      rw [k.2.2.1]
      exact v.sent c (k.2.2.2 ▸ a)
    · intro c
      show ∃ r, _ = ((spend w h.conn).conns c).written ++ r
      rw [(same c).2.2.1]; exact v.start c
    · exact (nodup_erase_ne _ w.held i h e v.threads).1
    · exact v.known
    · intro c
      have k := (same c).2.1
      show _ = ((spend w h.conn).conns c).lost + _
      rw [k]; exact v.lost c
  · intro n1
    constructor
    · intro c
      have b := v.books c
      have q := needs_set c { h with need := h.need - 1 } w.held i h e
      obtain ⟨s1, s2, -, -⟩ := same c
      have s3 := tok c
      show ((spend w h.conn).conns c).counter + needs c (w.held.set i _) = (of c w.todo).length
        + ((spend w h.conn).conns c).tokens + ((spend w h.conn).conns c).lost + 10 * (((spend w h.conn).conns c).counter / 10)
      rw [s1, s2, s3]
      by_cases k : h.conn = c
      · subst k; simp at q ⊢; omega
      · simp [k] at q ⊢; omega
    · intro x hx
      rcases mem_set _ _ _ _ hx with hx | rfl
      · exact v.need x hx
      · simp only; omega
    · intro c; have := (same c).1; show ((spend w h.conn).conns c).counter = _; rw [this]; exact v.counted c
    · intro c a
      have k := same c
      show _ = ((spend w h.conn).conns c).written ++ _
      rw [k.2.2.1]
      exact v.sent c (k.2.2.2 ▸ a)
    · intro c
      show ∃ r, _ = ((spend w h.conn).conns c).written ++ r
      rw [(same c).2.2.1]; exact v.start c
    · show ((w.held.set i _).map _).Nodup
      rw [map_set_same (·.thread) w.held i h { h with need := h.need - 1 } e rfl]; exact v.threads
    · exact v.known
    · intro c
      have k := (same c).2.1
      show _ = ((spend w h.conn).conns c).lost + _
      rw [k]; exact v.lost c

theorem of_cons (c : Nat) (m : Msg) (l : List Msg) : of c (m :: l) = if m.conn = c then m :: of c l else of c l := by
  simp [of, List.filter_cons]

theorem inv_work {w : World} (v : Inv w) {m : Msg} {ms : List Msg} (e : w.todo = m :: ms) :
    Inv { w.upd m.conn (write · m) with todo := ms } := by
  have cn : ∀ c, ((w.upd m.conn (write · m)).conns c).counter = (w.conns c).counter := by
    intro c; rw [conns_upd]; split
    · unfold write; split <;> rfl
    · rfl
  have al : ∀ c, ((w.upd m.conn (write · m)).conns c).alive = (w.conns c).alive := by
    intro c; rw [conns_upd]; split
    · unfold write; split <;> rfl
    · rfl
  constructor
  · intro c
    have b := v.books c
    rw [e, of_cons] at b
    show ((w.upd m.conn (write · m)).conns c).counter + needs c w.held = (of c ms).length
        + ((w.upd m.conn (write · m)).conns c).tokens + ((w.upd m.conn (write · m)).conns c).lost
        + 10 * (((w.upd m.conn (write · m)).conns c).counter / 10)
    rw [cn, conns_upd]
    by_cases k : c = m.conn
    · subst k
      simp only [if_true, List.length_cons] at b ⊢
      by_cases o : m.ok
      · simp only [write, o, if_true]; omega
      · simp only [write, o]; simp; omega
    · simp only [if_neg k, if_neg (Ne.symm k)] at b ⊢; omega
  · exact v.need
  · intro c; show ((w.upd m.conn (write · m)).conns c).counter = _; rw [cn]; exact v.counted c
  · intro c a
    change ((w.upd m.conn (write · m)).conns c).alive = true at a
    rw [al] at a
    have b := v.sent c a
    rw [e, of_cons] at b
    show (of c w.handed).filter _ = ((w.upd m.conn (write · m)).conns c).written ++ (of c ms).filter _
    rw [b, conns_upd]
    by_cases k : c = m.conn
    · subst k
      by_cases o : m.ok
      · simp [write, o, a]
      · simp [write, o]
    · simp [k, Ne.symm k]
  · intro c
    show ∃ r, (of c w.handed).filter _ = ((w.upd m.conn (write · m)).conns c).written ++ r
    rw [conns_upd]
    by_cases k : c = m.conn
    · subst k
      simp only [if_true]
      by_cases o : m.ok
      · by_cases a : (w.conns m.conn).alive
        · have b := v.sent _ a
          rw [e, of_cons] at b
          exact ⟨(of m.conn ms).filter (·.ok), by rw [b]; simp [write, o, a]⟩
        · simpa [write, o, a] using v.start m.conn
      · simpa [write, o] using v.start m.conn
    · simpa [k] using v.start c
  · exact v.threads
  · intro x hx; exact v.known x (by rw [e]; exact List.mem_cons_of_mem _ hx)
  · intro c
    have b := v.lost c
    rw [e] at b
    show unfit c w.handed = ((w.upd m.conn (write · m)).conns c).lost + unfit c ms
    rw [b, conns_upd]
    by_cases k : c = m.conn
    · subst k
      by_cases o : m.ok
      · simp [write, o, unfit, of_cons]
      · simp [write, o, unfit, of_cons]; omega
    · simp [k, Ne.symm k, unfit, of_cons]

theorem inv_close {w : World} (v : Inv w) (c : Nat) : Inv (w.upd c (fun x => { x with alive := false })) := by
  have same : ∀ d, ((w.upd c (fun x => { x with alive := false })).conns d).counter = (w.conns d).counter ∧
      ((w.upd c (fun x => { x with alive := false })).conns d).lost = (w.conns d).lost ∧
      ((w.upd c (fun x => { x with alive := false })).conns d).written = (w.conns d).written ∧
      ((w.upd c (fun x => { x with alive := false })).conns d).tokens = (w.conns d).tokens ∧
      (((w.upd c (fun x => { x with alive := false })).conns d).alive = true → (w.conns d).alive = true) := by
    intro d; rw [conns_upd]; split <;> simp
  constructor
  · intro d
    obtain ⟨s1, s2, s3, s4, -⟩ := same d
    rw [s1, s2, s4]; exact v.books d
  · exact v.need
  · intro d; rw [(same d).1]; exact v.counted d
  · intro d a; rw [(same d).2.2.1]; exact v.sent d ((same d).2.2.2.2 a)
  · intro d; rw [(same d).2.2.1]; exact v.start d
  · exact v.threads
  · exact v.known
  · intro d; rw [(same d).2.1]; exact v.lost d

theorem inv_step {w : World} (v : Inv w) (e : Ev) : Inv (step w e) := by
  cases e with
  | change t bad =>
    rw [step]; split
    · exact v
    · rename_i f; exact inv_handOver t _ _ (inv_ver v _) (free_of f)
  | answer t c ok =>
    rw [step]; split
    · exact v
    · rename_i f; exact inv_handOver t _ _ v (free_of f)
  | work =>
    rw [step]; split
    · exact v
    · rename_i e; exact inv_work v e
  | take i =>
    rw [step, take]; split
    · exact v
    · rename_i h e
      split
      · exact v
      · rename_i tk
        split
        · rename_i n
          exact inv_handOver _ _ _ ((inv_tok v e tk).1 n) (nodup_erase_ne (·.thread) w.held i h e v.threads).2
        · exact (inv_tok v e tk).2 (by omega)
  | close c => exact inv_close v c

theorem inv_run : ∀ (es : List Ev) (w : World), Inv w → Inv (run w es)
  | [], _, v => v
  | e :: es, w, v => inv_run es _ (inv_step v e)

theorem reach (subs : List Nat) (es : List Ev) : Inv (run (init subs) es) := inv_run es _ (inv_init subs)

/-! ### Sending -/

/-- What a client gets is what was handed over, in order and without a hole but for what cannot be made into JSON -/
theorem in_order (subs : List Nat) (es : List Ev) (c : Nat) :
    ((run (init subs) es).conns c).written <+: (of c (run (init subs) es).handed).filter (·.ok) := by
  obtain ⟨r, h⟩ := (reach subs es).start c
  exact ⟨r, h.symm⟩

/-- While the client is there, all that was handed over has been written, but for what the loop still has to do -/
theorem all_sent (subs : List Nat) (es : List Ev) (c : Nat) (a : ((run (init subs) es).conns c).alive = true) :
    (of c (run (init subs) es).handed).filter (·.ok)
      = ((run (init subs) es).conns c).written ++ (of c (run (init subs) es).todo).filter (·.ok) :=
  (reach subs es).sent c a

theorem needs_le (c : Nat) : ∀ (l : List Held), (∀ h ∈ l, h.need ≤ 10) → needs c l ≤ 10 * (l.filter (·.conn = c)).length
  | [], _ => by simp [needs]
  | x :: l, p => by
    have ih := needs_le c l (fun h m => p h (List.mem_cons_of_mem _ m))
    have px := p x (List.mem_cons_self ..)
    by_cases k : x.conn = c
    · simp [needs, k]; omega
    · simp [needs, k]; exact ih

/-- At most nine and ten for each thread that waits are left to write for a connection -/
theorem backlog (subs : List Nat) (es : List Ev) (c : Nat) :
    (of c (run (init subs) es).todo).length
      ≤ 9 + 10 * ((run (init subs) es).held.filter (·.conn = c)).length := by
  have v := reach subs es
  have b := v.books c
  have n := needs_le c (run (init subs) es).held (fun h m => (v.need h m).2)
  omega

/-- Each thread waits for one thing -/
theorem one_each (subs : List Nat) (es : List Ev) : ((run (init subs) es).held.map (·.thread)).Nodup := (reach subs es).threads

/-- When nothing is left to do for a connection, somebody is still held up just if more than the rest were lost -/
theorem held_iff (subs : List Nat) (es : List Ev) (c : Nat) (q : Quiet (run (init subs) es) c) :
    HeldAt (run (init subs) es) c ↔
      (of c (run (init subs) es).handed).length % 10 < unfit c (run (init subs) es).handed := by
  have v := reach subs es
  have b := v.books c
  have k := v.counted c
  have l := v.lost c
  have z := needs_zero_iff c (run (init subs) es).held (fun h m => (v.need h m).1)
  obtain ⟨t, tk⟩ := q
  rw [unfit, unfit, t] at l
  rw [t] at b
  rw [← k, unfit, l]
  simp only [List.length_nil, List.filter_nil] at b ⊢
  by_cases h : HeldAt (run (init subs) es) c
  · have : needs c (run (init subs) es).held ≠ 0 := by
      rw [Ne, z]; intro a; obtain ⟨x, hx, e⟩ := h; exact a x hx e
    have tz : ((run (init subs) es).conns c).tokens = 0 := by
      rcases tk with tk | tk
      · exact tk
      · exact absurd h tk
    simp only [h, true_iff]; omega
  · have : needs c (run (init subs) es).held = 0 := by
      rw [z]; intro x hx e; exact h ⟨x, hx, e⟩
    simp only [h, false_iff]; omega

/-! ### Nobody is held up for ever -/

theorem due_push (w : World) (m : Msg) : due (push w m) = due w + 1 := by
  show (w.todo ++ [m]).length + _ = _
  simp only [due, List.length_append, List.length_singleton]
  show _ + (w.held.map _).sum = _
  omega

theorem due_handOver (t : Nat) : ∀ (ms : List Msg) (w : World), due (handOver w t ms) ≤ due w + 11 * ms.length
  | [], w => by simp [handOver]
  | m :: ms, w => by
    have p := due_push w m
    rw [handOver]
    split
    · have : due { push w m with held := (push w m).held ++ [⟨t, m.conn, 10, ms⟩] } = due (push w m) + (10 + 11 * ms.length) := by
        simp only [due, List.map_append, List.sum_append, List.map_cons, List.map_nil, List.sum_cons, List.sum_nil]; omega
      refine Nat.le_trans (Nat.le_of_eq this) ?_
      simp only [List.length_cons]; omega
    · have := due_handOver t ms (push w m)
      simp only [List.length_cons]; omega

theorem sum_eraseIdx (f : Held → Nat) : ∀ (l : List Held) (i : Nat) (h : Held), l[i]? = some h →
    (l.map f).sum = ((l.eraseIdx i).map f).sum + f h
  | [], i, h, e => by simp at e
  | x :: l, 0, h, e => by simp at e; subst e; simp; omega
  | x :: l, i + 1, h, e => by
    simp at e
    have := sum_eraseIdx f l i h e
    simp [this]; omega

theorem sum_set (f : Held → Nat) (g : Held) : ∀ (l : List Held) (i : Nat) (h : Held), l[i]? = some h →
    ((l.set i g).map f).sum + f h = (l.map f).sum + f g
  | [], i, h, e => by simp at e
  | x :: l, 0, h, e => by simp at e; subst e; simp; omega
  | x :: l, i + 1, h, e => by
    simp at e
    have := sum_set f g l i h e
    simp only [List.set_cons_succ, List.map_cons, List.sum_cons]; omega

theorem less_take {w : World} (v : Inv w) {i : Nat} {h : Held} (e : w.held[i]? = some h) (tk : (w.conns h.conn).tokens ≠ 0) :
    due (take w i) < due w := by
  have hn := v.need h (List.mem_of_getElem? e)
  rw [take, e]
  simp only [if_neg tk]
  split
  · have a := due_handOver h.thread h.rest { spend w h.conn with held := w.held.eraseIdx i }
    have b := sum_eraseIdx (fun h => h.need + 11 * h.rest.length) w.held i h e
    have c : due { spend w h.conn with held := w.held.eraseIdx i }
        = w.todo.length + ((w.held.eraseIdx i).map (fun h => h.need + 11 * h.rest.length)).sum := rfl
    simp only [due] at a b c ⊢
    omega
  · have b := sum_set (fun h => h.need + 11 * h.rest.length) { h with need := h.need - 1 } w.held i h e
    have c : due { spend w h.conn with held := w.held.set i { h with need := h.need - 1 } }
        = w.todo.length + ((w.held.set i { h with need := h.need - 1 }).map (fun h => h.need + 11 * h.rest.length)).sum := rfl
    rw [c, due]
    simp only [] at b
    omega

theorem less_work {w : World} {m : Msg} {ms : List Msg} (e : w.todo = m :: ms) : due (step w .work) < due w := by
  rw [step, e]
  simp only [due, e]
  show ms.length + (w.held.map _).sum < _
  simp only [List.length_cons]; omega

/-- Whatever the server or a waiting thread does next, if it does anything, less is left to do -/
theorem less_left (subs : List Nat) (es : List Ev) (e : Ev) (f : Forward e) :
    step (run (init subs) es) e = run (init subs) es ∨ due (step (run (init subs) es) e) < due (run (init subs) es) := by
  have v := reach subs es
  revert v
  generalize run (init subs) es = w
  intro v
  cases e with
  | change t b => exact absurd f (by simp [Forward])
  | answer t c o => exact absurd f (by simp [Forward])
  | close c => exact absurd f (by simp [Forward])
  | work =>
    cases h : w.todo with
    | nil => left; rw [step, h]
    | cons m ms => right; exact less_work h
  | take i =>
    cases h : w.held[i]? with
    | none => left; rw [step, take, h]
    | some x =>
      by_cases tk : (w.conns x.conn).tokens = 0
      · left; rw [step, take, h]; simp [tk]
      · right; exact less_take v h tk

/-- All is fit to be sent -/
structure Ok (w : World) : Prop where
  handed : ∀ m ∈ w.handed, m.ok = true
  rest : ∀ h ∈ w.held, ∀ m ∈ h.rest, m.ok = true

theorem ok_handOver (t : Nat) : ∀ (ms : List Msg) (w : World), Ok w → (∀ m ∈ ms, m.ok = true) → Ok (handOver w t ms)
  | [], _, k, _ => k
  | m :: ms, w, k, a => by
    have p : Ok (push w m) := by
      refine ⟨fun x hx => ?_, k.rest⟩
      rcases List.mem_append.mp (show x ∈ w.handed ++ [m] from hx) with hx | hx
      · exact k.handed x hx
      · simp at hx; subst hx; exact a _ (List.mem_cons_self ..)
    rw [handOver]
    split
    · refine ⟨p.handed, fun h hh => ?_⟩
      rcases List.mem_append.mp hh with hh | hh
      · exact p.rest h hh
      · simp at hh; subst hh; exact fun x hx => a x (List.mem_cons_of_mem _ hx)
    · exact ok_handOver t ms _ p (fun x hx => a x (List.mem_cons_of_mem _ hx))

theorem ok_step {w : World} (k : Ok w) (e : Ev) (f : Fine e) : Ok (step w e) := by
  cases e with
  | change t bad =>
    rw [step]; split
    · exact k
    · refine ok_handOver t _ _ ⟨k.handed, k.rest⟩ ?_
      intro m hm
      obtain ⟨s, hs, rfl⟩ := List.mem_map.mp hm
      have : bad = [] := f
      simp [this]
  | answer t c o =>
    rw [step]; split
    · exact k
    · refine ok_handOver t _ _ k ?_
      intro m hm; simp at hm; subst hm; exact f
  | work =>
    rw [step]; split
    · exact k
    · exact ⟨k.handed, k.rest⟩
  | take i =>
    rw [step, take]; split
    · exact k
    · rename_i h e
      split
      · exact k
      · split
        · exact ok_handOver _ _ _ ⟨k.handed, fun x hx => k.rest x (List.mem_of_mem_eraseIdx hx)⟩
            (k.rest h (List.mem_of_getElem? e))
        · refine ⟨k.handed, fun x hx => ?_⟩
          rcases mem_set _ _ _ _ hx with hx | rfl
          · exact k.rest x hx
          · exact k.rest h (List.mem_of_getElem? e)
  | close c => exact ⟨k.handed, k.rest⟩

theorem ok_run : ∀ (es : List Ev) (w : World), Ok w → (∀ e ∈ es, Fine e) → Ok (run w es)
  | [], _, k, _ => k
  | e :: es, w, k, a => ok_run es _ (ok_step k e (a e (List.mem_cons_self ..))) (fun x hx => a x (List.mem_cons_of_mem _ hx))

theorem ok_init (subs : List Nat) : Ok (init subs) := by constructor <;> simp [init]

theorem unfit_ok {w : World} (k : Ok w) (c : Nat) : unfit c w.handed = 0 := by
  simp only [unfit, List.length_eq_zero_iff, List.filter_eq_nil_iff]
  intro m hm
  have := k.handed m (List.mem_filter.mp hm).1
  simp [this]

theorem goes_on' {w : World} (v : Inv w) (k : Ok w) (n : w.held ≠ [] ∨ w.todo ≠ []) :
    ∃ e, Forward e ∧ due (step w e) < due w := by
  cases ht : w.todo with
  | cons m ms => exact ⟨.work, trivial, less_work ht⟩
  | nil =>
    have hn : w.held ≠ [] := by
      rcases n with n | n
      · exact n
      · exact absurd ht n
    obtain ⟨h, l, hl⟩ := List.exists_cons_of_ne_nil hn
    have mem : h ∈ w.held := by rw [hl]; exact List.mem_cons_self ..
    have b := v.books h.conn
    have l0 := v.lost h.conn
    rw [unfit_ok k] at l0
    have pos : needs h.conn w.held ≠ 0 := by
      rw [Ne, needs_zero_iff _ _ (fun x hx => (v.need x hx).1)]
      intro a; exact a h mem rfl
    rw [ht] at b
    have : (w.conns h.conn).tokens ≠ 0 := by
      intro z
      have hlen : (of h.conn ([] : List Msg)).length = 0 := rfl
      omega
    exact ⟨.take 0, trivial, less_take v (by rw [hl]; rfl) this⟩

/-- As long as somebody is held up or something is left to write, there is something that can be done, if all can be made into
JSON -/
theorem goes_on_partial (subs : List Nat) (es : List Ev) (f : ∀ e ∈ es, Fine e)
    (n : (run (init subs) es).held ≠ [] ∨ (run (init subs) es).todo ≠ []) :
    ∃ e, Forward e ∧ due (step (run (init subs) es) e) < due (run (init subs) es) :=
  goes_on' (reach subs es) (ok_run es _ (ok_init subs) f) n

theorem released' : ∀ (n : Nat) (w : World), due w ≤ n → Inv w → Ok w →
    ∃ fs : List Ev, (∀ e ∈ fs, Forward e) ∧ fs.length ≤ n ∧ (run w fs).held = [] ∧ (run w fs).todo = []
  | n, w, d, v, k => by
    by_cases h : w.held ≠ [] ∨ w.todo ≠ []
    · obtain ⟨e, fe, le⟩ := goes_on' v k h
      cases n with
      | zero => omega
      | succ n =>
        have fine : Fine e := by cases e <;> simp [Forward] at fe <;> trivial
        obtain ⟨fs, a, b, c⟩ := released' n (step w e) (by omega) (inv_step v e) (ok_step k e fine)
        refine ⟨e :: fs, ?_, by simp; exact b, c⟩
        intro x hx
        rcases List.mem_cons.mp hx with rfl | hx
        · exact fe
        · exact a x hx
    · have h1 : w.held = [] := Decidable.byContradiction (fun x => h (Or.inl x))
      have h2 : w.todo = [] := Decidable.byContradiction (fun x => h (Or.inr x))
      exact ⟨[], by simp, by simp, h1, h2⟩

/-- Everybody who is held up gets to go on, and everything is written, in at most so many steps, if all can be made into JSON -/
theorem all_released_partial (subs : List Nat) (es : List Ev) (f : ∀ e ∈ es, Fine e) :
    ∃ fs : List Ev, (∀ e ∈ fs, Forward e) ∧ fs.length ≤ due (run (init subs) es) ∧
      (run (init subs) (es ++ fs)).held = [] ∧ (run (init subs) (es ++ fs)).todo = [] := by
  obtain ⟨fs, a, b, c⟩ := released' _ _ (Nat.le_refl _) (reach subs es) (ok_run es _ (ok_init subs) f)
  refine ⟨fs, a, b, ?_⟩
  rw [show run (init subs) (es ++ fs) = run (run (init subs) es) fs by simp [run]]
  exact c

/-- Once ten responses to a client could not be made into JSON, there is always somebody held up when nothing is left to do -/
theorem ten_lost (subs : List Nat) (es : List Ev) (c : Nat) (q : Quiet (run (init subs) es) c)
    (h : 10 ≤ unfit c (run (init subs) es).handed) : HeldAt (run (init subs) es) c :=
  (held_iff subs es c q).mpr (by omega)

/-! ### Each change once and in order -/

theorem left_append (w : World) (hs : List Held) : left { w with held := w.held ++ hs } = left w ++ hs.flatMap (·.rest) := by
  simp [left]

theorem handOver_split (t : Nat) : ∀ (ms : List Msg) (w : World), ∃ a b, ms = a ++ b ∧
    (handOver w t ms).handed = w.handed ++ a ∧ left (handOver w t ms) = left w ++ b ∧
    (handOver w t ms).ver = w.ver ∧ (handOver w t ms).subs = w.subs ∧
    (∀ h ∈ (handOver w t ms).held, h ∈ w.held ∨ (h.thread = t ∧ h.rest = b))
  | [], w => ⟨[], [], rfl, by simp [handOver], by simp [handOver], rfl, rfl, fun h hh => Or.inl hh⟩
  | m :: ms, w => by
    rw [handOver]
    split
    · refine ⟨[m], ms, rfl, rfl, ?_, rfl, rfl, ?_⟩
      · show left { push w m with held := (push w m).held ++ [⟨t, m.conn, 10, ms⟩] } = _
        rw [left_append]
        show left w ++ _ = _
        simp
      · intro h hh
        rcases List.mem_append.mp hh with hh | hh
        · exact Or.inl hh
        · simp at hh; subst hh; exact Or.inr ⟨rfl, rfl⟩
    · obtain ⟨a, b, e, h1, h2, h3, h4, h5⟩ := handOver_split t ms (push w m)
      refine ⟨m :: a, b, by rw [e]; rfl, ?_, h2, h3, h4, h5⟩
      rw [h1]; show (w.handed ++ [m]) ++ a = _; simp

theorem told_zipIdx (s v : Nat) (bad : List Nat) : ∀ (l : List Nat) (k : Nat),
    told s ((l.zipIdx k).map (fun x => (⟨x.1, some x.2, v, !bad.contains x.2⟩ : Msg))) = if k ≤ s ∧ s < k + l.length then [v] else []
  | [], k => by simp [told]
  | x :: l, k => by
    have ih := told_zipIdx s v bad l (k + 1)
    rw [List.zipIdx_cons, List.map_cons]
    have c : ∀ (m : Msg) (ms : List Msg), told s (m :: ms) = (if m.sub = some s then [m.ver] else []) ++ told s ms := by
      intro m ms; simp only [told, List.filterMap_cons]; split <;> rename_i h <;> split at h <;> simp_all
    rw [c, ih]
    by_cases e : k = s
    · subst e
      simp only [List.length_cons, if_true]
      rw [if_neg (by omega), if_pos (by omega)]; rfl
    · simp only [List.length_cons]
      rw [if_neg (by simpa using e)]
      by_cases q : k + 1 ≤ s ∧ s < k + 1 + l.length
      · rw [if_pos q, if_pos (by omega)]; rfl
      · rw [if_neg q, if_neg (by omega)]; rfl

theorem told_responses (s v : Nat) (subs bad : List Nat) :
    told s (responses subs v bad) = if s < subs.length then [v] else [] := by
  rw [responses, told_zipIdx]; simp

theorem upTo_succ (n : Nat) : upTo (n + 1) = upTo n ++ [n + 1] := by
  rw [upTo, upTo, List.range'_concat]; simp; omega

theorem left_erase : ∀ (l : List Held) (i : Nat) (h : Held), l[i]? = some h →
    ((l.eraseIdx i).flatMap (·.rest) ++ h.rest).Perm (l.flatMap (·.rest))
  | [], i, h, e => by simp at e
  | x :: l, 0, h, e => by
    simp at e; subst e; simp only [List.eraseIdx_cons_zero, List.flatMap_cons]; exact List.perm_append_comm
  | x :: l, i + 1, h, e => by
    simp at e
    have := left_erase l i h e
    simp only [List.eraseIdx_cons_succ, List.flatMap_cons, List.append_assoc]
    exact this.append_left _

theorem left_set : ∀ (l : List Held) (i : Nat) (h g : Held), l[i]? = some h → g.rest = h.rest →
    (l.set i g).flatMap (·.rest) = l.flatMap (·.rest)
  | [], i, h, g, e, _ => by simp at e
  | x :: l, 0, h, g, e, k => by simp at e; subst e; simp [k]
  | x :: l, i + 1, h, g, e, k => by
    simp at e
    simp [left_set l i h g e k]

theorem told_perm (s : Nat) {a b : List Msg} (p : a.Perm b) : (told s a).Perm (told s b) := p.filterMap _

/-- How a step changes what is handed over and what is left -/
theorem step_split (w : World) (e : Ev) :
    (∃ a b l, (step w e).handed = w.handed ++ a ∧ left (step w e) = l ++ b ∧ (l ++ (a ++ b)).Perm (left w) ∧
      (step w e).ver = w.ver) ∨
    (∃ t bad, e = .change t bad ∧ ¬ w.held.any (·.thread = t) = true ∧ (step w e).ver = w.ver + 1 ∧
      ∃ a b, responses w.subs (w.ver + 1) bad = a ++ b ∧ (step w e).handed = w.handed ++ a ∧ left (step w e) = left w ++ b) ∨
    (∃ a b, (step w e).handed = w.handed ++ a ∧ left (step w e) = left w ++ b ∧ (∀ m ∈ a ++ b, m.sub = none) ∧
      (step w e).ver = w.ver) := by
  cases e with
  | change t bad =>
    rw [step]; split
    · left; exact ⟨[], [], left w, by simp⟩
    · rename_i f
      right; left
      obtain ⟨a, b, e, h1, h2, h3, -, -⟩ := handOver_split t (responses w.subs (w.ver + 1) bad) { w with ver := w.ver + 1 }
      exact ⟨t, bad, rfl, f, h3, a, b, e, h1, h2⟩
  | answer t c o =>
    rw [step]; split
    · left; exact ⟨[], [], left w, by simp⟩
    · right; right
      obtain ⟨a, b, e, h1, h2, h3, -, -⟩ := handOver_split t [⟨c, none, 0, o⟩] w
      refine ⟨a, b, h1, h2, ?_, h3⟩
      rw [← e]; simp
  | work =>
    left
    rw [step]; split
    · exact ⟨[], [], left w, by simp⟩
    · exact ⟨[], [], left w, by simp [World.upd, left]⟩
  | take i =>
    left
    rw [step, take]; split
    · exact ⟨[], [], left w, by simp⟩
    · rename_i h e
      split
      · exact ⟨[], [], left w, by simp⟩
      · split
        · obtain ⟨a, b, e', h1, h2, h3, -, -⟩ :=
            handOver_split h.thread h.rest { spend w h.conn with held := w.held.eraseIdx i }
          refine ⟨a, b, (w.held.eraseIdx i).flatMap (fun x : Held => x.rest), h1, h2, ?_, h3⟩
          rw [← e']; exact left_erase w.held i h e
        · refine ⟨[], [], left w, by simp [spend, World.upd], ?_, by simp, rfl⟩
          simp only [List.append_nil]
          exact left_set w.held i h { h with need := h.need - 1 } e rfl
  | close c => left; exact ⟨[], [], left w, by simp [step, World.upd, left]⟩

theorem subs_step (w : World) (e : Ev) : (step w e).subs = w.subs := by
  cases e with
  | change t bad =>
    rw [step]; split
    · rfl
    · obtain ⟨a, b, _, _, _, _, h4, _⟩ := handOver_split t (responses w.subs (w.ver + 1) bad) { w with ver := w.ver + 1 }
      exact h4
  | answer t c o =>
    rw [step]; split
    · rfl
    · obtain ⟨a, b, _, _, _, _, h4, _⟩ := handOver_split t [⟨c, none, 0, o⟩] w
      exact h4
  | work => rw [step]; split <;> rfl
  | take i =>
    rw [step, take]; split
    · rfl
    · rename_i h e
      split
      · rfl
      · split
        · obtain ⟨a, b, _, _, _, _, h4, _⟩ := handOver_split h.thread h.rest { spend w h.conn with held := w.held.eraseIdx i }
          exact h4
        · rfl
  | close c => rfl

theorem told_none (s : Nat) {a : List Msg} (h : ∀ m ∈ a, m.sub = none) : told s a = [] := by
  simp only [told, List.filterMap_eq_nil_iff]
  intro m hm; simp [h m hm]

/-- Once each -/
def Once (w : World) : Prop := ∀ s, s < w.subs.length → (told s w.handed ++ told s (left w)).Perm (upTo w.ver)

theorem once_step {w : World} (o : Once w) (e : Ev) : Once (step w e) := by
  intro s hs
  rw [subs_step] at hs
  have p := o s hs
  rcases step_split w e with ⟨a, b, l, h1, h2, h3, h4⟩ | ⟨t, bad, -, -, h4, a, b, e', h1, h2⟩ | ⟨a, b, h1, h2, h3, h4⟩
  · rw [h1, h2, h4, told_append, told_append]
    have q := told_perm s h3
    rw [told_append, told_append] at q
    refine List.Perm.trans ?_ p
    rw [List.append_assoc]
    refine List.Perm.append_left _ (List.Perm.trans ?_ q)
    rw [← List.append_assoc, ← List.append_assoc]
    exact List.perm_append_comm.append_right _
  · rw [h1, h2, h4, told_append, told_append, upTo_succ]
    have r := told_responses s (w.ver + 1) w.subs bad
    rw [if_pos hs, e', told_append] at r
    rw [← r]
    refine List.Perm.trans ?_ (p.append_right _)
    rw [List.append_assoc, List.append_assoc]
    refine List.Perm.append_left _ ?_
    rw [← List.append_assoc, ← List.append_assoc]
    exact List.perm_append_comm.append_right _
  · rw [h1, h2, h4, told_append, told_append,
      told_none s (fun m hm => h3 m (List.mem_append_left _ hm)), told_none s (fun m hm => h3 m (List.mem_append_right _ hm))]
    simpa using p

theorem once_run : ∀ (es : List Ev) (w : World), Once w → Once (run w es)
  | [], _, o => o
  | e :: es, w, o => once_run es _ (once_step o e)

theorem once_init (subs : List Nat) : Once (init subs) := by intro s _; simp [init, told, left, upTo]

theorem subs_run : ∀ (es : List Ev) (w : World), (run w es).subs = w.subs
  | [], _ => rfl
  | e :: es, w => by
    show (run (step w e) es).subs = _
    rw [subs_run es, subs_step]

/-- Every change is handed over, or is left to be, for every subscription and just once -/
theorem once (subs : List Nat) (es : List Ev) (s : Nat) (h : s < subs.length) :
    (told s (run (init subs) es).handed ++ told s (left (run (init subs) es))).Perm (upTo (run (init subs) es).ver) :=
  once_run es _ (once_init subs) s (by rw [subs_run]; exact h)

/-- In order -/
def Ordered (w : World) : Prop :=
  ∀ s, s < w.subs.length → told s w.handed ++ told s (left w) = upTo w.ver ∧ (told s (left w)).length ≤ 1

theorem perm_short {a b : List Nat} (p : a.Perm b) (h : b.length ≤ 1) : a = b := by
  match b, h with
  | [], _ => exact p.eq_nil
  | [x], _ => exact List.perm_singleton.mp p

theorem ordered_step {w : World} (o : Ordered w) (e : Ev)
    (c : ∀ t bad, e = .change t bad → w.held.any (·.thread = t) = true ∨ left w = []) : Ordered (step w e) := by
  intro s hs
  rw [subs_step] at hs
  obtain ⟨p, n⟩ := o s hs
  rcases step_split w e with ⟨a, b, l, h1, h2, h3, h4⟩ | ⟨t, bad, h0, hf, h4, a, b, e', h1, h2⟩ | ⟨a, b, h1, h2, h3, h4⟩
  · rw [h1, h2, h4, told_append, told_append, ← p]
    have q := told_perm s h3
    rw [told_append, told_append] at q
    have q1 := perm_short q n
    have q2 : told s a ++ (told s l ++ told s b) = told s (left w) := by
      refine perm_short (List.Perm.trans ?_ q) n
      rw [← List.append_assoc, ← List.append_assoc]
      exact List.perm_append_comm.append_right _
    refine ⟨by rw [List.append_assoc, q2], ?_⟩
    have := congrArg List.length q2
    simp only [List.length_append] at this ⊢
    omega
  · have le : left w = [] := by
      rcases c t bad h0 with c | c
      · exact absurd c hf
      · exact c
    have r := told_responses s (w.ver + 1) w.subs bad
    rw [if_pos hs, e', told_append] at r
    rw [le] at p
    rw [h1, h2, h4, le, told_append, List.nil_append, upTo_succ, List.append_assoc, r]
    refine ⟨by rw [← p]; simp [told], ?_⟩
    have := congrArg List.length r
    simp at this; omega
  · rw [h1, h2, h4, told_append, told_append,
      told_none s (fun m hm => h3 m (List.mem_append_left _ hm)), told_none s (fun m hm => h3 m (List.mem_append_right _ hm))]
    simpa using ⟨p, n⟩

theorem ordered_run : ∀ (es : List Ev) (w : World), Ordered w → Calm w es → Ordered (run w es)
  | [], _, o, _ => o
  | e :: es, w, o, c => ordered_run es _ (ordered_step o e c.1) c.2

/-- The subscription of a message is on its connection -/
def Placed (w : World) : Prop := ∀ m, m ∈ w.handed ∨ m ∈ left w → ∀ s, m.sub = some s → w.subs[s]? = some m.conn

theorem placed_step {w : World} (o : Placed w) (e : Ev) : Placed (step w e) := by
  intro m hm s hs
  rw [subs_step]
  rcases step_split w e with ⟨a, b, l, h1, h2, h3, -⟩ | ⟨t, bad, -, -, -, a, b, e', h1, h2⟩ | ⟨a, b, h1, h2, h3, -⟩
  · rw [h1, h2] at hm
    have q := fun x => (h3.mem_iff (a := x))
    simp only [List.mem_append] at hm q
    rcases hm with (hm | hm) | (hm | hm)
    · exact o m (Or.inl hm) s hs
    · exact o m (Or.inr ((q m).mp (Or.inr (Or.inl hm)))) s hs
    · exact o m (Or.inr ((q m).mp (Or.inl hm))) s hs
    · exact o m (Or.inr ((q m).mp (Or.inr (Or.inr hm)))) s hs
  · rw [h1, h2] at hm
    have new : m ∈ a ++ b → w.subs[s]? = some m.conn := by
      intro h
      rw [← e'] at h
      obtain ⟨⟨x, k⟩, hx, rfl⟩ := List.mem_map.mp h
      simp at hs; subst hs
      exact List.mem_zipIdx_iff_getElem?.mp hx
    simp only [List.mem_append] at hm new
    rcases hm with (hm | hm) | (hm | hm)
    · exact o m (Or.inl hm) s hs
    · exact new (Or.inl hm)
    · exact o m (Or.inr hm) s hs
    · exact new (Or.inr hm)
  · rw [h1, h2] at hm
    simp only [List.mem_append] at hm h3
    rcases hm with (hm | hm) | (hm | hm)
    · exact o m (Or.inl hm) s hs
    · rw [h3 m (Or.inl hm)] at hs; cases hs
    · exact o m (Or.inr hm) s hs
    · rw [h3 m (Or.inr hm)] at hs; cases hs

theorem placed_run : ∀ (es : List Ev) (w : World), Placed w → Placed (run w es)
  | [], _, o => o
  | e :: es, w, o => placed_run es _ (placed_step o e)

theorem placed_init (subs : List Nat) : Placed (init subs) := by intro m hm; simp [init, left] at hm

theorem told_of {w : World} (o : Placed w) {s c : Nat} (h : w.subs[s]? = some c) : told s (of c w.handed) = told s w.handed := by
  have go : ∀ l : List Msg, (∀ m ∈ l, m ∈ w.handed) → told s (of c l) = told s l := by
    intro l
    induction l with
    | nil => intro _; rfl
    | cons m l ih =>
      intro k
      have ih := ih (fun x hx => k x (List.mem_cons_of_mem _ hx))
      rw [of_cons]
      by_cases q : m.sub = some s
      · have := o m (Or.inl (k m (List.mem_cons_self ..))) s q
        rw [h] at this; cases this
        simp only [if_true, told, List.filterMap_cons, q]
        congr 1
      · split <;> simp only [told, List.filterMap_cons, if_neg q] <;> exact ih
  exact go _ (fun _ h => h)

theorem fit {w : World} (k : Ok w) (c : Nat) : (of c w.handed).filter (·.ok) = of c w.handed :=
  List.filter_eq_self.mpr (fun m hm => k.handed m (List.mem_filter.mp hm).1)

theorem told_prefix (s : Nat) {a b : List Msg} (h : a <+: b) : told s a <+: told s b := by
  obtain ⟨r, rfl⟩ := h
  exact ⟨told s r, (told_append s a r).symm⟩

/-- A web client is told of the changes in order and without a hole, if no change is made before those before it have been handed
over and all can be made into JSON -/
theorem told_in_order_partial (subs : List Nat) (es : List Ev) (s c : Nat) (h : subs[s]? = some c)
    (f : ∀ e ∈ es, Fine e) (cm : Calm (init subs) es) :
    told s ((run (init subs) es).conns c).written <+: upTo (run (init subs) es).ver := by
  have hl : s < subs.length := (List.getElem?_eq_some_iff.mp h).1
  have k := ok_run es _ (ok_init subs) f
  have o := ordered_run es _ (fun s _ => ⟨by simp [init, told, left, upTo], by simp [init, told, left]⟩) cm s
    (by rw [subs_run]; exact hl)
  have q := in_order subs es c
  rw [fit k c] at q
  have t := told_prefix s q
  rw [told_of (placed_run es _ (placed_init subs)) (by rw [subs_run]; exact h)] at t
  exact t.trans ⟨_, o.1⟩

/-- A client that is still there and for which nothing is left to do was told of every change, and in order, under the same
conditions -/
theorem told_all_partial (subs : List Nat) (es : List Ev) (s c : Nat) (h : subs[s]? = some c)
    (f : ∀ e ∈ es, Fine e) (cm : Calm (init subs) es) (a : ((run (init subs) es).conns c).alive = true)
    (d : (run (init subs) es).held = [] ∧ (run (init subs) es).todo = []) :
    told s ((run (init subs) es).conns c).written = upTo (run (init subs) es).ver := by
  have hl : s < subs.length := (List.getElem?_eq_some_iff.mp h).1
  have k := ok_run es _ (ok_init subs) f
  have o := ordered_run es _ (fun s _ => ⟨by simp [init, told, left, upTo], by simp [init, told, left]⟩) cm s
    (by rw [subs_run]; exact hl)
  have q := all_sent subs es c a
  rw [fit k c, d.2] at q
  have t := told_of (placed_run es _ (placed_init subs)) (w := run (init subs) es) (by rw [subs_run]; exact h)
  rw [q] at t
  have lf : left (run (init subs) es) = [] := by rw [left, d.1]; rfl
  have o1 := o.1
  rw [lf, ← t] at o1
  simpa [of, told] using o1

/-- Without the condition on the changes, each of them is told just once, in some order -/
theorem told_once_partial (subs : List Nat) (es : List Ev) (s c : Nat) (h : subs[s]? = some c)
    (f : ∀ e ∈ es, Fine e) (a : ((run (init subs) es).conns c).alive = true)
    (d : (run (init subs) es).held = [] ∧ (run (init subs) es).todo = []) :
    (told s ((run (init subs) es).conns c).written).Perm (upTo (run (init subs) es).ver) := by
  have hl : s < subs.length := (List.getElem?_eq_some_iff.mp h).1
  have k := ok_run es _ (ok_init subs) f
  have o := once subs es s hl
  have q := all_sent subs es c a
  rw [fit k c, d.2] at q
  have t := told_of (placed_run es _ (placed_init subs)) (w := run (init subs) es) (by rw [subs_run]; exact h)
  rw [q] at t
  have lf : left (run (init subs) es) = [] := by rw [left, d.1]; rfl
  rw [lf, ← t] at o
  simpa [of, told] using o

/-- Who has something left to hand over -/
def Only (t : Nat) (w : World) : Prop := ∀ h ∈ w.held, h.rest ≠ [] → h.thread = t

theorem only_step {t : Nat} {w : World} (o : Only t w) (e : Ev) (b : By t e) : Only t (step w e) := by
  cases e with
  | change u bad =>
    rw [step]; split
    · exact o
    · obtain ⟨_, _, _, _, _, _, _, h5⟩ := handOver_split u (responses w.subs (w.ver + 1) bad) { w with ver := w.ver + 1 }
      intro h hh n
      rcases h5 h hh with q | q
      · exact o h q n
      · rw [q.1]; exact b
  | answer u c ok =>
    rw [step]; split
    · exact o
    · intro h hh n
      simp only [handOver] at hh
      split at hh
      · rcases List.mem_append.mp hh with hh | hh
        · exact o h hh n
        · simp at hh; subst hh; exact absurd rfl n
      · exact o h hh n
  | work =>
    rw [step]; split
    · exact o
    · exact o
  | take i =>
    rw [step, take]; split
    · exact o
    · rename_i g e
      have og := o g (List.mem_of_getElem? e)
      split
      · exact o
      · split
        · obtain ⟨x, y, e', _, _, _, _, h5⟩ := handOver_split g.thread g.rest { spend w g.conn with held := w.held.eraseIdx i }
          intro h hh n
          rcases h5 h hh with q | q
          · exact o h (List.mem_of_mem_eraseIdx q) n
          · rw [q.1]
            refine og ?_
            intro z
            rw [z] at e'
            have : y = [] := (List.append_eq_nil_iff.mp e'.symm).2
            exact n (q.2.trans this)
        · intro h hh n
          rcases mem_set _ _ _ _ hh with hh | rfl
          · exact o h hh n
          · exact og n
  | close c => exact o

/-- If one thread makes all the changes, none is made before those before it have been handed over -/
theorem one_writer (t : Nat) : ∀ (es : List Ev) (w : World), Only t w → (∀ e ∈ es, By t e) → Calm w es
  | [], _, _, _ => trivial
  | e :: es, w, o, b => by
    refine ⟨?_, one_writer t es _ (only_step o e (b e (List.mem_cons_self ..))) (fun x hx => b x (List.mem_cons_of_mem _ hx))⟩
    intro u bad h
    subst h
    have hu : u = t := b _ (List.mem_cons_self ..)
    subst hu
    by_cases k : left w = []
    · exact Or.inr k
    · left
      have : ∃ h ∈ w.held, h.rest ≠ [] := by
        refine Decidable.byContradiction (fun n => k ?_)
        rw [left, List.flatMap_eq_nil_iff]
        intro h hh
        exact Decidable.byContradiction (fun m => n ⟨h, hh, m⟩)
      obtain ⟨h, hh, n⟩ := this
      exact List.any_eq_true.mpr ⟨h, hh, by simpa using o h hh n⟩

/-- So a block changed by one thread is shown as it is to every client that is there, once all is written -/
theorem shown_partial (subs : List Nat) (t : Nat) (es : List Ev) (s c : Nat) (h : subs[s]? = some c)
    (f : ∀ e ∈ es, Fine e) (b : ∀ e ∈ es, By t e) (a : ((run (init subs) es).conns c).alive = true)
    (d : (run (init subs) es).held = [] ∧ (run (init subs) es).todo = []) :
    told s ((run (init subs) es).conns c).written = upTo (run (init subs) es).ver :=
  told_all_partial subs es s c h f (one_writer t es _ (by intro h hh; simp [init] at hh) b) a d

/-! ### Cases -/

/-- Four changes and an answer, then one change by each of two threads -/
def race : List Ev :=
  List.replicate 4 (.change 1 []) ++ [.answer 1 0 true, .change 1 [], .change 2 []] ++ List.replicate 12 .work
    ++ List.replicate 10 (.take 0) ++ [.work]

/-- Against the property: with two subscriptions of a client and two threads, the second is told of a change after the one that
followed it, and is left with what is not so any more -/
theorem overtaken : told 1 ((run (init [0, 0]) race).conns 0).written = [1, 2, 3, 4, 6, 5] ∧
    (run (init [0, 0]) race).held = [] ∧ (run (init [0, 0]) race).todo = [] ∧ (run (init [0, 0]) race).ver = 6 ∧
    told 0 ((run (init [0, 0]) race).conns 0).written = upTo 6 := by
  decide +kernel

/-- Against the property: a response that cannot be made into JSON is not sent, and nor is anything in its place; the one who hands
over the tenth is held up for ever -/
theorem not_sent : ∃ es : List Ev, Quiet (run (init []) es) 0 ∧ HeldAt (run (init []) es) 0 ∧ (run (init []) es).todo = [] ∧
    (of 0 (run (init []) es).handed).length = 10 ∧ ((run (init []) es).conns 0).written.length = 9 ∧
    ((run (init []) es).conns 0).alive = true := by
  refine ⟨.answer 1 0 false :: List.replicate 9 (.answer 1 0 true) ++ List.replicate 10 .work ++ List.replicate 9 (.take 0), ?_⟩
  unfold Quiet HeldAt
  decide +kernel

/-- Ten changes by one thread to two clients, of which one goes -/
def ten : List Ev :=
  List.replicate 9 (.change 1 []) ++ [.close 4, .change 1 []] ++ List.replicate 19 .work ++ List.replicate 10 (.take 0) ++ [.work]
    ++ List.replicate 10 (.take 0)

example : told 0 ((run (init [3, 4]) ten).conns 3).written = upTo 10 ∧ (run (init [3, 4]) ten).held = [] ∧
    (run (init [3, 4]) ten).todo = [] ∧ ((run (init [3, 4]) ten).conns 3).alive = true ∧
    told 1 ((run (init [3, 4]) ten).conns 4).written ≠ upTo 10 := by decide +kernel

example : (∀ e ∈ ten, Fine e) ∧ (∀ e ∈ ten, By 1 e) := by
  constructor <;> intro e h <;> simp [ten] at h <;> rcases h with rfl | rfl | rfl | rfl | rfl | rfl | rfl <;> simp [Fine, By]

/-- Somebody is held up on the way -/
example : (run (init [3, 4]) (ten.take 20)).held = [⟨1, 3, 10, [⟨4, some 1, 10, true⟩]⟩] := by decide +kernel

end Verif.Props.WebFlow
