import Verif.Proofs.Modified
/-!
C28: whether a manager says it is modified.

What holds for every history of changes, edits of layout and exports, saves and loads: if the manager says it is not modified, then
every setting of a visible part that the design last saved or loaded speaks of is as it says, and so are the visible column and
the exports (`unmodified_is_saved`).  The converse is only proved with an exception (`modified_differs_partial`): a setting that
was different when something was saved or loaded, and has not changed since, may be reported again though it is as saved.
So may a table named by a design that was loaded.  `stale_message` and `loaded_table` show that this happens.  `change_while_saving` shows that a change made while a save is going on is not seen.
-/
namespace Verif.Modified
open Verif.Dict

structure PInv (p : Part) (rep : Option (Dict Name Msg)) (design : Name → Option Val) : Prop where
  w : W p
  saved : ∀ k, (p.saved.get? k).map (·.value) = design k
  known : rep = none ∨ rep = some p.messages
  seen : ∀ k v s, p.settings.get? k = some v → p.saved.get? k = some s → v ≠ s.value → p.messages.get? k = some (v, some s)
  told : ∀ k v s, p.messages.get? k = some (v, some s) → p.saved.get? k = some s → v ≠ s.value → rep = some p.messages

structure Inv (m : Manager) (d : Design) : Prop where
  part : ∀ n p, m.part? n = some p → PInv p (m.reported.get? n) (d.setting n)
  none_ : ∀ n, m.part? n = none → m.reported.get? n = none
  column : m.savedVisibility = d.column
  exports : m.savedExports = d.exports
  f : F m

theorem settled_pinv {q : Part} {design : Name → Option Val} (hw : W q) (hs : Settled q) (hd : ∀ k, (q.saved.get? k).map (·.value) = design k) :
    PInv q none design := by
  refine ⟨hw, hd, .inl rfl, fun k v s h1 h2 h3 => absurd (hs k s v h2 h1) h3, fun k v s h1 h2 h5 => ?_⟩
  obtain ⟨h3, _⟩ := hw.2 k v _ h1
  exact absurd (hs k s v h2 h3) h5

theorem change_inv {m : Manager} {d : Design} (h : Inv m d) (n k : Name) (v : Val) : Inv (m.change n k v) d := by
  unfold Manager.change
  split
  · rename_i p hp
    split
    · have hpi := h.part n p hp
      obtain ⟨t1, t2, t3, t4, t5, t6, t7, _⟩ := told_facts hp hpi.w.1 k v
      obtain ⟨_, f2, f3, _, f5, f6, f7⟩ := put_facts hpi.w.1 k v
      refine ⟨fun n2 p2 hp2 => ?_, fun n2 hn2 => ?_, t5.trans h.column, t6.trans h.exports, t7 h.f⟩
      · rw [t1] at hp2
        by_cases h2 : n2 = n
        · subst h2
          rw [if_pos rfl] at hp2
          injection hp2 with hp2
          subst hp2
          rw [t2]
          refine ⟨put_w hpi.w k v, fun k2 => by rw [f2]; exact hpi.saved k2, ?_, ?_, ?_⟩
          · cases hr : (p.put k v).2 with
            | some info => simp
            | none =>
              simp only [Option.isSome_none, Bool.false_eq_true, and_false, if_false, f7 hr]
              exact hpi.known
          · intro k2 v2 s h3 h4 h5
            rw [f3, get?_set] at h3
            rw [f2] at h4
            rw [f5]
            split at h3
            · subst_vars
              injection h3 with h3
              subst h3
              rw [if_pos rfl]
              unfold due
              rw [h4, if_neg (by simp [eq?, Saved.eq, Ne.symm h5])]
            · rename_i hk
              rw [if_neg hk]
              exact hpi.seen k2 v2 s h3 h4 h5
          · intro k2 v2 s h3 h4 h6
            cases hr : (p.put k v).2 with
            | some info => simp
            | none =>
              simp only [Option.isSome_none, Bool.false_eq_true, and_false, if_false]
              rw [f7 hr] at h3 ⊢
              rw [f2] at h4
              exact hpi.told k2 v2 s h3 h4 h6
        · rw [if_neg h2] at hp2
          rw [t2, if_neg (by simp [h2])]
          exact h.part n2 p2 hp2
      · rw [t1] at hn2
        by_cases h2 : n2 = n
        · rw [if_pos h2] at hn2
          cases hn2
        · rw [if_neg h2] at hn2
          rw [t2, if_neg (by simp [h2])]
          exact h.none_ n2 hn2
    · exact h
  · exact h

theorem good_told {c : Dict Name (Dict Name Val)} (h : ∀ s ∈ c.values, s.keys.Nodup) (n : Name) : (told? c n).keys.Nodup := by
  unfold told?
  cases hc : c.get? n with
  | none => exact List.nodup_nil
  | some s => exact h s (List.mem_map.2 ⟨(n, s), get?_mem hc, rfl⟩)

theorem op_inv {m : Manager} {d : Design} (h : Inv m d) (o : Op) (ho : GoodOp o) : Inv (m.op o) (d.next m o) := by
  cases o with
  | change n k v => exact change_inv h n k v
  | layout vis =>
    obtain ⟨s1, s2, _, _, s5, s6, s7⟩ := setLayout_facts m vis
    have hp : ∀ n, (m.setLayout vis).part? n = m.part? n := fun n => by unfold Manager.part?; rw [s1]
    exact ⟨fun n p h1 => by show PInv _ ((m.setLayout vis).reported.get? n) _; rw [s2]; exact h.part n p ((hp n).symm.trans h1),
      fun n h1 => by show (m.setLayout vis).reported.get? n = none; rw [s2]; exact h.none_ n ((hp n).symm.trans h1),
      s5.trans h.column, s6.trans h.exports, s7 h.f⟩
  | exports e => exact ⟨h.part, h.none_, h.column, h.exports, rfl⟩
  | save =>
    refine ⟨fun n p hp => ?_, fun n _ => rfl, rfl, rfl, rfl⟩
    rw [show m.op .save = m.save from rfl, save_part?] at hp
    cases hq : m.part? n with
    | none => rw [hq] at hp; cases hp
    | some q =>
      rw [hq] at hp
      injection hp with hp
      subst hp
      refine settled_pinv (h.part n q hq).w ?_ ?_
      · intro k s v h1 h2
        change (marked false q.settings).get? k = _ at h1
        rw [get?_marked, show q.settings.get? k = some v from h2] at h1
        injection h1 with h1
        rw [← h1]
      · intro k
        show ((marked false q.settings).get? k).map _ = m.value n k
        unfold Manager.value
        rw [hq, get?_marked]
        show _ = q.settings.get? k
        cases q.settings.get? k <;> rfl
  | load vis e c =>
    obtain ⟨l1, l2, l3, l4, l5, l6, l7, l8⟩ := load_facts (fun n p hp => (h.part n p hp).w) vis e (good_told ho)
    refine ⟨fun n q hq => ?_, fun n _ => ?_, l3, l4, l6⟩
    · cases hp : m.part? n with
      | none => rw [show m.op (.load vis e c) = m.load vis e c from rfl, l7 n hp] at hq; cases hq
      | some p =>
        obtain ⟨q', g1, g2, _, g4, g5⟩ := l8 n p hp
        rw [show m.op (.load vis e c) = m.load vis e c from rfl, g1] at hq
        injection hq with hq
        subst hq
        rw [show (m.op (.load vis e c)).reported = [] from l5]
        refine settled_pinv g2 g5 fun k => ?_
        rw [g4, get?_marked]
        unfold Design.next
        dsimp only
        rw [if_pos (part?_mem hp)]
        unfold told?
        cases c.get? n with
        | none => rfl
        | some s => show _ = s.get? k; simp only [Option.getD_some]; cases s.get? k <;> rfl
    · rw [show (m.op (.load vis e c)).reported = [] from l5]
      rfl

theorem ops_inv (os : List Op) : ∀ {m : Manager} {d : Design}, Inv m d → (∀ o ∈ os, GoodOp o) → Inv (m.ops os) (d.last m os) := by
  induction os with
  | nil => intro m d h _; exact h
  | cons o os ih =>
    intro m d h ho
    exact ih (op_inv h o (ho o List.mem_cons_self)) fun o' h' => ho o' (List.mem_cons_of_mem _ h')

theorem start_part? (parts : List (Name × Dict Name Val)) (layout : List (Name × Bool)) (exports : List (String × Name)) (n : Name)
    (p : Part) (h : (Manager.start parts layout exports).part? n = some p) : p.saved = marked false p.settings ∧ p.messages = [] := by
  obtain ⟨q, _, hq⟩ := List.mem_map.1 (List.mem_of_find?_eq_some h)
  subst hq
  exact ⟨rfl, rfl⟩

theorem start_inv (parts : List (Name × Dict Name Val)) (layout : List (Name × Bool)) (exports : List (String × Name)) :
    Inv (Manager.start parts layout exports) (Manager.start parts layout exports).snapshot := by
  refine ⟨fun n p hp => ?_, fun _ _ => rfl, rfl, rfl, ?_⟩
  · obtain ⟨h1, h2⟩ := start_part? parts layout exports n p hp
    refine settled_pinv ⟨by rw [h2]; exact List.nodup_nil, by rw [h2]; intro k v o h; cases h⟩ ?_ ?_
    · intro k s v h3 h4
      rw [h1, get?_marked, h4] at h3
      injection h3 with h3
      rw [← h3]
    · intro k
      show _ = (Manager.start parts layout exports).value n k
      unfold Manager.value
      rw [hp, h1, get?_marked]
      show _ = p.settings.get? k
      cases p.settings.get? k <;> rfl
  · have : (Manager.start parts layout exports).lines = [] := by
      simp only [Manager.lines, Manager.start, ne_eq, not_true_eq_false, if_false, List.append_nil]
      rw [List.flatMap_eq_nil_iff]
      intro nv _
      cases nv.2 <;> simp [Dict.get?]
    unfold F
    rw [this]
    rfl

theorem mem_lines {m : Manager} (h : m.lines = []) :
    (∀ n, m.Visible n → ((m.reported.get? n).getD []) = []) ∧ m.column = m.savedVisibility ∧ m.exports = m.savedExports := by
  unfold Manager.lines at h
  simp only [List.append_eq_nil_iff, List.flatMap_eq_nil_iff] at h
  obtain ⟨⟨h1, h2⟩, h3⟩ := h
  refine ⟨fun n hn => ?_, ?_, ?_⟩
  · have := h1 (n, true) hn
    simpa using this
  · refine Classical.byContradiction fun hc => ?_
    rw [if_pos (show List.map (·.2) m.layout ≠ m.savedVisibility from hc)] at h2
    cases h2
  · refine Classical.byContradiction fun hc => ?_
    rw [if_pos hc] at h3
    cases h3

/-- C28, one direction: a manager that says it is not modified is as the design last saved or loaded says -/
theorem unmodified_is_saved (parts : List (Name × Dict Name Val)) (layout : List (Name × Bool)) (exports : List (String × Name))
    (os : List Op) (ho : ∀ o ∈ os, GoodOp o) :
    let m0 := Manager.start parts layout exports
    let m := m0.ops os
    let d := m0.snapshot.last m0 os
    m.modified = false →
      (∀ n k s v, m.Visible n → d.setting n k = some s → m.value n k = some v → v = s) ∧
      m.column = d.column ∧ m.exports = d.exports := by
  intro m0 m d hm
  have hi : Inv m d := ops_inv os (start_inv parts layout exports) ho
  have hl : m.lines = [] := by
    have := hi.f
    rw [F, hm] at this
    simpa using this.symm
  obtain ⟨h1, h2, h3⟩ := mem_lines hl
  refine ⟨fun n k s v hv hs hval => Classical.byContradiction fun hne => ?_, h2.trans hi.column, h3.trans hi.exports⟩
  unfold Manager.value at hval
  cases hp : m.part? n with
  | none => rw [hp] at hval; cases hval
  | some p =>
    rw [hp] at hval
    have pi := hi.part n p hp
    obtain ⟨s', hsv, hs'⟩ := Option.map_eq_some_iff.1 ((pi.saved k).trans hs)
    subst hs'
    have hmsg := pi.seen k v s' hval hsv hne
    have hrep := pi.told k v s' hmsg hsv hne
    have := h1 n hv
    rw [hrep] at this
    rw [show p.messages = [] from this] at hmsg
    cases hmsg

/-! ## The other direction -/

theorem value_some {m : Manager} {n k : Name} {p : Part} (h : m.part? n = some p) : m.value n k = p.settings.get? k := by
  unfold Manager.value
  rw [h]
  rfl

theorem ops_snoc (m : Manager) (os : List Op) (o : Op) : m.ops (os ++ [o]) = (m.ops os).op o := by
  unfold Manager.ops
  rw [List.foldl_append]
  rfl

theorem last_snoc (os : List Op) : ∀ (d : Design) (m : Manager) (o : Op),
    d.last m (os ++ [o]) = (d.last m os).next (m.ops os) o := by
  induction os with
  | nil => intro d m o; rfl
  | cons a os ih => intro d m o; exact ih (d.next m a) (m.op a) o

theorem left_snoc {m : Manager} {os : List Op} {o : Op} {n k : Name} (h : Left m os n k)
    (hv : (m.ops (os ++ [o])).value n k = (m.ops os).value n k) : Left m (os ++ [o]) n k := by
  obtain ⟨os1, c, os2, h1, h2, h3, h4⟩ := h
  refine ⟨os1, c, os2 ++ [o], by rw [h1]; simp, h2, h3, fun os3 os4 h5 => ?_⟩
  rcases List.eq_nil_or_concat os4 with h6 | ⟨os4', b, h6⟩
  · subst h6
    rw [List.append_nil] at h5
    subst h5
    have := h4 os2 [] (by simp)
    rw [← this, ← h1, ← hv, h1]
    simp
  · subst h6
    rw [List.concat_eq_append, ← List.append_assoc] at h5
    exact h4 os3 os4' (List.append_inj' h5 rfl).1

theorem left_now {m : Manager} {os : List Op} {o : Op} {n k : Name} (hc : o.cleans = true)
    (h : Differs (m.snapshot.last m os) (m.ops os) n k)
    (hv : (m.ops (os ++ [o])).value n k = (m.ops os).value n k) : Left m (os ++ [o]) n k := by
  refine ⟨os, o, [], rfl, hc, h, fun os3 os4 h5 => ?_⟩
  obtain ⟨h6, _⟩ := List.append_eq_nil_iff.1 h5.symm
  subst h6
  exact hv

theorem snoc_ind {α : Type} {P : List α → Prop} (h0 : P []) (h1 : ∀ l a, P l → P (l ++ [a])) (l : List α) : P l := by
  rw [← List.reverse_reverse l]
  induction l.reverse with
  | nil => exact h0
  | cons a l ih => rw [List.reverse_cons]; exact h1 _ _ ih

theorem loaded_snoc {m : Manager} {os : List Op} {o : Op} {n k : Name} (h : LoadedTable m os n k)
    (hv : (m.ops (os ++ [o])).value n k = (m.ops os).value n k) : LoadedTable m (os ++ [o]) n k := by
  obtain ⟨⟨t, h1⟩, vis, e, c, h2, h3⟩ := h
  exact ⟨⟨t, hv.trans h1⟩, vis, e, c, List.mem_append_left _ h2, h3⟩

theorem told?_get (c : Dict Name (Dict Name Val)) (n k : Name) : (told? c n).get? k = (c.get? n).bind fun s => s.get? k := by
  unfold told?
  cases c.get? n <;> rfl

/-- What a part takes for read from a file was in a design that was loaded -/
theorem file_loaded (parts : List (Name × Dict Name Val)) (layout : List (Name × Bool)) (exports : List (String × Name))
    (os : List Op) :
    let m0 := Manager.start parts layout exports
    (∀ o ∈ os, GoodOp o) → ∀ n p k s, (m0.ops os).part? n = some p → p.saved.get? k = some s → s.file = true →
      ∃ vis e c, Op.load vis e c ∈ os ∧ ((c.get? n).bind fun s => s.get? k) ≠ none := by
  intro m0
  refine snoc_ind (P := fun os => (∀ o ∈ os, GoodOp o) → ∀ n p k s, (m0.ops os).part? n = some p → p.saved.get? k = some s →
      s.file = true → ∃ vis e c, Op.load vis e c ∈ os ∧ ((c.get? n).bind fun s => s.get? k) ≠ none) ?_ ?_ os
  · intro _ n p k s hp hs hf
    rw [(start_part? parts layout exports n p hp).1, get?_marked] at hs
    obtain ⟨w, _, hw⟩ := Option.map_eq_some_iff.1 hs
    rw [← hw] at hf
    cases hf
  · intro os o ih ho n p k s hp hs hf
    have ho1 : ∀ o' ∈ os, GoodOp o' := fun o' h' => ho o' (List.mem_append_left _ h')
    have ho2 : GoodOp o := ho o (List.mem_append_right _ List.mem_cons_self)
    have hi : Inv (m0.ops os) (m0.snapshot.last m0 os) := ops_inv os (start_inv parts layout exports) ho1
    have keep : ∀ q, (m0.ops os).part? n = some q → q.saved = p.saved →
        ∃ vis e c, Op.load vis e c ∈ os ++ [o] ∧ ((c.get? n).bind fun s => s.get? k) ≠ none := by
      intro q hq h1
      obtain ⟨vis, e, c, h2, h3⟩ := ih ho1 n q k s hq (by rw [h1]; exact hs) hf
      exact ⟨vis, e, c, List.mem_append_left _ h2, h3⟩
    rw [ops_snoc] at hp
    cases o with
    | change a b v =>
      unfold Manager.op Manager.change at hp
      dsimp only at hp
      split at hp
      · rename_i q hq
        split at hp
        · have hw := (hi.part a q hq).w
          obtain ⟨t1, _⟩ := told_facts hq hw.1 b v
          obtain ⟨_, f2, _⟩ := put_facts hw.1 b v
          rw [t1] at hp
          by_cases h : n = a
          · subst h
            rw [if_pos rfl] at hp
            injection hp with hp
            exact keep q hq (by rw [← hp, f2])
          · rw [if_neg h] at hp
            exact keep p hp rfl
        · exact keep p hp rfl
      · exact keep p hp rfl
    | layout vis =>
      obtain ⟨s1, _⟩ := setLayout_facts (m0.ops os) vis
      refine keep p ?_ rfl
      unfold Manager.part? at hp ⊢
      rw [← s1]
      exact hp
    | exports e => exact keep p hp rfl
    | save =>
      rw [show (m0.ops os).op .save = (m0.ops os).save from rfl, save_part?] at hp
      cases hq : (m0.ops os).part? n with
      | none => rw [hq] at hp; cases hp
      | some q =>
        rw [hq] at hp
        injection hp with hp
        rw [← hp] at hs
        change (marked false q.settings).get? k = _ at hs
        rw [get?_marked] at hs
        obtain ⟨w, _, hw⟩ := Option.map_eq_some_iff.1 hs
        rw [← hw] at hf
        cases hf
    | load vis e c =>
      obtain ⟨_, _, _, _, _, _, l7, l8⟩ := load_facts (fun n p hp => (hi.part n p hp).w) vis e (good_told ho2)
      rw [show (m0.ops os).op (.load vis e c) = (m0.ops os).load vis e c from rfl] at hp
      cases hq : (m0.ops os).part? n with
      | none => rw [l7 n hq] at hp; cases hp
      | some q =>
        obtain ⟨q', g1, _, _, g4, _⟩ := l8 n q hq
        rw [g1] at hp
        injection hp with hp
        subst hp
        refine ⟨vis, e, c, List.mem_append_right _ List.mem_cons_self, ?_⟩
        rw [g4, get?_marked, told?_get] at hs
        obtain ⟨w, h, _⟩ := Option.map_eq_some_iff.1 hs
        rw [h]
        simp

/-- A message is of a setting that differs from the design, or is left over -/
theorem message_due (parts : List (Name × Dict Name Val)) (layout : List (Name × Bool)) (exports : List (String × Name))
    (os : List Op) :
    let m0 := Manager.start parts layout exports
    (∀ o ∈ os, GoodOp o) → ∀ n p k, (m0.ops os).part? n = some p → p.messages.get? k ≠ none →
      Differs (m0.snapshot.last m0 os) (m0.ops os) n k ∨ Left m0 os n k ∨ LoadedTable m0 os n k := by
  intro m0
  refine snoc_ind (P := fun os => (∀ o ∈ os, GoodOp o) → ∀ n p k, (m0.ops os).part? n = some p → p.messages.get? k ≠ none →
      Differs (m0.snapshot.last m0 os) (m0.ops os) n k ∨ Left m0 os n k ∨ LoadedTable m0 os n k) ?_ ?_ os
  · intro _ n p k hp hk
    rw [(start_part? parts layout exports n p hp).2] at hk
    exact absurd rfl hk
  · intro os o ih ho n p k hp hk
    have ho1 : ∀ o' ∈ os, GoodOp o' := fun o' h' => ho o' (List.mem_append_left _ h')
    have ho2 : GoodOp o := ho o (List.mem_append_right _ List.mem_cons_self)
    have hi : Inv (m0.ops os) (m0.snapshot.last m0 os) := ops_inv os (start_inv parts layout exports) ho1
    have ih := ih ho1
    -- a setting whose value and message are as before
    have keep : ∀ q, (m0.ops os).part? n = some q → q.settings.get? k = p.settings.get? k → q.messages.get? k = p.messages.get? k →
        (o.cleans = true ∨ (m0.snapshot.last m0 os).next (m0.ops os) o = m0.snapshot.last m0 os) →
        Differs (m0.snapshot.last m0 (os ++ [o])) (m0.ops (os ++ [o])) n k ∨ Left m0 (os ++ [o]) n k ∨
          LoadedTable m0 (os ++ [o]) n k := by
      intro q hq h1 h2 h3
      have hv : (m0.ops (os ++ [o])).value n k = (m0.ops os).value n k := by
        rw [value_some hp, value_some hq, h1]
      rcases ih n q k hq (by rw [h2]; exact hk) with h4 | h4 | h4
      · rcases h3 with h5 | h5
        · exact .inr (.inl (left_now h5 h4 hv))
        · left
          rw [last_snoc, h5]
          unfold Differs
          rw [hv]
          exact h4
      · exact .inr (.inl (left_snoc h4 hv))
      · exact .inr (.inr (loaded_snoc h4 hv))
    have hpo := hp
    rw [ops_snoc] at hpo
    cases o with
    | change a b v =>
      unfold Manager.op Manager.change at hpo
      dsimp only at hpo
      split at hpo
      · rename_i q hq
        split at hpo
        · have hw := (hi.part a q hq).w
          obtain ⟨t1, _⟩ := told_facts hq hw.1 b v
          obtain ⟨_, f2, f3, _, f5, _, _⟩ := put_facts hw.1 b v
          rw [t1] at hpo
          by_cases h : n = a
          · subst h
            rw [if_pos rfl] at hpo
            injection hpo with hpo
            by_cases hb : b = k
            · subst hb
              have hval : (m0.ops (os ++ [.change n b v])).value n b = some v := by
                rw [value_some hp, ← hpo, f3, get?_set, if_pos rfl]
              have hdes : (m0.snapshot.last m0 (os ++ [.change n b v])).setting n b = (q.saved.get? b).map (·.value) := by
                rw [last_snoc]
                exact ((hi.part n q hq).saved b).symm
              by_cases hd : some v = (q.saved.get? b).map (·.value)
              · obtain ⟨s, hs, hs'⟩ := Option.map_eq_some_iff.1 hd.symm
                have hne : eq? (q.saved.get? b) v = false := by
                  rw [← hpo, f5, if_pos rfl] at hk
                  unfold due at hk
                  cases he : eq? (q.saved.get? b) v with
                  | false => rfl
                  | true => rw [he] at hk; simp at hk
                rw [hs] at hne
                simp only [eq?, Saved.eq, hs', decide_true, Bool.true_and, Bool.not_eq_false'] at hne
                simp only [Bool.and_eq_true] at hne
                obtain ⟨vis, e, c, h1, h2⟩ := file_loaded parts layout exports os ho1 n q b s hq hs hne.1
                refine .inr (.inr ⟨?_, vis, e, c, List.mem_append_left _ h1, h2⟩)
                rw [hval]
                cases v with
                | plain t => cases hne.2
                | table t => exact ⟨t, rfl⟩
              · left
                unfold Differs
                rw [hval, hdes]
                exact ⟨by simp, hd⟩
            · refine keep q hq ?_ ?_ (.inr rfl)
              · rw [← hpo, f3, get?_set, if_neg hb]
              · rw [← hpo, f5, if_neg hb]
          · rw [if_neg h] at hpo
            exact keep p hpo rfl rfl (.inr rfl)
        · exact keep p hpo rfl rfl (.inr rfl)
      · exact keep p hpo rfl rfl (.inr rfl)
    | layout vis =>
      obtain ⟨s1, _⟩ := setLayout_facts (m0.ops os) vis
      refine keep p ?_ rfl rfl (.inr rfl)
      unfold Manager.part? at hpo ⊢
      rw [← s1]
      exact hpo
    | exports e => exact keep p hpo rfl rfl (.inr rfl)
    | save =>
      rw [show (m0.ops os).op .save = (m0.ops os).save from rfl, save_part?] at hpo
      cases hq : (m0.ops os).part? n with
      | none => rw [hq] at hpo; cases hpo
      | some q =>
        rw [hq] at hpo
        injection hpo with hpo
        exact keep q hq (by rw [← hpo]) (by rw [← hpo]) (.inl rfl)
    | load vis e c =>
      obtain ⟨_, _, _, _, _, _, l7, l8⟩ := load_facts (fun n p hp => (hi.part n p hp).w) vis e (good_told ho2)
      rw [show (m0.ops os).op (.load vis e c) = (m0.ops os).load vis e c from rfl] at hpo
      cases hq : (m0.ops os).part? n with
      | none => rw [l7 n hq] at hpo; cases hpo
      | some q =>
        obtain ⟨q', g1, _, g3, _⟩ := l8 n q hq
        rw [g1] at hpo
        injection hpo with hpo
        subst hpo
        rcases g3 k with ⟨h1, h2⟩ | h1 | ⟨t, h1, h2⟩
        · exact keep q hq h1.symm h2.symm (.inl rfl)
        · exact absurd h1 hk
        · refine .inr (.inr ⟨⟨t, (value_some hp).trans h1⟩, vis, e, c, List.mem_append_right _ List.mem_cons_self, ?_⟩)
          rw [← told?_get]
          exact h2

/-- C28, the other direction in part: a manager that says it is modified has a visible part with a setting that is not as the
design last saved or loaded says, or that was not when something was saved or loaded and has had the same value since, or that
is a table named by a design that was loaded, or its visible column or its exports are not as the design says.  Missing: the
settings of the second and third kind may be as saved, and then the manager should not say it is modified because of them
(`stale_message`, `loaded_table`). -/
theorem modified_differs_partial (parts : List (Name × Dict Name Val)) (layout : List (Name × Bool)) (exports : List (String × Name))
    (os : List Op) (ho : ∀ o ∈ os, GoodOp o) :
    let m0 := Manager.start parts layout exports
    let m := m0.ops os
    let d := m0.snapshot.last m0 os
    m.modified = true →
      (∃ n k, m.Visible n ∧ (Differs d m n k ∨ Left m0 os n k ∨ LoadedTable m0 os n k)) ∨ m.column ≠ d.column ∨ m.exports ≠ d.exports := by
  intro m0 m d hm
  have hi : Inv m d := ops_inv os (start_inv parts layout exports) ho
  have hl : m.lines ≠ [] := by
    intro hc
    have := hi.f
    rw [F, hm, hc] at this
    cases this
  unfold Manager.lines at hl
  simp only [ne_eq, List.append_eq_nil_iff, Classical.not_and_iff_not_or_not] at hl
  rcases hl with (h | h) | h
  · left
    obtain ⟨l, hl⟩ := List.exists_mem_of_ne_nil _ h
    obtain ⟨nv, h1, h2⟩ := List.mem_flatMap.1 hl
    obtain ⟨n, v⟩ := nv
    cases v with
    | false => simp at h2
    | true =>
      simp only [if_true] at h2
      obtain ⟨km, h3, _⟩ := List.mem_map.1 h2
      cases hp : m.part? n with
      | none =>
        rw [hi.none_ n hp] at h3
        cases h3
      | some p =>
        have pi := hi.part n p hp
        rcases pi.known with hr | hr
        · rw [hr] at h3; cases h3
        · rw [hr] at h3
          have hmsg := get?_of_mem_nodup pi.w.1 h3
          exact ⟨n, km.1, h1, message_due parts layout exports os ho n p km.1 hp (by rw [hmsg]; simp)⟩
  · right; left
    intro hc
    exact h (by rw [if_neg (by simp only [Classical.not_not]; exact (hc.trans hi.column.symm))])
  · right; right
    intro hc
    exact h (by rw [if_neg (by simp only [Classical.not_not]; exact (hc.trans hi.exports.symm))])

/-- As long as nothing is saved or loaded while a setting differs, and no design with tables is loaded, a manager says it is modified exactly when it is -/
theorem modified_iff_partial (parts : List (Name × Dict Name Val)) (layout : List (Name × Bool)) (exports : List (String × Name))
    (os : List Op) (ho : ∀ o ∈ os, GoodOp o) :
    let m0 := Manager.start parts layout exports
    let m := m0.ops os
    let d := m0.snapshot.last m0 os
    (∀ n k, ¬ Left m0 os n k ∧ ¬ LoadedTable m0 os n k) → (∀ n k, m.value n k ≠ none → d.setting n k ≠ none) →
    (m.modified = true ↔ (∃ n k, m.Visible n ∧ Differs d m n k) ∨ m.column ≠ d.column ∨ m.exports ≠ d.exports) := by
  intro m0 m d hleft hall
  constructor
  · intro hm
    rcases modified_differs_partial parts layout exports os ho hm with ⟨n, k, h1, h2 | h2 | h2⟩ | h
    · exact .inl ⟨n, k, h1, h2⟩
    · exact absurd h2 (hleft n k).1
    · exact absurd h2 (hleft n k).2
    · exact .inr h
  · intro h
    cases hm : m.modified with
    | true => rfl
    | false =>
      exfalso
      obtain ⟨h1, h2, h3⟩ := unmodified_is_saved parts layout exports os ho hm
      rcases h with ⟨n, k, hv, hd⟩ | h | h
      · cases hval : m.value n k with
        | none => exact hd.1 hval
        | some v =>
          cases hs : d.setting n k with
          | none => exact hall n k (by rw [hval]; simp) hs
          | some s => exact hd.2 (by rw [hval, hs, h1 n k s v hv hs hval])
      · exact h h2
      · exact h h3

/-! ## Histories -/

theorem value_map (m : Manager) (n k : Name) : m.value n k =
    ((m.parts.map fun p => (p.name, p.settings)).find? fun p => p.1 = n).bind fun p => p.2.get? k := by
  unfold Manager.value Manager.part?
  induction m.parts with
  | nil => rfl
  | cons p ps ih =>
    rw [List.map_cons]
    simp only [List.find?_cons]
    cases h : decide (p.name = n) with
    | true => rfl
    | false => exact ih

/-- Two parts, one of them hidden -/
def demo : Manager :=
  .start [("A", [("k", .plain "0"), ("j", .plain "0"), ("t", .table "r")]), ("B", [("k", .plain "5")])] [("A", true), ("B", false)] [("A.k", "gain")]

example : (demo.ops [.change "A" "k" (.plain "1")]).modified = true := by decide +kernel
example : (demo.ops [.change "A" "k" (.plain "1"), .change "A" "k" (.plain "0")]).modified = false := by decide +kernel
example : (demo.ops [.change "A" "k" (.plain "1"), .save]).modified = false := by decide +kernel
example : (demo.ops [.change "B" "k" (.plain "1")]).modified = false := by decide +kernel
example : (demo.ops [.change "B" "k" (.plain "1"), .layout fun _ => true]).modified = true := by decide +kernel
example : (demo.ops [.exports []]).alarm = [.exports] := by decide +kernel
example : (demo.ops [.layout fun _ => true]).alarm = [.layout] := by decide +kernel
example : (demo.ops [.change "A" "k" (.plain "1"), .load (fun _ => true) [] [("A", [("k", .plain "3")])]]).modified = false := by decide +kernel
example : (demo.ops [.change "A" "k" (.plain "1"), .load (fun _ => true) [] [("A", [("k", .plain "3")])], .change "A" "k" (.plain "1")]).alarm =
    [.setting "A" "k" (.plain "1", some ⟨.plain "3", true⟩)] := by decide +kernel
example : GoodOp (.load (fun _ => true) [] [("A", [("k", .plain "3")])]) := by
  intro s hs
  simp [Dict.values] at hs
  subst hs
  simp [Dict.keys]

/-- The hypotheses of `modified_iff_partial` are met by a history with changes and no save -/
example : (∀ n k, ¬ Left demo [.change "A" "k" (.plain "1")] n k ∧ ¬ LoadedTable demo [.change "A" "k" (.plain "1")] n k) ∧
    ∀ n k, (demo.ops [.change "A" "k" (.plain "1")]).value n k ≠ none →
      (demo.snapshot.last demo [.change "A" "k" (.plain "1")]).setting n k ≠ none := by
  refine ⟨fun n k => ⟨?_, ?_⟩, ?_⟩
  · rintro ⟨os1, o, os2, h1, h2, _⟩
    have : o ∈ [Op.change "A" "k" (.plain "1")] := by rw [h1]; simp
    rw [List.mem_singleton.1 this] at h2
    cases h2
  · rintro ⟨_, vis, e, c, h, _⟩
    cases List.mem_singleton.1 h
  · intro n k
    show _ → demo.value n k ≠ none
    have h1 : (demo.ops [.change "A" "k" (.plain "1")]).parts.map (fun p => (p.name, p.settings)) =
        [("A", [("k", .plain "1"), ("j", .plain "0"), ("t", .table "r")]), ("B", [("k", .plain "5")])] := by
      decide +kernel
    have h2 : demo.parts.map (fun p => (p.name, p.settings)) =
        [("A", [("k", .plain "0"), ("j", .plain "0"), ("t", .table "r")]), ("B", [("k", .plain "5")])] := by
      decide +kernel
    rw [value_map, value_map, h1, h2]
    simp only [List.find?_cons, List.find?_nil]
    cases decide ("A" = n) with
    | true =>
      simp only [Option.bind_some, get?_cons]
      split
      · simp
      · split
        · simp
        · split <;> simp [Dict.get?]
    | false => exact fun h => h

/-- The history of `stale_message` -/
def stale : List Op := [.change "A" "k" (.plain "1"), .save, .change "A" "j" (.plain "1"), .change "A" "j" (.plain "0")]

/-- A setting is changed, the design is saved, and another setting is changed and changed back.  Every setting, the layout and
the exports are as saved, and the manager says it is modified: the message of the first setting is told again, as a part keeps
its messages when it is saved. -/
theorem stale_message :
    let d := demo.snapshot.last demo stale
    (demo.ops stale).modified = true ∧ (demo.ops stale).alarm = [.setting "A" "k" (.plain "1", some ⟨.plain "0", false⟩)] ∧
    (∀ n k, (demo.ops stale).value n k = d.setting n k) ∧ (demo.ops stale).column = d.column ∧ (demo.ops stale).exports = d.exports := by
  refine ⟨by decide +kernel, by decide +kernel, ?_, by decide +kernel, by decide +kernel⟩
  intro n k
  have h1 : (demo.ops stale).parts.map (fun p => (p.name, p.settings)) =
      (demo.ops [.change "A" "k" (.plain "1")]).parts.map (fun p => (p.name, p.settings)) := by decide +kernel
  show (demo.ops stale).value n k = (demo.ops [.change "A" "k" (.plain "1")]).value n k
  rw [value_map, value_map, h1]

/-- A design with a table is loaded, the table is changed and changed back.  Everything is as the design says, and the manager
says it is modified: a table is never equal to what is read for it from the file. -/
theorem loaded_table :
    let os : List Op := [.load (fun n => n = "A") [("A.k", "gain")] [("A", [("t", .table "r")])], .change "A" "t" (.table "q"),
      .change "A" "t" (.table "r")]
    let d := demo.snapshot.last demo os
    (demo.ops os).modified = true ∧ (∀ n k s, d.setting n k = some s → (demo.ops os).value n k = some s) ∧
    (demo.ops os).column = d.column ∧ (demo.ops os).exports = d.exports := by
  refine ⟨by decide +kernel, ?_, by decide +kernel, by decide +kernel⟩
  intro n k s
  show (if n ∈ ["A", "B"] then ((Dict.get? [("A", [("t", Val.table "r")])] n).bind fun s => Dict.get? s k) else none) = some s → _
  intro h
  have hA : n = "A" := by
    refine Classical.byContradiction fun hc => ?_
    rw [get?_cons, if_neg (Ne.symm hc)] at h
    split at h <;> cases h
  subst hA
  have hk : k = "t" ∧ s = .table "r" := by
    rw [if_pos (by simp), get?_cons, if_pos rfl, Option.bind_some, get?_cons] at h
    split at h
    · rename_i hk
      injection h with h
      exact ⟨hk.symm, h.symm⟩
    · cases h
  obtain ⟨rfl, rfl⟩ := hk
  decide +kernel

/-- A setting is changed after a part has given what is saved and before the save is over: the manager says it is not modified,
and the setting is not as saved. -/
theorem change_while_saving :
    let written := demo.saveHooks.snapshot
    let m := (demo.saveHooks.change "A" "k" (.plain "1")).markClean
    m.modified = false ∧ m.Visible "A" ∧ written.setting "A" "k" = some (.plain "0") ∧ m.value "A" "k" = some (.plain "1") := by
  refine ⟨by decide +kernel, ?_, by decide +kernel, by decide +kernel⟩
  show ("A", true) ∈ demo.layout
  simp [demo, Manager.start]

/-- What a load puts to a child: each setting of the design that the child has with another value, and each table that the child has;
nothing that the child does not have. -/
theorem puts_iff (p : Part) (k : Name) (v : Val) :
    p.needs k v = true ↔ ∃ w, p.settings.get? k = some w ∧ (w ≠ v ∨ ∃ s, w = .table s) := by
  unfold Part.needs
  cases hg : p.settings.get? k with
  | none => simp
  | some w =>
    simp only [Option.some.injEq, exists_eq_left']
    cases w with
    | plain s => simp [Saved.eq, Val.isTable]; exact ⟨Ne.symm, Ne.symm⟩
    | table s => simp [Saved.eq, Val.isTable]

/-- A setting that is not in the design counts as changed as soon as it is told: the message says what it is. -/
theorem unsaved_is_modified (p : Part) (k : Name) (v : Val) (h : p.saved.get? k = none) :
    (p.put k v).1.messages.get? k = some (v, none) := by
  simp only [Part.put, Part.send, h, eq?]
  simp only [Bool.false_eq_true, if_false]
  by_cases hm : some (v, (none : Option Saved)) = p.messages.get? k
  · rw [if_neg (by simpa using hm)]; exact hm.symm
  · rw [if_pos hm]; exact Dict.get?_set_self ..

example : (({ name := "A", settings := [("k", .plain "0")], saved := [] } : Part).put "k" (.plain "1")).1.messages.get? "k" =
    some (.plain "1", none) := by decide +kernel

end Verif.Modified
