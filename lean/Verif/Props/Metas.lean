import Verif.Spec.Metas
import Verif.Proofs.Metas
/-! C24, C25: validated values are canonical; tables. -/
set_option linter.unusedVariables false
namespace Verif.Props.Metas
open Verif Verif.Meta

theorem toNp_ok (e : Ext) (t : ElTyp) (c w : Col) (hw : c.WF) (hp : e.wraps = false ∨ c.Plain)
    (h : e.toNpArray t (.col c) = .ok w) : ∃ np xs, w = .arr t np xs ∧ ∀ x ∈ xs, x.hasTyp t = true := by
  have cast_all : ∀ xs ys, mapE (e.cast t) xs = .ok ys → ∀ y ∈ ys, y.hasTyp t = true := by
    intro xs ys hm y hy
    obtain ⟨x, _, hx⟩ := mapE_mem hm y hy
    exact e.cast_typed _ _ _ hx
  cases c with
  | scalar x =>
    cases x with
    | none =>
      simp only [Ext.toNpArray, Ext.toArray, Except.ok.injEq] at h
      exact ⟨false, [], h.symm, by simp⟩
    | str s => simp [Ext.toNpArray] at h
    | _ =>
      rcases hp with hp | hp
      · simp [Ext.toNpArray, Ext.toArray, hp] at h
      · exact absurd hp (by simp [Col.Plain])
  | list xs =>
    simp only [Ext.toNpArray] at h
    cases hm : mapE (e.cast t) xs with
    | error er => rw [hm] at h; cases h
    | ok ys =>
      rw [hm] at h
      simp only [Except.ok.injEq] at h
      exact ⟨true, ys, h.symm, cast_all _ _ hm⟩
  | nd t' xs =>
    rcases hp with hp | hp
    · simp only [Ext.toNpArray, Ext.toArray, hp] at h
      split at h
      · rename_i he
        simp only [Except.ok.injEq] at h
        subst he
        exact ⟨true, xs, h.symm, hw⟩
      · simp at h
    · exact absurd hp (by simp [Col.Plain])
  | arr t' np xs =>
    simp only [Ext.toNpArray] at h
    split at h
    · rename_i he
      simp only [Except.ok.injEq] at h
      obtain ⟨h1, h2⟩ := he
      subst h1; subst h2
      exact ⟨true, xs, h.symm, hw⟩
    · cases hm : mapE (e.cast t) xs with
      | error er => rw [hm] at h; cases h
      | ok ys =>
        rw [hm] at h
        simp only [Except.ok.injEq] at h
        exact ⟨true, ys, h.symm, cast_all _ _ hm⟩

theorem keyOf_value (e : Ext) (c : Choices) (x y : Scalar) (hy : y ∈ c.values)
    (h : e.keyOf x = e.keyOf y) : x = y := by
  have key : ∀ z : Scalar, (∀ s, e.keyOf z = .str s → z = .str s) ∧
      (∀ a b, e.keyOf z = .enum a b → z = .enum a b) := by
    intro z
    constructor
    · intro s hs
      cases z <;> simp [Ext.keyOf] at hs ⊢
      case float => split at hs <;> cases hs
      case num => split at hs <;> cases hs
      case str => exact hs
    · intro a b hs
      cases z <;> simp [Ext.keyOf] at hs ⊢
      case float => split at hs <;> cases hs
      case num => split at hs <;> cases hs
      case enum => exact hs
  cases c with
  | strs l =>
    obtain ⟨s, _, rfl⟩ := List.mem_map.1 hy
    exact (key x).1 s h
  | enums cl l =>
    obtain ⟨s, _, rfl⟩ := List.mem_map.1 hy
    exact (key x).2 _ _ h

theorem keys_eq (e : Ext) (c : Choices) (xs ys : List Scalar) (hy : ∀ y ∈ ys, y ∈ c.values)
    (h : xs.map e.keyOf = ys.map e.keyOf) : xs = ys := by
  induction xs generalizing ys with
  | nil =>
    cases ys with
    | nil => rfl
    | cons y ys => simp at h
  | cons x xs ih =>
    cases ys with
    | nil => simp at h
    | cons y ys =>
      simp only [List.map_cons, List.cons.injEq] at h
      rw [keyOf_value e c x y (hy y (by simp)) h.1, ih ys (fun z hz => hy z (by simp [hz])) h.2]

theorem choiceArray_ok (e : Ext) (c : Choices) (v : Val) (w : Col) (hc : c.values ≠ [])
    (h : e.validateChoiceArray c v = .ok w) :
    ∃ np xs, w = .arr c.typ np xs ∧ ∀ x ∈ xs, x ∈ c.values := by
  have body : ∀ u : Val, (match (choiceArg u).iter with
      | .error er => .error er
      | .ok xs =>
        match mapE (e.choose c) xs with
        | .error er => .error er
        | .ok ys =>
          match u with
          | .col (.arr t np xs) =>
            if t = c.typ ∧ xs.map e.keyOf = ys.map e.keyOf then .ok (.arr t np xs)
            else .ok (.arr c.typ false ys)
          | _ => .ok (.arr c.typ false ys)) = Except.ok w →
      ∃ np xs, w = .arr c.typ np xs ∧ ∀ x ∈ xs, x ∈ c.values := by
    intro u h
    cases hi : (choiceArg u).iter with
    | error er => rw [hi] at h; cases h
    | ok xs =>
      rw [hi] at h
      dsimp only at h
      cases hm : mapE (e.choose c) xs with
      | error er => rw [hm] at h; cases h
      | ok ys =>
        rw [hm] at h
        dsimp only at h
        have hys : ∀ y ∈ ys, y ∈ c.values := by
          intro y hy
          obtain ⟨x, _, hx⟩ := mapE_mem hm y hy
          rcases choose_sound e c x y hx with h | ⟨h, _⟩
          · exact h
          · exact absurd h hc
        split at h
        · rename_i t np zs
          split at h
          · rename_i he
            obtain ⟨h1, h2⟩ := he
            have := keys_eq e c zs ys hys h2
            simp only [Except.ok.injEq] at h
            rw [← h, h1, this]
            exact ⟨np, ys, rfl, hys⟩
          · simp only [Except.ok.injEq] at h
            exact ⟨false, ys, h.symm, hys⟩
        · simp only [Except.ok.injEq] at h
          exact ⟨false, ys, h.symm, hys⟩
  unfold Ext.validateChoiceArray at h
  split at h
  · simp only [Except.ok.injEq] at h
    exact ⟨false, [], h.symm, by simp⟩
  · exact body v h

/-- An accepted value of an array meta is an Array of its type. -/
theorem arr_ok (e : Ext) (m : ArrMeta) (v w : Col) (hv : v.WF) (hp : e.wraps = false ∨ v.Plain)
    (hc : m.HasChoices) (h : e.validateArr m (.col v) = .ok w) : ColOk m w := by
  cases m with
  | bool =>
    obtain ⟨np, xs, rfl, hx⟩ := toNp_ok e _ v w hv hp h
    exact ⟨rfl, hx, trivial⟩
  | num d =>
    obtain ⟨np, xs, rfl, hx⟩ := toNp_ok e _ v w hv hp h
    exact ⟨rfl, hx, trivial⟩
  | str =>
    simp only [Ext.validateArr, Ext.validateStringArray] at h
    cases ht : e.toArray .str (.col v) with
    | error er => rw [ht] at h; cases h
    | ok c =>
      rw [ht] at h
      cases c with
      | arr t np xs =>
        dsimp only at h
        split at h
        · rename_i ha
          simp only [Except.ok.injEq] at h
          subst h
          have ht' : t = .str := by
            cases v with
            | scalar x =>
              cases x <;> simp [Ext.toArray] at ht
              all_goals first
                | exact ht.1.symm
                | (split at ht
                   · simp at ht; exact ht.1.symm
                   · cases ht)
            | list xs => simp [Ext.toArray] at ht; exact ht.1.symm
            | nd t' xs =>
              simp only [Ext.toArray] at ht
              split at ht
              · simp at ht; exact ht.1.symm
              · split at ht
                · simp at ht; exact ht.1.symm
                · cases ht
            | arr t' np' xs' =>
              simp only [Ext.toArray] at ht
              split at ht
              · simp at ht; exact ht.1.symm
              · cases ht
          subst ht'
          exact ⟨rfl, by simpa using ha, trivial⟩
        · cases h
      | _ => cases h
  | choice c =>
    obtain ⟨np, xs, rfl, hx⟩ := choiceArray_ok e c _ w hc h
    exact ⟨rfl, fun x hxx => values_hasTyp c x (hx x hxx), hx⟩

/-- A value of the right type is accepted by an array meta, unchanged but perhaps for being wrapped
in a numpy array. -/
theorem arr_again (e : Ext) (m : ArrMeta) (w : Col) (hw : ColOk m w) :
    ∃ w', e.validateArr m (.col w) = .ok w' ∧ w'.forget = w.forget ∧ ColOk m w' := by
  cases w with
  | arr t np xs =>
    obtain ⟨rfl, hx, hm⟩ := hw
    have np_case : ∀ t, (∀ x ∈ xs, x.hasTyp t = true) →
        ∃ np', e.toNpArray t (.col (.arr t np xs)) = .ok (.arr t np' xs) := by
      intro t hx
      simp only [Ext.toNpArray]
      split
      · exact ⟨np, rfl⟩
      · rw [mapE_self (fun x h => e.cast_id t x (hx x h))]
        exact ⟨true, rfl⟩
    cases m with
    | bool =>
      obtain ⟨np', h⟩ := np_case _ hx
      exact ⟨_, h, rfl, rfl, hx, trivial⟩
    | num d =>
      obtain ⟨np', h⟩ := np_case _ hx
      exact ⟨_, h, rfl, rfl, hx, trivial⟩
    | str =>
      refine ⟨.arr .str np xs, ?_, rfl, rfl, hx, trivial⟩
      have : xs.all (fun x => x.hasTyp .str) = true := by simpa [ArrMeta.typ] using hx
      simp only [Ext.validateArr, Ext.validateStringArray, Ext.toArray, ArrMeta.typ, if_true, this]
    | choice c =>
      refine ⟨.arr c.typ np xs, ?_, rfl, rfl, hx, hm⟩
      simp only [Ext.validateArr, Ext.validateChoiceArray, choiceArg, Val.iter, ArrMeta.typ]
      rw [mapE_self (fun x h => choose_values e c x (hm x h))]
      simp
  | _ => exact absurd hw (by simp [ColOk])

theorem columns_spec (e : Ext) (value : Dict String Col) (els : Dict String ArrMeta)
    (cols : Dict String Col) :
    e.validateColumns value els = .ok cols ↔
      cols.keys = els.keys ∧ ∀ p ∈ els.zip cols,
        ∃ c, Dict.get? value p.1.1 = some c ∧ e.validateArr p.1.2 (.col c) = .ok p.2.2 := by
  induction els generalizing cols with
  | nil =>
    cases cols with
    | nil => simp [Ext.validateColumns, Dict.keys]
    | cons _ _ => simp [Ext.validateColumns, Dict.keys]
  | cons km els ih =>
    obtain ⟨k, m⟩ := km
    unfold Ext.validateColumns
    constructor
    · intro h
      cases hg : Dict.get? value k with
      | none => rw [hg] at h; cases h
      | some c =>
        rw [hg] at h
        dsimp only at h
        cases hv : e.validateArr m (.col c) with
        | error er => rw [hv] at h; cases h
        | ok c' =>
          rw [hv] at h
          dsimp only at h
          cases hr : e.validateColumns value els with
          | error er => rw [hr] at h; cases h
          | ok d =>
            rw [hr] at h
            simp only [Except.ok.injEq] at h
            subst h
            obtain ⟨h1, h2⟩ := (ih d).1 hr
            refine ⟨by simp only [Dict.keys, List.map_cons]; exact congrArg _ h1, ?_⟩
            intro p hp
            rw [List.zip_cons_cons] at hp
            rcases List.mem_cons.1 hp with h | h
            · subst h; exact ⟨c, hg, hv⟩
            · exact h2 p h
    · rintro ⟨h1, h2⟩
      cases cols with
      | nil => simp [Dict.keys] at h1
      | cons kc cols =>
        obtain ⟨k', c'⟩ := kc
        simp only [Dict.keys, List.map_cons, List.cons.injEq] at h1
        obtain ⟨hk, h1⟩ := h1
        subst hk
        obtain ⟨c, hg, hv⟩ := h2 ((k', m), (k', c')) (by simp)
        rw [hg]
        dsimp only at hv ⊢
        rw [hv]
        dsimp only
        rw [(ih cols).2 ⟨h1, fun p hp => h2 p (by
          rw [List.zip_cons_cons]; exact List.mem_cons_of_mem _ hp)⟩]

theorem columnLengthsOk_iff (d : Dict String Col) :
    columnLengthsOk d = true ↔ d ≠ [] ∧ ∃ n, ∀ c ∈ d.values, c.length = n := by
  unfold columnLengthsOk Dict.values
  cases d with
  | nil => simp
  | cons kc d =>
    simp only [List.map_cons]
    constructor
    · intro h
      refine ⟨by simp, kc.2.length, ?_⟩
      intro c hc
      rcases List.mem_cons.1 hc with h1 | h1
      · rw [h1]
      · simp only [List.all_eq_true, List.mem_map] at h
        have := h c.length ⟨c, List.mem_map.1 h1, rfl⟩
        simpa using this
    · rintro ⟨_, n, hn⟩
      have h0 := hn kc.2 (by simp)
      simp only [List.all_eq_true]
      intro x hx
      obtain ⟨c, hc, rfl⟩ := List.mem_map.1 hx
      have := hn c (List.mem_cons_of_mem _ hc)
      simp [this, h0]

/-- C25: a table meta accepts exactly the dictionaries (or Tables) that have its columns and no
other (the key `typeid` aside), whose columns are each accepted, and come out with one common
length; and what comes out has the declared columns in the declared order. -/
theorem table_accepted_iff (e : Ext) (els : Dict String ArrMeta) (given : Dict String Col) (w : Val) :
    e.validate (.table els) (.dict given) = .ok w ↔
      (∀ k, k ≠ "typeid" → k ∈ given.keys → k ∈ els.keys) ∧
      (∀ k ∈ els.keys, k ≠ "typeid" ∧ k ∈ given.keys) ∧
      ∃ cols, w = .table cols ∧ cols.keys = els.keys ∧
        (∀ p ∈ els.zip cols, ∃ c, Dict.get? given p.1.1 = some c ∧
          e.validateArr p.1.2 (.col c) = .ok p.2.2) ∧
        els ≠ [] ∧ ∃ n, ∀ c ∈ cols.values, c.length = n := by
  simp only [Ext.validate, Ext.validateTable, tableArg]
  have ne : ∀ cols : Dict String Col, cols.keys = els.keys → (cols ≠ [] ↔ els ≠ []) := by
    intro cols h
    cases cols <;> cases els <;> simp [Dict.keys] at h ⊢
  constructor
  · intro h
    split at h
    · cases h
    · rename_i h1
      split at h
      · cases h
      · rename_i h2
        simp only [List.any_eq_true, not_exists, not_and, Bool.not_eq_true', decide_eq_false_iff_not,
          Decidable.not_not, List.mem_filter, decide_eq_true_eq] at h1 h2
        cases hc : e.validateColumns given els with
        | error er => rw [hc] at h; cases h
        | ok cols =>
          rw [hc] at h
          dsimp only at h
          obtain ⟨c1, c2⟩ := (columns_spec e given els cols).1 hc
          split at h
          · rename_i hl
            simp only [Except.ok.injEq] at h
            obtain ⟨l1, l2⟩ := (columnLengthsOk_iff cols).1 hl
            refine ⟨?_, ?_, cols, h.symm, c1, c2, (ne _ c1).1 l1, l2⟩
            · intro k hk hm; exact h2 k ⟨hm, by simpa using hk⟩
            · intro k hk
              have := h1 k hk
              by_cases hg : k ∈ given.keys
              · exact ⟨fun he => this (fun _ => he), hg⟩
              · exact (this (fun h => absurd h hg)).elim
          · cases h
  · rintro ⟨h1, h2, cols, rfl, h3, h4, h5, h6⟩
    have a1 : els.keys.any (fun k => !decide (k ∈ given.keys.filter (· ≠ "typeid"))) = false := by
      rw [List.any_eq_false]
      intro k hk
      have := h2 k hk
      simp [List.mem_filter, this.1, this.2]
    have a2 : (given.keys.filter (· ≠ "typeid")).any (fun k => !decide (k ∈ els.keys)) = false := by
      rw [List.any_eq_false]
      intro k hk
      simp only [List.mem_filter, decide_eq_true_eq] at hk
      have := h1 k (by simpa using hk.2) hk.1
      simp [this]
    rw [a1, a2]
    simp only [Bool.false_eq_true, if_false]
    rw [(columns_spec e given els cols).2 ⟨h3, h4⟩]
    dsimp only
    rw [if_pos ((columnLengthsOk_iff cols).2 ⟨(ne _ h3).2 h5, h6⟩)]

theorem zip_lookup {els : Dict String ArrMeta} {cols : Dict String Col} (hn : els.keys.Nodup)
    (hk : cols.keys = els.keys) {k : String} {m : ArrMeta} {c : Col} (hm : (k, m) ∈ els)
    (hc : Dict.get? cols k = some c) : ((k, m), (k, c)) ∈ els.zip cols := by
  induction els generalizing cols with
  | nil => simp at hm
  | cons km els ih =>
    cases cols with
    | nil => simp [Dict.keys] at hk
    | cons kc cols =>
      obtain ⟨k0, m0⟩ := km
      obtain ⟨k1, c1⟩ := kc
      simp only [Dict.keys, List.map_cons, List.cons.injEq] at hk
      obtain ⟨rfl, hk⟩ := hk
      rw [List.zip_cons_cons]
      simp only [Dict.keys, List.map_cons, List.nodup_cons] at hn
      rcases List.mem_cons.1 hm with h | h
      · simp only [Prod.mk.injEq] at h
        obtain ⟨rfl, rfl⟩ := h
        simp only [Dict.get?, if_true, Option.some.injEq] at hc
        subst hc
        simp
      · have hne : k1 ≠ k := by
          intro he; subst he
          exact hn.1 (List.mem_map.2 ⟨_, h, rfl⟩)
        simp only [Dict.get?, if_neg hne] at hc
        exact List.mem_cons_of_mem _ (ih hn.2 hk h hc)

theorem get?_mem_values {cols : Dict String Col} {k : String} {c : Col}
    (h : Dict.get? cols k = some c) : c ∈ cols.values := by
  have := Dict.get?_mem h
  exact List.mem_map.2 ⟨_, this, rfl⟩

/-- C24 (type): an accepted value comes out with the declared type. `hnum`: a number meta given a
sequence hands back a numpy array (`number_meta_accepts_list`). -/
theorem validated_has_type_partial (e : Ext) (m : VMeta) (v w : Val) (hv : v.WF)
    (hp : e.wraps = false ∨ PlainFor m v) (hc : m.HasChoices)
    (hn : ∀ els, m = .table els → els.keys.Nodup)
    (hnum : ∀ d, m = .num d → ∃ x, v = .col (.scalar x))
    (h : e.validate m v = .ok w) : Conforms m w := by
  cases m with
  | bool =>
    simp only [Ext.validate] at h
    unfold Ext.validateBool at h
    split at h
    · simp only [Except.ok.injEq] at h; exact ⟨_, h.symm⟩
    · simp only [Except.ok.injEq] at h; exact ⟨_, h.symm⟩
    · cases h
  | num d =>
    obtain ⟨x, rfl⟩ := hnum d rfl
    simp only [Ext.validate, Ext.validateNum] at h
    cases hcast : e.cast (.num d) (if x = .none then .int 0 else x) with
    | error er => rw [hcast] at h; cases h
    | ok y =>
      rw [hcast] at h
      simp only [Except.ok.injEq] at h
      have ht := e.cast_typed _ _ _ hcast
      cases y with
      | num d' b =>
        simp only [Scalar.hasTyp, decide_eq_true_eq] at ht
        subst ht
        exact ⟨b, h.symm⟩
      | _ => simp [Scalar.hasTyp] at ht
  | str =>
    simp only [Ext.validate] at h
    unfold Ext.validateStr at h
    split at h <;> (simp only [Except.ok.injEq] at h; exact ⟨_, h.symm⟩)
  | choice c =>
    simp only [Ext.validate] at h
    unfold Ext.validateChoice at h
    split at h
    · rename_i x
      cases hx : e.choose c x with
      | error er => rw [hx] at h; cases h
      | ok y =>
        rw [hx] at h
        simp only [Except.ok.injEq] at h
        rcases choose_sound e c x y hx with h1 | ⟨h1, _⟩
        · exact ⟨y, h1, h.symm⟩
        · exact absurd h1 hc
    · cases h
  | arr m =>
    simp only [Ext.validate] at h
    cases v with
    | col c =>
      cases hx : e.validateArr m (.col c) with
      | error er => rw [hx] at h; cases h
      | ok y =>
        rw [hx] at h
        simp only [Except.ok.injEq] at h
        exact ⟨y, h.symm, arr_ok e m c y hv (by simpa [PlainFor] using hp) hc hx⟩
    | dict d =>
      cases m with
      | choice c =>
        cases hx : e.validateArr (.choice c) (.dict d) with
        | error er => rw [hx] at h; cases h
        | ok y =>
          rw [hx] at h
          simp only [Except.ok.injEq] at h
          obtain ⟨np, xs, rfl, hxs⟩ := choiceArray_ok e c (.dict d) y hc hx
          exact ⟨_, h.symm, rfl, fun x hxx => values_hasTyp c x (hxs x hxx), hxs⟩
      | _ => simp [Ext.validateArr, Ext.toNpArray, Ext.validateStringArray, Ext.toArray] at h
    | table d =>
      cases m with
      | choice c =>
        cases hx : e.validateArr (.choice c) (.table d) with
        | error er => rw [hx] at h; cases h
        | ok y =>
          rw [hx] at h
          simp only [Except.ok.injEq] at h
          obtain ⟨np, xs, rfl, hxs⟩ := choiceArray_ok e c (.table d) y hc hx
          exact ⟨_, h.symm, rfl, fun x hxx => values_hasTyp c x (hxs x hxx), hxs⟩
      | _ => simp [Ext.validateArr, Ext.toNpArray, Ext.validateStringArray, Ext.toArray] at h
  | table els =>
    have common : ∀ given : Dict String Col, (∀ c ∈ given.values, c.WF) →
        (e.wraps = false ∨ ∀ c ∈ given.values, c.Plain) →
        e.validate (.table els) (.dict given) = .ok w → Conforms (.table els) w := by
      intro given hg hpl h
      obtain ⟨_, _, cols, rfl, h3, h4, _, h6⟩ := (table_accepted_iff e els given w).1 h
      refine ⟨cols, rfl, h3, ?_, h6⟩
      intro k m c hm hgc
      obtain ⟨c0, hc0, hv0⟩ := h4 _ (zip_lookup (hn els rfl) h3 hm hgc)
      have hmem := get?_mem_values hc0
      refine arr_ok e m c0 c (hg c0 hmem) ?_ (hc _ hm) hv0
      rcases hpl with hpl | hpl
      · exact .inl hpl
      · exact .inr (hpl c0 hmem)
    cases v with
    | col c =>
      simp only [Ext.validate, Ext.validateTable] at h
      have he : ∀ u : Col, u = .scalar .none ∨ u ≠ .scalar .none := fun u => by
        by_cases hu : u = .scalar .none
        · exact .inl hu
        · exact .inr hu
      rcases he c with rfl | hne
      · apply common (els.map (fun kv => (kv.1, .scalar .none)))
        · intro c hc; obtain ⟨a, ha, rfl⟩ := List.mem_map.1 hc
          obtain ⟨b, _, rfl⟩ := List.mem_map.1 ha
          exact trivial
        · right
          intro c hc; obtain ⟨a, ha, rfl⟩ := List.mem_map.1 hc
          obtain ⟨b, _, rfl⟩ := List.mem_map.1 ha
          exact trivial
        · simpa only [Ext.validate, Ext.validateTable, tableArg] using h
      · have : tableArg els (.col c) = .error .value := by
          cases c with
          | scalar x => cases x <;> first | rfl | exact absurd rfl hne
          | _ => rfl
        rw [this] at h; cases h
    | dict d => exact common d hv (by simpa [PlainFor] using hp) h
    | table d => exact common d hv (by simpa [PlainFor] using hp) (by simpa only [Ext.validate, Ext.validateTable, tableArg] using h)

/-- A value of the declared type is accepted unchanged (but perhaps for an Array being wrapped in a
numpy array). -/
theorem conforming_accepted (e : Ext) (m : VMeta) (w : Val)
    (hn : ∀ els, m = .table els → els.keys.Nodup ∧ els ≠ [] ∧ "typeid" ∉ els.keys)
    (h : Conforms m w) :
    ∃ w', e.validate m w = .ok w' ∧ w'.forget = w.forget ∧ Conforms m w' := by
  cases m with
  | bool =>
    obtain ⟨b, rfl⟩ := h
    exact ⟨_, rfl, rfl, b, rfl⟩
  | num d =>
    obtain ⟨b, rfl⟩ := h
    refine ⟨.col (.scalar (.num d b)), ?_, rfl, b, rfl⟩
    simp only [Ext.validate, Ext.validateNum]
    rw [if_neg (by simp), e.cast_id _ _ (by simp [Scalar.hasTyp])]
  | str =>
    obtain ⟨s, rfl⟩ := h
    exact ⟨_, rfl, rfl, s, rfl⟩
  | choice c =>
    obtain ⟨x, hx, rfl⟩ := h
    refine ⟨.col (.scalar x), ?_, rfl, x, hx, rfl⟩
    simp only [Ext.validate, Ext.validateChoice]
    rw [choose_values e c x hx]
  | arr m =>
    obtain ⟨c, rfl, hc⟩ := h
    obtain ⟨w', h1, h2, h3⟩ := arr_again e m c hc
    refine ⟨.col w', ?_, by simp [Val.forget, h2], w', rfl, h3⟩
    simp only [Ext.validate, h1]
  | table els =>
    obtain ⟨cols, rfl, hk, hcol, n, hlen⟩ := h
    obtain ⟨hnd, hne, htid⟩ := hn els rfl
    -- validate the columns one by one
    have build : ∀ (els' : Dict String ArrMeta) (cols' : Dict String Col), cols'.keys = els'.keys →
        (∀ p ∈ els'.zip cols', Dict.get? cols p.1.1 = some p.2.2 ∧ ColOk p.1.2 p.2.2) →
        ∃ out : Dict String Col, out.keys = els'.keys ∧
          out.map (fun kc => (kc.1, kc.2.forget)) = cols'.map (fun kc => (kc.1, kc.2.forget)) ∧
          ∀ p ∈ els'.zip out, ∃ c, Dict.get? cols p.1.1 = some c ∧
            e.validateArr p.1.2 (.col c) = .ok p.2.2 ∧ ColOk p.1.2 p.2.2 := by
      intro els'
      induction els' with
      | nil =>
        intro cols' hk' _
        cases cols' with
        | nil => exact ⟨[], rfl, rfl, by simp⟩
        | cons _ _ => simp [Dict.keys] at hk'
      | cons km els' ih =>
        intro cols' hk' hp
        cases cols' with
        | nil => simp [Dict.keys] at hk'
        | cons kc cols' =>
          simp only [Dict.keys, List.map_cons, List.cons.injEq] at hk'
          obtain ⟨h0, hk'⟩ := hk'
          obtain ⟨out, o1, o2, o3⟩ := ih cols' hk' (fun p hpm => hp p (by
            rw [List.zip_cons_cons]; exact List.mem_cons_of_mem _ hpm))
          obtain ⟨g1, g2⟩ := hp (km, kc) (by simp)
          obtain ⟨c', v1, v2, v3⟩ := arr_again e km.2 kc.2 g2
          refine ⟨(km.1, c') :: out, ?_, ?_, ?_⟩
          · simp only [Dict.keys, List.map_cons]; exact congrArg _ o1
          · simp only [List.map_cons, List.cons.injEq]
            exact ⟨by rw [v2, h0], o2⟩
          · intro p hpm
            rw [List.zip_cons_cons] at hpm
            rcases List.mem_cons.1 hpm with h | h
            · subst h; exact ⟨kc.2, g1, v1, v3⟩
            · exact o3 p h
    have hget : ∀ (els' : Dict String ArrMeta) (cols' : Dict String Col), cols'.keys = els'.keys →
        cols'.keys.Nodup → ∀ p ∈ els'.zip cols', p.1.1 = p.2.1 ∧ p.1 ∈ els' ∧
          Dict.get? cols' p.2.1 = some p.2.2 := by
      intro els' cols' hk' hnd' p hp
      obtain ⟨i, hi, hpi⟩ := List.getElem_of_mem hp
      have hi1 : i < els'.length := by simp at hi; omega
      have hi2 : i < cols'.length := by simp at hi; omega
      have e1 : p = (els'[i], cols'[i]) := by rw [← hpi]; simp
      subst e1
      have hk2 : (cols'.map (·.1))[i]? = (els'.map (·.1))[i]? := by
        have : cols'.map (·.1) = els'.map (·.1) := hk'
        rw [this]
      rw [List.getElem?_map, List.getElem?_map, List.getElem?_eq_getElem hi1,
        List.getElem?_eq_getElem hi2] at hk2
      refine ⟨by simpa using hk2.symm, List.getElem_mem hi1, ?_⟩
      exact Dict.get?_of_mem_nodup hnd' (List.getElem_mem hi2)
    obtain ⟨out, o1, o2, o3⟩ := build els cols hk (by
      intro p hp
      obtain ⟨a1, a2, a3⟩ := hget els cols hk (by rw [hk]; exact hnd) p hp
      rw [a1]
      refine ⟨a3, hcol p.1.1 p.1.2 p.2.2 a2 ?_⟩
      rw [a1]; exact a3)
    have hlen2 : ∀ c ∈ out.values, c.length = n := by
      intro c hc
      obtain ⟨kc, hkc, rfl⟩ := List.mem_map.1 hc
      have : (kc.1, kc.2.forget) ∈ cols.map (fun kc => (kc.1, kc.2.forget)) := by
        rw [← o2]; exact List.mem_map.2 ⟨kc, hkc, rfl⟩
      obtain ⟨kc2, hkc2, heq⟩ := List.mem_map.1 this
      have l2 := hlen kc2.2 (List.mem_map.2 ⟨kc2, hkc2, rfl⟩)
      simp only [Prod.mk.injEq] at heq
      have fl : ∀ c : Col, c.forget.length = c.length := by
        intro c; cases c <;> rfl
      rw [← fl, ← heq.2, fl, l2]
    refine ⟨.table out, ?_, by simp [Val.forget, o2], out, rfl, o1, ?_, n, hlen2⟩
    · have h : e.validate (.table els) (.dict cols) = .ok (.table out) := by
        rw [table_accepted_iff]
        refine ⟨?_, ?_, out, rfl, o1, ?_, hne, n, hlen2⟩
        · intro k _ hk1; rw [← hk]; exact hk1
        · intro k hk1
          exact ⟨fun he => htid (he ▸ hk1), by rw [hk]; exact hk1⟩
        · intro p hp
          obtain ⟨c, c1, c2, _⟩ := o3 p hp
          exact ⟨c, c1, c2⟩
      simpa only [Ext.validate, Ext.validateTable, tableArg] using h
    · intro k m c hm hg
      obtain ⟨_, _, _, h4⟩ := o3 _ (zip_lookup hnd o1 hm hg)
      exact h4

/-- The meta is one a block can have: its table columns have distinct names, there is one, and
none is called `typeid`. -/
def VMeta.Sane (m : VMeta) : Prop :=
  ∀ els, m = .table els → els.keys.Nodup ∧ els ≠ [] ∧ "typeid" ∉ els.keys

/-- C24 (idempotence): validating a validated value changes nothing. -/
theorem validate_idempotent_partial (e : Ext) (m : VMeta) (v w : Val) (hs : VMeta.Sane m) (hv : v.WF)
    (hp : e.wraps = false ∨ PlainFor m v) (hc : m.HasChoices)
    (h : e.validate m v = .ok w) :
    ∃ w', e.validate m w = .ok w' ∧ w'.forget = w.forget := by
  by_cases hnum : ∀ d, m = .num d → ∃ x, v = .col (.scalar x)
  · obtain ⟨w', h1, h2, _⟩ := conforming_accepted e m w hs
      (validated_has_type_partial e m v w hv hp hc (fun els he => (hs els he).1) hnum h)
    exact ⟨w', h1, h2⟩
  · -- a number meta given a sequence
    obtain ⟨d, hnum⟩ := Classical.not_forall.1 hnum
    obtain ⟨rfl, hd⟩ := Classical.not_imp.1 hnum
    have key : ∀ xs, (match mapE (e.cast (.num d)) xs with
        | .error er => Except.error er
        | .ok ys => .ok (Val.col (.nd (.num d) ys))) = .ok w →
        ∃ w', e.validate (.num d) w = .ok w' ∧ w'.forget = w.forget := by
      intro xs hx
      cases hm : mapE (e.cast (.num d)) xs with
      | error er => rw [hm] at hx; cases hx
      | ok ys =>
        rw [hm] at hx
        simp only [Except.ok.injEq] at hx
        subst hx
        refine ⟨.col (.nd (.num d) ys), ?_, rfl⟩
        simp only [Ext.validate, Ext.validateNum]
        rw [mapE_self]
        intro y hy
        obtain ⟨x, _, hx⟩ := mapE_mem hm y hy
        exact e.cast_id _ _ (e.cast_typed _ _ _ hx)
    cases v with
    | col c =>
      cases c with
      | scalar x => exact absurd ⟨x, rfl⟩ hd
      | list xs => exact key xs h
      | nd t xs => exact key xs h
      | arr t np xs => exact key xs h
    | dict _ => cases h
    | table _ => cases h

/-- C24: a validated choice is one of the declared choices. -/
theorem choice_is_declared (e : Ext) (c : Choices) (hc : c.values ≠ []) (v w : Val)
    (h : e.validate (.choice c) v = .ok w) : ∃ x ∈ c.values, w = .col (.scalar x) := by
  simp only [Ext.validate] at h
  unfold Ext.validateChoice at h
  split at h
  · rename_i x
    cases hx : e.choose c x with
    | error er => rw [hx] at h; cases h
    | ok y =>
      rw [hx] at h
      simp only [Except.ok.injEq] at h
      rcases choose_sound e c x y hx with h1 | ⟨h1, _⟩
      · exact ⟨y, h1, h.symm⟩
      · exact absurd h1 hc
  · cases h

/-- C24: a string that is not a declared choice is rejected. -/
theorem undeclared_choice_rejected (e : Ext) (c : Choices) (s : String)
    (hs : ∀ x ∈ c.values, x ≠ .str s ∧ ∀ cl, x ≠ .enum cl s) :
    e.validate (.choice c) (.col (.scalar (.str s))) = .error .value := by
  simp only [Ext.validate, Ext.validateChoice, Ext.choose, Ext.keyOf]
  have : Dict.get? c.lookup (.str s) = none := by
    cases hg : Dict.get? c.lookup (.str s) with
    | none => rfl
    | some y =>
      exfalso
      unfold Choices.lookup at hg
      rw [Dict.get?_set_ne _ _ (by simp)] at hg
      refine choiceLoop_spec c.values (fun k y => k ≠ .str s) 0 [] ?_ ?_ (.str s) y hg rfl
      · intro k y hk; simp [Dict.get?] at hk
      · intro j x hj kv hkv
        have hx := List.mem_of_getElem? hj
        have hxs := hs x hx
        cases x with
        | str t =>
          simp only [choiceEntries, List.mem_cons, List.not_mem_nil, or_false] at hkv
          rcases hkv with rfl | rfl
          · have := hxs.1; simpa using this
          · simp
        | enum cl t =>
          simp only [choiceEntries, List.mem_cons, List.not_mem_nil, or_false] at hkv
          rcases hkv with rfl | rfl | rfl
          · have := hxs.2 cl; simpa using this
          · simp
          · simp
        | _ => simp [choiceEntries] at hkv
  rw [this]

/-- C24. A choice can be given by its index: index `i` selects the `i`-th declared choice, and an
index that is out of range is rejected. -/
theorem choice_by_index (e : Ext) (c : Choices) (i : Nat) :
    e.validate (.choice c) (.col (.scalar (.int i))) =
      match c.values[i]? with
      | some y => .ok (.col (.scalar y))
      | .none => .error .value := by
  have shape : ∀ y ∈ c.values, ∀ k kv, kv ∈ choiceEntries k y → ∀ n : Int, kv.1 = .int n → n = (k : Int) := by
    intro y hy k kv hkv n hn
    cases c with
    | strs l =>
      obtain ⟨s, _, rfl⟩ := List.mem_map.1 hy
      simp only [choiceEntries, List.mem_cons, List.not_mem_nil, or_false] at hkv
      rcases hkv with rfl | rfl
      · cases hn
      · simpa using hn.symm
    | enums cls l =>
      obtain ⟨s, _, rfl⟩ := List.mem_map.1 hy
      simp only [choiceEntries, List.mem_cons, List.not_mem_nil, or_false] at hkv
      rcases hkv with rfl | rfl | rfl
      · cases hn
      · cases hn
      · simpa using hn.symm
  have hl : Dict.get? c.lookup (.int i) = c.values[i]? := by
    unfold Choices.lookup
    rw [Dict.get?_set_ne _ _ (by simp)]
    cases hv : c.values[i]? with
    | some y =>
      have hy : y ∈ c.values := List.mem_of_getElem? hv
      refine choiceLoop_has c.values 0 [] (.int i) y i y hv ?_ ?_
      · cases c with
        | strs l => obtain ⟨s, _, rfl⟩ := List.mem_map.1 hy; simp [choiceEntries]
        | enums cls l => obtain ⟨s, _, rfl⟩ := List.mem_map.1 hy; simp [choiceEntries]
      · intro j d hj kv hkv hk
        have hd : d ∈ c.values := List.mem_of_getElem? hj
        have h1 := shape d hd _ kv hkv _ hk
        have h2 : i = j := by omega
        subst h2
        rw [hv] at hj
        have hdy : y = d := by simpa using hj
        subst hdy
        exact values_entries c y hy _ kv hkv
    | none =>
      cases hg : Dict.get? (choiceLoop 0 c.values []) (.int i) with
      | none => rfl
      | some y =>
        exfalso
        have := choiceLoop_spec c.values (fun k _ => ∀ n : Int, k = .int n → ∃ j : Nat, n = j ∧ c.values[j]? ≠ none)
          0 [] (by intro k y hk; simp [Dict.get?] at hk) (by
            intro j d hj kv hkv n hn
            have h1 := shape d (List.mem_of_getElem? hj) _ kv hkv n hn
            exact ⟨j, by omega, by rw [hj]; simp⟩) (.int i) y hg (i : Int) rfl
        obtain ⟨j, hj, hj2⟩ := this
        have h2 : i = j := by omega
        subst h2
        exact hj2 hv
  unfold Ext.validate Ext.validateChoice Ext.choose Ext.keyOf
  dsimp only
  rw [hl]
  cases c.values[i]? <;> rfl

/-- C24. A string given to a boolean is false exactly if it is empty or one of the ways of writing
"no": 0, False, false, FALSE, No, no, NO. -/
theorem bool_of_string (e : Ext) (s : String) :
    e.validate .bool (.col (.scalar (.str s))) =
      .ok (.col (.scalar (.bool (decide (s ∉ ["", "0", "False", "false", "FALSE", "No", "no", "NO"]))))) := by
  unfold Ext.validate Ext.validateBool
  dsimp only
  by_cases h : s ∈ falseStrings
  · rw [if_pos h]
    have : s ∈ ["", "0", "False", "false", "FALSE", "No", "no", "NO"] := List.mem_cons_of_mem _ h
    simp only [this, not_true_eq_false, decide_false]
  · rw [if_neg h]
    by_cases h2 : s = ""
    · subst h2; rfl
    · have : s ∉ ["", "0", "False", "false", "FALSE", "No", "no", "NO"] := by
        intro hc
        rcases List.mem_cons.1 hc with hc | hc
        · exact h2 hc
        · exact h hc
      simp only [this, not_false_eq_true, decide_true, ne_eq, h2]

/-- C24. A member of an enumeration given to a boolean is true, also one whose value is empty or zero. -/
theorem bool_of_enum (e : Ext) (c : String) (v : String) :
    e.validate .bool (.col (.scalar (.enum c v))) = .ok (.col (.scalar (.bool true))) := rfl

/-- C24. A number given to a boolean is false exactly if it is zero. -/
theorem bool_of_int (e : Ext) (n : Int) :
    e.validate .bool (.col (.scalar (.int n))) = .ok (.col (.scalar (.bool (decide (n ≠ 0))))) := by
  unfold Ext.validate Ext.validateBool
  rfl

/-- Every meta has a default: `None` is accepted (a table needs at least one column). -/
theorem none_is_accepted (e : Ext) (m : VMeta) (hs : VMeta.Sane m) :
    ∃ w, e.validate m (.col (.scalar .none)) = .ok w := by
  have arrNone : ∀ m : ArrMeta, e.validateArr m (.col (.scalar .none)) = .ok (.arr m.typ false []) := by
    intro m
    cases m <;> simp [Ext.validateArr, Ext.toNpArray, Ext.toArray, Ext.validateStringArray,
      Ext.validateChoiceArray, ArrMeta.typ]
  cases m with
  | bool => exact ⟨_, rfl⟩
  | num d =>
    obtain ⟨y, hy⟩ := e.cast_zero d
    exact ⟨.col (.scalar y), by simp only [Ext.validate, Ext.validateNum, if_true, hy]⟩
  | str => exact ⟨_, rfl⟩
  | choice c =>
    have : Dict.get? c.lookup .none = some (c.values.head?.getD (.str "")) := by
      unfold Choices.lookup
      rw [Dict.get?_set_self]
    exact ⟨.col (.scalar (c.values.head?.getD (.str ""))), by
      simp only [Ext.validate, Ext.validateChoice, Ext.choose, Ext.keyOf, this]⟩
  | arr m => exact ⟨.col (.arr m.typ false []), by simp only [Ext.validate, arrNone m]⟩
  | table els =>
    obtain ⟨hnd, hne, htid⟩ := hs els rfl
    have keys : Dict.keys (els.map (fun kv => (kv.1, Col.scalar .none))) = els.keys := by
      simp [Dict.keys]
    have h : e.validate (.table els) (.dict (els.map (fun kv => (kv.1, .scalar .none)))) =
        .ok (.table (els.map (fun km => (km.1, .arr km.2.typ false [])))) := by
      rw [table_accepted_iff]
      refine ⟨?_, ?_, _, rfl, by simp [Dict.keys], ?_, hne, 0, ?_⟩
      · intro k _ hk; rw [keys] at hk; exact hk
      · intro k hk
        exact ⟨fun he => htid (he ▸ hk), by rw [keys]; exact hk⟩
      · intro p hp
        obtain ⟨i, hi, hpi⟩ := List.getElem_of_mem hp
        have hi1 : i < els.length := by simp at hi; omega
        have e1 : p = (els[i], (els[i].1, .arr els[i].2.typ false [])) := by rw [← hpi]; simp
        subst e1
        refine ⟨.scalar .none, ?_, arrNone _⟩
        apply Dict.get?_of_mem_nodup (by rw [keys]; exact hnd)
        exact List.mem_map.2 ⟨els[i], List.getElem_mem hi1, rfl⟩
      · intro c hc
        obtain ⟨kc, hkc, rfl⟩ := List.mem_map.1 hc
        obtain ⟨km, _, rfl⟩ := List.mem_map.1 hkc
        rfl
    exact ⟨_, by simpa only [Ext.validate, Ext.validateTable, tableArg] using h⟩

/-! ### What the code does not do -/

/-- A meta with no choices turns `None` into the empty string, which it then rejects. -/
theorem no_choices_not_canonical (e : Ext) :
    e.validate (.choice (.strs [])) (.col (.scalar .none)) = .ok (.col (.scalar (.str ""))) ∧
    e.validate (.choice (.strs [])) (.col (.scalar (.str ""))) = .error .value := by
  constructor <;> rfl

/-- A table meta with no columns rejects every value, the default included. -/
theorem empty_table_rejects_all (e : Ext) (v : Val) : ∀ w, e.validate (.table []) v ≠ .ok w := by
  intro w h
  simp only [Ext.validate, Ext.validateTable] at h
  split at h
  · cases h
  · split at h
    · cases h
    · split at h
      · cases h
      · simp [Ext.validateColumns, columnLengthsOk, Dict.values] at h

/-- A number meta given a list hands back a numpy array, not a number. -/
theorem number_meta_accepts_list (e : Ext) (d : DType) (b : Nat) :
    e.validate (.num d) (.col (.list [.num d b])) = .ok (.col (.nd (.num d) [.num d b])) := by
  simp only [Ext.validate, Ext.validateNum]
  rw [mapE_self (by
    intro x hx
    simp only [List.mem_singleton] at hx
    subst hx
    exact e.cast_id _ _ (by simp [Scalar.hasTyp]))]

/-- If annotypes wraps bare values then a number array meta given one stores it without a cast. -/
theorem number_array_of_bare_value (e : Ext) (h : e.wraps = true) (d : DType) (b : Nat) :
    e.validate (.arr (.num d)) (.col (.scalar (.float b))) =
      .ok (.col (.arr (.num d) false [.float b])) := by
  simp [Ext.validate, Ext.validateArr, Ext.toNpArray, Ext.toArray, h]

/-! ### Rows (C25) -/

theorem length_appendRow (cols : List (List Scalar)) (row : List Scalar) :
    (appendRow cols row).length = cols.length := by
  induction cols generalizing row with
  | nil => cases row <;> rfl
  | cons c cs ih =>
    cases row with
    | nil => rfl
    | cons x xs => simp [appendRow, ih]

/-- all columns have `n` cells -/
def Even (n : Nat) (cols : List (List Scalar)) : Prop := ∀ c ∈ cols, c.length = n

theorem even_appendRow (n : Nat) (cols : List (List Scalar)) (row : List Scalar) (h : Even n cols)
    (hl : row.length = cols.length) : Even (n + 1) (appendRow cols row) := by
  induction cols generalizing row with
  | nil =>
    cases row with
    | nil => intro c hc; simp [appendRow] at hc
    | cons _ _ => simp at hl
  | cons c cs ih =>
    cases row with
    | nil => simp at hl
    | cons x xs =>
      intro c' hc'
      simp only [appendRow, List.mem_cons] at hc'
      rcases hc' with rfl | h'
      · simp [h c (by simp)]
      · exact ih xs (fun c2 h2 => h c2 (by simp [h2])) (by simpa using hl) c' h'

theorem zipRows_length (n : Nat) (cols : List (List Scalar)) (h : Even n cols) (hne : cols ≠ []) :
    (zipRows cols).length = n := by
  induction cols with
  | nil => exact absurd rfl hne
  | cons c cs ih =>
    cases cs with
    | nil => simp [zipRows, h c (by simp)]
    | cons c2 cs2 =>
      have := ih (fun c2 h2 => h c2 (by simp [h2])) (by simp)
      simp only [zipRows, List.length_zipWith, this, h c (by simp)]
      omega

theorem zipWith_snoc {A B C : Type} (f : A → B → C) (l : List A) (m : List B) (a : A) (b : B)
    (h : l.length = m.length) : List.zipWith f (l ++ [a]) (m ++ [b]) = List.zipWith f l m ++ [f a b] := by
  induction l generalizing m with
  | nil => cases m with
    | nil => rfl
    | cons _ _ => simp at h
  | cons x xs ih => cases m with
    | nil => simp at h
    | cons y ys => simp at h ⊢; exact ih ys h

theorem zipRows_appendRow (n : Nat) (cols : List (List Scalar)) (row : List Scalar)
    (h : Even n cols) (hne : cols ≠ []) (hl : row.length = cols.length) :
    zipRows (appendRow cols row) = zipRows cols ++ [row] := by
  induction cols generalizing row with
  | nil => exact absurd rfl hne
  | cons c cs ih =>
    cases row with
    | nil => simp at hl
    | cons x xs =>
      cases cs with
      | nil =>
        have : xs = [] := by simpa using hl
        subst this
        simp [appendRow, zipRows]
      | cons c2 cs2 =>
        have h2 := ih xs (fun c2 h2 => h c2 (by simp [h2])) (by simp) (by simpa using hl)
        cases xs with
        | nil => simp at hl
        | cons x2 xs2 =>
          simp only [appendRow] at h2 ⊢
          simp only [zipRows] at h2 ⊢
          rw [h2, zipWith_snoc]
          have e1 := zipRows_length n (c2 :: cs2) (fun c2 h2 => h c2 (by simp [h2])) (by simp)
          rw [e1, h c (by simp)]

theorem even_all {n : Nat} {ns : List Nat} : (ns.all (· = n)) = true ↔ ∀ m ∈ ns, m = n := by
  simp

theorem rowsOf_ok_iff (cols rows : List (List Scalar)) :
    rowsOf cols = .ok rows ↔ cols ≠ [] ∧ (∃ n, Even n cols) ∧ rows = zipRows cols := by
  unfold rowsOf
  cases cols with
  | nil => simp
  | cons c cs =>
    simp only [List.map_cons]
    constructor
    · intro h
      split at h
      · rename_i ha
        simp only [Except.ok.injEq] at h
        refine ⟨by simp, ⟨c.length, ?_⟩, h.symm⟩
        intro c2 h2
        rcases List.mem_cons.1 h2 with rfl | h3
        · rfl
        · exact even_all.1 ha _ (List.mem_map.2 ⟨c2, h3, rfl⟩)
      · cases h
    · rintro ⟨_, ⟨n, hn⟩, rfl⟩
      rw [if_pos]
      apply even_all.2
      intro m hm
      obtain ⟨c2, h2, rfl⟩ := List.mem_map.1 hm
      rw [hn c2 (by simp [h2]), hn c (by simp)]

theorem fromRows_spec (names : List String) (hn : names ≠ []) (rows : List (List Scalar))
    (h : ∀ r ∈ rows, r.length = names.length) :
    ∀ (cols : List (List Scalar)) (n : Nat), cols.length = names.length → Even n cols →
      (rows.foldl appendRow cols).length = names.length ∧
      Even (n + rows.length) (rows.foldl appendRow cols) ∧
      zipRows (rows.foldl appendRow cols) = zipRows cols ++ rows := by
  induction rows with
  | nil => intro cols n hl he; simp [hl]; exact he
  | cons r rows ih =>
    intro cols n hl he
    have hr := h r (by simp)
    have hne : cols ≠ [] := by
      intro hc; subst hc
      exact hn (List.length_eq_zero_iff.1 hl.symm)
    obtain ⟨a, b, c⟩ := ih (fun r2 h2 => h r2 (by simp [h2])) (appendRow cols r) (n + 1)
      (by rw [length_appendRow, hl]) (even_appendRow n cols r he (by rw [hr, hl]))
    refine ⟨a, ?_, ?_⟩
    · rw [List.foldl_cons, List.length_cons]
      have : n + 1 + rows.length = n + (rows.length + 1) := by omega
      rw [← this]; exact b
    · rw [List.foldl_cons, c, zipRows_appendRow n cols r he hne (by rw [hr, hl])]
      simp

/-- C25: rows put into a table come back out. -/
theorem rows_round_trip_partial (names : List String) (hn : names ≠ []) (rows : List (List Scalar))
    (h : ∀ r ∈ rows, r.length = names.length) : rowsOf (fromRows names rows) = .ok rows := by
  have he : Even 0 (names.map (fun _ => ([] : List Scalar))) := by
    intro c hc
    obtain ⟨_, _, rfl⟩ := List.mem_map.1 hc
    rfl
  obtain ⟨a, b, c⟩ := fromRows_spec names hn rows h _ 0 (by simp) he
  rw [rowsOf_ok_iff]
  have hz : zipRows (names.map (fun _ => ([] : List Scalar))) = [] :=
    List.length_eq_zero_iff.1 (zipRows_length 0 _ he (by simpa using hn))
  refine ⟨?_, ⟨_, b⟩, ?_⟩
  · intro hc
    apply hn
    have : (fromRows names rows).length = names.length := a
    rw [hc] at this
    exact List.length_eq_zero_iff.1 this.symm
  · unfold fromRows; rw [c, hz]; rfl

theorem mem_zipRows_length (n : Nat) (cols : List (List Scalar)) (h : Even n cols) (hne : cols ≠ []) :
    ∀ r ∈ zipRows cols, r.length = cols.length := by
  induction cols with
  | nil => exact absurd rfl hne
  | cons c cs ih =>
    cases cs with
    | nil =>
      intro r hr
      obtain ⟨x, _, rfl⟩ := List.mem_map.1 (by simpa [zipRows] using hr)
      rfl
    | cons c2 cs2 =>
      intro r hr
      simp only [zipRows] at hr
      obtain ⟨i, hi, hri⟩ := List.getElem_of_mem hr
      simp only [List.getElem_zipWith] at hri
      rw [← hri]
      simp only [List.length_cons]
      have := ih (fun c2 h2 => h c2 (by simp [h2])) (by simp) _ (List.getElem_mem (by
        simp only [List.length_zipWith] at hi; omega : i < (zipRows (c2 :: cs2)).length))
      rw [this]; simp

/-- Cell `i` of row `j` is cell `j` of column `i`. -/
theorem zipRows_cell (n : Nat) (cols : List (List Scalar)) (h : Even n cols) (hne : cols ≠ []) :
    ∀ (j : Nat) (row : List Scalar), (zipRows cols)[j]? = some row → ∀ i : Nat,
      row[i]? = (cols[i]?).bind (fun c => c[j]?) := by
  induction cols with
  | nil => exact absurd rfl hne
  | cons c cs ih =>
    intro j row hj i
    cases cs with
    | nil =>
      simp only [zipRows, List.getElem?_map, Option.map_eq_some_iff] at hj
      obtain ⟨x, hx, rfl⟩ := hj
      cases i with
      | zero => simp [hx]
      | succ i => simp
    | cons c2 cs2 =>
      simp only [zipRows, List.getElem?_zipWith] at hj
      cases hx : c[j]? with
      | none => rw [hx] at hj; simp at hj
      | some x =>
        cases hr : (zipRows (c2 :: cs2))[j]? with
        | none => rw [hx, hr] at hj; simp at hj
        | some r =>
          rw [hx, hr] at hj
          simp only [Option.some.injEq] at hj
          subst hj
          cases i with
          | zero => simp [hx]
          | succ i =>
            have := ih (fun c2 h2 => h c2 (by simp [h2])) (by simp) j r hr i
            simpa using this

/-- C25: the rows of a table whose columns have one length are its cells, and building a table from
them gives its columns back. -/
theorem columns_round_trip (names : List String) (cols : List (List Scalar))
    (hl : cols.length = names.length) (rows : List (List Scalar)) (h : rowsOf cols = .ok rows) :
    (∀ (j : Nat) (row : List Scalar), rows[j]? = some row → ∀ i : Nat, row[i]? = (cols[i]?).bind (fun c => c[j]?)) ∧
    fromRows names rows = cols := by
  obtain ⟨hne, ⟨n, he⟩, rfl⟩ := (rowsOf_ok_iff cols rows).1 h
  have hnn : names ≠ [] := by
    intro hc; subst hc
    exact hne (List.length_eq_zero_iff.1 hl)
  refine ⟨zipRows_cell n cols he hne, ?_⟩
  have hrow : ∀ r ∈ zipRows cols, r.length = names.length := by
    intro r hr; rw [mem_zipRows_length n cols he hne r hr, hl]
  have h1 := rows_round_trip_partial names hnn (zipRows cols) hrow
  obtain ⟨hne2, ⟨n2, he2⟩, hz⟩ := (rowsOf_ok_iff _ _).1 h1
  -- both tables have the same cells
  have hlen2 : (fromRows names (zipRows cols)).length = names.length := by
    have he0 : Even 0 (names.map (fun _ => ([] : List Scalar))) := by
      intro c hc
      obtain ⟨_, _, rfl⟩ := List.mem_map.1 hc
      rfl
    exact (fromRows_spec names hnn (zipRows cols) hrow _ 0 (by simp) he0).1
  have hnn2 : n2 = n := by
    have a := zipRows_length n cols he hne
    have b := zipRows_length n2 _ he2 hne2
    rw [← hz] at b; omega
  subst hnn2
  apply List.ext_getElem (by rw [hlen2, hl])
  intro i hi1 hi2
  apply List.ext_getElem (by
    rw [he2 _ (List.getElem_mem hi1), he _ (List.getElem_mem hi2)])
  intro j hj1 hj2
  have hjn : j < (zipRows cols).length := by
    rw [zipRows_length n2 cols he hne, ← he _ (List.getElem_mem hi2)]; exact hj2
  have c1 := zipRows_cell n2 cols he hne j _ (List.getElem?_eq_getElem hjn) i
  have hz2 : (zipRows (fromRows names (zipRows cols)))[j]? = some (zipRows cols)[j] := by
    rw [← hz]; exact List.getElem?_eq_getElem hjn
  have c2 := zipRows_cell n2 _ he2 hne2 j _ hz2 i
  rw [c1] at c2
  rw [List.getElem?_eq_getElem hi1, List.getElem?_eq_getElem hi2] at c2
  simp only [Option.bind_some] at c2
  rw [List.getElem?_eq_getElem hj1, List.getElem?_eq_getElem hj2] at c2
  simpa using c2.symm

/-- C25: `table[i]` is row `i` of `table.rows()`. -/
theorem row_at (cols rows : List (List Scalar)) (h : rowsOf cols = .ok rows) (j : Nat) :
    (match rowAt cols j with | .ok r => some r | .error _ => none) = rows[j]? := by
  obtain ⟨hne, ⟨n, he⟩, rfl⟩ := (rowsOf_ok_iff cols rows).1 h
  unfold rowAt
  cases cols with
  | nil => exact absurd rfl hne
  | cons c cs =>
    simp only [List.map_cons]
    rw [if_pos (by
      apply even_all.2
      intro m hm
      obtain ⟨c2, h2, rfl⟩ := List.mem_map.1 hm
      rw [he c2 (by simp [h2]), he c (by simp)])]
    have hzl := zipRows_length n (c :: cs) he hne
    generalize hcols : c :: cs = cols at *
    by_cases hj : j < n
    · have hjz : j < (zipRows cols).length := by omega
      rw [List.getElem?_eq_getElem hjz]
      have key : mapE (cellAt j) cols = .ok (zipRows cols)[j] := by
        rw [mapE_ok_iff]
        have hrl := mem_zipRows_length n cols he hne _ (List.getElem_mem hjz)
        refine ⟨hrl.symm, ?_⟩
        intro p hp
        obtain ⟨i, hi, hpi⟩ := List.getElem_of_mem hp
        have hi1 : i < cols.length := by simp at hi; omega
        have hi2 : i < ((zipRows cols)[j]).length := by simp at hi; omega
        have e1 : p = (cols[i], (zipRows cols)[j][i]) := by rw [← hpi]; simp
        subst e1
        have := zipRows_cell n cols he hne j _ (List.getElem?_eq_getElem hjz) i
        rw [List.getElem?_eq_getElem hi2, List.getElem?_eq_getElem hi1] at this
        simp only [Option.bind_some] at this
        simp only [cellAt, ← this]
      rw [key]
    · rw [List.getElem?_eq_none (by omega)]
      have hc : c ∈ cols := by rw [← hcols]; simp
      have hcj : c[j]? = none := List.getElem?_eq_none (by rw [he c hc]; omega)
      rw [← hcols]
      simp only [mapE, cellAt, hcj]

/-- What the code does not do: a row with too many cells loses them without an error. -/
theorem long_row_is_cut : rowsOf (fromRows ["a"] [[.int 1, .int 2]]) = .ok [[.int 1]] := by
  decide

/-! ### Examples -/

/-- A concrete numpy/annotypes: integers of a dtype are their (Nat) bit patterns, anything else is
refused. -/
def demo : Ext where
  cast t x := if x.hasTyp t then .ok x else match t, x with
    | .num d, .int n => .ok (.num d n.toNat)
    | _, _ => .error .value
  cast_typed := by
    intro t x y h
    split at h
    · simp only [Except.ok.injEq] at h; subst h; assumption
    · split at h
      · simp only [Except.ok.injEq] at h; subst h; simp [Scalar.hasTyp]
      · cases h
  cast_id := by intro t y h; simp [h]
  cast_zero := by intro d; exact ⟨.num d 0, by simp [Scalar.hasTyp]⟩
  truthyNum _ := true
  asInt := fun | .num _ b => some b | _ => none
  str _ := "?"
  wraps := false

example : demo.validate .bool (.col (.scalar (.str "No"))) = .ok (.col (.scalar (.bool false))) ∧
    demo.validate (.choice (.strs ["a", "b"])) (.col (.scalar (.int 1))) = .ok (.col (.scalar (.str "b"))) := by
  decide +kernel

def demoTable : VMeta := .table [("x", .num .int32), ("mode", .choice (.enums "Mode" ["on", "off"]))]

example : demo.validate demoTable (.dict [("mode", .list [.str "on", .int 1]), ("typeid", .scalar (.str "t")),
      ("x", .list [.int 3, .int 4])]) =
    .ok (.table [("x", .arr (.num .int32) true [.num .int32 3, .num .int32 4]),
      ("mode", .arr (.enum "Mode") false [.enum "Mode" "on", .enum "Mode" "off"])]) := by decide +kernel

example : VMeta.Sane demoTable := by
  intro els h
  simp only [demoTable, VMeta.table.injEq] at h
  subst h
  decide

example : demo.validate (.choice (.strs ["a", "b"])) (.col (.scalar (.num .int8 1))) =
    .ok (.col (.scalar (.str "b"))) := by decide +kernel

example : rowsOf (fromRows ["a", "b"] [[.int 1, .str "x"], [.int 2, .str "y"]]) =
    .ok [[.int 1, .str "x"], [.int 2, .str "y"]] := by decide

end Verif.Props.Metas
