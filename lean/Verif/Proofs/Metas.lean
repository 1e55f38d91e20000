import Verif.Model.Metas
import Verif.Proofs.PyDict
/-! Lemmas about metas. -/
set_option linter.unusedVariables false
namespace Verif.Meta
open Verif

section mapE
variable {A B : Type} {f : A → Except Err B}

theorem mapE_ok_iff {l : List A} {m : List B} :
    mapE f l = .ok m ↔ l.length = m.length ∧ ∀ p ∈ l.zip m, f p.1 = .ok p.2 := by
  induction l generalizing m with
  | nil =>
    cases m with
    | nil => simp [mapE]
    | cons b bs => simp [mapE]
  | cons a as ih =>
    unfold mapE
    cases hf : f a with
    | error e =>
      constructor
      · intro h; cases h
      · rintro ⟨hl, h⟩
        cases m with
        | nil => simp at hl
        | cons b bs =>
          have := h (a, b) (by simp)
          simp only [hf] at this; cases this
    | ok b =>
      dsimp only
      cases hr : mapE f as with
      | error e =>
        constructor
        · intro h; cases h
        · rintro ⟨hl, h⟩
          cases m with
          | nil => simp at hl
          | cons b' bs =>
            have h2 := (ih (m := bs)).2 ⟨by simpa using hl, fun p hp => h p (by
              rw [List.zip_cons_cons]; exact List.mem_cons_of_mem _ hp)⟩
            rw [hr] at h2; cases h2
      | ok bs =>
        constructor
        · intro h
          have : b :: bs = m := by simpa using h
          subst this
          obtain ⟨h1, h2⟩ := ih.1 hr
          refine ⟨by simp [h1], ?_⟩
          intro p hp
          rw [List.zip_cons_cons] at hp
          rcases List.mem_cons.1 hp with h | h
          · subst h; exact hf
          · exact h2 p h
        · rintro ⟨hl, h⟩
          cases m with
          | nil => simp at hl
          | cons b' bs' =>
            have e1 := h (a, b') (by simp)
            simp only [hf, Except.ok.injEq] at e1
            have h2 := (ih (m := bs')).2 ⟨by simpa using hl, fun p hp => h p (by
              rw [List.zip_cons_cons]; exact List.mem_cons_of_mem _ hp)⟩
            rw [hr] at h2
            have e2 : bs = bs' := by simpa using h2
            rw [e1, e2]

theorem mapE_length {l : List A} {m : List B} (h : mapE f l = .ok m) : m.length = l.length :=
  (mapE_ok_iff.1 h).1.symm

theorem mapE_mem {l : List A} {m : List B} (h : mapE f l = .ok m) :
    ∀ b ∈ m, ∃ a ∈ l, f a = .ok b := by
  intro b hb
  obtain ⟨hl, hp⟩ := mapE_ok_iff.1 h
  obtain ⟨i, hi, rfl⟩ := List.getElem_of_mem hb
  have hi' : i < l.length := by omega
  have := hp (l[i], m[i]) (List.mem_of_getElem? (i := i) (by
    simp [List.getElem?_zip_eq_some, hi, hi']))
  exact ⟨_, List.getElem_mem hi', this⟩

end mapE

theorem mapE_self {f : Scalar → Except Err Scalar} {l : List Scalar}
    (h : ∀ x ∈ l, f x = .ok x) : mapE f l = .ok l := by
  induction l with
  | nil => rfl
  | cons a as ih =>
    unfold mapE
    rw [h a (by simp), ih (fun x hx => h x (by simp [hx]))]

/-! Choices -/

theorem get?_update_of_not_mem {K V : Type} [DecidableEq K] (d e : Dict K V) (k : K)
    (h : k ∉ e.map (·.1)) : Dict.get? (Dict.update d e) k = Dict.get? d k := by
  unfold Dict.update
  induction e generalizing d with
  | nil => rfl
  | cons kv e ih =>
    simp only [List.map_cons, List.mem_cons, not_or] at h
    rw [List.foldl_cons, ih _ h.2, Dict.get?_set_ne]
    intro hh; exact h.1 hh.symm

theorem choiceLoop_spec (cs : List Scalar) (P : Key → Scalar → Prop) (i : Nat) (d : Dict Key Scalar)
    (hd : ∀ k y, Dict.get? d k = some y → P k y)
    (hp : ∀ j c, cs[j]? = some c → ∀ kv ∈ choiceEntries (i + j) c, P kv.1 kv.2) :
    ∀ k y, Dict.get? (choiceLoop i cs d) k = some y → P k y := by
  induction cs generalizing i d with
  | nil => exact hd
  | cons c cs ih =>
    unfold choiceLoop
    apply ih
    · have h0 := hp 0 c (by simp)
      rw [Nat.add_zero] at h0
      revert h0
      generalize choiceEntries i c = es
      intro h0
      clear ih hp
      unfold Dict.update
      induction es generalizing d with
      | nil => exact hd
      | cons kv es ih2 =>
        rw [List.foldl_cons]
        apply ih2
        · intro k y hk
          rw [Dict.get?_set] at hk
          split at hk
          · rename_i he
            subst he
            have := h0 kv (by simp)
            simp only [Option.some.injEq] at hk
            rw [← hk]; exact this
          · exact hd k y hk
        · intro kv2 h2; exact h0 kv2 (by simp [h2])
    · intro j c' hj kv hkv
      have := hp (j + 1) c' (by simpa using hj) kv
      apply this
      have e : i + (j + 1) = i + 1 + j := by omega
      rw [e]; exact hkv

/-- `P d`: the entries for the own keys of earlier choices stay -/
theorem choiceLoop_keeps (cs : List Scalar) (i : Nat) (d : Dict Key Scalar) (k : Key) (y : Scalar)
    (hd : Dict.get? d k = some y)
    (hk : ∀ j c, cs[j]? = some c → ∀ kv ∈ choiceEntries (i + j) c, kv.1 = k → kv.2 = y) :
    Dict.get? (choiceLoop i cs d) k = some y := by
  induction cs generalizing i d with
  | nil => exact hd
  | cons c cs ih =>
    unfold choiceLoop
    apply ih
    · have h0 := hk 0 c (by simp)
      rw [Nat.add_zero] at h0
      revert h0
      generalize choiceEntries i c = es
      intro h0
      clear ih hk
      unfold Dict.update
      induction es generalizing d with
      | nil => exact hd
      | cons kv es ih2 =>
        rw [List.foldl_cons]
        apply ih2
        · rw [Dict.get?_set]
          split
          · rename_i he
            rw [h0 kv (by simp) (by first | exact he | exact he.symm)]
          · exact hd
        · intro kv2 h2; exact h0 kv2 (by simp [h2])
    · intro j c' hj kv hkv
      have := hk (j + 1) c' (by simpa using hj) kv
      apply this
      have e : i + (j + 1) = i + 1 + j := by omega
      rw [e]; exact hkv

theorem get?_update_mem {K V : Type} [DecidableEq K] (e : Dict K V) (d : Dict K V) (k : K) (v : V)
    (hm : (k, v) ∈ e) (hu : ∀ kv ∈ e, kv.1 = k → kv.2 = v) :
    Dict.get? (Dict.update d e) k = some v := by
  unfold Dict.update
  induction e generalizing d with
  | nil => simp at hm
  | cons kv e ih =>
    rw [List.foldl_cons]
    by_cases hin : (k, v) ∈ e
    · exact ih _ hin (fun kv2 h2 => hu kv2 (by simp [h2]))
    · rcases List.mem_cons.1 hm with h | h
      · subst h
        have : k ∉ e.map (·.1) := by
          intro hk
          obtain ⟨kv2, h2, h3⟩ := List.mem_map.1 hk
          have := hu kv2 (by simp [h2]) h3
          apply hin
          have e2 : kv2 = (k, v) := by
            cases kv2; simp at h3 this; simp [h3, this]
          rw [← e2]; exact h2
        have h4 := get?_update_of_not_mem (Dict.set d k v) e k this
        unfold Dict.update at h4
        rw [h4, Dict.get?_set_self]
      · exact absurd h hin

theorem choiceLoop_has (cs : List Scalar) (i : Nat) (d : Dict Key Scalar) (k : Key) (y : Scalar)
    (j : Nat) (c : Scalar) (hj : cs[j]? = some c) (hm : (k, y) ∈ choiceEntries (i + j) c)
    (hk : ∀ j c, cs[j]? = some c → ∀ kv ∈ choiceEntries (i + j) c, kv.1 = k → kv.2 = y) :
    Dict.get? (choiceLoop i cs d) k = some y := by
  induction cs generalizing i d j with
  | nil => simp at hj
  | cons c0 cs ih =>
    unfold choiceLoop
    have hk' : ∀ j c, cs[j]? = some c → ∀ kv ∈ choiceEntries (i + 1 + j) c, kv.1 = k → kv.2 = y := by
      intro j c hj kv hkv
      have e : i + (j + 1) = i + 1 + j := by omega
      exact hk (j + 1) c (by simpa using hj) kv (by rw [e]; exact hkv)
    cases j with
    | zero =>
      simp only [List.getElem?_cons_zero, Option.some.injEq] at hj
      subst hj
      apply choiceLoop_keeps
      · apply get?_update_mem
        · simpa using hm
        · intro kv hkv; exact hk 0 c0 (by simp) kv (by simpa using hkv)
      · exact hk'
    | succ j =>
      apply ih
      · simpa using hj
      · have e : i + (j + 1) = i + 1 + j := by omega
        rw [e] at hm; exact hm
      · exact hk'

theorem values_entries (c : Choices) (x : Scalar) (hx : x ∈ c.values) (i : Nat) :
    ∀ kv ∈ choiceEntries i x, kv.2 = x := by
  cases c with
  | strs l =>
    obtain ⟨s, _, rfl⟩ := List.mem_map.1 hx
    simp [choiceEntries]
  | enums cl l =>
    obtain ⟨s, _, rfl⟩ := List.mem_map.1 hx
    simp [choiceEntries]

/-- Whatever the lookup gives is one of the choices, or the empty string when there are none. -/
theorem lookup_sound (c : Choices) (k : Key) (y : Scalar) (h : Dict.get? c.lookup k = some y) :
    y ∈ c.values ∨ (c.values = [] ∧ k = .none ∧ y = .str "") := by
  unfold Choices.lookup at h
  rw [Dict.get?_set] at h
  split at h
  · rename_i hk
    simp only [Option.some.injEq] at h
    cases hv : c.values with
    | nil => right; refine ⟨rfl, ?_, ?_⟩ <;> first | exact hk.symm | exact hk | (rw [hv] at h; simpa using h.symm)
    | cons x xs =>
      left
      rw [hv] at h
      simp at h
      rw [← h]; simp
  · left
    refine choiceLoop_spec c.values (fun _ y => y ∈ c.values) 0 [] ?_ ?_ k y h
    · intro k y hk; simp [Dict.get?] at hk
    · intro j x hj kv hkv
      have hx := List.mem_of_getElem? hj
      rw [values_entries c x hx _ kv hkv]
      exact hx

/-- Every choice is found under itself. -/
theorem lookup_self (e : Ext) (c : Choices) (y : Scalar) (hy : y ∈ c.values) :
    Dict.get? c.lookup (e.keyOf y) = some y := by
  unfold Choices.lookup
  obtain ⟨j, hj, hjy⟩ := List.getElem_of_mem hy
  have hj' : c.values[j]? = some y := by rw [List.getElem?_eq_getElem hj, hjy]
  cases c with
  | strs l =>
    obtain ⟨s, hs, rfl⟩ := List.mem_map.1 hy
    rw [Dict.get?_set_ne _ _ (by simp [Ext.keyOf])]
    apply choiceLoop_has _ _ _ _ _ j _ hj'
    · simp [choiceEntries, Ext.keyOf]
    · intro j' c' hc' kv hkv hk
      have hx := List.mem_of_getElem? hc'
      obtain ⟨s', hs', rfl⟩ := List.mem_map.1 hx
      simp only [choiceEntries, List.mem_cons, List.not_mem_nil, or_false] at hkv
      rcases hkv with rfl | rfl
      · simp [Ext.keyOf] at hk ⊢; exact hk
      · simp [Ext.keyOf] at hk
  | enums cl l =>
    obtain ⟨s, hs, rfl⟩ := List.mem_map.1 hy
    rw [Dict.get?_set_ne _ _ (by simp [Ext.keyOf])]
    apply choiceLoop_has _ _ _ _ _ j _ hj'
    · simp [choiceEntries, Ext.keyOf]
    · intro j' c' hc' kv hkv hk
      have hx := List.mem_of_getElem? hc'
      obtain ⟨s', hs', rfl⟩ := List.mem_map.1 hx
      simp only [choiceEntries, List.mem_cons, List.not_mem_nil, or_false] at hkv
      rcases hkv with rfl | rfl | rfl
      · simp [Ext.keyOf] at hk
      · simp [Ext.keyOf] at hk ⊢; exact hk
      · simp [Ext.keyOf] at hk

theorem choose_values (e : Ext) (c : Choices) (y : Scalar) (hy : y ∈ c.values) :
    e.choose c y = .ok y := by
  unfold Ext.choose
  rw [lookup_self e c y hy]

theorem values_hasTyp (c : Choices) (y : Scalar) (hy : y ∈ c.values) : y.hasTyp c.typ = true := by
  cases c with
  | strs l => obtain ⟨s, _, rfl⟩ := List.mem_map.1 hy; rfl
  | enums cl l => obtain ⟨s, _, rfl⟩ := List.mem_map.1 hy; simp [Choices.typ, Scalar.hasTyp]

theorem choose_sound (e : Ext) (c : Choices) (x y : Scalar) (h : e.choose c x = .ok y) :
    y ∈ c.values ∨ (c.values = [] ∧ x = .none ∧ y = .str "") := by
  unfold Ext.choose at h
  cases hg : Dict.get? c.lookup (e.keyOf x) with
  | none => rw [hg] at h; cases h
  | some z =>
    rw [hg] at h
    simp only [Except.ok.injEq] at h
    subst h
    rcases lookup_sound c _ _ hg with h | ⟨h1, h2, h3⟩
    · exact .inl h
    · right
      refine ⟨h1, ?_, h3⟩
      cases x <;> simp [Ext.keyOf] at h2 ⊢
      all_goals (split at h2 <;> cases h2)

end Verif.Meta
