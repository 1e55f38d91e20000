import Verif.Proofs.PvaClient
/-!
What p4p keeps when something is stored.
-/
namespace Verif.Proofs.PvaClient
open Verif Verif.Pva Verif.Spec.Pva Verif.PvaClient Verif.Spec.PvaClient
open Verif.Props.Pva (field_none_iff field_setField names_setField fields_ext mem_of_field field_back)

theorem typeOf_leaf {b : Pv} (h : ∀ t fs, b ≠ .struct t fs) : typeOf b = .str "" := by
  rw [typeOf]; exact h

theorem typeOf_struct {b : Pv} {id : String} {gs : List (String × Pv)} (h : typeOf b = .struct id gs) :
    ∃ fs, b = .struct id fs ∧ typeOfIn fs = gs := by
  by_cases hd : ∃ t fs, b = .struct t fs
  · obtain ⟨t', fs, rfl⟩ := hd
    rw [typeOf] at h; cases h; exact ⟨_, rfl, rfl⟩
  · have hd : ∀ t fs, b ≠ .struct t fs := fun t fs h => hd ⟨t, fs, h⟩
    rw [typeOf_leaf hd] at h; cases h

theorem typeOf_str {b : Pv} {s : String} (h : typeOf b = .str s) : ∀ t fs, b ≠ .struct t fs := by
  rintro t fs rfl; rw [typeOf] at h; cases h

theorem typeOfIn_field (fs : List (String × Pv)) (k : String) : field (typeOfIn fs) k = (field fs k).map typeOf := by
  induction fs with
  | nil => rfl
  | cons f fs ih =>
    obtain ⟨n, v⟩ := f
    rw [typeOfIn, field, field, ih]
    by_cases h : n = k
    · rw [if_pos h, if_pos h]; rfl
    · rw [if_neg h, if_neg h]

theorem setField_typeOfIn (fs : List (String × Pv)) (k : String) (x : Pv) :
    typeOfIn (setField fs k x) = setField (typeOfIn fs) k (typeOf x) := by
  induction fs with
  | nil => rfl
  | cons f fs ih =>
    obtain ⟨n, v⟩ := f
    rw [setField, typeOfIn, setField]
    by_cases h : n = k
    · rw [if_pos h, if_pos h, typeOfIn]
    · rw [if_neg h, if_neg h, typeOfIn, ih]

theorem setField_type {fs : List (String × Pv)} {k : String} {o x : Pv} (ho : field fs k = some o) (h : typeOf x = typeOf o) :
    typeOfIn (setField fs k x) = typeOfIn fs := by
  rw [setField_typeOfIn, h]
  exact setField_same _ _ _ (by rw [typeOfIn_field, ho]; rfl)

/-- a value that is no structure is stored by `ext`, or replaces one of its kind -/
theorem store_leaf_cases {ext : Ext} {new old x : Pv} (hn : ∀ t fs, new ≠ .struct t fs) (h : store ext old new = some x) :
    ext old new = some x ∨ ((∀ t fs, old ≠ .struct t fs) ∧ ∀ t fs, x ≠ .struct t fs) := by
  cases new <;> first | exact absurd rfl (hn _ _) | skip
  all_goals
    cases old <;> simp only [store] at h <;> first
      | exact .inl h
      | (cases h; exact .inr ⟨by intros; simp, by intros; simp⟩)
      | (split at h
         · cases h; exact .inr ⟨by intros; simp, by intros; simp⟩
         · exact .inl h)

theorem store_struct_cases {ext : Ext} (K : KeepsTypes ext) {id : String} {fs : List (String × Pv)} {old x : Pv}
    (h : store ext old (.struct id fs) = some x) :
    ∃ id' fs' r, old = .struct id' fs' ∧ storeFields ext fs' fs = some r ∧ x = .struct id' r := by
  cases old <;> simp only [store] at h <;> first
    | (rw [K.refuses] at h; cases h)
    | skip
  rename_i id' fs'
  obtain ⟨r, h1, h2⟩ := Option.map_eq_some_iff.1 h
  exact ⟨id', fs', r, rfl, h1, h2.symm⟩

theorem storeFields_cons {ext : Ext} {old r fs : List (String × Pv)} {k : String} {v : Pv} (h : storeFields ext old ((k, v) :: fs) = some r) :
    ∃ o x, field old k = some o ∧ store ext o v = some x ∧ storeFields ext (setField old k x) fs = some r := by
  rw [storeFields] at h
  split at h
  · cases h
  · rename_i o ho
    split at h
    · cases h
    · rename_i x hx
      exact ⟨o, x, ho, hx, h⟩

theorem store_type {ext : Ext} (K : KeepsTypes ext) : ∀ new old x, store ext old new = some x → typeOf x = typeOf old := by
  refine pv_ind ?_ ?_
  · intro new hn old x h
    rcases store_leaf_cases hn h with h | ⟨h1, h2⟩
    · exact K.keeps _ _ _ h
    · rw [typeOf_leaf h1, typeOf_leaf h2]
  · intro id fs ih old x h
    obtain ⟨id', fs', r, rfl, h1, rfl⟩ := store_struct_cases K h
    rw [typeOf, typeOf]
    congr 1
    clear h
    induction fs generalizing fs' with
    | nil => rw [storeFields] at h1; cases h1; rfl
    | cons f fs ihf =>
      obtain ⟨k, v⟩ := f
      obtain ⟨o, x, ho, hx, hr⟩ := storeFields_cons h1
      rw [ihf (fun kv h => ih kv (List.mem_cons_of_mem _ h)) _ hr]
      exact setField_type ho (ih _ List.mem_cons_self _ _ hx)

theorem atPv_leaf {b : Pv} (h : ∀ t fs, b ≠ .struct t fs) {k : String} {ks : List String} : atPv b (k :: ks) = none := by
  cases b <;> first | rfl | exact absurd rfl (h _ _)

theorem atPv_struct (t : String) (fs : List (String × Pv)) (k : String) (ks : List String) :
    atPv (.struct t fs) (k :: ks) = (field fs k).bind (fun v => atPv v ks) := by
  rw [atPv]; cases field fs k <;> rfl

theorem atPv_nil (v : Pv) : atPv v [] = some v := by cases v <;> rfl

/-- one field of a structure is replaced by one that is the same where it is looked at -/
theorem atPv_setField {id : String} {fs : List (String × Pv)} {k : String} {o x : Pv} (ho : field fs k = some o) {p : List String}
    (h0 : p = [] → x = o) (h1 : ∀ ns, p = k :: ns → atPv x ns = atPv o ns) :
    atPv (.struct id (setField fs k x)) p = atPv (.struct id fs) p := by
  cases p with
  | nil => rw [h0 rfl, setField_same _ _ _ ho]
  | cons n ns =>
    rw [atPv_struct, atPv_struct, field_setField _ _ _ _ (mem_of_field ho)]
    by_cases hn : k = n
    · subst hn
      rw [if_pos rfl, ho]
      exact h1 ns rfl
    · rw [if_neg hn]

theorem leaves_leaf {b : Pv} (h : ∀ t fs, b ≠ .struct t fs) : leaves b = [[]] := by
  rw [leaves]; exact h

/-- what is not above anything stored stays -/
theorem store_same {ext : Ext} (K : KeepsTypes ext) : ∀ new old x, store ext old new = some x →
    ∀ p, (∀ s ∈ leaves new, ¬ p <+: s) → atPv x p = atPv old p := by
  refine pv_ind ?_ ?_
  · intro new hn old x h p hp
    rw [leaves_leaf hn] at hp
    cases p with
    | nil => exact absurd List.nil_prefix (hp [] (List.mem_singleton.2 rfl))
    | cons k ks =>
      have ho : ∀ t fs, old ≠ .struct t fs := by
        rintro t fs rfl
        rcases store_leaf_cases hn h with h | ⟨h1, -⟩
        · rw [K.refused] at h; cases h
        · exact h1 _ _ rfl
      have hx : ∀ t fs, x ≠ .struct t fs := by
        have ht := store_type K new old x h
        rw [typeOf_leaf ho] at ht
        exact typeOf_str ht
      rw [atPv_leaf ho, atPv_leaf hx]
  · intro id fs ih old x h p hp
    obtain ⟨id', fs', r, rfl, h1, rfl⟩ := store_struct_cases K h
    rw [leaves] at hp
    clear h
    induction fs generalizing fs' with
    | nil => rw [storeFields] at h1; cases h1; rfl
    | cons f fs ihf =>
      obtain ⟨k, v⟩ := f
      obtain ⟨o, x, ho, hx, hr⟩ := storeFields_cons h1
      rw [leavesIn] at hp
      rw [ihf (fun kv h => ih kv (List.mem_cons_of_mem _ h)) (fun s hs => hp s (List.mem_append_right _ hs)) _ hr]
      have hv : ∀ ns, p = k :: ns → ∀ s ∈ leaves v, ¬ ns <+: s := by
        rintro ns rfl s hs h
        exact hp (k :: s) (List.mem_append_left _ (List.mem_map.2 ⟨s, hs, rfl⟩)) (List.cons_prefix_cons.2 ⟨rfl, h⟩)
      refine atPv_setField ho ?_ (fun ns hns => ih _ List.mem_cons_self _ _ hx ns (hv ns hns))
      rintro rfl
      have := ih _ List.mem_cons_self _ _ hx [] (fun s hs h =>
        hp (k :: s) (List.mem_append_left _ (List.mem_map.2 ⟨s, hs, rfl⟩)) List.nil_prefix)
      rw [atPv_nil, atPv_nil] at this
      exact Option.some.inj this

theorem updatePath_cases {ext : Ext} {new v v' : Pv} {k : String} {ks : List String} (h : updatePath ext new v (k :: ks) = some v') :
    ∃ id fs o x, v = .struct id fs ∧ field fs k = some o ∧ v' = .struct id (setField fs k x) ∧
      ((ks = [] ∧ store ext o new = some x) ∨ (ks ≠ [] ∧ updatePath ext new o ks = some x)) := by
  by_cases hd : ∃ t fs, v = .struct t fs
  · obtain ⟨id, fs, rfl⟩ := hd
    cases ks with
    | nil =>
      rw [updatePath] at h
      split at h
      · cases h
      · rename_i o ho
        obtain ⟨x, h1, h2⟩ := Option.map_eq_some_iff.1 h
        exact ⟨id, fs, o, x, rfl, ho, h2.symm, .inl ⟨rfl, h1⟩⟩
    | cons l ks =>
      rw [updatePath] at h
      · split at h
        · cases h
        · rename_i o ho
          obtain ⟨x, h1, h2⟩ := Option.map_eq_some_iff.1 h
          exact ⟨id, fs, o, x, rfl, ho, h2.symm, .inr ⟨by simp, h1⟩⟩
      · simp
  · have hd : ∀ t fs, v ≠ .struct t fs := fun t fs h => hd ⟨t, fs, h⟩
    exfalso
    cases v <;> first | exact hd _ _ rfl | (simp [updatePath] at h)

theorem updatePath_type {ext : Ext} (K : KeepsTypes ext) {new : Pv} : ∀ (p : List String) (v v' : Pv), updatePath ext new v p = some v' →
    typeOf v' = typeOf v := by
  intro p
  induction p with
  | nil => intro v v' h; cases v <;> simp [updatePath] at h
  | cons k ks ih =>
    intro v v' h
    obtain ⟨id, fs, o, x, rfl, ho, rfl, hh⟩ := updatePath_cases h
    rw [typeOf, typeOf]
    congr 1
    refine setField_type ho ?_
    rcases hh with ⟨-, h⟩ | ⟨-, h⟩
    · exact store_type K _ _ _ h
    · exact ih _ _ h

theorem updatePath_same {ext : Ext} (K : KeepsTypes ext) {new : Pv} : ∀ (p : List String) (v v' : Pv), updatePath ext new v p = some v' →
    ∀ q, (∀ s ∈ leaves new, ¬ q <+: p ++ s) → atPv v' q = atPv v q := by
  intro p
  induction p with
  | nil => intro v v' h; cases v <;> simp [updatePath] at h
  | cons k ks ih =>
    intro v v' h q hq
    obtain ⟨id, fs, o, x, rfl, ho, rfl, hh⟩ := updatePath_cases h
    have hsub : ∀ ns, (∀ s ∈ leaves new, ¬ ns <+: ks ++ s) → atPv x ns = atPv o ns := by
      intro ns hns
      rcases hh with ⟨rfl, h'⟩ | ⟨-, h'⟩
      · exact store_same K _ _ _ h' ns (fun s hs => by simpa using hns s hs)
      · exact ih _ _ h' ns hns
    refine atPv_setField ho ?_ ?_
    · rintro rfl
      have := hsub [] (fun s hs h => hq s hs List.nil_prefix)
      rw [atPv_nil, atPv_nil] at this
      exact Option.some.inj this
    · rintro ns rfl
      exact hsub ns (fun s hs h => hq s hs (List.cons_prefix_cons.2 ⟨rfl, h⟩))

theorem updateAll_cons {ext : Ext} {v v' : Pv} {p : List String} {u : Option Py} {cs : List Change}
    (h : updateAll ext v ((p, u) :: cs) = some v') :
    ∃ u' w v1, u = some u' ∧ conv u' = some w ∧ updatePath ext w v p = some v1 ∧ updateAll ext v1 cs = some v' := by
  cases u with
  | none => simp [updateAll] at h
  | some u =>
    cases p with
    | nil => simp [updateAll] at h
    | cons k ks =>
      simp only [updateAll] at h
      split at h
      · cases h
      · rename_i w hw
        split at h
        · cases h
        · rename_i v1 h1
          exact ⟨u, w, v1, rfl, hw, h1, h⟩

theorem updateAll_type {ext : Ext} (K : KeepsTypes ext) : ∀ (cs : List Change) (v v' : Pv), updateAll ext v cs = some v' →
    typeOf v' = typeOf v := by
  intro cs
  induction cs with
  | nil => intro v v' h; rw [updateAll] at h; cases h; rfl
  | cons c cs ih =>
    intro v v' h
    obtain ⟨p, u⟩ := c
    obtain ⟨u', w, v1, -, -, h1, h2⟩ := updateAll_cons h
    rw [ih _ _ h2, updatePath_type K _ _ _ h1]

/-- what is not in the changed set has not changed -/
theorem updateAll_same {ext : Ext} (K : KeepsTypes ext) : ∀ (cs : List Change) (v v' : Pv), updateAll ext v cs = some v' →
    ∀ q, changedSet (storedBy cs) q = false → atPv v' q = atPv v q := by
  intro cs
  induction cs with
  | nil => intro v v' h; rw [updateAll] at h; cases h; intros; rfl
  | cons c cs ih =>
    intro v v' h q hq
    obtain ⟨p, u⟩ := c
    obtain ⟨u', w, v1, rfl, hw, h1, h2⟩ := updateAll_cons h
    have hq' : ∀ s ∈ storedBy ((p, some u') :: cs), ¬ q <+: s := by
      intro s hs hp
      have : changedSet (storedBy ((p, some u') :: cs)) q = true := List.any_eq_true.2 ⟨s, hs, List.isPrefixOf_iff_prefix.2 hp⟩
      rw [this] at hq; cases hq
    rw [storedBy, Option.bind_some, hw] at hq'
    have hcs : changedSet (storedBy cs) q = false := by
      rw [← Bool.not_eq_true]
      intro hc
      obtain ⟨s, hs, hp⟩ := List.any_eq_true.1 hc
      exact hq' s (List.mem_append_right _ hs) (List.isPrefixOf_iff_prefix.1 hp)
    rw [ih _ _ h2 q hcs]
    exact updatePath_same K _ _ _ h1 q (fun s hs => hq' _ (List.mem_append_left _ (List.mem_map.2 ⟨s, hs, rfl⟩)))

/-! ### the tree that is read back -/

theorem skelIn_backFields (b : Bool) : ∀ (fs fs' : List (String × Pv)), (∀ kv ∈ fs, ∀ v', typeOf kv.2 = typeOf v' → skel (back kv.2) = skel (back v')) →
    typeOfIn fs = typeOfIn fs' → skelIn (backFields b fs) = skelIn (backFields b fs') := by
  intro fs
  induction fs with
  | nil =>
    intro fs' _ h
    cases fs' with
    | nil => rfl
    | cons f fs' => rw [typeOfIn, typeOfIn] at h; cases h
  | cons f fs ih =>
    intro fs' hv h
    obtain ⟨k, v⟩ := f
    cases fs' with
    | nil => rw [typeOfIn, typeOfIn] at h; cases h
    | cons f' fs' =>
      obtain ⟨k', v'⟩ := f'
      rw [typeOfIn, typeOfIn, List.cons.injEq, Prod.mk.injEq] at h
      obtain ⟨⟨rfl, h1⟩, h2⟩ := h
      have hr := ih fs' (fun kv hm => hv kv (List.mem_cons_of_mem _ hm)) h2
      rw [backFields, backFields]
      by_cases hl : b = true ∧ k = "labels"
      · rw [if_pos hl, if_pos hl]; exact hr
      · rw [if_neg hl, if_neg hl, skelIn, skelIn, hr, hv _ List.mem_cons_self v' h1]

theorem back_leaf {v : Pv} (h : ∀ t fs, v ≠ .struct t fs) : ∀ t fs, back v ≠ .dict t fs := by
  intro t fs hb
  cases v <;> first | exact h _ _ rfl | (rw [back] at hb; cases hb)

theorem skel_back : ∀ v v', typeOf v = typeOf v' → skel (back v) = skel (back v') := by
  refine pv_ind ?_ ?_
  · intro v hv v' h
    rw [typeOf_leaf hv] at h
    rw [skel_leaf (back_leaf hv), skel_leaf (back_leaf (typeOf_str h.symm))]
  · intro id fs ih v' h
    rw [typeOf] at h
    obtain ⟨fs', rfl, h'⟩ := typeOf_struct h.symm
    rw [back, back, skel, skel]
    congr 1
    exact skelIn_backFields _ _ _ ih h'.symm

theorem at_back : ∀ (p : List String) (v : Pv) (y : Py), at_ (back v) p = some y → ∃ w, atPv v p = some w ∧ back w = y := by
  intro p
  induction p with
  | nil => intro v y h; rw [at_] at h; cases h; exact ⟨v, atPv_nil v, rfl⟩
  | cons k ks ih =>
    intro v y h
    by_cases hd : ∃ t fs, v = .struct t fs
    · obtain ⟨id, fs, rfl⟩ := hd
      rw [back, at_dict, field_back] at h
      split at h
      · cases h
      · cases hf : field fs k with
        | none => rw [hf] at h; cases h
        | some w =>
          rw [hf] at h
          obtain ⟨w', h1, h2⟩ := ih w y h
          exact ⟨w', by rw [atPv_struct, hf]; exact h1, h2⟩
    · have hd : ∀ t fs, v ≠ .struct t fs := fun t fs h => hd ⟨t, fs, h⟩
      rw [at_leaf (back_leaf hd)] at h; cases h

/-- what has not changed is read back the same -/
theorem at_back_same {v v' : Pv} (ht : typeOf v' = typeOf v) {p : List String} (h : atPv v' p = atPv v p) :
    at_ (back v') p = at_ (back v) p := by
  have hs := at_skel p (back v')
  rw [skel_back v' v ht, at_skel] at hs
  cases h1 : at_ (back v) p with
  | none =>
    rw [h1] at hs
    cases h2 : at_ (back v') p with
    | none => rfl
    | some y => rw [h2] at hs; cases hs
  | some y =>
    rw [h1] at hs
    cases h2 : at_ (back v') p with
    | none => rw [h2] at hs; cases hs
    | some y' =>
      obtain ⟨w, hw1, hw2⟩ := at_back p v y h1
      obtain ⟨w', hw3, hw4⟩ := at_back p v' y' h2
      rw [h, hw1] at hw3
      cases hw3
      rw [← hw2, ← hw4]

end Verif.Proofs.PvaClient
