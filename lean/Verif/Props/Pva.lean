import Verif.Spec.Pva
/-!
C71: what a pvAccess client sees of a block is its data. C72: a put of a pvAccess client writes one attribute.
-/
set_option linter.unusedSectionVars false
namespace Verif.Props.Pva
open Verif Verif.Pva Verif.Spec.Pva

/-! ### fields -/

theorem field_none_iff {α : Type} (fs : List (String × α)) (k : String) : field fs k = none ↔ k ∉ fs.map (·.1) := by
  induction fs with
  | nil => simp [field]
  | cons f fs ih =>
    obtain ⟨n, v⟩ := f
    unfold field
    by_cases h : n = k
    · simp [h]
    · rw [if_neg h, ih]
      simp only [List.map_cons, List.mem_cons, not_or]
      exact ⟨fun hh => ⟨fun e => h e.symm, hh⟩, fun hh => hh.2⟩

theorem field_setField {α : Type} (fs : List (String × α)) (k n : String) (x : α) (h : k ∈ fs.map (·.1)) :
    field (setField fs k x) n = if k = n then some x else field fs n := by
  induction fs with
  | nil => cases h
  | cons f fs ih =>
    obtain ⟨m, v⟩ := f
    unfold setField
    by_cases hm : m = k
    · rw [if_pos hm]
      subst hm
      unfold field
      by_cases hn : m = n <;> simp [hn]
    · rw [if_neg hm]
      have hk : k ∈ fs.map (·.1) := by
        rw [List.map_cons, List.mem_cons] at h
        rcases h with h | h
        · exact absurd h.symm hm
        · exact h
      rw [field, field, ih hk]
      by_cases hn : m = n
      · have : k ≠ n := fun e => hm (hn.trans e.symm)
        rw [if_pos hn, if_pos hn, if_neg this]
      · rw [if_neg hn, if_neg hn]

theorem names_setField {α : Type} (fs : List (String × α)) (k : String) (x : α) : (setField fs k x).map (·.1) = fs.map (·.1) := by
  induction fs with
  | nil => rfl
  | cons f fs ih =>
    obtain ⟨m, v⟩ := f
    unfold setField
    by_cases hm : m = k
    · rw [if_pos hm]; rfl
    · rw [if_neg hm, List.map_cons, List.map_cons, ih]

/-- fields with the same names in the same order and the same values -/
theorem fields_ext {α : Type} : ∀ (fs gs : List (String × α)), (fs.map (·.1)).Nodup → fs.map (·.1) = gs.map (·.1) →
    (∀ k ∈ fs.map (·.1), field fs k = field gs k) → fs = gs := by
  intro fs
  induction fs with
  | nil => intro gs _ h _; cases gs with
    | nil => rfl
    | cons g gs => cases h
  | cons f fs ih =>
    intro gs hn h hv
    cases gs with
    | nil => cases h
    | cons g gs =>
      obtain ⟨a, x⟩ := f
      obtain ⟨b, y⟩ := g
      simp only [List.map_cons, List.cons.injEq] at h
      obtain ⟨rfl, h⟩ := h
      rw [List.map_cons, List.nodup_cons] at hn
      have h1 := hv a (by simp)
      simp only [field, if_true, Option.some.injEq] at h1
      subst h1
      congr 1
      refine ih gs hn.2 h ?_
      intro k hk
      have h2 := hv k (by rw [List.map_cons]; exact List.mem_cons_of_mem _ hk)
      have hne : a ≠ k := by rintro rfl; exact hn.1 hk
      simp only [field, if_neg hne] at h2
      exact h2

theorem names_plain (fs : List (String × Py)) : (plainFields fs).map (·.1) = fs.map (·.1) := by
  induction fs with
  | nil => rfl
  | cons f fs ih => obtain ⟨k, v⟩ := f; rw [plainFields, List.map_cons, List.map_cons, ih]

theorem field_plain (fs : List (String × Py)) (k : String) : field (plainFields fs) k = (field fs k).map plain := by
  induction fs with
  | nil => rfl
  | cons f fs ih =>
    obtain ⟨n, v⟩ := f
    rw [plainFields, field, field, ih]
    by_cases h : n = k
    · rw [if_pos h, if_pos h]; rfl
    · rw [if_neg h, if_neg h]

theorem names_conv : ∀ (fs : List (String × Py)) (ws : List (String × Pv)), convFields fs = some ws → ws.map (·.1) = fs.map (·.1) := by
  intro fs
  induction fs with
  | nil => intro ws h; rw [convFields] at h; cases h; rfl
  | cons f fs ih =>
    intro ws h
    obtain ⟨k, v⟩ := f
    rw [convFields] at h
    split at h
    · rename_i w ws' h1 h2
      cases h
      rw [List.map_cons, List.map_cons, ih _ h2]
    · cases h

theorem field_conv : ∀ (fs : List (String × Py)) (ws : List (String × Pv)) (k : String) (v : Py), convFields fs = some ws →
    field fs k = some v → ∃ w, field ws k = some w ∧ conv v = some w := by
  intro fs
  induction fs with
  | nil => intro ws k v h hv; cases hv
  | cons f fs ih =>
    intro ws k v h hv
    obtain ⟨n, u⟩ := f
    rw [convFields] at h
    split at h
    · rename_i w ws' h1 h2
      cases h
      rw [field] at hv ⊢
      by_cases hn : n = k
      · rw [if_pos hn] at hv ⊢
        cases hv
        exact ⟨w, rfl, h1⟩
      · rw [if_neg hn] at hv ⊢
        exact ih _ _ _ h2 hv
    · cases h

theorem backFields_true (ws : List (String × Pv)) (h : field ws "labels" = none) : backFields true ws = backFields false ws := by
  induction ws with
  | nil => rfl
  | cons f ws ih =>
    obtain ⟨k, v⟩ := f
    rw [field] at h
    by_cases hk : k = "labels"
    · rw [if_pos hk] at h; cases h
    · rw [if_neg hk] at h
      rw [backFields, backFields, ih h, if_neg (fun hh => hk hh.2), if_neg (fun hh => hk hh.2)]

/-! ### there and back -/

mutual
/-- **C71**: what can be sent over pvAccess comes back as the same data. -/
theorem back_conv : ∀ (v : Py) (w : Pv), conv v = some w → back w = plain v
  | .none, w, h => by rw [conv] at h; cases h
  | .str s, w, h => by rw [conv] at h; cases h; rfl
  | .enum s, w, h => by rw [conv] at h; cases h; rfl
  | .alarm n, w, h => by rw [conv] at h; cases h; rfl
  | .num spec x, w, h => by
    rw [conv] at h
    split at h
    · cases h; rfl
    · cases h
  | .nums spec x, w, h => by
    rw [conv] at h
    split at h
    · cases h; rfl
    · cases h
  | .strs xs, w, h => by rw [conv] at h; cases h; rfl
  | .enums xs, w, h => by rw [conv] at h; cases h; rfl
  | .objs vs, w, h => by
    rw [conv] at h
    cases hc : convObjs vs with
    | none => rw [hc] at h; cases h
    | some ws =>
      rw [hc] at h
      cases h
      rw [back, plain, back_convObjs vs ws hc]
  | .dict t fs, w, h => by
    rw [conv] at h
    cases hc : convFields fs with
    | none => rw [hc] at h; cases h
    | some ws =>
      rw [hc] at h
      simp only at h
      have hb := back_convFields fs ws hc
      rw [plain, ← hb]
      unfold withLabels at h
      by_cases ht : t = some ntTable
      · rw [if_pos ht] at h
        subst ht
        cases hl : labels fs with
        | none => rw [hl] at h; cases h
        | some ls =>
          rw [hl] at h
          simp only at h
          by_cases hx : (field ws "labels").isSome = true
          · rw [if_pos hx] at h; cases h
          · rw [if_neg hx] at h
            cases h
            have hn : field ws "labels" = none := by
              cases hf : field ws "labels" with
              | none => rfl
              | some x => rw [hf] at hx; exact absurd rfl hx
            simp only [Option.getD_some]
            rw [back]
            have h1 : (decide (ntTable = ntTable)) = true := by simp
            have h2 : ntTable ≠ "structure" := by decide
            have h3 : ¬ some ntTable = some "structure" := fun h => h2 (Option.some.inj h)
            rw [h1, backFields, backFields_true ws hn, if_neg h2, if_neg h3]
            simp only [and_self, if_true]
      · rw [if_neg ht] at h
        cases h
        rw [back]
        have h1 : (decide (t.getD "structure" = ntTable)) = false := by
          rw [decide_eq_false_iff_not]
          cases t with
          | none => decide
          | some i => exact fun h => ht (by rw [show i = ntTable from h])
        rw [h1]
        cases t with
        | none => rfl
        | some i =>
          simp only [Option.getD_some, Option.some.injEq]
theorem back_convObjs : ∀ (vs : List Py) (ws : List Pv), convObjs vs = some ws → backList ws = plainList vs
  | [], ws, h => by rw [convObjs] at h; cases h; rfl
  | v :: vs, ws, h => by
    rw [convObjs] at h
    split at h
    · rename_i w ws' h1 h2
      cases h
      rw [backList, plainList, back_convObjs vs ws' h2]
      congr 1
      cases v with
      | none => rw [asObj] at h1; cases h1; rfl
      | dict t fs =>
        rw [asObj] at h1
        rw [back_conv _ _ h1]
        rw [plain]
      | _ => cases h1
    · cases h
theorem back_convFields : ∀ (fs : List (String × Py)) (ws : List (String × Pv)), convFields fs = some ws →
    backFields false ws = plainFields fs
  | [], ws, h => by rw [convFields] at h; cases h; rfl
  | (k, v) :: fs, ws, h => by
    rw [convFields] at h
    split at h
    · rename_i w ws' h1 h2
      cases h
      rw [backFields, plainFields, back_convFields fs ws' h2, back_conv v w h1, if_neg (fun hh => by cases hh.1)]
    · cases h
end

mutual
theorem conv_some : ∀ (v : Py), (∃ w, conv v = some w) ↔ sendable v
  | .none => by simp [conv, sendable]
  | .str s => by simp [conv, sendable]
  | .enum s => by simp [conv, sendable]
  | .alarm n => by simp [conv, sendable]
  | .num spec x => by
    rw [conv, sendable]
    by_cases h : spec ∈ specs <;> simp [h]
  | .nums spec x => by
    rw [conv, sendable]
    by_cases h : spec ∈ specs <;> simp [h]
  | .strs xs => by simp [conv, sendable]
  | .enums xs => by simp [conv, sendable]
  | .objs vs => by
    rw [conv, sendable, ← conv_someList vs]
    cases convObjs vs <;> simp
  | .dict t fs => by
    rw [conv, sendable, ← conv_someFields fs]
    cases hc : convFields fs with
    | none => simp
    | some ws =>
      simp only [Option.some.injEq, exists_eq', true_and]
      have hn := field_none_iff ws "labels"
      rw [names_conv fs ws hc] at hn
      unfold withLabels
      by_cases ht : t = some ntTable
      · simp only [ht, if_true]
        cases hl : labels fs with
        | none => simp
        | some ls =>
          simp only [Option.isSome_some, true_and]
          cases hf : field ws "labels" with
          | none =>
            rw [hf] at hn
            simp only [true_iff] at hn
            simp only [Option.isSome_none, Bool.false_eq_true, if_false]
            exact ⟨fun _ _ => hn, fun _ => ⟨_, rfl⟩⟩
          | some x =>
            rw [hf] at hn
            simp only [reduceCtorEq, false_iff] at hn
            simp only [Option.isSome_some, if_true]
            constructor
            · rintro ⟨w, h⟩; cases h
            · intro h; exact absurd (h trivial) hn
      · simp only [ht, if_false]
        exact ⟨fun _ h => absurd h (by simp), fun _ => ⟨_, rfl⟩⟩
theorem conv_someList : ∀ (vs : List Py), (∃ ws, convObjs vs = some ws) ↔ sendableList vs
  | [] => by simp [convObjs, sendableList]
  | v :: vs => by
    rw [convObjs, sendableList, ← conv_someList vs]
    have hv : (∃ w, asObj v (conv v) = some w) ↔ (v = .none ∨ ((∃ t fs, v = .dict t fs) ∧ sendable v)) := by
      rw [← conv_some v]
      cases v <;> simp [asObj]
    rw [← hv]
    cases asObj v (conv v) <;> cases convObjs vs <;> simp
theorem conv_someFields : ∀ (fs : List (String × Py)), (∃ ws, convFields fs = some ws) ↔ sendableFields fs
  | [] => by simp [convFields, sendableFields]
  | (k, v) :: fs => by
    rw [convFields, sendableFields, ← conv_someFields fs, ← conv_some v]
    cases conv v <;> cases convFields fs <;> simp
end

/-! ### assignment -/

theorem names_back (table : Bool) (ws : List (String × Pv)) :
    (backFields table ws).map (·.1) = (ws.map (·.1)).filter (fun k => !(table && decide (k = "labels"))) := by
  induction ws with
  | nil => rfl
  | cons f ws ih =>
    obtain ⟨k, v⟩ := f
    rw [backFields]
    by_cases h : table = true ∧ k = "labels"
    · rw [if_pos h, ih, List.map_cons, List.filter_cons_of_neg (by simp [h.1, h.2])]
    · rw [if_neg h, List.map_cons, List.map_cons, List.filter_cons_of_pos, ih]
      cases ht : table
      · rfl
      · have : k ≠ "labels" := fun e => h ⟨ht, e⟩
        simp [this]

theorem field_back (table : Bool) (ws : List (String × Pv)) (k : String) :
    field (backFields table ws) k = if table = true ∧ k = "labels" then none else (field ws k).map back := by
  induction ws with
  | nil => simp [backFields, field]
  | cons f ws ih =>
    obtain ⟨n, v⟩ := f
    rw [backFields]
    by_cases h : table = true ∧ n = "labels"
    · rw [if_pos h, ih]
      by_cases hk : table = true ∧ k = "labels"
      · rw [if_pos hk, if_pos hk]
      · rw [if_neg hk, if_neg hk, field, if_neg (fun e => hk ⟨h.1, by rw [← e]; exact h.2⟩)]
    · rw [if_neg h, field, field, ih]
      by_cases hn : n = k
      · subst hn
        rw [if_pos rfl, if_pos rfl, if_neg h]
        rfl
      · rw [if_neg hn, if_neg hn]

theorem backFields_setField (table : Bool) (ws : List (String × Pv)) (k : String) (x : Pv) (h : ¬ (table = true ∧ k = "labels")) :
    backFields table (setField ws k x) = setField (backFields table ws) k (back x) := by
  induction ws with
  | nil => rfl
  | cons f ws ih =>
    obtain ⟨n, v⟩ := f
    rw [setField]
    by_cases hn : n = k
    · subst hn
      rw [if_pos rfl, backFields, if_neg h, backFields, if_neg h, setField, if_pos rfl]
    · rw [if_neg hn, backFields, backFields, ih]
      by_cases hl : table = true ∧ n = "labels"
      · rw [if_pos hl, if_pos hl]
      · rw [if_neg hl, if_neg hl, setField, if_neg hn]

theorem plainFields_put1 (fs : List (String × Py)) (k : String) (u : Py) (h : k ∈ fs.map (·.1)) :
    plainFields (put1 fs k u) = setField (plainFields fs) k (plain u) := by
  induction fs with
  | nil => cases h
  | cons f fs ih =>
    obtain ⟨n, v⟩ := f
    rw [put1, plainFields, setField]
    by_cases hn : n = k
    · rw [if_pos hn, if_pos hn, plainFields]
    · rw [if_neg hn, if_neg hn, plainFields, ih]
      rw [List.map_cons, List.mem_cons] at h
      rcases h with h | h
      · exact absurd h.symm hn
      · exact h

theorem sublist_eq {α : Type} {l m : List α} (h : l.Sublist m) : m.Nodup → (∀ x ∈ m, x ∈ l) → l = m := by
  induction h with
  | slnil => intro _ _; rfl
  | cons a h ih =>
    intro hn hs
    rw [List.nodup_cons] at hn
    exact absurd (h.subset (hs a (by simp))) hn.1
  | cons_cons a h ih =>
    intro hn hs
    rw [List.nodup_cons] at hn
    rw [ih hn.2]
    intro x hx
    rcases List.mem_cons.1 (hs x (List.mem_cons_of_mem _ hx)) with h' | h'
    · subst h'; exact absurd hx hn.1
    · exact h'

theorem keepsFields_field : ∀ (new old : List (String × Py)), keepsFields old new → ∀ k o v, field old k = some o →
    field new k = some v → keeps o v := by
  intro new
  induction new with
  | nil => intro old _ k o v _ h; cases h
  | cons f fs ih =>
    intro old hk k o v ho hv
    obtain ⟨n, x⟩ := f
    rw [keepsFields] at hk
    rw [field] at hv
    by_cases hn : n = k
    · rw [if_pos hn] at hv
      cases hv
      exact hk.1 o (by rw [hn]; exact ho)
    · rw [if_neg hn] at hv
      exact ih old hk.2 k o v ho hv

theorem storeFields_spec {ext : Ext} : ∀ (ws old r : List (String × Pv)), storeFields ext old ws = some r →
    r.map (·.1) = old.map (·.1) ∧ (∀ k ∈ ws.map (·.1), k ∈ old.map (·.1)) ∧
    (∀ k, k ∉ ws.map (·.1) → field r k = field old k) ∧
    ((ws.map (·.1)).Nodup → ∀ k w, field ws k = some w → ∃ o x, field old k = some o ∧ store ext o w = some x ∧ field r k = some x) := by
  intro ws
  induction ws with
  | nil =>
    intro old r h
    rw [storeFields] at h
    cases h
    exact ⟨rfl, (fun k hk => by cases hk), (fun k _ => rfl), (fun _ k w hw => by cases hw)⟩
  | cons f ws ih =>
    intro old r h
    obtain ⟨n, v⟩ := f
    rw [storeFields] at h
    cases ho : field old n with
    | none => rw [ho] at h; cases h
    | some o =>
      rw [ho] at h
      simp only at h
      cases hs : store ext o v with
      | none => rw [hs] at h; cases h
      | some x =>
        rw [hs] at h
        simp only at h
        obtain ⟨h1, h2, h3, h4⟩ := ih _ _ h
        have hin : n ∈ old.map (·.1) := by
          have : ¬ field old n = none := by rw [ho]; simp
          rw [field_none_iff] at this
          exact Classical.not_not.1 this
        rw [names_setField] at h1 h2
        refine ⟨h1, ?_, ?_, ?_⟩
        · intro k hk
          rw [List.map_cons, List.mem_cons] at hk
          rcases hk with rfl | hk
          · exact hin
          · exact h2 k hk
        · intro k hk
          rw [List.map_cons, List.mem_cons, not_or] at hk
          rw [h3 k hk.2, field_setField _ _ _ _ hin, if_neg (fun e => hk.1 e.symm)]
        · intro hn k w hw
          rw [List.map_cons, List.nodup_cons] at hn
          rw [field] at hw
          by_cases hk : n = k
          · subst hk
            rw [if_pos rfl] at hw
            cases hw
            refine ⟨o, x, ho, hs, ?_⟩
            rw [h3 n hn.1, field_setField _ _ _ _ hin, if_pos rfl]
          · rw [if_neg hk] at hw
            obtain ⟨o', x', a, b, c⟩ := h4 hn.2 k w hw
            rw [field_setField _ _ _ _ hin, if_neg hk] at a
            exact ⟨o', x', a, b, c⟩

theorem back_str {o : Pv} {s : String} (h : back o = .str s) : o = .str s := by
  cases o <;> simp [back] at h ⊢
  exact h
theorem back_num {o : Pv} {s : String} {x : Int} (h : back o = .num s x) : o = .num s x := by
  cases o <;> simp [back] at h ⊢
  exact h
theorem back_nums {o : Pv} {s : String} {x : List Int} (h : back o = .nums s x) : o = .nums s x := by
  cases o <;> simp [back] at h ⊢
  exact h
theorem back_strs {o : Pv} {x : List String} (h : back o = .strs x) : o = .strs x := by
  cases o <;> simp [back] at h ⊢
  exact h
theorem back_objs {o : Pv} {x : List Py} (h : back o = .objs x) : ∃ vs, o = .any vs := by
  cases o <;> simp [back] at h ⊢
theorem back_dict {o : Pv} {t : Option String} {x : List (String × Py)} (h : back o = .dict t x) :
    ∃ id fs, o = .struct id fs ∧ (if id = "structure" then none else some id) = t ∧ backFields (id = ntTable) fs = x := by
  cases o <;> simp only [back, Py.dict.injEq, reduceCtorEq] at h
  rename_i id fs
  exact ⟨id, fs, rfl, h.1, h.2⟩

mutual
/-- Assigning a value that has the fields of the old one -/
theorem store_back {ext : Ext} : ∀ (u : Py) (w o x : Pv), conv u = some w → keeps (back o) (plain u) → store ext o w = some x →
    back x = plain u
  | .none, w, o, x, hc, hk, hs => by rw [conv] at hc; cases hc
  | .str s, w, o, x, hc, hk, hs => by
    rw [conv] at hc; cases hc
    rw [plain, keeps] at hk
    obtain ⟨s', h⟩ := hk
    rw [back_str h, store] at hs
    cases hs; rfl
  | .enum s, w, o, x, hc, hk, hs => by
    rw [conv] at hc; cases hc
    rw [plain, keeps] at hk
    obtain ⟨s', h⟩ := hk
    rw [back_str h, store] at hs
    cases hs; rfl
  | .alarm n, w, o, x, hc, hk, hs => by
    rw [conv] at hc; cases hc
    rw [plain, keeps] at hk
    obtain ⟨s', h⟩ := hk
    rw [back_num h, store] at hs
    simp only [if_true] at hs
    cases hs; rfl
  | .num spec n, w, o, x, hc, hk, hs => by
    rw [conv] at hc
    split at hc
    · cases hc
      rw [plain, keeps] at hk
      obtain ⟨s', h⟩ := hk
      rw [back_num h, store] at hs
      simp only [if_true] at hs
      cases hs; rfl
    · cases hc
  | .nums spec n, w, o, x, hc, hk, hs => by
    rw [conv] at hc
    split at hc
    · cases hc
      rw [plain, keeps] at hk
      obtain ⟨s', h⟩ := hk
      rw [back_nums h, store] at hs
      simp only [if_true] at hs
      cases hs; rfl
    · cases hc
  | .strs n, w, o, x, hc, hk, hs => by
    rw [conv] at hc; cases hc
    rw [plain, keeps] at hk
    obtain ⟨s', h⟩ := hk
    rw [back_strs h, store] at hs
    cases hs; rfl
  | .enums n, w, o, x, hc, hk, hs => by
    rw [conv] at hc; cases hc
    rw [plain, keeps] at hk
    obtain ⟨s', h⟩ := hk
    rw [back_strs h, store] at hs
    cases hs; rfl
  | .objs vs, w, o, x, hc, hk, hs => by
    have hb := back_conv _ _ hc
    rw [conv] at hc
    cases ho : convObjs vs with
    | none => rw [ho] at hc; cases hc
    | some ws =>
      rw [ho] at hc
      cases hc
      rw [plain, keeps] at hk
      obtain ⟨s', h⟩ := hk
      obtain ⟨vs', rfl⟩ := back_objs h
      rw [store] at hs
      cases hs
      exact hb
  | .dict t fs, w, o, x, hc, hk, hs => by
    have ih := store_backFields (ext := ext) fs
    rw [conv] at hc
    cases hcf : convFields fs with
    | none => rw [hcf] at hc; cases hc
    | some ws =>
    rw [hcf] at hc
    simp only at hc
    rw [plain, keeps] at hk
    obtain ⟨fs', hbo, hsub, hnd, hkf⟩ := hk
    obtain ⟨id, ofs, rfl, hid, hofs⟩ := back_dict hbo
    rw [names_plain] at hsub hnd
    -- the fields that are assigned
    cases hwl : withLabels t fs ws with
    | none => rw [hwl] at hc; cases hc
    | some ws' =>
    rw [hwl] at hc
    cases hc
    rw [store] at hs
    cases hsf : storeFields ext ofs ws' with
    | none => rw [hsf] at hs; cases hs
    | some r =>
    rw [hsf] at hs
    cases hs
    obtain ⟨r1, r2, r3, r4⟩ := storeFields_spec ws' ofs r hsf
    have htab : id = ntTable ↔ t = some ntTable := by
      have h2 : ntTable ≠ "structure" := by decide
      constructor
      · rintro rfl
        rw [if_neg h2] at hid
        split at hid
        · cases hid
        · exact hid.symm
      · rintro rfl
        rw [if_neg (fun h => h2 (Option.some.inj h))] at hid
        split at hid
        · cases hid
        · exact Option.some.inj hid
    -- what is known of them
    have hws : (ws'.map (·.1)).Nodup ∧ (∀ k ∈ fs.map (·.1), k ∈ ws'.map (·.1)) ∧ (id = ntTable → "labels" ∉ fs.map (·.1)) ∧
        (∀ k w, k ∈ fs.map (·.1) → field ws k = some w → field ws' k = some w) := by
      have hnames := names_conv fs ws hcf
      unfold withLabels at hwl
      by_cases ht : t = some ntTable
      · rw [if_pos ht] at hwl
        cases hl : labels fs with
        | none => rw [hl] at hwl; cases hwl
        | some ls =>
          rw [hl] at hwl
          simp only at hwl
          by_cases hx : (field ws "labels").isSome = true
          · rw [if_pos hx] at hwl; cases hwl
          · rw [if_neg hx] at hwl
            cases hwl
            have hn : field ws "labels" = none := by
              cases hf : field ws "labels" with
              | none => rfl
              | some x => rw [hf] at hx; exact absurd rfl hx
            rw [field_none_iff, hnames] at hn
            refine ⟨?_, ?_, fun _ => hn, ?_⟩
            · rw [List.map_cons, List.nodup_cons, hnames]; exact ⟨hn, hnd⟩
            · intro k hk; rw [List.map_cons, hnames]; exact List.mem_cons_of_mem _ hk
            · intro k w hk hw
              rw [field, if_neg (fun e => hn (by rw [e]; exact hk))]
              exact hw
      · rw [if_neg ht] at hwl
        cases hwl
        exact ⟨by rw [hnames]; exact hnd, (fun k hk => by rw [hnames]; exact hk), (fun h => absurd (htab.1 h) ht), (fun _ _ _ h => h)⟩
    obtain ⟨w1, w2, w3, w4⟩ := hws
    -- the names are the same
    have hN : fs'.map (·.1) = fs.map (·.1) := by
      refine sublist_eq hsub hnd ?_
      intro k hk
      rw [← hofs, names_back, List.mem_filter]
      refine ⟨r2 k (w2 k hk), ?_⟩
      by_cases hi : id = ntTable
      · have : k ≠ "labels" := fun e => w3 hi (by rw [← e]; exact hk)
        simp [this]
      · simp [hi]
    rw [back, plain, hid]
    congr 1
    refine fields_ext _ _ ?_ ?_ ?_
    · rw [names_back, r1, ← names_back, hofs, hN]; exact hnd
    · rw [names_back, r1, ← names_back, hofs, hN, names_plain]
    · intro k hk
      rw [names_back, r1, ← names_back, hofs, hN] at hk
      have hlab : ¬ ((decide (id = ntTable)) = true ∧ k = "labels") := by
        rintro ⟨h1, h2⟩
        exact w3 (of_decide_eq_true h1) (by rw [← h2]; exact hk)
      rw [field_back, if_neg hlab, field_plain]
      cases hv : field fs k with
      | none => rw [field_none_iff] at hv; exact absurd hk hv
      | some v =>
        obtain ⟨w, hw, hcw⟩ := field_conv fs ws k v hcf hv
        obtain ⟨o, x, ho, hsx, hrx⟩ := r4 w1 k w (w4 k w hk hw)
        rw [hrx]
        simp only [Option.map_some, Option.some.injEq]
        refine ih k v hv w o x hcw ?_ hsx
        refine keepsFields_field _ _ hkf k (back o) (plain v) ?_ ?_
        · rw [← hofs, field_back, if_neg hlab, ho]; rfl
        · rw [field_plain, hv]; rfl
theorem store_backFields {ext : Ext} : ∀ (fs : List (String × Py)) (k : String) (v : Py), field fs k = some v →
    ∀ (w o x : Pv), conv v = some w → keeps (back o) (plain v) → store ext o w = some x → back x = plain v
  | [], k, v, hv => by cases hv
  | (n, u) :: fs, k, v, hv => by
    rw [field] at hv
    by_cases hn : n = k
    · rw [if_pos hn] at hv
      cases hv
      intro w o x h1 h2 h3
      exact store_back u w o x h1 h2 h3
    · rw [if_neg hn] at hv
      exact store_backFields fs k v hv
end

theorem plain_dict {b : Py} {t : Option String} {fs : List (String × Py)} (h : plain b = .dict t fs) :
    ∃ t' fs', b = .dict t' fs' ∧ (if t' = some "structure" then none else t') = t ∧ plainFields fs' = fs := by
  cases b <;> simp only [plain, Py.dict.injEq, reduceCtorEq] at h
  rename_i t' fs'
  exact ⟨t', fs', rfl, h.1, h.2⟩

theorem mem_of_field {α : Type} {fs : List (String × α)} {k : String} {v : α} (h : field fs k = some v) : k ∈ fs.map (·.1) := by
  have : ¬ field fs k = none := by rw [h]; simp
  rw [field_none_iff] at this
  exact Classical.not_not.1 this

theorem updatePath_back {ext : Ext} {u : Py} {w : Pv} (hc : conv u = some w) : ∀ (p : List String) (b : Py) (v v' : Pv), p ≠ [] →
    back v = plain b → Grows b (p, some u) → updatePath ext w v p = some v' → back v' = plain (setAt u b p) := by
  intro p
  induction p with
  | nil => intro b v v' h; exact absurd rfl h
  | cons k ks ih =>
    intro b v v' _ hb hg hu
    -- it is a structure
    have hst : ∃ id fs, v = .struct id fs := by
      cases v <;> first | exact ⟨_, _, rfl⟩ | (simp [updatePath] at hu)
    obtain ⟨id, fs, rfl⟩ := hst
    rw [back] at hb
    obtain ⟨t, bfs, rfl, ht, hbf⟩ := plain_dict hb.symm
    -- the field of the block
    have hfield : ∀ o, field fs k = some o → ∃ c, field bfs k = some c ∧ back o = plain c ∧ ¬ ((decide (id = ntTable)) = true ∧ k = "labels") := by
      intro o ho
      have key : ¬ ((decide (id = ntTable)) = true ∧ k = "labels") → ∃ c, field bfs k = some c ∧ back o = plain c := by
        intro hl
        have := field_back (decide (id = ntTable)) fs k
        rw [if_neg hl, ho, ← hbf, field_plain] at this
        cases hf : field bfs k with
        | none => rw [hf] at this; cases this
        | some c => rw [hf] at this; exact ⟨c, rfl, (Option.some.inj this).symm⟩
      by_cases hl : (decide (id = ntTable)) = true ∧ k = "labels"
      · -- then the block has no such field
        have h0 := field_back (decide (id = ntTable)) fs k
        rw [if_pos hl, ← hbf, field_plain] at h0
        have h1 : field bfs k = none := by
          cases hf : field bfs k with
          | none => rfl
          | some c => rw [hf] at h0; cases h0
        unfold Grows at hg
        simp only [at_, h1] at hg
        rw [hl.2] at hg
        exact absurd (by simp) hg
      · obtain ⟨c, h1, h2⟩ := key hl
        exact ⟨c, h1, h2, hl⟩
    cases ho : field fs k with
    | none => cases ks <;> simp [updatePath, ho] at hu
    | some o =>
      obtain ⟨c, hf, hoc, hl⟩ := hfield o ho
      have hmem := mem_of_field hf
      have final : ∀ x y, back x = plain y →
          back (.struct id (setField fs k x)) = plain (.dict t (put1 bfs k y)) := by
        intro x y hxy
        rw [back, plain, ← ht, backFields_setField _ _ _ _ hl, ← hbf, plainFields_put1 _ _ _ hmem, hxy]
      cases ks with
      | nil =>
        rw [updatePath, ho] at hu
        simp only at hu
        cases hs : store ext o w with
        | none => rw [hs] at hu; cases hu
        | some x =>
          rw [hs] at hu
          cases hu
          have hg' : keeps (plain c) (plain u) := by
            unfold Grows at hg
            simp only [at_, hf] at hg
            exact hg
          rw [← hoc] at hg'
          have hx := store_back u w o x hc hg' hs
          rw [setAt]
          simp only [hf]
          exact final x _ (by rw [setAt]; exact hx)
      | cons k2 ks =>
        rw [updatePath, ho] at hu
        · simp only at hu
          cases hs : updatePath ext w o (k2 :: ks) with
          | none => rw [hs] at hu; cases hu
          | some x =>
            rw [hs] at hu
            cases hu
            have hg' : Grows c (k2 :: ks, some u) := by
              unfold Grows at hg ⊢
              simp only [at_, hf] at hg
              simp only at hg ⊢
              cases ha : at_ c (k2 :: ks) with
              | none =>
                rw [ha] at hg
                intro hmem
                exact hg (List.mem_cons_of_mem _ hmem)
              | some old =>
                rw [ha] at hg
                exact hg
            have hx := ih c o x (by simp) hoc hg' hs
            rw [setAt]
            simp only [hf]
            exact final x _ hx
        · intro h; cases h

theorem updateAll_back {ext : Ext} : ∀ (cs : List Change) (b : Py) (v v' : Pv), back v = plain b → AllGrow b cs →
    updateAll ext v cs = some v' → back v' = plain (cs.foldl change b) := by
  intro cs
  induction cs with
  | nil => intro b v v' hb _ h; rw [updateAll] at h; cases h; exact hb
  | cons c cs ih =>
    intro b v v' hb hg h
    obtain ⟨p, u⟩ := c
    rw [AllGrow] at hg
    cases u with
    | none => simp [updateAll] at h
    | some u =>
      cases p with
      | nil => simp [updateAll] at h
      | cons k ks =>
        simp only [updateAll] at h
        cases hc : conv u with
        | none => rw [hc] at h; cases h
        | some w =>
          rw [hc] at h
          simp only at h
          cases hu : updatePath ext w v (k :: ks) with
          | none => rw [hu] at h; cases h
          | some v1 =>
            rw [hu] at h
            simp only at h
            exact ih _ v1 v' (updatePath_back hc (k :: ks) b v v1 (by simp) hb hg.1 hu) hg.2 h

/-! ### the channel -/

theorem plain_is_dict {b : Py} (h : ∃ t fs, b = .dict t fs) : ∃ t fs, plain b = .dict t fs := by
  obtain ⟨t, fs, rfl⟩ := h
  exact ⟨_, _, by rw [plain]⟩

theorem change_dict {b : Py} {c : Change} (hg : Grows b c) (h : ∃ t fs, b = .dict t fs) : ∃ t fs, change b c = .dict t fs := by
  obtain ⟨t, fs, rfl⟩ := h
  obtain ⟨p, u⟩ := c
  cases u with
  | none =>
    show ∃ t' fs', removeAt (.dict t fs) p = .dict t' fs'
    cases p with
    | nil => exact ⟨_, _, by rw [removeAt]⟩
    | cons k ks =>
      rw [removeAt]
      split
      · split <;> exact ⟨_, _, rfl⟩
      · exact ⟨_, _, rfl⟩
  | some u =>
    show ∃ t' fs', setAt u (.dict t fs) p = .dict t' fs'
    cases p with
    | nil =>
      unfold Grows at hg
      simp only [at_, plain] at hg
      cases u with
      | dict t' fs' => exact ⟨_, _, by rw [setAt]⟩
      | _ => simp [plain, keeps] at hg
    | cons k ks =>
      rw [setAt]
      split
      · exact ⟨_, _, rfl⟩
      · split <;> exact ⟨_, _, rfl⟩

theorem changes_dict : ∀ (cs : List Change) (b : Py), AllGrow b cs → (∃ t fs, b = .dict t fs) → ∃ t fs, cs.foldl change b = .dict t fs := by
  intro cs
  induction cs with
  | nil => intro b _ h; exact h
  | cons c cs ih =>
    intro b hg h
    rw [AllGrow] at hg
    exact ih _ hg.2 (change_dict hg.1 h)

/-- what holds of an open channel -/
structure Good (w : World) : Prop where
  dict : ∃ t fs, w.block = .dict t fs
  idle : w.handler.pv = false → w.handler.value = none ∧ w.handler.isOpen = false
  shows : w.handler.isOpen = true → ∃ v, w.handler.value = some v ∧ w.handler.shown = some v ∧ back v = plain w.block

theorem initial_good {h : Handler} {isField : Bool} {cs : List Change} {h' : Handler} {b : Py} (hb : ∃ t fs, cs.foldl change b = .dict t fs)
    (hc : createInitial isField h cs = some h') :
    h'.pv = h.pv ∧ ∃ v, h'.value = some v ∧ h'.shown = some v ∧ back v = plain (cs.foldl change b) := by
  unfold createInitial at hc
  split at hc
  · rename_i u
    split at hc
    · cases hc
    · rename_i v hv
      cases hc
      refine ⟨rfl, v, rfl, rfl, ?_⟩
      have hf : [(([] : List String), some u)].foldl change b = u := by
        show change b ([], some u) = u
        unfold change
        cases b <;> rfl
      rw [hf] at hb ⊢
      obtain ⟨t, fs, rfl⟩ := hb
      exact back_conv _ _ hv
  · cases hc

theorem handle_good {ext : Ext} {b : Py} {h : Handler} {cs : List Change} (hg : Good ⟨b, h⟩) (hc : AllGrow b cs) :
    Good ⟨cs.foldl change b, handle ext false h (.delta cs)⟩ := by
  have hd := changes_dict cs b hc hg.dict
  refine ⟨hd, ?_, ?_⟩
  · show (handle ext false h (.delta cs)).pv = false → _
    unfold handle
    cases hp : h.pv with
    | false =>
      simp only [Bool.false_eq_true, if_false]
      intro _; exact hg.idle hp
    | true =>
      simp only [if_true]
      cases hv : h.value with
      | none =>
        simp only
        cases hi : createInitial false h cs with
        | none => intro hh; cases hh
        | some h' =>
          intro hh
          have := (initial_good (b := b) hd hi).1
          rw [show (Option.getD (some h') _ : Handler) = h' from rfl, this, hp] at hh
          cases hh
      | some v =>
        simp only
        split
        · unfold updateValue
          split
          · intro hh; cases hh
          · split
            · intro hh; cases hh
            · intro hh; first | cases hh | (rw [show Handler.pv _ = _ from hp] at hh; cases hh)
        · intro hh; rw [hp] at hh; cases hh
  · show (handle ext false h (.delta cs)).isOpen = true → _
    unfold handle
    cases hp : h.pv with
    | false =>
      simp only [Bool.false_eq_true, if_false]
      intro hh; rw [(hg.idle hp).2] at hh; cases hh
    | true =>
      simp only [if_true]
      cases hv : h.value with
      | none =>
        simp only
        cases hi : createInitial false h cs with
        | none => intro hh; cases hh
        | some h' => intro _; exact (initial_good (b := b) hd hi).2
      | some v =>
        simp only
        split
        · rename_i ho
          obtain ⟨v0, hv0, hs0, hb0⟩ := hg.shows ho
          rw [hv] at hv0
          cases hv0
          unfold updateValue
          split
          · intro hh; cases hh
          · split
            · intro hh; cases hh
            · rename_i v' hu
              intro _
              exact ⟨v', rfl, rfl, updateAll_back cs b v v' hb0 hc hu⟩
        · rename_i ho
          intro hh; exact absurd hh ho

theorem step_good {ext : Ext} {w : World} (hg : Good w) (e : Ev) (he : ∀ cs, e = .changes cs → AllGrow w.block cs) : Good (step ext w e) := by
  cases e with
  | connect =>
    unfold step
    cases hp : w.handler.pv with
    | true => simp only [if_true]; exact hg
    | false =>
      simp only [Bool.false_eq_true, if_false]
      have h1 : Good ⟨w.block, connect w.handler⟩ := by
        refine ⟨hg.dict, (fun h => by cases h), ?_⟩
        intro h
        rw [show (connect w.handler).isOpen = w.handler.isOpen from rfl, (hg.idle hp).2] at h
        cases h
      have hv : (connect w.handler).value = none := (hg.idle hp).1
      have hd : ∃ t fs, [(([] : List String), some w.block)].foldl change w.block = .dict t fs := by
        show ∃ t fs, change w.block ([], some w.block) = .dict t fs
        obtain ⟨t, fs, hb⟩ := hg.dict
        rw [hb]; exact ⟨_, _, rfl⟩
      have hb : [(([] : List String), some w.block)].foldl change w.block = w.block := by
        show change w.block ([], some w.block) = w.block
        obtain ⟨t, fs, hb⟩ := hg.dict
        rw [hb]; rfl
      have hpv : (connect w.handler).pv = true := rfl
      refine ⟨hg.dict, ?_, ?_⟩
      · show (handle ext false (connect w.handler) _).pv = false → _
        unfold handle
        rw [if_pos hpv]
        simp only [hv]
        cases hi : createInitial false (connect w.handler) [([], some w.block)] with
        | none => intro hh; cases hh
        | some h' =>
          intro hh
          rw [show (Option.getD (some h') _ : Handler) = h' from rfl, (initial_good hd hi).1, hpv] at hh
          cases hh
      · show (handle ext false (connect w.handler) _).isOpen = true → _
        unfold handle
        rw [if_pos hpv]
        simp only [hv]
        cases hi : createInitial false (connect w.handler) [([], some w.block)] with
        | none => intro hh; cases hh
        | some h' =>
          intro _
          have := (initial_good hd hi).2
          rw [hb] at this
          exact this
  | disconnect => exact ⟨hg.dict, fun _ => ⟨rfl, rfl⟩, (fun h => by cases h)⟩
  | changes cs => exact handle_good (b := w.block) (h := w.handler) hg (he cs rfl)
  | other =>
    unfold step handle
    cases hp : w.handler.pv with
    | false => simp only [Bool.false_eq_true, if_false]; exact hg
    | true =>
      simp only [if_true]
      refine ⟨hg.dict, ?_, (fun h => by cases h)⟩
      intro h
      cases h

theorem run_good {ext : Ext} : ∀ (evs : List Ev) (w : World), Good w → Growing ext w evs → Good (run ext w evs) := by
  intro evs
  induction evs with
  | nil => intro w h _; exact h
  | cons e es ih =>
    intro w h hg
    rw [Growing] at hg
    exact ih _ (step_good h e hg.1) hg.2

/-- **C71** (in part). Whenever the channel of a block is open, whatever clients came and went and whatever changed, what it
shows its clients is the data of the block. It is proved for changes that keep the types and do not take fields away where there
was something before: a field that is taken away stays in the channel, see `removed_field_stays`. -/
theorem channel_shows_block_partial {ext : Ext} {t : Option String} {fs : List (String × Py)} {evs : List Ev}
    (hg : Growing ext ⟨.dict t fs, {}⟩ evs) (ho : (run ext ⟨.dict t fs, {}⟩ evs).handler.isOpen = true) :
    ∃ v, (run ext ⟨.dict t fs, {}⟩ evs).handler.shown = some v ∧ back v = plain (run ext ⟨.dict t fs, {}⟩ evs).block := by
  have h0 : Good ⟨.dict t fs, {}⟩ := ⟨⟨t, fs, rfl⟩, fun _ => ⟨rfl, rfl⟩, (fun h => by cases h)⟩
  obtain ⟨v, -, h1, h2⟩ := (run_good evs _ h0 hg).shows ho
  exact ⟨v, h1, h2⟩

theorem store_leaf {ext : Ext} {u : Py} {w o : Pv} (hu : ∀ t fs, u ≠ .dict t fs) (hc : conv u = some w) (hk : keeps (back o) (plain u)) :
    ∃ x, store ext o w = some x := by
  cases u with
  | none => rw [conv] at hc; cases hc
  | dict t fs => exact absurd rfl (hu t fs)
  | str s =>
    rw [conv] at hc; cases hc
    rw [plain, keeps] at hk
    obtain ⟨s', h⟩ := hk
    rw [back_str h, store]; exact ⟨_, rfl⟩
  | enum s =>
    rw [conv] at hc; cases hc
    rw [plain, keeps] at hk
    obtain ⟨s', h⟩ := hk
    rw [back_str h, store]; exact ⟨_, rfl⟩
  | strs s =>
    rw [conv] at hc; cases hc
    rw [plain, keeps] at hk
    obtain ⟨s', h⟩ := hk
    rw [back_strs h, store]; exact ⟨_, rfl⟩
  | enums s =>
    rw [conv] at hc; cases hc
    rw [plain, keeps] at hk
    obtain ⟨s', h⟩ := hk
    rw [back_strs h, store]; exact ⟨_, rfl⟩
  | alarm n =>
    rw [conv] at hc; cases hc
    rw [plain, keeps] at hk
    obtain ⟨s', h⟩ := hk
    rw [back_num h, store]; exact ⟨_, if_pos rfl⟩
  | num spec n =>
    rw [conv] at hc
    split at hc
    · cases hc
      rw [plain, keeps] at hk
      obtain ⟨s', h⟩ := hk
      rw [back_num h, store]; exact ⟨_, if_pos rfl⟩
    · cases hc
  | nums spec n =>
    rw [conv] at hc
    split at hc
    · cases hc
      rw [plain, keeps] at hk
      obtain ⟨s', h⟩ := hk
      rw [back_nums h, store]; exact ⟨_, if_pos rfl⟩
    · cases hc
  | objs vs =>
    rw [conv] at hc
    cases ho : convObjs vs with
    | none => rw [ho] at hc; cases hc
    | some ws =>
      rw [ho] at hc
      cases hc
      rw [plain, keeps] at hk
      obtain ⟨s', h⟩ := hk
      obtain ⟨vs', rfl⟩ := back_objs h
      rw [store]; exact ⟨_, rfl⟩

theorem updatePath_leaf {ext : Ext} {u : Py} {w : Pv} (hu : ∀ t fs, u ≠ .dict t fs) (hc : conv u = some w) :
    ∀ (p : List String) (b old : Py) (v : Pv), p ≠ [] → back v = plain b → at_ b p = some old → keeps (plain old) (plain u) →
      ∃ v', updatePath ext w v p = some v' := by
  intro p
  induction p with
  | nil => intro b old v h; exact absurd rfl h
  | cons k ks ih =>
    intro b old v _ hb ha hk
    have hd : ∃ t bfs, b = .dict t bfs := by
      cases b <;> first | exact ⟨_, _, rfl⟩ | cases ha
    obtain ⟨t, bfs, rfl⟩ := hd
    rw [plain] at hb
    obtain ⟨id, fs, rfl, -, hfs⟩ := back_dict hb
    rw [at_] at ha
    cases hf : field bfs k with
    | none => rw [hf] at ha; cases ha
    | some c =>
      rw [hf] at ha
      simp only at ha
      have h1 : field (backFields (decide (id = ntTable)) fs) k = some (plain c) := by rw [hfs, field_plain, hf]; rfl
      rw [field_back] at h1
      split at h1
      · cases h1
      · cases ho : field fs k with
        | none => rw [ho] at h1; cases h1
        | some o =>
          rw [ho] at h1
          have hoc : back o = plain c := Option.some.inj h1
          cases ks with
          | nil =>
            rw [at_] at ha
            cases ha
            rw [updatePath, ho]
            obtain ⟨x, hx⟩ := store_leaf (ext := ext) hu hc (o := o) (by rw [hoc]; exact hk)
            simp only [hx]
            exact ⟨_, rfl⟩
          | cons k2 ks =>
            obtain ⟨x, hx⟩ := ih c old o (by simp) hoc ha hk
            rw [updatePath, ho]
            · simp only [hx]; exact ⟨_, rfl⟩
            · intro h; cases h

/-- **C71**: while a channel is open, a change of a number, a text, a list or an array of the block to another one of its type is
shown, and leaves the channel open. -/
theorem value_change_shown {ext : Ext} {t : Option String} {fs : List (String × Py)} {evs : List Ev}
    (hg : Growing ext ⟨.dict t fs, {}⟩ evs) (ho : (run ext ⟨.dict t fs, {}⟩ evs).handler.isOpen = true)
    {p : List String} {old u : Py} (hp : p ≠ []) (hat : at_ (run ext ⟨.dict t fs, {}⟩ evs).block p = some old)
    (hu : ∀ t fs, u ≠ .dict t fs) (hs : sendable u) (hk : keeps (plain old) (plain u)) :
    (run ext ⟨.dict t fs, {}⟩ (evs ++ [.changes [(p, some u)]])).handler.isOpen = true ∧
    ∃ v, (run ext ⟨.dict t fs, {}⟩ (evs ++ [.changes [(p, some u)]])).handler.shown = some v ∧
      back v = plain (setAt u (run ext ⟨.dict t fs, {}⟩ evs).block p) := by
  have h0 : Good ⟨.dict t fs, {}⟩ := ⟨⟨t, fs, rfl⟩, fun _ => ⟨rfl, rfl⟩, (fun h => by cases h)⟩
  have hgood := run_good evs _ h0 hg
  have hr : run ext ⟨.dict t fs, {}⟩ (evs ++ [.changes [(p, some u)]]) = step ext (run ext ⟨.dict t fs, {}⟩ evs) (.changes [(p, some u)]) := by
    unfold run; rw [List.foldl_append]; rfl
  rw [hr]
  generalize run ext ⟨.dict t fs, {}⟩ evs = w at *
  obtain ⟨v, hv, -, hb⟩ := hgood.shows ho
  obtain ⟨x, hx⟩ := (conv_some u).2 hs
  obtain ⟨v', hv'⟩ := updatePath_leaf (ext := ext) hu hx p w.block old v hp hb hat hk
  have hpv : w.handler.pv = true := by
    cases h : w.handler.pv with
    | true => rfl
    | false => rw [(hgood.idle h).2] at ho; cases ho
  have hall : updateAll ext v [(p, some u)] = some v' := by
    cases p with
    | nil => exact absurd rfl hp
    | cons k ks => simp only [updateAll, hx, hv']
  have hgr : Grows w.block (p, some u) := by
    unfold Grows
    simp only [hat]
    exact hk
  have hshow := updatePath_back hx p w.block v v' hp hb hgr hv'
  have hh : handle ext false w.handler (.delta [(p, some u)]) = { w.handler with value := some v', shown := some v' } := by
    unfold handle
    rw [if_pos hpv]
    simp only [hv, ho, if_true, updateValue, hall]
    rfl
  show (handle ext false w.handler (.delta [(p, some u)])).isOpen = true ∧
    ∃ v, (handle ext false w.handler (.delta [(p, some u)])).shown = some v ∧ _
  rw [hh]
  exact ⟨ho, v', rfl, hshow⟩

/-- **C71**: a client that connects to a block with no clients, whatever happened before, is shown the data of the block, if it
can be sent. -/
theorem new_client_sees_block {ext : Ext} (w : World) (evs : List Ev) {t : Option String} {fs : List (String × Py)}
    (hb : (run ext w evs).block = .dict t fs) (hs : sendable (.dict t fs)) :
    (run ext w (evs ++ [.disconnect, .connect])).handler.isOpen = true ∧
    ∃ v, (run ext w (evs ++ [.disconnect, .connect])).handler.shown = some v ∧ back v = plain (.dict t fs) := by
  obtain ⟨v, hv⟩ := (conv_some _).2 hs
  have hr : run ext w (evs ++ [.disconnect, .connect]) =
      step ext (step ext (run ext w evs) .disconnect) .connect := by
    unfold run; rw [List.foldl_append]; rfl
  rw [hr]
  have : step ext (step ext (run ext w evs) .disconnect) .connect =
      { block := .dict t fs, handler := handle ext false (connect (disconnect (run ext w evs).handler)) (.delta [([], some (.dict t fs))]) } := by
    unfold step
    simp only [hb]
    rfl
  rw [this]
  unfold handle
  have h1 : (connect (disconnect (run ext w evs).handler)).pv = true := rfl
  rw [if_pos h1]
  have h2 : (connect (disconnect (run ext w evs).handler)).value = none := rfl
  simp only [h2, createInitial, asObj, hv, Option.getD_some]
  exact ⟨trivial, v, rfl, back_conv _ _ hv⟩

/-- **C71**: a channel is closed by a change that cannot be shown: one that deletes, or puts something where there was nothing. -/
theorem closed_by_deletion {ext : Ext} {h : Handler} {cs : List Change} {p : List String} (hp : h.pv = true) (hv : h.value ≠ none)
    (hc : (p, none) ∈ cs) : (handle ext false h (.delta cs)).isOpen = false := by
  unfold handle
  rw [if_pos hp]
  cases hval : h.value with
  | none => exact absurd hval hv
  | some v =>
    simp only
    cases ho : h.isOpen with
    | false => simp only [Bool.false_eq_true, if_false]; exact ho
    | true =>
      simp only [if_true]
      have : ∀ (cs : List Change) (v : Pv), (p, none) ∈ cs → updateAll ext v cs = none := by
        intro cs
        induction cs with
        | nil => intro v h; cases h
        | cons c cs ih =>
          intro v h
          obtain ⟨q, u⟩ := c
          cases u with
          | none => simp [updateAll]
          | some u =>
            cases q with
            | nil => simp [updateAll]
            | cons k ks =>
              have h' : (p, none) ∈ cs := by
                rcases List.mem_cons.1 h with h | h
                · cases h
                · exact h
              simp only [updateAll]
              split
              · rfl
              · split
                · rfl
                · exact ih _ h'
      unfold updateValue
      split
      · rfl
      · rw [this cs v hc]; rfl

/-! ### puts -/

theorem find_some_name {attrs : List String} {c a : String} (h : cut attrs c = some a) : a ∈ attrs ∧ a ++ ".value" = c := by
  unfold cut at h
  exact ⟨List.mem_of_find?_eq_some h, by have := List.find?_some h; simpa using this⟩

theorem updatePath_names {ext : Ext} {w : Pv} {id : String} {fs : List (String × Pv)} {p : List String} {v : Pv}
    (h : updatePath ext w (.struct id fs) p = some v) : ∃ gs, v = .struct id gs ∧ gs.map (·.1) = fs.map (·.1) := by
  cases p with
  | nil => simp [updatePath] at h
  | cons k ks =>
    cases ks with
    | nil =>
      rw [updatePath] at h
      cases ho : field fs k with
      | none => rw [ho] at h; cases h
      | some o =>
        rw [ho] at h
        simp only at h
        cases hs : store ext o w with
        | none => rw [hs] at h; cases h
        | some x => rw [hs] at h; cases h; exact ⟨_, rfl, names_setField _ _ _⟩
    | cons k2 ks =>
      rw [updatePath] at h
      · cases ho : field fs k with
        | none => rw [ho] at h; cases h
        | some o =>
          rw [ho] at h
          simp only at h
          cases hs : updatePath ext w o (k2 :: ks) with
          | none => rw [hs] at h; cases h
          | some x => rw [hs] at h; cases h; exact ⟨_, rfl, names_setField _ _ _⟩
      · intro h; cases h

theorem updateAll_names {ext : Ext} : ∀ (cs : List Change) (id : String) (fs : List (String × Pv)) (v : Pv),
    updateAll ext (.struct id fs) cs = some v → ∃ gs, v = .struct id gs ∧ gs.map (·.1) = fs.map (·.1) := by
  intro cs
  induction cs with
  | nil => intro id fs v h; rw [updateAll] at h; cases h; exact ⟨fs, rfl, rfl⟩
  | cons c cs ih =>
    intro id fs v h
    obtain ⟨p, u⟩ := c
    cases u with
    | none => simp [updateAll] at h
    | some u =>
      cases p with
      | nil => simp [updateAll] at h
      | cons k ks =>
        simp only [updateAll] at h
        cases hc : conv u with
        | none => rw [hc] at h; cases h
        | some w =>
          rw [hc] at h
          simp only at h
          cases hu : updatePath ext w (.struct id fs) (k :: ks) with
          | none => rw [hu] at h; cases h
          | some v1 =>
            rw [hu] at h
            simp only at h
            obtain ⟨gs, rfl, hg⟩ := updatePath_names hu
            obtain ⟨gs', h1, h2⟩ := ih id gs v h
            exact ⟨gs', h1, h2.trans hg⟩

theorem conv_dict_struct {t : Option String} {fs : List (String × Py)} {v : Pv} (h : conv (.dict t fs) = some v) :
    ∃ id gs, v = .struct id gs := by
  rw [conv] at h
  split at h
  · cases h
  · rename_i ws hw
    cases hl : withLabels t fs ws with
    | none => rw [hl] at h; cases h
    | some ws' => rw [hl] at h; cases h; exact ⟨_, _, rfl⟩

/-- what was put_paths made of -/
def Opened (h : Handler) : Prop :=
  h.value ≠ none → ∃ id fs gs, h.value = some (.struct id fs) ∧ gs.map (·.1) = fs.map (·.1) ∧ h.putPaths = putPaths false (.struct id gs)

theorem opened_handle {ext : Ext} {h : Handler} (ho : Opened h) (r : Resp) : Opened (handle ext false h r) := by
  unfold handle
  cases hp : h.pv with
  | false => simp only [Bool.false_eq_true, if_false]; exact ho
  | true =>
    simp only [if_true]
    cases r with
    | other => exact ho
    | delta cs =>
      simp only
      cases hv : h.value with
      | none =>
        simp only
        unfold createInitial
        split
        · rename_i u
          cases hc : asObj u (conv u) with
          | none => intro hh; exact absurd rfl hh
          | some v =>
            intro _
            have : ∃ id gs, v = .struct id gs := by
              cases u with
              | none => cases hc; exact ⟨_, _, rfl⟩
              | dict t fs => exact conv_dict_struct hc
              | _ => cases hc
            obtain ⟨id, gs, rfl⟩ := this
            exact ⟨id, gs, gs, rfl, rfl, rfl⟩
        · intro hh; exact absurd rfl hh
      | some v =>
        have hov : ∃ id fs gs, some v = some (.struct id fs) ∧ gs.map (·.1) = fs.map (·.1) ∧ h.putPaths = putPaths false (.struct id gs) := by
          obtain ⟨id, fs, gs, h1, h2, h3⟩ := ho (by rw [hv]; simp)
          exact ⟨id, fs, gs, by rw [← hv]; exact h1, h2, h3⟩
        simp only
        split
        · unfold updateValue
          split
          · intro _; exact hov
          · split
            · intro _; exact hov
            · rename_i v' hu
              intro _
              obtain ⟨id, fs, gs, h1, h2, h3⟩ := hov
              cases h1
              obtain ⟨fs', rfl, h4⟩ := updateAll_names cs id fs v' hu
              exact ⟨id, fs', gs, rfl, h2.trans h4.symm, h3⟩
        · exact ho

theorem opened_run {ext : Ext} : ∀ (evs : List Ev) (w : World), Opened w.handler → Opened (run ext w evs).handler := by
  intro evs
  induction evs with
  | nil => intro w h; exact h
  | cons e es ih =>
    intro w h
    refine ih _ ?_
    cases e with
    | connect =>
      unfold step
      dsimp only
      by_cases hp : w.handler.pv = true
      · rw [if_pos hp]; exact h
      · rw [if_neg hp]; exact opened_handle (h := connect w.handler) h _
    | disconnect => intro hh; exact absurd rfl hh
    | changes cs => exact opened_handle h _
    | other => exact opened_handle h _

/-- **C72**: whatever happened to a block and its channel, a put to the channel that is not refused writes the `value` of one
attribute: it is one of the block, neither a method nor the meta of the block, its value is among what the client changed, it is
written with what the client sent for it, and the client changed the value of no other attribute. (`gs` are the fields of the block
as they were when the channel was opened.) -/
theorem put_writes_one {ext : Ext} {b : Py} {evs : List Ev} {f : String} {op : PutOp} {path : List String} {v : Py}
    (hput : put false (run ext ⟨b, {}⟩ evs).handler f op = some (path, v)) :
    ∃ (a id : String) (fs gs : List (String × Pv)), (run ext ⟨b, {}⟩ evs).handler.value = some (.struct id fs) ∧ gs.map (·.1) = fs.map (·.1) ∧ path = [a, "value"] ∧
      (∃ x i, (a, x) ∈ gs ∧ x.id = some i ∧ i ≠ "malcolm:core/Method:1.1" ∧ i ≠ "malcolm:core/BlockMeta:1.0") ∧ a ++ ".value" ∈ op.changed ∧
      (∃ j hs i ks, op.value = .struct j hs ∧ field hs a = some (.struct i ks) ∧ (back (.struct i ks)).get "value" = some v) ∧
      ∀ (b : String) (x : Pv) i, (b, x) ∈ gs → x.id = some i → i ∉ unputtable → b ++ ".value" ∈ op.changed → b = a := by
  have hop := opened_run (ext := ext) evs ⟨b, {}⟩ (fun h => absurd rfl h)
  generalize (run ext ⟨b, {}⟩ evs).handler = h at hput hop
  unfold put at hput
  split at hput
  · rename_i c hc
    have hcm : c ∈ h.putPaths.filter (· ∈ op.changed) := by rw [hc]; simp
    rw [List.mem_filter] at hcm
    simp only [Bool.false_eq_true, if_false] at hput
    cases hval : h.value with
    | none => rw [hval] at hput; cases hput
    | some v0 =>
    obtain ⟨id, fs, gs, h1, h2, h3⟩ := hop (by rw [hval]; simp)
    rw [hval] at h1
    cases h1
    rw [hval] at hput
    simp only at hput
    cases hcut : cut (fs.map (·.1)) c with
    | none => rw [hcut] at hput; cases hput
    | some a =>
      rw [hcut] at hput
      simp only at hput
      obtain ⟨ha, hac⟩ := find_some_name hcut
      split at hput
      · rename_i j hs hop'
        split at hput
        · rename_i i ks hfa
          cases hg : (back (.struct i ks)).get "value" with
          | none => rw [hg] at hput; cases hput
          | some v' =>
            rw [hg] at hput
            cases hput
            have hin : ∀ b x i, (b, x) ∈ gs → x.id = some i → i ∉ unputtable → b ++ ".value" ∈ h.putPaths := by
              intro b x i hm hi hu
              rw [h3]
              show b ++ ".value" ∈ (gs.filter _).map _
              rw [List.mem_map]
              refine ⟨(b, x), ?_, rfl⟩
              rw [List.mem_filter]
              exact ⟨hm, by simp [hi, hu]⟩
            refine ⟨a, id, fs, gs, rfl, h2, rfl, ?_, ?_, ⟨j, hs, i, ks, hop', hfa, hg⟩, ?_⟩
            · have h1 := hcm.1
              rw [h3] at h1
              have h1 : c ∈ (gs.filter _).map _ := h1
              rw [List.mem_map] at h1
              obtain ⟨⟨b, x⟩, hb, hbc⟩ := h1
              rw [List.mem_filter] at hb
              have hba : b = a := by
                have : b ++ ".value" = a ++ ".value" := by rw [hac]; exact hbc
                exact String.append_left_inj _ |>.1 this
              subst hba
              cases hx : x.id with
              | none => rw [hx] at hb; simp at hb
              | some i => rw [hx] at hb; exact ⟨x, i, hb.1, hx, by simpa [unputtable] using hb.2⟩
            · rw [hac]; simpa using hcm.2
            · intro b x i hm hi hu hch
              have hbin := hin b x i hm hi hu
              have : b ++ ".value" ∈ h.putPaths.filter (· ∈ op.changed) := by
                rw [List.mem_filter]; exact ⟨hbin, by simpa using hch⟩
              rw [hc] at this
              have : b ++ ".value" = a ++ ".value" := by rw [hac]; simpa using this
              exact String.append_left_inj _ |>.1 this
        · cases hput
      · cases hput
  · cases hput

/-- **C72**: a put that changes the value of no attribute, or of two, is refused. -/
theorem put_refused {h : Handler} {f : String} {op : PutOp} {isField : Bool}
    (hn : (h.putPaths.filter (· ∈ op.changed)).length ≠ 1) : put isField h f op = none := by
  unfold put
  split
  · rename_i c hc; rw [hc] at hn; exact absurd rfl hn
  · rfl

/-! ### cases -/

def noExt : Ext := fun _ _ => none

/-- a block with a counter and a method `configure` that takes a generator and an exposure -/
def blk : Py := .dict (some "malcolm:core/Block:1.0") [
  ("counter", .dict (some "epics:nt/NTScalar:1.0") [("value", .num "i" 3), ("alarm", .dict none [("severity", .alarm 0)])]),
  ("configure", .dict (some "malcolm:core/Method:1.1") [("takes", .dict none [("elements", .dict none
    [("generator", .dict none [("label", .str "Generator")]), ("exposure", .dict none [("label", .str "Exposure")])])])])]

def pathsOf : Py → List String
  | .dict _ fs => fs.map (·.1)
  | _ => []

/-- the names under a path of what is shown -/
def shownNames (w : World) (p : List String) : Option (List String) :=
  (w.handler.shown.bind (fun v => at_ (back v) p)).map pathsOf

example : Growing noExt ⟨blk, {}⟩ [.connect, .changes [(["counter", "value"], some (.num "i" 4))]] ∧
    (run noExt ⟨blk, {}⟩ [.connect, .changes [(["counter", "value"], some (.num "i" 4))]]).handler.isOpen = true := by
  refine ⟨⟨nofun, ?_, trivial⟩, by decide +kernel⟩
  intro cs h
  cases h
  refine ⟨?_, trivial⟩
  show keeps (plain (.num "i" 3)) (plain (.num "i" 4))
  rw [plain, plain, keeps]
  exact ⟨3, rfl⟩

/-- the hypotheses of `value_change_shown` -/
example : (run noExt ⟨blk, {}⟩ [.connect]).handler.isOpen = true ∧
    (∃ old, at_ (run noExt ⟨blk, {}⟩ [.connect]).block ["counter", "value"] = some old ∧ keeps (plain old) (plain (.num "i" 5))) ∧
    sendable (.num "i" 5) := by
  refine ⟨by decide +kernel, ⟨.num "i" 3, rfl, ?_⟩, by simp [sendable, specs]⟩
  rw [plain, plain, keeps]
  exact ⟨3, rfl⟩

example : sendable blk := by
  unfold blk
  simp [sendable, sendableFields, specs, ntTable]

/-- The parameter `exposure` of `configure` is withdrawn: the block has it no more, but the clients of the channel are still shown
it, because assignment of a structure leaves the fields that it does not mention. -/
theorem removed_field_stays :
    let p := ["configure", "takes", "elements"]
    let w := run noExt ⟨blk, {}⟩ [.connect, .changes [(p, some (.dict none [("generator", .dict none [("label", .str "Generator")])]))]]
    w.handler.isOpen = true ∧ (at_ w.block p).map pathsOf = some ["generator"] ∧ shownNames w p = some ["generator", "exposure"] := by
  decide +kernel

/-- a table of one column -/
def tbl (label : String) : Py := .dict (some ntTable) [("value", .dict (some "malcolm:core/Table:1.0") [("x", .nums "d" [1, 2])]),
  ("meta", .dict none [("elements", .dict none [("x", .dict none [("label", .str label)])])])]

def labelsOf (w : World) : Option (List String) :=
  match w.handler.shown with
  | some (.struct _ [(_, .struct _ fs)]) => match field fs "labels" with
    | some (.strs ls) => some ls
    | _ => none
  | _ => none

/-- The labels of a table, which pvAccess clients use as headings, do not follow the labels of its columns. -/
theorem labels_go_stale :
    let w := run noExt ⟨.dict none [("t", tbl "position")], {}⟩
      [.connect, .changes [(["t", "meta", "elements", "x", "label"], some (.str "angle"))]]
    w.handler.isOpen = true ∧ labelsOf w = some ["position"] ∧
      labelsOf (run noExt ⟨.dict none [("t", tbl "angle")], {}⟩ [.connect]) = some ["angle"] := by
  decide +kernel

/-- None in a list comes back as an empty dictionary. -/
theorem none_becomes_empty : ∃ w, conv (.dict none [("return", .objs [.none])]) = some w ∧
    back w = .dict none [("return", .objs [.dict none []])] := ⟨_, rfl, rfl⟩

example : (put false (run noExt ⟨blk, {}⟩ [.connect]).handler "" ⟨["counter", "counter.value"],
    .struct "malcolm:core/Block:1.0" [("counter", .struct "epics:nt/NTScalar:1.0" [("value", .num "i" 7)])]⟩).map (·.1) =
    some ["counter", "value"] := by decide +kernel

end Verif.Props.Pva
