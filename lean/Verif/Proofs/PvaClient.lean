import Verif.Spec.PvaClient
import Verif.Props.Pva
/-!
The tree of a block, what is at a path of it, and what stays when something is stored.
-/
namespace Verif.Proofs.PvaClient
open Verif Verif.Pva Verif.Spec.Pva Verif.PvaClient Verif.Spec.PvaClient
open Verif.Props.Pva (field_none_iff field_setField names_setField fields_ext mem_of_field field_back)

/-! ### induction -/

mutual
theorem py_ind {P : Py → Prop} (leaf : ∀ b, (∀ t fs, b ≠ .dict t fs) → P b)
    (dict : ∀ t fs, (∀ kv ∈ fs, P kv.2) → P (.dict t fs)) : ∀ b, P b
  | .none => leaf _ (by intros; simp)
  | .str _ => leaf _ (by intros; simp)
  | .enum _ => leaf _ (by intros; simp)
  | .alarm _ => leaf _ (by intros; simp)
  | .num _ _ => leaf _ (by intros; simp)
  | .nums _ _ => leaf _ (by intros; simp)
  | .strs _ => leaf _ (by intros; simp)
  | .enums _ => leaf _ (by intros; simp)
  | .objs _ => leaf _ (by intros; simp)
  | .dict t fs => dict t fs (py_indIn leaf dict fs)
theorem py_indIn {P : Py → Prop} (leaf : ∀ b, (∀ t fs, b ≠ .dict t fs) → P b)
    (dict : ∀ t fs, (∀ kv ∈ fs, P kv.2) → P (.dict t fs)) : ∀ fs : List (String × Py), ∀ kv ∈ fs, P kv.2
  | [], _, h => by cases h
  | (k, v) :: fs, kv, h => by
    rcases List.mem_cons.1 h with h | h
    · rw [h]; exact py_ind leaf dict v
    · exact py_indIn leaf dict fs kv h
end

mutual
theorem pv_ind {P : Pv → Prop} (leaf : ∀ b, (∀ t fs, b ≠ .struct t fs) → P b)
    (struct : ∀ t fs, (∀ kv ∈ fs, P kv.2) → P (.struct t fs)) : ∀ b, P b
  | .str _ => leaf _ (by intros; simp)
  | .num _ _ => leaf _ (by intros; simp)
  | .nums _ _ => leaf _ (by intros; simp)
  | .strs _ => leaf _ (by intros; simp)
  | .any _ => leaf _ (by intros; simp)
  | .struct t fs => struct t fs (pv_indIn leaf struct fs)
theorem pv_indIn {P : Pv → Prop} (leaf : ∀ b, (∀ t fs, b ≠ .struct t fs) → P b)
    (struct : ∀ t fs, (∀ kv ∈ fs, P kv.2) → P (.struct t fs)) : ∀ fs : List (String × Pv), ∀ kv ∈ fs, P kv.2
  | [], _, h => by cases h
  | (k, v) :: fs, kv, h => by
    rcases List.mem_cons.1 h with h | h
    · rw [h]; exact pv_ind leaf struct v
    · exact pv_indIn leaf struct fs kv h
end

/-! ### fields -/

theorem field_mem {α : Type} {fs : List (String × α)} {k : String} {v : α} (h : field fs k = some v) : (k, v) ∈ fs := by
  induction fs with
  | nil => cases h
  | cons f fs ih =>
    obtain ⟨n, w⟩ := f
    rw [field] at h
    by_cases hn : n = k
    · rw [if_pos hn] at h; cases h; subst hn; exact List.mem_cons_self
    · rw [if_neg hn] at h; exact List.mem_cons_of_mem _ (ih h)

theorem field_of_mem {α : Type} {fs : List (String × α)} {k : String} {v : α} (hn : (fs.map (·.1)).Nodup) (h : (k, v) ∈ fs) :
    field fs k = some v := by
  induction fs with
  | nil => cases h
  | cons f fs ih =>
    obtain ⟨n, w⟩ := f
    rw [field]
    rw [List.map_cons, List.nodup_cons] at hn
    rcases List.mem_cons.1 h with h | h
    · cases h; rw [if_pos rfl]
    · by_cases hk : n = k
      · subst hk
        exact absurd (List.mem_map.2 ⟨_, h, rfl⟩) hn.1
      · rw [if_neg hk]; exact ih hn.2 h

theorem field_some_iff {α : Type} (fs : List (String × α)) (k : String) : (∃ v, field fs k = some v) ↔ k ∈ fs.map (·.1) := by
  constructor
  · rintro ⟨v, h⟩; exact mem_of_field h
  · intro h
    cases hf : field fs k with
    | none => exact absurd h ((field_none_iff fs k).1 hf)
    | some v => exact ⟨v, rfl⟩

/-! ### skeletons -/

mutual
/-- The dictionaries of a tree with their names -/
def skel : Py → Py
  | .dict t fs => .dict t (skelIn fs)
  | _ => .none
def skelIn : List (String × Py) → List (String × Py)
  | [] => []
  | (k, v) :: fs => (k, skel v) :: skelIn fs
end

theorem skel_leaf {b : Py} (h : ∀ t fs, b ≠ .dict t fs) : skel b = .none := by
  cases b <;> first | rfl | exact absurd rfl (h _ _)

theorem skelIn_names (fs : List (String × Py)) : (skelIn fs).map (·.1) = fs.map (·.1) := by
  induction fs with
  | nil => rfl
  | cons f fs ih => obtain ⟨k, v⟩ := f; rw [skelIn, List.map_cons, List.map_cons, ih]

theorem skelIn_field (fs : List (String × Py)) (k : String) : field (skelIn fs) k = (field fs k).map skel := by
  induction fs with
  | nil => rfl
  | cons f fs ih =>
    obtain ⟨n, v⟩ := f
    rw [skelIn, field, field, ih]
    by_cases h : n = k
    · rw [if_pos h, if_pos h]; rfl
    · rw [if_neg h, if_neg h]

theorem skel_none {b : Py} (h : skel b = .none) : ∀ t fs, b ≠ .dict t fs := by
  rintro t fs rfl; rw [skel] at h; cases h

theorem skel_dict {b : Py} {t : Option String} {gs : List (String × Py)} (h : skel b = .dict t gs) :
    ∃ fs, b = .dict t fs ∧ skelIn fs = gs := by
  by_cases hd : ∃ t fs, b = .dict t fs
  · obtain ⟨t', fs, rfl⟩ := hd
    rw [skel] at h; cases h; exact ⟨_, rfl, rfl⟩
  · have hd : ∀ t fs, b ≠ .dict t fs := fun t fs h => hd ⟨t, fs, h⟩
    rw [skel_leaf hd] at h; cases h

/-! ### what is at a path -/

theorem at_leaf {b : Py} (h : ∀ t fs, b ≠ .dict t fs) {k : String} {ks : List String} : at_ b (k :: ks) = none := by
  cases b <;> first | rfl | exact absurd rfl (h _ _)

theorem at_dict (t : Option String) (fs : List (String × Py)) (k : String) (ks : List String) :
    at_ (.dict t fs) (k :: ks) = (field fs k).bind (fun v => at_ v ks) := by
  rw [at_]; cases field fs k <;> rfl

theorem at_append (p q : List String) : ∀ b, at_ b (p ++ q) = (at_ b p).bind (fun x => at_ x q) := by
  induction p with
  | nil => intro b; rw [List.nil_append, at_]; rfl
  | cons k ks ih =>
    intro b
    by_cases hd : ∃ t fs, b = .dict t fs
    · obtain ⟨t, fs, rfl⟩ := hd
      rw [List.cons_append, at_dict, at_dict]
      cases hf : field fs k with
      | none => rfl
      | some v => exact ih v
    · have hd : ∀ t fs, b ≠ .dict t fs := fun t fs h => hd ⟨t, fs, h⟩
      rw [List.cons_append, at_leaf hd, at_leaf hd]; rfl

theorem at_skel (p : List String) : ∀ b, at_ (skel b) p = (at_ b p).map skel := by
  induction p with
  | nil => intro b; rw [at_, at_]; rfl
  | cons k ks ih =>
    intro b
    by_cases hd : ∃ t fs, b = .dict t fs
    · obtain ⟨t, fs, rfl⟩ := hd
      rw [skel, at_dict, at_dict, skelIn_field]
      cases hf : field fs k with
      | none => rfl
      | some v => exact ih v
    · have hd : ∀ t fs, b ≠ .dict t fs := fun t fs h => hd ⟨t, fs, h⟩
      rw [at_leaf hd, skel_leaf hd]; rfl

/-! ### terminals -/

theorem isModel_skel (m : Models) (b : Py) : isModel m (skel b) = isModel m b := by
  cases b <;> first | rfl | (rename_i t _; rw [skel]; cases t <;> rfl)

theorem skelIn_all (m : Models) (fs : List (String × Py)) :
    (skelIn fs).all (fun f => isModel m f.2) = fs.all (fun f => isModel m f.2) := by
  induction fs with
  | nil => rfl
  | cons f fs ih => obtain ⟨k, v⟩ := f; rw [skelIn, List.all_cons, List.all_cons, ih, isModel_skel]

theorem recursed_skel (m : Models) (b : Py) : recursed m (skel b) = recursed m b := by
  cases b <;> first | rfl | skip
  rename_i t fs
  rw [skel]
  cases t with
  | none => exact skelIn_all m fs
  | some t => rfl

theorem terminals_dict (m : Models) (pre : List String) (t : Option String) (fs : List (String × Py)) :
    terminals m pre (.dict t fs) = if recursed m (.dict t fs) then terminalsIn m pre fs else [pre] := by rw [terminals]

theorem terminals_leaf (m : Models) (pre : List String) {b : Py} (h : ∀ t fs, b ≠ .dict t fs) : terminals m pre b = [pre] := by
  rw [terminals]; exact h

theorem mem_terminalsIn (m : Models) (pre p : List String) (fs : List (String × Py)) :
    p ∈ terminalsIn m pre fs ↔ ∃ k v, (k, v) ∈ fs ∧ p ∈ terminals m (pre ++ [k]) v := by
  induction fs with
  | nil => rw [terminalsIn]; simp
  | cons f fs ih =>
    obtain ⟨k, v⟩ := f
    rw [terminalsIn, List.mem_append, ih]
    constructor
    · rintro (h | ⟨k', v', h1, h2⟩)
      · exact ⟨k, v, List.mem_cons_self, h⟩
      · exact ⟨k', v', List.mem_cons_of_mem _ h1, h2⟩
    · rintro ⟨k', v', h1, h2⟩
      rcases List.mem_cons.1 h1 with h | h
      · cases h; exact .inl h2
      · exact .inr ⟨k', v', h, h2⟩

theorem mem_terminals (m : Models) : ∀ (b : Py) (pre p : List String),
    p ∈ terminals m pre b ↔ ∃ q, p = pre ++ q ∧ q ∈ terminals m [] b := by
  refine py_ind ?_ ?_
  · intro b hb pre p
    rw [terminals_leaf m pre hb, terminals_leaf m [] hb]
    constructor
    · intro h; exact ⟨[], by rw [List.mem_singleton.1 h, List.append_nil], List.mem_singleton.2 rfl⟩
    · rintro ⟨q, h1, h2⟩; rw [List.mem_singleton.1 h2, List.append_nil] at h1; rw [h1]; exact List.mem_singleton.2 rfl
  · intro t fs ih pre p
    rw [terminals_dict, terminals_dict]
    by_cases hr : recursed m (.dict t fs) = true
    · rw [if_pos hr, if_pos hr, mem_terminalsIn]
      constructor
      · rintro ⟨k, v, h1, h2⟩
        obtain ⟨q, h3, h4⟩ := (ih _ h1 _ _).1 h2
        refine ⟨k :: q, by rw [h3, List.append_assoc]; rfl, (mem_terminalsIn _ _ _ _).2 ⟨k, v, h1, ?_⟩⟩
        exact (ih _ h1 _ _).2 ⟨q, rfl, h4⟩
      · rintro ⟨q, h1, h2⟩
        obtain ⟨k, v, h3, h4⟩ := (mem_terminalsIn _ _ _ _).1 h2
        obtain ⟨q', h5, h6⟩ := (ih _ h3 _ _).1 h4
        refine ⟨k, v, h3, (ih _ h3 _ _).2 ⟨q', ?_, h6⟩⟩
        rw [h1, h5, List.append_assoc, List.append_assoc]; rfl
    · rw [if_neg hr, if_neg hr]
      constructor
      · intro h; exact ⟨[], by rw [List.mem_singleton.1 h, List.append_nil], List.mem_singleton.2 rfl⟩
      · rintro ⟨q, h1, h2⟩; rw [List.mem_singleton.1 h2, List.append_nil] at h1; rw [h1]; exact List.mem_singleton.2 rfl

/-- the terminals of a dictionary that is gone into -/
theorem mem_terminals_dict (m : Models) {t : Option String} {fs : List (String × Py)} (hr : recursed m (.dict t fs) = true)
    (p : List String) : p ∈ terminals m [] (.dict t fs) ↔ ∃ k v q, (k, v) ∈ fs ∧ p = k :: q ∧ q ∈ terminals m [] v := by
  rw [terminals_dict, if_pos hr, mem_terminalsIn]
  constructor
  · rintro ⟨k, v, h1, h2⟩
    obtain ⟨q, h3, h4⟩ := (mem_terminals m v _ _).1 h2
    exact ⟨k, v, q, h1, h3, h4⟩
  · rintro ⟨k, v, q, h1, h2, h3⟩
    exact ⟨k, v, h1, (mem_terminals m v _ _).2 ⟨q, h2, h3⟩⟩

theorem tidy_mem {t : Option String} {fs : List (String × Py)} (h : Tidy (.dict t fs)) {k : String} {v : Py} (hm : (k, v) ∈ fs) :
    Tidy v := by
  rw [Tidy] at h
  have : ∀ fs : List (String × Py), TidyIn fs → (k, v) ∈ fs → Tidy v := by
    intro fs
    induction fs with
    | nil => intro _ h; cases h
    | cons f fs ih =>
      obtain ⟨n, w⟩ := f
      intro h hm
      rw [TidyIn] at h
      rcases List.mem_cons.1 hm with hm | hm
      · cases hm; exact h.1
      · exact ih h.2 hm
  exact this fs h.2 hm

theorem tidy_names {t : Option String} {fs : List (String × Py)} (h : Tidy (.dict t fs)) : (fs.map (·.1)).Nodup := by
  rw [Tidy] at h; exact h.1

theorem tidy_mk {t : Option String} {fs : List (String × Py)} (hn : (fs.map (·.1)).Nodup) (h : ∀ k v, (k, v) ∈ fs → Tidy v) :
    Tidy (.dict t fs) := by
  rw [Tidy]
  refine ⟨hn, ?_⟩
  clear hn
  induction fs with
  | nil => rw [TidyIn]; trivial
  | cons f fs ih =>
    obtain ⟨n, w⟩ := f
    rw [TidyIn]
    exact ⟨h _ _ List.mem_cons_self, ih (fun k v hm => h k v (List.mem_cons_of_mem _ hm))⟩

/-- no terminal is below another -/
theorem terminals_anti (m : Models) : ∀ b, Tidy b → ∀ p ∈ terminals m [] b, ∀ q ∈ terminals m [] b, p <+: q → p = q := by
  refine py_ind ?_ ?_
  · intro b hb _ p hp q hq _
    rw [terminals_leaf m [] hb] at hp hq
    rw [List.mem_singleton.1 hp, List.mem_singleton.1 hq]
  · intro t fs ih ht p hp q hq hpq
    by_cases hr : recursed m (.dict t fs) = true
    · obtain ⟨k, v, p', h1, h2, h3⟩ := (mem_terminals_dict m hr p).1 hp
      obtain ⟨k', v', q', h4, h5, h6⟩ := (mem_terminals_dict m hr q).1 hq
      subst h2 h5
      rw [List.cons_prefix_cons] at hpq
      obtain ⟨rfl, hpq⟩ := hpq
      have e1 := field_of_mem (tidy_names ht) h1
      have e2 := field_of_mem (tidy_names ht) h4
      rw [e1] at e2; cases e2
      rw [ih _ h1 (tidy_mem ht h1) p' h3 q' h6 hpq]
    · rw [terminals_dict, if_neg hr] at hp hq
      rw [List.mem_singleton.1 hp, List.mem_singleton.1 hq]

/-- there is something at a terminal -/
theorem terminals_at (m : Models) : ∀ b, Tidy b → ∀ p ∈ terminals m [] b, ∃ x, at_ b p = some x := by
  refine py_ind ?_ ?_
  · intro b hb _ p hp
    rw [terminals_leaf m [] hb] at hp
    rw [List.mem_singleton.1 hp]; exact ⟨b, by rw [at_]⟩
  · intro t fs ih ht p hp
    by_cases hr : recursed m (.dict t fs) = true
    · obtain ⟨k, v, p', h1, h2, h3⟩ := (mem_terminals_dict m hr p).1 hp
      subst h2
      obtain ⟨x, hx⟩ := ih _ h1 (tidy_mem ht h1) p' h3
      exact ⟨x, by rw [at_dict, field_of_mem (tidy_names ht) h1]; exact hx⟩
    · rw [terminals_dict, if_neg hr] at hp
      rw [List.mem_singleton.1 hp]; exact ⟨_, by rw [at_]⟩

/-- two trees with the same dictionaries and the same at each terminal are the same -/
theorem terminals_ext (m : Models) : ∀ b, Tidy b → ∀ b', skel b = skel b' → (∀ p ∈ terminals m [] b, at_ b p = at_ b' p) → b = b' := by
  refine py_ind ?_ ?_
  · intro b hb _ b' _ h
    rw [terminals_leaf m [] hb] at h
    have := h [] (List.mem_singleton.2 rfl)
    rw [at_, at_] at this
    exact Option.some.inj this
  · intro t fs ih ht b' hs h
    by_cases hr : recursed m (.dict t fs) = true
    · rw [skel] at hs
      obtain ⟨fs', rfl, hs'⟩ := skel_dict hs.symm
      congr 1
      refine fields_ext fs fs' (tidy_names ht) ?_ ?_
      · rw [← skelIn_names fs, ← hs', skelIn_names]
      · intro k hk
        obtain ⟨v, hv⟩ := (field_some_iff fs k).2 hk
        have hsk := skelIn_field fs k
        rw [← hs', skelIn_field, hv] at hsk
        obtain ⟨v', hv', hvv⟩ : ∃ v', field fs' k = some v' ∧ skel v' = skel v := by
          cases hf : field fs' k with
          | none => rw [hf] at hsk; cases hsk
          | some v' => rw [hf] at hsk; exact ⟨v', rfl, Option.some.inj hsk⟩
        rw [hv, hv']
        refine congrArg some (ih _ (field_mem hv) (tidy_mem ht (field_mem hv)) v' hvv.symm ?_)
        intro p hp
        have := h (k :: p) ((mem_terminals_dict m hr _).2 ⟨k, v, p, field_mem hv, rfl, hp⟩)
        rw [at_dict, at_dict, hv, hv'] at this
        exact this
    · rw [terminals_dict, if_neg hr] at h
      have := h [] (List.mem_singleton.2 rfl)
      rw [at_, at_] at this
      exact Option.some.inj this

/-! ### applying a change -/

theorem setField_skelIn (fs : List (String × Py)) (k : String) (x : Py) :
    skelIn (setField fs k x) = setField (skelIn fs) k (skel x) := by
  induction fs with
  | nil => rfl
  | cons f fs ih =>
    obtain ⟨n, v⟩ := f
    rw [setField, skelIn, setField]
    by_cases h : n = k
    · rw [if_pos h, if_pos h, skelIn]
    · rw [if_neg h, if_neg h, skelIn, ih]

theorem setField_same {α : Type} (fs : List (String × α)) (k : String) (x : α) (h : field fs k = some x) : setField fs k x = fs := by
  induction fs with
  | nil => rfl
  | cons f fs ih =>
    obtain ⟨n, v⟩ := f
    rw [field] at h
    rw [setField]
    by_cases hn : n = k
    · rw [if_pos hn] at h ⊢; cases h; rfl
    · rw [if_neg hn] at h ⊢; rw [ih h]

/-- what a change of a place in a tree does: the new value is there, the rest is as it was -/
structure Placed (b b' u : Py) (p : List String) : Prop where
  here : at_ b' p = some u
  there : ∀ q, ¬ p <+: q → ¬ q <+: p → at_ b' q = at_ b q
  shape : ∀ y, at_ b p = some y → skel y = skel u → skel b' = skel b
  was : ∃ y, at_ b p = some y

theorem placed_nil (b u : Py) : Placed b u u [] :=
  ⟨by rw [at_], fun q h => absurd List.nil_prefix h, (fun y h1 h2 => by rw [at_] at h1; cases h1; exact h2.symm), b, by rw [at_]⟩

theorem placed_cons {t : Option String} {fs : List (String × Py)} {k : String} {ks : List String} {v x u : Py}
    (hf : field fs k = some v) (h : Placed v x u ks) : Placed (.dict t fs) (.dict t (setField fs k x)) u (k :: ks) := by
  have hk := mem_of_field hf
  refine ⟨?_, ?_, ?_, ?_⟩
  · rw [at_dict, field_setField fs k k x hk, if_pos rfl]; exact h.here
  · intro q h1 h2
    cases q with
    | nil => exact absurd List.nil_prefix h2
    | cons n ns =>
      rw [at_dict, at_dict, field_setField fs k n x hk]
      by_cases hn : k = n
      · subst hn
        rw [if_pos rfl, hf]
        rw [List.cons_prefix_cons] at h1 h2
        exact h.there ns (fun h' => h1 ⟨rfl, h'⟩) (fun h' => h2 ⟨rfl, h'⟩)
      · rw [if_neg hn]
  · intro y h1 h2
    rw [at_dict, hf] at h1
    have := h.shape y h1 h2
    rw [skel, skel, setField_skelIn, this]
    congr 1
    exact setField_same _ _ _ (by rw [skelIn_field, hf]; rfl)
  · obtain ⟨y, hy⟩ := h.was
    exact ⟨y, by rw [at_dict, hf]; exact hy⟩

theorem applyAt_placed (m : Models) (u : Py) : ∀ (p : List String) (b b' : Py), applyAt m u b p = some b' → Placed b b' u p := by
  intro p
  induction p with
  | nil =>
    intro b b' h
    cases b <;> rw [applyAt] at h <;> first | cases h | (intro _ _ hh; cases hh) | (intro _ _ _ _ hh; cases hh) | skip
    all_goals simp_all
  | cons k ks ih =>
    intro b b' h
    by_cases hd : ∃ t fs, b = .dict t fs
    · obtain ⟨t, fs, rfl⟩ := hd
      cases ks with
      | nil =>
        rw [applyAt] at h
        split at h
        · split at h
          · cases h
          · rename_i v hv
            cases h
            exact placed_cons hv (placed_nil v u)
        · cases h
      | cons l ks =>
        rw [applyAt] at h
        split at h
        · split at h
          · cases h
          · rename_i v hv
            obtain ⟨x, h1, h2⟩ := Option.map_eq_some_iff.1 h
            subst h2
            exact placed_cons hv (ih v x h1)
        · cases h
    · exfalso
      have hd : ∀ t fs, b ≠ .dict t fs := fun t fs h => hd ⟨t, fs, h⟩
      cases b <;> first | exact hd _ _ rfl | (simp [applyAt] at h)

theorem applyChange_placed (m : Models) (u : Py) {p : List String} {fs fs' : List (String × Py)}
    (h : applyChange m u fs p = some fs') : Placed (.dict none fs) (.dict none fs') u p := by
  unfold applyChange at h
  split at h
  · rename_i k l ks
    split at h
    · cases h
    · rename_i v hv
      obtain ⟨x, h1, h2⟩ := Option.map_eq_some_iff.1 h
      subst h2
      exact placed_cons hv (applyAt_placed m u _ v x h1)
  · cases h

/-- what is at a place above the change -/
theorem placed_above {b b' u : Py} {p r q : List String} (h : Placed b b' u p) (hp : p = r ++ q) :
    ∃ x x', at_ b r = some x ∧ at_ b' r = some x' ∧ at_ x' q = some u ∧
      (∀ y, at_ b p = some y → skel y = skel u → skel x' = skel x) := by
  obtain ⟨y, hy⟩ := h.was
  have hu := h.here
  rw [hp, at_append] at hy hu
  cases hx : at_ b r with
  | none => rw [hx] at hy; cases hy
  | some x =>
    cases hx' : at_ b' r with
    | none => rw [hx'] at hu; cases hu
    | some x' =>
      rw [hx'] at hu
      refine ⟨x, x', rfl, rfl, hu, ?_⟩
      intro z h1 h2
      have hs := h.shape z h1 h2
      have e1 := at_skel r b
      have e2 := at_skel r b'
      rw [hs] at e2
      rw [e1, hx, hx'] at e2
      exact (Option.some.inj e2).symm

end Verif.Proofs.PvaClient
