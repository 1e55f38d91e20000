import Verif.Model.PyDict
/-! Laws of the dictionary model. -/
namespace Verif.Dict
variable {K V : Type} [DecidableEq K]

@[simp] theorem get?_nil (k : K) : get? ([] : Dict K V) k = none := rfl

theorem get?_cons (k' : K) (v : V) (d : Dict K V) (k : K) :
    get? ((k', v) :: d) k = if k' = k then some v else get? d k := rfl

@[simp] theorem get?_set_self (d : Dict K V) (k : K) (v : V) : get? (set d k v) k = some v := by
  induction d with
  | nil => simp [set, get?]
  | cons kv d ih =>
    obtain ⟨k', v'⟩ := kv
    by_cases h : k' = k <;> simp [set, get?, h, ih]

theorem get?_set_ne (d : Dict K V) {k k2 : K} (v : V) (h : k ≠ k2) :
    get? (set d k v) k2 = get? d k2 := by
  induction d with
  | nil => simp [set, get?, h]
  | cons kv d ih =>
    obtain ⟨k', v'⟩ := kv
    by_cases h1 : k' = k
    · subst h1; simp [set, get?, h]
    · simp [set, get?, h1, ih]

theorem get?_set (d : Dict K V) (k k2 : K) (v : V) :
    get? (set d k v) k2 = if k = k2 then some v else get? d k2 := by
  by_cases h : k = k2
  · subst h; simp
  · simp [h, get?_set_ne]

theorem get?_mem {d : Dict K V} {k : K} {v : V} (h : get? d k = some v) : (k, v) ∈ d := by
  induction d with
  | nil => simp [get?] at h
  | cons kv d ih =>
    obtain ⟨k', v'⟩ := kv
    by_cases h1 : k' = k
    · subst h1; simp [get?] at h; simp [h]
    · simp [get?, h1] at h; simp [ih h]

theorem get?_none_iff {d : Dict K V} {k : K} : get? d k = none ↔ k ∉ keys d := by
  induction d with
  | nil => simp [keys, get?]
  | cons kv d ih =>
    obtain ⟨k', v'⟩ := kv
    by_cases h1 : k' = k
    · subst h1; simp [get?, keys]
    · have h2 : k ≠ k' := fun e => h1 e.symm
      simp [get?, h1, ih, keys, h2]

theorem mem_iff {d : Dict K V} {k : K} : mem d k = true ↔ k ∈ keys d := by
  have := get?_none_iff (d := d) (k := k)
  unfold mem
  cases h : get? d k <;> simp_all

theorem get?_of_mem_nodup {d : Dict K V} (hn : (keys d).Nodup) {k : K} {v : V}
    (h : (k, v) ∈ d) : get? d k = some v := by
  induction d with
  | nil => simp at h
  | cons kv d ih =>
    obtain ⟨k', v'⟩ := kv
    simp only [keys, List.map_cons, List.nodup_cons] at hn
    rcases List.mem_cons.1 h with h | h
    · simp only [Prod.mk.injEq] at h; simp [get?, h.1, h.2]
    · have : k' ≠ k := by
        rintro rfl
        exact hn.1 (List.mem_map.2 ⟨_, h, rfl⟩)
      simp [get?, this, ih hn.2 h]

theorem keys_set (d : Dict K V) (k : K) (v : V) :
    keys (set d k v) = if k ∈ keys d then keys d else keys d ++ [k] := by
  induction d with
  | nil => simp [set, keys]
  | cons kv d ih =>
    obtain ⟨k', v'⟩ := kv
    by_cases h1 : k' = k
    · subst h1; simp [set, keys]
    · have h2 : k ≠ k' := fun e => h1 e.symm
      simp only [set, h1, if_false, keys, List.map_cons, List.mem_cons, h2, false_or]
      simp only [keys] at ih
      rw [ih]; split <;> simp_all

theorem nodup_set {d : Dict K V} (hn : (keys d).Nodup) (k : K) (v : V) :
    (keys (set d k v)).Nodup := by
  rw [keys_set]; split
  · exact hn
  · rename_i h
    rw [List.nodup_append]
    refine ⟨hn, by simp, ?_⟩
    intro a ha b hb
    simp only [List.mem_singleton] at hb
    subst hb
    exact fun e => h (e ▸ ha)

theorem keys_erase_sub (d : Dict K V) (k : K) : (keys (erase d k)).Sublist (keys d) := by
  induction d with
  | nil => simp [erase, keys]
  | cons kv d ih =>
    obtain ⟨k', v'⟩ := kv
    by_cases h1 : k' = k
    · simp [erase, h1, keys]
    · simp only [erase, h1, if_false, keys, List.map_cons]
      exact List.Sublist.cons_cons _ ih

theorem nodup_erase {d : Dict K V} (hn : (keys d).Nodup) (k : K) : (keys (erase d k)).Nodup :=
  hn.sublist (keys_erase_sub d k)

theorem get?_erase_self {d : Dict K V} (hn : (keys d).Nodup) (k : K) : get? (erase d k) k = none := by
  induction d with
  | nil => rfl
  | cons kv d ih =>
    obtain ⟨k', v'⟩ := kv
    simp only [keys, List.map_cons, List.nodup_cons] at hn
    by_cases h1 : k' = k
    · subst h1
      simp only [erase, if_true]
      exact get?_none_iff.2 hn.1
    · simp only [erase, h1, if_false, get?]
      exact ih hn.2

theorem get?_erase_ne (d : Dict K V) {k k2 : K} (h : k ≠ k2) : get? (erase d k) k2 = get? d k2 := by
  induction d with
  | nil => rfl
  | cons kv d ih =>
    obtain ⟨k', v'⟩ := kv
    by_cases h1 : k' = k
    · subst h1; simp [erase, get?, h]
    · simp [erase, h1, get?, ih]

theorem get?_erase {d : Dict K V} (hn : (keys d).Nodup) (k k2 : K) :
    get? (erase d k) k2 = if k = k2 then none else get? d k2 := by
  by_cases h : k = k2
  · subst h; simp [get?_erase_self hn]
  · simp [h, get?_erase_ne]

theorem mem_erase_iff {d : Dict K V} (hn : (keys d).Nodup) {k : K} {kv : K × V} :
    kv ∈ erase d k ↔ kv ∈ d ∧ kv.1 ≠ k := by
  induction d with
  | nil => simp [erase]
  | cons kv' d ih =>
    obtain ⟨k', v'⟩ := kv'
    simp only [keys, List.map_cons, List.nodup_cons] at hn
    by_cases h1 : k' = k
    · subst h1
      simp only [erase, if_true, List.mem_cons]
      constructor
      · intro h
        refine ⟨Or.inr h, ?_⟩
        rintro rfl
        exact hn.1 (List.mem_map.2 ⟨_, h, rfl⟩)
      · rintro ⟨h | h, h2⟩
        · subst h; exact absurd rfl h2
        · exact h
    · simp only [erase, h1, if_false, List.mem_cons, ih hn.2]
      constructor
      · rintro (h | h)
        · subst h; exact ⟨Or.inl rfl, h1⟩
        · exact ⟨Or.inr h.1, h.2⟩
      · rintro ⟨h | h, h2⟩
        · exact Or.inl h
        · exact Or.inr ⟨h, h2⟩

theorem mem_set_iff {d : Dict K V} (hn : (keys d).Nodup) {k : K} {v : V} {kv : K × V} :
    kv ∈ set d k v ↔ kv = (k, v) ∨ (kv ∈ d ∧ kv.1 ≠ k) := by
  induction d with
  | nil => simp [set]
  | cons kv' d ih =>
    obtain ⟨k', v'⟩ := kv'
    simp only [keys, List.map_cons, List.nodup_cons] at hn
    by_cases h1 : k' = k
    · subst h1
      simp only [set, if_true, List.mem_cons]
      constructor
      · rintro (h | h)
        · exact Or.inl h
        · refine Or.inr ⟨Or.inr h, ?_⟩
          rintro rfl
          exact hn.1 (List.mem_map.2 ⟨_, h, rfl⟩)
      · rintro (h | ⟨h | h, h2⟩)
        · exact Or.inl h
        · subst h; exact absurd rfl h2
        · exact Or.inr h
    · simp only [set, h1, if_false, List.mem_cons, ih hn.2]
      constructor
      · rintro (h | h | h)
        · subst h; exact Or.inr ⟨Or.inl rfl, h1⟩
        · exact Or.inl h
        · exact Or.inr ⟨Or.inr h.1, h.2⟩
      · rintro (h | ⟨h | h, h2⟩)
        · exact Or.inr (Or.inl h)
        · exact Or.inl h
        · exact Or.inr (Or.inr ⟨h, h2⟩)

end Verif.Dict
