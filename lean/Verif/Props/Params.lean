import Verif.Spec.Params
import Verif.Proofs.PyDict
/-!
C69: the parameters of `configure`.
-/
namespace Verif.Props.Params
open Verif.Params Verif.Spec.Params

variable {M V R : Type}

theorem mem_keys_set (d : Dict String M) (k k' : String) (m : M) : k' ∈ Dict.keys (Dict.set d k m) ↔ k' = k ∨ k' ∈ Dict.keys d := by
  rw [← Dict.mem_iff, ← Dict.mem_iff]
  unfold Dict.mem
  rw [Dict.get?_set]
  by_cases h : k = k'
  · subst h; simp
  · rw [if_neg h]
    constructor
    · exact .inr
    · rintro (rfl | h')
      · exact absurd rfl h
      · exact h'

/-! ### the required ones -/

theorem baseRequired_req (el : Dict String M) : ∀ (ks : List String) (s s' : List String × Dict String M),
    (∀ k, k ∈ Dict.keys s.2 ↔ k ∈ s.1) → baseRequired el ks s = some s' →
    (∀ k, k ∈ s'.1 ↔ k ∈ s.1 ∨ k ∈ ks) ∧ (∀ k, k ∈ Dict.keys s'.2 ↔ k ∈ s'.1) ∧
    (∀ k, Dict.get? s'.2 k = Dict.get? s.2 k ∨ Dict.get? s'.2 k = Dict.get? el k) := by
  intro ks
  induction ks with
  | nil => intro s s' hs h; cases h; exact ⟨by simp, hs, fun k => .inl rfl⟩
  | cons k ks ih =>
    intro s s' hs h
    obtain ⟨req, metas⟩ := s
    rw [baseRequired] at h
    cases hm : Dict.get? el k with
    | none => rw [hm] at h; cases h
    | some m =>
      rw [hm] at h
      simp only at h
      obtain ⟨h1, h2, h3⟩ := ih (req ++ [k], Dict.set metas k m) s' (by
        intro k'
        rw [mem_keys_set]
        simp only at hs
        simp only [List.mem_append, List.mem_singleton, hs]
        exact Or.comm) h
      refine ⟨?_, h2, ?_⟩
      · intro k'
        rw [h1]
        simp only [List.mem_append, List.mem_cons, List.not_mem_nil, or_false, or_assoc]
      · intro k'
        rcases h3 k' with h4 | h4
        · rw [h4, Dict.get?_set]
          by_cases hk : k = k'
          · subst hk; rw [if_pos rfl, hm]; exact .inr rfl
          · rw [if_neg hk]; exact .inl rfl
        · exact .inr h4

theorem infoRequired_req (mo : Dict String M) : ∀ (ks : List String) (s s' : List String × Dict String M),
    (∀ k, k ∈ Dict.keys s.2 ↔ k ∈ s.1) → infoRequired mo ks s = some s' →
    (∀ k, k ∈ s'.1 ↔ k ∈ s.1 ∨ (k ∉ ignored ∧ k ∈ ks)) ∧ (∀ k, k ∈ Dict.keys s'.2 ↔ k ∈ s'.1) ∧
    (∀ k m, Dict.get? s'.2 k = some m → Dict.get? s.2 k = some m ∨ (k ∉ ignored ∧ (k, m) ∈ mo)) := by
  intro ks
  induction ks with
  | nil => intro s s' hs h; cases h; exact ⟨by simp, hs, fun k m h => .inl h⟩
  | cons k ks ih =>
    intro s s' hs h
    obtain ⟨req, metas⟩ := s
    rw [infoRequired] at h
    by_cases hk : k ∈ req ++ ignored
    · rw [if_pos hk] at h
      obtain ⟨h1, h2, h3⟩ := ih (req, metas) s' hs h
      refine ⟨?_, h2, h3⟩
      intro k'
      rw [h1]
      simp only [List.mem_cons]
      constructor
      · rintro (h | ⟨h, h'⟩)
        · exact .inl h
        · exact .inr ⟨h, .inr h'⟩
      · rintro (h | ⟨h, rfl | h'⟩)
        · exact .inl h
        · rw [List.mem_append] at hk
          rcases hk with hk | hk
          · exact .inl hk
          · exact absurd hk h
        · exact .inr ⟨h, h'⟩
    · rw [if_neg hk] at h
      rw [List.mem_append, not_or] at hk
      cases hm : Dict.get? mo k with
      | none => rw [hm] at h; cases h
      | some m =>
        rw [hm] at h
        simp only at h
        obtain ⟨h1, h2, h3⟩ := ih (req ++ [k], Dict.set metas k m) s' (by
          intro k'
          rw [mem_keys_set]
          simp only at hs
          simp only [List.mem_append, List.mem_singleton, hs]
          exact Or.comm) h
        refine ⟨?_, h2, ?_⟩
        · intro k'
          rw [h1]
          simp only [List.mem_append, List.mem_cons, List.not_mem_nil, or_false]
          constructor
          · rintro ((h | rfl) | ⟨h, h'⟩)
            · exact .inl h
            · exact .inr ⟨hk.2, .inl rfl⟩
            · exact .inr ⟨h, .inr h'⟩
          · rintro (h | ⟨h, rfl | h'⟩)
            · exact .inl (.inl h)
            · exact .inl (.inr rfl)
            · exact .inr ⟨h, h'⟩
        · intro k' m' h'
          rcases h3 k' m' h' with h4 | h4
          · rw [Dict.get?_set] at h4
            by_cases hkk : k = k'
            · subst hkk
              rw [if_pos rfl] at h4
              cases h4
              exact .inr ⟨hk.2, Dict.get?_mem hm⟩
            · rw [if_neg hkk] at h4; exact .inl h4
          · exact .inr h4

theorem allRequired_req : ∀ (is : List (Info M V)) (s s' : List String × Dict String M),
    (∀ k, k ∈ Dict.keys s.2 ↔ k ∈ s.1) → allRequired is s = some s' →
    (∀ k, k ∈ s'.1 ↔ k ∈ s.1 ∨ Needed is k) ∧ (∀ k, k ∈ Dict.keys s'.2 ↔ k ∈ s'.1) ∧
    (∀ k m, Dict.get? s'.2 k = some m → Dict.get? s.2 k = some m ∨ (k ∉ ignored ∧ ∃ i ∈ is, (k, m) ∈ i.metas)) := by
  intro is
  induction is with
  | nil => intro s s' hs h; cases h; exact ⟨by simp [Needed], hs, fun k m h => .inl h⟩
  | cons i is ih =>
    intro s s' hs h
    rw [allRequired] at h
    cases hi : infoRequired i.metas i.required s with
    | none => rw [hi] at h; cases h
    | some t =>
      rw [hi] at h
      obtain ⟨a1, a2, a3⟩ := infoRequired_req i.metas i.required s t hs hi
      obtain ⟨b1, b2, b3⟩ := ih t s' a2 h
      refine ⟨?_, b2, ?_⟩
      · intro k
        rw [b1, a1]
        unfold Needed
        simp only [List.mem_cons]
        constructor
        · rintro ((h | ⟨h, h'⟩) | ⟨h, j, hj, h'⟩)
          · exact .inl h
          · exact .inr ⟨h, i, .inl rfl, h'⟩
          · exact .inr ⟨h, j, .inr hj, h'⟩
        · rintro (h | ⟨h, j, rfl | hj, h'⟩)
          · exact .inl (.inl h)
          · exact .inl (.inr ⟨h, h'⟩)
          · exact .inr ⟨h, j, hj, h'⟩
      · intro k m h'
        rcases b3 k m h' with h4 | ⟨h4, j, hj, h5⟩
        · rcases a3 k m h4 with h6 | ⟨h6, h7⟩
          · exact .inl h6
          · exact .inr ⟨h6, i, List.mem_cons_self, h7⟩
        · exact .inr ⟨h4, j, List.mem_cons_of_mem _ hj, h5⟩

/-! ### the optional ones -/

theorem baseOptional_keys (req : List String) : ∀ (l metas : Dict String M) (k : String),
    k ∈ Dict.keys (baseOptional req l metas) ↔ k ∈ Dict.keys metas ∨ (k ∉ req ∧ k ∈ Dict.keys l) := by
  intro l
  induction l with
  | nil => intro metas k; simp [baseOptional, Dict.keys]
  | cons c l ih =>
    obtain ⟨k', m⟩ := c
    intro metas k
    rw [baseOptional, ih]
    have hc : k ∈ Dict.keys ((k', m) :: l) ↔ k = k' ∨ k ∈ Dict.keys l := by simp [Dict.keys]
    rw [hc]
    by_cases h : k' ∈ req
    · rw [if_pos h]
      constructor
      · rintro (h1 | ⟨h1, h2⟩)
        · exact .inl h1
        · exact .inr ⟨h1, .inr h2⟩
      · rintro (h1 | ⟨h1, rfl | h2⟩)
        · exact .inl h1
        · exact absurd h h1
        · exact .inr ⟨h1, h2⟩
    · rw [if_neg h, mem_keys_set]
      constructor
      · rintro ((rfl | h1) | ⟨h1, h2⟩)
        · exact .inr ⟨h, .inl rfl⟩
        · exact .inl h1
        · exact .inr ⟨h1, .inr h2⟩
      · rintro (h1 | ⟨h1, rfl | h2⟩)
        · exact .inl (.inr h1)
        · exact .inl (.inl rfl)
        · exact .inr ⟨h1, h2⟩

theorem baseOptional_get (req : List String) : ∀ (l metas : Dict String M) (k : String) (m : M),
    Dict.get? (baseOptional req l metas) k = some m → Dict.get? metas k = some m ∨ (k, m) ∈ l := by
  intro l
  induction l with
  | nil => intro metas k m h; exact .inl h
  | cons c l ih =>
    obtain ⟨k', m'⟩ := c
    intro metas k m h
    rw [baseOptional] at h
    rcases ih _ _ _ h with h | h
    · by_cases hk : k' ∈ req
      · rw [if_pos hk] at h; exact .inl h
      · rw [if_neg hk, Dict.get?_set] at h
        by_cases hkk : k' = k
        · subst hkk; rw [if_pos rfl] at h; cases h; exact .inr List.mem_cons_self
        · rw [if_neg hkk] at h; exact .inl h
    · exact .inr (List.mem_cons_of_mem _ h)

/-- what a part does to the default of one parameter -/
def upd (e : Ext M V R) (i : Info M V) (k : String) (m : M) (o : Option V) : Option V :=
  match Dict.get? i.defaults k with
  | none => o
  | some d => some (if e.merged m then e.fromRows ((match o with | some v => e.rows v | none => []) ++ e.rows d) else d)

theorem addDefault_get (e : Ext M V R) (i : Info M V) (k : String) (m : M) (ds : Dict String V) (k' : String) :
    Dict.get? (addDefault e i k m ds) k' = if k = k' then upd e i k m (Dict.get? ds k) else Dict.get? ds k' := by
  unfold addDefault upd
  cases Dict.get? i.defaults k with
  | none =>
    by_cases h : k = k'
    · subst h; simp
    · simp [h]
  | some d =>
    simp only
    by_cases hm : e.merged m
    · rw [if_pos hm, if_pos hm, Dict.get?_set]
      rfl
    · rw [if_neg hm, if_neg hm, Dict.get?_set]

theorem infoOptional_spec (e : Ext M V R) (req : List String) (i : Info M V) : ∀ (l : Dict String M) (s : Dict String M × Dict String V),
    (∀ k, k ∈ Dict.keys (infoOptional e req i l s).1 ↔ k ∈ Dict.keys s.1 ∨ (k ∉ req ++ ignored ∧ k ∈ Dict.keys l)) ∧
    (∀ k m, Dict.get? (infoOptional e req i l s).1 k = some m → Dict.get? s.1 k = some m ∨ (k ∉ req ++ ignored ∧ (k, m) ∈ l)) ∧
    ((Dict.keys l).Nodup → ∀ k, Dict.get? (infoOptional e req i l s).2 k =
      if k ∈ req ++ ignored then Dict.get? s.2 k else
      match Dict.get? l k with
      | none => Dict.get? s.2 k
      | some m => upd e i k m (Dict.get? s.2 k)) := by
  intro l
  induction l with
  | nil =>
    intro s
    refine ⟨by simp [infoOptional, Dict.keys], fun k m h => .inl h, fun _ k => ?_⟩
    show Dict.get? s.2 k = _
    split <;> rfl
  | cons c l ih =>
    obtain ⟨k', m'⟩ := c
    intro s
    obtain ⟨metas, ds⟩ := s
    rw [infoOptional]
    have hc : ∀ k, k ∈ Dict.keys ((k', m') :: l) ↔ k = k' ∨ k ∈ Dict.keys l := by intro k; simp [Dict.keys]
    by_cases hk : k' ∈ req ++ ignored
    · rw [if_pos hk]
      obtain ⟨h1, h2, h3⟩ := ih (metas, ds)
      refine ⟨?_, ?_, ?_⟩
      · intro k
        rw [h1, hc]
        constructor
        · rintro (h | ⟨h, h'⟩)
          · exact .inl h
          · exact .inr ⟨h, .inr h'⟩
        · rintro (h | ⟨h, rfl | h'⟩)
          · exact .inl h
          · exact absurd hk h
          · exact .inr ⟨h, h'⟩
      · intro k m h
        rcases h2 k m h with h | ⟨h, h'⟩
        · exact .inl h
        · exact .inr ⟨h, List.mem_cons_of_mem _ h'⟩
      · intro hn k
        have hn' : (Dict.keys l).Nodup := (List.nodup_cons.1 hn).2
        rw [h3 hn' k, Dict.get?_cons]
        by_cases hkk : k ∈ req ++ ignored
        · rw [if_pos hkk, if_pos hkk]
        · rw [if_neg hkk, if_neg hkk]
          have : k' ≠ k := by rintro rfl; exact hkk hk
          simp only [this, if_false]
    · rw [if_neg hk]
      obtain ⟨h1, h2, h3⟩ := ih (Dict.set metas k' m', addDefault e i k' m' ds)
      refine ⟨?_, ?_, ?_⟩
      · intro k
        rw [h1, hc, mem_keys_set]
        constructor
        · rintro ((rfl | h) | ⟨h, h'⟩)
          · exact .inr ⟨hk, .inl rfl⟩
          · exact .inl h
          · exact .inr ⟨h, .inr h'⟩
        · rintro (h | ⟨h, rfl | h'⟩)
          · exact .inl (.inr h)
          · exact .inl (.inl rfl)
          · exact .inr ⟨h, h'⟩
      · intro k m h
        rcases h2 k m h with h | ⟨h, h'⟩
        · simp only at h
          rw [Dict.get?_set] at h
          by_cases hkk : k' = k
          · subst hkk; rw [if_pos rfl] at h; cases h; exact .inr ⟨hk, List.mem_cons_self⟩
          · rw [if_neg hkk] at h; exact .inl h
        · exact .inr ⟨h, List.mem_cons_of_mem _ h'⟩
      · intro hn k
        obtain ⟨hnk, hn'⟩ := List.nodup_cons.1 hn
        rw [h3 hn' k, Dict.get?_cons]
        by_cases hkk : k ∈ req ++ ignored
        · rw [if_pos hkk, if_pos hkk, addDefault_get, if_neg]
          rintro rfl; exact hk hkk
        · rw [if_neg hkk, if_neg hkk]
          by_cases he : k' = k
          · subst he
            have h0 : Dict.get? l k' = none := (Dict.get?_none_iff).2 hnk
            rw [h0, if_pos rfl]
            simp only
            rw [addDefault_get, if_pos rfl]
          · rw [if_neg he, addDefault_get, if_neg he]

/-- the default of one parameter after all parts -/
def allUpd (e : Ext M V R) (k : String) : List (Info M V) → Option V → Option V
  | [], o => o
  | i :: is, o => allUpd e k is (match Dict.get? i.metas k with | none => o | some m => upd e i k m o)

theorem allOptional_spec (e : Ext M V R) (req : List String) : ∀ (is : List (Info M V)) (s : Dict String M × Dict String V),
    (∀ k, k ∈ Dict.keys (allOptional e req is s).1 ↔ k ∈ Dict.keys s.1 ∨ (k ∉ req ++ ignored ∧ ∃ i ∈ is, k ∈ Dict.keys i.metas)) ∧
    (∀ k m, Dict.get? (allOptional e req is s).1 k = some m → Dict.get? s.1 k = some m ∨
      (k ∉ req ++ ignored ∧ ∃ i ∈ is, (k, m) ∈ i.metas)) ∧
    ((∀ i ∈ is, (Dict.keys i.metas).Nodup) → ∀ k, Dict.get? (allOptional e req is s).2 k =
      if k ∈ req ++ ignored then Dict.get? s.2 k else allUpd e k is (Dict.get? s.2 k)) := by
  intro is
  induction is with
  | nil =>
    intro s
    refine ⟨by simp [allOptional], fun k m h => .inl h, fun _ k => ?_⟩
    show Dict.get? s.2 k = if _ then _ else Dict.get? s.2 k
    split <;> rfl
  | cons i is ih =>
    intro s
    rw [allOptional]
    obtain ⟨a1, a2, a3⟩ := infoOptional_spec e req i i.metas s
    obtain ⟨b1, b2, b3⟩ := ih (infoOptional e req i i.metas s)
    refine ⟨?_, ?_, ?_⟩
    · intro k
      rw [b1, a1]
      simp only [List.mem_cons]
      constructor
      · rintro ((h | ⟨h, h'⟩) | ⟨h, j, hj, h'⟩)
        · exact .inl h
        · exact .inr ⟨h, i, .inl rfl, h'⟩
        · exact .inr ⟨h, j, .inr hj, h'⟩
      · rintro (h | ⟨h, j, rfl | hj, h'⟩)
        · exact .inl (.inl h)
        · exact .inl (.inr ⟨h, h'⟩)
        · exact .inr ⟨h, j, hj, h'⟩
    · intro k m h'
      rcases b2 k m h' with h4 | ⟨h4, j, hj, h5⟩
      · rcases a2 k m h4 with h6 | ⟨h6, h7⟩
        · exact .inl h6
        · exact .inr ⟨h6, i, List.mem_cons_self, h7⟩
      · exact .inr ⟨h4, j, List.mem_cons_of_mem _ hj, h5⟩
    · intro hn k
      rw [b3 (fun j hj => hn j (List.mem_cons_of_mem _ hj)) k, a3 (hn i List.mem_cons_self) k]
      by_cases hk : k ∈ req ++ ignored
      · rw [if_pos hk, if_pos hk, if_pos hk]
      · rw [if_neg hk, if_neg hk, if_neg hk]
        rfl

theorem mem_upd (e : Ext M V R) (i : Info M V) (k : String) (m : M) (o : Option V) :
    (upd e i k m o).isSome ↔ o.isSome ∨ k ∈ Dict.keys i.defaults := by
  unfold upd
  cases h : Dict.get? i.defaults k with
  | none => simp [Dict.get?_none_iff.1 h]
  | some d =>
    have : k ∈ Dict.keys i.defaults := by
      by_cases hh : k ∈ Dict.keys i.defaults
      · exact hh
      · rw [Dict.get?_none_iff.2 hh] at h; cases h
    simp [this]

theorem mem_keys_iff {W : Type} (d : Dict String W) (k : String) : k ∈ Dict.keys d ↔ ∃ v, Dict.get? d k = some v := by
  cases h : Dict.get? d k with
  | none => simp [Dict.get?_none_iff.1 h]
  | some v =>
    have : k ∈ Dict.keys d := by
      by_cases hh : k ∈ Dict.keys d
      · exact hh
      · rw [Dict.get?_none_iff.2 hh] at h; cases h
    simp [this]

theorem allUpd_some (e : Ext M V R) (k : String) : ∀ (is : List (Info M V)) (o : Option V),
    (allUpd e k is o).isSome ↔ o.isSome ∨ HasDefault is k := by
  intro is
  induction is with
  | nil => intro o; simp [allUpd, HasDefault]
  | cons i is ih =>
    intro o
    rw [allUpd, ih]
    unfold HasDefault
    simp only [List.mem_cons]
    cases hm : Dict.get? i.metas k with
    | none =>
      have hn := Dict.get?_none_iff.1 hm
      simp only
      constructor
      · rintro (h | ⟨j, hj, h⟩)
        · exact .inl h
        · exact .inr ⟨j, .inr hj, h⟩
      · rintro (h | ⟨j, rfl | hj, h⟩)
        · exact .inl h
        · exact absurd h.1 hn
        · exact .inr ⟨j, hj, h⟩
    | some m =>
      simp only
      rw [mem_upd]
      have hk : k ∈ Dict.keys i.metas := (mem_keys_iff _ _).2 ⟨m, hm⟩
      constructor
      · rintro ((h | h) | ⟨j, hj, h⟩)
        · exact .inl h
        · exact .inr ⟨i, .inl rfl, hk, h⟩
        · exact .inr ⟨j, .inr hj, h⟩
      · rintro (h | ⟨j, rfl | hj, h⟩)
        · exact .inl (.inl h)
        · exact .inl (.inr h.2)
        · exact .inr ⟨j, hj, h⟩

theorem setDefaults_get (e : Ext M V R) (el : Dict String M) : ∀ (d r : Dict String V), setDefaults e el d = some r →
    ∀ k, (Dict.get? d k = none → Dict.get? r k = none) ∧
      (∀ v, Dict.get? d k = some v → ∃ m w, Dict.get? el k = some m ∧ e.validate m v = some w ∧ Dict.get? r k = some w) := by
  intro d
  induction d with
  | nil => intro r h k; cases h; exact ⟨fun _ => rfl, fun v h => by cases h⟩
  | cons c d ih =>
    obtain ⟨k', v'⟩ := c
    intro r h k
    rw [setDefaults] at h
    cases hm : Dict.get? el k' with
    | none => rw [hm] at h; cases h
    | some m =>
      rw [hm] at h
      simp only at h
      cases hv : e.validate m v' with
      | none => rw [hv] at h; cases h
      | some w =>
        cases hs : setDefaults e el d with
        | none => rw [hv, hs] at h; cases h
        | some r' =>
          rw [hv, hs] at h
          cases h
          obtain ⟨h1, h2⟩ := ih r' hs k
          rw [Dict.get?_cons, Dict.get?_cons]
          by_cases hk : k' = k
          · subst hk
            rw [if_pos rfl, if_pos rfl]
            exact ⟨(fun h => by cases h), fun v h => (by cases h; exact ⟨m, w, hm, hv, rfl⟩)⟩
          · rw [if_neg hk, if_neg hk]
            exact ⟨h1, h2⟩

theorem setDefaults_keys (e : Ext M V R) (el : Dict String M) (d r : Dict String V) (h : setDefaults e el d = some r) (k : String) :
    k ∈ Dict.keys r ↔ k ∈ Dict.keys d := by
  obtain ⟨h1, h2⟩ := setDefaults_get e el d r h k
  rw [mem_keys_iff, mem_keys_iff]
  constructor
  · rintro ⟨v, hv⟩
    cases hd : Dict.get? d k with
    | none => rw [h1 hd] at hv; cases hv
    | some v => exact ⟨v, rfl⟩
  · rintro ⟨v, hv⟩
    obtain ⟨_, w, _, _, h3⟩ := h2 v hv
    exact ⟨w, h3⟩

/-- the parts of a successful update -/
theorem update_parts {e : Ext M V R} {base : Dict String M × List String} {infos : List (Info M V)} {m : Model M V}
    (h : update e base infos = some m) : ∃ s req metas, baseRequired base.1 base.2 ([], []) = some s ∧
      allRequired infos s = some (req, metas) ∧
      m.elements = (allOptional e req infos (baseOptional req base.1 metas, [])).1 ∧
      m.required = req ∧
      setDefaults e m.elements (allOptional e req infos (baseOptional req base.1 metas, [])).2 = some m.defaults ∧
      m.returns = m.elements.map (fun c => (c.1, e.readonly c.2)) ∧ m.returnsRequired = req := by
  unfold update at h
  cases hs : baseRequired base.1 base.2 ([], []) with
  | none => rw [hs] at h; cases h
  | some s =>
    rw [hs] at h
    simp only at h
    cases ht : allRequired infos s with
    | none => rw [ht] at h; cases h
    | some t =>
      obtain ⟨req, metas⟩ := t
      rw [ht] at h
      simp only at h
      cases hd : setDefaults e (allOptional e req infos (baseOptional req base.1 metas, [])).1
          (allOptional e req infos (baseOptional req base.1 metas, [])).2 with
      | none => rw [hd] at h; cases h
      | some ds =>
        rw [hd] at h
        cases h
        exact ⟨s, req, metas, rfl, ht, rfl, rfl, hd, rfl, rfl⟩

/-- **The parameters that `configure` takes are its own and those of all parts; those required are its own and those that
some part cannot do without.** For every set of parts and every order of them. -/
theorem takes_all_parameters {e : Ext M V R} {base : Dict String M × List String} {infos : List (Info M V)} {m : Model M V}
    (h : update e base infos = some m) (k : String) :
    (k ∈ Dict.keys m.elements ↔ k ∈ Dict.keys base.1 ∨ Wanted infos k ∨ Needed infos k) ∧
    (k ∈ m.required ↔ k ∈ base.2 ∨ Needed infos k) := by
  obtain ⟨s, req, metas, h1, h2, h3, h4, h5, h6, h7⟩ := update_parts h
  obtain ⟨a1, a2, a3⟩ := baseRequired_req base.1 base.2 ([], []) s (by simp [Dict.keys]) h1
  obtain ⟨b1, b2, b3⟩ := allRequired_req infos s (req, metas) a2 h2
  have hr : k ∈ req ↔ k ∈ base.2 ∨ Needed infos k := by rw [b1, a1]; simp
  refine ⟨?_, by rw [h4]; exact hr⟩
  rw [h3, (allOptional_spec e req infos _).1 k]
  simp only
  rw [baseOptional_keys, b2]
  have hb : k ∈ base.2 → k ∈ Dict.keys base.1 := by
    intro hk
    have h8 : k ∈ Dict.keys s.2 := (a2 k).2 ((a1 k).2 (.inr hk))
    obtain ⟨v, hv⟩ := (mem_keys_iff _ _).1 h8
    rcases a3 k with h9 | h9
    · rw [h9] at hv; cases hv
    · exact (mem_keys_iff _ _).2 ⟨v, h9 ▸ hv⟩
  constructor
  · rintro ((h | ⟨h, h'⟩) | ⟨h, h'⟩)
    · rcases hr.1 h with h | h
      · exact .inl (hb h)
      · exact .inr (.inr h)
    · exact .inl h'
    · rw [List.mem_append, not_or] at h
      exact .inr (.inl ⟨h.2, h'⟩)
  · rintro (h | h | h)
    · by_cases hk : k ∈ req
      · exact .inl (.inl hk)
      · exact .inl (.inr ⟨hk, h⟩)
    · by_cases hk : k ∈ req
      · exact .inl (.inl hk)
      · exact .inr ⟨by rw [List.mem_append, not_or]; exact ⟨hk, h.1⟩, h.2⟩
    · exact .inl (.inl (hr.2 (.inr h)))

/-- **What comes back from `configure` and `validate` has the same fields with the same ones required, and none of them
can be written.** -/
theorem returns_mirror_takes {e : Ext M V R} {base : Dict String M × List String} {infos : List (Info M V)} {m : Model M V}
    (h : update e base infos = some m) :
    Dict.keys m.returns = Dict.keys m.elements ∧ m.returnsRequired = m.required ∧
    ∀ k w, (k, w) ∈ m.returns → ∃ w', (k, w') ∈ m.elements ∧ w = e.readonly w' := by
  obtain ⟨s, req, metas, h1, h2, h3, h4, h5, h6, h7⟩ := update_parts h
  refine ⟨?_, by rw [h7, h4], ?_⟩
  · rw [h6]; unfold Dict.keys; rw [List.map_map]; rfl
  · intro k w hw
    rw [h6] at hw
    obtain ⟨c, hc, he⟩ := List.mem_map.1 hw
    cases he
    exact ⟨c.2, hc, rfl⟩

/-- **A parameter that several parts have, all with the same meta, is published with that meta.** -/
theorem agreed_meta_published {e : Ext M V R} {base : Dict String M × List String} {infos : List (Info M V)} {m : Model M V}
    (h : update e base infos = some m) {k : String} {m0 : M} (hk : k ∉ Dict.keys base.1)
    (hw : Wanted infos k ∨ Needed infos k) (hall : ∀ i ∈ infos, ∀ w, (k, w) ∈ i.metas → w = m0) :
    Dict.get? m.elements k = some m0 := by
  have hmem := ((takes_all_parameters h k).1).2 (.inr hw)
  obtain ⟨w, hw'⟩ := (mem_keys_iff _ _).1 hmem
  obtain ⟨s, req, metas, h1, h2, h3, h4, h5, h6, h7⟩ := update_parts h
  obtain ⟨a1, a2, a3⟩ := baseRequired_req base.1 base.2 ([], []) s (by simp [Dict.keys]) h1
  obtain ⟨b1, b2, b3⟩ := allRequired_req infos s (req, metas) a2 h2
  rw [hw']
  rw [h3] at hw'
  have hbase : Dict.get? base.1 k = none := Dict.get?_none_iff.2 hk
  rcases (allOptional_spec e req infos _).2.1 k w hw' with h8 | ⟨_, i, hi, h8⟩
  · rcases baseOptional_get req _ _ k w h8 with h9 | h9
    · rcases b3 k w h9 with h10 | ⟨_, i, hi, h10⟩
      · rcases a3 k with h11 | h11
        · rw [h11] at h10; cases h10
        · rw [h11, hbase] at h10; cases h10
      · rw [hall i hi w h10]
    · exact absurd (List.mem_map.2 ⟨(k, w), h9, rfl⟩) hk
  · rw [hall i hi w h8]

/-! ### the defaults -/

/-- the published default, from that of the parts -/
theorem default_from_parts {e : Ext M V R} {base : Dict String M × List String} {infos : List (Info M V)} {m : Model M V}
    (h : update e base infos = some m) (hwf : ∀ i ∈ infos, WellFormed i) {k : String} (hig : k ∉ ignored)
    (hb : k ∉ base.2) (hn : ¬ Needed infos k) :
    (allUpd e k infos none = none → Dict.get? m.defaults k = none) ∧
    (∀ v, allUpd e k infos none = some v → ∃ w d, Dict.get? m.elements k = some w ∧ e.validate w v = some d ∧
      Dict.get? m.defaults k = some d) := by
  have hreq : k ∉ m.required := fun hh => by
    rcases ((takes_all_parameters h k).2).1 hh with h' | h'
    · exact hb h'
    · exact hn h'
  obtain ⟨s, req, metas, h1, h2, h3, h4, h5, h6, h7⟩ := update_parts h
  have hd := (allOptional_spec e req infos (baseOptional req base.1 metas, [])).2.2 (fun i hi => (hwf i hi).once) k
  rw [if_neg (by rw [List.mem_append, not_or]; exact ⟨h4 ▸ hreq, hig⟩)] at hd
  have hg := setDefaults_get e _ _ _ h5 k
  rw [hd] at hg
  exact hg

/-- a parameter that is required has no default -/
theorem required_no_default {e : Ext M V R} {base : Dict String M × List String} {infos : List (Info M V)} {m : Model M V}
    (h : update e base infos = some m) (hwf : ∀ i ∈ infos, WellFormed i) {k : String} (hk : k ∈ m.required ∨ k ∈ ignored) :
    Dict.get? m.defaults k = none := by
  obtain ⟨s, req, metas, h1, h2, h3, h4, h5, h6, h7⟩ := update_parts h
  have hd := (allOptional_spec e req infos (baseOptional req base.1 metas, [])).2.2 (fun i hi => (hwf i hi).once) k
  rw [if_pos (by rw [List.mem_append]; exact hk.imp (fun h => h4 ▸ h) id)] at hd
  exact (setDefaults_get e _ _ _ h5 k).1 hd

theorem allUpd_last (e : Ext M V R) (k : String) : ∀ (is : List (Info M V)) (o : Option V),
    (∀ i ∈ is, ∀ m, Dict.get? i.metas k = some m → e.merged m = false) →
    allUpd e k is o = ((defaultsOf is k).getLast?).or o := by
  intro is
  induction is with
  | nil => intro o _; rfl
  | cons i is ih =>
    intro o hm
    rw [allUpd, ih _ (fun j hj => hm j (List.mem_cons_of_mem _ hj))]
    unfold defaultsOf
    rw [List.filterMap_cons]
    cases hi : Dict.get? i.metas k with
    | none => simp [Dict.get?_none_iff.1 hi]
    | some m =>
      have hk : k ∈ Dict.keys i.metas := (mem_keys_iff _ _).2 ⟨m, hi⟩
      simp only [hk, if_true]
      unfold upd
      cases hd : Dict.get? i.defaults k with
      | none => rfl
      | some d =>
        have := hm i List.mem_cons_self m hi
        simp only [this, List.getLast?_cons]
        cases h9 : (List.filterMap (fun i => if k ∈ Dict.keys i.metas then Dict.get? i.defaults k else none) is).getLast? <;> simp

theorem allUpd_merged (e : Ext M V R) (hrows : ∀ l, e.rows (e.fromRows l) = l) (k : String) : ∀ (is : List (Info M V)) (o : Option V),
    (∀ i ∈ is, ∀ m, Dict.get? i.metas k = some m → e.merged m = true) →
    ((allUpd e k is o).elim [] e.rows) = o.elim [] e.rows ++ (defaultsOf is k).flatMap e.rows := by
  intro is
  induction is with
  | nil => intro o _; simp [allUpd, defaultsOf]
  | cons i is ih =>
    intro o hm
    rw [allUpd, ih _ (fun j hj => hm j (List.mem_cons_of_mem _ hj))]
    unfold defaultsOf
    rw [List.filterMap_cons]
    cases hi : Dict.get? i.metas k with
    | none => simp [Dict.get?_none_iff.1 hi]
    | some m =>
      have hk : k ∈ Dict.keys i.metas := (mem_keys_iff _ _).2 ⟨m, hi⟩
      simp only [hk, if_true]
      unfold upd
      cases hd : Dict.get? i.defaults k with
      | none => rfl
      | some d =>
        have := hm i List.mem_cons_self m hi
        simp only [this, if_true, List.flatMap_cons]
        simp only [Option.elim_some, hrows]
        cases o <;> simp

/-- **The published default of a parameter is that of the last part that has one** (checked by the published meta), for a
parameter that nobody requires and that is not a table to be merged. -/
theorem last_default_published {e : Ext M V R} {base : Dict String M × List String} {infos : List (Info M V)} {m : Model M V}
    (h : update e base infos = some m) (hwf : ∀ i ∈ infos, WellFormed i) {k : String} (hig : k ∉ ignored)
    (hb : k ∉ base.2) (hn : ¬ Needed infos k) (hm : ∀ i ∈ infos, ∀ w, Dict.get? i.metas k = some w → e.merged w = false)
    {v : V} (hv : (defaultsOf infos k).getLast? = some v) :
    ∃ w d, Dict.get? m.elements k = some w ∧ e.validate w v = some d ∧ Dict.get? m.defaults k = some d :=
  (default_from_parts h hwf hig hb hn).2 v (by rw [allUpd_last e k infos none hm, hv]; rfl)

/-- **The published default of a table with columns that only the parts write has the rows of the defaults of all parts,
in the order of the parts** (checked by the published meta): how the rows of several detectors come to be in one
`detectors` table. -/
theorem default_rows_merged {e : Ext M V R} {base : Dict String M × List String} {infos : List (Info M V)} {m : Model M V}
    (h : update e base infos = some m) (hwf : ∀ i ∈ infos, WellFormed i) {k : String} (hig : k ∉ ignored)
    (hb : k ∉ base.2) (hn : ¬ Needed infos k) (hm : ∀ i ∈ infos, ∀ w, Dict.get? i.metas k = some w → e.merged w = true)
    (hrows : ∀ l, e.rows (e.fromRows l) = l) (hd : HasDefault infos k) :
    ∃ v w d, e.rows v = (defaultsOf infos k).flatMap e.rows ∧ Dict.get? m.elements k = some w ∧ e.validate w v = some d ∧
      Dict.get? m.defaults k = some d := by
  have hs := (allUpd_some e k infos none).2 (.inr hd)
  obtain ⟨v, hv⟩ := Option.isSome_iff_exists.1 hs
  have hr := allUpd_merged e hrows k infos none hm
  rw [hv] at hr
  obtain ⟨w, d, h1, h2, h3⟩ := (default_from_parts h hwf hig hb hn).2 v hv
  exact ⟨v, w, d, hr, h1, h2, h3⟩

/-! ### calls -/

theorem validateLoop_get (e : Ext M V R) (given : Dict String V) : ∀ (el : Dict String M) (args : Dict String V),
    validateLoop e given el = some args →
    ∀ k, (Dict.get? given k = none → Dict.get? args k = none) ∧
      (∀ v w, Dict.get? given k = some v → Dict.get? el k = some w → ∃ v', e.validate w v = some v' ∧ Dict.get? args k = some v') ∧
      (Dict.get? el k = none → Dict.get? args k = none) := by
  intro el
  induction el with
  | nil => intro args h k; cases h; exact ⟨fun _ => rfl, (fun v w _ h => by cases h), fun _ => rfl⟩
  | cons c el ih =>
    obtain ⟨k', m⟩ := c
    intro args h k
    rw [validateLoop] at h
    cases hg : Dict.get? given k' with
    | none =>
      rw [hg] at h
      obtain ⟨h1, h2, h3⟩ := ih args h k
      rw [Dict.get?_cons]
      by_cases hk : k' = k
      · subst hk
        rw [if_pos rfl, hg]
        exact ⟨fun _ => h1 hg, (fun v w h => by cases h), fun h => by cases h⟩
      · rw [if_neg hk]
        exact ⟨h1, h2, h3⟩
    | some v =>
      rw [hg] at h
      simp only at h
      cases hv : e.validate m v with
      | none => rw [hv] at h; cases h
      | some w =>
        cases hs : validateLoop e given el with
        | none => rw [hv, hs] at h; cases h
        | some r' =>
          rw [hv, hs] at h
          cases h
          obtain ⟨h1, h2, h3⟩ := ih r' hs k
          rw [Dict.get?_cons, Dict.get?_cons]
          by_cases hk : k' = k
          · subst hk
            rw [if_pos rfl, if_pos rfl, hg]
            exact ⟨(fun h => by cases h), (fun v' w' h h' => by cases h; cases h'; exact ⟨w, hv, rfl⟩), (fun h => by cases h)⟩
          · rw [if_neg hk, if_neg hk]
            exact ⟨h1, h2, h3⟩

/-- the steps of an accepted call -/
theorem validateCall_parts {e : Ext M V R} {m : Model M V} {given args : Dict String V}
    (h : validateCall e m given = some args) :
    (∀ k ∈ Dict.keys given, k ∈ Dict.keys m.elements) ∧ validateLoop e given m.elements = some args ∧
    (∀ k ∈ m.required, k ∈ Dict.keys args) := by
  unfold validateCall at h
  split at h
  · rename_i h1
    cases hl : validateLoop e given m.elements with
    | none => rw [hl] at h; cases h
    | some a =>
      rw [hl] at h
      simp only at h
      split at h
      · rename_i h2
        cases h
        refine ⟨?_, rfl, ?_⟩
        · simpa using h1
        · simpa using h2
      · cases h
  · cases h

/-- **A call is accepted only with all that is required, with nothing that is not known, and with values that the
published metas accept; each argument is then the accepted value.** -/
theorem accepted_call {e : Ext M V R} {m : Model M V} {given args : Dict String V} (h : validateCall e m given = some args) :
    (∀ k ∈ m.required, k ∈ Dict.keys given) ∧ (∀ k ∈ Dict.keys given, k ∈ Dict.keys m.elements) ∧
    (∀ k, k ∉ Dict.keys given → Dict.get? args k = none) ∧
    (∀ k v, Dict.get? given k = some v → ∃ w v', Dict.get? m.elements k = some w ∧ e.validate w v = some v' ∧
      Dict.get? args k = some v') := by
  obtain ⟨h1, h2, h3⟩ := validateCall_parts h
  refine ⟨?_, h1, ?_, ?_⟩
  · intro k hk
    by_cases hg : k ∈ Dict.keys given
    · exact hg
    · have := (validateLoop_get e given m.elements args h2 k).1 (Dict.get?_none_iff.2 hg)
      exact absurd (h3 k hk) (Dict.get?_none_iff.1 this)
  · intro k hk
    exact (validateLoop_get e given m.elements args h2 k).1 (Dict.get?_none_iff.2 hk)
  · intro k v hv
    obtain ⟨w, hw⟩ := (mem_keys_iff _ _).1 (h1 k ((mem_keys_iff _ _).2 ⟨v, hv⟩))
    obtain ⟨v', h4, h5⟩ := (validateLoop_get e given m.elements args h2 k).2.1 v w hv hw
    exact ⟨w, v', hw, h4, h5⟩

/-- a call that has all of it is accepted -/
theorem validateLoop_total (e : Ext M V R) (given : Dict String V) : ∀ (el : Dict String M),
    (∀ k v w, Dict.get? given k = some v → (k, w) ∈ el → (e.validate w v).isSome) → ∃ args, validateLoop e given el = some args := by
  intro el
  induction el with
  | nil => intro _; exact ⟨[], rfl⟩
  | cons c el ih =>
    obtain ⟨k', m⟩ := c
    intro h
    obtain ⟨r, hr⟩ := ih (fun k v w hv hw => h k v w hv (List.mem_cons_of_mem _ hw))
    rw [validateLoop]
    cases hg : Dict.get? given k' with
    | none => exact ⟨r, hr⟩
    | some v =>
      obtain ⟨v', hv'⟩ := Option.isSome_iff_exists.1 (h k' v m hg List.mem_cons_self)
      exact ⟨(k', v') :: r, by simp only [hv', hr]⟩

theorem setdefault_get : ∀ (ds kw : Dict String V) (k : String),
    Dict.get? (setdefault kw ds) k = (Dict.get? kw k).or (Dict.get? ds k) := by
  intro ds
  induction ds with
  | nil => intro kw k; simp [setdefault]
  | cons c ds ih =>
    obtain ⟨k', d⟩ := c
    intro kw k
    rw [setdefault, ih, Dict.get?_cons]
    by_cases hk : k' ∈ Dict.keys kw
    · rw [if_pos hk]
      by_cases he : k' = k
      · subst he
        obtain ⟨v, hv⟩ := (mem_keys_iff _ _).1 hk
        rw [if_pos rfl, hv]; rfl
      · rw [if_neg he]
    · rw [if_neg hk, Dict.get?_set]
      by_cases he : k' = k
      · subst he
        rw [if_pos rfl, if_pos rfl, Dict.get?_none_iff.2 hk]; rfl
      · rw [if_neg he, if_neg he]

theorem passed_get {offer : List String × Dict String V} {demanded : List String} {d : Dict String V}
    (h : passed offer demanded = some d) (k : String) (hk : k ∈ demanded) : Dict.get? d k = Dict.get? offer.2 k := by
  unfold passed at h
  split at h
  · rename_i hall
    cases h
    clear hall
    induction demanded with
    | nil => cases hk
    | cons k' ks ih =>
      rw [List.filterMap_cons]
      by_cases he : k' = k
      · subst he
        cases ho : Dict.get? offer.2 k' with
        | none =>
          simp only [Option.map_none]
          by_cases hk' : k' ∈ ks
          · rw [ih hk', ho]
          · refine Dict.get?_none_iff.2 ?_
            intro hm
            obtain ⟨c, hc, hce⟩ := List.mem_map.1 hm
            obtain ⟨k2, hk2, h3⟩ := List.mem_filterMap.1 hc
            cases h4 : Dict.get? offer.2 k2 with
            | none => rw [h4] at h3; cases h3
            | some v => rw [h4] at h3; cases h3; subst hce; exact hk' hk2
        | some v =>
          simp only [Option.map_some]
          rw [Dict.get?_cons, if_pos rfl]
      · have hk' : k ∈ ks := (List.mem_cons.1 hk).resolve_left (fun h => he h.symm)
        cases ho : Dict.get? offer.2 k' with
        | none => simp only [Option.map_none]; exact ih hk'
        | some v =>
          simp only [Option.map_some]
          rw [Dict.get?_cons, if_neg he]
          exact ih hk'
  · cases h

/-- **In an accepted call, a part is given all that its function has asked for: the value of the client as the published
meta has accepted it, and otherwise the published default.** `demanded` are the parameters of the function. Missing: a
parameter that no part requires and for which no part has a default (in Python, one whose default is None) has to be in
the call. -/
theorem part_gets_its_parameters_partial {e : Ext M V R} {base : Dict String M × List String} {infos : List (Info M V)}
    {m : Model M V} (h : update e base infos = some m) (hwf : ∀ i ∈ infos, WellFormed i) {given args : Dict String V}
    (hc : validateCall e m given = some args) {demanded : List String}
    (hd : ∀ k ∈ demanded, k ∈ ignored ∨ k ∈ base.2 ∨ Needed infos k ∨ HasDefault infos k ∨ k ∈ Dict.keys given) :
    ∃ d, passed (offered m args) demanded = some d ∧
      ∀ k ∈ demanded, k ∉ ignored → ∃ v, Dict.get? d k = some v ∧
        ((∃ g w, Dict.get? given k = some g ∧ Dict.get? m.elements k = some w ∧ e.validate w g = some v) ∨
         (k ∉ Dict.keys given ∧ Dict.get? m.defaults k = some v)) := by
  obtain ⟨c1, c2, c3, c4⟩ := accepted_call hc
  have key : ∀ k ∈ demanded, k ∉ ignored → ∃ v, Dict.get? (setdefault args m.defaults) k = some v ∧
        ((∃ g w, Dict.get? given k = some g ∧ Dict.get? m.elements k = some w ∧ e.validate w g = some v) ∨
         (k ∉ Dict.keys given ∧ Dict.get? m.defaults k = some v)) := by
    intro k hk hig
    rw [setdefault_get]
    by_cases hg : k ∈ Dict.keys given
    · obtain ⟨g, hg'⟩ := (mem_keys_iff _ _).1 hg
      obtain ⟨w, v, hw, hv, ha⟩ := c4 k g hg'
      exact ⟨v, by rw [ha]; rfl, .inl ⟨g, w, hg', hw, hv⟩⟩
    · have hnr : k ∉ m.required := fun hh => hg (c1 k hh)
      have hnb : k ∉ base.2 := fun hh => hnr (((takes_all_parameters h k).2).2 (.inl hh))
      have hnn : ¬ Needed infos k := fun hh => hnr (((takes_all_parameters h k).2).2 (.inr hh))
      have hdef : HasDefault infos k := by
        rcases hd k hk with h' | h' | h' | h' | h'
        · exact absurd h' hig
        · exact absurd h' hnb
        · exact absurd h' hnn
        · exact h'
        · exact absurd h' hg
      obtain ⟨v0, hv0⟩ := Option.isSome_iff_exists.1 ((allUpd_some e k infos none).2 (.inr hdef))
      obtain ⟨w, d, _, _, h3⟩ := (default_from_parts h hwf hig hnb hnn).2 v0 hv0
      exact ⟨d, by rw [c3 k hg, h3]; rfl, .inr ⟨hg, h3⟩⟩
  have hall : demanded.all (fun k => decide (k ∈ (offered m args).1 ++ Dict.keys (offered m args).2)) = true := by
    rw [List.all_eq_true]
    intro k hk
    rw [decide_eq_true_eq, List.mem_append]
    by_cases hig : k ∈ ignored
    · exact .inl hig
    · obtain ⟨v, hv, _⟩ := key k hk hig
      exact .inr ((mem_keys_iff _ _).2 ⟨v, hv⟩)
  have hp : passed (offered m args) demanded =
      some (demanded.filterMap (fun k => (Dict.get? (offered m args).2 k).map (fun v => (k, v)))) := by
    unfold passed; rw [if_pos hall]
  refine ⟨_, hp, ?_⟩
  intro k hk hig
  obtain ⟨v, hv, hv'⟩ := key k hk hig
  exact ⟨v, by rw [passed_get hp k hk]; exact hv, hv'⟩

/-- **A part that asks for a parameter that nobody has makes the call fail** (hook.py 141-143), and the function is not
called with less than it asked for. -/
theorem unoffered_fails {m : Model M V} {args : Dict String V} {demanded : List String} {k : String} (hk : k ∈ demanded)
    (hig : k ∉ ignored) (ha : Dict.get? args k = none) (hd : Dict.get? m.defaults k = none) :
    passed (offered m args) demanded = none := by
  unfold passed
  rw [if_neg]
  intro hh
  have := List.all_eq_true.1 hh k hk
  rw [decide_eq_true_eq, List.mem_append] at this
  rcases this with h | h
  · exact hig h
  · obtain ⟨v, hv⟩ := (mem_keys_iff _ _).1 h
    have hs : (offered m args).2 = setdefault args m.defaults := rfl
    rw [hs, setdefault_get, ha, hd] at hv
    cases hv

/-! ### the infos of functions -/

theorem createInfo_fold_keys (sig : List (String × M × Option (Option V))) : ∀ (d : Dict String M) (k : String),
    k ∈ Dict.keys (sig.foldl (fun d p => Dict.set d p.1 p.2.1) d) ↔ k ∈ Dict.keys d ∨ k ∈ sig.map (·.1) := by
  induction sig with
  | nil => intro d k; simp
  | cons p sig ih =>
    intro d k
    rw [List.foldl_cons, ih, mem_keys_set, List.map_cons, List.mem_cons]
    constructor
    · rintro ((h | h) | h)
      · exact .inr (.inl h)
      · exact .inl h
      · exact .inr (.inr h)
    · rintro (h | h | h)
      · exact .inl (.inr h)
      · exact .inl (.inl h)
      · exact .inr h

theorem createInfo_fold_nodup (sig : List (String × M × Option (Option V))) : ∀ (d : Dict String M), (Dict.keys d).Nodup →
    (Dict.keys (sig.foldl (fun d p => Dict.set d p.1 p.2.1) d)).Nodup := by
  induction sig with
  | nil => intro d h; exact h
  | cons p sig ih => intro d h; rw [List.foldl_cons]; exact ih _ (Dict.nodup_set h _ _)

theorem createInfo_wellFormed (sig : List (String × M × Option (Option V))) : WellFormed (createInfo sig) := by
  constructor
  · exact createInfo_fold_nodup _ [] List.nodup_nil
  · intro k hk
    refine (createInfo_fold_keys _ [] k).2 (.inr ?_)
    obtain ⟨p, hp, h⟩ := List.mem_filterMap.1 hk
    obtain ⟨k', w, o⟩ := p
    cases o with
    | none => cases h; exact List.mem_map.2 ⟨_, hp, rfl⟩
    | some o => cases h

theorem setDef_mem (p : String × M × Option (Option V)) (d : Dict String V) (k : String) :
    k ∈ Dict.keys (match p.2.2 with | some (some v) => Dict.set d p.1 v | _ => d) ↔
      k ∈ Dict.keys d ∨ (p.1 = k ∧ ∃ v, p.2.2 = some (some v)) := by
  obtain ⟨k', w, o⟩ := p
  rcases o with _ | _ | v
  · simp
  · simp
  · simp only
    rw [mem_keys_iff, Dict.get?_set]
    by_cases h : k' = k
    · subst h; simp
    · rw [if_neg h, ← mem_keys_iff]
      simp [h]

theorem createInfo_defaults_keys (sig : List (String × M × Option (Option V))) : ∀ (d : Dict String V) (k : String),
    k ∈ Dict.keys (sig.foldl (fun d p => match p.2.2 with | some (some v) => Dict.set d p.1 v | _ => d) d) ↔
      k ∈ Dict.keys d ∨ ∃ p ∈ sig, p.1 = k ∧ ∃ v, p.2.2 = some (some v) := by
  induction sig with
  | nil => intro d k; simp
  | cons p sig ih =>
    intro d k
    rw [List.foldl_cons, ih, setDef_mem]
    simp only [List.mem_cons]
    constructor
    · rintro ((h | h) | ⟨q, hq, h⟩)
      · exact .inl h
      · exact .inr ⟨p, .inl rfl, h⟩
      · exact .inr ⟨q, .inr hq, h⟩
    · rintro (h | ⟨q, rfl | hq, h⟩)
      · exact .inl (.inl h)
      · exact .inl (.inr h)
      · exact .inr ⟨q, hq, h⟩

/-- **A part whose function has reported its own parameters (`ConfigureHook.create_info`) is called with all of them in
every accepted call**, as long as each parameter that has None as default is in the call. -/
theorem reporting_part_served_partial {e : Ext M V R} {base : Dict String M × List String} {infos : List (Info M V)}
    {m : Model M V} (h : update e base infos = some m) (hwf : ∀ i ∈ infos, WellFormed i) {given args : Dict String V}
    (hc : validateCall e m given = some args) {sig : List (String × M × Option (Option V))} (hi : createInfo sig ∈ infos)
    (hnone : ∀ p ∈ sig, p.2.2 = some none → p.1 ∈ Dict.keys given) :
    ∃ d, passed (offered m args) (sig.map (·.1)) = some d ∧
      ∀ k ∈ sig.map (·.1), k ∉ ignored → ∃ v, Dict.get? d k = some v ∧
        ((∃ g w, Dict.get? given k = some g ∧ Dict.get? m.elements k = some w ∧ e.validate w g = some v) ∨
         (k ∉ Dict.keys given ∧ Dict.get? m.defaults k = some v)) := by
  refine part_gets_its_parameters_partial h hwf hc ?_
  intro k hk
  by_cases hig : k ∈ ignored
  · exact .inl hig
  · obtain ⟨p, hp, rfl⟩ := List.mem_map.1 hk
    have hown : p ∈ sig.filter (fun p => decide (p.1 ∉ ignored)) := List.mem_filter.2 ⟨hp, decide_eq_true hig⟩
    cases ho : p.2.2 with
    | none =>
      refine .inr (.inr (.inl ⟨hig, createInfo sig, hi, ?_⟩))
      exact List.mem_filterMap.2 ⟨p, hown, by rw [ho]⟩
    | some o =>
      cases o with
      | none => exact .inr (.inr (.inr (.inr (hnone p hp ho))))
      | some v =>
        refine .inr (.inr (.inr (.inl ⟨createInfo sig, hi, ?_, ?_⟩)))
        · exact (createInfo_fold_keys _ [] _).2 (.inr (List.mem_map.2 ⟨p, hown, rfl⟩))
        · exact (createInfo_defaults_keys _ [] _).2 (.inr ⟨p, hown, rfl, v, ho⟩)

/-! ### histories -/

/-- reports of parts, one after the other -/
def reports (e : Ext M V R) (base : Dict String M × List String) (parts : List String) :
    State M V → List (String × Info M V) → State M V
  | s, [] => s
  | s, r :: rs => reports e base parts (report e base parts s r.1 r.2).1 rs

theorem refresh_infos (e : Ext M V R) (base : Dict String M × List String) (parts : List String) (s : State M V) :
    (refresh e base parts s).1.infos = s.infos := by
  unfold refresh
  split
  · split <;> rfl
  · rfl

/-- **Of each part the last report counts, whatever the order of the reports.** -/
theorem last_report_counts (e : Ext M V R) (base : Dict String M × List String) (parts : List String) :
    ∀ (rs : List (String × Info M V)) (s : State M V) (p : String),
    Dict.get? (reports e base parts s rs).infos p =
      ((rs.filterMap (fun r => if r.1 = p then some r.2 else none)).getLast?).or (Dict.get? s.infos p) := by
  intro rs
  induction rs with
  | nil => intro s p; rfl
  | cons r rs ih =>
    intro s p
    rw [reports, ih]
    unfold report
    rw [refresh_infos]
    simp only [List.filterMap_cons]
    rw [Dict.get?_set]
    by_cases h : r.1 = p
    · rw [if_pos h, if_pos h]
      simp only [List.getLast?_cons]
      cases (List.filterMap (fun r => if r.1 = p then some r.2 else none) rs).getLast? <;> simp
    · rw [if_neg h, if_neg h]

/-- what a part reported last -/
def lastReport (rs : List (String × Info M V)) (p : String) : Option (Info M V) :=
  (rs.filterMap (fun r => if r.1 = p then some r.2 else none)).getLast?

theorem reports_append (e : Ext M V R) (base : Dict String M × List String) (parts : List String) :
    ∀ (rs rs' : List (String × Info M V)) (s : State M V),
    reports e base parts s (rs ++ rs') = reports e base parts (reports e base parts s rs) rs' := by
  intro rs
  induction rs with
  | nil => intro rs' s; rfl
  | cons r rs ih => intro rs' s; rw [List.cons_append, reports, reports, ih]

theorem reports_process (e : Ext M V R) (base : Dict String M × List String) (parts : List String) :
    ∀ (rs : List (String × Info M V)) (s : State M V), (reports e base parts s rs).process = s.process := by
  intro rs
  induction rs with
  | nil => intro s; rfl
  | cons r rs ih =>
    intro s
    rw [reports, ih]
    unfold report refresh
    simp only
    split
    · split <;> rfl
    · rfl

/-- **After any reports, the last of which does not fail, what is published is made of the last reports of all parts alone,
in the order of the parts: nothing of older reports is left, and the order of the reports does not matter.** -/
theorem published_from_last_reports (e : Ext M V R) (base : Dict String M × List String) (parts : List String)
    (rs : List (String × Info M V)) (part : String) (i : Info M V)
    (hok : (report e base parts (reports e base parts ⟨[], none, true⟩ rs) part i).2 = true) :
    ∃ m, update e base (parts.filterMap (lastReport (rs ++ [(part, i)]))) = some m ∧
      (reports e base parts ⟨[], none, true⟩ (rs ++ [(part, i)])).published = some m := by
  have hinf : ∀ p, Dict.get? (reports e base parts (⟨[], none, true⟩ : State M V) (rs ++ [(part, i)])).infos p =
      lastReport (rs ++ [(part, i)]) p := by
    intro p
    rw [last_report_counts]
    exact Option.or_none
  have hp := reports_process e base parts rs (⟨[], none, true⟩ : State M V)
  rw [reports_append] at hinf ⊢
  generalize reports e base parts (⟨[], none, true⟩ : State M V) rs = s at hinf hok hp ⊢
  rw [reports, reports] at hinf ⊢
  have hfm : partInfos parts (Dict.set s.infos part i) = parts.filterMap (lastReport (rs ++ [(part, i)])) := by
    unfold partInfos
    congr 1
    funext p
    rw [← hinf p]
    unfold report
    rw [refresh_infos]
  rw [← hfm]
  unfold report refresh at hok ⊢
  simp only [hp, if_true] at hok ⊢
  cases hu : update e base (partInfos parts (Dict.set s.infos part i)) with
  | none => rw [hu] at hok; cases hok
  | some m => exact ⟨m, rfl, rfl⟩

/-- a report that fails leaves what was published -/
theorem failed_report_keeps (e : Ext M V R) (base : Dict String M × List String) (parts : List String)
    (s : State M V) (part : String) (i : Info M V) (hno : (report e base parts s part i).2 = false) :
    (report e base parts s part i).1.published = s.published := by
  unfold report refresh at hno ⊢
  simp only at hno ⊢
  cases hp : s.process with
  | false => rfl
  | true =>
    simp only [hp, if_true] at hno ⊢
    cases hu : update e base (partInfos parts (Dict.set s.infos part i)) with
    | none => rfl
    | some m => rw [hu] at hno; cases hno

/-- a report before the controller has started is noted and cannot fail -/
theorem early_report (e : Ext M V R) (base : Dict String M × List String) (parts : List String) (s : State M V) (part : String)
    (i : Info M V) (hp : s.process = false) :
    report e base parts s part i = ({ s with infos := Dict.set s.infos part i }, true) := by
  unfold report refresh
  simp only [hp, Bool.false_eq_true, if_false]

/-! ### witnesses and examples -/

/-- metas: a number up to a bound, or (with 1) a table that is merged; values are lists of rows -/
def ex : Ext (Nat × Nat) (List Nat) Nat :=
  { validate := fun m v => if v.all (· ≤ m.1) then some v else none
    merged := fun m => m.2 == 1
    rows := id, fromRows := id, readonly := id }

def exBase : Dict String (Nat × Nat) × List String :=
  ([("generator", (9, 0)), ("axesToMove", (9, 0)), ("breakpoints", (9, 0))], ["generator"])

/-- `def on_configure(self, context, exposure, label=3, detectors=[1])`, `def ...(self, detectors=[2, 3], k=None)` -/
def exA : List (String × (Nat × Nat) × Option (Option (List Nat))) :=
  [("context", (0, 0), none), ("exposure", (5, 0), none), ("label", (9, 0), some (some [3])), ("detectors", (9, 1), some (some [1]))]
def exB : List (String × (Nat × Nat) × Option (Option (List Nat))) :=
  [("detectors", (9, 1), some (some [2, 3])), ("k", (9, 0), some none)]

def exModel : Option (Model (Nat × Nat) (List Nat)) := update ex exBase [createInfo exA, createInfo exB]

example : exModel.map (fun m => (Dict.keys m.elements, m.required, m.defaults)) =
    some (["generator", "exposure", "axesToMove", "breakpoints", "label", "detectors", "k"], ["generator", "exposure"],
      [("label", [3]), ("detectors", [1, 2, 3])]) := by decide +kernel

/-- the call of a client with a generator, an exposure and a `k` -/
example : (exModel.bind (fun m => (validateCall ex m [("k", [4]), ("exposure", [2]), ("generator", [7])]).bind
    (fun args => passed (offered m args) (exA.map (·.1))))) =
    some [("exposure", [2]), ("label", [3]), ("detectors", [1, 2, 3])] := by decide +kernel

/-- refused: no exposure; a parameter that nobody has; a value that is too big -/
example : (exModel.map (fun m => [[("generator", [7])], [("generator", [7]), ("exposure", [2]), ("x", [])],
    [("generator", [7]), ("exposure", [6])]].map (fun g => (validateCall ex m g).isSome))) = some [false, false, false] := by decide +kernel

/-- **A parameter with None as its default is not optional after all**: the call without it is accepted, but the part that
has it (`k=None`) then fails with an AssertionError instead of being called with None. -/
theorem none_default_not_supplied : ∃ m args, exModel = some m ∧
    validateCall ex m [("generator", [7]), ("exposure", [2])] = some args ∧
    "k" ∉ m.required ∧ passed (offered m args) (exB.map (·.1)) = none := by
  refine ⟨(exModel.get (by decide +kernel)), ((validateCall ex (exModel.get (by decide +kernel)) [("generator", [7]), ("exposure", [2])]).get (by decide +kernel)), ?_, ?_, ?_, ?_⟩ <;>
    decide +kernel

/-- **Two parts with metas that differ for one parameter: the last one is published**, so the part with the narrower one
is given a value that its own meta refuses. -/
theorem conflicting_meta_not_checked : ∃ (i j : Info (Nat × Nat) (List Nat)) (m : Model (Nat × Nat) (List Nat)) (args d : Dict String (List Nat)),
    WellFormed i ∧ WellFormed j ∧ update ex exBase [i, j] = some m ∧ validateCall ex m [("generator", [7]), ("n", [8])] = some args ∧
    passed (offered m args) ["n"] = some d ∧ Dict.get? d "n" = some [8] ∧
    (∃ w, Dict.get? i.metas "n" = some w ∧ ex.validate w [8] = none) := by
  refine ⟨createInfo [("n", (4, 0), some (some [1]))], createInfo [("n", (9, 0), some (some [1]))],
    ((update ex exBase [createInfo [("n", (4, 0), some (some [1]))], createInfo [("n", (9, 0), some (some [1]))]]).get (by decide +kernel)),
    [("generator", [7]), ("n", [8])], [("n", [8])], createInfo_wellFormed _, createInfo_wellFormed _, ?_, ?_, ?_, ?_, ⟨(4, 0), ?_, ?_⟩⟩ <;>
    decide +kernel

/-- two reports of one part: only the second counts -/
example : ((reports ex exBase ["A", "B"] ⟨[], none, true⟩ [("A", createInfo exA), ("B", createInfo exB), ("A", createInfo exB)]).published).map
    (fun m => (m.required, m.defaults)) = some (["generator"], [("detectors", [2, 3, 2, 3])]) := by decide +kernel

end Verif.Props.Params
