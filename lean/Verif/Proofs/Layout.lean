import Verif.Spec.Layout
import Verif.Proofs.PyDict
/-!
Lemmas about the layout model.
-/
namespace Verif.Layout
open Verif.Tags (Port)

section Collect
variable {I K V : Type} [DecidableEq K]

/-- Items that have a key and a value, put into a dictionary -/
def collect (f : I → Option (K × V)) (l : List I) (d : Dict K V) : Dict K V :=
  l.foldl (fun d i => match f i with | some kv => d.set kv.1 kv.2 | none => d) d

theorem collect_cons (f : I → Option (K × V)) (i : I) (l : List I) (d : Dict K V) :
    collect f (i :: l) d = collect f l (match f i with | some kv => d.set kv.1 kv.2 | none => d) := rfl

theorem collect_sound {f : I → Option (K × V)} {l : List I} {d : Dict K V} {k : K} {v : V}
    (h : (collect f l d).get? k = some v) : (∃ i ∈ l, f i = some (k, v)) ∨ d.get? k = some v := by
  induction l generalizing d with
  | nil => exact Or.inr h
  | cons i l ih =>
    rw [collect_cons] at h
    rcases ih h with ⟨j, hj, hf⟩ | h2
    · exact Or.inl ⟨j, List.mem_cons_of_mem _ hj, hf⟩
    · cases hfi : f i with
      | none => rw [hfi] at h2; exact Or.inr h2
      | some kv =>
        rw [hfi] at h2
        dsimp only at h2
        rw [Dict.get?_set] at h2
        split at h2
        · rename_i heq
          refine Or.inl ⟨i, List.mem_cons_self, ?_⟩
          rw [hfi, ← heq, ← Option.some.inj h2]
        · exact Or.inr h2

theorem collect_some {f : I → Option (K × V)} {l : List I} {d : Dict K V} {k : K}
    (h : (d.get? k).isSome ∨ ∃ i ∈ l, ∃ v, f i = some (k, v)) : ((collect f l d).get? k).isSome := by
  induction l generalizing d with
  | nil =>
    rcases h with h | ⟨i, hi, _⟩
    · exact h
    · simp at hi
  | cons i l ih =>
    rw [collect_cons]
    apply ih
    rcases h with h | ⟨j, hj, v, hf⟩
    · left
      cases hfi : f i with
      | none => exact h
      | some kv =>
        dsimp only
        rw [Dict.get?_set]
        split
        · rfl
        · exact h
    · rcases List.mem_cons.mp hj with rfl | hj
      · left
        rw [hf]
        simp [Dict.get?_set]
      · exact Or.inr ⟨j, hj, v, hf⟩

theorem collect_iff {f : I → Option (K × V)} {l : List I} {k : K} {v : V}
    (hu : ∀ i ∈ l, ∀ j ∈ l, ∀ v w, f i = some (k, v) → f j = some (k, w) → v = w) :
    (collect f l []).get? k = some v ↔ ∃ i ∈ l, f i = some (k, v) := by
  constructor
  · intro h
    rcases collect_sound h with h | h
    · exact h
    · simp [Dict.get?] at h
  · rintro ⟨i, hi, hf⟩
    have := collect_some (d := []) (Or.inr ⟨i, hi, v, hf⟩)
    obtain ⟨w, hw⟩ := Option.isSome_iff_exists.mp this
    rcases collect_sound hw with ⟨j, hj, hg⟩ | h
    · rw [hw, hu i hi j hj v w hf hg]
    · simp [Dict.get?] at h

end Collect

def sinkKV : PortInfo → Option (Name × Port × String)
  | .sink n t off _ => some (n, t, off)
  | .source .. => none

def sourceKV : PortInfo → Option (String × Port)
  | .source _ t v => some (v, t)
  | .sink .. => none

theorem sinkPorts_eq (infos : List PortInfo) : sinkPorts infos = collect sinkKV infos [] := by
  unfold sinkPorts collect
  congr 1
  funext d i
  cases i <;> rfl

theorem sourceLookup_eq (infos : List PortInfo) : sourceLookup infos = collect sourceKV infos [] := by
  unfold sourceLookup collect
  congr 1
  funext d i
  cases i <;> rfl

theorem nodup_map_eq {A B : Type} {f : A → B} : {l : List A} → (l.map f).Nodup → ∀ a ∈ l, ∀ b ∈ l, f a = f b → a = b
  | [], _, a, ha, _, _, _ => by simp at ha
  | x :: l, h, a, ha, b, hb, he => by
    simp only [List.map_cons, List.nodup_cons] at h
    rcases List.mem_cons.mp ha with h1 | h1
    · rcases List.mem_cons.mp hb with h2 | h2
      · rw [h1, h2]
      · subst h1
        exact absurd (List.mem_map.mpr ⟨b, h2, he.symm⟩) h.1
    · rcases List.mem_cons.mp hb with h2 | h2
      · subst h2
        exact absurd (List.mem_map.mpr ⟨a, h1, he⟩) h.1
      · exact nodup_map_eq h.2 a h1 b h2 he

theorem sinkPorts_get {infos : List PortInfo} (h : GoodPorts infos) {n : Name} {t : Port} {off : String} :
    (sinkPorts infos).get? n = some (t, off) ↔ ∃ v, PortInfo.sink n t off v ∈ infos := by
  rw [sinkPorts_eq, collect_iff]
  · constructor
    · rintro ⟨i, hi, hf⟩
      cases i with
      | sink a b c v =>
        simp only [sinkKV, Option.some.injEq, Prod.mk.injEq] at hf
        obtain ⟨rfl, rfl, rfl⟩ := hf
        exact ⟨v, hi⟩
      | source => simp [sinkKV] at hf
    · rintro ⟨v, hi⟩
      exact ⟨_, hi, rfl⟩
  · intro i hi j hj v w hf hg
    cases i with
    | source => simp [sinkKV] at hf
    | sink a b c d =>
      cases j with
      | source => simp [sinkKV] at hg
      | sink a2 b2 c2 d2 =>
        simp only [sinkKV, Option.some.injEq, Prod.mk.injEq] at hf hg
        have := nodup_map_eq h.1 _ hi _ hj (by simp [PortInfo.name, hf.1, hg.1])
        simp only [PortInfo.sink.injEq] at this
        rw [← hf.2, ← hg.2, this.2.1, this.2.2.1]

theorem sourceLookup_get {infos : List PortInfo} (h : GoodPorts infos) {v : String} {t : Port} :
    (sourceLookup infos).get? v = some t ↔ ∃ n, PortInfo.source n t v ∈ infos := by
  rw [sourceLookup_eq, collect_iff]
  · constructor
    · rintro ⟨i, hi, hf⟩
      cases i with
      | source a b c =>
        simp only [sourceKV, Option.some.injEq, Prod.mk.injEq] at hf
        obtain ⟨rfl, rfl⟩ := hf
        exact ⟨a, hi⟩
      | sink => simp [sourceKV] at hf
    · rintro ⟨n, hi⟩
      exact ⟨_, hi, rfl⟩
  · intro i hi j hj a b hf hg
    cases i with
    | sink => simp [sourceKV] at hf
    | source n1 t1 v1 =>
      cases j with
      | sink => simp [sourceKV] at hg
      | source n2 t2 v2 =>
        simp only [sourceKV, Option.some.injEq, Prod.mk.injEq] at hf hg
        obtain ⟨rfl, rfl⟩ := hf
        obtain ⟨rfl, rfl⟩ := hg
        exact h.2 _ _ _ _ _ hi hj

theorem sinkPorts_sound {infos : List PortInfo} {n : Name} {t : Port} {off : String}
    (h : (sinkPorts infos).get? n = some (t, off)) : ∃ v, PortInfo.sink n t off v ∈ infos := by
  rw [sinkPorts_eq] at h
  rcases collect_sound h with ⟨i, hi, hf⟩ | h
  · cases i with
    | sink a b c v =>
      simp only [sinkKV, Option.some.injEq, Prod.mk.injEq] at hf
      obtain ⟨rfl, rfl, rfl⟩ := hf
      exact ⟨v, hi⟩
    | source => simp [sinkKV] at hf
  · simp [Dict.get?] at h

theorem sourceLookup_sound {infos : List PortInfo} {v : String} {t : Port}
    (h : (sourceLookup infos).get? v = some t) : ∃ n, PortInfo.source n t v ∈ infos := by
  rw [sourceLookup_eq] at h
  rcases collect_sound h with ⟨i, hi, hf⟩ | h
  · cases i with
    | source a b c =>
      simp only [sourceKV, Option.some.injEq, Prod.mk.injEq] at hf
      obtain ⟨rfl, rfl⟩ := hf
      exact ⟨a, hi⟩
    | sink => simp [sourceKV] at hf
  · simp [Dict.get?] at h

/-- What a dictionary holds after `update` -/
theorem update_get {K V : Type} [DecidableEq K] {d m : Dict K V} {k : K} (hn : (Dict.keys m).Nodup) :
    (d.update m).get? k = (m.get? k).or (d.get? k) := by
  induction m generalizing d with
  | nil => simp [Dict.update, Dict.get?]
  | cons a m ih =>
    obtain ⟨k2, v⟩ := a
    simp only [Dict.keys, List.map_cons, List.nodup_cons] at hn
    have : (Dict.update d ((k2, v) :: m)) = Dict.update (d.set k2 v) m := rfl
    rw [this, ih hn.2, Dict.get?_cons, Dict.get?_set]
    split
    · rename_i hk
      subst hk
      have : Dict.get? m k2 = none := Dict.get?_none_iff.mpr hn.1
      simp [this]
    · rfl

theorem cuts_keys {ports : Ports} {c : Option Name} {child : Dict Name Attr} :
    {s : Dict Name (Port × String)} → {m : Dict Name Attr} → cuts ports c child s = some m →
    (Dict.keys m).Sublist (Dict.keys s)
  | [], m, h => by simp only [cuts, Option.some.injEq] at h; subst h; exact List.Sublist.refl _
  | (n, t, off) :: s, m, h => by
    unfold cuts at h
    cases ha : child.get? n with
    | none => simp [ha] at h
    | some a =>
      cases hm : cuts ports c child s with
      | none => simp [ha, hm] at h
      | some m2 =>
        simp only [ha, hm, Option.some.injEq] at h
        have := cuts_keys hm
        subst h
        split
        · exact List.Sublist.cons₂ _ this
        · exact List.Sublist.cons _ this

theorem cuts_get {ports : Ports} {c : Option Name} {child : Dict Name Attr} :
    {s : Dict Name (Port × String)} → {m : Dict Name Attr} → (Dict.keys s).Nodup → cuts ports c child s = some m →
    ∀ n, m.get? n = match s.get? n, child.get? n with
      | some (t, off), some a => if hit ports c a.value t && a.writeable then some { a with value := off } else none
      | _, _ => none
  | [], m, _, h => by
    simp only [cuts, Option.some.injEq] at h
    subst h
    intro n
    simp [Dict.get?]
  | (n2, t, off) :: s, m, hn, h => by
    intro n
    simp only [Dict.keys, List.map_cons, List.nodup_cons] at hn
    unfold cuts at h
    cases ha : child.get? n2 with
    | none => simp [ha] at h
    | some a =>
      cases hm : cuts ports c child s with
      | none => simp [ha, hm] at h
      | some m2 =>
        simp only [ha, hm, Option.some.injEq] at h
        have ih := cuts_get hn.2 hm n
        have hk := cuts_keys hm
        have hnone : Dict.get? m2 n2 = none := by
          rw [Dict.get?_none_iff]
          intro hmem
          exact hn.1 (hk.subset hmem)
        subst h
        rw [Dict.get?_cons]
        by_cases he : n2 = n
        · subst he
          simp only [if_true, ha]
          split
          · simp [Dict.get?_cons]
          · exact hnone
        · rw [if_neg he]
          split
          · rw [Dict.get?_cons, if_neg he]; exact ih
          · exact ih

theorem collect_nodup {I K V : Type} [DecidableEq K] (f : I → Option (K × V)) (l : List I) (d : Dict K V)
    (h : (Dict.keys d).Nodup) : (Dict.keys (collect f l d)).Nodup := by
  induction l generalizing d with
  | nil => exact h
  | cons i l ih =>
    rw [collect_cons]
    apply ih
    cases f i with
    | none => exact h
    | some kv => exact Dict.nodup_set h _ _

theorem sinkPorts_nodup (infos : List PortInfo) : (Dict.keys (sinkPorts infos)).Nodup := by
  rw [sinkPorts_eq]
  exact collect_nodup _ _ _ (by simp [Dict.keys])

/-- What one `sever` does to one attribute -/
def severed (ports : Ports) (c : Option Name) (p : Part) (n : Name) : Option Attr :=
  match (sinkPorts (ports.of p.name)).get? n, p.child.get? n with
  | some (t, off), some a => if hit ports c a.value t && a.writeable then some { a with value := off } else some a
  | _, o => o

theorem sever_get {ports : Ports} {c : Option Name} {p p1 : Part} (h : sever ports c p = some p1) :
    (∀ n, p1.child.get? n = severed ports c p n) ∧ p1 = { p with child := p1.child } := by
  have main : ∀ m, cuts ports c p.child (sinkPorts (ports.of p.name)) = some m →
      p1 = { p with child := p.child.update m } →
      (∀ n, p1.child.get? n = severed ports c p n) ∧ p1 = { p with child := p1.child } := by
    intro m hm he
    subst he
    refine ⟨fun n => ?_, rfl⟩
    have hk := cuts_keys hm
    have hn := sinkPorts_nodup (ports.of p.name)
    show (Dict.update p.child m).get? n = _
    rw [update_get (hk.nodup hn), cuts_get hn hm n]
    unfold severed
    cases (sinkPorts (ports.of p.name)).get? n with
    | none => simp
    | some to =>
      cases hc : p.child.get? n with
      | none => simp
      | some a =>
        dsimp only
        split <;> simp
  unfold sever at h
  cases c with
  | none =>
    simp only [Option.map_eq_some_iff] at h
    obtain ⟨m, hm, he⟩ := h
    exact main m hm he.symm
  | some q =>
    dsimp only at h
    split at h
    · rename_i hq
      simp only [Option.some.injEq] at h
      subst h
      refine ⟨fun n => ?_, rfl⟩
      unfold severed
      cases (sinkPorts (ports.of p.name)).get? n with
      | none => cases p.child.get? n <;> rfl
      | some to =>
        cases hc : p.child.get? n with
        | none => rfl
        | some a =>
          have : hit ports (some q) a.value to.1 = false := by
            unfold hit
            dsimp only
            rw [if_neg hq.1]
            have : sourceLookup (ports.of q) = [] := by simpa using hq.2
            simp [this, Dict.get?]
          dsimp only
          simp [this]
    · simp only [Option.map_eq_some_iff] at h
      obtain ⟨m, hm, he⟩ := h
      exact main m hm he.symm

end Verif.Layout
