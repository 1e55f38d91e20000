import Verif.Spec.Design
import Verif.Props.Layout
/-!
Lemmas about Model/Design.lean.
-/
namespace Verif.Design
open Verif.Layout (Name Part Attr Row LayoutInfo)
open Verif.Dict

/-! ## Lists, two at a time -/

inductive All2 {α β : Type} (R : α → β → Prop) : List α → List β → Prop
  | nil : All2 R [] []
  | cons {a b l l'} : R a b → All2 R l l' → All2 R (a :: l) (b :: l')

theorem All2.comp {α β γ : Type} {R : α → β → Prop} {S : β → γ → Prop} {l1 : List α} {l2 : List β} (h : All2 R l1 l2) :
    ∀ {l3 : List γ}, All2 S l2 l3 → All2 (fun a c => ∃ b, b ∈ l2 ∧ R a b ∧ S b c) l1 l3 := by
  induction h with
  | nil => intro l3 h; cases h; exact .nil
  | @cons a b l l' r h ih =>
    intro l3 h3
    cases h3 with
    | @cons _ c _ l3 s h3 =>
      refine .cons ⟨b, List.mem_cons_self, r, s⟩ ?_
      have := ih h3
      clear h ih h3
      induction this with
      | nil => exact .nil
      | cons r h ih =>
        obtain ⟨b', h1, h2⟩ := r
        exact .cons ⟨b', List.mem_cons_of_mem _ h1, h2⟩ ih

theorem All2.imp {α β : Type} {R S : α → β → Prop} {l1 : List α} {l2 : List β} (h : All2 R l1 l2) :
    (∀ a ∈ l1, ∀ b ∈ l2, R a b → S a b) → All2 S l1 l2 := by
  induction h with
  | nil => intro _; exact .nil
  | cons r _ ih =>
    intro hi
    exact .cons (hi _ List.mem_cons_self _ List.mem_cons_self r)
      (ih fun a ha b hb => hi a (List.mem_cons_of_mem _ ha) b (List.mem_cons_of_mem _ hb))

theorem All2.map {α β γ : Type} {l1 : List α} {l2 : List β} {f : α → γ} {g : β → γ} (h : All2 (fun a b => f a = g b) l1 l2) :
    l1.map f = l2.map g := by
  induction h with
  | nil => rfl
  | cons r _ ih => rw [List.map_cons, List.map_cons, r, ih]

theorem All2.of_map {α β γ : Type} {f : α → γ} {g : β → γ} : {l1 : List α} → {l2 : List β} → l1.map f = l2.map g →
    All2 (fun a b => f a = g b) l1 l2
  | [], [], _ => .nil
  | a :: l1, b :: l2, h => by
    simp only [List.map_cons, List.cons.injEq] at h
    exact .cons h.1 (All2.of_map h.2)
  | [], b :: l2, h => by simp at h
  | a :: l1, [], h => by simp at h

theorem All2.find {α β : Type} {R : α → β → Prop} {f : α → Bool} {g : β → Bool} {l1 : List α} {l2 : List β} (h : All2 R l1 l2) :
    (∀ a b, R a b → f a = g b) →
    (l1.find? f = none ∧ l2.find? g = none) ∨ ∃ a b, l1.find? f = some a ∧ l2.find? g = some b ∧ R a b := by
  induction h with
  | nil => intro _; exact .inl ⟨rfl, rfl⟩
  | @cons a b l l' r h ih =>
    intro hfg
    simp only [List.find?_cons]
    cases hf : f a with
    | true =>
      rw [show g b = true from (hfg a b r).symm.trans hf]
      exact .inr ⟨a, b, rfl, rfl, r⟩
    | false =>
      rw [show g b = false from (hfg a b r).symm.trans hf]
      exact ih hfg

theorem All2.right {α β : Type} {P : β → Prop} {l1 : List α} {l2 : List β} (h : All2 (fun _ b => P b) l1 l2) : ∀ b ∈ l2, P b := by
  induction h with
  | nil => intro b hb; cases hb
  | cons r _ ih =>
    intro b hb
    rcases List.mem_cons.1 hb with rfl | hb
    · exact r
    · exact ih b hb

/-! ## Dictionaries that are filled -/

theorem set_new {K V : Type} [DecidableEq K] {d : Dict K V} {k : K} (v : V) (h : k ∉ d.keys) : d.set k v = d ++ [(k, v)] := by
  induction d with
  | nil => rfl
  | cons a d ih =>
    obtain ⟨k', v'⟩ := a
    have h1 : k' ≠ k ∧ k ∉ Dict.keys d := by
      have : k ∉ k' :: Dict.keys d := h
      simp only [List.mem_cons, not_or] at this
      exact ⟨Ne.symm this.1, this.2⟩
    show (if k' = k then _ else _) = _
    rw [if_neg h1.1, ih h1.2]
    rfl

theorem fill {K V α : Type} [DecidableEq K] (key : α → K) (val : α → V) (l : List α) : ∀ (d : Dict K V),
    (l.map key).Nodup → (∀ a ∈ l, key a ∉ d.keys) →
    l.foldl (fun d a => Dict.set d (key a) (val a)) d = d ++ l.map fun a => (key a, val a) := by
  induction l with
  | nil => intro d _ _; simp
  | cons a l ih =>
    intro d hn hd
    have hn' := List.nodup_cons.1 (show (key a :: l.map key).Nodup from hn)
    rw [List.foldl_cons, ih _ hn'.2, set_new _ (hd a List.mem_cons_self)]
    · simp
    · intro b hb
      rw [set_new _ (hd a List.mem_cons_self)]
      show key b ∉ List.map (·.1) (d ++ [(key a, val a)])
      rw [List.map_append, List.mem_append]
      rintro (h | h)
      · exact hd b (List.mem_cons_of_mem _ hb) h
      · simp only [List.map_cons, List.map_nil, List.mem_singleton] at h
        exact hn'.1 (h ▸ List.mem_map_of_mem hb)

theorem fill_nil {K V α : Type} [DecidableEq K] (key : α → K) (val : α → V) (l : List α) (h : (l.map key).Nodup) :
    l.foldl (fun d a => Dict.set d (key a) (val a)) ([] : Dict K V) = l.map fun a => (key a, val a) := by
  rw [fill key val l [] h (by intro a _; exact List.not_mem_nil)]
  simp

/-! ## Sorting -/

theorem insert_perm {α : Type} (le : α → α → Bool) (a : α) (l : List α) : (insert le a l).Perm (a :: l) := by
  induction l with
  | nil => exact .refl _
  | cons b l ih =>
    unfold insert
    split
    · exact .refl _
    · exact (ih.cons b).trans (.swap a b l)

theorem sort_perm {α : Type} (le : α → α → Bool) (l : List α) : (sort le l).Perm l := by
  induction l with
  | nil => exact .refl _
  | cons a l ih => exact (insert_perm le a _).trans (ih.cons a)

theorem mem_uniq {a : Nat} {l : List Nat} : a ∈ uniq l ↔ a ∈ l := by
  induction l with
  | nil => exact Iff.rfl
  | cons b l ih =>
    unfold uniq
    split
    · rename_i h
      rw [List.mem_cons, ih]
      constructor
      · exact .inr
      · rintro (rfl | h')
        · exact ih.1 (by simpa using h)
        · exact h'
    · rw [List.mem_cons, List.mem_cons, ih]

theorem nodup_uniq (l : List Nat) : (uniq l).Nodup := by
  induction l with
  | nil => exact List.nodup_nil
  | cons b l ih =>
    unfold uniq
    split
    · exact ih
    · rename_i h
      exact List.nodup_cons.2 ⟨by simpa using h, ih⟩

theorem insert_sorted {a : Nat} {l : List Nat} (h : l.Pairwise (· < ·)) (ha : a ∉ l) :
    (insert (fun a b => decide (a ≤ b)) a l).Pairwise (· < ·) := by
  induction l with
  | nil => exact List.pairwise_singleton _ _
  | cons b l ih =>
    obtain ⟨h1, h2⟩ := List.pairwise_cons.1 h
    have ha' : a ≠ b ∧ a ∉ l := by simpa [List.mem_cons, not_or] using ha
    unfold insert
    split
    · rename_i hle
      simp only [decide_eq_true_eq] at hle
      refine List.pairwise_cons.2 ⟨fun c hc => ?_, h⟩
      rcases List.mem_cons.1 hc with rfl | hc
      · omega
      · have := h1 c hc; omega
    · rename_i hle
      simp only [decide_eq_true_eq] at hle
      refine List.pairwise_cons.2 ⟨fun c hc => ?_, ih h2 ha'.2⟩
      rcases List.mem_cons.1 ((insert_perm _ a l).mem_iff.1 hc) with rfl | hc
      · omega
      · exact h1 c hc

theorem sort_sorted {l : List Nat} (h : l.Nodup) : (sort (fun a b => decide (a ≤ b)) l).Pairwise (· < ·) := by
  induction l with
  | nil => exact List.Pairwise.nil
  | cons a l ih =>
    obtain ⟨h1, h2⟩ := List.nodup_cons.1 h
    exact insert_sorted (ih h2) fun hc => h1 ((sort_perm _ l).mem_iff.1 hc)

/-! ## One child -/

theorem puts_facts {K : Kind} {n : Name} {fields : List Name} {saved : Dict Name String} (ht : Tidy K n fields saved) (i : Nat)
    (kvs : List (Name × String)) : ∀ (c : Dict Name Attr), c.keys = fields → (kvs.map (·.1)).Nodup →
    (∀ kv ∈ kvs, saved.get? kv.1 = some kv.2 ∧ kv.1 ∈ fields ∧ K.tag n kv.1 = some i) →
    ∃ c', puts K n c kvs = some c' ∧ c'.keys = fields ∧ (∀ kv ∈ kvs, (c'.get? kv.1).map (·.value) = some kv.2) ∧
      ∀ j, j ∉ kvs.map (·.1) → c'.get? j = c.get? j ∨ (j ∈ saved.keys ∧ ∃ i', K.tag n j = some i' ∧ i < i') := by
  induction kvs with
  | nil => intro c hc _ _; exact ⟨c, rfl, hc, by simp, fun _ _ => .inl rfl⟩
  | cons kv kvs ih =>
    intro c hc hn hk
    obtain ⟨k, v⟩ := kv
    have hn' := List.nodup_cons.1 (show (k :: kvs.map (·.1)).Nodup from hn)
    obtain ⟨h1, h2, h3⟩ := hk (k, v) List.mem_cons_self
    obtain ⟨c1, p1, p2, p3, p4⟩ := ht c hc k v h1 h2
    obtain ⟨c2, q1, q2, q3, q4⟩ := ih c1 p2 hn'.2 fun kv h => hk kv (List.mem_cons_of_mem _ h)
    refine ⟨c2, ?_, q2, ?_, ?_⟩
    · unfold puts
      simp only [p1]
      exact q1
    · intro kv hkv
      rcases List.mem_cons.1 hkv with rfl | h
      · rcases q4 k hn'.1 with h | ⟨_, i', h, hlt⟩
        · rw [h]; exact p3
        · rw [h3] at h
          injection h with h
          omega
      · exact q3 kv h
    · intro j hj
      have hj' : j ≠ k ∧ j ∉ kvs.map (·.1) := by
        have : j ∉ k :: kvs.map (·.1) := hj
        simpa only [List.mem_cons, not_or] using this
      rcases q4 j hj'.2 with h | h
      · rcases p4 j hj'.1 with h' | ⟨h', i1, i2, e1, e2, e3⟩
        · exact .inl (h.trans h')
        · rw [h3] at e1
          injection e1 with e1
          subst e1
          exact .inr ⟨h', i2, e2, e3⟩
      · exact .inr h

theorem iterate_facts {K : Kind} {n : Name} {fields : List Name} {saved : Dict Name String} (ht : Tidy K n fields saved)
    {es : List (Nat × Name × String)} (hes : (es.map (·.2.1)).Nodup)
    (he : ∀ e ∈ es, saved.get? e.2.1 = some e.2.2 ∧ e.2.1 ∈ fields ∧ K.tag n e.2.1 = some e.1) (is : List Nat) :
    ∀ (c : Dict Name Attr), c.keys = fields → is.Pairwise (· < ·) →
    (∀ e ∈ es, e.1 ∉ is → (c.get? e.2.1).map (·.value) = some e.2.2 ∧ ∀ i ∈ is, e.1 < i) →
    ∃ c', iterate K n es c is = some c' ∧ c'.keys = fields ∧ (∀ e ∈ es, (c'.get? e.2.1).map (·.value) = some e.2.2) ∧
      ∀ j, j ∉ saved.keys → c'.get? j = c.get? j := by
  induction is with
  | nil =>
    intro c hc _ hpre
    exact ⟨c, rfl, hc, fun e h => (hpre e h (by simp)).1, fun _ _ => rfl⟩
  | cons i is ih =>
    intro c hc hs hpre
    obtain ⟨hs1, hs2⟩ := List.pairwise_cons.1 hs
    have hmem : ∀ kv, kv ∈ toSet c es i ↔ (i, kv) ∈ es ∧ (c.get? kv.1).map (·.value) ≠ some kv.2 := by
      intro kv
      unfold toSet
      rw [List.mem_filterMap]
      constructor
      · rintro ⟨e, h1, h2⟩
        split at h2
        · rename_i h3
          injection h2 with h2
          subst h2
          rw [← h3.1]
          exact ⟨h1, h3.2⟩
        · cases h2
      · rintro ⟨h1, h2⟩
        exact ⟨(i, kv), h1, by rw [if_pos ⟨rfl, h2⟩]⟩
    have hnd : ((toSet c es i).map (·.1)).Nodup := by
      unfold toSet
      clear hpre hmem he ih
      induction es with
      | nil => exact List.nodup_nil
      | cons e es ih2 =>
        have h1 := List.nodup_cons.1 (show (e.2.1 :: es.map (·.2.1)).Nodup from hes)
        rw [List.filterMap_cons]
        split
        · exact ih2 h1.2
        · rename_i b hb
          split at hb
          · injection hb with hb
            subst hb
            rw [List.map_cons]
            refine List.nodup_cons.2 ⟨fun hc => ?_, ih2 h1.2⟩
            obtain ⟨x, hx, hx2⟩ := List.mem_map.1 hc
            obtain ⟨e', he', hx'⟩ := List.mem_filterMap.1 hx
            split at hx'
            · injection hx' with hx'
              subst hx'
              exact h1.1 (List.mem_map.2 ⟨e', he', hx2⟩)
            · cases hx'
          · cases hb
    have hperm := sort_perm (fun a b : Name × String => decide (a.1 ≤ b.1)) (toSet c es i)
    obtain ⟨c1, p1, p2, p3, p4⟩ := puts_facts ht i _ c hc ((hperm.map (·.1)).nodup_iff.2 hnd) (fun kv hkv =>
      he (i, kv) ((hmem kv).1 (hperm.mem_iff.1 hkv)).1)
    have hstep : ∀ e ∈ es, e.1 ∉ is → (c1.get? e.2.1).map (·.value) = some e.2.2 ∧ ∀ i ∈ is, e.1 < i := by
      intro e hee hei
      obtain ⟨ei, k, v⟩ := e
      by_cases h : ei = i
      · subst h
        refine ⟨?_, hs1⟩
        by_cases hc1 : (c.get? k).map (·.value) = some v
        · rcases p4 k (fun hk => by
            obtain ⟨x, hx, hx2⟩ := List.mem_map.1 hk
            obtain ⟨hx3, hx4⟩ := (hmem x).1 (hperm.mem_iff.1 hx)
            have e1 := (he _ hx3).1
            have e2 := (he _ hee).1
            subst hx2
            rw [e1] at e2
            injection e2 with e2
            exact hx4 (e2 ▸ hc1)) with h1 | ⟨_, i', h1, h2⟩
          · show (c1.get? k).map _ = _
            rw [h1]; exact hc1
          · rw [(he _ hee).2.2] at h1
            injection h1 with h1
            omega
        · exact p3 (k, v) (hperm.mem_iff.2 ((hmem (k, v)).2 ⟨hee, hc1⟩))
      · have hnot : ei ∉ i :: is := by
          simp only [List.mem_cons, not_or]
          exact ⟨h, hei⟩
        obtain ⟨h1, h2⟩ := hpre _ hee hnot
        refine ⟨?_, fun i' hi' => h2 i' (List.mem_cons_of_mem _ hi')⟩
        have hlt := h2 i List.mem_cons_self
        rcases p4 k (fun hk => by
            obtain ⟨x, hx, hx2⟩ := List.mem_map.1 hk
            obtain ⟨hx3, hx4⟩ := (hmem x).1 (hperm.mem_iff.1 hx)
            have e1 := (he _ hx3).2.2
            have e2 := (he _ hee).2.2
            subst hx2
            rw [e1] at e2
            injection e2 with e2
            exact h e2.symm) with h3 | ⟨_, i', h3, h4⟩
        · show (c1.get? k).map _ = _
          rw [h3]; exact h1
        · rw [(he _ hee).2.2] at h3
          injection h3 with h3
          simp only at hlt h3
          omega
    obtain ⟨c2, q1, q2, q3, q4⟩ := ih c1 p2 hs2 hstep
    refine ⟨c2, ?_, q2, q3, fun j hj => ?_⟩
    · unfold iterate
      simp only [p1]
      exact q1
    · rw [q4 j hj]
      rcases p4 j (fun hk => by
        obtain ⟨x, hx, hx2⟩ := List.mem_map.1 hk
        have e1 := (he _ ((hmem x).1 (hperm.mem_iff.1 hx)).1).1
        subst hx2
        exact hj (List.mem_map.2 ⟨_, get?_mem e1, rfl⟩)) with h | ⟨h, _⟩
      · exact h
      · exact absurd h hj

theorem onLoad_facts {K : Kind} {p : Part} {saved : Dict Name String} (ht : Tidy K p.name p.child.keys saved)
    (hs : saved.keys.Nodup) :
    ∃ c', onLoad K p saved = some { p with child := c' } ∧ c'.keys = p.child.keys ∧
      (∀ k v, saved.get? k = some v → k ∈ p.child.keys → (K.tag p.name k).isSome → (c'.get? k).map (·.value) = some v) ∧
      ∀ j, j ∉ saved.keys → c'.get? j = p.child.get? j := by
  have hmem : ∀ e, e ∈ entries K p saved ↔ e.2 ∈ saved ∧ (p.child.get? e.2.1).isSome ∧ K.tag p.name e.2.1 = some e.1 := by
    intro e
    unfold entries
    rw [List.mem_filterMap]
    constructor
    · rintro ⟨kv, h1, h2⟩
      split at h2
      · rename_i a i ha hi
        injection h2 with h2
        subst h2
        exact ⟨h1, by rw [ha]; rfl, hi⟩
      · cases h2
    · rintro ⟨h1, h2, h3⟩
      refine ⟨e.2, h1, ?_⟩
      obtain ⟨a, ha⟩ := Option.isSome_iff_exists.1 h2
      rw [ha, h3]
  have hnd : ((entries K p saved).map (·.2.1)).Nodup := by
    have hsub : ((entries K p saved).map (·.2.1)).Sublist saved.keys := by
      unfold entries
      generalize saved = s
      induction s with
      | nil => exact List.Sublist.refl _
      | cons kv s ih =>
        rw [List.filterMap_cons]
        split
        · exact ih.cons _
        · rename_i b hb
          split at hb
          · injection hb with hb
            subst hb
            exact ih.cons_cons _
          · cases hb
    exact hsub.nodup hs
  have he : ∀ e ∈ entries K p saved, saved.get? e.2.1 = some e.2.2 ∧ e.2.1 ∈ p.child.keys ∧ K.tag p.name e.2.1 = some e.1 := by
    intro e h
    obtain ⟨h1, h2, h3⟩ := (hmem e).1 h
    exact ⟨get?_of_mem_nodup hs h1, mem_iff.1 h2, h3⟩
  obtain ⟨c', q1, q2, q3, q4⟩ := iterate_facts ht hnd he
    (sort (fun a b => decide (a ≤ b)) (uniq ((entries K p saved).map (·.1)))) p.child rfl (sort_sorted (nodup_uniq _))
    (fun e hee hc => absurd ((sort_perm _ _).mem_iff.2 (mem_uniq.2 (List.mem_map.2 ⟨e, hee, rfl⟩))) hc)
  refine ⟨c', ?_, q2, ?_, q4⟩
  · unfold onLoad
    simp only [q1]
    rfl
  · intro k v h1 h2 h3
    obtain ⟨i, hi⟩ := Option.isSome_iff_exists.1 h3
    exact q3 (i, k, v) ((hmem _).2 ⟨get?_mem h1, mem_iff.2 h2, hi⟩)

/-! ## All of them -/

theorem loadHooks_facts {K : Kind} {children : Dict Name (Dict Name String)} (ps : List Part) :
    (∀ p ∈ ps, ∃ q, onLoad K p ((children.get? p.name).getD []) = some q) →
    ∃ ps', loadHooks K children ps = some ps' ∧
      All2 (fun p q => onLoad K p ((children.get? p.name).getD []) = some q) ps ps' := by
  induction ps with
  | nil => intro _; exact ⟨[], rfl, .nil⟩
  | cons p ps ih =>
    intro h
    obtain ⟨q, hq⟩ := h p List.mem_cons_self
    obtain ⟨ps', h1, h2⟩ := ih fun p hp => h p (List.mem_cons_of_mem _ hp)
    refine ⟨q :: ps', ?_, .cons hq h2⟩
    unfold loadHooks
    simp only [hq, h1]

theorem layoutHooks_all2 {ports : Layout.Ports} {rows : List Row} : {ps ps1 : List Part} →
    Layout.layoutHooks ports rows ps = some ps1 → All2 (fun p p1 => Layout.onLayout ports rows p = some p1) ps ps1
  | [], ps1, h => by
    simp only [Layout.layoutHooks, Option.some.injEq] at h
    subst h
    exact .nil
  | p :: ps, ps1, h => by
    unfold Layout.layoutHooks at h
    cases h1 : Layout.onLayout ports rows p with
    | none => simp [h1] at h
    | some p1 =>
      cases h2 : Layout.layoutHooks ports rows ps with
      | none => simp [h1, h2] at h
      | some ps2 =>
        simp only [h1, h2, Option.some.injEq] at h
        subst h
        exact .cons h1 (layoutHooks_all2 h2)

theorem keys_update_sub {V : Type} : (d2 d : Dict Name V) → (∀ k ∈ d2.keys, k ∈ d.keys) → (d.update d2).keys = d.keys
  | [], d, _ => rfl
  | kv :: d2, d, h => by
    show Dict.keys (Dict.update (d.set kv.1 kv.2) d2) = _
    have h1 : (d.set kv.1 kv.2).keys = d.keys := by
      rw [keys_set, if_pos (h kv.1 List.mem_cons_self)]
    rw [keys_update_sub d2 _ (fun k hk => by rw [h1]; exact h k (List.mem_cons_of_mem _ hk)), h1]

theorem cuts_keys {ports : Layout.Ports} {w : Option Name} {c : Dict Name Attr} : {d : Dict Name (Tags.Port × String)} →
    {m : Dict Name Attr} → Layout.cuts ports w c d = some m → ∀ k ∈ m.keys, k ∈ c.keys
  | [], m, h, k, hk => by
    simp only [Layout.cuts, Option.some.injEq] at h
    subst h
    cases hk
  | (n, t, off) :: rest, m, h, k, hk => by
    unfold Layout.cuts at h
    cases ha : c.get? n with
    | none => simp [ha] at h
    | some a =>
      cases hr : Layout.cuts ports w c rest with
      | none => simp [ha, hr] at h
      | some m1 =>
        simp only [ha, hr, Option.some.injEq] at h
        subst h
        split at hk
        · rcases List.mem_cons.1 (show k ∈ n :: Dict.keys m1 from hk) with rfl | h1
          · exact List.mem_map.2 ⟨_, get?_mem ha, rfl⟩
          · exact cuts_keys hr k h1
        · exact cuts_keys hr k hk

theorem sever_keys {ports : Layout.Ports} {w : Option Name} {p p1 : Part} (h : Layout.sever ports w p = some p1) :
    p1.child.keys = p.child.keys := by
  have key : ∀ {x : Option (Dict Name Attr)}, (∀ m, x = some m → ∀ k ∈ m.keys, k ∈ p.child.keys) →
      (x.map fun m => ({ p with child := p.child.update m } : Part)) = some p1 → p1.child.keys = p.child.keys := by
    intro x hx h
    obtain ⟨m, h1, h2⟩ := Option.map_eq_some_iff.1 h
    rw [← h2]
    exact keys_update_sub m p.child (hx m h1)
  unfold Layout.sever at h
  split at h
  · split at h
    · injection h with h
      rw [h]
    · exact key (fun m hm => cuts_keys hm) h
  · exact key (fun m hm => cuts_keys hm) h

theorem onRow_keys {ports : Layout.Ports} {p p1 : Part} {r : Row} (h : Layout.onRow ports p r = some p1) :
    p1.child.keys = p.child.keys := by
  unfold Layout.onRow at h
  split at h
  all_goals
    obtain ⟨p2, h1, h2⟩ := Option.map_eq_some_iff.1 h
    rw [← h2]
    show p2.child.keys = _
    split at h1
    · exact sever_keys h1
    · injection h1 with h1
      rw [h1]

theorem onRows_keys {ports : Layout.Ports} : {rows : List Row} → {p p1 : Part} → Layout.onRows ports p rows = some p1 →
    p1.child.keys = p.child.keys
  | [], p, p1, h => by
    simp only [Layout.onRows, Option.some.injEq] at h
    rw [h]
  | r :: rs, p, p1, h => by
    unfold Layout.onRows at h
    cases h1 : Layout.onRow ports p r with
    | none => simp [h1] at h
    | some p2 =>
      simp only [h1] at h
      rw [onRows_keys h, onRow_keys h1]

/-- What a layout that names the part does to it -/
theorem onLayout_named {ports : Layout.Ports} {rows : List Row} {p p1 : Part} {r : Row} (h : Layout.onLayout ports rows p = some p1)
    (hr : Layout.asked rows p.name = some r) :
    p1.name = p.name ∧ p1.mri = p.mri ∧ p1.x = r.x ∧ p1.y = r.y ∧ p1.visible = some r.visible ∧ p1.child.keys = p.child.keys := by
  obtain ⟨p2, h2, e1, e2, e3, e4, e5, _, e6⟩ := Layout.onLayout_facts h
  obtain ⟨f1, f2, f3, _⟩ := Layout.onRows_frame h2
  rw [hr] at f3
  simp only [Prod.mk.injEq] at f3
  obtain ⟨g1, g2, g3⟩ := f3
  refine ⟨e1.trans f1, e2.trans f2, e3.trans g1, e4.trans g2, ?_, by rw [e5, onRows_keys h2]⟩
  rw [e6, g3]
  rfl

/-! ## What is saved of a child -/

theorem onSave_keys (K : Kind) (p : Part) : onSave K p =
    (p.child.filter fun ka => decide (ka.1 ∉ K.noSave p.name ∧ (K.tag p.name ka.1).isSome)).map fun ka => (ka.1, ka.2.value) := by
  unfold onSave
  generalize p.child = c
  induction c with
  | nil => rfl
  | cons ka c ih =>
    rw [List.filterMap_cons, List.filter_cons]
    by_cases h : ka.1 ∉ K.noSave p.name ∧ (K.tag p.name ka.1).isSome = true
    · rw [if_pos h, if_pos (by simpa using h), List.map_cons, ih]
    · rw [if_neg h, if_neg (by simpa using h), ih]

theorem onSave_nodup {K : Kind} {p : Part} (h : p.child.keys.Nodup) : (onSave K p).keys.Nodup := by
  rw [onSave_keys]
  unfold Dict.keys at h ⊢
  rw [List.map_map]
  exact (List.Sublist.map (fun x : Name × Attr => x.1) List.filter_sublist).nodup h

theorem onSave_get {K : Kind} {p : Part} (h : p.child.keys.Nodup) (k : Name) (v : String) :
    (onSave K p).get? k = some v ↔
      (p.child.get? k).map (·.value) = some v ∧ k ∉ K.noSave p.name ∧ (K.tag p.name k).isSome := by
  constructor
  · intro hg
    have hm := get?_mem hg
    rw [onSave_keys] at hm
    obtain ⟨ka, h1, h2⟩ := List.mem_map.1 hm
    injection h2 with h3 h4
    subst h3
    subst h4
    obtain ⟨h5, h6⟩ := List.mem_filter.1 h1
    rw [get?_of_mem_nodup h h5]
    simp only [decide_eq_true_eq] at h6
    exact ⟨rfl, h6⟩
  · rintro ⟨h1, h2⟩
    obtain ⟨a, h3, h4⟩ := Option.map_eq_some_iff.1 h1
    subst h4
    refine get?_of_mem_nodup (onSave_nodup h) ?_
    rw [onSave_keys]
    exact List.mem_map.2 ⟨(k, a), List.mem_filter.2 ⟨get?_mem h3, by simpa using h2⟩, rfl⟩

theorem onSave_eq_aux {P : Name → Bool} : (c c' : Dict Name Attr) → c.keys.Nodup → c'.keys = c.keys →
    (∀ k, P k = true → (c'.get? k).map (·.value) = (c.get? k).map (·.value)) →
    ((c'.filter fun ka => P ka.1).map fun ka => (ka.1, ka.2.value)) = (c.filter fun ka => P ka.1).map fun ka => (ka.1, ka.2.value)
  | [], [], _, _, _ => rfl
  | [], _ :: _, _, h, _ => by cases h
  | _ :: _, [], _, h, _ => by cases h
  | (k, a) :: c, (k', a') :: c', hn, hk, hv => by
    have hk' : k' = k ∧ Dict.keys c' = Dict.keys c := by
      have : k' :: Dict.keys c' = k :: Dict.keys c := hk
      injection this with h1 h2
      exact ⟨h1, h2⟩
    obtain ⟨rfl, hk2⟩ := hk'
    have hn' := List.nodup_cons.1 (show (k' :: Dict.keys c).Nodup from hn)
    have ih := onSave_eq_aux (P := P) c c' hn'.2 hk2 (fun j hj => by
      by_cases h : k' = j
      · subst h
        rw [get?_none_iff.2 (by rw [hk2]; exact hn'.1), get?_none_iff.2 hn'.1]
      · have := hv j hj
        rw [get?_cons, get?_cons, if_neg h, if_neg h] at this
        exact this)
    rw [List.filter_cons, List.filter_cons]
    cases hP : P k' with
    | false =>
      simp only [Bool.false_eq_true, if_false]
      exact ih
    | true =>
      have := hv k' hP
      rw [get?_cons, get?_cons, if_pos rfl, if_pos rfl] at this
      simp only [Option.map_some, Option.some.injEq] at this
      simp only [if_true, List.map_cons, ih, this]

theorem onSave_eq {K : Kind} {p p' : Part} (hn : p.child.keys.Nodup) (h1 : p'.name = p.name) (h2 : p'.child.keys = p.child.keys)
    (h3 : ∀ k, k ∉ K.noSave p.name → (K.tag p.name k).isSome → (p'.child.get? k).map (·.value) = (p.child.get? k).map (·.value)) :
    onSave K p' = onSave K p := by
  rw [onSave_keys, onSave_keys, h1]
  exact onSave_eq_aux (P := fun k => decide (k ∉ K.noSave p.name ∧ (K.tag p.name k).isSome)) p.child p'.child hn h2
    fun k hk => by
      simp only [decide_eq_true_eq] at hk
      exact h3 k hk.1 hk.2

/-! ## The own attributes -/

theorem putOwn_facts {layout : List (Name × LayoutInfo)} {saved : Dict Name String} (l : List (Name × Name × String)) :
    (∀ r ∈ l, (saved.get? r.1).isSome → shown layout r.2.1 = true) →
    putOwn layout saved l = some (l.map fun r => (r.1, r.2.1, (saved.get? r.1).getD r.2.2)) := by
  induction l with
  | nil => intro _; rfl
  | cons r l ih =>
    intro h
    obtain ⟨k, owner, v⟩ := r
    unfold putOwn
    rw [ih fun r hr => h r (List.mem_cons_of_mem _ hr)]
    cases hk : saved.get? k with
    | none => simp [hk]
    | some w =>
      have := h (k, owner, v) List.mem_cons_self (by simp [hk])
      simp only [this, if_true, List.map_cons, hk, Option.getD_some]

end Verif.Design
