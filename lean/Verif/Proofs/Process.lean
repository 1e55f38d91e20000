import Verif.Model.Process
import Verif.Proofs.PyDict
set_option linter.unusedVariables false
namespace Verif.Process
open Verif

theorem mem_keys_iff {V : Type} {d : Dict String V} {k : String} : k ∈ d.keys ↔ Dict.get? d k ≠ none := by
  rw [ne_eq, Dict.get?_none_iff]; exact Decidable.not_not.symm

theorem mem_keys_some {V : Type} {d : Dict String V} {k : String} (h : k ∈ d.keys) :
    ∃ v, Dict.get? d k = some v := by
  cases hg : Dict.get? d k with
  | none => exact absurd hg (mem_keys_iff.1 h)
  | some v => exact ⟨v, rfl⟩

theorem mem_keys_of {V : Type} {d : Dict String V} {k : String} {v : V} (h : Dict.get? d k = some v) :
    k ∈ d.keys := mem_keys_iff.2 (by rw [h]; simp)

/-! ### the tree -/

/-- the parts of a block that have an mri -/
def partsOf (ctls : Ctls) (m : String) : List String :=
  match Dict.get? ctls m with
  | some c => c.parts
  | none => []

/-- the number of controllers not in the tree yet -/
def missing (ctls : Ctls) (t : Tree) : Nat := (ctls.keys.filter (fun k => !decide (k ∈ t.keys))).length

theorem filter_length_lt {A : Type} (p q : A → Bool) (l : List A) (h : ∀ a ∈ l, q a = true → p a = true)
    (x : A) (hx : x ∈ l) (hp : p x = true) (hq : q x = false) :
    (l.filter q).length < (l.filter p).length := by
  induction l with
  | nil => cases hx
  | cons a l ih =>
    have hle : ∀ (l : List A), (∀ a ∈ l, q a = true → p a = true) → (l.filter q).length ≤ (l.filter p).length := by
      intro l
      induction l with
      | nil => intro _; simp
      | cons b l ih2 =>
        intro hb
        have := ih2 (fun a ha => hb a (List.mem_cons_of_mem _ ha))
        cases hqb : q b with
        | true =>
          have := hb b List.mem_cons_self hqb
          simp [hqb, this]; omega
        | false =>
          cases hpb : p b <;> simp [hqb, hpb] <;> omega
    have hl := fun b hb => h b (List.mem_cons_of_mem _ hb)
    rcases List.mem_cons.1 hx with rfl | hx
    · have := hle l hl
      simp [hp, hq]; omega
    · have := ih hl hx
      cases hqa : q a with
      | true =>
        have := h a List.mem_cons_self hqa
        simp [hqa, this]; omega
      | false =>
        cases hpa : p a <;> simp [hqa, hpa] <;> omega

theorem missing_lt (ctls : Ctls) (t t' : Tree) (m : String) (hs : ∀ k ∈ t.keys, k ∈ t'.keys)
    (hm : m ∈ ctls.keys) (h1 : m ∉ t.keys) (h2 : m ∈ t'.keys) : missing ctls t' < missing ctls t := by
  unfold missing
  refine filter_length_lt _ _ _ ?_ m hm (by simpa using h1) (by simpa using h2)
  intro a _ ha
  have ha' : a ∉ t'.keys := by simpa using ha
  simpa using fun hc => ha' (hs a hc)

/-- the entry of `k` is complete -/
def Complete (ctls : Ctls) (s : Tree × List String) (k : String) : Prop :=
  (∃ cs, Dict.get? s.1 k = some cs ∧ (∀ p, p ∈ cs ↔ p ∈ partsOf ctls k ∧ p ∈ ctls.keys) ∧
    ∀ p ∈ cs, p ∈ s.1.keys) ∧ ∀ p ∈ partsOf ctls k, p ∈ s.2

/-- what `add_controller` guarantees -/
structure Added (ctls : Ctls) (m : String) (s s' : Tree × List String) : Prop where
  old : ∀ k ∈ s.1.keys, Dict.get? s'.1 k = Dict.get? s.1 k
  sub : ∀ k ∈ s'.1.keys, k ∈ ctls.keys
  new : ∀ k ∈ s'.1.keys, k ∉ s.1.keys → Complete ctls s' k
  isc : ∀ p ∈ s.2, p ∈ s'.2
  kids : ∀ k ∈ s'.1.keys, k ∉ s.1.keys → k = m ∨ k ∈ s'.2
  from_ : ∀ p ∈ s'.2, p ∈ s.2 ∨ ∃ k ∈ s'.1.keys, k ∉ s.1.keys ∧ p ∈ partsOf ctls k

theorem Added.keys {ctls : Ctls} {m : String} {s s' : Tree × List String} (h : Added ctls m s s') :
    ∀ k ∈ s.1.keys, k ∈ s'.1.keys := by
  intro k hk
  rw [mem_keys_iff, h.old k hk]; exact mem_keys_iff.1 hk

theorem complete_mono {ctls : Ctls} {s s' : Tree × List String} (k : String)
    (hk : Complete ctls s k) (hold : Dict.get? s'.1 k = Dict.get? s.1 k)
    (hkeys : ∀ k ∈ s.1.keys, k ∈ s'.1.keys) (hisc : ∀ p ∈ s.2, p ∈ s'.2) : Complete ctls s' k := by
  obtain ⟨⟨cs, h1, h2, h3⟩, h4⟩ := hk
  exact ⟨⟨cs, by rw [hold]; exact h1, h2, fun p hp => hkeys p (h3 p hp)⟩, fun p hp => hisc p (h4 p hp)⟩

/-- the state of the loop over the parts of `m`, `done` having been dealt with -/
structure Loop (ctls : Ctls) (m : String) (s : Tree × List String) (done : List String)
    (t : Tree × List String) : Prop where
  old : ∀ k ∈ s.1.keys, Dict.get? t.1 k = Dict.get? s.1 k
  sub : ∀ k ∈ t.1.keys, k ∈ ctls.keys
  mine : ∃ cs, Dict.get? t.1 m = some cs ∧ (∀ p, p ∈ cs ↔ p ∈ done ∧ p ∈ ctls.keys) ∧ ∀ p ∈ cs, p ∈ t.1.keys
  new : ∀ k ∈ t.1.keys, k ∉ s.1.keys → k ≠ m → Complete ctls t k
  isc : ∀ p ∈ s.2, p ∈ t.2
  noted : ∀ p ∈ done, p ∈ t.2
  kids : ∀ k ∈ t.1.keys, k ∉ s.1.keys → k = m ∨ k ∈ t.2
  from_ : ∀ p ∈ t.2, p ∈ s.2 ∨ p ∈ done ∨ ∃ k ∈ t.1.keys, k ∉ s.1.keys ∧ k ≠ m ∧ p ∈ partsOf ctls k

theorem setChild_get {t : Tree} {m p : String} {cs : List String} (h : Dict.get? t m = some cs) :
    (∃ cs', Dict.get? (setChild t m p) m = some cs' ∧ ∀ q, q ∈ cs' ↔ q ∈ cs ∨ q = p) ∧
    (∀ k, k ≠ m → Dict.get? (setChild t m p) k = Dict.get? t k) ∧
    (∀ k, k ∈ (setChild t m p).keys ↔ k ∈ t.keys) := by
  unfold setChild
  rw [h]
  dsimp only
  split
  · rename_i hp
    refine ⟨⟨cs, h, ?_⟩, fun _ _ => rfl, fun _ => Iff.rfl⟩
    intro q
    constructor
    · exact .inl
    · rintro (hq | rfl)
      · exact hq
      · exact hp
  · refine ⟨⟨cs ++ [p], Dict.get?_set_self _ _ _, by simp⟩, ?_, ?_⟩
    · intro k hk; exact Dict.get?_set_ne _ _ (fun hc => hk hc.symm)
    · intro k
      rw [mem_keys_iff, Dict.get?_set, mem_keys_iff]
      split
      · rename_i he; subst he; rw [h]; simp
      · exact Iff.rfl

/-- noting a part -/
theorem loop_note {ctls : Ctls} {m : String} {s t : Tree × List String} {done : List String} (p : String)
    (h : Loop ctls m s done t) (q : List String) (hq : ∀ x, x ∈ q ↔ x ∈ t.2 ∨ x = p) :
    (∀ k ∈ t.1.keys, k ∉ s.1.keys → k ≠ m → Complete ctls (t.1, q) k) ∧ ∀ x ∈ t.2, x ∈ q := by
  have hs : ∀ x ∈ t.2, x ∈ q := fun x hx => (hq x).2 (.inl hx)
  exact ⟨fun k hk h1 h2 => complete_mono k (h.new k hk h1 h2) rfl (fun _ h => h) hs, hs⟩

theorem addController_spec (ctls : Ctls) (n : Nat) : ∀ (m : String) (s : Tree × List String),
    m ∈ ctls.keys → m ∉ s.1.keys → (∀ k ∈ s.1.keys, k ∈ ctls.keys) → missing ctls s.1 ≤ n →
    Added ctls m s (addController ctls n m s) ∧ m ∈ (addController ctls n m s).1.keys := by
  induction n with
  | zero =>
    intro m s hm hms _ hn
    exfalso
    have := missing_lt ctls s.1 (Dict.set s.1 m []) m
      (fun k hk => by rw [Dict.keys_set]; split <;> simp [hk]) hm hms
      (by rw [Dict.keys_set]; simp [hms])
    omega
  | succ n ih =>
    intro m s hm hms hsub hn
    unfold addController
    obtain ⟨c, hc⟩ := mem_keys_some hm
    rw [hc]
    dsimp only
    have hparts : partsOf ctls m = c.parts := by unfold partsOf; rw [hc]
    have h0 : Loop ctls m s [] (Dict.set s.1 m [], s.2) := by
      have hk : ∀ k, k ∈ (Dict.set s.1 m []).keys → k ∈ s.1.keys ∨ k = m := by
        intro k hk
        rw [mem_keys_iff, Dict.get?_set] at hk
        split at hk
        · rename_i he; exact .inr he.symm
        · exact .inl (mem_keys_iff.2 hk)
      refine ⟨?_, ?_, ⟨[], Dict.get?_set_self _ _ _, by simp, by simp⟩, ?_, fun _ h => h, by simp,
        fun k hk' h1 => .inl ((hk k hk').resolve_left h1), fun _ h => .inl h⟩
      · intro k hk'
        exact Dict.get?_set_ne _ _ (fun hc => hms (hc ▸ hk'))
      · intro k hk'
        rcases hk k hk' with h | h
        · exact hsub k h
        · rw [h]; exact hm
      · intro k hk' h1 h2
        rcases hk k hk' with h | h
        · exact absurd h h1
        · exact absurd h h2
    have loop : ∀ (ps done : List String) (t : Tree × List String), Loop ctls m s done t →
        Loop ctls m s (done ++ ps) (ps.foldl (addPartOf ctls (addController ctls n) m) t) := by
      intro ps
      induction ps with
      | nil => intro done t h; simpa using h
      | cons p ps ihp =>
        intro done t h
        rw [List.foldl_cons]
        have step : Loop ctls m s (done ++ [p]) (addPartOf ctls (addController ctls n) m t p) := by
          unfold addPartOf
          dsimp only
          obtain ⟨hnew, hi⟩ := loop_note p h (p :: t.2) (by intro x; simp [or_comm])
          by_cases h1 : Dict.mem t.1 p = true
          · rw [if_pos h1]
            have hp : p ∈ t.1.keys := Dict.mem_iff.1 h1
            obtain ⟨cs, e1, e2, e3⟩ := h.mine
            obtain ⟨⟨cs', g1, g2⟩, g3, g4⟩ := setChild_get (p := p) e1
            have hkeys : ∀ k ∈ t.1.keys, k ∈ (setChild t.1 m p).keys := fun k hk => (g4 k).2 hk
            refine ⟨?_, ?_, ?_, ?_, ?_, ?_, fun k hk h1 => (h.kids k ((g4 k).1 hk) h1).imp id (hi k), ?_⟩
            · intro k hk
              have : k ≠ m := fun hc => hms (hc ▸ hk)
              show Dict.get? (setChild t.1 m p) k = _
              rw [g3 k this]; exact h.old k hk
            · intro k hk; exact h.sub k ((g4 k).1 hk)
            · refine ⟨cs', g1, ?_, ?_⟩
              · intro q
                rw [g2, e2]
                constructor
                · rintro (⟨a, b⟩ | rfl)
                  · exact ⟨List.mem_append.2 (.inl a), b⟩
                  · exact ⟨by simp, h.sub _ hp⟩
                · rintro ⟨a, b⟩
                  rcases List.mem_append.1 a with a | a
                  · exact .inl ⟨a, b⟩
                  · exact .inr (by simpa using a)
              · intro q hq
                rcases (g2 q).1 hq with hq | rfl
                · exact hkeys q (e3 q hq)
                · exact hkeys q hp
            · intro k hk hks hkm
              exact complete_mono k (hnew k ((g4 k).1 hk) hks hkm) (g3 k hkm) hkeys (fun _ hq => hq)
            · intro q hq; exact hi q (h.isc q hq)
            · intro q hq
              rcases List.mem_append.1 hq with hq | hq
              · exact hi q (h.noted q hq)
              · rw [List.mem_singleton.1 hq]; exact List.mem_cons_self
            · intro q hq
              rcases List.mem_cons.1 hq with rfl | hq
              · exact .inr (.inl (by simp))
              · rcases h.from_ q hq with h4 | h4 | ⟨k, h4, h5, h6, h7⟩
                · exact .inl h4
                · exact .inr (.inl (List.mem_append.2 (.inl h4)))
                · exact .inr (.inr ⟨k, hkeys k h4, h5, h6, h7⟩)
          · rw [if_neg h1]
            have hp : p ∉ t.1.keys := fun hc => h1 (Dict.mem_iff.2 hc)
            by_cases h2 : Dict.mem ctls p = true
            · rw [if_pos h2]
              have hpc : p ∈ ctls.keys := Dict.mem_iff.1 h2
              obtain ⟨cs, e1, e2, e3⟩ := h.mine
              have hmt : m ∈ t.1.keys := mem_keys_of e1
              have hts : ∀ k ∈ s.1.keys, k ∈ t.1.keys := by
                intro k hk; rw [mem_keys_iff, h.old k hk]; exact mem_keys_iff.1 hk
              have hlt := missing_lt ctls s.1 t.1 m hts hm hms hmt
              obtain ⟨ha, hpa⟩ := ih p (t.1, p :: t.2) hpc hp h.sub (by show missing ctls t.1 ≤ n; omega)
              -- the loop state after the recursive call, with `p` noted
              generalize addController ctls n p (t.1, p :: t.2) = u at ha hpa
              have hu : ∀ k ∈ t.1.keys, k ∈ u.1.keys := ha.keys
              obtain ⟨⟨cs', g1, g2⟩, g3, g4⟩ := setChild_get (p := p) (t := u.1) (m := m) (cs := cs)
                (by rw [ha.old m hmt]; exact e1)
              have hkeys : ∀ k ∈ u.1.keys, k ∈ (setChild u.1 m p).keys := fun k hk => (g4 k).2 hk
              have hpm : p ≠ m := fun hc => hp (hc ▸ hmt)
              refine ⟨?_, ?_, ?_, ?_, ?_, ?_, ?_, ?_⟩
              · intro k hk
                have : k ≠ m := fun hc => hms (hc ▸ hk)
                show Dict.get? (setChild u.1 m p) k = _
                rw [g3 k this, ha.old k (hts k hk)]; exact h.old k hk
              · intro k hk; exact ha.sub k ((g4 k).1 hk)
              · refine ⟨cs', g1, ?_, ?_⟩
                · intro q
                  rw [g2, e2]
                  constructor
                  · rintro (⟨a, b⟩ | rfl)
                    · exact ⟨List.mem_append.2 (.inl a), b⟩
                    · exact ⟨by simp, hpc⟩
                  · rintro ⟨a, b⟩
                    rcases List.mem_append.1 a with a | a
                    · exact .inl ⟨a, b⟩
                    · exact .inr (by simpa using a)
                · intro q hq
                  rcases (g2 q).1 hq with hq | rfl
                  · exact hkeys q (hu q (e3 q hq))
                  · exact hkeys q hpa
              · intro k hk hks hkm
                have hk' := (g4 k).1 hk
                by_cases hkt : k ∈ t.1.keys
                · have c1 := hnew k hkt hks hkm
                  have c2 := complete_mono (s' := u) k c1 (ha.old k hkt) hu ha.isc
                  exact complete_mono k c2 (g3 k hkm) hkeys (fun _ hq => hq)
                · have c2 := ha.new k hk' hkt
                  exact complete_mono k c2 (g3 k hkm) hkeys (fun _ hq => hq)
              · intro q hq; exact ha.isc q (hi q (h.isc q hq))
              · intro q hq
                rcases List.mem_append.1 hq with hq | hq
                · exact ha.isc q (hi q (h.noted q hq))
                · rw [List.mem_singleton.1 hq]; exact ha.isc p List.mem_cons_self
              · intro k hk h1
                have hk' := (g4 k).1 hk
                by_cases hkt : k ∈ t.1.keys
                · exact (h.kids k hkt h1).imp id (fun h2 => ha.isc k (hi k h2))
                · rcases ha.kids k hk' hkt with h2 | h2
                  · right; rw [h2]; exact ha.isc p List.mem_cons_self
                  · exact .inr h2
              · intro q hq
                rcases ha.from_ q hq with hq | ⟨k, h4, h5, h6⟩
                · rcases List.mem_cons.1 hq with rfl | hq
                  · exact .inr (.inl (by simp))
                  · rcases h.from_ q hq with h4 | h4 | ⟨k, h4, h5, h6, h7⟩
                    · exact .inl h4
                    · exact .inr (.inl (List.mem_append.2 (.inl h4)))
                    · exact .inr (.inr ⟨k, hkeys k (hu k h4), h5, h6, h7⟩)
                · refine .inr (.inr ⟨k, hkeys k h4, fun hc => h5 (hts k hc), ?_, h6⟩)
                  intro hc
                  exact h5 (hc ▸ hmt)
            · rw [if_neg h2]
              have hpc : p ∉ ctls.keys := fun hc => h2 (Dict.mem_iff.2 hc)
              obtain ⟨cs, e1, e2, e3⟩ := h.mine
              refine ⟨h.old, h.sub, ⟨cs, e1, ?_, e3⟩, hnew, fun q hq => hi q (h.isc q hq), ?_,
                fun k hk h1 => (h.kids k hk h1).imp id (hi k), ?_⟩
              · intro q
                rw [e2]
                constructor
                · rintro ⟨a, b⟩; exact ⟨List.mem_append.2 (.inl a), b⟩
                · rintro ⟨a, b⟩
                  rcases List.mem_append.1 a with a | a
                  · exact ⟨a, b⟩
                  · rw [List.mem_singleton.1 a] at b; exact absurd b hpc
              · intro q hq
                rcases List.mem_append.1 hq with hq | hq
                · exact hi q (h.noted q hq)
                · rw [List.mem_singleton.1 hq]; exact List.mem_cons_self
              · intro q hq
                rcases List.mem_cons.1 hq with rfl | hq
                · exact .inr (.inl (by simp))
                · rcases h.from_ q hq with h4 | h4 | h4
                  · exact .inl h4
                  · exact .inr (.inl (List.mem_append.2 (.inl h4)))
                  · exact .inr (.inr h4)
        have := ihp (done ++ [p]) _ step
        simpa using this
    have hl := loop c.parts [] _ h0
    rw [List.nil_append] at hl
    generalize c.parts.foldl (addPartOf ctls (addController ctls n) m) (Dict.set s.1 m [], s.2) = u at hl
    obtain ⟨cs, e1, e2, e3⟩ := hl.mine
    have hmu : m ∈ u.1.keys := mem_keys_of e1
    refine ⟨⟨hl.old, hl.sub, ?_, hl.isc, hl.kids, ?_⟩, hmu⟩
    · intro k hk hks
      by_cases hkm : k = m
      · subst hkm
        refine ⟨⟨cs, e1, ?_, e3⟩, ?_⟩
        · rw [hparts]; exact e2
        · rw [hparts]; exact hl.noted
      · exact hl.new k hk hks hkm
    · intro p hp
      rcases hl.from_ p hp with h | h | ⟨k, h1, h2, _, h3⟩
      · exact .inl h
      · exact .inr ⟨m, hmu, hms, by rw [hparts]; exact h⟩
      · exact .inr ⟨k, h1, h2, h3⟩

/-- What the tree is: every controller with its children, and `is_child` is the set of all parts. -/
theorem buildTree_spec (ctls : Ctls) (hnd : ctls.keys.Nodup) :
    (∀ k, k ∈ (buildTree ctls).1.keys ↔ k ∈ ctls.keys) ∧
    (∀ k ∈ ctls.keys, Complete ctls (buildTree ctls) k) ∧
    (∀ p ∈ (buildTree ctls).2, ∃ k ∈ ctls.keys, p ∈ partsOf ctls k) := by
  have key : ∀ (ms : List String) (s : Tree × List String), ms.Nodup → (∀ m ∈ ms, m ∈ ctls.keys) →
      (∀ k ∈ s.1.keys, k ∈ s.2 ∨ k ∉ ms) →
      (∀ k ∈ s.1.keys, k ∈ ctls.keys) → (∀ k ∈ s.1.keys, Complete ctls s k) →
      (∀ p ∈ s.2, ∃ k ∈ s.1.keys, p ∈ partsOf ctls k) →
      let t := ms.foldl (fun s m => if m ∈ s.2 then s else addController ctls ctls.length m s) s
      (∀ k ∈ t.1.keys, k ∈ ctls.keys) ∧ (∀ k ∈ t.1.keys, Complete ctls t k) ∧
      (∀ p ∈ t.2, ∃ k ∈ t.1.keys, p ∈ partsOf ctls k) ∧ (∀ k ∈ s.1.keys, k ∈ t.1.keys) ∧
      ∀ m ∈ ms, m ∈ t.1.keys := by
    intro ms
    induction ms with
    | nil => intro s _ _ _ h1 h2 h3; exact ⟨h1, h2, h3, fun _ h => h, by simp⟩
    | cons m ms ih =>
      intro s hn hms h0 h1 h2 h3
      dsimp only
      rw [List.foldl_cons]
      have hn' := (List.nodup_cons.1 hn)
      by_cases hm : m ∈ s.2
      · rw [if_pos hm]
        obtain ⟨a, b, c, d, e⟩ := ih s hn'.2 (fun x hx => hms x (List.mem_cons_of_mem _ hx))
          (fun k hk => (h0 k hk).imp id (fun h hc => h (List.mem_cons_of_mem _ hc))) h1 h2 h3
        refine ⟨a, b, c, d, ?_⟩
        intro x hx
        rcases List.mem_cons.1 hx with rfl | hx
        · obtain ⟨k, hk, hp⟩ := h3 x hm
          obtain ⟨⟨cs, _, g2, g3⟩, _⟩ := h2 k hk
          exact d x (g3 x ((g2 x).2 ⟨hp, hms x List.mem_cons_self⟩))
        · exact e x hx
      · rw [if_neg hm]
        have hmk : m ∉ s.1.keys := fun hc => (h0 m hc).elim hm (fun h => h List.mem_cons_self)
        have hlen : missing ctls s.1 ≤ ctls.length := by
          unfold missing
          have := List.length_filter_le (fun k => !decide (k ∈ s.1.keys)) ctls.keys
          simpa [Dict.keys] using this
        obtain ⟨ha, hma⟩ := addController_spec ctls ctls.length m s (hms m List.mem_cons_self) hmk h1 hlen
        obtain ⟨a, b, c, d, e⟩ := ih _ hn'.2 (fun x hx => hms x (List.mem_cons_of_mem _ hx)) (by
            intro k hk
            by_cases hks : k ∈ s.1.keys
            · exact (h0 k hks).imp (ha.isc k) (fun h hc => h (List.mem_cons_of_mem _ hc))
            · rcases ha.kids k hk hks with h | h
              · right; rw [h]; exact hn'.1
              · exact .inl h) ha.sub (by
            intro k hk
            by_cases hks : k ∈ s.1.keys
            · exact complete_mono k (h2 k hks) (ha.old k hks) ha.keys ha.isc
            · exact ha.new k hk hks) (by
            intro p hp
            rcases ha.from_ p hp with h | ⟨k, g1, _, g3⟩
            · obtain ⟨k, hk, hp⟩ := h3 p h
              exact ⟨k, ha.keys k hk, hp⟩
            · exact ⟨k, g1, g3⟩)
        refine ⟨a, b, c, fun k hk => d k (ha.keys k hk), ?_⟩
        intro x hx
        rcases List.mem_cons.1 hx with rfl | hx
        · exact d x hma
        · exact e x hx
  obtain ⟨a, b, c, _, e⟩ := key ctls.keys ([], []) hnd (fun _ h => h) (by simp [Dict.keys]) (by simp [Dict.keys])
    (by simp [Dict.keys]) (by simp)
  refine ⟨fun k => ⟨a k, e k⟩, fun k hk => b k (e k hk), ?_⟩
  intro p hp
  obtain ⟨k, hk, h⟩ := c p hp
  exact ⟨k, a k hk, h⟩

/-! ### the walk -/

theorem walkLevel_spec (tree : Tree) (unp skip : List String) (d : List String) :
    ∀ (s : List String × List (List String)),
      (∀ k, k ∈ (walkLevel tree unp skip d s).1 ↔ k ∈ s.1 ∨ (k ∈ d ∧ k ∉ skip ∧ k ∉ unp)) ∧
      (s.1.Nodup → (walkLevel tree unp skip d s).1.Nodup) ∧
      (∀ v, v ∈ (walkLevel tree unp skip d s).2 ↔
        v ∈ s.2 ∨ ∃ k ∈ d, k ∉ skip ∧ v ≠ [] ∧ Dict.get? tree k = some v) := by
  induction d with
  | nil => intro s; simp [walkLevel]
  | cons k d ih =>
    intro s
    unfold walkLevel
    by_cases hk : k ∈ skip
    · rw [if_pos hk]
      obtain ⟨a, b, c⟩ := ih s
      refine ⟨?_, b, ?_⟩
      · intro x
        rw [a, List.mem_cons]
        constructor
        · rintro (h | ⟨h1, h2⟩)
          · exact .inl h
          · exact .inr ⟨.inr h1, h2⟩
        · rintro (h | ⟨h1 | h1, h2, h3⟩)
          · exact .inl h
          · rw [h1] at h2; exact absurd hk h2
          · exact .inr ⟨h1, h2, h3⟩
      · intro v
        rw [c]
        constructor
        · rintro (h | ⟨x, h1, h2⟩)
          · exact .inl h
          · exact .inr ⟨x, List.mem_cons_of_mem _ h1, h2⟩
        · rintro (h | ⟨x, h1, h2, h3⟩)
          · exact .inl h
          · rcases List.mem_cons.1 h1 with h1 | h1
            · rw [h1] at h2; exact absurd hk h2
            · exact .inr ⟨x, h1, h2, h3⟩
    · rw [if_neg hk]
      dsimp only
      obtain ⟨a, b, c⟩ := ih (if k ∉ s.1 ∧ k ∉ unp then s.1 ++ [k] else s.1,
        toDo s.2 (Dict.get? tree k))
      refine ⟨?_, ?_, ?_⟩
      · intro x
        rw [a, List.mem_cons]
        dsimp only
        have : x ∈ (if k ∉ s.1 ∧ k ∉ unp then s.1 ++ [k] else s.1) ↔ x ∈ s.1 ∨ (x = k ∧ x ∉ unp) := by
          split
          · rename_i h
            rw [List.mem_append, List.mem_singleton]
            constructor
            · rintro (h1 | h1)
              · exact .inl h1
              · exact .inr ⟨h1, h1 ▸ h.2⟩
            · rintro (h1 | h1)
              · exact .inl h1
              · exact .inr h1.1
          · rename_i h
            constructor
            · exact .inl
            · rintro (h1 | ⟨rfl, h1⟩)
              · exact h1
              · exact Decidable.not_not.1 (fun hc => h ⟨hc, h1⟩)
        rw [this]
        constructor
        · rintro ((h | ⟨h1, h2⟩) | ⟨h1, h2⟩)
          · exact .inl h
          · exact .inr ⟨.inl h1, h1 ▸ hk, h2⟩
          · exact .inr ⟨.inr h1, h2⟩
        · rintro (h | ⟨h1 | h1, h2, h3⟩)
          · exact .inl (.inl h)
          · exact .inl (.inr ⟨h1, h3⟩)
          · exact .inr ⟨h1, h2, h3⟩
      · intro hn
        apply b
        dsimp only
        split
        · rename_i h
          rw [List.nodup_append]
          refine ⟨hn, by simp, ?_⟩
          intro x hx y hy hxy
          rw [List.mem_singleton.1 hy] at hxy
          exact h.1 (hxy ▸ hx)
        · exact hn
      · intro v
        rw [c]
        dsimp only
        have : v ∈ toDo s.2 (Dict.get? tree k) ↔ v ∈ s.2 ∨ (v ≠ [] ∧ Dict.get? tree k = some v) := by
          cases hg : Dict.get? tree k with
          | none => simp [toDo]
          | some w =>
            cases w with
            | nil =>
              show v ∈ s.2 ↔ _
              constructor
              · exact .inl
              · rintro (h | ⟨h1, h2⟩)
                · exact h
                · cases h2; exact absurd rfl h1
            | cons c cs =>
              show v ∈ s.2 ++ [c :: cs] ↔ _
              rw [List.mem_append, List.mem_singleton]
              constructor
              · rintro (h | h)
                · exact .inl h
                · exact .inr ⟨by rw [h]; simp, by rw [h]⟩
              · rintro (h | ⟨h1, h2⟩)
                · exact .inl h
                · exact .inr (by cases h2; rfl)
        rw [this]
        constructor
        · rintro ((h | h) | ⟨x, h1, h2⟩)
          · exact .inl h
          · exact .inr ⟨k, List.mem_cons_self, hk, h⟩
          · exact .inr ⟨x, List.mem_cons_of_mem _ h1, h2⟩
        · rintro (h | ⟨x, h1, h2, h3⟩)
          · exact .inl (.inl h)
          · rcases List.mem_cons.1 h1 with h1 | h1
            · exact .inl (.inr (h1 ▸ h3))
            · exact .inr ⟨x, h1, h2, h3⟩

theorem foldl_keeps {A B : Type} (f : B → A → B) (P : B → Prop) (l : List A)
    (h : ∀ b, ∀ a ∈ l, P b → P (f b a)) : ∀ b, P b → P (l.foldl f b) := by
  induction l with
  | nil => intro b hb; exact hb
  | cons a l ih =>
    intro b hb
    rw [List.foldl_cons]
    exact ih (fun b a ha => h b a (List.mem_cons_of_mem _ ha)) _ (h b a List.mem_cons_self hb)

theorem walk_keeps (tree : Tree) (unp : List String) (x : String) (n : Nat) : ∀ (skip d pub : List String),
    x ∈ pub → x ∈ walk tree unp n skip d pub := by
  induction n with
  | zero => intro skip d pub h; exact h
  | succ n ih =>
    intro skip d pub h
    unfold walk
    dsimp only
    refine foldl_keeps _ (fun b => x ∈ b) _ ?_ _ ?_
    · intro b v _ hb; exact ih _ _ _ hb
    · rw [(walkLevel_spec tree unp skip d (pub, [])).1]; exact .inl h

theorem walk_sound (tree : Tree) (unp : List String) (P : String → Prop)
    (hP : ∀ k v, Dict.get? tree k = some v → ∀ x ∈ v, P x) (n : Nat) : ∀ (skip d pub : List String),
    (∀ x ∈ d, P x) → pub.Nodup → (∀ x ∈ pub, P x ∧ x ∉ unp) →
    (walk tree unp n skip d pub).Nodup ∧ ∀ x ∈ walk tree unp n skip d pub, P x ∧ x ∉ unp := by
  induction n with
  | zero => intro skip d pub _ h1 h2; exact ⟨h1, h2⟩
  | succ n ih =>
    intro skip d pub hd h1 h2
    unfold walk
    dsimp only
    obtain ⟨a, b, c⟩ := walkLevel_spec tree unp skip d (pub, [])
    refine foldl_keeps _ (fun b : List String => b.Nodup ∧ ∀ x ∈ b, P x ∧ x ∉ unp) _ ?_ _ ⟨b h1, ?_⟩
    · intro b v hv hb
      rcases (c v).1 hv with hv | ⟨k, _, _, _, hk⟩
      · cases hv
      · exact ih _ _ _ (hP k v hk) hb.1 hb.2
    · intro x hx
      rcases (a x).1 hx with hx | ⟨h3, _, h4⟩
      · exact h2 x hx
      · exact ⟨hd x h3, h4⟩

/-- `x` is `k` or below it in the tree -/
inductive Below (tree : Tree) : String → String → Prop
  | refl (k : String) : Below tree k k
  | step {k c x : String} {v : List String} : Dict.get? tree k = some v → c ∈ v → Below tree c x → Below tree k x

theorem Below.trans {tree : Tree} {a b c : String} (h : Below tree a b) (h2 : Below tree b c) : Below tree a c := by
  induction h with
  | refl => exact h2
  | step g1 g2 _ ih => exact .step g1 g2 (ih h2)

theorem walk_complete (tree : Tree) (unp : List String) (rank : String → Nat)
    (hr : ∀ k v, Dict.get? tree k = some v → ∀ c ∈ v, rank c < rank k) (x : String) (hx : x ∉ unp) (n : Nat) :
    ∀ (skip d pub : List String) (k : String), k ∈ d → k ∉ skip → Below tree k x → rank k < n →
    x ∈ walk tree unp n skip d pub := by
  induction n with
  | zero => intro _ _ _ _ _ _ _ h; omega
  | succ n ih =>
    intro skip d pub k hk hs hb hn
    unfold walk
    dsimp only
    obtain ⟨a, b, c⟩ := walkLevel_spec tree unp skip d (pub, [])
    cases hb with
    | refl =>
      refine foldl_keeps _ (fun b => x ∈ b) _ ?_ _ ?_
      · intro b v _ hb; exact walk_keeps _ _ _ _ _ _ _ hb
      · exact (a x).2 (.inr ⟨hk, hs, hx⟩)
    | @step _ y _ v hg hy hb =>
      have hv : v ∈ (walkLevel tree unp skip d (pub, [])).2 :=
        (c v).2 (.inr ⟨k, hk, hs, (fun hc => by rw [hc] at hy; cases hy), hg⟩)
      have hry := hr k v hg y hy
      generalize (walkLevel tree unp skip d (pub, [])).1 = pub1
      generalize (walkLevel tree unp skip d (pub, [])).2 = todo at hv
      clear a b c
      induction todo generalizing pub1 with
      | nil => cases hv
      | cons w todo iht =>
        rw [List.foldl_cons]
        rcases List.mem_cons.1 hv with hv | hv
        · refine foldl_keeps _ (fun b => x ∈ b) _ ?_ _ ?_
          · intro b v _ hb; exact walk_keeps _ _ _ _ _ _ _ hb
          · exact ih [] w pub1 y (hv ▸ hy) (by simp) hb (by omega)
        · exact iht _ hv

theorem root_above (ctls : Ctls) (hnd : ctls.keys.Nodup) (rank : String → Nat) (N : Nat)
    (hN : ∀ k ∈ ctls.keys, rank k < N)
    (hr : ∀ k ∈ ctls.keys, ∀ p ∈ partsOf ctls k, p ∈ ctls.keys → rank p < rank k) (d : Nat) :
    ∀ x ∈ ctls.keys, N - rank x ≤ d →
    ∃ r ∈ ctls.keys, r ∉ (buildTree ctls).2 ∧ Below (buildTree ctls).1 r x := by
  obtain ⟨h1, h2, h3⟩ := buildTree_spec ctls hnd
  induction d with
  | zero => intro x hx hd; have := hN x hx; omega
  | succ d ih =>
    intro x hx hd
    by_cases hc : x ∈ (buildTree ctls).2
    · obtain ⟨k, hk, hp⟩ := h3 x hc
      have hlt := hr k hk x hp hx
      obtain ⟨r, hr1, hr2, hr3⟩ := ih k hk (by have := hN k hk; omega)
      refine ⟨r, hr1, hr2, ?_⟩
      obtain ⟨⟨cs, g1, g2, _⟩, _⟩ := h2 k hk
      exact hr3.trans (.step g1 ((g2 x).2 ⟨hp, hx⟩) (.refl x))
    · exact ⟨x, hx, hc, .refl x⟩

theorem publishList_sound (fuel : Nat) (ctls : Ctls) (hnd : ctls.keys.Nodup) (unp : List String) :
    (publishList fuel ctls unp).Nodup ∧ ∀ x ∈ publishList fuel ctls unp, x ∈ ctls.keys ∧ x ∉ unp := by
  obtain ⟨h1, h2, h3⟩ := buildTree_spec ctls hnd
  unfold publishList
  dsimp only
  refine walk_sound _ _ (fun x => x ∈ ctls.keys) ?_ _ _ _ _ (fun x hx => (h1 x).1 hx) (by simp) (by simp)
  intro k v hk x hx
  obtain ⟨⟨cs, g1, g2, _⟩, _⟩ := h2 k ((h1 k).1 (mem_keys_of hk))
  rw [hk] at g1
  cases g1
  exact ((g2 x).1 hx).2

theorem publishList_complete (fuel : Nat) (ctls : Ctls) (hnd : ctls.keys.Nodup) (unp : List String)
    (rank : String → Nat) (hN : ∀ k ∈ ctls.keys, rank k < fuel)
    (hr : ∀ k ∈ ctls.keys, ∀ p ∈ partsOf ctls k, p ∈ ctls.keys → rank p < rank k)
    (x : String) (hx : x ∈ ctls.keys) (hu : x ∉ unp) : x ∈ publishList fuel ctls unp := by
  obtain ⟨h1, h2, h3⟩ := buildTree_spec ctls hnd
  obtain ⟨r, r1, r2, r3⟩ := root_above ctls hnd rank fuel hN hr _ x hx (Nat.le_refl _)
  unfold publishList
  dsimp only
  refine walk_complete _ _ rank ?_ x hu _ _ _ _ r ((h1 r).2 r1) r2 r3 (hN r r1)
  intro k v hk c hc
  have hk' := (h1 k).1 (mem_keys_of hk)
  obtain ⟨⟨cs, g1, g2, _⟩, _⟩ := h2 k hk'
  rw [hk] at g1
  cases g1
  exact hr k hk' c ((g2 c).1 hc).1 ((g2 c).1 hc).2

/-! ### adding -/

theorem addLoop_spec (cs : List Ctl) : ∀ (ctls : Ctls), ctls.keys.Nodup →
    (∀ k c, Dict.get? ctls k = some c → c.mri = k) →
    (addLoop ctls cs).1.keys.Nodup ∧ (∀ k c, Dict.get? (addLoop ctls cs).1 k = some c → c.mri = k) ∧
    (∃ n, (addLoop ctls cs).1.keys = ctls.keys ++ (cs.map (·.mri)).take n) ∧
    ((addLoop ctls cs).2 = true → (addLoop ctls cs).1.keys = ctls.keys ++ cs.map (·.mri)) := by
  induction cs with
  | nil => intro ctls h1 h2; exact ⟨h1, h2, ⟨0, by simp [addLoop]⟩, by simp [addLoop]⟩
  | cons c cs ih =>
    intro ctls h1 h2
    unfold addLoop
    by_cases hm : Dict.mem ctls c.mri = true
    · rw [if_pos hm]
      exact ⟨h1, h2, ⟨0, by simp⟩, by simp⟩
    · rw [if_neg hm]
      dsimp only
      have hm' : c.mri ∉ ctls.keys := fun hc => hm (Dict.mem_iff.2 hc)
      have hk : (Dict.set ctls c.mri c).keys = ctls.keys ++ [c.mri] := by
        rw [Dict.keys_set, if_neg hm']
      have h1' := Dict.nodup_set h1 c.mri c
      have h2' : ∀ k d, Dict.get? (Dict.set ctls c.mri c) k = some d → d.mri = k := by
        intro k d hd
        rw [Dict.get?_set] at hd
        split at hd
        · rename_i he; cases hd; exact he
        · exact h2 k d hd
      by_cases hs : c.setupOk = true
      · rw [if_pos hs]
        obtain ⟨a, b, ⟨n, d⟩, e⟩ := ih _ h1' h2'
        refine ⟨a, b, ⟨n + 1, ?_⟩, ?_⟩
        · rw [d, hk]; simp
        · intro h; rw [e h, hk]; simp
      · rw [if_neg hs]
        exact ⟨h1', h2', ⟨1, by rw [hk]; simp⟩, by simp⟩

end Verif.Process
