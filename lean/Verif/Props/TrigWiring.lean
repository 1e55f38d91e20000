import Verif.Spec.TrigWiring
import Verif.Proofs.PyDict
/-!
C97: "A scan that a PandA is to trigger is only accepted if the PandA is wired for it, and then the sequencers compare
each axis with the position it is wired to, they are enabled only while the scan runs, and the pulse block of a detector
gets the numbers that belong to that detector."
-/
set_option linter.unusedVariables false
namespace Verif.Props.TrigWiring
open Verif Verif.TrigWiring Verif.Spec.TrigWiring

/-! ### the sequencers -/

/-- one of the two names -/
def Special (e : String) : Prop := e = "seqTableA" ∨ e = "seqTableB"

theorem seqParts_origin (l : List Export) (d d' : Dict String String) (hd : (Dict.keys d).Nodup)
    (h : seqParts l d = some d') :
    (Dict.keys d').Nodup ∧ ∀ k v, (k, v) ∈ d' → (k, v) ∈ d ∨ (((k, "table"), v) ∈ l ∧ Special v) := by
  induction l generalizing d with
  | nil => cases h; exact ⟨hd, fun k v h => Or.inl h⟩
  | cons x l ih =>
    obtain ⟨⟨part, field⟩, e⟩ := x
    unfold seqParts at h
    split at h
    · rename_i hs
      split at h
      · rename_i hf
        subst hf
        obtain ⟨h1, h2⟩ := ih _ (Dict.nodup_set hd _ _) h
        refine ⟨h1, fun k v hm => ?_⟩
        rcases h2 k v hm with h3 | ⟨h3, h4⟩
        · rcases (Dict.mem_set_iff hd).1 h3 with h5 | h5
          · cases h5
            exact Or.inr ⟨List.mem_cons_self .., hs⟩
          · exact Or.inl h5.1
        · exact Or.inr ⟨List.mem_cons_of_mem _ h3, h4⟩
      · cases h
    · obtain ⟨h1, h2⟩ := ih _ hd h
      refine ⟨h1, fun k v hm => ?_⟩
      rcases h2 k v hm with h3 | ⟨h3, h4⟩
      · exact Or.inl h3
      · exact Or.inr ⟨List.mem_cons_of_mem _ h3, h4⟩

theorem seqParts_get (l : List Export) (d d' : Dict String String) (h : seqParts l d = some d') (k v : String)
    (hs : Special v) (hm : ((k, "table"), v) ∈ l ∨ d.get? k = some v)
    (hu : ∀ f v', ((k, f), v') ∈ l → Special v' → v' = v) : d'.get? k = some v := by
  induction l generalizing d with
  | nil =>
    cases h
    rcases hm with hm | hm
    · cases hm
    · exact hm
  | cons x l ih =>
    obtain ⟨⟨part, field⟩, e⟩ := x
    unfold seqParts at h
    have hu' : ∀ f v', ((k, f), v') ∈ l → Special v' → v' = v := fun f v' hm hs => hu f v' (List.mem_cons_of_mem _ hm) hs
    split at h
    · rename_i he
      split at h
      · rename_i hf
        subst hf
        refine ih _ h ?_ hu'
        by_cases hk : part = k
        · subst hk
          have := hu "table" e (List.mem_cons_self ..) he
          subst this
          exact Or.inr (Dict.get?_set_self _ _ _)
        · rcases hm with hm | hm
          · rcases List.mem_cons.1 hm with e' | hm
            · cases e'; exact absurd rfl hk
            · exact Or.inl hm
          · right; rw [Dict.get?_set_ne _ _ hk]; exact hm
      · cases h
    · rename_i he
      refine ih _ h ?_ hu'
      rcases hm with hm | hm
      · rcases List.mem_cons.1 hm with e' | hm
        · cases e'; exact absurd hs he
        · exact Or.inl hm
      · exact Or.inr hm

theorem seqParts_some (l : List Export) (d : Dict String String)
    (hf : ∀ k f v, ((k, f), v) ∈ l → Special v → f = "table") : ∃ d', seqParts l d = some d' := by
  induction l generalizing d with
  | nil => exact ⟨d, rfl⟩
  | cons x l ih =>
    obtain ⟨⟨part, field⟩, e⟩ := x
    have hf' : ∀ k f v, ((k, f), v) ∈ l → Special v → f = "table" := fun k f v hm => hf k f v (List.mem_cons_of_mem _ hm)
    unfold seqParts
    split
    · rename_i he
      rw [if_pos (hf _ _ _ (List.mem_cons_self ..) he)]
      exact ih _ hf'
    · exact ih _ hf'

theorem seqMris_origin (parts : Dict String String) (l : List (String × String)) (d : Dict String String) (e m : String)
    (h : (seqMris parts l d).get? e = some m) :
    d.get? e = some m ∨ ∃ n, (n, m) ∈ l ∧ parts.get? n = some e := by
  induction l generalizing d with
  | nil => exact Or.inl h
  | cons x l ih =>
    obtain ⟨n, m'⟩ := x
    unfold seqMris at h
    cases hn : parts.get? n with
    | none =>
      rw [hn] at h
      rcases ih _ h with h | ⟨n', h1, h2⟩
      · exact Or.inl h
      · exact Or.inr ⟨n', List.mem_cons_of_mem _ h1, h2⟩
    | some e' =>
      rw [hn] at h
      rcases ih _ h with h | ⟨n', h1, h2⟩
      · by_cases he : e' = e
        · subst he
          rw [Dict.get?_set_self] at h
          cases h
          exact Or.inr ⟨n, List.mem_cons_self .., hn⟩
        · rw [Dict.get?_set_ne _ _ he] at h
          exact Or.inl h
      · exact Or.inr ⟨n', List.mem_cons_of_mem _ h1, h2⟩

theorem seqMris_get (parts : Dict String String) (l : List (String × String)) (d : Dict String String) (e m : String)
    (hm : (∃ n, (n, m) ∈ l ∧ parts.get? n = some e) ∨ d.get? e = some m)
    (hu : ∀ n' m', (n', m') ∈ l → parts.get? n' = some e → m' = m) : (seqMris parts l d).get? e = some m := by
  induction l generalizing d with
  | nil =>
    rcases hm with ⟨n, h, _⟩ | h
    · cases h
    · exact h
  | cons x l ih =>
    obtain ⟨n, m'⟩ := x
    have hu' : ∀ n' m', (n', m') ∈ l → parts.get? n' = some e → m' = m :=
      fun n' m' h => hu n' m' (List.mem_cons_of_mem _ h)
    unfold seqMris
    cases hn : parts.get? n with
    | none =>
      refine ih _ ?_ hu'
      rcases hm with ⟨n', h, h2⟩ | h
      · rcases List.mem_cons.1 h with e' | h
        · cases e'; rw [hn] at h2; cases h2
        · exact Or.inl ⟨n', h, h2⟩
      · exact Or.inr h
    | some e' =>
      refine ih _ ?_ hu'
      by_cases he : e' = e
      · subst he
        rw [Dict.get?_set_self]
        exact Or.inr (congrArg some (hu n m' (List.mem_cons_self ..) hn))
      · rcases hm with ⟨n', h, h2⟩ | h
        · rcases List.mem_cons.1 h with e'' | h
          · cases e''
            rw [hn] at h2
            exact absurd (Option.some.inj h2) he
          · exact Or.inl ⟨n', h, h2⟩
        · right; rw [Dict.get?_set_ne _ _ he]; exact h

/-- The first sequencer is that of a part whose table is exported as `seqTableA`, the second that of another part whose
table is exported as `seqTableB`. -/
theorem blocks_found (p : PandA) (a b : String) (h : getBlocks p = some (a, b)) :
    ∃ pa pb, pa ≠ pb ∧ SeqAt p "seqTableA" pa a ∧ SeqAt p "seqTableB" pb b := by
  unfold getBlocks at h
  cases hp : seqParts p.exports [] with
  | none => rw [hp] at h; cases h
  | some parts =>
    rw [hp] at h
    obtain ⟨hn, ho⟩ := seqParts_origin _ _ _ (by simp [Dict.keys]) hp
    simp only at h
    split at h
    · split at h
      · rename_i a' b' ha hb
        cases h
        rcases seqMris_origin _ _ _ _ _ ha with h | ⟨pa, h1, h2⟩
        · cases h
        rcases seqMris_origin _ _ _ _ _ hb with h | ⟨pb, h3, h4⟩
        · cases h
        refine ⟨pa, pb, ?_, ⟨?_, h1⟩, ⟨?_, h3⟩⟩
        · intro e
          subst e
          rw [h2] at h4
          exact absurd h4 (by decide)
        · rcases ho _ _ (Dict.get?_mem h2) with h | h
          · cases h
          · exact h.1
        · rcases ho _ _ (Dict.get?_mem h4) with h | h
          · cases h
          · exact h.1
      · cases h
    · cases h

theorem pair_list {α : Type} (a b : α) (hab : a ≠ b) (l : List α) (hn : l.Nodup) (hm : ∀ x, x ∈ l ↔ x = a ∨ x = b) :
    l = [a, b] ∨ l = [b, a] := by
  match l, hn, hm with
  | [], _, hm => exact absurd ((hm a).2 (Or.inl rfl)) (by simp)
  | [x], _, hm =>
    have h1 := (hm a).2 (Or.inl rfl)
    have h2 := (hm b).2 (Or.inr rfl)
    simp at h1 h2
    exact absurd (h1.trans h2.symm) hab
  | [x, y], hn, hm =>
    have hx := (hm x).1 (by simp)
    have hy := (hm y).1 (by simp)
    have hne : x ≠ y := by simp at hn; exact hn
    rcases hx with hx | hx <;> rcases hy with hy | hy <;> subst hx <;> subst hy
    · exact absurd rfl hne
    · exact Or.inl rfl
    · exact Or.inr rfl
    · exact absurd rfl hne
  | x :: y :: z :: l, hn, hm =>
    exfalso
    have hx := (hm x).1 (by simp)
    have hy := (hm y).1 (by simp)
    have hz := (hm z).1 (by simp)
    simp only [List.nodup_cons, List.mem_cons, not_or] at hn
    obtain ⟨⟨h1, h2, _⟩, ⟨h3, _⟩, _⟩ := hn
    rcases hx with hx | hx <;> rcases hy with hy | hy <;> rcases hz with hz | hz <;> subst hx <;> subst hy <;>
      first | exact h1 rfl | exact h2 hz.symm | exact h3 hz.symm

theorem export_unique (l : List Export) (hn : (l.map (·.2)).Nodup) (s s' : String × String) (e : String)
    (h : (s, e) ∈ l) (h' : (s', e) ∈ l) : s = s' := by
  induction l with
  | nil => cases h
  | cons x l ih =>
    simp only [List.map_cons, List.nodup_cons, List.mem_map, not_exists, not_and] at hn
    rcases List.mem_cons.1 h with h1 | h1 <;> rcases List.mem_cons.1 h' with h2 | h2
    · exact congrArg Prod.fst (h1.trans h2.symm)
    · subst h1; exact (hn.1 _ h2 rfl).elim
    · subst h2; exact (hn.1 _ h1 rfl).elim
    · exact ih hn.2 h1 h2

theorem layout_unique (l : List (String × String)) (hn : (l.map (·.1)).Nodup) (n m m' : String)
    (h : (n, m) ∈ l) (h' : (n, m') ∈ l) : m = m' := by
  induction l with
  | nil => cases h
  | cons x l ih =>
    simp only [List.map_cons, List.nodup_cons, List.mem_map, not_exists, not_and] at hn
    rcases List.mem_cons.1 h with h1 | h1 <;> rcases List.mem_cons.1 h' with h2 | h2
    · exact congrArg Prod.snd (h1.trans h2.symm)
    · subst h1; exact (hn.1 _ h2 rfl).elim
    · subst h2; exact (hn.1 _ h1 rfl).elim
    · exact ih hn.2 h1 h2

/-- These are found whenever both tables are exported, from two parts. -/
theorem blocks_iff (p : PandA) (hw : WellFormed p) (a b : String) :
    getBlocks p = some (a, b) ↔
    ∃ pa pb, pa ≠ pb ∧ SeqAt p "seqTableA" pa a ∧ SeqAt p "seqTableB" pb b := by
  constructor
  · exact blocks_found p a b
  · rintro ⟨pa, pb, hne, ⟨ha, hla⟩, hb, hlb⟩
    have hsrc : ∀ k f v, ((k, f), v) ∈ p.exports → Special v →
        (v = "seqTableA" ∧ k = pa ∧ f = "table") ∨ (v = "seqTableB" ∧ k = pb ∧ f = "table") := by
      intro k f v hm hs
      rcases hs with hs | hs <;> subst hs
      · have := export_unique _ hw.1 _ _ _ hm ha
        cases this
        exact Or.inl ⟨rfl, rfl, rfl⟩
      · have := export_unique _ hw.1 _ _ _ hm hb
        cases this
        exact Or.inr ⟨rfl, rfl, rfl⟩
    obtain ⟨parts, hp⟩ := seqParts_some p.exports [] (fun k f v hm hs => by
      rcases hsrc k f v hm hs with h | h <;> exact h.2.2)
    obtain ⟨hn, ho⟩ := seqParts_origin _ _ _ (by simp [Dict.keys]) hp
    have hga : parts.get? pa = some "seqTableA" := seqParts_get _ _ _ hp _ _ (Or.inl rfl) (Or.inl ha) (by
      intro f v' hm hs
      rcases hsrc _ _ _ hm hs with h | h
      · exact h.1
      · exact absurd h.2.1 hne)
    have hgb : parts.get? pb = some "seqTableB" := seqParts_get _ _ _ hp _ _ (Or.inr rfl) (Or.inl hb) (by
      intro f v' hm hs
      rcases hsrc _ _ _ hm hs with h | h
      · exact absurd h.2.1.symm hne
      · exact h.1)
    have hmem : ∀ x, x ∈ parts ↔ x = (pa, "seqTableA") ∨ x = (pb, "seqTableB") := by
      intro x
      constructor
      · intro hx
        rcases ho x.1 x.2 hx with h | ⟨h, hs⟩
        · cases h
        · rcases hsrc _ _ _ h hs with h | h
          · exact Or.inl (Prod.ext h.2.1 h.1)
          · exact Or.inr (Prod.ext h.2.1 h.1)
      · rintro (h | h) <;> subst h
        · exact Dict.get?_mem hga
        · exact Dict.get?_mem hgb
    have hnd : parts.Nodup := List.Pairwise.of_map _ (fun a b h e => h (congrArg Prod.fst e)) hn
    have hv : parts.values = ["seqTableA", "seqTableB"] ∨ parts.values = ["seqTableB", "seqTableA"] := by
      rcases pair_list (pa, "seqTableA") (pb, "seqTableB") (fun h => hne (congrArg Prod.fst h)) parts hnd hmem with h | h <;>
        rw [h] <;> simp [Dict.values]
    have hback : ∀ n e, parts.get? n = some e → (n, e) = (pa, "seqTableA") ∨ (n, e) = (pb, "seqTableB") :=
      fun n e h => (hmem _).1 (Dict.get?_mem h)
    have hma : (seqMris parts p.layout []).get? "seqTableA" = some a :=
      seqMris_get _ _ _ _ _ (Or.inl ⟨pa, hla, hga⟩) (by
        intro n' m' hm hg
        rcases hback _ _ hg with h | h
        · cases h; exact layout_unique _ hw.2 _ _ _ hm hla
        · exact absurd (show _ = _ from congrArg Prod.snd h) (by simp))
    have hmb : (seqMris parts p.layout []).get? "seqTableB" = some b :=
      seqMris_get _ _ _ _ _ (Or.inl ⟨pb, hlb, hgb⟩) (by
        intro n' m' hm hg
        rcases hback _ _ hg with h | h
        · exact absurd (show _ = _ from congrArg Prod.snd h) (by simp)
        · cases h; exact layout_unique _ hw.2 _ _ _ hm hlb)
    unfold getBlocks
    rw [hp]
    simp only
    rw [if_pos hv, hma, hmb]

/-! ### comparing positions -/

theorem seqPos_origin (p : PandA) (a b : String) (l : List (String × String)) (d d' : Dict String String)
    (h : seqPos p a b l d = some d') (n trig : String) (hg : d'.get? n = some trig) :
    d.get? n = some trig ∨ ∃ field, (field, trig) ∈ l ∧ p.value a field = some n ∧ p.value b field = some n := by
  induction l generalizing d with
  | nil => cases h; exact Or.inl hg
  | cons x l ih =>
    obtain ⟨field, t⟩ := x
    unfold seqPos at h
    split at h
    · rename_i x y hx hy
      split at h
      · rename_i hxy
        subst hxy
        rcases ih _ h with h | ⟨f, h1, h2⟩
        · by_cases hn : x = n
          · subst hn
            rw [Dict.get?_set_self] at h
            cases h
            exact Or.inr ⟨field, List.mem_cons_self .., hx, hy⟩
          · rw [Dict.get?_set_ne _ _ hn] at h
            exact Or.inl h
        · exact Or.inr ⟨f, List.mem_cons_of_mem _ h1, h2⟩
      · cases h
    · cases h

theorem seqPos_has (p : PandA) (a b : String) (l : List (String × String)) (d d' : Dict String String)
    (h : seqPos p a b l d = some d') (n : String)
    (hm : (∃ field trig, (field, trig) ∈ l ∧ p.value a field = some n) ∨ ∃ t, d.get? n = some t) :
    ∃ t, d'.get? n = some t := by
  induction l generalizing d with
  | nil =>
    cases h
    rcases hm with ⟨_, _, h, _⟩ | h
    · cases h
    · exact h
  | cons x l ih =>
    obtain ⟨field, t⟩ := x
    unfold seqPos at h
    split at h
    · rename_i x y hx hy
      split at h
      · rename_i hxy
        refine ih _ h ?_
        by_cases hn : x = n
        · subst hn; exact Or.inr ⟨t, Dict.get?_set_self _ _ _⟩
        · rcases hm with ⟨f, tr, h1, h2⟩ | ⟨t', h1⟩
          · rcases List.mem_cons.1 h1 with e | h1
            · cases e
              rw [hx] at h2
              exact absurd (Option.some.inj h2) hn
            · exact Or.inl ⟨f, tr, h1, h2⟩
          · exact Or.inr ⟨t', by rw [Dict.get?_set_ne _ _ hn]; exact h1⟩
      · cases h
    · cases h

theorem seqPos_some_iff (p : PandA) (a b : String) (l : List (String × String)) (d : Dict String String) :
    (∃ d', seqPos p a b l d = some d') ↔
    ∀ field trig, (field, trig) ∈ l → ∃ n, p.value a field = some n ∧ p.value b field = some n := by
  induction l generalizing d with
  | nil => simp [seqPos]
  | cons x l ih =>
    obtain ⟨field, t⟩ := x
    constructor
    · rintro ⟨d', h⟩ f tr hm
      unfold seqPos at h
      split at h
      · rename_i x y hx hy
        split at h
        · rename_i hxy
          subst hxy
          rcases List.mem_cons.1 hm with e | hm
          · cases e; exact ⟨x, hx, hy⟩
          · exact (ih _).1 ⟨d', h⟩ f tr hm
        · cases h
      · cases h
    · intro h
      obtain ⟨n, hx, hy⟩ := h field t (List.mem_cons_self ..)
      obtain ⟨d', hd⟩ := (ih (d.set n t)).2 (fun f tr hm => h f tr (List.mem_cons_of_mem _ hm))
      refine ⟨d', ?_⟩
      unfold seqPos
      rw [hx, hy]
      simp only [if_pos]
      exact hd

theorem compare_origin (sp : Dict String String) (axes : List String) (l : List Position) (d : Dict String Compared)
    (s : String) (c : Compared) (h : (compare sp axes l d).get? s = some c) :
    d.get? s = some c ∨ ∃ r ∈ l, r.datasetName = s ∧ s ∈ axes ∧ ∃ pos, sp.get? r.name = some pos ∧
      c = ⟨r.scale, r.offset, pos ++ ">=POSITION", pos ++ "<=POSITION"⟩ := by
  induction l generalizing d with
  | nil => exact Or.inl h
  | cons r l ih =>
    have up : (∃ r' ∈ l, r'.datasetName = s ∧ s ∈ axes ∧ ∃ pos, sp.get? r'.name = some pos ∧
        c = ⟨r'.scale, r'.offset, pos ++ ">=POSITION", pos ++ "<=POSITION"⟩) →
        ∃ r' ∈ r :: l, r'.datasetName = s ∧ s ∈ axes ∧ ∃ pos, sp.get? r'.name = some pos ∧
        c = ⟨r'.scale, r'.offset, pos ++ ">=POSITION", pos ++ "<=POSITION"⟩ :=
      fun ⟨r', h1, h2⟩ => ⟨r', List.mem_cons_of_mem _ h1, h2⟩
    unfold TrigWiring.compare at h
    split at h
    · exact (ih _ h).imp id up
    · rename_i pos hpos
      split at h
      · rename_i hax
        rcases ih _ h with h | h
        · by_cases hs : r.datasetName = s
          · subst hs
            rw [Dict.get?_set_self] at h
            exact Or.inr ⟨r, List.mem_cons_self .., rfl, hax, pos, hpos, (Option.some.inj h).symm⟩
          · rw [Dict.get?_set_ne _ _ hs] at h
            exact Or.inl h
        · exact Or.inr (up h)
      · exact (ih _ h).imp id up

theorem compare_has (sp : Dict String String) (axes : List String) (l : List Position) (d : Dict String Compared)
    (s : String) (hm : (∃ r ∈ l, r.datasetName = s ∧ s ∈ axes ∧ ∃ pos, sp.get? r.name = some pos) ∨ ∃ c, d.get? s = some c) :
    ∃ c, (compare sp axes l d).get? s = some c := by
  induction l generalizing d with
  | nil =>
    rcases hm with ⟨_, h, _⟩ | h
    · cases h
    · exact h
  | cons r l ih =>
    unfold TrigWiring.compare
    split
    · rename_i hn
      refine ih _ ?_
      rcases hm with ⟨r', h1, h2, h3, pos, h4⟩ | h
      · rcases List.mem_cons.1 h1 with e | h1
        · subst e; rw [hn] at h4; cases h4
        · exact Or.inl ⟨r', h1, h2, h3, pos, h4⟩
      · exact Or.inr h
    · rename_i pos hpos
      split
      · refine ih _ ?_
        by_cases hs : r.datasetName = s
        · subst hs; exact Or.inr ⟨_, Dict.get?_set_self _ _ _⟩
        · rcases hm with ⟨r', h1, h2, h3⟩ | ⟨c, h⟩
          · rcases List.mem_cons.1 h1 with e | h1
            · subst e; exact absurd h2 hs
            · exact Or.inl ⟨r', h1, h2, h3⟩
          · exact Or.inr ⟨c, by rw [Dict.get?_set_ne _ _ hs]; exact h⟩
      · rename_i hax
        refine ih _ ?_
        rcases hm with ⟨r', h1, h2, h3, h4⟩ | h
        · rcases List.mem_cons.1 h1 with e | h1
          · subst e; subst h2; exact absurd h3 hax
          · exact Or.inl ⟨r', h1, h2, h3, h4⟩
        · exact Or.inr h

theorem mem_inputs (field trig : String) : (field, trig) ∈ inputs ↔ Input field trig := by
  constructor
  · intro h
    simp only [inputs, List.mem_cons, Prod.mk.injEq, List.not_mem_nil, or_false] at h
    rcases h with ⟨h1, h2⟩ | ⟨h1, h2⟩ | ⟨h1, h2⟩ <;> subst h1 <;> subst h2
    · exact .a
    · exact .b
    · exact .c
  · intro h
    cases h <;> simp [inputs]

theorem pcomp_shape (p : PandA) (axes : List String) (a b : String) (t : Triggers) (ha : axes ≠ [])
    (h : seqConfigure p "Position Compare" axes = some (a, b, t)) :
    getBlocks p = some (a, b) ∧ ∃ sp, seqPos p a b inputs [] = some sp ∧ t = .compare (compare sp axes p.positions []) ∧
      compare sp axes p.positions [] ≠ [] := by
  unfold seqConfigure at h
  split at h
  · cases h
  · rename_i a' b' hg
    rw [if_neg ha, if_pos rfl] at h
    split at h
    · cases h
    · rename_i t' ht
      cases h
      unfold setupPcomp at ht
      split at ht
      · cases ht
      · rename_i sp hsp
        simp only at ht
        split at ht
        · cases ht
        · rename_i hne
          cases ht
          exact ⟨hg, sp, hsp, rfl, hne⟩

/-- Each axis that is compared is one that moves; the sequencers compare it on the input that its position is wired to,
in counts worked out with the numbers of that same position. -/
theorem compared_right (p : PandA) (axes : List String) (a b : String) (d : Dict String Compared) (ha : axes ≠ [])
    (h : seqConfigure p "Position Compare" axes = some (a, b, .compare d)) (s : String) (c : Compared)
    (hc : d.get? s = some c) :
    s ∈ axes ∧ ∃ r trig, Visible p a b s r trig ∧ ComparesWith c r trig := by
  obtain ⟨_, sp, hsp, ht, _⟩ := pcomp_shape p axes a b _ ha h
  cases ht
  rcases compare_origin _ _ _ _ _ _ hc with h | ⟨r, hr, hs, hax, pos, hpos, e⟩
  · cases h
  · rcases seqPos_origin _ _ _ _ _ _ hsp _ _ hpos with h | ⟨field, hf, h1, h2⟩
    · cases h
    · subst e
      exact ⟨hax, r, pos, ⟨hr, hs, field, (mem_inputs _ _).1 hf, h1, h2⟩, rfl, rfl, rfl, rfl⟩

/-- Every axis that moves and that the sequencers can see is compared. -/
theorem compared_all (p : PandA) (axes : List String) (a b : String) (d : Dict String Compared) (ha : axes ≠ [])
    (h : seqConfigure p "Position Compare" axes = some (a, b, .compare d)) (s : String) (hs : s ∈ axes)
    (r : Position) (trig : String) (hv : Visible p a b s r trig) : ∃ c, d.get? s = some c := by
  obtain ⟨_, sp, hsp, ht, _⟩ := pcomp_shape p axes a b _ ha h
  cases ht
  obtain ⟨hr, hd, field, hi, h1, h2⟩ := hv
  obtain ⟨pos, hpos⟩ := seqPos_has _ _ _ _ _ _ hsp r.name (Or.inl ⟨field, trig, (mem_inputs _ _).2 hi, h1⟩)
  exact compare_has _ _ _ _ _ (Or.inl ⟨r, hr, hd, hs, pos, hpos⟩)

/-- A scan with position compare is accepted just when the two sequencers are wired to the same positions and can see
one of the axes that move. -/
theorem compare_accepted_iff (p : PandA) (axes : List String) (a b : String) (ha : axes ≠ [])
    (hb : getBlocks p = some (a, b)) :
    (∃ t, seqConfigure p "Position Compare" axes = some (a, b, t)) ↔
    (∀ field trig, Input field trig → ∃ n, Wired p a b field n) ∧ ∃ s ∈ axes, ∃ r trig, Visible p a b s r trig := by
  constructor
  · rintro ⟨t, h⟩
    obtain ⟨_, sp, hsp, ht, hne⟩ := pcomp_shape p axes a b _ ha h
    refine ⟨fun field trig hi => (seqPos_some_iff p a b inputs []).1 ⟨sp, hsp⟩ field trig ((mem_inputs _ _).2 hi), ?_⟩
    cases hd : compare sp axes p.positions [] with
    | nil => exact absurd hd hne
    | cons x d =>
      have hg : (compare sp axes p.positions []).get? x.1 = some x.2 := by rw [hd, Dict.get?_cons, if_pos rfl]
      rw [ht] at h
      obtain ⟨h1, r, trig, h2, _⟩ := compared_right p axes a b _ ha h x.1 x.2 hg
      exact ⟨x.1, h1, r, trig, h2⟩
  · rintro ⟨hall, s, hs, r, trig, hr, hd, field, hi, h1, h2⟩
    obtain ⟨sp, hsp⟩ := (seqPos_some_iff p a b inputs []).2 (fun f t hm => hall f t ((mem_inputs _ _).1 hm))
    obtain ⟨pos, hpos⟩ := seqPos_has _ _ _ _ _ _ hsp r.name (Or.inl ⟨field, trig, (mem_inputs _ _).2 hi, h1⟩)
    obtain ⟨c, hc⟩ := compare_has sp axes p.positions [] s (Or.inl ⟨r, hr, hd, hs, pos, hpos⟩)
    have hne : compare sp axes p.positions [] ≠ [] := by intro e; rw [e] at hc; cases hc
    refine ⟨.compare (compare sp axes p.positions []), ?_⟩
    unfold seqConfigure
    rw [hb]
    simp only [if_neg ha, if_pos]
    unfold setupPcomp
    rw [hsp]
    simp only [if_neg hne]

/-- Otherwise it is accepted just when the two sequencers wait for the same signal and there is one; if nothing moves
nothing is asked of the wiring. -/
theorem gate_accepted_iff (p : PandA) (rowTrigger : String) (hr : rowTrigger ≠ "Position Compare") (axes : List String)
    (a b : String) (hb : getBlocks p = some (a, b)) (t : Triggers) :
    seqConfigure p rowTrigger axes = some (a, b, t) ↔
    (axes = [] ∧ t = .none) ∨ (axes ≠ [] ∧ t = .gate axes ∧
      ∃ n, n ≠ "ZERO" ∧ Wired p a b "bita" n) := by
  unfold seqConfigure
  rw [hb]
  simp only
  by_cases ha : axes = []
  · rw [if_pos ha]
    constructor
    · intro h; cases h; exact Or.inl ⟨ha, rfl⟩
    · rintro (⟨_, h⟩ | ⟨h, _⟩)
      · subst h; rfl
      · exact absurd ha h
  · rw [if_neg ha, if_neg hr]
    constructor
    · intro h
      right
      split at h
      · rename_i x y hx hy
        split at h
        · rename_i hxy
          cases h
          exact ⟨ha, rfl, y, hxy.2, hxy.1 ▸ hx, hy⟩
        · cases h
      · cases h
    · rintro (⟨h, _⟩ | ⟨_, h, n, hn, h1, h2⟩)
      · exact absurd h ha
      · subst h
        rw [h1, h2]
        simp only [true_and, ne_eq, hn, not_false_eq_true, if_true]

/-- Two sequencers, with one of the two axes wired to them. -/
def wiring : PandA where
  exports := [(("SEQ2", "table"), "seqTableB"), (("SEQ1", "table"), "seqTableA"), (("SRGATE1", "forceSet"), "seqSetEnable")]
  layout := [("INENC1", "P:INENC1"), ("SEQ1", "P:SEQ1"), ("SEQ2", "P:SEQ2")]
  positions := [⟨"INENC1.VAL", "x", 3, 5⟩, ⟨"INENC2.VAL", "y", 7, 11⟩]
  value := fun m f =>
    if m = "P:SEQ1" ∨ m = "P:SEQ2" then
      if f = "posb" then some "INENC1.VAL"
      else if f = "posa" ∨ f = "posc" then some "ZERO"
      else if f = "bita" then some "TTLIN1.VAL" else none
    else none

example : WellFormed wiring ∧ getBlocks wiring = some ("P:SEQ1", "P:SEQ2") ∧
    seqConfigure wiring "Position Compare" ["x", "y"] =
      some ("P:SEQ1", "P:SEQ2", .compare [("x", ⟨3, 5, "POSB>=POSITION", "POSB<=POSITION"⟩)]) ∧
    seqConfigure wiring "Position Compare" ["y"] = none ∧
    seqConfigure wiring "Motion Controller" ["x", "y"] = some ("P:SEQ1", "P:SEQ2", .gate ["x", "y"]) ∧
    seqConfigure wiring "Position Compare" [] = some ("P:SEQ1", "P:SEQ2", .none) := by
  refine ⟨?_, by decide +kernel, by decide +kernel, by decide +kernel, by decide +kernel, by decide +kernel⟩
  unfold WellFormed
  decide +kernel

/-! ### the gate -/

/-- what the gate has to be in a state of rest -/
def Rests (opened : Bool) : Ctrl → Prop
  | .ready | .armed | .paused => opened = false
  | .busy _ _ _ => False
  | _ => True

/-- the hooks still to come find the gate as it should be -/
def SafeRest (opened axes : Bool) : List Hook → Ctrl → Prop
  | [], f => Rests opened f
  | .configure a :: t, f => opened = false ∧ SafeRest opened a t f
  | .preRun :: t, f => SafeRest (if axes then true else opened) axes t f
  | .run :: t, f => opened = axes ∧ SafeRest true axes t f
  | .reset :: t, f => SafeRest false axes t f
  | .abort :: t, f => SafeRest false axes t f
  | .postInner a :: t, f => SafeRest false a t f

def Logs (g : Gate) : Prop :=
  g.hasReset = true ∧ (∀ b ∈ g.writes, b = false) ∧ ∀ x ∈ g.runs, x.2.1 = x.1 ∧ x.2.2 = true

def Inv (w : World) : Prop :=
  Logs w.gate ∧ match w.ctrl with
    | .busy _ rest f => SafeRest w.gate.opened w.gate.axes rest f
    | c => Rests w.gate.opened c

theorem hook_inv (g : Gate) (h : Hook) (t : List Hook) (f : Ctrl) (hl : Logs g)
    (hs : SafeRest g.opened g.axes (h :: t) f) :
    Logs (g.hook h) ∧ SafeRest (g.hook h).opened (g.hook h).axes t f := by
  obtain ⟨h1, h2, h3⟩ := hl
  have app : ∀ b, b = false → ∀ x ∈ g.writes ++ [b], x = false := by
    intro b hb x hx
    rcases List.mem_append.1 hx with hx | hx
    · exact h2 x hx
    · rw [List.mem_singleton.1 hx]; exact hb
  cases h with
  | configure a =>
    obtain ⟨ho, hs⟩ := hs
    exact ⟨⟨h1, app _ ho, h3⟩, hs⟩
  | preRun =>
    have hs : SafeRest (if g.axes then true else g.opened) g.axes t f := hs
    cases ha : g.axes with
    | true =>
      rw [ha] at hs
      have e : g.hook .preRun = { g with opened := true } := by simp [Gate.hook, ha]
      rw [e]
      exact ⟨⟨h1, h2, h3⟩, by rw [ha]; exact hs⟩
    | false =>
      rw [ha] at hs
      have e : g.hook .preRun = g := by simp [Gate.hook, ha]
      rw [e]
      exact ⟨⟨h1, h2, h3⟩, by rw [ha]; exact hs⟩
  | run =>
    obtain ⟨ho, hs⟩ := hs
    cases ha : g.axes with
    | true =>
      rw [ha] at ho hs
      have e : g.hook .run = { g with runs := g.runs ++ [(true, true, true)] } := by simp [Gate.hook, ha, ho]
      rw [e]
      refine ⟨⟨h1, h2, ?_⟩, by show SafeRest g.opened g.axes t f; rw [ho, ha]; exact hs⟩
      intro x hx
      rcases List.mem_append.1 hx with hx | hx
      · exact h3 x hx
      · rw [List.mem_singleton.1 hx]; exact ⟨rfl, rfl⟩
    | false =>
      rw [ha] at ho hs
      have e : g.hook .run = { g with opened := true, runs := g.runs ++ [(false, false, true)] } := by
        simp [Gate.hook, ha, ho]
      rw [e]
      refine ⟨⟨h1, h2, ?_⟩, by show SafeRest true g.axes t f; rw [ha]; exact hs⟩
      intro x hx
      rcases List.mem_append.1 hx with hx | hx
      · exact h3 x hx
      · rw [List.mem_singleton.1 hx]; exact ⟨rfl, rfl⟩
  | reset =>
    have e : g.hook .reset = { g with opened := false } := by simp [Gate.hook, Gate.shut, h1]
    rw [e]
    exact ⟨⟨h1, h2, h3⟩, hs⟩
  | abort =>
    have e : g.hook .abort = { g with opened := false } := by simp [Gate.hook, Gate.shut, h1]
    rw [e]
    exact ⟨⟨h1, h2, h3⟩, hs⟩
  | postInner a =>
    have e : g.hook (.postInner a) = { g with opened := false, axes := a, writes := g.writes ++ [false] } := by
      simp [Gate.hook, Gate.shut, Gate.load, h1]
    rw [e]
    exact ⟨⟨h1, app _ rfl, h3⟩, hs⟩

theorem run_safe (opened axes : Bool) (ho : opened = false) (next : Option Bool) :
    SafeRest opened axes (runHooks next) (runFinal next) := by
  subst ho
  cases next <;> cases axes <;> simp [runHooks, runFinal, SafeRest, Rests]

theorem step_inv (w w' : World) (c : Call) (hi : Inv w) (h : step w c = some w') : Inv w' := by
  obtain ⟨hl, hi⟩ := hi
  obtain ⟨ctrl, gate⟩ := w
  cases c with
  | configure a =>
    cases ctrl <;> simp only [step] at h <;> cases h
    · exact ⟨hl, hi, hi⟩
    · exact ⟨hl, rfl, rfl⟩
  | run nx =>
    cases ctrl <;> simp only [step] at h <;> cases h
    exact ⟨hl, run_safe _ _ hi nx⟩
  | resume nx =>
    cases ctrl <;> simp only [step] at h <;> cases h
    exact ⟨hl, run_safe _ _ hi nx⟩
  | pause a =>
    cases ctrl with
    | busy d r f =>
      cases d <;> simp only [step] at h <;> cases h
      exact ⟨hl, rfl, rfl⟩
    | _ =>
      simp only [step] at h
      cases h
      try exact ⟨hl, rfl, rfl⟩
  | abort =>
    cases ctrl with
    | busy d r f =>
      cases d <;> simp only [step] at h <;> cases h <;> exact ⟨hl, trivial⟩
    | _ =>
      simp only [step] at h
      cases h
      try exact ⟨hl, trivial⟩
  | reset =>
    cases ctrl <;> simp only [step] at h <;> cases h <;> exact ⟨hl, rfl⟩
  | disable => cases h; exact ⟨hl, trivial⟩
  | fail => cases ctrl <;> simp only [step] at h <;> cases h; exact ⟨hl, trivial⟩
  | next =>
    cases ctrl with
    | busy d r f =>
      cases r with
      | nil =>
        cases h
        refine ⟨hl, ?_⟩
        have hi : Rests gate.opened f := hi
        cases f <;> first | exact hi | exact hi.elim
      | cons x t =>
        cases h
        exact hook_inv gate x t f hl hi
    | _ => simp only [step] at h; cases h

theorem steps_inv (w : World) (l : List Call) (hi : Inv w) : Inv (steps w l) := by
  induction l generalizing w with
  | nil => exact hi
  | cons c l ih =>
    refine ih _ ?_
    cases h : step w c with
    | none => exact hi
    | some w' => exact step_inv w w' c hi h

/-- Whatever is called in whatever order, the tables are never written while the sequencers are enabled; when a run begins
they are already enabled just if they wait for something that moves, and from then on they are; in Ready, Armed and
Paused they are not. Assumed: the sequencers were not enabled at first, and the PandA has the method to reset them. -/
theorem enabled_only_in_runs_partial (w : World) (hc : w.ctrl = .ready ∨ w.ctrl = .disabled)
    (hg : w.gate = { opened := false, hasReset := true }) (l : List Call) :
    (∀ b ∈ (steps w l).gate.writes, b = false) ∧
    (∀ x ∈ (steps w l).gate.runs, x.2.1 = x.1 ∧ x.2.2 = true) ∧
    ((steps w l).ctrl = .ready ∨ (steps w l).ctrl = .armed ∨ (steps w l).ctrl = .paused → (steps w l).gate.opened = false) := by
  have hi : Inv w := by
    obtain ⟨ctrl, gate⟩ := w
    subst hg
    refine ⟨⟨rfl, by simp, by simp⟩, ?_⟩
    rcases hc with h | h <;> subst h
    · rfl
    · trivial
  obtain ⟨⟨_, h2, h3⟩, h4⟩ := steps_inv w l hi
  refine ⟨h2, h3, ?_⟩
  rintro (h | h | h) <;> rw [h] at h4 <;> exact h4

/-- a scan of two parts, paused in the second and resumed, and another that is begun from Finished -/
def session : List Call :=
  [.configure true, .next, .next, .run (some true), .next, .next, .next, .next, .run none, .next, .next, .pause true, .next,
   .next, .next, .resume none, .next, .next, .next, .configure false, .next, .next, .next, .run none, .next, .next]

example : (steps ⟨.ready, { opened := false }⟩ session).gate.writes = [false, false, false, false] ∧
    (steps ⟨.ready, { opened := false }⟩ session).gate.runs =
      [(true, true, true), (true, true, true), (true, true, true), (false, false, true)] ∧
    (steps ⟨.ready, { opened := false }⟩ session).gate.opened = true := by decide +kernel

/-- After a crash in the middle of a scan the sequencers are still enabled: the tables of the next one are written while
they are, and nothing has reset them when its run begins. -/
theorem enabled_after_crash : ∃ l, (steps ⟨.ready, { opened := true }⟩ l).gate.writes = [true] ∧
    (steps ⟨.ready, { opened := true }⟩ l).gate.runs = [(false, true, true)] :=
  ⟨[.configure false, .next, .next, .run none, .next, .next], by decide +kernel⟩

/-- If there is no method exported as `seqReset`, an abort leaves the sequencers enabled, and the next scan is configured
while they are. -/
theorem enabled_without_reset : ∃ l,
    (steps ⟨.ready, { opened := false, hasReset := false }⟩ l).ctrl = .aborted ∧
    (steps ⟨.ready, { opened := false, hasReset := false }⟩ l).gate.opened = true ∧
    ∃ l', (steps ⟨.ready, { opened := false, hasReset := false }⟩ (l ++ l')).gate.writes = [false, true] :=
  ⟨[.configure true, .next, .next, .run none, .next, .next, .abort, .next, .next], by decide +kernel, by decide +kernel,
    [.reset, .next, .next, .configure true, .next], by decide +kernel⟩

/-! ### pulses -/

/-- The frames per step are those of the first row for the detector. -/
theorem frames_iff (mri : String) (rows : List DetRow) (n : Nat) : framesPerStep mri rows = some n ↔ Asked rows mri n := by
  induction rows with
  | nil =>
    constructor
    · intro h; cases h
    · rintro ⟨b, r, a, h, _⟩
      cases b <;> cases h
  | cons r l ih =>
    unfold framesPerStep
    by_cases hm : r.mri = mri
    · rw [if_pos hm]
      constructor
      · intro h
        refine ⟨[], r, l, rfl, by simp, hm, ?_⟩
        by_cases he : r.enable = true
        · rw [if_pos he] at h
          split at h
          · rename_i hf
            have := Option.some.inj h
            exact Or.inl ⟨he, hf, by omega⟩
          · cases h
        · rw [if_neg he] at h
          exact Or.inr ⟨by simpa using he, (Option.some.inj h).symm⟩
      · rintro ⟨b, r', a, h, hb, hm', hx⟩
        have : r = r' := by
          cases b with
          | nil => exact (List.cons.inj h).1
          | cons y b =>
            have := (List.cons.inj h).1
            subst this
            exact absurd hm (hb _ (List.mem_cons_self ..))
        subst this
        rcases hx with ⟨he, h0, hf⟩ | ⟨he, hf⟩
        · rw [if_pos he, if_pos h0]
          congr 1
          omega
        · rw [if_neg (by simp [he]), hf]
    · rw [if_neg hm, ih]
      constructor
      · rintro ⟨b, r', a, h, hb, h2⟩
        refine ⟨r :: b, r', a, by rw [h]; rfl, ?_, h2⟩
        intro x hx
        rcases List.mem_cons.1 hx with e | hx
        · subst e; exact hm
        · exact hb x hx
      · rintro ⟨b, r', a, h, hb, h2⟩
        cases b with
        | nil =>
          have := (List.cons.inj h).1
          subst this
          exact absurd h2.1 hm
        | cons y b =>
          exact ⟨b, r', a, (List.cons.inj h).2, fun x hx => hb x (List.mem_cons_of_mem _ hx), h2⟩

theorem pulsePart_origin (l : List Export) (pulse : String) (exp : List String) (part : String) (hn : exp.Nodup)
    (h : pulsePart l pulse exp = some part) :
    (pulse ≠ "" → part = pulse) ∧
    ((∀ x ∈ l, x.1.1 ≠ "") → ∀ e ∈ exp, ∃ f, ((part, f), e) ∈ l) := by
  induction l generalizing pulse exp with
  | nil =>
    unfold pulsePart at h
    split at h
    · rename_i he
      cases h
      exact ⟨fun _ => rfl, fun _ e hm => by rw [he] at hm; cases hm⟩
    · cases h
  | cons x l ih =>
    obtain ⟨⟨p, f⟩, e⟩ := x
    unfold pulsePart at h
    split at h
    · rename_i hin
      have key : ∀ pulse', pulsePart l pulse' (exp.erase e) = some part → (p ≠ "" → part = p) →
          ((∀ x ∈ ((p, f), e) :: l, x.1.1 ≠ "") → ∀ e' ∈ exp, ∃ f', ((part, f'), e') ∈ ((p, f), e) :: l) := by
        intro pulse' h' hp hne e' he'
        have hp := hp (hne _ (List.mem_cons_self ..))
        by_cases hee : e' = e
        · subst hee; subst hp
          exact ⟨f, List.mem_cons_self ..⟩
        · obtain ⟨f', hf'⟩ := (ih _ _ (hn.erase _) h').2 (fun x hx => hne x (List.mem_cons_of_mem _ hx)) e'
            ((List.mem_erase_of_ne hee).2 he')
          exact ⟨f', List.mem_cons_of_mem _ hf'⟩
      split at h
      · rename_i hpu
        split at h
        · rename_i hpp
          have := (ih _ _ (hn.erase _) h).1 hpu
          exact ⟨fun _ => this, key _ h (fun _ => by rw [this, hpp])⟩
        · cases h
      · rename_i hpu
        exact ⟨fun hc => absurd hc hpu, key _ h (ih _ _ (hn.erase _) h).1⟩
    · obtain ⟨h1, h2⟩ := ih _ _ hn h
      refine ⟨h1, fun hne e' he' => ?_⟩
      obtain ⟨f', hf'⟩ := h2 (fun x hx => hne x (List.mem_cons_of_mem _ hx)) e' he'
      exact ⟨f', List.mem_cons_of_mem _ hf'⟩

theorem pulsePart_some (l : List Export) (pulse : String) (exp : List String) (part : String) (hn : exp.Nodup)
    (hp : pulse = "" ∨ pulse = part) (hl : (l.map (·.2)).Nodup) (hx : exp = [] → pulse = part)
    (h : ∀ e ∈ exp, ∃ f, ((part, f), e) ∈ l) : pulsePart l pulse exp = some part := by
  induction l generalizing pulse exp with
  | nil =>
    cases exp with
    | nil => unfold pulsePart; rw [if_pos rfl, hx rfl]
    | cons e _ =>
      obtain ⟨f, hf⟩ := h e (List.mem_cons_self ..)
      cases hf
  | cons x l ih =>
    obtain ⟨⟨p, f⟩, e⟩ := x
    simp only [List.map_cons, List.nodup_cons, List.mem_map, not_exists, not_and] at hl
    have rest : ∀ e' ∈ exp, e' ≠ e → ∃ f, ((part, f), e') ∈ l := by
      intro e' he' hne
      obtain ⟨f', hf'⟩ := h e' he'
      rcases List.mem_cons.1 hf' with h' | h'
      · exact absurd (congrArg Prod.snd h') hne
      · exact ⟨f', h'⟩
    unfold pulsePart
    split
    · rename_i hin
      have hpart : p = part := by
        obtain ⟨f', hf'⟩ := h e hin
        rcases List.mem_cons.1 hf' with h' | h'
        · cases h'; rfl
        · exact absurd rfl (hl.1 _ h')
      have hrest : ∀ e' ∈ exp.erase e, ∃ f, ((part, f), e') ∈ l := by
        intro e' he'
        have := (hn.mem_erase_iff).1 he'
        exact rest e' this.2 this.1
      subst hpart
      split
      · rename_i hpu
        have : pulse = p := by
          rcases hp with hp | hp
          · exact absurd hp hpu
          · exact hp
        subst this
        rw [if_pos rfl]
        exact ih _ _ (hn.erase _) (Or.inr rfl) hl.2 (fun _ => rfl) hrest
      · exact ih _ _ (hn.erase _) (Or.inr rfl) hl.2 (fun _ => rfl) hrest
    · rename_i hin
      exact ih _ _ hn hp hl.2 hx (fun e' he' => rest e' he' (fun hc => hin (hc ▸ he')))

theorem app_ne (name s t : String) (h : s ≠ t) : name ++ s ≠ name ++ t := by
  intro e
  apply h
  have := congrArg String.toList e
  simp only [String.toList_append, List.append_cancel_left_eq] at this
  exact String.toList_inj.1 this

theorem expected_nodup (name : String) : (expected name).Nodup := by
  have h : ∀ s t : String, s ≠ t → name ++ s ≠ name ++ t := app_ne name
  simp only [expected, List.nodup_cons, List.mem_cons, List.not_mem_nil, or_false, not_or, List.nodup_nil, and_true,
    not_false_eq_true]
  exact ⟨⟨h _ _ (by decide), h _ _ (by decide), h _ _ (by decide)⟩, ⟨h _ _ (by decide), h _ _ (by decide)⟩, h _ _ (by decide)⟩

theorem mem_expected (name e : String) : e ∈ expected name ↔ ∃ s ∈ ["Pulses", "Width", "Step", "Delay"], e = name ++ s := by
  simp [expected]

theorem pulseMri_iff (part : String) (l : List (String × String)) (m0 mri : String) (hl : (l.map (·.1)).Nodup)
    (hne : ∀ x ∈ l, x.2 ≠ "") :
    pulseMri part l m0 = some mri ↔ (part, mri) ∈ l ∨ ((∀ m, (part, m) ∉ l) ∧ m0 = mri ∧ mri ≠ "") := by
  induction l generalizing m0 with
  | nil =>
    unfold pulseMri
    by_cases h : m0 = ""
    · rw [if_pos h]
      constructor
      · intro h; cases h
      · rintro (h' | ⟨_, h1, h2⟩)
        · cases h'
        · exact absurd (h1 ▸ h) h2
    · rw [if_neg h]
      constructor
      · intro h'
        cases h'
        exact Or.inr ⟨by simp, rfl, h⟩
      · rintro (h' | ⟨_, h1, h2⟩)
        · cases h'
        · rw [h1]
  | cons x l ih =>
    obtain ⟨n, m⟩ := x
    simp only [List.map_cons, List.nodup_cons, List.mem_map, not_exists, not_and] at hl
    have hne' : ∀ x ∈ l, x.2 ≠ "" := fun x hx => hne x (List.mem_cons_of_mem _ hx)
    unfold pulseMri
    rw [ih _ hl.2 hne']
    by_cases hn : n = part
    · subst hn
      rw [if_pos rfl]
      have hno : ∀ m', (n, m') ∉ l := fun m' hm => hl.1 _ hm rfl
      constructor
      · rintro (h | ⟨_, h, h2⟩)
        · exact absurd h (hno _)
        · subst h; exact Or.inl (List.mem_cons_self ..)
      · rintro (h | ⟨h, _⟩)
        · rcases List.mem_cons.1 h with h | h
          · cases h
            exact Or.inr ⟨hno, rfl, hne _ (List.mem_cons_self ..)⟩
          · exact absurd h (hno _)
        · exact absurd (List.mem_cons_self ..) (h m)
    · rw [if_neg hn]
      have hmem : ∀ m', (part, m') ∈ (n, m) :: l ↔ (part, m') ∈ l := by
        intro m'
        constructor
        · intro h
          rcases List.mem_cons.1 h with h | h
          · cases h; exact absurd rfl hn
          · exact h
        · exact List.mem_cons_of_mem _
      simp only [hmem]

theorem unitsOk_iff (p : PandA) (mri : String) : unitsOk p mri = true ↔ InSeconds p mri := by
  have e1 : ("width" ++ "Units" : String) = "widthUnits" := by decide
  have e2 : ("step" ++ "Units" : String) = "stepUnits" := by decide
  have e3 : ("delay" ++ "Units" : String) = "delayUnits" := by decide
  simp [unitsOk, InSeconds, e1, e2, e3]

/-- The scan is accepted just when every point takes the same time, the detector is in the table, all four exports come from
one part, and the times of its block are in seconds. -/
theorem pulse_accepted_iff (p : PandA) (hw : WellFormed p) (hp : ∀ x ∈ p.exports, x.1.1 ≠ "") (hm : ∀ x ∈ p.layout, x.2 ≠ "")
    (name detector : String) (duration : ℚ) (rows : List DetRow) (frames : Nat) :
    pulseConfigure p name detector duration rows = some frames ↔
    0 < duration ∧ Asked rows detector frames ∧
      ∃ part mri, PulseExports p name part ∧ (part, mri) ∈ p.layout ∧ InSeconds p mri := by
  have hexp : ∀ part, (∀ e ∈ expected name, ∃ f, ((part, f), e) ∈ p.exports) ↔ PulseExports p name part := by
    intro part
    constructor
    · intro h s hs
      exact h _ ((mem_expected _ _).2 ⟨s, hs, rfl⟩)
    · intro h e he
      obtain ⟨s, hs, e'⟩ := (mem_expected _ _).1 he
      subst e'
      exact h s hs
  unfold pulseConfigure
  constructor
  · intro h
    split at h
    · rename_i hd
      split at h
      · cases h
      · rename_i f hf
        split at h
        · cases h
        · rename_i part hpart
          split at h
          · cases h
          · rename_i mri hmri
            split at h
            · rename_i hu
              cases h
              refine ⟨hd, (frames_iff _ _ _).1 hf, part, mri, (hexp part).1
                ((pulsePart_origin _ _ _ _ (expected_nodup name) hpart).2 hp), ?_, (unitsOk_iff _ _).1 hu⟩
              rcases (pulseMri_iff _ _ _ _ hw.2 hm).1 hmri with h | ⟨_, h1, h2⟩
              · exact h
              · exact absurd h1.symm h2
            · cases h
    · cases h
  · rintro ⟨hd, ha, part, mri, he, hl, hu⟩
    have hne : (∀ e ∈ expected name, ∃ f, ((part, f), e) ∈ p.exports) := (hexp part).2 he
    rw [if_pos hd, (frames_iff _ _ _).2 ha]
    simp only
    rw [pulsePart_some p.exports "" (expected name) part (expected_nodup name) (Or.inl rfl) hw.1
      (fun h => by simp [expected] at h) hne]
    simp only
    rw [(pulseMri_iff part p.layout "" mri hw.2 hm).2 (Or.inl hl)]
    simp only
    rw [if_pos ((unitsOk_iff _ _).2 hu)]

theorem put_found (l : List Export) (hn : (l.map (·.2)).Nodup) (fields : Dict (String × String) ℚ) (src : String × String)
    (e : String) (v : ℚ) (h : (src, e) ∈ l) : putExport l fields e v = fields.set src v := by
  have : l.find? (fun x => decide (x.2 = e)) = some (src, e) := by
    cases hf : l.find? (fun x => decide (x.2 = e)) with
    | none =>
      have := List.find?_eq_none.1 hf _ h
      simp at this
    | some y =>
      have h1 := List.find?_some hf
      have h2 := List.mem_of_find?_eq_some hf
      simp only [decide_eq_true_eq] at h1
      obtain ⟨s, e'⟩ := y
      simp only at h1
      subst h1
      rw [export_unique l hn _ _ _ h2 h]
  unfold putExport
  rw [this]

/-- If each export comes from the field it is named after, then the fields of the pulse block are those of the pulses of
the detector, and no other field is touched; a detector that takes no part in the scan changes nothing. -/
theorem values_reach_partial (p : PandA) (hw : WellFormed p) (name part : String) (hf : PulseFields p name part)
    (duration : ℚ) (frames : Nat) (state : String) (exposure : Option ℚ) (zeroDelay : Bool)
    (fields fields' : Dict (String × String) ℚ)
    (h : pulsePost p name duration frames state exposure zeroDelay fields = some fields') :
    (frames = 0 → fields' = fields) ∧
    (0 < frames → state = "Armed" ∧ ∃ v, Exposure.pulses duration frames exposure zeroDelay = some v ∧
      fields'.get? (part, "step") = some v.step ∧ fields'.get? (part, "width") = some v.width ∧
      fields'.get? (part, "delay") = some v.delay ∧ fields'.get? (part, "pulses") = some (v.pulses : ℚ) ∧
      ∀ k, k ∉ [(part, "step"), (part, "width"), (part, "delay"), (part, "pulses")] → fields'.get? k = fields.get? k) := by
  obtain ⟨h1, h2, h3, h4⟩ := hf
  unfold pulsePost at h
  by_cases h0 : frames > 0
  · rw [if_pos h0] at h
    refine ⟨fun hc => absurd h0 (by omega), fun _ => ?_⟩
    split at h
    · rename_i hs
      split at h
      · cases h
      · rename_i v hv
        rw [put_found _ hw.1 _ _ _ _ h3, put_found _ hw.1 _ _ _ _ h2, put_found _ hw.1 _ _ _ _ h4,
          put_found _ hw.1 _ _ _ _ h1] at h
        cases h
        have ne : ∀ s t : String, s ≠ t → (part, s) ≠ (part, t) := fun s t h e => h (congrArg Prod.snd e)
        refine ⟨hs, v, hv, ?_, ?_, ?_, ?_, ?_⟩
        · rw [Dict.get?_set_ne _ _ (ne _ _ (by decide)), Dict.get?_set_ne _ _ (ne _ _ (by decide)),
            Dict.get?_set_ne _ _ (ne _ _ (by decide)), Dict.get?_set_self]
        · rw [Dict.get?_set_ne _ _ (ne _ _ (by decide)), Dict.get?_set_ne _ _ (ne _ _ (by decide)), Dict.get?_set_self]
        · rw [Dict.get?_set_ne _ _ (ne _ _ (by decide)), Dict.get?_set_self]
        · rw [Dict.get?_set_self]
        · intro k hk
          simp only [List.mem_cons, List.not_mem_nil, or_false, not_or] at hk
          rw [Dict.get?_set_ne _ _ (fun e => hk.2.2.2 e.symm), Dict.get?_set_ne _ _ (fun e => hk.2.2.1 e.symm),
            Dict.get?_set_ne _ _ (fun e => hk.2.1 e.symm), Dict.get?_set_ne _ _ (fun e => hk.1 e.symm)]
    · cases h
  · rw [if_neg h0] at h
    cases h
    exact ⟨fun _ => rfl, fun hc => absurd hc h0⟩

/-- a pulse block for the detector, with the exports that are asked for -/
def pulseWiring (width delay : String) : PandA where
  exports := [(("PULSE2", "pulses"), "detPulses"), (("PULSE2", width), "detWidth"), (("PULSE2", "step"), "detStep"),
    (("PULSE2", delay), "detDelay")]
  layout := [("PULSE1", "P:PULSE1"), ("PULSE2", "P:PULSE2")]
  positions := []
  value := fun m f => if m = "P:PULSE2" ∧ (f = "widthUnits" ∨ f = "stepUnits" ∨ f = "delayUnits") then some "s" else none

example : WellFormed (pulseWiring "width" "delay") ∧ PulseFields (pulseWiring "width" "delay") "det" "PULSE2" ∧
    pulseConfigure (pulseWiring "width" "delay") "det" "D" 1 [⟨true, "E", 1⟩, ⟨true, "D", 2⟩] = some 2 ∧
    pulsePost (pulseWiring "width" "delay") "det" 1 2 "Armed" (some (1 / 10)) false [] =
      some [(("PULSE2", "step"), 1 / 2), (("PULSE2", "width"), 1 / 10), (("PULSE2", "delay"), 1 / 5), (("PULSE2", "pulses"), 2)] := by
  refine ⟨?_, ?_, by decide +kernel, by decide +kernel⟩
  · unfold WellFormed; decide +kernel
  · unfold PulseFields; decide +kernel

/-- Nothing checks which fields the exports come from: with width and delay the wrong way round the scan is accepted and
the pulse is as long as its delay should be. -/
theorem crossed_exports_accepted :
    WellFormed (pulseWiring "delay" "width") ∧
    pulseConfigure (pulseWiring "delay" "width") "det" "D" 1 [⟨true, "D", 2⟩] = some 2 ∧
    ∃ f, pulsePost (pulseWiring "delay" "width") "det" 1 2 "Armed" (some (1 / 10)) false [] = some f ∧
      f.get? ("PULSE2", "width") = some (1 / 5) ∧ f.get? ("PULSE2", "delay") = some (1 / 10) := by
  refine ⟨?_, by decide +kernel,
    [(("PULSE2", "step"), 1 / 2), (("PULSE2", "delay"), 1 / 10), (("PULSE2", "width"), 1 / 5), (("PULSE2", "pulses"), 2)],
    by decide +kernel, by decide +kernel, by decide +kernel⟩
  unfold WellFormed; decide +kernel

end Verif.Props.TrigWiring
