import Verif.Model.Fields
import Verif.Proofs.PyDict
/-! C22: the fields of a block. -/
set_option linter.unusedVariables false
set_option linter.unusedSectionVars false
namespace Verif.Props.Fields
open Verif Verif.Fields
variable {O : Type} [DecidableEq O]

/-- Specification: a name is camelCase if it begins with a small letter and consists of ASCII letters
and digits. -/
def Camel (l : List Char) : Prop :=
  (∃ c cs, l = c :: cs ∧ 'a' ≤ c ∧ c ≤ 'z') ∧
  ∀ c ∈ l, ('a' ≤ c ∧ c ≤ 'z') ∨ ('A' ≤ c ∧ c ≤ 'Z') ∨ ('0' ≤ c ∧ c ≤ '9')

theorem class_iff (c : Char) : (lower c || digit c || upper c) = true ↔
    ('a' ≤ c ∧ c ≤ 'z') ∨ ('A' ≤ c ∧ c ≤ 'Z') ∨ ('0' ≤ c ∧ c ≤ '9') := by
  simp only [lower, digit, upper, Bool.or_eq_true, Bool.and_eq_true, decide_eq_true_eq]
  constructor
  · rintro ((h | h) | h)
    · exact .inl h
    · exact .inr (.inr h)
    · exact .inr (.inl h)
  · rintro (h | h | h)
    · exact .inl (.inl h)
    · exact .inr h
    · exact .inl (.inr h)

theorem newline_not_class : (lower '\n' || digit '\n' || upper '\n') = false := by decide

theorem camelRest_iff (l : List Char) : camelRest l = true ↔
    ∃ t, (l = t ∨ l = t ++ ['\n']) ∧ ∀ c ∈ t, (lower c || digit c || upper c) = true := by
  induction l with
  | nil => simp only [camelRest, true_iff]; exact ⟨[], .inl rfl, by simp⟩
  | cons c cs ih =>
    unfold camelRest
    by_cases hc : (lower c || digit c || upper c) = true
    · rw [if_pos hc, ih]
      constructor
      · rintro ⟨t, ht, ha⟩
        refine ⟨c :: t, ?_, ?_⟩
        · rcases ht with ht | ht
          · exact .inl (by rw [ht])
          · exact .inr (by rw [ht]; rfl)
        · intro x hx
          rcases List.mem_cons.1 hx with rfl | hx
          · exact hc
          · exact ha x hx
      · rintro ⟨t, ht, ha⟩
        cases t with
        | nil =>
          rcases ht with ht | ht
          · cases ht
          · simp only [List.nil_append, List.cons.injEq] at ht
            rw [ht.1, newline_not_class] at hc; cases hc
        | cons d t =>
          refine ⟨t, ?_, fun x hx => ha x (List.mem_cons_of_mem _ hx)⟩
          rcases ht with ht | ht
          · simp only [List.cons.injEq] at ht; exact .inl ht.2
          · simp only [List.cons_append, List.cons.injEq] at ht; exact .inr ht.2
    · rw [if_neg hc]
      constructor
      · intro h
        refine ⟨[], .inr ?_, by simp⟩
        unfold atEnd at h
        split at h
        · rename_i he; cases he
        · rename_i he; rw [he]; rfl
        · cases h
      · rintro ⟨t, ht, ha⟩
        cases t with
        | nil =>
          rcases ht with ht | ht
          · cases ht
          · simp only [List.nil_append, List.cons.injEq] at ht
            rw [ht.1, ht.2]; rfl
        | cons d t =>
          have : c = d := by
            rcases ht with ht | ht
            · simp only [List.cons.injEq] at ht; exact ht.1
            · simp only [List.cons_append, List.cons.injEq] at ht; exact ht.1
          exact absurd (ha d List.mem_cons_self) (this ▸ hc)

/-- C22. The pattern accepts exactly the camelCase names, and those followed by one newline. -/
theorem camel_pattern_partial (l : List Char) :
    camelRe l = true ↔ ∃ t, (l = t ∨ l = t ++ ['\n']) ∧ Camel t := by
  cases l with
  | nil =>
    simp only [camelRe, Bool.false_eq_true, false_iff]
    rintro ⟨t, ht, ⟨⟨c, cs, hc, _⟩, _⟩⟩
    rcases ht with ht | ht
    · rw [hc] at ht; cases ht
    · rw [hc] at ht; cases ht
  | cons c cs =>
    simp only [camelRe, Bool.and_eq_true, camelRest_iff]
    constructor
    · rintro ⟨hl, t, ht, ha⟩
      have hl' : 'a' ≤ c ∧ c ≤ 'z' := by simpa [lower] using hl
      refine ⟨c :: t, ?_, ⟨c, t, rfl, hl'⟩, ?_⟩
      · rcases ht with ht | ht
        · exact .inl (by rw [ht])
        · exact .inr (by rw [ht]; rfl)
      · intro x hx
        rcases List.mem_cons.1 hx with rfl | hx
        · exact .inl hl'
        · exact (class_iff x).1 (ha x hx)
    · rintro ⟨t, ht, ⟨d, ds, rfl, hd⟩, ha⟩
      have key : c = d ∧ (cs = ds ∨ cs = ds ++ ['\n']) := by
        rcases ht with ht | ht
        · simp only [List.cons.injEq] at ht; exact ⟨ht.1, .inl ht.2⟩
        · simp only [List.cons_append, List.cons.injEq] at ht; exact ⟨ht.1, .inr ht.2⟩
      refine ⟨by rw [key.1]; simpa [lower] using hd, ds, key.2, ?_⟩
      intro x hx
      exact (class_iff x).2 (ha x (List.mem_cons_of_mem _ hx))

-- "meta" and "camelCase2" are, "Camel" and "a_b" are not
example : camelRe "camelCase2".toList = true ∧ camelRe "Camel".toList = false ∧
    camelRe "a_b".toList = false ∧ camelRe "".toList = false := by decide +kernel

/-- Disagreement with C22: a name with a newline at its end is accepted. -/
theorem trailing_newline_accepted : camelRe "field\n".toList = true ∧ ¬ Camel "field\n".toList := by
  refine ⟨by decide +kernel, ?_⟩
  rintro ⟨_, h⟩
  have := h '\n' (by decide)
  revert this
  decide

/-! ### the registry -/

/-- Specification: the accepted registrations grouped by owner, owners in the order in which they
first registered, names in the order of registration. -/
def grouped (l : List (O × String)) : Registry O :=
  l.foldl (fun r on =>
    if on.1 ∈ r.keys then r.map (fun of => if of.1 = on.1 then (of.1, of.2 ++ [on.2]) else of)
    else r ++ [(on.1, [on.2])]) []

theorem set_eq_map (r : Registry O) (hn : r.keys.Nodup) (o : O) (fs : List String) (n : String)
    (h : Dict.get? r o = some fs) :
    Dict.set r o (fs ++ [n]) = r.map (fun of => if of.1 = o then (of.1, of.2 ++ [n]) else of) := by
  induction r with
  | nil => simp [Dict.get?] at h
  | cons kv r ih =>
    obtain ⟨k, v⟩ := kv
    have hn' : k ∉ Dict.keys r ∧ (Dict.keys r).Nodup := by
      have : (k :: Dict.keys r).Nodup := hn
      exact List.nodup_cons.1 this
    unfold Dict.set
    by_cases hk : k = o
    · subst hk
      have hv : v = fs := by simpa [Dict.get?] using h
      subst hv
      rw [if_pos rfl, List.map_cons, if_pos rfl]
      congr 1
      have : ∀ of ∈ r, of.1 ≠ k := fun of hof hc => hn'.1 (List.mem_map.2 ⟨of, hof, hc⟩)
      have hid : r.map (fun of => if of.1 = k then (of.1, of.2 ++ [n]) else of) = r.map id := by
        apply List.map_congr_left
        intro a ha
        rw [if_neg (this a ha)]; rfl
      rw [hid, List.map_id]
    · rw [if_neg hk, List.map_cons, if_neg hk, ih hn'.2]
      simpa [Dict.get?, hk] using h

theorem set_new (r : Registry O) (o : O) (v : List String) (h : o ∉ r.keys) :
    Dict.set r o v = r ++ [(o, v)] := by
  induction r with
  | nil => rfl
  | cons kv r ih =>
    obtain ⟨k, w⟩ := kv
    have h' : o ∉ k :: Dict.keys r := h
    rw [List.mem_cons, not_or] at h'
    unfold Dict.set
    rw [if_neg (fun hc => h'.1 hc.symm), ih h'.2]; rfl

theorem grouped_snoc (l : List (O × String)) (on : O × String) :
    grouped (l ++ [on]) = if on.1 ∈ (grouped l).keys then
        (grouped l).map (fun of => if of.1 = on.1 then (of.1, of.2 ++ [on.2]) else of)
      else grouped l ++ [(on.1, [on.2])] := by
  unfold grouped
  rw [List.foldl_append]
  rfl

theorem values_flatten_set (r : Registry O) (hn : r.keys.Nodup) (o : O) (n x : String) :
    x ∈ (appendField r o n).values.flatten ↔ x ∈ r.values.flatten ∨ x = n := by
  unfold appendField
  have mem_iff : ∀ (q : Registry O), q.keys.Nodup → (x ∈ q.values.flatten ↔
      ∃ p fs, Dict.get? q p = some fs ∧ x ∈ fs) := by
    intro q hq
    rw [List.mem_flatten]
    constructor
    · rintro ⟨fs, hfs, hx⟩
      obtain ⟨⟨p, fs'⟩, hm, rfl⟩ := List.mem_map.1 hfs
      exact ⟨p, fs', Dict.get?_of_mem_nodup hq hm, hx⟩
    · rintro ⟨p, fs, hg, hx⟩
      exact ⟨fs, List.mem_map.2 ⟨_, Dict.get?_mem hg, rfl⟩, hx⟩
  cases hg : Dict.get? r o with
  | some fs =>
    dsimp only
    rw [mem_iff _ (Dict.nodup_set hn _ _), mem_iff _ hn]
    constructor
    · rintro ⟨p, gs, hp, hx⟩
      rw [Dict.get?_set] at hp
      split at hp
      · have : fs ++ [n] = gs := by simpa using hp
        subst this
        rcases List.mem_append.1 hx with h | h
        · exact .inl ⟨o, fs, hg, h⟩
        · exact .inr (by simpa using h)
      · exact .inl ⟨p, gs, hp, hx⟩
    · rintro (⟨p, gs, hp, hx⟩ | rfl)
      · by_cases ho : o = p
        · subst ho
          rw [hg] at hp
          have : fs = gs := by simpa using hp
          subst this
          exact ⟨o, fs ++ [n], Dict.get?_set_self _ _ _, List.mem_append.2 (.inl hx)⟩
        · exact ⟨p, gs, by rw [Dict.get?_set_ne _ _ ho]; exact hp, hx⟩
      · exact ⟨o, fs ++ [x], Dict.get?_set_self _ _ _, by simp⟩
  | none =>
    dsimp only
    rw [mem_iff _ (Dict.nodup_set hn _ _), mem_iff _ hn]
    constructor
    · rintro ⟨p, gs, hp, hx⟩
      rw [Dict.get?_set] at hp
      split at hp
      · have : [n] = gs := by simpa using hp
        subst this
        exact .inr (by simpa using hx)
      · exact .inl ⟨p, gs, hp, hx⟩
    · rintro (⟨p, gs, hp, hx⟩ | rfl)
      · have ho : o ≠ p := fun hc => by rw [hc, hp] at hg; cases hg
        exact ⟨p, gs, by rw [Dict.get?_set_ne _ _ ho]; exact hp, hx⟩
      · exact ⟨o, [x], Dict.get?_set_self _ _ _, by simp⟩

theorem nameFree_iff (r : Registry O) (n : String) : nameFree r n = true ↔ n ∉ r.values.flatten := by
  unfold nameFree
  rw [List.all_eq_true]
  constructor
  · intro h hc
    obtain ⟨fs, hfs, hm⟩ := List.mem_flatten.1 hc
    have := h fs hfs
    simp [hm] at this
  · intro h fs hfs
    simp only [Bool.not_eq_eq_eq_not, Bool.not_true, decide_eq_false_iff_not]
    exact fun hm => h (List.mem_flatten.2 ⟨fs, hfs, hm⟩)

/-- C22. A registration is accepted exactly if the name matches the pattern and no owner has a field
of that name; a rejected registration leaves the registry as it was. -/
theorem registration_accepted_iff (r : Registry O) (owner : O) (name : String) :
    ((register r (owner, name)).2 = true ↔
      camelRe name.toList = true ∧ ∀ o fs, (o, fs) ∈ r → name ∉ fs) ∧
    ((register r (owner, name)).2 = false → (register r (owner, name)).1 = r) := by
  have hfree : nameFree r name = true ↔ ∀ o fs, (o, fs) ∈ r → name ∉ fs := by
    rw [nameFree_iff]
    constructor
    · intro h o fs hm hc
      exact h (List.mem_flatten.2 ⟨fs, List.mem_map.2 ⟨_, hm, rfl⟩, hc⟩)
    · intro h hc
      obtain ⟨fs, hfs, hm⟩ := List.mem_flatten.1 hc
      obtain ⟨⟨o, fs'⟩, hm2, rfl⟩ := List.mem_map.1 hfs
      exact h o fs' hm2 hm
  rw [← hfree]
  unfold register addField
  dsimp only
  by_cases h1 : camelRe name.toList = true
  · by_cases h2 : nameFree r name = true
    · rw [if_pos h1, if_pos h2]; simp [h1, h2]
    · rw [if_pos h1, if_neg h2]; simp [h2]
  · rw [if_neg h1]; simp [h1]

/-- everything that is true of a registry after a history -/
structure Good (r : Registry O) (acc : List (O × String)) : Prop where
  eq : r = grouped acc
  keys : r.keys.Nodup
  names : ∀ x, x ∈ r.values.flatten ↔ x ∈ acc.map (·.2)
  nodup : (acc.map (·.2)).Nodup
  camel : ∀ on ∈ acc, camelRe on.2.toList = true

theorem good_step {r : Registry O} {acc : List (O × String)} (h : Good r acc) (on : O × String) :
    Good (register r on).1 (if (register r on).2 then acc ++ [on] else acc) := by
  obtain ⟨o, n⟩ := on
  unfold register addField
  dsimp only
  by_cases h1 : camelRe n.toList = true
  · by_cases h2 : nameFree r n = true
    · rw [if_pos h1, if_pos h2]
      dsimp only
      rw [if_pos rfl]
      have hfree := (nameFree_iff r n).1 h2
      refine ⟨?_, ?_, ?_, ?_, ?_⟩
      · rw [grouped_snoc, ← h.eq]
        unfold appendField
        cases hg : Dict.get? r o with
        | some fs =>
          have hm : o ∈ r.keys := by
            apply Classical.byContradiction
            intro hc
            rw [Dict.get?_none_iff.2 hc] at hg; cases hg
          rw [if_pos hm]
          exact set_eq_map r h.keys o fs n hg
        | none =>
          have hm := Dict.get?_none_iff.1 hg
          rw [if_neg hm]
          exact set_new r o [n] hm
      · unfold appendField; split <;> exact Dict.nodup_set h.keys _ _
      · intro x
        rw [values_flatten_set r h.keys o n x, h.names x]; simp
      · rw [List.map_append, List.nodup_append]
        refine ⟨h.nodup, by simp, ?_⟩
        intro a ha b hb
        have : b = n := by simpa using hb
        subst this
        intro hc
        subst hc
        exact hfree ((h.names a).2 ha)
      · intro q hq
        rcases List.mem_append.1 hq with hq | hq
        · exact h.camel q hq
        · rw [List.mem_singleton.1 hq]; exact h1
    · rw [if_pos h1, if_neg h2]; simpa using h
  · rw [if_neg h1]; simpa using h

theorem good_run (l : List (O × String)) {r : Registry O} {acc : List (O × String)} (h : Good r acc) :
    Good (registerAll r l).1 (acc ++ (registerAll r l).2) := by
  induction l generalizing r acc with
  | nil => simpa [registerAll] using h
  | cons on l ih =>
    have h1 := good_step h on
    unfold registerAll
    dsimp only
    have h2 := ih h1
    cases hb : (register r on).2 with
    | true =>
      rw [hb] at h2
      rw [if_pos rfl] at h2 ⊢
      simpa using h2
    | false =>
      rw [hb] at h2
      simpa using h2

theorem good_init : Good ([] : Registry O) [] :=
  ⟨rfl, by simp [Dict.keys], by simp [Dict.values], by simp, by simp⟩

/-- C22. After every history of registrations the registry holds exactly the accepted ones, grouped
by owner and in the order of registration; no name occurs twice, for one owner or for two; every name
matches the pattern. -/
theorem registry_is_accepted_in_order (l : List (O × String)) :
    (registerAll [] l).1 = grouped (registerAll [] l).2 ∧
    ((registerAll ([] : Registry O) l).2.map (·.2)).Nodup ∧
    (∀ on ∈ (registerAll ([] : Registry O) l).2, camelRe on.2.toList = true) ∧
    (registerAll ([] : Registry O) l).2.Sublist l := by
  have h := good_run l (good_init (O := O))
  rw [List.nil_append] at h
  refine ⟨h.eq, h.nodup, h.camel, ?_⟩
  have sub : ∀ (l : List (O × String)) (r : Registry O), (registerAll r l).2.Sublist l := by
    intro l
    induction l with
    | nil => intro r; simp [registerAll]
    | cons on l ih =>
      intro r
      unfold registerAll
      dsimp only
      split
      · exact (ih _).cons_cons on
      · exact (ih _).cons on
  exact sub l []

theorem grouped_get (l : List (O × String)) (o : O) :
    Dict.get? (grouped l) o =
      if o ∈ l.map (·.1) then some ((l.filter (fun on => on.1 = o)).map (·.2)) else none := by
  have key : ∀ l : List (O × String), (grouped l.reverse).keys.Nodup ∧ ∀ o,
      Dict.get? (grouped l.reverse) o =
        if o ∈ l.reverse.map (·.1) then some ((l.reverse.filter (fun on => on.1 = o)).map (·.2)) else none := by
    intro l
    induction l with
    | nil => exact ⟨by simp [grouped, Dict.keys], by simp [grouped]⟩
    | cons on l ih =>
      obtain ⟨hn, hg⟩ := ih
      rw [List.reverse_cons, grouped_snoc]
      have hin : on.1 ∈ (grouped l.reverse).keys ↔ on.1 ∈ l.reverse.map (·.1) := by
        have := hg on.1
        constructor
        · intro hm
          apply Classical.byContradiction
          intro hc
          rw [if_neg hc] at this
          exact Dict.get?_none_iff.1 this hm
        · intro hm
          apply Classical.byContradiction
          intro hc
          rw [if_pos hm, Dict.get?_none_iff.2 hc] at this
          cases this
      by_cases hm : on.1 ∈ (grouped l.reverse).keys
      · rw [if_pos hm]
        have hg1 := hg on.1
        rw [if_pos (hin.1 hm)] at hg1
        rw [← set_eq_map _ hn on.1 _ on.2 hg1]
        refine ⟨Dict.nodup_set hn _ _, ?_⟩
        intro o
        rw [Dict.get?_set]
        by_cases ho : on.1 = o
        · subst ho
          rw [if_pos rfl, if_pos (by simp)]
          simp [List.filter_append]
        · rw [if_neg ho, hg o]
          have ho' : ¬ o = on.1 := fun hc => ho hc.symm
          have h1 : o ∈ (l.reverse ++ [on]).map (·.1) ↔ o ∈ l.reverse.map (·.1) := by simp [ho']
          have h2 : (l.reverse ++ [on]).filter (fun q => q.1 = o) = l.reverse.filter (fun q => q.1 = o) := by
            simp [List.filter_append, ho]
          rw [h2]
          by_cases h3 : o ∈ l.reverse.map (·.1)
          · rw [if_pos h3, if_pos (h1.2 h3)]
          · rw [if_neg h3, if_neg (fun hc => h3 (h1.1 hc))]
      · rw [if_neg hm]
        rw [← set_new _ on.1 [on.2] hm]
        refine ⟨Dict.nodup_set hn _ _, ?_⟩
        intro o
        rw [Dict.get?_set]
        by_cases ho : on.1 = o
        · subst ho
          rw [if_pos rfl, if_pos (by simp)]
          have hno := fun hc => hm (hin.2 hc)
          have : l.reverse.filter (fun q => q.1 = on.1) = [] := by
            rw [List.filter_eq_nil_iff]
            intro a ha hc
            exact hno (List.mem_map.2 ⟨a, ha, by simpa using hc⟩)
          simp [List.filter_append, this]
        · rw [if_neg ho, hg o]
          have ho' : ¬ o = on.1 := fun hc => ho hc.symm
          have h1 : o ∈ (l.reverse ++ [on]).map (·.1) ↔ o ∈ l.reverse.map (·.1) := by simp [ho']
          have h2 : (l.reverse ++ [on]).filter (fun q => q.1 = o) = l.reverse.filter (fun q => q.1 = o) := by
            simp [List.filter_append, ho]
          rw [h2]
          by_cases h3 : o ∈ l.reverse.map (·.1)
          · rw [if_pos h3, if_pos (h1.2 h3)]
          · rw [if_neg h3, if_neg (fun hc => h3 (h1.1 hc))]
  have := (key l.reverse).2 o
  rw [List.reverse_reverse] at this
  exact this

/-- C22. So the fields of one owner are its accepted names in the order it registered them. -/
theorem owner_fields (l : List (O × String)) (o : O) (h : o ∈ (registerAll [] l).2.map (·.1)) :
    Dict.get? (registerAll [] l).1 o =
      some (((registerAll ([] : Registry O) l).2.filter (fun on => on.1 = o)).map (·.2)) := by
  rw [(registry_is_accepted_in_order l).1, grouped_get, if_pos h]

example : registerAll ([] : Registry (Option Nat))
    [(none, "state"), (some 1, "gain"), (none, "health"), (some 2, "gain"), (some 2, "Bad"), (some 1, "offset")] =
    ([(none, ["state", "health"]), (some 1, ["gain", "offset"])],
     [(none, "state"), (some 1, "gain"), (none, "health"), (some 1, "offset")]) := by decide +kernel

theorem setEndpoints_nodup (fields ns : List String) (hn : (fields ++ ns).Nodup)
    (hr : ∀ n ∈ ns, n ≠ "meta" ∧ n ≠ "notifier" ∧ n ≠ "path") :
    setEndpoints fields ns = some (fields ++ ns) := by
  induction ns generalizing fields with
  | nil => simp [setEndpoints]
  | cons n ns ih =>
    unfold setEndpoints setEndpoint
    have h1 := hr n List.mem_cons_self
    rw [if_neg (by rintro (h | h | h); exact h1.1 h; exact h1.2.1 h; exact h1.2.2 h)]
    have h2 : n ∉ fields := by
      rw [List.nodup_append] at hn
      intro hc
      exact hn.2.2 n hc n List.mem_cons_self rfl
    rw [if_neg h2]
    dsimp only
    rw [ih (fields ++ [n]) (by simpa using hn) (fun m hm => hr m (List.mem_cons_of_mem _ hm))]
    simp

/-- the names of a registry, all owners together, have no repetition -/
theorem flatten_nodup (l : List (O × String)) : ∀ {r : Registry O} , r.keys.Nodup → r.values.flatten.Nodup →
    (registerAll r l).1.values.flatten.Nodup := by
  induction l with
  | nil => intro r _ h; exact h
  | cons on l ih =>
    intro r hk hf
    unfold registerAll
    dsimp only
    obtain ⟨o, n⟩ := on
    unfold register addField
    dsimp only
    by_cases h1 : camelRe n.toList = true
    · by_cases h2 : nameFree r n = true
      · rw [if_pos h1, if_pos h2]
        dsimp only
        have hfree := (nameFree_iff r n).1 h2
        have hvf := values_flatten_set (O := O)
        unfold appendField at hvf ⊢
        cases hg : Dict.get? r o with
        | none =>
          dsimp only
          rw [set_new r o [n] (Dict.get?_none_iff.1 hg)]
          apply ih
          · rw [← set_new r o [n] (Dict.get?_none_iff.1 hg)]; exact Dict.nodup_set hk _ _
          · unfold Dict.values
            rw [List.map_append, List.flatten_append, List.nodup_append]
            refine ⟨hf, by simp, ?_⟩
            intro a ha b hb hab
            subst hab
            have : a = n := by simpa using hb
            subst this
            exact hfree ha
        | some fs =>
          dsimp only
          apply ih
          · exact Dict.nodup_set hk _ _
          · clear ih h1 h2
            induction r with
            | nil => simp [Dict.get?] at hg
            | cons kv r ihr =>
              obtain ⟨k, v⟩ := kv
              have hk' : k ∉ Dict.keys r ∧ (Dict.keys r).Nodup := by
                have : (k :: Dict.keys r).Nodup := hk
                exact List.nodup_cons.1 this
              have hf' : (v ++ (Dict.values r).flatten).Nodup := by
                have : Dict.values ((k, v) :: r) = v :: Dict.values r := rfl
                rw [this, List.flatten_cons] at hf; exact hf
              have hfree' : n ∉ v ∧ n ∉ (Dict.values r).flatten := by
                have : Dict.values ((k, v) :: r) = v :: Dict.values r := rfl
                rw [this, List.flatten_cons, List.mem_append, not_or] at hfree; exact hfree
              unfold Dict.set
              by_cases hko : k = o
              · rw [if_pos hko]
                have hv : v = fs := by simpa [Dict.get?, hko] using hg
                subst hv
                have : Dict.values ((k, v ++ [n]) :: r) = (v ++ [n]) :: Dict.values r := rfl
                rw [this, List.flatten_cons]
                rw [List.nodup_append] at hf' ⊢
                refine ⟨?_, hf'.2.1, ?_⟩
                · rw [List.nodup_append]
                  refine ⟨hf'.1, by simp, ?_⟩
                  intro a ha b hb hab
                  subst hab
                  have : a = n := by simpa using hb
                  subst this
                  exact hfree'.1 ha
                · intro a ha b hb hab
                  subst hab
                  rcases List.mem_append.1 ha with ha | ha
                  · exact hf'.2.2 a ha a hb rfl
                  · have : a = n := by simpa using ha
                    subst this
                    exact hfree'.2 hb
              · rw [if_neg hko]
                have hg' : Dict.get? r o = some fs := by simpa [Dict.get?, hko] using hg
                have hfr := hf'
                rw [List.nodup_append] at hfr
                have hrec := ihr hk'.2 hfr.2.1 hfree'.2 hg'
                have : Dict.values ((k, v) :: Dict.set r o (fs ++ [n])) = v :: Dict.values (Dict.set r o (fs ++ [n])) := rfl
                rw [this, List.flatten_cons, List.nodup_append]
                refine ⟨hfr.1, hrec, ?_⟩
                intro a ha b hb hab
                subst hab
                have hmem := hvf r hk'.2 o n a
                rw [hg'] at hmem
                rcases hmem.1 hb with h | h
                · exact hfr.2.2 a ha a h rfl
                · subst h; exact hfree'.1 ha
      · rw [if_pos h1, if_neg h2]; exact ih hk hf
    · rw [if_neg h1]; exact ih hk hf

/-- C22. The block that `setup` makes has each registered field once, owner by owner in the order of
registration, provided no field is called `meta`, `notifier` or `path`. -/
theorem block_fields_partial (l : List (O × String))
    (hr : ∀ on ∈ (registerAll ([] : Registry O) l).2, on.2 ≠ "meta" ∧ on.2 ≠ "notifier" ∧ on.2 ≠ "path") :
    setupBlock (registerAll ([] : Registry O) l).1 =
      some ((grouped (registerAll ([] : Registry O) l).2).values.flatten) ∧
    ((grouped (registerAll ([] : Registry O) l).2).values.flatten).Nodup := by
  have hg := good_run l (good_init (O := O))
  rw [List.nil_append] at hg
  have hnd := flatten_nodup l (r := ([] : Registry O)) (by simp [Dict.keys]) (by simp [Dict.values])
  rw [hg.eq] at hnd
  refine ⟨?_, hnd⟩
  unfold setupBlock
  rw [hg.eq]
  rw [setEndpoints_nodup [] _ (by simpa using hnd)]
  · simp
  · intro n hn
    rw [← hg.eq] at hn
    obtain ⟨on, hon, rfl⟩ := List.mem_map.1 ((hg.names n).1 hn)
    exact hr on hon

example : setupBlock (registerAll ([] : Registry (Option Nat))
    [(none, "state"), (some 1, "gain"), (none, "health"), (some 2, "gain"), (some 1, "offset")]).1 =
    some ["state", "health", "gain", "offset"] := by decide +kernel

/-- Disagreement with C22: the registry accepts a field called `meta`, and then the block cannot be
set up. -/
theorem meta_field_breaks_setup :
    (register ([] : Registry Nat) (0, "meta")).2 = true ∧
    setupBlock (register ([] : Registry Nat) (0, "meta")).1 = none := by decide +kernel

/-! ### parts -/

/-- A second part with a name in use is refused and changes nothing. -/
theorem part_name_used_once (c : Ctl O) (name : String) (owner : O) (fields : List String)
    (h : name ∈ c.parts.keys) : addPart c name owner fields = (c, false) := by
  unfold addPart
  rw [if_pos (Dict.mem_iff.2 h)]

/-- Disagreement with C22 for parts as a whole: a part that is refused because of its second field
leaves its first field behind in the registry, and the block gets it. -/
theorem refused_part_leaves_fields :
    (addPart ({} : Ctl Nat) "p" 1 ["good", "Bad"]).2 = false ∧
    setupBlock (addPart ({} : Ctl Nat) "p" 1 ["good", "Bad"]).1.registry = some ["good"] := by
  decide +kernel

/-- `get_field` finds the owner of a registered field and nothing else. -/
theorem get_field_finds (l : List (O × String)) (o : O) (n : String) :
    getField (registerAll ([] : Registry O) l).1 n = some o → (o, n) ∈ (registerAll ([] : Registry O) l).2 := by
  intro h
  have hg := good_run l (good_init (O := O))
  rw [List.nil_append] at hg
  unfold getField at h
  obtain ⟨⟨o', fs⟩, hf, ho⟩ := Option.map_eq_some_iff.1 h
  have hm := List.mem_of_find?_eq_some hf
  have hn := List.find?_some hf
  dsimp only at ho hn
  subst ho
  have h1 := Dict.get?_of_mem_nodup hg.keys hm
  rw [hg.eq, grouped_get] at h1
  split at h1
  · have : ((registerAll ([] : Registry O) l).2.filter (fun on => on.1 = o')).map (·.2) = fs := by simpa using h1
    rw [← this] at hn
    have hn' : n ∈ ((registerAll ([] : Registry O) l).2.filter (fun on => on.1 = o')).map (·.2) := by simpa using hn
    obtain ⟨on, hon, rfl⟩ := List.mem_map.1 hn'
    obtain ⟨h3, h4⟩ := List.mem_filter.1 hon
    have : on.1 = o' := by simpa using h4
    rw [← this]; exact h3
  · cases h1

end Verif.Props.Fields
