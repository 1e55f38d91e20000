import Verif.Model.Yaml
import Verif.Proofs.PyDict
/-!
C48: "In a YAML block definition every $(name) of a declared parameter is replaced by its value and all
other text is left as it is; missing required parameters and unknown ones are rejected."
-/
set_option linter.unusedVariables false
namespace Verif.Props.Yaml
open Verif.Yaml

/-! ### The specification: a text as the reader sees it -/

/-- A text is made of single characters and of references `$(name)`. -/
inductive Tok
  | chr (c : Char)
  | ref (name : Text)
  deriving DecidableEq, Repr

/-- how it is written -/
def render (ts : List Tok) : Text :=
  ts.flatMap (fun t => match t with | .chr c => [c] | .ref n => dollar n)

/-- A `$` that is not part of a reference is not followed by `(` or by a reference, and the names in
references have no `$` and no `)`. -/
def WellFormed : List Tok → Prop
  | [] => True
  | .chr c :: ts => (c = '$' → ∀ t, ts.head? = some t → ∃ c2, t = .chr c2 ∧ c2 ≠ '(') ∧ WellFormed ts
  | .ref n :: ts => '$' ∉ n ∧ ')' ∉ n ∧ WellFormed ts

/-- what it should become: references to known names are replaced, everything else is kept -/
def expected (subst : Dict Text Text) (ts : List Tok) : Text :=
  ts.flatMap (fun t => match t with
    | .chr c => [c]
    | .ref n => match Dict.get? subst n with | some v => v | none => dollar n)

/-! ### Proofs about `replace` -/

theorem go_skip (pat rep : Text) (a rest : Text) : replaceGo pat rep a.length (a ++ rest) = replaceGo pat rep 0 rest := by
  induction a with
  | nil => rfl
  | cons c a ih => simp only [List.length_cons, List.cons_append, replaceGo]; exact ih

theorem dollar_not_prefix (s : Text) (c : Char) (cs : Text) (h : c ≠ '$') : (dollar s).isPrefixOf (c :: cs) = false := by
  simp [dollar, List.isPrefixOf, Ne.symm h]

theorem go_no_dollar (s rep : Text) (a rest : Text) (h : '$' ∉ a) :
    replaceGo (dollar s) rep 0 (a ++ rest) = a ++ replaceGo (dollar s) rep 0 rest := by
  induction a with
  | nil => rfl
  | cons c a ih =>
    have hc : c ≠ '$' := fun hc => h (by rw [hc]; exact List.mem_cons_self)
    rw [List.cons_append, replaceGo, dollar_not_prefix s c _ hc]
    simp only [Bool.false_eq_true, if_false]
    rw [ih (fun hm => h (List.mem_cons_of_mem _ hm)), List.cons_append]

theorem name_prefix (s n rest : Text) (hs : ')' ∉ s) (hn : ')' ∉ n) :
    (s ++ [')']).isPrefixOf (n ++ ')' :: rest) = true ↔ s = n := by
  induction s generalizing n with
  | nil =>
    cases n with
    | nil => simp [List.isPrefixOf]
    | cons c n =>
      have : c ≠ ')' := fun hc => hn (by rw [hc]; exact List.mem_cons_self)
      simp [List.isPrefixOf, Ne.symm this]
  | cons a s ih =>
    cases n with
    | nil =>
      have : a ≠ ')' := fun hc => hs (by rw [hc]; exact List.mem_cons_self)
      simp [List.isPrefixOf, this]
    | cons c n =>
      have := ih n (fun hm => hs (List.mem_cons_of_mem _ hm)) (fun hm => hn (List.mem_cons_of_mem _ hm))
      simp only [List.cons_append, List.isPrefixOf, Bool.and_eq_true, beq_iff_eq, this, List.cons.injEq]

theorem ref_prefix (s n rest : Text) (hs : ')' ∉ s) (hn : ')' ∉ n) :
    (dollar s).isPrefixOf (dollar n ++ rest) = true ↔ s = n := by
  have : dollar n ++ rest = '$' :: '(' :: (n ++ ')' :: rest) := by simp [dollar]
  rw [this]
  simp only [dollar, List.isPrefixOf, beq_self_eq_true, Bool.true_and]
  exact name_prefix s n rest hs hn

/-- one substitution in terms of tokens -/
def sub1 (s v : Text) : Tok → List Tok
  | .chr c => [.chr c]
  | .ref n => if s = n then v.map .chr else [.ref n]

theorem render_cons (t : Tok) (ts : List Tok) : render (t :: ts) = render [t] ++ render ts := by
  simp [render, List.flatMap_cons]

theorem render_append (a b : List Tok) : render (a ++ b) = render a ++ render b := by
  simp [render, List.flatMap_append]

theorem render_chars (v : Text) : render (v.map .chr) = v := by
  induction v with
  | nil => rfl
  | cons c v ih => rw [List.map_cons, render_cons, ih]; rfl

theorem render_head (ts : List Tok) (h : ∀ t, ts.head? = some t → ∃ c2, t = .chr c2 ∧ c2 ≠ '(') (s : Text) :
    (dollar s).isPrefixOf ('$' :: render ts) = false := by
  cases ts with
  | nil => simp [dollar, render, List.isPrefixOf]
  | cons t ts =>
    obtain ⟨c2, rfl, hc⟩ := h t rfl
    rw [render_cons]
    simp [dollar, render, List.isPrefixOf, Ne.symm hc]

theorem replace_render (s v : Text) (hs : ')' ∉ s) (ts : List Tok) (hw : WellFormed ts) :
    replace (dollar s) v (render ts) = render (ts.flatMap (sub1 s v)) := by
  unfold replace
  induction ts with
  | nil => rfl
  | cons t ts ih =>
    rw [render_cons, List.flatMap_cons, render_append]
    cases t with
    | chr c =>
      obtain ⟨h1, h2⟩ := hw
      show replaceGo (dollar s) v 0 (c :: render ts) = c :: render (ts.flatMap (sub1 s v))
      rw [replaceGo]
      have : (dollar s).isPrefixOf (c :: render ts) = false := by
        by_cases hc : c = '$'
        · subst hc; exact render_head ts (h1 rfl) s
        · exact dollar_not_prefix s c _ hc
      rw [this, ih h2]
      simp
    | ref n =>
      obtain ⟨h1, h2, h3⟩ := hw
      have hr : render [.ref n] = dollar n := by simp [render]
      rw [hr]
      have hp := ref_prefix s n (render ts) hs h2
      simp only [sub1]
      by_cases hsn : s = n
      · subst hsn
        rw [if_pos rfl, render_chars, ← ih h3]
        have hp' := hp.2 rfl
        have hcons : dollar s ++ render ts = '$' :: (('(' :: (s ++ [')'])) ++ render ts) := by simp [dollar]
        rw [hcons] at hp' ⊢
        rw [replaceGo, if_pos hp']
        have hl : (dollar s).length - 1 = ('(' :: (s ++ [')'])).length := by simp [dollar]
        rw [hl, go_skip]
      · rw [if_neg hsn, hr, ← ih h3]
        have hp' : ¬ (dollar s).isPrefixOf (dollar n ++ render ts) = true := fun hc => hsn (hp.1 hc)
        have hcons : dollar n ++ render ts = '$' :: (('(' :: (n ++ [')'])) ++ render ts) := by simp [dollar]
        rw [hcons] at hp' ⊢
        rw [replaceGo, if_neg hp', go_no_dollar]
        · simp [dollar]
        · simp; exact h1

theorem wf_chars (v : Text) (hv : '$' ∉ v) (ts : List Tok) (h : WellFormed ts) : WellFormed (v.map .chr ++ ts) := by
  induction v with
  | nil => exact h
  | cons c v ih =>
    refine ⟨?_, ih (fun hm => hv (List.mem_cons_of_mem _ hm))⟩
    intro hc
    exact absurd (by rw [← hc]; exact List.mem_cons_self) hv

theorem wf_sub1 (s v : Text) (hv : '$' ∉ v) (ts : List Tok) (h : WellFormed ts) : WellFormed (ts.flatMap (sub1 s v)) := by
  induction ts with
  | nil => exact h
  | cons t ts ih =>
    rw [List.flatMap_cons]
    cases t with
    | chr c =>
      obtain ⟨h1, h2⟩ := h
      refine ⟨?_, ih h2⟩
      intro hc t ht
      cases ts with
      | nil => cases ht
      | cons t2 ts =>
        obtain ⟨c2, rfl, hc2⟩ := h1 hc _ rfl
        rw [List.flatMap_cons] at ht
        simp [sub1] at ht
        exact ⟨c2, ht.symm, hc2⟩
    | ref n =>
      obtain ⟨h1, h2, h3⟩ := h
      simp only [sub1]
      split
      · exact wf_chars v hv _ (ih h3)
      · exact ⟨h1, h2, ih h3⟩

theorem expected_chars (subst : Dict Text Text) (v : Text) : expected subst (v.map .chr) = v := by
  induction v with
  | nil => rfl
  | cons c v ih =>
    show [c] ++ expected subst (v.map .chr) = _
    rw [ih]; rfl

theorem expected_sub1 (subst : Dict Text Text) (s v : Text) (ts : List Tok) :
    expected subst (ts.flatMap (sub1 s v)) = expected ((s, v) :: subst) ts := by
  induction ts with
  | nil => rfl
  | cons t ts ih =>
    rw [List.flatMap_cons]
    have happ : ∀ a b, expected subst (a ++ b) = expected subst a ++ expected subst b := by
      intro a b; simp [expected, List.flatMap_append]
    have hcons : expected ((s, v) :: subst) (t :: ts) = expected ((s, v) :: subst) [t] ++ expected ((s, v) :: subst) ts := by
      simp [expected, List.flatMap_cons]
    rw [happ, hcons, ih]
    congr 1
    cases t with
    | chr c => rfl
    | ref n =>
      simp only [sub1]
      split
      · rename_i h; subst h
        rw [expected_chars]; simp [expected, Dict.get?_cons]
      · rename_i h; simp [expected, Dict.get?_cons, h]

/-! ### The property -/

/-- **C48** part: in a text in which `$` only begins references, with values that have no `$`, exactly
the references to known names are replaced by the values and all else is kept. What is missing: a value
with a `$` may be substituted again, see `substituted_again`; so may a name put together by
substitutions, see `name_from_substitution`. -/
theorem substitution_exact_partial (subst : Dict Text Text) (hn : ∀ kv ∈ subst, ')' ∉ kv.1)
    (hv : ∀ kv ∈ subst, '$' ∉ kv.2) (ts : List Tok) (hw : WellFormed ts) :
    replaceSubstitutions subst (.str (render ts)) = .str (expected subst ts) := by
  rw [replaceSubstitutions]
  congr 1
  induction subst generalizing ts with
  | nil =>
    simp only [List.foldl_nil]
    unfold render expected
    congr 1
  | cons kv subst ih =>
    rw [List.foldl_cons, replace_render kv.1 kv.2 (hn kv List.mem_cons_self) ts hw,
      ih (fun x hx => hn x (List.mem_cons_of_mem _ hx)) (fun x hx => hv x (List.mem_cons_of_mem _ hx)) _
        (wf_sub1 kv.1 kv.2 (hv kv List.mem_cons_self) ts hw), expected_sub1]

/-- **C48**: whatever the values are, text without `$` is left as it is, also values that are not text. -/
theorem text_without_dollar_kept (subst : Dict Text Text) (t : Text) (h : '$' ∉ t) :
    replaceSubstitutions subst (.str t) = .str t := by
  rw [replaceSubstitutions]
  congr 1
  induction subst with
  | nil => rfl
  | cons kv subst ih =>
    rw [List.foldl_cons]
    have : replace (dollar kv.1) kv.2 t = t := by
      have := go_no_dollar kv.1 kv.2 t [] h
      rw [List.append_nil] at this
      unfold replace
      rw [this]; simp [replaceGo]
    rw [this, ih]

theorem other_kept (subst : Dict Text Text) (n : Nat) : replaceSubstitutions subst (.other n) = .other n := by
  rw [replaceSubstitutions]

/-- The items of a list are substituted each for itself. -/
theorem list_itemwise (subst : Dict Text Text) (vs : List Val) :
    replaceSubstitutions subst (.list vs) = .list (vs.map (replaceSubstitutions subst)) := by
  rw [replaceSubstitutions]
  congr 1
  induction vs with
  | nil => rw [replaceSubstitutionsList]; rfl
  | cons v vs ih => rw [replaceSubstitutionsList, ih]; rfl

/-! ### Parameters -/

theorem mapM_none_iff {A B : Type} (f : A → Option B) : ∀ l : List A, l.mapM f = none ↔ ∃ a ∈ l, f a = none := by
  intro l
  induction l with
  | nil => simp
  | cons a l ih =>
    rw [List.mapM_cons]
    cases ha : f a with
    | none => simp [ha]
    | some b =>
      cases hl : l.mapM f with
      | none =>
        obtain ⟨x, hx, hfx⟩ := ih.1 hl
        simp only [Option.bind_eq_bind, Option.bind_some, Option.bind_none, true_iff]
        exact ⟨x, List.mem_cons_of_mem _ hx, hfx⟩
      | some bs =>
        simp only [Option.bind_eq_bind, Option.bind_some, Option.pure_def, reduceCtorEq, false_iff]
        rintro ⟨x, hx, hfx⟩
        rcases List.mem_cons.1 hx with rfl | hx
        · rw [ha] at hfx; cases hfx
        · have := ih.2 ⟨x, hx, hfx⟩; rw [hl] at this; cases this

theorem mem_takes (sections : List Section) (p : Text × Option Text) :
    p ∈ takes sections ↔ Section.parameter p.1 p.2 ∈ sections := by
  unfold takes
  dsimp only
  rw [List.mem_append, List.mem_filter, List.mem_filter]
  have hall : p ∈ sections.filterMap Section.parameter? ↔
      Section.parameter p.1 p.2 ∈ sections := by
    rw [List.mem_filterMap]
    constructor
    · rintro ⟨s, hs, hm⟩
      cases s with
      | parameter n d => cases hm; exact hs
      | define n v => cases hm
      | user => cases hm
    · intro h; exact ⟨_, h, rfl⟩
  rw [hall]
  by_cases h : p.2 = none <;> simp [h]

/-- **C48**: a call is refused if and only if a parameter is given that is not declared, or one declared
without a default is not given. -/
theorem refused_iff (sections : List Section) (given : Dict Text Text) :
    bindArgs sections given = none ↔
      (∃ k ∈ given.keys, ∀ d, Section.parameter k d ∉ sections) ∨
      (∃ n, Section.parameter n none ∈ sections ∧ n ∉ given.keys) := by
  unfold bindArgs
  have hunknown : given.keys.any (fun k => decide (k ∉ (takes sections).map (·.1))) = true ↔
      ∃ k ∈ given.keys, ∀ d, Section.parameter k d ∉ sections := by
    rw [List.any_eq_true]
    constructor
    · rintro ⟨k, hk, h⟩
      refine ⟨k, hk, fun d hd => ?_⟩
      simp only [decide_eq_true_eq] at h
      exact h (List.mem_map.2 ⟨(k, d), (mem_takes sections (k, d)).2 hd, rfl⟩)
    · rintro ⟨k, hk, h⟩
      refine ⟨k, hk, ?_⟩
      simp only [decide_eq_true_eq]
      intro hm
      obtain ⟨p, hp, rfl⟩ := List.mem_map.1 hm
      exact h p.2 ((mem_takes sections p).1 hp)
  split
  · rename_i h; simp only [true_iff]; exact .inl (hunknown.1 h)
  · rename_i h
    rw [mapM_none_iff]
    constructor
    · rintro ⟨p, hp, hf⟩
      right
      unfold bindOne at hf
      split at hf
      · cases hf
      · rename_i hg
        split at hf
        · cases hf
        · rename_i hd
          refine ⟨p.1, ?_, fun hk => ?_⟩
          · have := (mem_takes sections p).1 hp; rw [hd] at this; exact this
          · exact Dict.get?_none_iff.1 hg hk
    · rintro (h2 | ⟨n, hn, hg⟩)
      · exact absurd (hunknown.2 h2) h
      · refine ⟨(n, none), (mem_takes sections (n, none)).2 hn, ?_⟩
        unfold bindOne
        rw [Dict.get?_none_iff.2 hg]

/-- **C48**: what a call that is accepted passes on for a declared parameter: the value given, else the
default. -/
theorem parameter_bound (sections : List Section) (given params : Dict Text Text) (hb : bindArgs sections given = some params)
    (hnd : ((takes sections).map (·.1)).Nodup) (n : Text) (d : Option Text) (hp : Section.parameter n d ∈ sections) :
    Dict.get? params n = (match Dict.get? given n with | some v => some v | none => d) ∧ (Dict.get? params n).isSome = true := by
  unfold bindArgs at hb
  split at hb
  · cases hb
  · have hp' := (mem_takes sections (n, d)).2 hp
    revert hp' hnd hb
    generalize takes sections = l
    intro hnd hb hp'
    induction l generalizing params with
    | nil => cases hp'
    | cons p l ih =>
      rw [List.mapM_cons] at hb
      rw [List.map_cons, List.nodup_cons] at hnd
      cases hf : bindOne given p with
      | none => rw [hf] at hb; cases hb
      | some kv =>
        rw [hf] at hb
        simp only [Option.bind_eq_bind, Option.bind_some] at hb
        cases hl : l.mapM (bindOne given) with
        | none => rw [hl] at hb; cases hb
        | some rest =>
          rw [hl] at hb
          simp only [Option.bind_some, Option.pure_def, Option.some.injEq] at hb
          subst hb
          unfold bindOne at hf
          have hkv : kv.1 = p.1 := by
            split at hf
            · cases hf; rfl
            · split at hf
              · cases hf; rfl
              · cases hf
          rcases List.mem_cons.1 hp' with h | h
          · subst h
            rw [Dict.get?_cons, if_pos hkv]
            dsimp only at hf ⊢
            split at hf
            · rename_i v hg; rw [hg]; cases hf; exact ⟨rfl, rfl⟩
            · rename_i hg; rw [hg]
              split at hf
              · rename_i dv; cases hf; exact ⟨rfl, rfl⟩
              · cases hf
          · have hne : kv.1 ≠ n := by
              intro hc
              rw [hkv] at hc
              exact hnd.1 (by rw [hc]; exact List.mem_map.2 ⟨(n, d), h, rfl⟩)
            rw [Dict.get?_cons, if_neg hne]
            exact ih rest hnd.2 hl h

theorem substText_no_dollar (d : Dict Text Text) (t : Text) (h : '$' ∉ t) : substText d t = t := by
  have := text_without_dollar_kept d t h
  rw [replaceSubstitutions] at this
  exact Val.str.inj this

theorem get?_update (a b : Dict Text Text) (k : Text) (hb : b.keys.Nodup) :
    Dict.get? (Dict.update a b) k = match Dict.get? b k with | some v => some v | none => Dict.get? a k := by
  unfold Dict.update
  induction b generalizing a with
  | nil => rfl
  | cons p b ih =>
    have hb' : p.1 ∉ Dict.keys b ∧ (Dict.keys b).Nodup := by
      have := hb; simp only [Dict.keys, List.map_cons, List.nodup_cons] at this; exact this
    rw [List.foldl_cons, ih _ hb'.2, Dict.get?_cons]
    by_cases h : p.1 = k
    · subst h
      rw [if_pos rfl, Dict.get?_none_iff.2 hb'.1, Dict.get?_set_self]
    · rw [if_neg h, Dict.get?_set_ne _ _ h]

/-- **C48** part: the substitutions of a definition have, for a parameter, the value the call passes on,
unless a define has its name. -/
theorem parameter_substitution (sections : List Section) (yamlname yamldir : Text) (params : Dict Text Text)
    (hk : params.keys.Nodup) (n v : Text) (hv : Dict.get? params n = some v)
    (hd : ∀ m w, Section.define m w ∈ sections → '$' ∉ m ∧ m ≠ n) :
    Dict.get? (createDefines sections yamlname yamldir params) n = some v := by
  unfold createDefines
  dsimp only
  have key : ∀ (ss : List Section) (d : Dict Text Text), (∀ m w, Section.define m w ∈ ss → '$' ∉ m ∧ m ≠ n) →
      Dict.get? d n = some v → Dict.get? (ss.foldl addDefine d) n = some v := by
    intro ss
    induction ss with
    | nil => intro d _ h; exact h
    | cons s ss ih =>
      intro d hs h
      rw [List.foldl_cons]
      apply ih _ (fun m w hm => hs m w (List.mem_cons_of_mem _ hm))
      cases s with
      | parameter _ _ => exact h
      | user => exact h
      | define m w =>
        obtain ⟨h1, h2⟩ := hs m w List.mem_cons_self
        simp only [addDefine]
        rw [substText_no_dollar d m h1, Dict.get?_set_ne _ _ h2]
        exact h
  apply key _ _ hd
  rw [get?_update _ _ _ hk, hv]

/-- and the define that is last has, as its value, its text with the substitutions made so far. -/
theorem define_substitution (sections : List Section) (yamlname yamldir : Text) (params : Dict Text Text)
    (m w : Text) (hm : '$' ∉ m) :
    Dict.get? (createDefines (sections ++ [.define m w]) yamlname yamldir params) m =
      some (substText (createDefines sections yamlname yamldir params) w) := by
  unfold createDefines
  dsimp only
  simp only [List.foldl_append, List.foldl_cons, List.foldl_nil, addDefault, addDefine]
  rw [substText_no_dollar _ m hm, Dict.get?_set_self]

/-! ### what does not hold -/

/-- A value with a reference is substituted again, or not, depending on the order of the names. -/
theorem substituted_again :
    substText [("a".toList, "$(b)".toList), ("b".toList, "X".toList)] "$(a)".toList = "X".toList ∧
    substText [("b".toList, "X".toList), ("a".toList, "$(b)".toList)] "$(a)".toList = "$(b)".toList := by decide

/-- A name can be put together by a substitution. -/
theorem name_from_substitution :
    substText [("a".toList, "b".toList), ("b".toList, "X".toList)] "$($(a))".toList = "X".toList := by decide

/-- The default of a parameter is substituted when the defines are made, but then replaced by the one
without substitutions, so that a reference to the parameter leaves a reference in the text. -/
theorem default_not_substituted :
    let sections := [Section.parameter "dir".toList (some "$(yamlname)/x".toList)]
    (bindArgs sections []).map (fun params =>
      substText (createDefines sections "def".toList [] params) "in $(dir)".toList) = some "in $(yamlname)/x".toList ∧
    Dict.get? (sections.foldl addDefault [("yamlname".toList, "def".toList)]) "dir".toList = some "def/x".toList := by
  decide +kernel

/-- `$(name):pos` with a known and an unknown name: the hypotheses of `substitution_exact_partial` -/
example : WellFormed [.ref "name".toList, .chr ':', .chr '$', .chr 'x', .ref "other".toList] ∧
    expected [("name".toList, "me".toList)] [.ref "name".toList, .chr ':', .chr '$', .chr 'x', .ref "other".toList] =
      "me:$x$(other)".toList := by
  refine ⟨⟨by decide, by decide, ?_⟩, by decide⟩
  refine ⟨fun h => absurd h (by decide), fun _ t ht => ?_, fun h => absurd h (by decide), by decide, by decide, trivial⟩
  cases ht
  exact ⟨'x', rfl, by decide⟩

example : bindArgs [.parameter "mri".toList none, .parameter "n".toList (some "1".toList)] [("mri".toList, "M".toList)] =
    some [("mri".toList, "M".toList), ("n".toList, "1".toList)] ∧
    bindArgs [.parameter "mri".toList none] [] = none ∧ bindArgs [.parameter "mri".toList none]
      [("mri".toList, "M".toList), ("x".toList, [])] = none := by decide +kernel

end Verif.Props.Yaml
