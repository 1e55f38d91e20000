import Verif.Spec.IocStatus
import Verif.Proofs.PyDict
/-!
C88: "The status block of an IOC shows the health of the IOC as its PVs now say it, and the dependencies that the RELEASE file
of its directory defines, with all references between them expanded, in whatever order they are written."
-/
set_option linter.unusedVariables false
namespace Verif.Props.IocStatus
open Verif.IocStatus Verif.Spec.IocStatus
open Verif.Yaml (Text replace dollar)
open Verif.Props.Yaml (Tok render WellFormed sub1 render_append render_cons render_chars replace_render)
open Verif.PandABlock (splitAt)

/-! ### Substitution in tokens -/

theorem plain_wf {ts : List Tok} (h : Plain ts) : WellFormed ts := by
  induction ts with
  | nil => trivial
  | cons t ts ih =>
    have h1 := h t List.mem_cons_self
    have h2 := ih (fun x hx => h x (List.mem_cons_of_mem _ hx))
    cases t with
    | chr c => exact ⟨fun hc => absurd hc h1, h2⟩
    | ref n => exact ⟨h1.1, h1.2, h2⟩

/-- a name replaced by a text with references -/
def sub (s : Text) (vs : List Tok) (ts : List Tok) : List Tok :=
  ts.flatMap (fun t => if t = .ref s then vs else [t])

theorem render_sub1 (s : Text) (vs ts : List Tok) :
    render (ts.flatMap (sub1 s (render vs))) = render (sub s vs ts) := by
  induction ts with
  | nil => rfl
  | cons t ts ih =>
    unfold sub at ih ⊢
    rw [List.flatMap_cons, List.flatMap_cons, render_append, render_append, ih]
    congr 1
    cases t with
    | chr c => simp [sub1]
    | ref n =>
      by_cases h : s = n
      · subst h; simp [sub1, render_chars]
      · have : n ≠ s := fun hc => h hc.symm
        simp [sub1, h, this]

theorem replace_sub {s : Text} (hs : ')' ∉ s) (vs : List Tok) {ts : List Tok} (h : Plain ts) :
    replace (dollar s) (render vs) (render ts) = render (sub s vs ts) := by
  rw [replace_render s (render vs) hs ts (plain_wf h), render_sub1]

theorem mem_sub {s : Text} {vs ts : List Tok} {t : Tok} (h : t ∈ sub s vs ts) : t ∈ vs ∨ (t ∈ ts ∧ t ≠ .ref s) := by
  unfold sub at h
  rw [List.mem_flatMap] at h
  obtain ⟨x, hx, ht⟩ := h
  split at ht
  · exact Or.inl ht
  · rename_i hne
    simp only [List.mem_singleton] at ht
    subst ht
    exact Or.inr ⟨hx, hne⟩

theorem plain_sub {s : Text} {vs ts : List Tok} (hv : Plain vs) (ht : Plain ts) : Plain (sub s vs ts) := by
  intro t h
  rcases mem_sub h with h | ⟨h, _⟩
  · exact hv t h
  · exact ht t h

theorem value_sub (file : List Line) (ρ : Text → Text) {s : Text} {vs : List Tok} (hd : (defOf file s).isSome)
    (hs : ρ s = value file ρ vs) (ts : List Tok) : value file ρ (sub s vs ts) = value file ρ ts := by
  induction ts with
  | nil => rfl
  | cons t ts ih =>
    unfold sub value at ih ⊢
    rw [List.flatMap_cons, List.flatMap_cons, List.flatMap_append, ih]
    congr 1
    split
    · rename_i h
      subst h
      simp only [hd, if_true]
      rw [hs]
      rfl
    · simp

theorem value_closed {file : List Line} (ρ : Text → Text) {ts : List Tok}
    (h : ∀ m, Tok.ref m ∈ ts → (defOf file m).isSome → False) : value file ρ ts = render ts := by
  induction ts with
  | nil => rfl
  | cons t ts ih =>
    have h2 := ih (fun m hm => h m (List.mem_cons_of_mem _ hm))
    unfold value render at h2 ⊢
    rw [List.flatMap_cons, List.flatMap_cons, h2]
    congr 1
    cases t with
    | chr c => rfl
    | ref n =>
      have : (defOf file n).isSome = false := by
        cases hc : (defOf file n).isSome
        · rfl
        · exact (h n List.mem_cons_self hc).elim
      simp [this]

/-! ### Reading the lines -/

/-- the definitions as a dictionary -/
def dictOf (ds : List (Text × List Tok)) : Dict Text (List Tok) := ds.foldl (fun d p => d.set p.1 p.2) []

def rendered (d : Dict Text (List Tok)) : Dict Text Text := d.map (fun kv => (kv.1, render kv.2))

theorem rendered_set (d : Dict Text (List Tok)) (n : Text) (ts : List Tok) :
    rendered (d.set n ts) = (rendered d).set n (render ts) := by
  induction d with
  | nil => rfl
  | cons kv d ih =>
    obtain ⟨k, v⟩ := kv
    show rendered (if k = n then (k, ts) :: d else (k, v) :: Dict.set d n ts) = _
    show _ = if k = n then (k, render ts) :: rendered d else (k, render v) :: Dict.set (rendered d) n (render ts)
    split
    · rfl
    · rw [← ih]; rfl

theorem splitAt_none (c : Char) (t : Text) (h : c ∉ t) : splitAt c t = [t] := by
  induction t with
  | nil => rfl
  | cons x t ih =>
    have hx : x ≠ c := fun hc => h (by rw [hc]; exact List.mem_cons_self)
    simp only [splitAt, ih (fun hm => h (List.mem_cons_of_mem _ hm)), hx, if_false]

theorem splitAt_two (c : Char) (a b : Text) (ha : c ∉ a) (hb : c ∉ b) : splitAt c (a ++ c :: b) = [a, b] := by
  induction a with
  | nil => simp only [List.nil_append, splitAt, splitAt_none c b hb, if_true]
  | cons x a ih =>
    have hx : x ≠ c := fun hc => ha (by rw [hc]; exact List.mem_cons_self)
    simp only [List.cons_append, splitAt, ih (fun hm => ha (List.mem_cons_of_mem _ hm)), hx, if_false]

theorem dropWhile_none (t : Text) (h : '\n' ∉ t) : t.dropWhile (fun c => decide (c = '\n')) = t := by
  cases t with
  | nil => rfl
  | cons x t =>
    have hx : x ≠ '\n' := fun hc => h (by rw [hc]; exact List.mem_cons_self)
    simp [List.dropWhile, hx]

theorem strip_line (l : Text) (h : '\n' ∉ l) : stripNewlines (l ++ ['\n']) = l := by
  cases l with
  | nil => decide
  | cons x l =>
    have hx : x ≠ '\n' := fun hc => h (by rw [hc]; exact List.mem_cons_self)
    unfold stripNewlines
    have h1 : (x :: l ++ ['\n']).dropWhile (fun c => decide (c = '\n')) = x :: l ++ ['\n'] := by
      simp [List.dropWhile, hx]
    rw [h1, List.reverse_append]
    have h2 : ([('\n' : Char)].reverse ++ (x :: l).reverse).dropWhile (fun c => decide (c = '\n')) = (x :: l).reverse := by
      show (('\n' : Char) :: (x :: l).reverse).dropWhile (fun c => decide (c = '\n')) = _
      rw [List.dropWhile_cons_of_pos (by simp)]
      exact dropWhile_none _ (by rw [List.mem_reverse]; exact h)
    rw [h2, List.reverse_reverse]

theorem no_eq_split (t : Text) (h : '=' ∉ t) : splitAt '=' (withoutSpaces t) = [withoutSpaces t] :=
  splitAt_none _ _ (fun hm => h (List.mem_filter.1 hm).1)

/-- a file with the text of each of its lines -/
def WrittenFile (file : List (Line × Text)) : Prop := ∀ p ∈ file, p.1.Written p.2 ∧ p.1.Fine

theorem append_not_comment (l : Text) (h : ¬ ['#'] <+: l) : (['#'].isPrefixOf (l ++ ['\n'])) = false := by
  cases l with
  | nil => decide
  | cons x l =>
    cases hc : (['#'].isPrefixOf ((x :: l) ++ ['\n']))
    · rfl
    · exfalso
      apply h
      simp [List.isPrefixOf] at hc
      exact ⟨l, by rw [hc]; rfl⟩

theorem collect_from (file : List (Line × Text)) (h : WrittenFile file) (d : Dict Text (List Tok)) :
    (depList (file.map (·.2))).foldl addLine (rendered d) =
      rendered ((defs (file.map (·.1))).foldl (fun d p => d.set p.1 p.2) d) := by
  induction file generalizing d with
  | nil => rfl
  | cons p file ih =>
    have h1 := h p List.mem_cons_self
    have h2 := ih (fun q hq => h q (List.mem_cons_of_mem _ hq))
    obtain ⟨l, t⟩ := p
    obtain ⟨hw, hf⟩ := h1
    simp only at hw hf
    cases l with
    | comment c =>
      simp only [Line.Written] at hw
      subst hw
      have := h2 d
      simpa [depList, defs, List.isPrefixOf] using this
    | define n ts =>
      obtain ⟨l', rfl, hn, hc, he⟩ := hw
      obtain ⟨hf1, hf2, hf3, hf4⟩ := hf
      have hnc := append_not_comment l' hc
      have hadd : addLine (rendered d) (stripNewlines (l' ++ ['\n'])) = rendered (d.set n ts) := by
        rw [strip_line l' hn, rendered_set]
        unfold addLine
        rw [he, splitAt_two '=' n (render ts) hf2 hf3]
      have h3 := h2 (d.set n ts)
      unfold depList at h3 ⊢
      simp only [List.map_cons, List.filter_cons, hnc, Bool.not_false, if_true, List.foldl_cons, hadd]
      rw [h3]
      rfl
    | other c =>
      obtain ⟨rfl, hn, he, hc⟩ := hw
      have hnc := append_not_comment c hc
      have hadd : addLine (rendered d) (stripNewlines (c ++ ['\n'])) = rendered d := by
        rw [strip_line c hn]
        unfold addLine
        rw [no_eq_split c he]
      have h3 := h2 d
      unfold depList at h3 ⊢
      simp only [List.map_cons, List.filter_cons, hnc, Bool.not_false, if_true, List.foldl_cons, hadd]
      rw [h3]
      rfl

theorem collect_eq (file : List (Line × Text)) (h : WrittenFile file) :
    collect (depList (file.map (·.2))) = rendered (dictOf (defs (file.map (·.1)))) := collect_from file h []

theorem get_foldl (ds : List (Text × List Tok)) (d : Dict Text (List Tok)) (n : Text) :
    (ds.foldl (fun d p => d.set p.1 p.2) d).get? n =
      ((ds.reverse.find? (fun p => p.1 = n)).map (·.2)).or (d.get? n) := by
  induction ds generalizing d with
  | nil => simp
  | cons p ds ih =>
    rw [List.foldl_cons, ih, List.reverse_cons, List.find?_append]
    cases hf : ds.reverse.find? (fun p => decide (p.1 = n)) with
    | some q => simp
    | none =>
      by_cases hp : p.1 = n
      · subst hp; simp
      · simp [hp, Dict.get?_set_ne _ _ hp]

theorem get_dictOf (file : List Line) (n : Text) : (dictOf (defs file)).get? n = defOf file n := by
  unfold dictOf defOf
  rw [get_foldl]
  simp

theorem nodup_foldl (ds : List (Text × List Tok)) (d : Dict Text (List Tok)) (h : d.keys.Nodup) :
    (ds.foldl (fun d p => d.set p.1 p.2) d).keys.Nodup := by
  induction ds generalizing d with
  | nil => exact h
  | cons p ds ih => exact ih _ (Dict.nodup_set h _ _)

theorem keys_foldl (ds : List (Text × List Tok)) (d : Dict Text (List Tok)) :
    (ds.foldl (fun d p => d.set p.1 p.2) d).keys = d.keys ++ (firsts (ds.map (·.1))).filter (fun n => n ∉ d.keys) := by
  induction ds generalizing d with
  | nil => simp [firsts]
  | cons p ds ih =>
    rw [List.foldl_cons, ih, Dict.keys_set, List.map_cons, firsts]
    by_cases hm : p.1 ∈ d.keys
    · simp only [hm, if_true]
      congr 1
      rw [List.filter_cons]
      simp only [hm, not_true_eq_false, decide_false, Bool.false_eq_true, if_false, List.filter_filter]
      apply List.filter_congr
      intro x hx
      by_cases hx2 : x = p.1
      · subst hx2; simp [hm]
      · simp [hx2]
    · simp only [hm, if_false, List.append_assoc]
      congr 1
      rw [List.filter_cons]
      simp only [hm, not_false_eq_true, decide_true, if_true, List.filter_filter, List.singleton_append, List.cons.injEq, true_and]
      apply List.filter_congr
      intro x hx
      by_cases hx2 : x = p.1
      · subst hx2; simp
      · simp [hx2]

theorem keys_dictOf (file : List Line) : (dictOf (defs file)).keys = names file := by
  unfold dictOf
  rw [keys_foldl]
  simp [Dict.keys, names]

/-! ### The expansion -/

theorem keys_rendered (d : Dict Text (List Tok)) : (rendered d).keys = d.keys := by
  simp [rendered, Dict.keys]

theorem get_rendered (d : Dict Text (List Tok)) (k : Text) : (rendered d).get? k = (d.get? k).map render := by
  induction d with
  | nil => rfl
  | cons kv d ih =>
    obtain ⟨a, v⟩ := kv
    show (if a = k then some (render v) else Dict.get? (rendered d) k) = (if a = k then some v else Dict.get? d k).map render
    split
    · rfl
    · exact ih

/-- What holds when the names `done` were replaced -/
structure Inv (file : List Line) (rank : Text → Nat) (ρ : Text → Text) (done : List Text) (d : Dict Text (List Tok)) : Prop where
  keys : d.keys = names file
  plain : ∀ kv ∈ d, Plain kv.2
  gone : ∀ kv ∈ d, ∀ m ∈ done, Tok.ref m ∉ kv.2
  lower : ∀ kv ∈ d, ∀ m, Tok.ref m ∈ kv.2 → (defOf file m).isSome → rank m < rank kv.1
  same : ∀ kv ∈ d, ρ kv.1 = value file ρ kv.2

theorem expandOne_rendered {file : List Line} {rank : Text → Nat} {ρ : Text → Text} {done : List Text}
    {d : Dict Text (List Tok)} (h : Inv file rank ρ done d) {k : Text} (hk : k ∈ names file)
    (hp : ')' ∉ k) (hdef : (defOf file k).isSome) :
    ∃ d', expandOne (rendered d) k = rendered d' ∧ Inv file rank ρ (k :: done) d' := by
  cases hv : d.get? k with
  | none => rw [Dict.get?_none_iff, h.keys] at hv; exact absurd hk hv
  | some v =>
    have hmem := Dict.get?_mem hv
    refine ⟨d.map (fun kv => (kv.1, sub k v kv.2)), ?_, ?_⟩
    · unfold expandOne
      rw [get_rendered, hv]
      simp only [Option.map_some, rendered, List.map_map]
      apply List.map_congr_left
      intro kv hkv
      simp only [Function.comp, replace_sub hp v (h.plain kv hkv)]
    · constructor
      · rw [← h.keys]; simp [Dict.keys]
      · intro kv hkv
        obtain ⟨x, hx, rfl⟩ := List.mem_map.1 hkv
        exact plain_sub (h.plain _ hmem) (h.plain x hx)
      · intro kv hkv m hm hin
        obtain ⟨x, hx, rfl⟩ := List.mem_map.1 hkv
        rcases mem_sub hin with hin2 | ⟨hin2, hne⟩
        · rcases List.mem_cons.1 hm with he | hm
          · rw [he] at hin2
            exact absurd (h.lower _ hmem k hin2 hdef) (Nat.lt_irrefl _)
          · exact h.gone _ hmem m hm hin2
        · rcases List.mem_cons.1 hm with he | hm
          · exact hne (by rw [he])
          · exact h.gone x hx m hm hin2
      · intro kv hkv m hin hd
        obtain ⟨x, hx, rfl⟩ := List.mem_map.1 hkv
        unfold sub at hin
        rw [List.mem_flatMap] at hin
        obtain ⟨t, ht, hin⟩ := hin
        split at hin
        · rename_i he
          subst he
          exact Nat.lt_trans (h.lower _ hmem m hin hd) (h.lower x hx k ht hdef)
        · simp only [List.mem_singleton] at hin
          subst hin
          exact h.lower x hx m ht hd
      · intro kv hkv
        obtain ⟨x, hx, rfl⟩ := List.mem_map.1 hkv
        rw [value_sub file ρ hdef (h.same _ hmem)]
        exact h.same x hx

theorem expand_inv {file : List Line} {rank : Text → Nat} {ρ : Text → Text} (ks : List Text) (done : List Text)
    {d : Dict Text (List Tok)} (h : Inv file rank ρ done d)
    (hks : ∀ k ∈ ks, k ∈ names file ∧ ')' ∉ k ∧ (defOf file k).isSome) :
    ∃ d', ks.foldl expandOne (rendered d) = rendered d' ∧ Inv file rank ρ (ks.reverse ++ done) d' := by
  induction ks generalizing done d with
  | nil => exact ⟨d, rfl, h⟩
  | cons k ks ih =>
    obtain ⟨h1, h2, h3⟩ := hks k List.mem_cons_self
    obtain ⟨d1, he, hi⟩ := expandOne_rendered h h1 h2 h3
    obtain ⟨d2, he2, hi2⟩ := ih (k :: done) hi (fun x hx => hks x (List.mem_cons_of_mem _ hx))
    refine ⟨d2, ?_, ?_⟩
    · rw [List.foldl_cons, he, he2]
    · simpa using hi2

/-- The definitions can be solved: by the rank of the names -/
def valueAt (file : List Line) : Nat → Text → Text
  | 0, _ => []
  | k + 1, n => match defOf file n with | some ts => value file (valueAt file k) ts | none => []

theorem value_congr (file : List Line) {ρ σ : Text → Text} {ts : List Tok}
    (h : ∀ m, Tok.ref m ∈ ts → (defOf file m).isSome → ρ m = σ m) : value file ρ ts = value file σ ts := by
  induction ts with
  | nil => rfl
  | cons t ts ih =>
    have h2 := ih (fun m hm => h m (List.mem_cons_of_mem _ hm))
    unfold value at h2 ⊢
    rw [List.flatMap_cons, List.flatMap_cons, h2]
    congr 1
    cases t with
    | chr c => rfl
    | ref n =>
      simp only
      split
      · rename_i hd; exact h n List.mem_cons_self hd
      · rfl

theorem valueAt_stable {file : List Line} {rank : Text → Nat}
    (hr : ∀ n ts, defOf file n = some ts → ∀ m, Tok.ref m ∈ ts → (defOf file m).isSome → rank m < rank n) :
    ∀ (b : Nat) (n : Text) (k j : Nat), rank n < b → rank n < k → rank n < j → valueAt file k n = valueAt file j n := by
  intro b
  induction b with
  | zero => intro n k j h; omega
  | succ b ih =>
    intro n k j hb hk hj
    cases k with
    | zero => omega
    | succ k =>
      cases j with
      | zero => omega
      | succ j =>
        simp only [valueAt]
        cases hd : defOf file n with
        | none => rfl
        | some ts =>
          simp only
          apply value_congr
          intro m hm hdm
          have := hr n ts hd m hm hdm
          exact ih m k j (by omega) (by omega) (by omega)

/-- Definitions that don't go in circles have a solution -/
theorem solvable {file : List Line} (h : Acyclic file) : ∃ ρ, Solves file ρ := by
  obtain ⟨rank, hr⟩ := h
  refine ⟨fun n => valueAt file (rank n + 1) n, ?_⟩
  intro n ts hd
  show valueAt file (rank n + 1) n = _
  rw [valueAt, hd]
  apply value_congr
  intro m hm hdm
  have := hr n ts hd m hm hdm
  exact valueAt_stable hr (rank m + 1) m _ _ (by omega) (by omega) (by omega)

theorem def_mem {file : List Line} {n : Text} {ts : List Tok} (h : defOf file n = some ts) : Line.define n ts ∈ file := by
  unfold defOf at h
  rw [Option.map_eq_some_iff] at h
  obtain ⟨p, hp, rfl⟩ := h
  have h1 := List.find?_some hp
  have h2 := List.mem_of_find?_eq_some hp
  simp only [decide_eq_true_eq] at h1
  rw [List.mem_reverse] at h2
  unfold defs at h2
  rw [List.mem_filterMap] at h2
  obtain ⟨l, hl, he⟩ := h2
  split at he
  · rename_i n' ts'
    cases he
    simp only at h1
    subst h1
    exact hl
  · cases he

theorem defined_iff (file : List Line) (n : Text) : (defOf file n).isSome ↔ n ∈ names file := by
  rw [← get_dictOf, ← keys_dictOf]
  cases h : (dictOf (defs file)).get? n with
  | none => rw [Dict.get?_none_iff] at h; simp [h]
  | some v => simp; exact List.mem_map.2 ⟨_, Dict.get?_mem h, rfl⟩

/-- **The table has the value of each name that the file defines**, in the order in which they come, whatever that order is
to the references between them. -/
theorem table_expanded (file : List (Line × Text)) (hw : WrittenFile file) (ha : Acyclic (file.map (·.1)))
    (ρ : Text → Text) (hρ : Solves (file.map (·.1)) ρ) :
    expandAll (collect (depList (file.map (·.2)))) = (names (file.map (·.1))).map (fun n => (n, ρ n)) := by
  obtain ⟨rank, hr⟩ := ha
  rw [collect_eq file hw]
  have hnd : (dictOf (defs (file.map (·.1)))).keys.Nodup := nodup_foldl _ _ (by simp [Dict.keys])
  have hget : ∀ kv ∈ dictOf (defs (file.map (·.1))), defOf (file.map (·.1)) kv.1 = some kv.2 := by
    intro kv hkv
    rw [← get_dictOf]
    exact Dict.get?_of_mem_nodup hnd hkv
  have hfine : ∀ n ts, defOf (file.map (·.1)) n = some ts → ')' ∉ n ∧ Plain ts := by
    intro n ts hd
    obtain ⟨p, hp, he⟩ := List.mem_map.1 (def_mem hd)
    have := (hw p hp).2
    rw [he] at this
    exact ⟨this.1, this.2.2.2⟩
  have hinv : Inv (file.map (·.1)) rank ρ [] (dictOf (defs (file.map (·.1)))) := by
    constructor
    · exact keys_dictOf _
    · intro kv hkv; exact (hfine _ _ (hget kv hkv)).2
    · intro kv _ m hm; cases hm
    · intro kv hkv; exact hr _ _ (hget kv hkv)
    · intro kv hkv; exact hρ _ _ (hget kv hkv)
  unfold expandAll
  rw [keys_rendered, keys_dictOf]
  have hks : ∀ k ∈ names (file.map (·.1)), k ∈ names (file.map (·.1)) ∧ ')' ∉ k ∧ (defOf (file.map (·.1)) k).isSome := by
    intro k hk
    have hs := (defined_iff _ k).2 hk
    obtain ⟨ts, hts⟩ := Option.isSome_iff_exists.1 hs
    exact ⟨hk, (hfine k ts hts).1, hs⟩
  obtain ⟨d', he, hi⟩ := expand_inv _ [] hinv hks
  rw [he, ← hi.keys, Dict.keys, List.map_map]
  unfold rendered
  apply List.map_congr_left
  intro kv hkv
  simp only [Function.comp, Prod.mk.injEq, true_and]
  rw [hi.same kv hkv, value_closed]
  intro m hm hd
  exact hi.gone kv hkv m (by rw [List.append_nil, List.mem_reverse]; exact (defined_iff _ m).1 hd) hm

/-! ### What the block shows -/

theorem snoc_ind {α : Type} {P : List α → Prop} (h0 : P []) (hs : ∀ l a, P l → P (l ++ [a])) : ∀ l, P l := by
  intro l
  rw [← l.reverse_reverse]
  induction l.reverse with
  | nil => exact h0
  | cons a l ih => rw [List.reverse_cons]; exact hs _ _ ih

theorem run_snoc (disk : Disk) (evs : List Ev) (e : Ev) : run disk (evs ++ [e]) = step disk (run disk evs) e := by
  simp [run]

theorem parse_dirs (disk : Disk) (dir : Text) (s : State) :
    (parseRelease disk dir s).dir1 = s.dir1 ∧ (parseRelease disk dir s).dir2 = s.dir2 ∧
    (parseRelease disk dir s).health = s.health ∧ (parseRelease disk dir s).dlsVersion = s.dlsVersion ∧
    (parseRelease disk dir s).hasProcserv = s.hasProcserv := by
  unfold parseRelease
  split
  · split <;> exact ⟨rfl, rfl, rfl, rfl, rfl⟩
  · exact ⟨rfl, rfl, rfl, rfl, rfl⟩

theorem dirUpdated_same (disk : Disk) (s : State) :
    (dirUpdated disk s).dir1 = s.dir1 ∧ (dirUpdated disk s).dir2 = s.dir2 ∧
    (dirUpdated disk s).health = s.health ∧ (dirUpdated disk s).dlsVersion = s.dlsVersion ∧
    (dirUpdated disk s).hasProcserv = s.hasProcserv := by
  unfold dirUpdated
  split
  · exact parse_dirs _ _ _
  · exact ⟨rfl, rfl, rfl, rfl, rfl⟩

theorem versionUpdated_same (v : Option Text) (s : State) :
    (versionUpdated v s).dir1 = s.dir1 ∧ (versionUpdated v s).dir2 = s.dir2 ∧
    (versionUpdated v s).dependencies = s.dependencies ∧ (versionUpdated v s).notFound = s.notFound := by
  unfold versionUpdated
  split <;> exact ⟨rfl, rfl, rfl, rfl⟩

/-- What is shown of a directory -/
def Shows (disk : Disk) (dir : Text) (s : State) : Prop :=
  (disk dir = none → s.notFound = true) ∧
  (∀ lines, disk dir = some lines → depList lines ≠ [] →
    s.notFound = false ∧ s.dependencies = expandAll (collect (depList lines)))

theorem parse_shows (disk : Disk) (dir : Text) (s : State) : Shows disk dir (parseRelease disk dir s) := by
  constructor
  · intro h; simp [parseRelease, h]
  · intro lines h hne
    have : 0 < (depList lines).length := List.length_pos_iff.2 hne
    simp [parseRelease, h, this]

theorem dirs_inv (disk : Disk) (evs : List Ev) :
    (run disk evs).dir1 = lastDir1 evs ∧ (run disk evs).dir2 = lastDir2 evs ∧
    (∀ a b, lastDir1 evs = some a → lastDir2 evs = some b → Shows disk (a ++ b) (run disk evs)) := by
  induction evs using snoc_ind with
  | h0 => exact ⟨rfl, rfl, fun a b h => by cases h⟩
  | hs evs e ih =>
    obtain ⟨h1, h2, h3⟩ := ih
    rw [run_snoc]
    have hupd : ∀ s : State, ∀ a b, s.dir1 = some a → s.dir2 = some b → Shows disk (a ++ b) (dirUpdated disk s) := by
      intro s a b ha hb
      unfold dirUpdated
      rw [ha, hb]
      exact parse_shows _ _ _
    have hver : ∀ (v : Option Text) (s : State), s.dir1 = (run disk evs).dir1 → s.dir2 = (run disk evs).dir2 →
        s.dependencies = (run disk evs).dependencies → s.notFound = (run disk evs).notFound →
        (versionUpdated v s).dir1 = lastDir1 evs ∧ (versionUpdated v s).dir2 = lastDir2 evs ∧
        (∀ a b, lastDir1 evs = some a → lastDir2 evs = some b → Shows disk (a ++ b) (versionUpdated v s)) := by
      intro v s e1 e2 e3 e4
      obtain ⟨q1, q2, q3, q4⟩ := versionUpdated_same v s
      refine ⟨by rw [q1, e1, h1], by rw [q2, e2, h2], ?_⟩
      intro a b ha hb
      have := h3 a b ha hb
      unfold Shows at this ⊢
      rw [q3, q4, e3, e4]
      exact this
    cases e with
    | version v =>
      have e1 : lastDir1 (evs ++ [.version v]) = lastDir1 evs := by simp [lastDir1]
      have e2 : lastDir2 (evs ++ [.version v]) = lastDir2 evs := by simp [lastDir2]
      rw [e1, e2]
      exact hver v _ rfl rfl rfl rfl
    | status b =>
      have e1 : lastDir1 (evs ++ [.status b]) = lastDir1 evs := by simp [lastDir1]
      have e2 : lastDir2 (evs ++ [.status b]) = lastDir2 evs := by simp [lastDir2]
      rw [e1, e2]
      cases b
      · exact ⟨h1, h2, h3⟩
      · exact hver _ _ rfl rfl rfl rfl
    | dir1 v =>
      have e2 : lastDir2 (evs ++ [.dir1 v]) = lastDir2 evs := by simp [lastDir2]
      rw [e2]
      cases v with
      | none =>
        have e1 : lastDir1 (evs ++ [.dir1 none]) = lastDir1 evs := by simp [lastDir1]
        rw [e1]
        have q := dirUpdated_same disk (run disk evs)
        refine ⟨by rw [← h1]; exact q.1, by rw [← h2]; exact q.2.1, ?_⟩
        intro a b ha hb
        exact hupd _ a b (by rw [h1, ha]) (by rw [h2, hb])
      | some t =>
        have e1 : lastDir1 (evs ++ [.dir1 (some t)]) = some t := by simp [lastDir1]
        rw [e1]
        have q := dirUpdated_same disk { run disk evs with dir1 := some t }
        refine ⟨q.1, by rw [← h2]; exact q.2.1, ?_⟩
        intro a b ha hb
        exact hupd { run disk evs with dir1 := some t } a b ha (by rw [← hb]; exact h2)
    | dir2 v =>
      have e2 : lastDir1 (evs ++ [.dir2 v]) = lastDir1 evs := by simp [lastDir1]
      rw [e2]
      cases v with
      | none =>
        have e1 : lastDir2 (evs ++ [.dir2 none]) = lastDir2 evs := by simp [lastDir2]
        rw [e1]
        have q := dirUpdated_same disk (run disk evs)
        refine ⟨by rw [← h1]; exact q.1, by rw [← h2]; exact q.2.1, ?_⟩
        intro a b ha hb
        exact hupd _ a b (by rw [h1, ha]) (by rw [h2, hb])
      | some t =>
        have e1 : lastDir2 (evs ++ [.dir2 (some t)]) = some t := by simp [lastDir2]
        rw [e1]
        have q := dirUpdated_same disk { run disk evs with dir2 := some t }
        refine ⟨by rw [← h1]; exact q.1, q.2.1, ?_⟩
        intro a b ha hb
        exact hupd { run disk evs with dir2 := some t } a b (by rw [← ha]; exact h1) hb

/-- **The dependencies that are shown are those of the directory that the PVs now give**, all names expanded; if there is
nothing at that directory, the attribute is in alarm.  Not covered: a RELEASE file that has nothing but comments
(`stale_table`), comments that don't start their line (`comment_kept`), and definitions in circles. -/
theorem dependencies_partial (disk : Disk) (evs : List Ev) (a b : Text)
    (h1 : lastDir1 evs = some a) (h2 : lastDir2 evs = some b) :
    (disk (a ++ b) = none → (run disk evs).notFound = true) ∧
    (∀ file : List (Line × Text), disk (a ++ b) = some (file.map (·.2)) → WrittenFile file → Acyclic (file.map (·.1)) →
      (∃ p ∈ file, ∀ t, p.1 ≠ .comment t) →
      (run disk evs).notFound = false ∧
      ∃ ρ, Solves (file.map (·.1)) ρ ∧
        (run disk evs).dependencies = (names (file.map (·.1))).map (fun n => (n, ρ n))) := by
  obtain ⟨hs1, hs2⟩ := (dirs_inv disk evs).2.2 a b h1 h2
  refine ⟨hs1, ?_⟩
  intro file hd hw ha ⟨p, hp, hc⟩
  have hne : depList (file.map (·.2)) ≠ [] := by
    intro he
    unfold depList at he
    rw [List.map_eq_nil_iff, List.filter_eq_nil_iff] at he
    apply he p.2 (List.mem_map.2 ⟨p, hp, rfl⟩)
    have hwp := (hw p hp).1
    obtain ⟨l, t⟩ := p
    cases l with
    | comment t => exact absurd rfl (hc t)
    | define n ts =>
      obtain ⟨l', rfl, _, hnc, _⟩ := hwp
      show (!(['#'].isPrefixOf (l' ++ ['\n']))) = true
      rw [append_not_comment l' hnc]; rfl
    | other c =>
      obtain ⟨rfl, _, _, hnc⟩ := hwp
      show (!(['#'].isPrefixOf (c ++ ['\n']))) = true
      rw [append_not_comment c hnc]; rfl
  obtain ⟨ρ, hρ⟩ := solvable ha
  obtain ⟨q1, q2⟩ := hs2 _ hd hne
  exact ⟨q1, ρ, hρ, by rw [q2]; exact table_expanded file hw ha ρ hρ⟩

/-- There is only one solution, so the table has no choice -/
theorem solution_unique {file : List Line} (ha : Acyclic file) {ρ σ : Text → Text} (h1 : Solves file ρ) (h2 : Solves file σ) :
    ∀ n ∈ names file, ρ n = σ n := by
  obtain ⟨rank, hr⟩ := ha
  have key : ∀ (b : Nat) (n : Text), rank n < b → (defOf file n).isSome → ρ n = σ n := by
    intro b
    induction b with
    | zero => intro n h; omega
    | succ b ih =>
      intro n hb hs
      obtain ⟨ts, hts⟩ := Option.isSome_iff_exists.1 hs
      rw [h1 n ts hts, h2 n ts hts]
      apply value_congr
      intro m hm hd
      exact ih m (by have := hr n ts hts m hm hd; omega) hd
  intro n hn
  exact key (rank n + 1) n (by omega) ((defined_iff file n).2 hn)

/-! ### Health -/

theorem isNonProd_eq (v : Text) : (if isNonProd v then Health.nonProd else .ok) = if fromWork v then .nonProd else .ok := by
  have : isNonProd v = true ↔ fromWork v := by simp [isNonProd, fromWork]
  by_cases h : fromWork v
  · simp [h, this.2 h]
  · have : isNonProd v = false := by
      cases hc : isNonProd v
      · rfl
      · exact absurd (this.1 hc) h
    simp [h, this]

theorem version_inv (disk : Disk) (evs : List Ev) (v : Text) (h : lastVersion evs = some (some v)) :
    (run disk evs).dlsVersion = some v ∧ (run disk evs).health = some (if fromWork v then .nonProd else .ok) := by
  induction evs using snoc_ind with
  | h0 => cases h
  | hs evs e ih =>
    rw [run_snoc]
    cases e with
    | version w =>
      have : lastVersion (evs ++ [.version w]) = some w := by simp [lastVersion]
      rw [this] at h
      cases h
      simp only [step, versionUpdated, isNonProd_eq, and_self]
    | status b =>
      have : lastVersion (evs ++ [.status b]) = lastVersion evs := by simp [lastVersion]
      rw [this] at h
      obtain ⟨h1, h2⟩ := ih h
      cases b
      · exact ⟨h1, h2⟩
      · simp only [step, if_true, h1, versionUpdated, isNonProd_eq, and_self]
    | dir1 w =>
      have : lastVersion (evs ++ [.dir1 w]) = lastVersion evs := by simp [lastVersion]
      rw [this] at h
      obtain ⟨h1, h2⟩ := ih h
      simp only [step]
      rw [(dirUpdated_same disk _).2.2.1, (dirUpdated_same disk _).2.2.2.1]
      cases w <;> exact ⟨h1, h2⟩
    | dir2 w =>
      have : lastVersion (evs ++ [.dir2 w]) = lastVersion evs := by simp [lastVersion]
      rw [this] at h
      obtain ⟨h1, h2⟩ := ih h
      simp only [step]
      rw [(dirUpdated_same disk _).2.2.1, (dirUpdated_same disk _).2.2.2.1]
      cases w <;> exact ⟨h1, h2⟩

theorem procserv_inv (disk : Disk) (evs : List Ev) : (run disk evs).hasProcserv = decide (.status true ∈ evs) := by
  induction evs using snoc_ind with
  | h0 => rfl
  | hs evs e ih =>
    rw [run_snoc]
    have hv : ∀ v s, (versionUpdated v s).hasProcserv = s.hasProcserv := by
      intro v s; unfold versionUpdated; split <;> rfl
    cases e with
    | version v => simp [step, hv, ih]
    | status b =>
      cases b
      · simp [step, ih]
      · simp [step, hv]
    | dir1 v =>
      simp only [step]
      rw [(dirUpdated_same disk _).2.2.2.2]
      cases v <;> simp [ih]
    | dir2 v =>
      simp only [step]
      rw [(dirUpdated_same disk _).2.2.2.2]
      cases v <;> simp [ih]

theorem quiet_health (disk : Disk) (post : List Ev) (hq : ∀ e ∈ post, (∀ v, e ≠ .version v) ∧ e ≠ .status true) (s : State) :
    (post.foldl (step disk) s).health = s.health := by
  induction post generalizing s with
  | nil => rfl
  | cons e post ih =>
    rw [List.foldl_cons, ih (fun x hx => hq x (List.mem_cons_of_mem _ hx))]
    obtain ⟨h1, h2⟩ := hq e List.mem_cons_self
    cases e with
    | version v => exact absurd rfl (h1 v)
    | status b => cases b; · rfl
                  · exact absurd rfl h2
    | dir1 v => simp only [step]; rw [(dirUpdated_same disk _).2.2.1]; cases v <;> rfl
    | dir2 v => simp only [step]; rw [(dirUpdated_same disk _).2.2.1]; cases v <;> rfl

theorem lastStatus_of_no_false {evs : List Ev} (h : Ev.status false ∉ evs) : lastStatus evs = decide (.status true ∈ evs) := by
  induction evs using snoc_ind with
  | h0 => rfl
  | hs evs e ih =>
    have h1 := ih (fun hm => h (List.mem_append_left _ hm))
    cases e with
    | status b =>
      cases b
      · exact absurd (List.mem_append_right _ List.mem_cons_self) h
      · simp [lastStatus]
    | version v => simpa [lastStatus] using h1
    | dir1 v => simpa [lastStatus] using h1
    | dir2 v => simpa [lastStatus] using h1

/-- **The health is what the PVs say**: always when the version of the IOC is there, and when it isn't then as long as nothing
comes of procServ after it went, and procServ itself didn't go.  Not covered, because it is false: `down_but_ok`,
`procserv_gone`. -/
theorem health_partial (disk : Disk) (evs : List Ev) :
    (∀ v, lastVersion evs = some (some v) → (run disk evs).health = some (healthOf (lastVersion evs) (lastStatus evs))) ∧
    (∀ pre post, evs = pre ++ .version none :: post → (∀ e ∈ post, (∀ v, e ≠ .version v) ∧ e ≠ .status true) →
      .status false ∉ evs → (run disk evs).health = some (healthOf (lastVersion evs) (lastStatus evs))) := by
  constructor
  · intro v h
    rw [(version_inv disk evs v h).2, h]
    rfl
  · intro pre post he hq hf
    have hl : lastVersion evs = some none := by
      subst he
      clear hf
      induction post using snoc_ind with
      | h0 => simp [lastVersion]
      | hs post e ih =>
        have h1 := ih (fun x hx => hq x (List.mem_append_left _ hx))
        have h2 := (hq e (List.mem_append_right _ List.mem_cons_self)).1
        have h3 : lastVersion ((pre ++ .version none :: post) ++ [e]) = lastVersion (pre ++ .version none :: post) := by
          cases e with
          | version v => exact absurd rfl (h2 v)
          | status b => simp [lastVersion]
          | dir1 v => simp [lastVersion]
          | dir2 v => simp [lastVersion]
        rw [← h1, ← h3]
        simp
    have hs : lastStatus evs = decide (Ev.status true ∈ pre) := by
      rw [lastStatus_of_no_false hf]
      subst he
      have : Ev.status true ∉ post := fun hm => (hq _ hm).2 rfl
      simp [this]
    rw [hl, hs]
    subst he
    unfold run
    rw [List.foldl_append, List.foldl_cons, quiet_health disk post hq]
    show (versionUpdated none (run disk pre)).health = _
    simp only [versionUpdated, procserv_inv, healthOf]

/-! ### Cases, and what goes wrong -/

def toks (t : String) : List Tok := t.toList.map .chr

/-- a file in which a name is used before it is defined -/
def exFile : List (Line × Text) :=
  [ (.comment " RELEASE\n".toList, "# RELEASE\n".toList),
    (.define "AREA".toList (.ref "SUPPORT".toList :: toks "/area"), "AREA = $(SUPPORT)/area\n".toList),
    (.define "SUPPORT".toList (toks "/dls/" ++ [.ref "VER".toList, .ref "TOP".toList]), "SUPPORT=/dls/$(VER)$(TOP)\n".toList),
    (.other "".toList, "\n".toList),
    (.define "VER".toList (toks "R3"), "VER=R3\n".toList) ]

def exDisk : Disk := fun d => if d = "/ioc/a".toList then some (exFile.map (·.2)) else if d = "/ioc/b".toList then some ["# none\n".toList] else none

/-- It is shown with all that is defined expanded -/
example : (run exDisk [.dir1 (some "/ioc".toList), .dir2 (some "/a".toList)]).dependencies =
    [("AREA".toList, "/dls/R3$(TOP)/area".toList), ("SUPPORT".toList, "/dls/R3$(TOP)".toList), ("VER".toList, "R3".toList)] := by
  decide +kernel

instance (ts : List Tok) : Decidable (Plain ts) := by
  unfold Plain
  have : ∀ t : Tok, Decidable (match t with | .chr c => c ≠ '$' | .ref n => '$' ∉ n ∧ ')' ∉ n) := by
    intro t; cases t <;> infer_instance
  infer_instance

/-- The hypotheses are met by it -/
example : WrittenFile exFile ∧ Acyclic (exFile.map (·.1)) ∧ (∃ p ∈ exFile, ∀ t, p.1 ≠ .comment t) := by
  refine ⟨?_, ⟨fun n => if n = "AREA".toList then 2 else if n = "SUPPORT".toList then 1 else 0, ?_⟩, ?_⟩
  · intro p hp
    simp only [exFile, List.mem_cons, List.not_mem_nil, or_false] at hp
    rcases hp with rfl | rfl | rfl | rfl | rfl
    · exact ⟨rfl, trivial⟩
    · refine ⟨⟨"AREA = $(SUPPORT)/area".toList, by decide +kernel, by decide +kernel, by decide +kernel, by decide +kernel⟩, ?_⟩
      exact ⟨by decide +kernel, by decide +kernel, by decide +kernel, by decide +kernel⟩
    · refine ⟨⟨"SUPPORT=/dls/$(VER)$(TOP)".toList, by decide +kernel, by decide +kernel, by decide +kernel, by decide +kernel⟩, ?_⟩
      exact ⟨by decide +kernel, by decide +kernel, by decide +kernel, by decide +kernel⟩
    · exact ⟨⟨by decide +kernel, by decide +kernel, by decide +kernel, by decide +kernel⟩, trivial⟩
    · refine ⟨⟨"VER=R3".toList, by decide +kernel, by decide +kernel, by decide +kernel, by decide +kernel⟩, ?_⟩
      exact ⟨by decide +kernel, by decide +kernel, by decide +kernel, by decide +kernel⟩
  · intro n ts hd m hm hdm
    have hmem := def_mem hd
    simp only [exFile, List.map_cons, List.map_nil, List.mem_cons, Line.define.injEq, reduceCtorEq, false_or, List.not_mem_nil, or_false] at hmem
    rcases hmem with ⟨rfl, rfl⟩ | ⟨rfl, rfl⟩ | ⟨rfl, rfl⟩
    · have : m = "SUPPORT".toList := by simpa [toks] using hm
      subst this; decide +kernel
    · have : m = "VER".toList ∨ m = "TOP".toList := by simpa [toks] using hm
      rcases this with rfl | rfl
      · decide +kernel
      · revert hdm; decide +kernel
    · simp [toks] at hm
  · exact ⟨_, List.mem_cons_of_mem _ List.mem_cons_self, fun t h => by cases h⟩

example : (run exDisk [.version (some "3-1".toList), .status true, .version none]).health = some .stopped := by decide +kernel

/-- The IOC went down; when procServ then says how it is, the health is that of the last version: "OK" -/
theorem down_but_ok : ∃ evs, lastVersion evs = some none ∧ lastStatus evs = true ∧
    healthOf (lastVersion evs) (lastStatus evs) = .stopped ∧ (run exDisk evs).health = some .ok :=
  ⟨[.version (some "3-1".toList), .version none, .status true], by decide +kernel, by decide +kernel, by decide +kernel, by decide +kernel⟩

/-- procServ went, and then the IOC: the health is still that procServ is there -/
theorem procserv_gone : ∃ evs, lastStatus evs = false ∧
    healthOf (lastVersion evs) (lastStatus evs) = .absent ∧ (run exDisk evs).health = some .stopped :=
  ⟨[.status true, .status false, .version none], by decide +kernel, by decide +kernel, by decide +kernel⟩

/-- A directory whose RELEASE file defines nothing, and has only comments: the dependencies of the directory before are
shown, and there is no alarm -/
theorem stale_table : ∃ evs, lastDir1 evs = some "/ioc".toList ∧ lastDir2 evs = some "/b".toList ∧
    exDisk "/ioc/b".toList = some ["# none\n".toList] ∧
    (run exDisk evs).notFound = false ∧ (run exDisk evs).dependencies.length = 3 :=
  ⟨[.dir1 (some "/ioc".toList), .dir2 (some "/a".toList), .dir2 (some "/b".toList)],
    by decide +kernel, by decide +kernel, by decide +kernel, by decide +kernel, by decide +kernel⟩

/-- A comment that doesn't start its line is taken as part of the path, or as a name -/
theorem comment_kept :
    collect (depList ["A=/x # old\n".toList, "  # B=/y\n".toList]) = [("A".toList, "/x#old".toList), ("#B".toList, "/y".toList)] := by
  decide +kernel

end Verif.Props.IocStatus
