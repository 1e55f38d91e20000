import Verif.Spec.Compose
/-!
C104: what a YAML file makes is what it describes.
-/
namespace Verif.Props.Compose
open Verif Verif.Yaml Verif.Compose Verif.Spec.Compose

/-! ### what is made is what is described -/

theorem class_usable (w : World) (f : File) (l : Nat) (c : Text) (ps : Dict Text Val) (name : Text) :
    instantiateClass w f l c ps = .ok name ↔ Usable w c ps name := by
  unfold instantiateClass Usable
  cases h : w.found c with
  | noModule => simp [located]
  | broken => simp
  | noIdent => simp [located]
  | file g => cases hm : w.make c ps <;> simp [located]
  | cls => cases hm : w.make c ps <;> simp [located]

theorem located_ok {α : Type} (f : File) (l : Nat) (x : Except Err α) (y : α) : located f l x = .ok y ↔ x = .ok y := by
  cases x <;> simp [located]

theorem file_ok {α : Type} (w : World) (f : File) (l : Nat) (k : Kind) (n : Text) (call : File → Except Err α) (r : α) :
    instantiateFile w f l k n call = .ok r ↔ ∃ g, w.found n = .file g ∧ g.fits k = true ∧ call g = .ok r := by
  unfold instantiateFile
  cases h : w.found n with
  | noModule => simp [located]
  | broken => simp
  | noIdent => simp [located]
  | cls => simp [located]
  | file g =>
    cases hf : g.fits k with
    | true => simp [located_ok, hf]
    | false => simp [hf]

theorem addParts_ok : ∀ (ps has : List Part) (r : List Part), (has.map (·.name)).Nodup →
    (addParts has ps = .ok r ↔ ((has ++ ps).map (·.name)).Nodup ∧ r = has ++ ps) := by
  intro ps
  induction ps with
  | nil =>
    intro has r hn
    simp only [addParts, List.append_nil, Except.ok.injEq]
    exact ⟨fun h => ⟨hn, h.symm⟩, fun h => h.2.symm⟩
  | cons p ps ih =>
    intro has r hn
    rw [addParts]
    by_cases hm : p.name ∈ has.map (·.name)
    · rw [if_pos hm]
      constructor
      · intro h; cases h
      · intro ⟨h, _⟩
        rw [List.map_append, List.nodup_append] at h
        exact absurd rfl (h.2.2 _ hm _ List.mem_cons_self)
    · rw [if_neg hm, ih]
      · rw [List.append_assoc]; rfl
      · rw [List.map_append, List.nodup_append]
        refine ⟨hn, by simp, ?_⟩
        intro a ha b hb e
        rw [List.map_cons, List.map_nil, List.mem_singleton] at hb
        exact hm (by rw [← hb, ← e]; exact ha)

theorem controllers_find (f : File) (c : Text) (ps : Dict Text Val) (h : f.controllers = [(c, ps)]) :
    ∃ l, f.sections.find? isController = some ⟨l, .controller c ps⟩ := by
  unfold File.controllers at h
  generalize f.sections = ss at h
  induction ss with
  | nil => cases h
  | cons s ss ih =>
    obtain ⟨l, b⟩ := s
    cases b with
    | controller c' ps' =>
      rw [List.filterMap_cons] at h
      simp only [List.cons.injEq, Prod.mk.injEq] at h
      obtain ⟨⟨rfl, rfl⟩, -⟩ := h
      exact ⟨l, rfl⟩
    | parameter _ _ => rw [List.filterMap_cons] at h; exact ih h
    | define _ _ => rw [List.filterMap_cons] at h; exact ih h
    | part _ _ => rw [List.filterMap_cons] at h; exact ih h
    | block _ _ => rw [List.filterMap_cons] at h; exact ih h
    | incl _ _ => rw [List.filterMap_cons] at h; exact ih h

theorem finish_ok (w : World) (f : File) (d : Dict Text Text) (cs : List Ctrl) (ps : List Part) (r : List Ctrl × List Part) (c : Text)
    (params : Dict Text Val) (hf : f.controllers = [(c, params)]) :
    finish w f d cs ps = .ok r ↔ ∃ mri, Usable w c (fill d params) mri ∧ (ps.map (·.name)).Nodup ∧ r = (cs ++ [⟨c, fill d params, mri, ps⟩], []) := by
  obtain ⟨l, hl⟩ := controllers_find f c params hf
  unfold finish
  rw [hl]
  dsimp only
  cases hi : instantiateClass w f l c (fill d params) with
  | error x =>
    constructor
    · intro h; cases h
    · intro ⟨mri, hu, _⟩
      rw [(class_usable w f l c _ mri).2 hu] at hi
      cases hi
  | ok mri =>
    dsimp only
    have hu := (class_usable w f l c _ mri).1 hi
    have hp := addParts_ok ps [] 
    cases ha : addParts [] ps with
    | error x =>
      constructor
      · intro h; cases h
      · intro ⟨_, _, hn, _⟩
        have := (hp ps List.nodup_nil).2 ⟨hn, rfl⟩
        rw [ha] at this
        cases this
    | ok has =>
      obtain ⟨hn, rfl⟩ := (hp has List.nodup_nil).1 ha
      constructor
      · intro h
        cases h
        exact ⟨mri, hu, hn, rfl⟩
      · intro ⟨mri', hu', _, hr⟩
        have : mri = mri' := by
          have h1 := hu.2
          rw [hu'.2] at h1
          cases h1
          rfl
        rw [hr, ← this]

/-- the controllers of the blocks of `items` -/
def Children (w : World) (items : List Item) (cs : List Ctrl) : Prop :=
  ∃ children : List (List Ctrl), children.length = (items.filterMap Item.block?).length ∧
    (∀ (i : Nat) (b : File × Dict Text Text) c, (items.filterMap Item.block?)[i]? = some b → children[i]? = some c → Describes w b.1 b.2 c) ∧
    cs = children.flatten

theorem children_nil (w : World) : Children w [] [] := ⟨[], rfl, fun i b c h => by simp at h, rfl⟩

theorem children_part (w : World) (p : Part) (is : List Item) (cs : List Ctrl) : Children w (.part p :: is) cs ↔ Children w is cs := Iff.rfl

theorem children_block (w : World) (g : File) (a : Dict Text Text) (is : List Item) (c cs : List Ctrl) (h : Describes w g a c)
    (hs : Children w is cs) : Children w (.block g a :: is) (c ++ cs) := by
  obtain ⟨children, h1, h2, rfl⟩ := hs
  refine ⟨c :: children, by rw [List.length_cons, h1]; rfl, ?_, by rw [List.flatten_cons]⟩
  intro i b c' hb hc
  cases i with
  | zero =>
    have hb : some (g, a) = some b := hb
    rw [List.getElem?_cons_zero] at hc
    cases hb
    cases hc
    exact h
  | succ i =>
    rw [List.getElem?_cons_succ] at hc
    have hb : (is.filterMap Item.block?)[i]? = some b := hb
    exact h2 i b c' hb hc

theorem children_append (w : World) : ∀ (is js : List Item) (cs cs' : List Ctrl), Children w is cs → Children w js cs' →
    Children w (is ++ js) (cs ++ cs') := by
  intro is js cs cs' ⟨l, h1, h2, e⟩ ⟨l', h1', h2', e'⟩
  refine ⟨l ++ l', by rw [List.filterMap_append, List.length_append, List.length_append, h1, h1'], ?_, by rw [e, e', List.flatten_append]⟩
  intro i b c hb hc
  rw [List.filterMap_append] at hb
  rcases Nat.lt_or_ge i l.length with hi | hi
  · rw [List.getElem?_append_left hi] at hc
    rw [List.getElem?_append_left (h1 ▸ hi)] at hb
    exact h2 i b c hb hc
  · rw [List.getElem?_append_right hi] at hc
    rw [List.getElem?_append_right (h1 ▸ hi), ← h1] at hb
    exact h2' _ b c hb hc

/-- what `create` makes, for both kinds -/
def Right (w : World) (k : Kind) (f : File) (given : Dict Text Text) (r : List Ctrl × List Part) : Prop :=
  match k with
  | .block => Describes w f given r.1 ∧ r.2 = []
  | .incl => ∃ args items, bindArgs f.yaml given = some args ∧ Expands w (createDefines f.yaml f.name f.dir args) f.sections items ∧
      Children w items r.1 ∧ r.2 = items.filterMap Item.part?

theorem fits_block (f : File) : f.fits .block = true ↔ f.controllers.length = 1 := by simp [File.fits]
theorem fits_incl (f : File) : f.fits .incl = true ↔ f.controllers = [] := by simp [File.fits]

theorem sections_sound (w : World) (call : Kind → File → Dict Text Text → Except Err (List Ctrl × List Part)) (f : File) (d : Dict Text Text)
    (hcall : ∀ k g a r, g.fits k = true → call k g a = .ok r → Right w k g a r) : ∀ (ss : List Sec) (r : List Ctrl × List Part),
    blocksAndParts (sectionMakes w call f d) ss = .ok r →
    ∃ items, Expands w d ss items ∧ Children w items r.1 ∧ r.2 = items.filterMap Item.part? := by
  intro ss
  induction ss with
  | nil =>
    intro r h
    cases h
    exact ⟨[], .nil d, children_nil w, rfl⟩
  | cons s ss ih =>
    intro r h
    rw [blocksAndParts] at h
    cases h1 : sectionMakes w call f d s with
    | error e => rw [h1] at h; cases h
    | ok cp =>
      obtain ⟨c, p⟩ := cp
      rw [h1] at h
      dsimp only at h
      cases h2 : blocksAndParts (sectionMakes w call f d) ss with
      | error e => rw [h2] at h; cases h
      | ok r' =>
        obtain ⟨cs, ps⟩ := r'
        rw [h2] at h
        cases h
        obtain ⟨items, he, hc, hp⟩ := ih _ h2
        dsimp only at hc hp
        subst hp
        obtain ⟨l, b⟩ := s
        unfold sectionMakes at h1
        cases b with
        | parameter n v => cases h1; exact ⟨items, .parameter _ _ _ _ _ _ he, hc, rfl⟩
        | define n v => cases h1; exact ⟨items, .define _ _ _ _ _ _ he, hc, rfl⟩
        | controller n v => cases h1; exact ⟨items, .controller _ _ _ _ _ _ he, hc, rfl⟩
        | part cls params =>
          dsimp only at h1
          cases hi : instantiateClass w f l cls (fill d params) with
          | error e => rw [hi] at h1; cases h1
          | ok name =>
            rw [hi] at h1
            cases h1
            exact ⟨_, .part _ _ _ _ _ _ _ ((class_usable _ _ _ _ _ _).1 hi) he, hc, rfl⟩
        | block n params =>
          obtain ⟨g, hg, hf, hr⟩ := (file_ok _ _ _ _ _ _ _).1 h1
          obtain ⟨hd, hnil⟩ := hcall _ _ _ _ hf hr
          dsimp only at hd hnil
          subst hnil
          exact ⟨_, .block _ _ _ _ _ _ g hg ((fits_block g).1 hf) he, children_block w g _ _ _ _ hd hc, rfl⟩
        | incl n params =>
          obtain ⟨g, hg, hf, hr⟩ := (file_ok _ _ _ _ _ _ _).1 h1
          obtain ⟨args, js, ha, hj, hcs, hps⟩ := hcall _ _ _ _ hf hr
          dsimp only at hcs hps
          subst hps
          exact ⟨_, .incl _ _ _ _ _ _ g js args hg ((fits_incl g).1 hf) ha hj he, children_append w _ _ _ _ hcs hc, by rw [List.filterMap_append]⟩

theorem one_controller (f : File) (h : f.fits .block = true) : ∃ c ps, f.controllers = [(c, ps)] := by
  rw [fits_block] at h
  match hc : f.controllers, h with
  | [(c, ps)], _ => exact ⟨c, ps, rfl⟩

theorem create_sound (w : World) : ∀ (n : Nat) (k : Kind) (f : File) (given : Dict Text Text) (r : List Ctrl × List Part),
    f.fits k = true → create w n k f given = .ok r → Right w k f given r := by
  intro n
  induction n with
  | zero => intro k f given r _ h; cases h
  | succ n ih =>
    intro k f given r hf h
    rw [create] at h
    cases hb : bindArgs f.yaml given with
    | none => rw [hb] at h; cases h
    | some args =>
      rw [hb] at h
      dsimp only at h
      cases hs : blocksAndParts (sectionMakes w (create w n) f (createDefines f.yaml f.name f.dir args)) f.sections with
      | error e => rw [hs] at h; cases h
      | ok cp =>
        obtain ⟨items, he, hc, hp⟩ := sections_sound w (create w n) f _ ih f.sections cp hs
        obtain ⟨cs, ps⟩ := cp
        rw [hs] at h
        dsimp only at h hc hp
        cases k with
        | incl =>
          cases h
          exact ⟨args, items, hb, he, hc, hp⟩
        | block =>
          obtain ⟨c, params, hcs⟩ := one_controller f hf
          obtain ⟨mri, hu, hn, rfl⟩ := (finish_ok w f _ cs ps r c params hcs).1 h
          obtain ⟨children, h1, h2, rfl⟩ := hc
          subst hp
          exact ⟨.mk f given args items children c params mri hb he h1 h2 hcs hu hn, rfl⟩

/-- C104: what a block of a YAML file makes is what the file describes. -/
theorem made_is_described (w : World) (depth : Nat) (f : File) (given : Dict Text Text) (cs : List Ctrl) (ps : List Part)
    (hf : f.fits .block = true) (h : create w depth .block f given = .ok (cs, ps)) : Describes w f given cs ∧ ps = [] :=
  create_sound w depth .block f given _ hf h

/-! ### what is described is made -/

/-- made at every depth from some depth on -/
def Made (w : World) (k : Kind) (f : File) (given : Dict Text Text) (r : List Ctrl × List Part) : Prop :=
  ∃ N, ∀ n, N ≤ n → create w n k f given = .ok r

theorem sections_complete (w : World) (d : Dict Text Text) (ss : List Sec) (items : List Item) (he : Expands w d ss items) :
    ∀ (f : File) (children : List (List Ctrl)), children.length = (items.filterMap Item.block?).length →
    (∀ (i : Nat) (b : File × Dict Text Text) c, (items.filterMap Item.block?)[i]? = some b → children[i]? = some c → Made w .block b.1 b.2 (c, [])) →
    ∃ N, ∀ n, N ≤ n → blocksAndParts (sectionMakes w (create w n) f d) ss = .ok (children.flatten, items.filterMap Item.part?) := by
  have skip : ∀ (d : Dict Text Text) (s : Sec) (ss : List Sec) (f : File) (x : List Ctrl × List Part), (∀ c ps, s.body ≠ .part c ps) → (∀ c ps, s.body ≠ .block c ps) →
      (∀ c ps, s.body ≠ .incl c ps) → (∃ N, ∀ n, N ≤ n → blocksAndParts (sectionMakes w (create w n) f d) ss = .ok x) →
      ∃ N, ∀ n, N ≤ n → blocksAndParts (sectionMakes w (create w n) f d) (s :: ss) = .ok x := by
    intro d s ss f x h1 h2 h3 ⟨N, h⟩
    refine ⟨N, fun n hn => ?_⟩
    have hs : sectionMakes w (create w n) f d s = .ok ([], []) := by
      unfold sectionMakes
      split
      · rename_i e; exact absurd e (h2 _ _)
      · rename_i e; exact absurd e (h3 _ _)
      · rename_i e; exact absurd e (h1 _ _)
      · rfl
    rw [blocksAndParts, hs]
    dsimp only
    rw [h n hn]
    rfl
  induction he with
  | nil d =>
    intro f children hl _
    have : children = [] := List.length_eq_zero_iff.1 hl
    subst this
    exact ⟨0, fun n _ => rfl⟩
  | parameter d l n v ss is _ ih =>
    intro f children hl hc
    exact skip d _ _ f _ (fun _ _ h => by cases h) (fun _ _ h => by cases h) (fun _ _ h => by cases h) (ih f children hl hc)
  | define d l n v ss is _ ih =>
    intro f children hl hc
    exact skip d _ _ f _ (fun _ _ h => by cases h) (fun _ _ h => by cases h) (fun _ _ h => by cases h) (ih f children hl hc)
  | controller d l n v ss is _ ih =>
    intro f children hl hc
    exact skip d _ _ f _ (fun _ _ h => by cases h) (fun _ _ h => by cases h) (fun _ _ h => by cases h) (ih f children hl hc)
  | part d l c ps ss is name hu _ ih =>
    intro f children hl hc
    obtain ⟨N, h⟩ := ih f children hl hc
    refine ⟨N, fun n hn => ?_⟩
    have hs : sectionMakes w (create w n) f d ⟨l, .part c ps⟩ = .ok ([], [⟨c, fill d ps, name⟩]) := by
      unfold sectionMakes
      dsimp only
      rw [(class_usable w f l c _ name).2 hu]
    rw [blocksAndParts, hs]
    dsimp only
    rw [h n hn]
    rfl
  | block d l nm ps ss is g hg hone _ ih =>
    intro f children hl hc
    cases children with
    | nil => cases hl
    | cons c children =>
      have hl' : children.length = (is.filterMap Item.block?).length := by
        have hl : children.length + 1 = (is.filterMap Item.block?).length + 1 := hl
        omega
      obtain ⟨N, h⟩ := ih f children hl' (fun i b c' hb hc' => hc (i + 1) b c' hb hc')
      obtain ⟨M, hm⟩ := hc 0 (g, fillTexts d ps) c rfl rfl
      refine ⟨max N M, fun n hn => ?_⟩
      have hs : sectionMakes w (create w n) f d ⟨l, .block nm ps⟩ = .ok (c, []) := by
        unfold sectionMakes
        exact (file_ok _ _ _ _ _ _ _).2 ⟨g, hg, (fits_block g).2 hone, hm n (by omega)⟩
      rw [blocksAndParts, hs]
      dsimp only
      rw [h n (by omega)]
      rfl
  | incl d l nm ps ss is g js args hg hz hb hj _ ihj ih =>
    intro f children hl hc
    rw [List.filterMap_append, List.length_append] at hl
    have hl1 : (children.take (js.filterMap Item.block?).length).length = (js.filterMap Item.block?).length := by
      rw [List.length_take]; omega
    have hl2 : (children.drop (js.filterMap Item.block?).length).length = (is.filterMap Item.block?).length := by
      rw [List.length_drop]; omega
    obtain ⟨N, h⟩ := ihj g (children.take (js.filterMap Item.block?).length) hl1 (by
      intro i b c hb' hc'
      have hi : i < (js.filterMap Item.block?).length := (List.getElem?_eq_some_iff.1 hb').1
      rw [List.getElem?_take, if_pos hi] at hc'
      exact hc i b c (by rw [List.filterMap_append, List.getElem?_append_left hi]; exact hb') hc')
    obtain ⟨M, h'⟩ := ih f (children.drop (js.filterMap Item.block?).length) hl2 (by
      intro i b c hb' hc'
      rw [List.getElem?_drop] at hc'
      exact hc _ b c (by rw [List.filterMap_append, List.getElem?_append_right (by omega), Nat.add_sub_cancel_left]; exact hb') hc')
    refine ⟨max (N + 1) M, fun n hn => ?_⟩
    have hcr : create w n .incl g (fillTexts d ps) = .ok ((children.take (js.filterMap Item.block?).length).flatten, js.filterMap Item.part?) := by
      cases n with
      | zero => omega
      | succ n =>
        rw [create, hb]
        dsimp only
        rw [h n (by omega)]
    have hs : sectionMakes w (create w n) f d ⟨l, .incl nm ps⟩ =
        .ok ((children.take (js.filterMap Item.block?).length).flatten, js.filterMap Item.part?) := by
      unfold sectionMakes
      exact (file_ok _ _ _ _ _ _ _).2 ⟨g, hg, (fits_incl g).2 hz, hcr⟩
    rw [blocksAndParts, hs]
    dsimp only
    rw [h' n (by omega)]
    dsimp only
    rw [← List.flatten_append, List.take_append_drop, List.filterMap_append]

/-- C104: what a file describes is made, if files may be nested as deep as it is. -/
theorem described_is_made (w : World) (f : File) (given : Dict Text Text) (cs : List Ctrl) (h : Describes w f given cs) :
    ∃ N, ∀ depth, N ≤ depth → create w depth .block f given = .ok (cs, []) := by
  induction h with
  | mk f given args items children cls params mri hb he hl _ hf hu hn ih =>
    obtain ⟨N, h⟩ := sections_complete w _ _ _ he f children hl ih
    refine ⟨N + 1, fun n hn' => ?_⟩
    cases n with
    | zero => omega
    | succ n =>
      rw [create, hb]
      dsimp only
      rw [h n (by omega)]
      exact (finish_ok w f _ _ _ _ cls params hf).2 ⟨mri, hu, hn, rfl⟩

/-- C104: a file with arguments describes one thing only. -/
theorem one_meaning (w : World) (f : File) (given : Dict Text Text) (cs cs' : List Ctrl) (h : Describes w f given cs)
    (h' : Describes w f given cs') : cs = cs' := by
  obtain ⟨N, h⟩ := described_is_made w f given cs h
  obtain ⟨M, h'⟩ := described_is_made w f given cs' h'
  have e := (h (max N M) (by omega)).symm.trans (h' (max N M) (by omega))
  cases e
  rfl

/-! ### children first -/

theorem expands_one (w : World) (d : Dict Text Text) (ss : List Sec) (is : List Item) (h : Expands w d ss is) :
    ∀ js, Expands w d ss js → is = js := by
  induction h with
  | nil d => intro js h; cases h; rfl
  | parameter d l n v ss is _ ih => intro js h; cases h with | parameter _ _ _ _ _ _ h => exact ih _ h
  | define d l n v ss is _ ih => intro js h; cases h with | define _ _ _ _ _ _ h => exact ih _ h
  | controller d l n v ss is _ ih => intro js h; cases h with | controller _ _ _ _ _ _ h => exact ih _ h
  | part d l c ps ss is name hu _ ih =>
    intro js h
    cases h with
    | part _ _ _ _ _ _ name' hu' h =>
      have : name = name' := by
        have e := hu.2.symm.trans hu'.2
        cases e
        rfl
      rw [this, ih _ h]
  | block d l n ps ss is g hg _ _ ih =>
    intro js h
    cases h with
    | block _ _ _ _ _ _ g' hg' _ h =>
      have e := hg.symm.trans hg'
      cases e
      rw [ih _ h]
  | incl d l n ps ss is g js args hg _ ha _ _ ih1 ih2 =>
    intro ks h
    cases h with
    | incl _ _ _ _ _ _ g' js' args' hg' _ ha' h1 h2 =>
      have e := hg.symm.trans hg'
      cases e
      have e := ha.symm.trans ha'
      cases e
      rw [ih1 _ h1, ih2 _ h2]

/-- The file lists this block, itself or in its includes, and gives it these arguments. -/
def Lists (w : World) (f : File) (given : Dict Text Text) (g : File) (a : Dict Text Text) : Prop :=
  ∃ args items, bindArgs f.yaml given = some args ∧ Expands w (createDefines f.yaml f.name f.dir args) f.sections items ∧ Item.block g a ∈ items

/-- directly or through others -/
inductive Below (w : World) (g : File) (a : Dict Text Text) : File → Dict Text Text → Prop
  | direct (f given) : Lists w f given g a → Below w g a f given
  | through (f given h b) : Lists w f given h b → Below w g a h b → Below w g a f given

theorem listed_before (w : World) (f : File) (given : Dict Text Text) (cs : List Ctrl) (h : Describes w f given cs) (g : File)
    (a : Dict Text Text) (hl : Lists w f given g a) :
    ∃ mine before after last, Describes w g a mine ∧ cs = before ++ mine ++ after ++ [last] := by
  cases h with
  | mk _ _ args items children cls params mri hb he hlen hc _ _ _ =>
    obtain ⟨args', items', hb', he', hm⟩ := hl
    have e := hb.symm.trans hb'
    cases e
    have e := expands_one w _ _ _ he _ he'
    subst e
    have hm' : (g, a) ∈ items.filterMap Item.block? := List.mem_filterMap.2 ⟨_, hm, rfl⟩
    obtain ⟨i, hi, e⟩ := List.mem_iff_getElem.1 hm'
    have hi' : i < children.length := by omega
    have hd := hc i (g, a) children[i] (by rw [List.getElem?_eq_getElem hi, e]) (List.getElem?_eq_getElem hi')
    refine ⟨children[i], (children.take i).flatten, (children.drop (i + 1)).flatten,
      ⟨cls, fill (createDefines f.yaml f.name f.dir args) params, mri, items.filterMap Item.part?⟩, hd, ?_⟩
    congr 1
    conv =>
      lhs
      rw [← List.take_append_drop i children, List.drop_eq_getElem_cons hi', List.flatten_append, List.flatten_cons]
    rw [List.append_assoc]

/-- C104: all controllers of a block that is listed somewhere below come before the controller of the file. -/
theorem children_first (w : World) (g : File) (a : Dict Text Text) (f : File) (given : Dict Text Text) (hb : Below w g a f given) :
    ∀ cs, Describes w f given cs → ∃ mine before after last, Describes w g a mine ∧ cs = before ++ mine ++ after ++ [last] := by
  induction hb with
  | direct f given hl => intro cs h; exact listed_before w f given cs h g a hl
  | through f given h b hl _ ih =>
    intro cs hd
    obtain ⟨m, be, af, la, h1, h2⟩ := listed_before w f given cs hd h b hl
    obtain ⟨m', be', af', la', h1', h2'⟩ := ih m h1
    exact ⟨m', be ++ be', af' ++ [la'] ++ af, la, h1', by rw [h2, h2']; simp⟩

theorem expands_mem (w : World) (d : Dict Text Text) (ss : List Sec) (is : List Item) (h : Expands w d ss is) :
    ∀ s n ps g, s ∈ ss → s.body = .block n ps → w.found n = .file g → ∃ a, Item.block g a ∈ is := by
  induction h with
  | nil d => intro s n ps g hs; cases hs
  | parameter d l n v ss is _ ih =>
    intro s n ps g hs hb hf
    rcases List.mem_cons.1 hs with rfl | hs
    · cases hb
    · exact ih s n ps g hs hb hf
  | define d l n v ss is _ ih =>
    intro s n ps g hs hb hf
    rcases List.mem_cons.1 hs with rfl | hs
    · cases hb
    · exact ih s n ps g hs hb hf
  | controller d l n v ss is _ ih =>
    intro s n ps g hs hb hf
    rcases List.mem_cons.1 hs with rfl | hs
    · cases hb
    · exact ih s n ps g hs hb hf
  | part d l c ps ss is name _ _ ih =>
    intro s n ps g hs hb hf
    rcases List.mem_cons.1 hs with rfl | hs
    · cases hb
    · obtain ⟨a, h⟩ := ih s n ps g hs hb hf
      exact ⟨a, List.mem_cons_of_mem _ h⟩
  | block d l nm ps ss is g' hg' _ _ ih =>
    intro s n ps' g hs hb hf
    rcases List.mem_cons.1 hs with rfl | hs
    · cases hb
      have e := hg'.symm.trans hf
      cases e
      exact ⟨_, List.mem_cons_self⟩
    · obtain ⟨a, h⟩ := ih s n ps' g hs hb hf
      exact ⟨a, List.mem_cons_of_mem _ h⟩
  | incl d l nm ps ss is g' js args _ _ _ _ _ _ ih =>
    intro s n ps' g hs hb hf
    rcases List.mem_cons.1 hs with rfl | hs
    · cases hb
    · obtain ⟨a, h⟩ := ih s n ps' g hs hb hf
      exact ⟨a, List.mem_append_right _ h⟩

/-- C104: a block that is in itself is never made. -/
theorem no_block_in_itself (w : World) (f : File) (s : Sec) (n : Text) (ps : Dict Text Text) (hs : s ∈ f.sections) (hb : s.body = .block n ps)
    (hf : w.found n = .file f) (depth : Nat) (given : Dict Text Text) (r : List Ctrl × List Part) (hk : f.fits .block = true) :
    create w depth .block f given ≠ .ok r := by
  intro h
  obtain ⟨hd, -⟩ := create_sound w depth .block f given r hk h
  have key : ∀ g given cs, Describes w g given cs → g ≠ f := by
    intro g given cs hd
    induction hd with
    | mk g given args items children cls params mri _ he hl _ _ _ _ ih =>
      intro e
      subst e
      obtain ⟨a, hm⟩ := expands_mem w _ _ _ he s n ps g hs hb hf
      have hm' : (g, a) ∈ items.filterMap Item.block? := List.mem_filterMap.2 ⟨_, hm, rfl⟩
      obtain ⟨i, hi, e⟩ := List.mem_iff_getElem.1 hm'
      have hi' : i < children.length := by omega
      exact ih i (g, a) children[i] (by rw [List.getElem?_eq_getElem hi, e]) (List.getElem?_eq_getElem hi') rfl
  exact key f given _ hd rfl

/-! ### the process -/

theorem addControllers_ok : ∀ (cs : List Ctrl) (has r : List Text), has.Nodup →
    (addControllers has cs = .ok r ↔ (has ++ cs.map (·.mri)).Nodup ∧ r = has ++ cs.map (·.mri)) := by
  intro cs
  induction cs with
  | nil =>
    intro has r hn
    simp only [addControllers, List.map_nil, List.append_nil, Except.ok.injEq]
    exact ⟨fun h => ⟨hn, h.symm⟩, fun h => h.2.symm⟩
  | cons c cs ih =>
    intro has r hn
    rw [addControllers]
    by_cases hm : c.mri ∈ has
    · rw [if_pos hm]
      constructor
      · intro h; cases h
      · intro ⟨h, _⟩
        rw [List.nodup_append] at h
        exact absurd rfl (h.2.2 _ hm _ (by simp))
    · rw [if_neg hm, ih]
      · rw [List.append_assoc]; rfl
      · rw [List.nodup_append]
        refine ⟨hn, by simp, ?_⟩
        intro a ha b hb e
        rw [List.mem_singleton] at hb
        exact hm (by rw [← hb, ← e]; exact ha)

/-- C104: a process that starts has exactly the controllers that its file describes, no two of the same mri. -/
theorem process_is_described (w : World) (depth : Nat) (f : File) (cs : List Ctrl) (h : startUp w depth f = .ok cs) :
    DescribesProcess w f cs := by
  unfold startUp at h
  split at h
  · rename_i hf
    cases hc : create w depth .incl f [] with
    | error e => rw [hc] at h; cases h
    | ok r =>
      obtain ⟨args, items, h1, h2, ⟨children, h3, h4, h5⟩, h6⟩ := create_sound w depth .incl f [] r hf hc
      obtain ⟨c, p⟩ := r
      rw [hc] at h
      dsimp only at h h5 h6
      cases hp : p with
      | cons a b => rw [hp] at h; cases h
      | nil =>
        rw [hp] at h h6
        simp only [List.isEmpty_nil, if_true] at h
        cases ha : addControllers [] c with
        | error e => rw [ha] at h; cases h
        | ok r =>
          rw [ha] at h
          cases h
          have := ((addControllers_ok cs [] r List.nodup_nil).1 ha).1
          exact ⟨args, items, children, (fits_incl f).1 hf, h1, h2, h6.symm, h3, h4, h5, this⟩
  · cases h

/-- C104: and a process whose file describes some starts with them. -/
theorem described_process_starts (w : World) (f : File) (cs : List Ctrl) (h : DescribesProcess w f cs) :
    ∃ N, ∀ depth, N ≤ depth → startUp w depth f = .ok cs := by
  obtain ⟨args, items, children, h0, h1, h2, h3, h4, h5, rfl, h7⟩ := h
  obtain ⟨N, hN⟩ := sections_complete w _ _ _ h2 f children h4 (fun i b c hb hc => described_is_made w _ _ _ (h5 i b c hb hc))
  refine ⟨N + 1, fun n hn => ?_⟩
  cases n with
  | zero => omega
  | succ n =>
    unfold startUp
    rw [if_pos ((fits_incl f).2 h0), create, h1]
    dsimp only
    rw [hN n (by omega)]
    dsimp only
    rw [h3]
    have := (addControllers_ok children.flatten [] _ List.nodup_nil).2 ⟨by simpa using h7, rfl⟩
    simp only [List.isEmpty_nil, if_true]
    rw [this]

/-! ### what goes wrong is told -/

/-- how `create` fails -/
def Fails (w : World) (k : Kind) (f : File) (given : Dict Text Text) (e : Err) : Prop :=
  (e = { cause := .arguments } ∧ bindArgs f.yaml given = none) ∨ (e = { cause := .duplicatePart } ∧ k = .block) ∨ e = { cause := .recursion } ∨
    Blames w f e.trace e.cause

theorem class_blames (w : World) (f : File) (s : Sec) (hs : s ∈ f.sections) (c : Text) (ps : Dict Text Val) (d : Dict Text Text)
    (hb : s.body = .part c ps ∨ s.body = .controller c ps) (e : Err) (h : instantiateClass w f s.line c (fill d ps) = .error e) :
    Blames w f e.trace e.cause := by
  have hn : Sec.name? s = some c := by
    unfold Sec.name?
    rcases hb with hb | hb <;> rw [hb]
  have hmake : ∀ e, (match w.make c (fill d ps) with
      | some name => Except.ok name
      | none => located f s.line (.error { cause := .refused })) = Except.error e → Blames w f e.trace e.cause := by
    intro e h
    cases hm : w.make c (fill d ps) with
    | some name => rw [hm] at h; cases h
    | none =>
      rw [hm] at h
      cases h
      exact .refused f s c hs hn (Or.inl ⟨c, ps, d, hb, hm⟩)
  unfold instantiateClass at h
  cases hf : w.found c with
  | noModule => rw [hf] at h; cases h; exact .noModule f s c hs hn hf
  | noIdent => rw [hf] at h; cases h; exact .noIdent f s c hs hn hf
  | broken => rw [hf] at h; cases h; exact .broken f s c hs hn (Or.inl hf)
  | file g => rw [hf] at h; exact hmake e h
  | cls => rw [hf] at h; exact hmake e h

theorem file_blames (w : World) (f : File) (s : Sec) (hs : s ∈ f.sections) (k : Kind) (n : Text) (ps : Dict Text Text)
    (hb : s.body = .block n ps ∧ k = .block ∨ s.body = .incl n ps ∧ k = .incl) (given : Dict Text Text)
    (call : Kind → File → Dict Text Text → Except Err (List Ctrl × List Part))
    (hcall : ∀ k g a e, g.fits k = true → call k g a = .error e → Fails w k g a e) (e : Err)
    (h : instantiateFile w f s.line k n (fun g => call k g given) = .error e) : Blames w f e.trace e.cause := by
  have hn : Sec.name? s = some n := by
    unfold Sec.name?
    rcases hb with ⟨hb, -⟩ | ⟨hb, -⟩ <;> rw [hb]
  unfold instantiateFile at h
  cases hf : w.found n with
  | noModule => rw [hf] at h; cases h; exact .noModule f s n hs hn hf
  | noIdent => rw [hf] at h; cases h; exact .noIdent f s n hs hn hf
  | broken => rw [hf] at h; cases h; exact .broken f s n hs hn (Or.inl hf)
  | cls => rw [hf] at h; cases h; exact .refused f s n hs hn (Or.inr hf)
  | file g =>
    rw [hf] at h
    dsimp only at h
    cases hk : g.fits k with
    | false =>
      rw [hk] at h
      cases h
      exact .broken f s n hs hn (Or.inr ⟨g, k, hf, hk⟩)
    | true =>
      rw [hk] at h
      simp only [if_true] at h
      have hr : Refers w s k g := ⟨⟨n, ps, hb, hf⟩, hk⟩
      cases hc : call k g given with
      | ok r => rw [hc] at h; cases h
      | error e' =>
        rw [hc] at h
        cases h
        rcases hcall k g given e' hk hc with ⟨rfl, hx⟩ | ⟨rfl, rfl⟩ | rfl | hx
        · exact .arguments f s k g hs hr ⟨given, hx⟩
        · exact .duplicatePart f s g hs hr
        · exact .recursion f s k g hs hr
        · exact .within f s k g _ _ hs hr hx

theorem sections_blame (w : World) (call : Kind → File → Dict Text Text → Except Err (List Ctrl × List Part)) (f : File) (d : Dict Text Text)
    (hcall : ∀ k g a e, g.fits k = true → call k g a = .error e → Fails w k g a e) : ∀ (ss : List Sec), (∀ s ∈ ss, s ∈ f.sections) → ∀ e,
    blocksAndParts (sectionMakes w call f d) ss = .error e → Blames w f e.trace e.cause := by
  intro ss
  induction ss with
  | nil => intro _ e h; cases h
  | cons s ss ih =>
    intro hss e h
    rw [blocksAndParts] at h
    have hs := hss s List.mem_cons_self
    cases h1 : sectionMakes w call f d s with
    | ok cp =>
      rw [h1] at h
      dsimp only at h
      cases h2 : blocksAndParts (sectionMakes w call f d) ss with
      | ok r => rw [h2] at h; cases h
      | error e' =>
        rw [h2] at h
        cases h
        exact ih (fun s hs => hss s (List.mem_cons_of_mem _ hs)) e h2
    | error e' =>
      rw [h1] at h
      cases h
      unfold sectionMakes at h1
      split at h1
      · rename_i n ps hb
        exact file_blames w f s hs .block n ps (Or.inl ⟨hb, rfl⟩) _ call hcall e h1
      · rename_i n ps hb
        exact file_blames w f s hs .incl n ps (Or.inr ⟨hb, rfl⟩) _ call hcall e h1
      · rename_i c ps hb
        cases hi : instantiateClass w f s.line c (fill d ps) with
        | ok name => rw [hi] at h1; cases h1
        | error e' =>
          rw [hi] at h1
          cases h1
          exact class_blames w f s hs c ps d (Or.inl hb) e hi
      · cases h1

theorem create_fails (w : World) : ∀ (n : Nat) (k : Kind) (f : File) (given : Dict Text Text) (e : Err), f.fits k = true →
    create w n k f given = .error e → Fails w k f given e := by
  intro n
  induction n with
  | zero => intro k f given e _ h; cases h; exact Or.inr (Or.inr (Or.inl rfl))
  | succ n ih =>
    intro k f given e hf h
    rw [create] at h
    cases hb : bindArgs f.yaml given with
    | none => rw [hb] at h; cases h; exact Or.inl ⟨rfl, hb⟩
    | some args =>
      rw [hb] at h
      dsimp only at h
      cases hs : blocksAndParts (sectionMakes w (create w n) f (createDefines f.yaml f.name f.dir args)) f.sections with
      | error e' =>
        rw [hs] at h
        cases h
        exact Or.inr (Or.inr (Or.inr (sections_blame w (create w n) f _ ih f.sections (fun _ h => h) e hs)))
      | ok cp =>
        obtain ⟨cs, ps⟩ := cp
        rw [hs] at h
        dsimp only at h
        cases k with
        | incl => cases h
        | block =>
          obtain ⟨c, params, hcs⟩ := one_controller f hf
          obtain ⟨l, hl⟩ := controllers_find f c params hcs
          dsimp only at h
          unfold finish at h
          rw [hl] at h
          dsimp only at h
          cases hi : instantiateClass w f l c (fill (createDefines f.yaml f.name f.dir args) params) with
          | error e' =>
            rw [hi] at h
            cases h
            exact Or.inr (Or.inr (Or.inr (class_blames w f ⟨l, .controller c params⟩ (List.mem_of_find?_eq_some hl) c params _ (Or.inr rfl) e hi)))
          | ok mri =>
            rw [hi] at h
            dsimp only at h
            have hdup : ∀ (ps has : List Part) (e : Err), addParts has ps = .error e → e = { cause := .duplicatePart } := by
              intro ps
              induction ps with
              | nil => intro has e h; cases h
              | cons p ps ih2 =>
                intro has e h
                rw [addParts] at h
                split at h
                · cases h; rfl
                · exact ih2 _ e h
            cases ha : addParts [] ps with
            | ok r => rw [ha] at h; cases h
            | error e' =>
              rw [ha] at h
              cases h
              exact Or.inr (Or.inl ⟨hdup ps [] e ha, rfl⟩)

/-- C104: a process that does not start is told why: with the lines that lead to a section at fault, or that its own file takes arguments,
has parts or controllers, or comes to two controllers of the same mri. -/
theorem failure_told (w : World) (depth : Nat) (f : File) (e : Err) (h : startUp w depth f = .error e) :
    Blames w f e.trace e.cause ∨ (e.trace = [] ∧ (e.cause = .arguments ∧ bindArgs f.yaml [] = none ∨ e.cause = .recursion ∨
      e.cause = .broken ∧ f.controllers ≠ [] ∨ e.cause = .partsOnTop ∨ e.cause = .duplicateMri)) := by
  unfold startUp at h
  split at h
  · rename_i hf
    cases hc : create w depth .incl f [] with
    | error e' =>
      rw [hc] at h
      cases h
      rcases create_fails w depth .incl f [] e hf hc with ⟨rfl, hx⟩ | ⟨-, hx⟩ | rfl | hx
      · exact Or.inr ⟨rfl, Or.inl ⟨rfl, hx⟩⟩
      · cases hx
      · exact Or.inr ⟨rfl, Or.inr (Or.inl rfl)⟩
      · exact Or.inl hx
    | ok r =>
      obtain ⟨c, p⟩ := r
      rw [hc] at h
      dsimp only at h
      split at h
      · have hdup : ∀ (cs : List Ctrl) (has : List Text) (e : Err), addControllers has cs = .error e → e = { cause := .duplicateMri } := by
          intro cs
          induction cs with
          | nil => intro has e h; cases h
          | cons p ps ih2 =>
            intro has e h
            rw [addControllers] at h
            split at h
            · cases h; rfl
            · exact ih2 _ e h
        cases ha : addControllers [] c with
        | ok r => rw [ha] at h; cases h
        | error e' =>
          rw [ha] at h
          cases h
          have := hdup c [] e ha
          exact Or.inr ⟨by rw [this], Or.inr (Or.inr (Or.inr (Or.inr (by rw [this]))))⟩
      · cases h
        exact Or.inr ⟨rfl, Or.inr (Or.inr (Or.inr (Or.inl rfl)))⟩
  · rename_i hf
    cases h
    exact Or.inr ⟨rfl, Or.inr (Or.inr (Or.inl ⟨rfl, fun h => hf ((fits_incl f).2 h)⟩))⟩

/-! ### names of sections -/

theorem split_dot (y : Text) : ∀ x : Text, '.' ∉ x → splitDots (x ++ '.' :: y) = x :: splitDots y := by
  intro x
  induction x with
  | nil => intro _; rw [List.nil_append, splitDots, if_pos rfl]
  | cons c x ih =>
    intro h
    have hc : c ≠ '.' := fun e => h (e ▸ List.mem_cons_self)
    rw [List.cons_append, splitDots, if_neg hc, ih (fun hm => h (List.mem_cons_of_mem _ hm))]

theorem split_none : ∀ x : Text, '.' ∉ x → splitDots x = [x] := by
  intro x
  induction x with
  | nil => intro _; rfl
  | cons c x ih =>
    intro h
    have hc : c ≠ '.' := fun e => h (e ▸ List.mem_cons_self)
    rw [splitDots, if_neg hc, ih (fun hm => h (List.mem_cons_of_mem _ hm))]

/-- a text is its words with dots between them, and no word has a dot -/
theorem split_back (t : Text) : ∃ x xs, splitDots t = x :: xs ∧ '.' ∉ x ∧ (∀ y ∈ xs, '.' ∉ y) ∧ t = x ++ xs.flatMap (fun y => '.' :: y) := by
  induction t with
  | nil => exact ⟨[], [], rfl, by simp, by simp, rfl⟩
  | cons c t ih =>
    obtain ⟨x, xs, h1, h2, h3, h4⟩ := ih
    rw [splitDots, h1]
    by_cases hc : c = '.'
    · rw [if_pos hc]
      refine ⟨[], x :: xs, rfl, by simp, ?_, by rw [hc, h4]; rfl⟩
      intro y hy
      rcases List.mem_cons.1 hy with rfl | hy
      · exact h2
      · exact h3 y hy
    · rw [if_neg hc]
      refine ⟨c :: x, xs, rfl, ?_, h3, by rw [h4]; rfl⟩
      intro hm
      rcases List.mem_cons.1 hm with hm | hm
      · exact hc hm.symm
      · exact h2 hm

/-- C104: a section is accepted exactly if its name is a package, one of the six kinds, and a name in it. -/
theorem section_accepted_iff (name s : Text) : sectionOf name = some s ↔
    ∃ package ident, name = package ++ '.' :: s ++ '.' :: ident ∧ '.' ∉ package ∧ '.' ∉ ident ∧ s ∈ sectionNames := by
  have hdots : ∀ s ∈ sectionNames, '.' ∉ s := by decide
  constructor
  · intro h
    obtain ⟨x, xs, h1, h2, h3, h4⟩ := split_back name
    unfold sectionOf at h
    split at h
    · rename_i a s' b hs
      split at h
      · rename_i hm
        cases h
        rw [h1] at hs
        simp only [List.cons.injEq] at hs
        obtain ⟨rfl, rfl⟩ := hs
        exact ⟨x, b, by rw [h4]; simp, h2, h3 b (by simp), hm⟩
      · cases h
    · cases h
  · rintro ⟨a, b, rfl, ha, hb, hs⟩
    unfold sectionOf
    have e : a ++ '.' :: s ++ '.' :: b = a ++ '.' :: (s ++ '.' :: b) := by simp
    rw [e, split_dot _ a ha, split_dot _ s (hdots s hs), split_none b hb]
    simp only [if_pos hs]

/-! ### cases -/

def leaf : File where
  path := "leaf.yaml".toList
  name := "leaf".toList
  dir := "/m".toList
  sections := [⟨1, .parameter "name".toList none⟩, ⟨2, .controller "b.controllers.C".toList [("name".toList, .str "$(name)".toList)]⟩,
    ⟨3, .part "b.parts.P".toList [("name".toList, .str "pos".toList)]⟩]

def shared : File where
  path := "shared.yaml".toList
  name := "shared".toList
  dir := "/m".toList
  sections := [⟨1, .parameter "prefix".toList none⟩, ⟨2, .part "b.parts.P".toList [("name".toList, .str "counter".toList)]⟩,
    ⟨3, .block "m.blocks.leaf".toList [("name".toList, "$(prefix):B".toList)]⟩]

def parent : File where
  path := "parent.yaml".toList
  name := "parent".toList
  dir := "/m".toList
  sections := [⟨1, .parameter "name".toList none⟩, ⟨2, .define "sub".toList "$(name):A".toList⟩,
    ⟨3, .controller "b.controllers.C".toList [("name".toList, .str "$(name)".toList)]⟩,
    ⟨4, .part "b.parts.P".toList [("name".toList, .str "first".toList)]⟩,
    ⟨5, .incl "m.includes.shared".toList [("prefix".toList, "$(name)".toList)]⟩,
    ⟨6, .block "m.blocks.leaf".toList [("name".toList, "$(sub)".toList)]⟩,
    ⟨7, .part "b.parts.P".toList [("name".toList, .str "last".toList)]⟩]

def top : File where
  path := "top.yaml".toList
  name := "top".toList
  dir := "/m".toList
  sections := [⟨1, .block "m.blocks.parent".toList [("name".toList, "BL".toList)]⟩]

/-- a block without a controller -/
def empty : File where
  path := "empty.yaml".toList
  name := "empty".toList
  dir := "/m".toList
  sections := []

/-- a block with two parts of the same name -/
def twice : File where
  path := "twice.yaml".toList
  name := "twice".toList
  dir := "/m".toList
  sections := [⟨1, .controller "b.controllers.C".toList [("name".toList, .str "T".toList)]⟩,
    ⟨2, .part "b.parts.P".toList [("name".toList, .str "pos".toList)]⟩, ⟨3, .part "b.parts.P".toList [("name".toList, .str "pos".toList)]⟩]

def world : World where
  found n :=
    if n = "m.blocks.leaf".toList then .file leaf
    else if n = "m.blocks.parent".toList then .file parent
    else if n = "m.includes.shared".toList then .file shared
    else if n = "m.blocks.empty".toList then .file empty
    else if n = "m.blocks.twice".toList then .file twice
    else if n = "b.parts.P".toList ∨ n = "b.controllers.C".toList then .cls
    else .noIdent
  make _ params :=
    match Dict.get? params "name".toList with
    | some (.str t) => some t
    | _ => none

/-- mris and names of parts -/
def outline (r : Except Err (List Ctrl)) : Option (List (Text × List Text)) :=
  match r with
  | .ok cs => some (cs.map (fun c => (c.mri, c.parts.map (·.name))))
  | .error _ => none

def reason {α : Type} : Except Err α → Option Err
  | .ok _ => none
  | .error e => some e

theorem whole_process : outline (startUp world 4 top) = some [("BL:B".toList, ["pos".toList]), ("BL:A".toList, ["pos".toList]),
    ("BL".toList, ["first".toList, "counter".toList, "last".toList])] := by
  decide +kernel

example : ∃ cs, DescribesProcess world top cs ∧ cs.map (·.mri) = ["BL:B".toList, "BL:A".toList, "BL".toList] := by
  have h := whole_process
  cases hs : startUp world 4 top with
  | error e => rw [hs] at h; cases h
  | ok cs =>
    refine ⟨cs, process_is_described _ _ _ _ hs, ?_⟩
    rw [hs] at h
    have h : cs.map (fun c => (c.mri, c.parts.map (·.name))) = _ := Option.some.inj h
    have := congrArg (List.map Prod.fst) h
    rw [List.map_map] at this
    exact this

example : reason (startUp world 4 { top with sections := [⟨1, .block "m.blocks.parent".toList [("nam".toList, "BL".toList)]⟩] }) =
    some { trace := [("top.yaml".toList, 1)], cause := .arguments } := by decide +kernel

/-! ### where it goes wrong -/

/-- C104 does not hold of a file that is not as it has to be: the exception has no line of it, nor of the section that refers to it. -/
theorem broken_not_told : reason (startUp world 4 { top with sections := [⟨7, .block "m.blocks.empty".toList []⟩] }) =
    some { trace := [], cause := .broken } := by decide +kernel

/-- C104 does not hold of two parts of the same name: of the lines of these parts none is told. -/
theorem duplicate_part_not_told : reason (startUp world 4 { top with sections := [⟨7, .block "m.blocks.twice".toList []⟩] }) =
    some { trace := [("top.yaml".toList, 7)], cause := .duplicatePart } := by decide +kernel

/-- C104 does not hold of two blocks of the same mri: no line is told. -/
theorem duplicate_mri_not_told : reason (startUp world 4 { top with sections :=
      [⟨1, .block "m.blocks.leaf".toList [("name".toList, "A".toList)]⟩, ⟨2, .block "m.blocks.leaf".toList [("name".toList, "A".toList)]⟩] }) =
    some { trace := [], cause := .duplicateMri } := by decide +kernel

end Verif.Props.Compose
