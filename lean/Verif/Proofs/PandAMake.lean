import Verif.Proofs.PandABlock
/-!
Lemmas for Props/PandABlock: the parts that are made.
-/
namespace Verif.Proofs.PandABlock
open Verif Verif.Tags Verif.PandABlock Verif.Spec.PandABlock

variable {V : Type} {ext : Ext V}

/-! ### tags -/

theorem cfg_group (x : Text) : configPre.isPrefixOf (groupTag x) = false := rfl
theorem cfg_widget (x : Text) : configPre.isPrefixOf (widgetTag x) = false := rfl
theorem cfg_badge (x y z : Text) : configPre.isPrefixOf (badgeValueTag x y z) = false := rfl
theorem cfg_source (p : Port) (x : Text) : configPre.isPrefixOf (sourcePortTag p x) = false := rfl
theorem cfg_sink (p : Port) (x : Text) : configPre.isPrefixOf (sinkPortTag p x) = false := rfl
theorem cfg_config (x : Int) : configPre.isPrefixOf (configTag x) = true := Props.Tags.config_prefix x
theorem grp_group (x : Text) : groupPre.isPrefixOf (groupTag x) = true := by
  rw [List.isPrefixOf_iff_prefix]; exact List.prefix_append _ _
theorem grp_widget (x : Text) : groupPre.isPrefixOf (widgetTag x) = false := rfl
theorem grp_badge (x y z : Text) : groupPre.isPrefixOf (badgeValueTag x y z) = false := rfl
theorem grp_source (p : Port) (x : Text) : groupPre.isPrefixOf (sourcePortTag p x) = false := rfl
theorem grp_sink (p : Port) (x : Text) : groupPre.isPrefixOf (sinkPortTag p x) = false := rfl
theorem grp_config (x : Int) : groupPre.isPrefixOf (configTag x) = false := rfl
theorem port_group (x : Text) : portMatch (groupTag x) = none := rfl
theorem port_widget (x : Text) : portMatch (widgetTag x) = none := rfl
theorem port_badge (x y z : Text) : portMatch (badgeValueTag x y z) = none := rfl
theorem port_config (x : Int) : portMatch (configTag x) = none := rfl
theorem lnk_group (x : Text) : linkedPre.isPrefixOf (groupTag x) = false := rfl
theorem lnk_widget (x : Text) : linkedPre.isPrefixOf (widgetTag x) = false := rfl
theorem lnk_badge (x y z : Text) : linkedPre.isPrefixOf (badgeValueTag x y z) = false := rfl
theorem lnk_sink (p : Port) (x : Text) : linkedPre.isPrefixOf (sinkPortTag p x) = false := rfl
theorem lnk_config (x : Int) : linkedPre.isPrefixOf (configTag x) = false := rfl

theorem details_cons_none {t : Text} {ts : List Text} (h : portMatch t = none) : portTagDetails (t :: ts) = portTagDetails ts := by
  rw [portTagDetails, h]

theorem details_sink (p : Port) {x : Text} (ts : List Text) (hc : ':' ∉ x) (hn : '\n' ∉ x) :
    portTagDetails (sinkPortTag p x :: ts) = .found false p x :=
  Props.Tags.port_read_back_partial false p x hc hn [] ts (by simp)

theorem details_source (p : Port) {x : Text} (ts : List Text) (hc : ':' ∉ x) (hn : '\n' ∉ x) :
    portTagDetails (sourcePortTag p x :: ts) = .found true p x :=
  Props.Tags.port_read_back_partial true p x hc hn [] ts (by simp)

/-! ### sorting -/

theorem insert_perm (t : Text) (l : List Text) : (insertText t l).Perm (t :: l) := by
  induction l with
  | nil => exact .refl _
  | cons u us ih =>
    rw [insertText]
    split
    · exact .refl _
    · exact (List.Perm.cons u ih).trans (.swap t u us)

theorem sort_perm (l : List Text) : (sortTexts l).Perm l := by
  induction l with
  | nil => exact .refl _
  | cons t ts ih => exact (insert_perm t _).trans (ih.cons t)

theorem textLe_total (a b : Text) : textLe a b = true ∨ textLe b a = true := by
  induction a generalizing b with
  | nil => exact .inl rfl
  | cons x xs ih =>
    cases b with
    | nil => exact .inr rfl
    | cons y ys =>
      rw [textLe, textLe]
      by_cases e : x = y
      · subst e
        simp only [if_true]
        exact ih ys
      · rw [if_neg e, if_neg (fun h => e h.symm)]
        have : x.toNat ≠ y.toNat := fun h => e (Char.toNat_inj.1 h)
        simp only [decide_eq_true_eq]
        omega

theorem textLe_trans {a b c : Text} (h : textLe a b = true) (g : textLe b c = true) : textLe a c = true := by
  induction a generalizing b c with
  | nil => rfl
  | cons x xs ih =>
    cases b with
    | nil => cases h
    | cons y ys =>
      cases c with
      | nil => cases g
      | cons z zs =>
        rw [textLe] at h g ⊢
        by_cases e1 : x = y
        · subst e1
          rw [if_pos rfl] at h
          by_cases e2 : x = z
          · subst e2
            rw [if_pos rfl] at g ⊢
            exact ih h g
          · rw [if_neg e2] at g ⊢
            exact g
        · rw [if_neg e1] at h
          simp only [decide_eq_true_eq] at h
          by_cases e2 : y = z
          · subst e2
            rw [if_neg e1]
            simpa using h
          · rw [if_neg e2] at g
            simp only [decide_eq_true_eq] at g
            have : x ≠ z := fun e => by subst e; omega
            rw [if_neg this]
            simp only [decide_eq_true_eq]
            omega

theorem insert_sorted {t : Text} {l : List Text} (h : Sorted l) : Sorted (insertText t l) := by
  unfold Sorted at *
  induction l with
  | nil => exact List.pairwise_singleton _ _
  | cons u us ih =>
    rw [insertText]
    obtain ⟨h1, h2⟩ := List.pairwise_cons.1 h
    split
    · rename_i hle
      refine List.pairwise_cons.2 ⟨?_, h⟩
      intro x hx
      rcases List.mem_cons.1 hx with rfl | hx
      · exact hle
      · exact textLe_trans hle (h1 x hx)
    · rename_i hle
      refine List.pairwise_cons.2 ⟨?_, ih h2⟩
      intro x hx
      rcases List.mem_cons.1 ((insert_perm t us).mem_iff.1 hx) with rfl | hx
      · rcases textLe_total u x with h | h
        · exact h
        · exact absurd h hle
      · exact h1 x hx

theorem sort_sorted (l : List Text) : Sorted (sortTexts l) := by
  induction l with
  | nil => exact List.Pairwise.nil
  | cons t ts ih => exact insert_sorted ih

theorem muxLabels_ok (labels : List Text) : KindOk (.anyOrder labels) (.choice (muxLabels labels)) := by
  refine ⟨_, _, rfl, ?_, ?_, ?_, sort_sorted _⟩
  · exact ((sort_perm _).append_left _).trans (List.filter_append_perm _ _)
  · intro l hl
    have := (List.mem_filter.1 hl).2
    simpa [fixed] using this
  · intro l hl
    have := (List.mem_filter.1 ((sort_perm _).mem_iff.1 hl)).2
    simpa [fixed] using this

/-! ### blocks that are being made -/

/-- What holds while a block is made -/
structure Inv (b : Block V) : Prop extends Wf b where
  named : ∀ attr a, b.attrs.get? attr = some a → attr ∈ b.parts.map (·.2)
  muxed : ∀ f ∈ b.muxes, ∀ attr a, b.fields.get? f = some (some attr) → b.attrs.get? attr = some a → links a.tags = []
  fresh : ∀ attr a, b.attrs.get? attr = some a → (∀ i, a.handler ≠ .label i) → a.value = ext.default a.kind

/-- What making more parts leaves as it is; `ks` are the names of the PandA that are new -/
structure Grow (ks : List Text) (b b' : Block V) : Prop where
  mriPrefix : b'.mriPrefix = b.mriPrefix
  name : b'.name = b.name
  iconFields : b'.iconFields = b.iconFields
  attrs : ∀ attr a, b.attrs.get? attr = some a → b'.attrs.get? attr = some a
  fields : ∀ k, k ∉ ks → b'.fields.get? k = b.fields.get? k
  names : ∀ x ∈ b.parts.map (·.2), x ∈ b'.parts.map (·.2)
  muxes : ∀ k ∈ b.muxes, k ∈ b'.muxes
  back : ∀ k ∈ b'.muxes, k ∈ b.muxes ∨ k ∈ ks
  methods : ∀ m ∈ b.methods, m ∈ b'.methods
  rest : b'.shownIcon = b.shownIcon ∧ b'.health = b.health ∧ b'.sent = b.sent

theorem Grow.refl (ks : List Text) (b : Block V) : Grow ks b b :=
  ⟨rfl, rfl, rfl, fun _ _ h => h, fun _ _ => rfl, fun _ h => h, fun _ h => h, fun _ h => .inl h, fun _ h => h, rfl, rfl, rfl⟩

theorem Grow.trans {ks ks' : List Text} {a b c : Block V} (h : Grow ks a b) (g : Grow ks' b c) : Grow (ks ++ ks') a c :=
  ⟨g.mriPrefix.trans h.mriPrefix, g.name.trans h.name, g.iconFields.trans h.iconFields,
    fun x y hx => g.attrs x y (h.attrs x y hx),
    fun k hk => by
      rw [List.mem_append, not_or] at hk
      rw [g.fields k hk.2, h.fields k hk.1],
    fun x hx => g.names x (h.names x hx), fun k hk => g.muxes k (h.muxes k hk),
    fun k hk => by
      rcases g.back k hk with h1 | h1
      · rcases h.back k h1 with h2 | h2
        · exact .inl h2
        · exact .inr (List.mem_append_left _ h2)
      · exact .inr (List.mem_append_right _ h1),
    fun m hm => g.methods m (h.methods m hm),
    g.rest.1.trans h.rest.1, g.rest.2.1.trans h.rest.2.1, g.rest.2.2.trans h.rest.2.2⟩

theorem Grow.mono {ks ks' : List Text} {a b : Block V} (h : Grow ks a b) (hs : ∀ k ∈ ks, k ∈ ks') : Grow ks' a b :=
  ⟨h.mriPrefix, h.name, h.iconFields, h.attrs, fun k hk => h.fields k (fun g => hk (hs k g)), h.names, h.muxes,
    fun k hk => (h.back k hk).imp id (hs k), h.methods, h.rest⟩

theorem addPart_some {b b' : Block V} {p a : Text} (h : addPart b p a = some b') :
    b' = { b with parts := b.parts ++ [(p, a)] } ∧ a ∉ b.parts.map (·.2) ∧ a ≠ "health".toList := by
  unfold addPart at h
  split at h
  · rename_i hc
    cases h
    have := hc.2.2.2
    rw [List.mem_cons, not_or] at this
    exact ⟨rfl, this.2, this.1⟩
  · cases h

/-- A new attribute, with or without a name of the PandA for it -/
theorem inv_add {b : Block V} (hi : Inv (ext := ext) b) {p attr : Text} {a : Attr V} (hn : attr ∉ b.parts.map (·.2))
    (hv : (∀ i, a.handler ≠ .label i) → a.value = ext.default a.kind) :
    Inv (ext := ext) { b with parts := b.parts ++ [(p, attr)], attrs := b.attrs.set attr a } ∧
    Grow [] b { b with parts := b.parts ++ [(p, attr)], attrs := b.attrs.set attr a } := by
  have hne : ∀ x y, b.attrs.get? x = some y → attr ≠ x := fun x y h e => hn (e ▸ hi.named x y h)
  refine ⟨⟨⟨hi.inj, ?_, hi.notHealth⟩, ?_, ?_, ?_⟩, rfl, rfl, rfl, ?_, fun _ _ => rfl, ?_, fun _ h => h, fun _ h => .inl h, fun _ h => h, rfl, rfl, rfl⟩
  · intro f x hf
    obtain ⟨y, hy⟩ := hi.has f x hf
    exact ⟨y, by show Dict.get? (Dict.set b.attrs attr a) x = _; rw [Dict.get?_set_ne _ _ (hne x y hy), hy]⟩
  · intro x y hx
    replace hx : Dict.get? (Dict.set b.attrs attr a) x = some y := hx
    show x ∈ (b.parts ++ [(p, attr)]).map (·.2)
    rw [List.map_append]
    rw [Dict.get?_set] at hx
    by_cases e : attr = x
    · simp [e]
    · rw [if_neg e] at hx
      exact List.mem_append_left _ (hi.named x y hx)
  · intro f hf x y hx hy
    obtain ⟨z, hz⟩ := hi.has f x hx
    replace hy : Dict.get? (Dict.set b.attrs attr a) x = some y := hy
    rw [Dict.get?_set_ne _ _ (hne x z hz), hz] at hy
    cases hy
    exact hi.muxed f hf x _ hx hz
  · intro x y hx
    replace hx : Dict.get? (Dict.set b.attrs attr a) x = some y := hx
    rw [Dict.get?_set] at hx
    by_cases e : attr = x
    · rw [if_pos e] at hx
      cases hx
      exact hv
    · rw [if_neg e] at hx
      exact hi.fresh x y hx
  · intro x y hx
    show Dict.get? (Dict.set b.attrs attr a) x = some y
    rw [Dict.get?_set_ne _ _ (hne x y hx), hx]
  · intro x hx
    show x ∈ (b.parts ++ [(p, attr)]).map (·.2)
    rw [List.map_append]
    exact List.mem_append_left _ hx

/-- The name of the PandA for an attribute -/
theorem inv_field {b : Block V} (hi : Inv (ext := ext) b) {f attr : Text} {a : Attr V} (ha : b.attrs.get? attr = some a)
    (hnew : ∀ g, b.fields.get? g ≠ some (some attr)) (hh : upper f ≠ healthName) (hm : f ∈ b.muxes → links a.tags = []) :
    Inv (ext := ext) { b with fields := b.fields.set f (some attr) } ∧ Grow [f] b { b with fields := b.fields.set f (some attr) } := by
  have hget : ∀ g, Dict.get? (Dict.set b.fields f (some attr)) g = if f = g then some (some attr) else b.fields.get? g := fun g => Dict.get?_set _ _ _ _
  refine ⟨⟨⟨?_, ?_, ?_⟩, hi.named, ?_, hi.fresh⟩, rfl, rfl, rfl, fun _ _ h => h, ?_, fun _ h => h, fun _ h => h, fun _ h => .inl h, fun _ h => h, rfl, rfl, rfl⟩
  · intro g k x hg hk
    replace hg : Dict.get? (Dict.set b.fields f (some attr)) g = some (some x) := hg
    replace hk : Dict.get? (Dict.set b.fields f (some attr)) k = some (some x) := hk
    rw [hget] at hg hk
    by_cases e1 : f = g <;> by_cases e2 : f = k
    · rw [← e1, ← e2]
    · rw [if_pos e1] at hg
      rw [if_neg e2] at hk
      cases hg
      exact absurd hk (hnew k)
    · rw [if_neg e1] at hg
      rw [if_pos e2] at hk
      cases hk
      exact absurd hg (hnew g)
    · rw [if_neg e1] at hg
      rw [if_neg e2] at hk
      exact hi.inj g k x hg hk
  · intro g x hg
    replace hg : Dict.get? (Dict.set b.fields f (some attr)) g = some (some x) := hg
    rw [hget] at hg
    by_cases e : f = g
    · rw [if_pos e] at hg; cases hg; exact ⟨a, ha⟩
    · rw [if_neg e] at hg; exact hi.has g x hg
  · intro g x hg
    replace hg : Dict.get? (Dict.set b.fields f (some attr)) g = some (some x) := hg
    rw [hget] at hg
    by_cases e : f = g
    · rw [← e]; exact hh
    · rw [if_neg e] at hg; exact hi.notHealth g x hg
  · intro g hg x y hx hy
    replace hx : Dict.get? (Dict.set b.fields f (some attr)) g = some (some x) := hx
    rw [hget] at hx
    by_cases e : f = g
    · rw [if_pos e] at hx
      cases hx
      replace hy : b.attrs.get? attr = some y := hy
      rw [ha] at hy
      cases hy
      exact hm (e ▸ hg)
    · rw [if_neg e] at hx; exact hi.muxed g hg x y hx hy
  · intro k hk
    show Dict.get? (Dict.set b.fields f (some attr)) k = _
    rw [hget, if_neg (fun e => hk (by simp [e]))]

theorem makeGroup_spec {b b' : Block V} (hi : Inv (ext := ext) b) {g : Text} (h : makeGroup ext b g = some b') :
    Inv (ext := ext) b' ∧ Grow [] b b' := by
  unfold makeGroup at h
  split at h
  · cases h; exact ⟨hi, Grow.refl _ _⟩
  · cases ha : addPart b g g with
    | none => rw [ha] at h; cases h
    | some b1 =>
      rw [ha] at h
      cases h
      obtain ⟨rfl, hn, -⟩ := addPart_some ha
      exact inv_add hi hn (fun _ => rfl)

/-- the block with a new attribute for a name of the PandA -/
theorem newField_spec {b : Block V} (hi : Inv (ext := ext) b) {f p attr : Text} {a : Attr V} (hn : attr ∉ b.parts.map (·.2))
    (hh : upper f ≠ healthName) (hv : (∀ i, a.handler ≠ .label i) → a.value = ext.default a.kind) (hl : links a.tags = []) :
    let b' : Block V := { b with parts := b.parts ++ [(p, attr)], attrs := b.attrs.set attr a, fields := b.fields.set f (some attr) }
    Inv (ext := ext) b' ∧ Grow [f] b b' ∧ b'.fields.get? f = some (some attr) ∧ b'.attrs.get? attr = some a := by
  obtain ⟨h1, h2⟩ := inv_add (p := p) hi hn hv
  have hx := inv_field (f := f) h1 (attr := attr) (a := a) (Dict.get?_set_self _ _ _)
    (fun g hg => by
      replace hg : b.fields.get? g = some (some attr) := hg
      obtain ⟨y, hy⟩ := hi.has g attr hg
      exact hn (hi.named attr y hy)) hh (fun _ => hl)
  refine ⟨hx.1, ?_, Dict.get?_set_self _ _ _, Dict.get?_set_self _ _ _⟩
  have := h2.trans hx.2
  exact this

theorem fieldPart_spec {b b' : Block V} (hi : Inv (ext := ext) b) {f : Text} {kind : Kind} {tags : List Text} {w : Bool} {it : Int}
    {hd : Handler} (hh : upper f ≠ healthName) (hl : links tags = []) (h : fieldPart ext b f kind tags w it hd = some b') :
    Inv (ext := ext) b' ∧ Grow [f] b b' ∧ ∃ attr, published f = some attr ∧ b'.fields.get? f = some (some attr) ∧
      b'.attrs.get? attr = some ⟨kind, w, if w then tags ++ [configTag it] else tags, ext.default kind, hd, false⟩ := by
  unfold fieldPart at h
  cases hc : camel (undot f) with
  | none => rw [hc] at h; cases h
  | some attr =>
    rw [hc] at h
    dsimp only at h
    cases ha : addPart b (undot f) attr with
    | none => rw [ha] at h; cases h
    | some b1 =>
      rw [ha] at h
      cases h
      obtain ⟨rfl, hn, -⟩ := addPart_some ha
      have hl' : links (if w = true then tags ++ [configTag it] else tags) = [] := by
        split
        · unfold links at *
          rw [List.filter_append, hl]
          rfl
        · exact hl
      obtain ⟨h1, h2, h3, h4⟩ := newField_spec hi (f := f) (p := undot f)
        (a := ⟨kind, w, if w then tags ++ [configTag it] else tags, ext.default kind, hd, false⟩) hn hh (fun _ => rfl) hl'
      exact ⟨h1, h2, attr, hc, h3, h4⟩

/-! ### one field of the PandA -/

/-- Names that belong to the field `n` -/
def Own (n : Text) (ks : List Text) : Prop := ∀ k ∈ ks, k = n ∨ ∃ s, k = n ++ '.' :: s

theorem upper_dot (n s : Text) : upper (n ++ '.' :: s) ≠ healthName := by
  intro h
  have : '.' ∈ upper (n ++ '.' :: s) := by
    unfold upper
    rw [List.map_append]
    exact List.mem_append_right _ (by simp)
  rw [h] at this
  revert this
  decide

theorem clean_name {n : Text} (h : PandAName n) : ':' ∉ n ∧ '\n' ∉ n ∧ '.' ∉ n := by
  refine ⟨fun hm => ?_, fun hm => ?_, fun hm => ?_⟩ <;> (have := h _ hm; revert this; decide)

/-- What is said of a field after its parts are made -/
structure Made (ext : Ext V) (b b' : Block V) (n : Text) (fd : FieldData) : Prop where
  inv : Inv (ext := ext) b'
  grow : ∃ ks, Own n ks ∧ Grow ks b b'
  wants : ∃ ws, wants b.name n fd = some ws ∧ ∀ w ∈ ws, ∃ attr a, published w.field = some attr ∧
    b'.fields.get? w.field = some (some attr) ∧ b'.attrs.get? attr = some a ∧ Meets w a ∧ ∀ i, a.handler ≠ .label i
  elsewhere : upper n ≠ "HEALTH".toList → ∀ k ∈ elsewhere n fd, b'.fields.get? k = some none
  muxes : upper n ≠ "HEALTH".toList → (fd.typ = "bit_mux" ∨ fd.typ = "pos_mux") → n ∈ b'.muxes
  actions : upper n ≠ "HEALTH".toList → fd.typ = "write" → fd.subtyp = "action" → ∃ m, published n = some m ∧ m ∈ b'.methods

theorem meets_value {n g w : Text} {kind : Kind} {hd : Handler} {writeable : Bool} {it : Int} :
    Meets (V := V) ⟨n, .exactly kind, writeable, if writeable then some it else none, g, .nothing⟩
      ⟨kind, writeable, if writeable then [groupTag g, widgetTag w] ++ [configTag it] else [groupTag g, widgetTag w], ext.default kind, hd, false⟩ := by
  cases writeable
  · refine ⟨rfl, rfl, ?_, ?_, ?_⟩
    · simp [getConfigTag, cfg_group, cfg_widget]
    · simp [grp_group, grp_widget]
    · simp [portTagDetails, port_group, port_widget]
  · refine ⟨rfl, rfl, ?_, ?_, ?_⟩
    · simp [getConfigTag, cfg_group, cfg_widget, cfg_config, Props.Tags.iteration_read_back]
    · simp [grp_group, grp_widget, grp_config]
    · simp [portTagDetails, port_group, port_widget, port_config]

theorem own_self (n : Text) : Own n [n] := fun k h => .inl (by simpa using h)
theorem own_dot (n s : Text) : Own n [n ++ '.' :: s] := fun k h => .inr ⟨s, by simpa using h⟩
theorem Own.append {n : Text} {ks ks' : List Text} (h : Own n ks) (g : Own n ks') : Own n (ks ++ ks') := fun k hk => by
  rcases List.mem_append.1 hk with hk | hk
  · exact h k hk
  · exact g k hk

theorem self_ne_dot (n s : Text) : n ≠ n ++ '.' :: s := by
  intro h
  have := congrArg List.length h
  simp at this

theorem makeTime_spec {b b' : Block V} (hi : Inv (ext := ext) b) {n : Text} {fd : FieldData} (hh : upper n ≠ healthName) (w : Bool)
    (hw : wants b.name n fd = some (time n w)) (he : elsewhere n fd = []) (hm : ¬ (fd.typ = "bit_mux" ∨ fd.typ = "pos_mux"))
    (ha : ¬ fd.typ = "write") (h : makeTime ext b n w = some b') : Made ext b b' n fd := by
  unfold makeTime at h
  dsimp only at h
  cases h1 : makeGroup ext b (if w = true then parameters else readbacks) with
  | none => rw [h1] at h; cases h
  | some b1 =>
    rw [h1] at h
    dsimp only at h
    obtain ⟨i1, g1⟩ := makeGroup_spec hi h1
    cases h2 : fieldPart ext b1 n (.number "float64") [groupTag (if w = true then parameters else readbacks),
        widgetTag (if w = true then "textinput".toList else "textupdate".toList)] w 2 .field with
    | none => rw [h2] at h; cases h
    | some b2 =>
      rw [h2] at h
      dsimp only at h
      obtain ⟨i2, g2, a2, p2, f2, x2⟩ := fieldPart_spec i1 hh rfl h2
      obtain ⟨i3, g3, a3, p3, f3, x3⟩ := fieldPart_spec i2 (upper_dot n _) rfl h
      refine ⟨i3, ⟨_, (own_self n).append (own_dot n "UNITS".toList), (g1.trans (g2.trans g3))⟩, ⟨_, hw, ?_⟩, ?_, fun _ h => absurd h hm, fun _ h => absurd h ha⟩
      · have hf2 : b'.fields.get? n = some (some a2) := by
          rw [g3.fields n (by simp), f2]
        cases w
        · intro q hq
          simp only [time, Bool.false_eq_true, if_false, List.mem_cons, List.not_mem_nil, or_false] at hq
          rcases hq with rfl | rfl
          · exact ⟨a2, _, p2, hf2, g3.attrs _ _ x2, meets_value (it := 2) (writeable := false), by simp⟩
          · exact ⟨a3, _, p3, f3, x3, meets_value (it := 1) (writeable := true), by simp⟩
        · intro q hq
          simp only [time, if_true, List.mem_cons, List.not_mem_nil, or_false] at hq
          rcases hq with rfl | rfl
          · exact ⟨a2, _, p2, hf2, g3.attrs _ _ x2, meets_value (it := 2) (writeable := true), by simp⟩
          · exact ⟨a3, _, p3, f3, x3, meets_value (it := 1) (writeable := true), by simp⟩
      · rw [he]; intro _ k hk; cases hk

theorem metaKind_eq (s : String) (labels : List Text) : metaKind s labels = valueKind s labels := by
  symm
  unfold metaKind
  unfold valueKind
  split
  any_goals (first | rfl | (simp; done))
  rename_i n1 n2 n3 n4 n5 n6 n7 n8
  rw [if_neg n1, if_neg n2, if_neg (fun h => h.elim n3 n4), if_neg (fun h => h.elim n5 n6), if_neg n7, if_neg n8]

theorem makeParam_spec {b b' : Block V} (hi : Inv (ext := ext) b) {n : Text} {fd : FieldData} (hh : upper n ≠ healthName) (w : Bool)
    (hw : wants b.name n fd = (valueKind fd.subtyp fd.labels).map fun k => [value n k w]) (he : elsewhere n fd = [])
    (hm : ¬ (fd.typ = "bit_mux" ∨ fd.typ = "pos_mux")) (ha : fd.typ = "write" → ¬ fd.subtyp = "action") (h : makeParam ext b n fd w = some b') : Made ext b b' n fd := by
  unfold makeParam at h
  dsimp only at h
  cases h1 : makeGroup ext b (if w = true then parameters else readbacks) with
  | none => rw [h1] at h; cases h
  | some b1 =>
    rw [h1] at h
    dsimp only at h
    obtain ⟨i1, g1⟩ := makeGroup_spec hi h1
    cases h2 : metaKind fd.subtyp fd.labels with
    | none => rw [h2] at h; cases h
    | some kind =>
      rw [h2] at h
      dsimp only at h
      obtain ⟨i2, g2, a2, p2, f2, x2⟩ := fieldPart_spec i1 hh rfl h
      have hk : valueKind fd.subtyp fd.labels = some kind := by rw [← h2, metaKind_eq]
      refine ⟨i2, ⟨_, own_self n, (g1.trans g2)⟩, ⟨[value n kind w], by rw [hw, hk]; rfl, ?_⟩, ?_, fun _ h => absurd h hm, fun _ h g => absurd g (ha h)⟩
      · intro q hq
        rw [List.mem_singleton] at hq
        subst hq
        cases w
        · exact ⟨a2, _, p2, f2, x2, meets_value (it := 1) (writeable := false), by simp⟩
        · exact ⟨a2, _, p2, f2, x2, meets_value (it := 1) (writeable := true), by simp⟩
      · rw [he]; intro _ k hk; cases hk

theorem makeAction_spec {b b' : Block V} (hi : Inv (ext := ext) b) {n : Text} {fd : FieldData} (hpn : PandAName n)
    (hw : wants b.name n fd = some []) (he : elsewhere n fd = []) (hm : ¬ (fd.typ = "bit_mux" ∨ fd.typ = "pos_mux"))
    (h : makeAction ext b n = some b') : Made ext b b' n fd := by
  unfold makeAction at h
  cases h1 : makeGroup ext b parameters with
  | none => rw [h1] at h; cases h
  | some b1 =>
    rw [h1] at h
    dsimp only at h
    obtain ⟨i1, g1⟩ := makeGroup_spec hi h1
    cases hc : camel n with
    | none => rw [hc] at h; cases h
    | some m =>
      rw [hc] at h
      dsimp only at h
      cases ha : addPart b1 n m with
      | none => rw [ha] at h; cases h
      | some b2 =>
        rw [ha] at h
        cases h
        obtain ⟨rfl, hn, -⟩ := addPart_some ha
        refine ⟨⟨⟨i1.inj, i1.has, i1.notHealth⟩, ?_, i1.muxed, i1.fresh⟩, ⟨[], fun _ h => (by cases h), ?_⟩,
          ⟨[], hw, fun _ h => by cases h⟩, (by rw [he]; intro _ k hk; cases hk), fun _ h => absurd h hm, ?_⟩
        · intro x y hx
          show x ∈ (b1.parts ++ [(n, m)]).map (·.2)
          rw [List.map_append]
          exact List.mem_append_left _ (i1.named x y hx)
        · refine g1.trans (ks' := []) ⟨rfl, rfl, rfl, fun _ _ h => h, fun _ _ => rfl, ?_, fun _ h => h, fun _ h => .inl h, fun _ h => List.mem_append_left _ h, rfl, rfl, rfl⟩
          intro x hx
          show x ∈ (b1.parts ++ [(n, m)]).map (·.2)
          rw [List.map_append]
          exact List.mem_append_left _ hx
        · intro _ _ _
          refine ⟨m, ?_, List.mem_append_right _ (List.mem_singleton.2 rfl)⟩
          have : undot n = n := by
            unfold undot
            refine (List.map_congr_left (g := id) (fun x hx => ?_)).trans (List.map_id n)
            by_cases e : x = '.'
            · exact absurd (e ▸ hx) (clean_name hpn).2.2
            · rw [if_neg e]; rfl
          unfold published
          rw [this, hc]

theorem makeOut_spec {b b' : Block V} (hi : Inv (ext := ext) b) {n : Text} (hh : upper n ≠ healthName) {port : Port} {kind : Kind}
    (hb : PandAName b.name) (hn : PandAName n) (h : makeOut ext b n port kind = some b') :
    Inv (ext := ext) b' ∧ Grow [n] b b' ∧ ∃ attr a, published n = some attr ∧
      b'.fields.get? n = some (some attr) ∧ b'.attrs.get? attr = some a ∧
      Meets ⟨n, .exactly kind, false, none, "outputs".toList, .found true port (b.name ++ '.' :: n)⟩ a ∧ ∀ i, a.handler ≠ .label i := by
  unfold makeOut at h
  cases h1 : makeGroup ext b outputs with
  | none => rw [h1] at h; cases h
  | some b1 =>
    rw [h1] at h
    dsimp only at h
    obtain ⟨i1, g1⟩ := makeGroup_spec hi h1
    obtain ⟨i2, g2, a2, p2, f2, x2⟩ := fieldPart_spec i1 hh rfl h
    refine ⟨i2, g1.trans g2, a2, _, p2, f2, x2, ⟨rfl, rfl, ?_, ?_, ?_⟩, by simp⟩
    · simp [getConfigTag, cfg_group, cfg_widget, cfg_source]
    · simp [grp_group, grp_widget, grp_source]; rfl
    · rw [g1.name]
      dsimp only
      rw [if_neg (by simp), details_cons_none (port_group _)]
      have c1 := clean_name hb
      have c2 := clean_name hn
      exact details_source _ _ (by simp [c1, c2]) (by simp [c1, c2])

theorem inv_ignore {b : Block V} (hi : Inv (ext := ext) b) (names : List Text) :
    Inv (ext := ext) (ignore b names) ∧ Grow names b (ignore b names) ∧ (∀ k ∈ names, (ignore b names).fields.get? k = some none) := by
  have hget : ∀ (names : List Text) (d : Dict Text (Option Text)) (k : Text),
      (names.foldl (fun d n => Dict.set d n none) d).get? k = if k ∈ names then some none else d.get? k := by
    intro names
    induction names with
    | nil => intro d k; simp
    | cons n ns ih =>
      intro d k
      rw [List.foldl_cons, ih, Dict.get?_set]
      by_cases h1 : k ∈ ns
      · simp [h1]
      · by_cases h2 : n = k
        · simp [h2]
        · have : ¬ k = n := fun h => h2 h.symm
          simp [h1, h2, this]
  have hs : ∀ k x, (ignore b names).fields.get? k = some (some x) → b.fields.get? k = some (some x) := by
    intro k x h
    unfold ignore at h
    dsimp only at h
    rw [hget] at h
    split at h
    · cases h
    · exact h
  refine ⟨⟨⟨fun f g x h1 h2 => hi.inj f g x (hs f x h1) (hs g x h2), fun f x h => hi.has f x (hs f x h), fun f x h => hi.notHealth f x (hs f x h)⟩,
    hi.named, fun f hf x y h1 h2 => hi.muxed f hf x y (hs f x h1) h2, hi.fresh⟩, ⟨rfl, rfl, rfl, fun _ _ h => h, ?_, fun _ h => h, fun _ h => h, fun _ h => .inl h, fun _ h => h, rfl, rfl, rfl⟩, ?_⟩
  · intro k hk
    unfold ignore
    dsimp only
    rw [hget, if_neg hk]
  · intro k hk
    unfold ignore
    dsimp only
    rw [hget, if_pos hk]

theorem makeMux_spec {b b' : Block V} (hi : Inv (ext := ext) b) {n : Text} {fd : FieldData} (hh : upper n ≠ healthName) {port : Port}
    (h : makeMux ext b n fd port = some b') :
    Inv (ext := ext) b' ∧ Grow [n] b b' ∧ n ∈ b'.muxes ∧ ∃ attr a, published n = some attr ∧
      b'.fields.get? n = some (some attr) ∧ b'.attrs.get? attr = some a ∧
      Meets ⟨n, .anyOrder fd.labels, true, some 1, "inputs".toList, .found false port "ZERO".toList⟩ a ∧ ∀ i, a.handler ≠ .label i := by
  unfold makeMux at h
  cases h1 : makeGroup ext b inputs with
  | none => rw [h1] at h; cases h
  | some b1 =>
    rw [h1] at h
    dsimp only at h
    obtain ⟨i1, g1⟩ := makeGroup_spec hi h1
    cases hc : camel n with
    | none => rw [hc] at h; cases h
    | some c =>
      rw [hc] at h
      dsimp only at h
      obtain ⟨badge, hbadge, hbn⟩ : ∃ badge, (if port = .bool then [badgeValueTag (mri b1) (c ++ "Delay".toList) "plus".toList] else []) = badge ∧
          (badge = [] ∨ ∃ x y z, badge = [badgeValueTag x y z]) := by
        refine ⟨_, rfl, ?_⟩
        split
        · exact .inr ⟨_, _, _, rfl⟩
        · exact .inl rfl
      rw [hbadge] at h
      cases h2 : fieldPart ext b1 n (.choice (muxLabels fd.labels))
          ([groupTag inputs, sinkPortTag port "ZERO".toList, widgetTag "combo".toList] ++ badge) true 1 .field with
      | none => rw [h2] at h; cases h
      | some b2 =>
        rw [h2] at h
        cases h
        have hl : links ([groupTag inputs, sinkPortTag port "ZERO".toList, widgetTag "combo".toList] ++ badge) = [] := by
          rcases hbn with rfl | ⟨x, y, z, rfl⟩ <;> rfl
        obtain ⟨i2, g2, a2, p2, f2, x2⟩ := fieldPart_spec i1 hh hl h2
        refine ⟨⟨⟨i2.inj, i2.has, i2.notHealth⟩, i2.named, ?_, i2.fresh⟩, ?_, by simp, a2, _, p2, f2, x2, ⟨muxLabels_ok _, rfl, ?_, ?_, ?_⟩, by simp⟩
        · intro f hf x y hx hy
          rcases List.mem_append.1 hf with hf | hf
          · exact i2.muxed f hf x y hx hy
          · rw [List.mem_singleton] at hf
            subst hf
            replace hx : b2.fields.get? f = some (some x) := hx
            rw [f2] at hx
            cases hx
            replace hy : b2.attrs.get? a2 = some y := hy
            rw [x2] at hy
            cases hy
            rw [if_pos rfl]
            unfold links at hl ⊢
            rw [List.filter_append, hl]
            rfl
        · refine g1.trans (ks' := [n]) ⟨g2.mriPrefix, g2.name, g2.iconFields, g2.attrs, g2.fields, g2.names, fun k hk => List.mem_append_left _ (g2.muxes k hk), ?_, g2.methods, g2.rest⟩
          intro k hk
          rcases List.mem_append.1 hk with hk | hk
          · exact g2.back k hk
          · exact .inr hk
        · rcases hbn with rfl | ⟨x, y, z, rfl⟩
          · simp [getConfigTag, cfg_group, cfg_widget, cfg_sink, cfg_config, Props.Tags.iteration_read_back]
          · simp [getConfigTag, cfg_group, cfg_widget, cfg_sink, cfg_badge, cfg_config, Props.Tags.iteration_read_back]
        · rcases hbn with rfl | ⟨x, y, z, rfl⟩
          · simp [grp_group, grp_widget, grp_sink, grp_config]; rfl
          · simp [grp_group, grp_widget, grp_sink, grp_badge, grp_config]; rfl
        · rw [if_pos rfl]
          simp only [List.cons_append, List.nil_append]
          rw [details_cons_none (port_group _)]
          exact details_sink _ _ (by decide) (by decide)

theorem makeTable_spec {b b' : Block V} (hi : Inv (ext := ext) b) {n : Text} (hh : upper n ≠ healthName)
    (h : makeTable ext b n = some b') :
    Inv (ext := ext) b' ∧ Grow [n] b b' ∧ ∃ attr a, published n = some attr ∧
      b'.fields.get? n = some (some attr) ∧ b'.attrs.get? attr = some a ∧
      Meets ⟨n, .exactly .table, true, some 1, "parameters".toList, .nothing⟩ a ∧ ∀ i, a.handler ≠ .label i := by
  unfold makeTable at h
  cases h1 : makeGroup ext b parameters with
  | none => rw [h1] at h; cases h
  | some b1 =>
    rw [h1] at h
    dsimp only at h
    obtain ⟨i1, g1⟩ := makeGroup_spec hi h1
    cases hc : camel (undot n) with
    | none => rw [hc] at h; cases h
    | some attr =>
      rw [hc] at h
      dsimp only at h
      cases ha : addPart b1 (undot n) attr with
      | none => rw [ha] at h; cases h
      | some b2 =>
        rw [ha] at h
        cases h
        obtain ⟨rfl, hn, -⟩ := addPart_some ha
        obtain ⟨i2, g2, f2, x2⟩ := newField_spec i1 (f := n) (p := undot n)
          (a := ⟨.table, true, [widgetTag "table".toList, groupTag parameters, configTag 1], ext.default .table, .table, false⟩)
          hn hh (fun _ => rfl) rfl
        refine ⟨i2, g1.trans g2, attr, _, hc, f2, x2, ⟨rfl, rfl, ?_, ?_, ?_⟩, by simp⟩
        · simp [getConfigTag, cfg_group, cfg_widget, cfg_config, Props.Tags.iteration_read_back]
        · simp [grp_group, grp_widget, grp_config]; rfl
        · simp [portTagDetails, port_group, port_widget, port_config]

theorem makePartsFor_spec {b b' : Block V} (hi : Inv (ext := ext) b) {n : Text} {fd : FieldData}
    (hb : PandAName b.name) (hn : PandAName n) (h : makePartsFor ext b n fd = some b') : Made ext b b' n fd := by
  unfold makePartsFor at h
  by_cases hh : upper n = healthName
  · rw [if_pos hh] at h
    cases h
    have hh' : upper n = "HEALTH".toList := hh
    exact ⟨hi, ⟨[], fun _ h => (by cases h), Grow.refl _ _⟩, ⟨[], by unfold wants; rw [if_pos hh'], fun _ h => by cases h⟩,
      fun h => absurd hh' h, fun h => absurd hh' h, fun h => absurd hh' h⟩
  · rw [if_neg hh] at h
    have hh' : upper n ≠ "HEALTH".toList := hh
    dsimp only at h
    split at h
    · rename_i ht
      rcases ht with ht | ⟨ht | ht, hs⟩
      · rw [show decide (fd.typ ≠ "read") = true by rw [ht]; decide] at h
        exact makeTime_spec hi hh true (by unfold wants; rw [if_neg hh', ht]; rfl) (by unfold elsewhere; rw [ht]; simp) (by rw [ht]; simp) (by rw [ht]; simp) h
      · rw [show decide (fd.typ ≠ "read") = true by rw [ht]; decide] at h
        exact makeTime_spec hi hh true (by unfold wants; rw [if_neg hh', ht]; exact if_pos hs) (by unfold elsewhere; rw [ht]; simp) (by rw [ht]; simp) (by rw [ht]; simp) h
      · rw [show decide (fd.typ ≠ "read") = false by rw [ht]; decide] at h
        exact makeTime_spec hi hh false (by unfold wants; rw [if_neg hh', ht]; exact if_pos hs) (by unfold elsewhere; rw [ht]; simp) (by rw [ht]; simp) (by rw [ht]; simp) h
    · rename_i hnt
      split at h
      · rename_i ht
        exact makeAction_spec hi hn (by unfold wants; rw [if_neg hh', ht.1]; exact if_pos ht.2) (by unfold elsewhere; rw [ht.1]; simp) (by rw [ht.1]; simp) h
      · rename_i hna
        split at h
        · rename_i ht
          rcases ht with ht | ht | ht
          · have hs : fd.subtyp ≠ "time" := fun hs => hnt (.inr ⟨.inl ht, hs⟩)
            rw [show decide (fd.typ ≠ "read") = true by rw [ht]; decide] at h
            exact makeParam_spec hi hh true (by unfold wants; rw [if_neg hh', ht]; exact if_neg hs) (by unfold elsewhere; rw [ht]; simp) (by rw [ht]; simp) (by rw [ht]; simp) h
          · have hs : fd.subtyp ≠ "time" := fun hs => hnt (.inr ⟨.inr ht, hs⟩)
            rw [show decide (fd.typ ≠ "read") = false by rw [ht]; decide] at h
            exact makeParam_spec hi hh false (by unfold wants; rw [if_neg hh', ht]; exact if_neg hs) (by unfold elsewhere; rw [ht]; simp) (by rw [ht]; simp) (by rw [ht]; simp) h
          · have hs : fd.subtyp ≠ "action" := fun hs => hna ⟨ht, hs⟩
            rw [show decide (fd.typ ≠ "read") = true by rw [ht]; decide] at h
            exact makeParam_spec hi hh true (by unfold wants; rw [if_neg hh', ht]; exact if_neg hs) (by unfold elsewhere; rw [ht]; simp) (by rw [ht]; simp) (fun _ => hs) h
        · split at h
          · rename_i ht
            obtain ⟨i, g, attr, a, h1, h2, h3, h4, h5⟩ := makeOut_spec hi hh hb hn h
            refine ⟨i, ⟨_, own_self n, g⟩, ⟨_, by unfold wants; rw [if_neg hh', ht]; rfl, ?_⟩, by unfold elsewhere; rw [ht]; simp, by rw [ht]; simp, by rw [ht]; simp⟩
            intro w hw
            rw [List.mem_singleton] at hw
            subst hw
            exact ⟨attr, a, h1, h2, h3, h4, h5⟩
          · split at h
            · rename_i ht
              cases ho : makeOut ext b n .int32 (.number "int32") with
              | none => rw [ho] at h; cases h
              | some b1 =>
                rw [ho] at h
                cases h
                obtain ⟨i, g, attr, a, h1, h2, h3, h4, h5⟩ := makeOut_spec hi hh hb hn ho
                obtain ⟨i2, g2, h6⟩ := inv_ignore i (posSuffixes.map (n ++ ·))
                have hown : Own n (posSuffixes.map (n ++ ·)) := by
                  intro k hk
                  obtain ⟨s, hs, rfl⟩ := List.mem_map.1 hk
                  simp only [posSuffixes, List.mem_cons, List.not_mem_nil, or_false] at hs
                  rcases hs with rfl | rfl | rfl | rfl | rfl <;> exact .inr ⟨_, rfl⟩
                have hnot : n ∉ posSuffixes.map (n ++ ·) := by
                  intro hm
                  obtain ⟨s, hs, he⟩ := List.mem_map.1 hm
                  have hl := congrArg List.length he
                  simp only [posSuffixes, List.mem_cons, List.not_mem_nil, or_false] at hs
                  rcases hs with rfl | rfl | rfl | rfl | rfl <;> simp at hl
                refine ⟨i2, ⟨_, (own_self n).append hown, g.trans g2⟩, ⟨_, by unfold wants; rw [if_neg hh', ht]; rfl, ?_⟩, ?_, by rw [ht]; simp, by rw [ht]; simp⟩
                · intro w hw
                  rw [List.mem_singleton] at hw
                  subst hw
                  exact ⟨attr, a, h1, by rw [g2.fields n hnot]; exact h2, g2.attrs _ _ h3, h4, h5⟩
                · intro _ k hk
                  apply h6
                  unfold elsewhere at hk
                  rw [if_pos ht] at hk
                  simpa [posSuffixes] using hk
            · rename_i hnp
              split at h
              · rename_i ht
                split at h
                · rename_i hs
                  cases h
                  obtain ⟨i2, g2, h6⟩ := inv_ignore hi [n ++ ".CAPTURE".toList]
                  refine ⟨i2, ⟨_, own_dot n "CAPTURE".toList, g2⟩, ⟨[], by unfold wants; rw [if_neg hh', ht]; exact if_pos hs, fun _ h => by cases h⟩, ?_, by rw [ht]; simp, by rw [ht]; simp⟩
                  intro _ k hk
                  apply h6
                  unfold elsewhere at hk
                  rw [if_neg hnp, if_pos ⟨ht, hs⟩] at hk
                  exact hk
                · rename_i hs
                  unfold makeExtCapture at h
                  cases h1 : makeGroup ext b outputs with
                  | none => rw [h1] at h; cases h
                  | some b1 =>
                    rw [h1] at h
                    dsimp only at h
                    obtain ⟨i1, g1⟩ := makeGroup_spec hi h1
                    obtain ⟨i2, g2, a2, p2, f2, x2⟩ := fieldPart_spec i1 (upper_dot n _) rfl h
                    refine ⟨i2, ⟨_, own_dot n "CAPTURE".toList, g1.trans g2⟩, ⟨_, by unfold wants; rw [if_neg hh', ht]; exact if_neg hs, ?_⟩, ?_, by rw [ht]; simp, by rw [ht]; simp⟩
                    · intro w hw
                      rw [List.mem_singleton] at hw
                      subst hw
                      exact ⟨a2, _, p2, f2, x2, meets_value (it := 1) (writeable := true), by simp⟩
                    · unfold elsewhere
                      rw [if_neg hnp, if_neg (fun h => hs h.2)]
                      intro _ k hk
                      cases hk
              · split at h
                · rename_i ht
                  cases hm : makeMux ext b n fd .bool with
                  | none => rw [hm] at h; cases h
                  | some b1 =>
                    rw [hm] at h
                    dsimp only at h
                    obtain ⟨i, g, hmx, attr, a, h1, h2, h3, h4, h5⟩ := makeMux_spec hi hh hm
                    unfold makeMuxDelay at h
                    cases hg : makeGroup ext b1 inputs with
                    | none => rw [hg] at h; cases h
                    | some b2 =>
                      rw [hg] at h
                      dsimp only at h
                      obtain ⟨i1, g1⟩ := makeGroup_spec i hg
                      obtain ⟨i2, g2, a2, p2, f2, x2⟩ := fieldPart_spec i1 (upper_dot n _) rfl h
                      refine ⟨i2, ⟨_, (own_self n).append (own_dot n "DELAY".toList), g.trans (g1.trans g2)⟩,
                        ⟨_, by unfold wants; rw [if_neg hh', ht]; rfl, ?_⟩, by unfold elsewhere; rw [ht]; simp, fun _ _ => g2.muxes _ (g1.muxes _ hmx), by rw [ht]; simp⟩
                      intro w hw
                      simp only [List.mem_cons, List.not_mem_nil, or_false] at hw
                      rcases hw with rfl | rfl
                      · refine ⟨attr, a, h1, ?_, g2.attrs _ _ (g1.attrs _ _ h3), h4, h5⟩
                        rw [g2.fields n (by simp), g1.fields n (by simp)]
                        exact h2
                      · exact ⟨a2, _, p2, f2, x2, meets_value (it := 1) (writeable := true), by simp⟩
                · split at h
                  · rename_i ht
                    obtain ⟨i, g, hmx, attr, a, h1, h2, h3, h4, h5⟩ := makeMux_spec hi hh h
                    refine ⟨i, ⟨_, own_self n, g⟩, ⟨_, by unfold wants; rw [if_neg hh', ht]; rfl, ?_⟩, by unfold elsewhere; rw [ht]; simp, fun _ _ => hmx, by rw [ht]; simp⟩
                    intro w hw
                    rw [List.mem_singleton] at hw
                    subst hw
                    exact ⟨attr, a, h1, h2, h3, h4, h5⟩
                  · split at h
                    · rename_i ht
                      obtain ⟨i, g, attr, a, h1, h2, h3, h4, h5⟩ := makeTable_spec hi hh h
                      refine ⟨i, ⟨_, own_self n, g⟩, ⟨_, by unfold wants; rw [if_neg hh', ht]; rfl, ?_⟩, by unfold elsewhere; rw [ht]; simp, by rw [ht]; simp, by rw [ht]; simp⟩
                      intro w hw
                      rw [List.mem_singleton] at hw
                      subst hw
                      exact ⟨attr, a, h1, h2, h3, h4, h5⟩
                    · cases h

end Verif.Proofs.PandABlock
