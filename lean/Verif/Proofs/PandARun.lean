import Verif.Proofs.PandAMake
/-! Whole blocks and histories of a block of a PandA. -/
namespace Verif.Proofs.PandABlock
open Verif Verif.Tags Verif.PandABlock Verif.Spec.PandABlock

variable {V : Type} {ext : Ext V}

/-! ### all fields -/

theorem inv_common (pre name label : Text) : Inv (ext := ext) (common ext pre name label) := by
  have hf : ∀ f x, (common ext pre name label).fields.get? f = some (some x) → f = "LABEL".toList ∧ x = "label".toList := by
    intro f x h
    unfold common at h
    dsimp only at h
    rw [Dict.get?_cons] at h
    split at h
    · rename_i e; cases h; exact ⟨e.symm, rfl⟩
    · cases h
  have hg : ∀ x y, (common ext pre name label).attrs.get? x = some y →
      (x = "icon".toList ∧ y.handler = .field ∧ y.value = ext.default y.kind) ∨ (x = "label".toList ∧ y.handler = .label label) ∨
      (x = "help".toList ∧ y.handler = .field ∧ y.value = ext.default y.kind) := by
    intro x y h
    unfold common at h
    dsimp only at h
    rw [Dict.get?_cons] at h
    split at h
    · rename_i e; cases h; exact .inl ⟨e.symm, rfl, rfl⟩
    · rw [Dict.get?_cons] at h
      split at h
      · rename_i e; cases h; exact .inr (.inl ⟨e.symm, rfl⟩)
      · rw [Dict.get?_cons] at h
        split at h
        · rename_i e; cases h; exact .inr (.inr ⟨e.symm, rfl, rfl⟩)
        · cases h
  refine ⟨⟨?_, ?_, ?_⟩, ?_, ?_, ?_⟩
  · intro f g x h1 h2
    rw [(hf f x h1).1, (hf g x h2).1]
  · intro f x h
    rw [(hf f x h).2]
    exact ⟨_, rfl⟩
  · intro f x h
    rw [(hf f x h).1]
    decide
  · intro x y h
    rcases hg x y h with h | h | h <;> rw [h.1] <;> simp [common]
  · intro f hm
    cases hm
  · intro x y h hn
    rcases hg x y h with h | h | h
    · exact h.2.2
    · exact absurd h.2 (hn _)
    · exact h.2.2

theorem wants_suffix {block n : Text} {fd : FieldData} {ws : List Want} (h : wants block n fd = some ws) :
    ∀ w ∈ ws, w.field = n ∨ ∃ s ∈ ["UNITS", "CAPTURE", "DELAY"], w.field = n ++ '.' :: String.toList s := by
  have hv : ∀ k wr, (value n k wr).field = n := by intro k wr; cases wr <;> rfl
  have ht : ∀ wr, ∀ w ∈ time n wr, w.field = n ∨ ∃ s ∈ ["UNITS", "CAPTURE", "DELAY"], w.field = n ++ '.' :: String.toList s := by
    intro wr w hw
    cases wr <;> simp only [time, Bool.false_eq_true, if_false, if_true, List.mem_cons, List.not_mem_nil, or_false] at hw
    all_goals
      rcases hw with rfl | rfl
      · exact .inl rfl
      · exact .inr ⟨"UNITS", by decide, rfl⟩
  have hk : ∀ wr ws, (valueKind fd.subtyp fd.labels).map (fun k => [value n k wr]) = some ws →
      ∀ w ∈ ws, w.field = n ∨ ∃ s ∈ ["UNITS", "CAPTURE", "DELAY"], w.field = n ++ '.' :: String.toList s := by
    intro wr ws h w hw
    cases hk : valueKind fd.subtyp fd.labels with
    | none => rw [hk] at h; cases h
    | some k =>
      rw [hk] at h
      cases h
      rw [List.mem_singleton] at hw
      subst hw
      exact .inl (hv k wr)
  unfold wants at h
  split at h
  · cases h; intro w hw; cases hw
  · split at h
    · cases h; exact ht true
    · split at h
      · cases h; exact ht true
      · exact hk true ws h
    · split at h
      · cases h; exact ht false
      · exact hk false ws h
    · split at h
      · cases h; intro w hw; cases hw
      · exact hk true ws h
    · cases h; intro w hw; rw [List.mem_singleton] at hw; subst hw; exact .inl rfl
    · cases h; intro w hw; rw [List.mem_singleton] at hw; subst hw; exact .inl rfl
    · split at h
      · cases h; intro w hw; cases hw
      · cases h; intro w hw; rw [List.mem_singleton] at hw; subst hw; exact .inr ⟨"CAPTURE", by decide, rfl⟩
    · cases h
      intro w hw
      simp only [List.mem_cons, List.not_mem_nil, or_false] at hw
      rcases hw with rfl | rfl
      · exact .inl rfl
      · exact .inr ⟨"DELAY", by decide, rfl⟩
    · cases h; intro w hw; rw [List.mem_singleton] at hw; subst hw; exact .inl rfl
    · cases h; intro w hw; rw [List.mem_singleton] at hw; subst hw; exact .inl rfl
    · cases h

theorem wants_own {block n : Text} {fd : FieldData} {ws : List Want} (h : wants block n fd = some ws) :
    ∀ w ∈ ws, w.field = n ∨ ∃ s, w.field = n ++ '.' :: s := by
  intro w hw
  rcases wants_suffix h w hw with h | ⟨s, -, h⟩
  · exact .inl h
  · exact .inr ⟨_, h⟩

theorem elsewhere_own (n : Text) (fd : FieldData) : Own n (elsewhere n fd) := by
  unfold elsewhere
  split
  · intro k hk
    simp only [List.map_cons, List.map_nil, List.mem_cons, List.not_mem_nil, or_false] at hk
    rcases hk with rfl | rfl | rfl | rfl | rfl <;> exact .inr ⟨_, rfl⟩
  · split
    · intro k hk
      rw [List.mem_singleton] at hk
      subst hk
      exact .inr ⟨_, rfl⟩
    · intro k hk; cases hk

/-- A name belongs to one field -/
theorem own_unique {n m k : Text} (hn : PandAName n) (hm : PandAName m) (h1 : k = n ∨ ∃ s, k = n ++ '.' :: s)
    (h2 : k = m ∨ ∃ s, k = m ++ '.' :: s) : n = m := by
  have c1 := (clean_name hn).2.2
  have c2 := (clean_name hm).2.2
  have e : ∀ (k x : Text), '.' ∉ x → (k = x ∨ ∃ s, k = x ++ '.' :: s) → (splitAt '.' k).head? = some x := by
    intro k x hx h
    rcases h with rfl | ⟨s, rfl⟩
    · rw [splitAt_free hx]; rfl
    · rw [splitAt_append hx]; rfl
  have := (e k n c1 h1).symm.trans (e k m c2 h2)
  exact Option.some.inj this

theorem makeAll_spec : ∀ (data : List (Text × FieldData)) {b b' : Block V}, Inv (ext := ext) b → PandAName b.name →
    (∀ e ∈ data, PandAName e.1) → (data.map (·.1)).Nodup → makeAll ext b data = some b' →
    Inv (ext := ext) b' ∧ (∃ ks, (∀ k ∈ ks, ∃ e ∈ data, k = e.1 ∨ ∃ s, k = e.1 ++ '.' :: s) ∧ Grow ks b b') ∧
    ∀ e ∈ data, (∃ ws, wants b.name e.1 e.2 = some ws ∧ ∀ w ∈ ws, ∃ attr a, published w.field = some attr ∧
        b'.fields.get? w.field = some (some attr) ∧ b'.attrs.get? attr = some a ∧ Meets w a ∧ ∀ i, a.handler ≠ .label i) ∧
      (upper e.1 ≠ "HEALTH".toList → ∀ k ∈ elsewhere e.1 e.2, b'.fields.get? k = some none) ∧
      (upper e.1 ≠ "HEALTH".toList → (e.2.typ = "bit_mux" ∨ e.2.typ = "pos_mux") → e.1 ∈ b'.muxes) ∧
      (upper e.1 ≠ "HEALTH".toList → e.2.typ = "write" → e.2.subtyp = "action" → ∃ m, published e.1 = some m ∧ m ∈ b'.methods) := by
  intro data
  induction data with
  | nil =>
    intro b b' hi hb hp hn h
    cases h
    exact ⟨hi, ⟨[], fun k hk => (by cases hk), Grow.refl _ _⟩, fun e he => by cases he⟩
  | cons e0 data ih =>
    intro b b' hi hb hp hn h
    obtain ⟨n, fd⟩ := e0
    rw [makeAll] at h
    cases h1 : makePartsFor ext b n fd with
    | none => rw [h1] at h; cases h
    | some b1 =>
      rw [h1] at h
      dsimp only at h
      have hpn : PandAName n := hp (n, fd) List.mem_cons_self
      have m1 := makePartsFor_spec hi hb hpn h1
      obtain ⟨ks1, o1, g1⟩ := m1.grow
      rw [List.map_cons, List.nodup_cons] at hn
      obtain ⟨i2, ⟨ks2, o2, g2⟩, hrest⟩ := ih m1.inv (by rw [g1.name]; exact hb) (fun e he => hp e (List.mem_cons_of_mem _ he)) hn.2 h
      have hfree : ∀ k, (k = n ∨ ∃ s, k = n ++ '.' :: s) → k ∉ ks2 := by
        intro k hk hm
        obtain ⟨e, he, ho⟩ := o2 k hm
        have := own_unique hpn (hp e (List.mem_cons_of_mem _ he)) hk ho
        exact hn.1 (List.mem_map.2 ⟨e, he, this.symm⟩)
      refine ⟨i2, ⟨ks1 ++ ks2, ?_, g1.trans g2⟩, ?_⟩
      · intro k hk
        rcases List.mem_append.1 hk with hk | hk
        · exact ⟨(n, fd), List.mem_cons_self, o1 k hk⟩
        · obtain ⟨e, he, ho⟩ := o2 k hk
          exact ⟨e, List.mem_cons_of_mem _ he, ho⟩
      · intro e he
        rcases List.mem_cons.1 he with rfl | he
        · obtain ⟨ws, hws, hall⟩ := m1.wants
          refine ⟨⟨ws, hws, fun w hw => ?_⟩, fun hh k hk => ?_, fun hh ht => g2.muxes _ (m1.muxes hh ht),
            fun hh ht hs => (m1.actions hh ht hs).imp fun m hm => ⟨hm.1, g2.methods m hm.2⟩⟩
          · obtain ⟨attr, a, h1, h2, h3, h4⟩ := hall w hw
            exact ⟨attr, a, h1, by rw [g2.fields _ (hfree _ (wants_own hws w hw))]; exact h2, g2.attrs _ _ h3, h4⟩
          · rw [g2.fields k (hfree k (elsewhere_own n fd k hk))]
            exact m1.elsewhere hh k hk
        · have := hrest e he
          rw [g1.name] at this
          exact this

/-! ### histories -/

theorem Same.attrOf {b b' : Block V} (s : Same b b') {f : Text} {a : Attr V} (h : attrOf b f = some a) :
    ∃ a', Spec.PandABlock.attrOf b' f = some a' ∧ a'.kind = a.kind ∧ a'.writeable = a.writeable ∧ a'.handler = a.handler := by
  unfold Spec.PandABlock.attrOf at h ⊢
  rw [s.fields]
  split at h
  · rename_i attr hf
    have := s.attrs attr
    rw [h] at this
    cases hb : b'.attrs.get? attr with
    | none => rw [hb] at this; cases this
    | some a' =>
      rw [hb] at this
      simp only [Option.map_some, Option.some.injEq, Prod.mk.injEq] at this
      exact ⟨a', by simp [hb], this.1, this.2.1, this.2.2⟩
  · cases h

theorem taken_congr {a a' : Attr V} (hk : a'.kind = a.kind) (hh : a'.handler = a.handler) (v : Raw) : taken ext a' v = taken ext a v := by
  unfold taken
  rw [hk, hh]

theorem told_congr {a a' : Attr V} (hk : a'.kind = a.kind) (hw : a'.writeable = a.writeable) (hh : a'.handler = a.handler) (f : Text) (e : Ev V) :
    told ext a' f e = told ext a f e := by
  cases e with
  | report hs => unfold told; dsimp only; congr 1; funext c; rw [taken_congr hk hh]
  | send g v => unfold told; dsimp only; rw [hw, hh]
  | done g v => unfold told; dsimp only; rw [hw, hh]

theorem told_send_ne {a : Attr V} {f g : Text} (h : f ≠ g) (v : V) : told ext a g (.send f v) = [] := by
  unfold told
  dsimp only
  split
  · rw [if_neg (fun e => h e.1)]
  · rfl

theorem told_send_ro {a : Attr V} {f g : Text} (h : ¬ a.writeable = true) (v : V) : told ext a g (.send f v) = [] := by
  unfold told
  dsimp only
  split
  · rw [if_neg (fun e => h e.2)]
  · rfl

theorem muxTags_link {pre t : Text} {tags ts : List Text} (h : muxTags pre tags (.text t) = some ts) : LinkOk pre t ts := by
  have hnil : ∀ tags : List Text, links (withoutLinkedValueTags tags) = [] := by
    intro tags
    unfold links withoutLinkedValueTags
    rw [List.filter_filter, List.filter_eq_nil_iff]
    intro x _
    rw [← show linkedPre = "linkedvalue:".toList from rfl]
    cases linkedPre.isPrefixOf x <;> decide
  unfold muxTags at h
  dsimp only at h
  refine ⟨?_, ?_⟩
  · intro block field ht h1 h2
    have hs : splitAt '.' t = [block, field] := by
      rw [ht, splitAt_append h1, splitAt_free h2]
    rw [hs] at h
    dsimp only at h
    cases hc : camel field with
    | none => rw [hc] at h; cases h
    | some c =>
      rw [hc] at h
      cases h
      refine ⟨c, ?_, ?_⟩
      · unfold published undot
        rw [← hc]
        congr 1
        have : ∀ x ∈ field, (fun c => if c = '.' then '_' else c) x = x := by
          intro x hx
          show (if x = '.' then '_' else x) = x
          by_cases e : x = '.'
          · exact absurd (e ▸ hx) h2
          · rw [if_neg e]
        exact List.map_congr_left this |>.trans (List.map_id' field)
      · unfold links
        rw [List.filter_append]
        have := hnil tags
        unfold links at this
        rw [this]
        have hp : "linkedvalue:".toList.isPrefixOf (linkedValueTag (pre ++ ':' :: block) c) = true := by
          unfold linkedValueTag linkedPre
          rw [List.append_assoc]
          exact List.isPrefixOf_iff_prefix.2 (List.prefix_append _ _)
        rw [List.nil_append, List.filter_cons, if_pos hp]
        rfl
  · intro hc
    have hs : ∀ a b, splitAt '.' t ≠ [a, b] := by
      intro a b h
      have := splitAt_length '.' t
      rw [h] at this
      simp at this
      exact hc (by omega)
    split at h
    · rename_i a b e
      exact absurd e (hs a b)
    · cases h
      exact hnil tags

section
variable [DecidableEq V]

/-- What one event does -/
structure Stepped (ext : Ext V) (b b' : Block V) (e e' : Ev V) : Prop where
  same : Same b b'
  sent : b'.sent = b.sent ++ sets b e
  health : b'.health = ((healthTold e').getLast?).getD b.health
  attr : ∀ f a, attrOf b f = some a → ∃ a', attrOf b' f = some a' ∧
    a'.value = ((told ext a f e').getLast?).getD a.value ∧
    withoutLinkedValueTags a'.tags = withoutLinkedValueTags a.tags ∧
    (reported f e' = [] ∨ f ∉ b.muxes → a'.tags = a.tags) ∧
    (∀ v, (reported f e').getLast? = some v → ¬ Refused ext b (f, v) → f ∈ b.muxes → ∃ t, v = .text t ∧ LinkOk b.mriPrefix t a'.tags)

theorem handleChanges_frame (b : Block V) (cs : List (Text × Raw)) :
    let r := changes ext b false cs
    let b' := (handleChanges ext b cs).1
    b'.attrs = r.block.attrs ∧ b'.fields = r.block.fields ∧ b'.muxes = r.block.muxes ∧ b'.iconFields = r.block.iconFields ∧
    b'.mriPrefix = r.block.mriPrefix ∧ b'.name = r.block.name ∧ b'.sent = r.block.sent ∧ b'.health = r.block.health := by
  unfold handleChanges
  dsimp only
  split
  · exact ⟨rfl, rfl, rfl, rfl, rfl, rfl, rfl, rfl⟩
  · split
    · split <;> exact ⟨rfl, rfl, rfl, rfl, rfl, rfl, rfl, rfl⟩
    · exact ⟨rfl, rfl, rfl, rfl, rfl, rfl, rfl, rfl⟩

theorem last_split {α β : Type} (g : α → Option β) : ∀ (l : List α) (y : β), (l.filterMap g).getLast? = some y →
    ∃ pre x post, l = pre ++ x :: post ∧ g x = some y ∧ ∀ z ∈ post, g z = none := by
  intro l
  induction l with
  | nil => intro y h; cases h
  | cons x l ih =>
    intro y h
    cases hl : (l.filterMap g).getLast? with
    | some y' =>
      have : (List.filterMap g (x :: l)).getLast? = some y' := by
        rw [List.filterMap_cons]
        cases g x with
        | none => exact hl
        | some z => dsimp only; rw [List.getLast?_cons, hl]; rfl
      rw [this] at h
      cases h
      obtain ⟨pre, x', post, e, h1, h2⟩ := ih _ hl
      exact ⟨x :: pre, x', post, by rw [e]; rfl, h1, h2⟩
    | none =>
      have hnil : List.filterMap g l = [] := List.getLast?_eq_none_iff.1 hl
      rw [List.filterMap_cons, hnil] at h
      cases hx : g x with
      | none => rw [hx] at h; cases h
      | some z =>
        rw [hx] at h
        cases h
        exact ⟨[], x, l, rfl, hx, fun w hw => List.filterMap_eq_nil_iff.1 hnil w hw⟩

theorem putSend_spec {b : Block V} (hw : Wf b) (f : Text) (v : V) : Stepped ext b (putSend b f v) (.send f v) (.send f v) := by
  unfold putSend
  cases hf : b.fields.get? f with
  | none =>
    dsimp only
    refine ⟨Same.refl b, by simp [sets, attrOf, hf], rfl, fun g a ha => ⟨a, ha, ?_, rfl, fun _ => rfl, fun v h => by cases h⟩⟩
    have : f ≠ g := by
      rintro rfl
      simp [attrOf, hf] at ha
    rw [told_send_ne this]; rfl
  | some o =>
    cases o with
    | none =>
      dsimp only
      refine ⟨Same.refl b, by simp [sets, attrOf, hf], rfl, fun g a ha => ⟨a, ha, ?_, rfl, fun _ => rfl, fun v h => by cases h⟩⟩
      have : f ≠ g := by
        rintro rfl
        simp [attrOf, hf] at ha
      rw [told_send_ne this]; rfl
    | some attr =>
      dsimp only
      obtain ⟨a, ha⟩ := hw.has f attr hf
      have hao : attrOf b f = some a := by simp [attrOf, hf, ha]
      rw [ha]
      dsimp only
      -- an attribute that is replaced
      have key : ∀ a' : Attr V, a'.kind = a.kind → a'.writeable = a.writeable → a'.handler = a.handler → a'.tags = a.tags →
          a'.value = ((told ext a f (.send f v)).getLast?).getD a.value → a.writeable = true →
          Stepped ext b { b with attrs := b.attrs.set attr a', sent := b.sent ++ [(f, v)] } (.send f v) (.send f v) := by
        intro a' hk hwr hh ht hv hwt
        have s := Same.put (b := b) ha hk hwr hh
        refine ⟨⟨s.mriPrefix, s.name, s.fields, s.muxes, s.iconFields, s.attrs⟩, by simp [sets, hao, hwt], rfl, ?_⟩
        intro g x hx
        by_cases e : f = g
        · subst e
          rw [hao] at hx
          cases hx
          refine ⟨a', by simp [attrOf, hf, Dict.get?_set_self], hv, by rw [ht], fun _ => ht, fun v h => by cases h⟩
        · refine ⟨x, ?_, by rw [told_send_ne e]; rfl, rfl, fun _ => rfl, fun v h => by cases h⟩
          unfold attrOf at hx ⊢
          dsimp only
          split at hx
          · rename_i attr' hg
            rw [Dict.get?_set_ne _ _ (fun h => e (hw.inj f g attr hf (by rw [hg, h])))]
            exact hx
          · cases hx
      split
      · rename_i hwt
        split
        · rename_i hh
          exact key { a with pending := true } rfl rfl rfl rfl (by simp [told, hh]) hwt
        · rename_i hh
          have := key a rfl rfl rfl rfl (by simp [told, hh]) hwt
          refine ⟨⟨rfl, rfl, rfl, rfl, rfl, fun _ => rfl⟩, this.sent, rfl, ?_⟩
          intro g x hx
          refine ⟨x, hx, ?_, rfl, fun _ => rfl, fun v h => by cases h⟩
          by_cases e : f = g
          · subst e
            rw [hao] at hx
            cases hx
            simp [told, hh]
          · rw [told_send_ne e]; rfl
        · rename_i i hh
          exact key { a with value := v } rfl rfl rfl rfl (by simp [told, hh, hwt]) hwt
      · rename_i hwt
        refine ⟨Same.refl b, by simp [sets, hao, hwt], rfl, fun g x hx => ⟨x, hx, ?_, rfl, fun _ => rfl, fun v h => by cases h⟩⟩
        by_cases e : f = g
        · subst e
          rw [hao] at hx
          cases hx
          rw [told_send_ro hwt]; rfl
        · rw [told_send_ne e]; rfl

theorem putDone_spec {b : Block V} (hw : Wf b) (f : Text) (v : V) : Stepped ext b (putDone b f v) (.done f v) (.done f v) := by
  unfold putDone
  cases hf : b.fields.get? f with
  | none =>
    dsimp only
    refine ⟨Same.refl b, by simp [sets], rfl, fun g a ha => ⟨a, ha, ?_, rfl, fun _ => rfl, fun v h => by cases h⟩⟩
    have : f ≠ g := by
      rintro rfl
      simp [attrOf, hf] at ha
    simp [told, this]
  | some o =>
    cases o with
    | none =>
      dsimp only
      refine ⟨Same.refl b, by simp [sets], rfl, fun g a ha => ⟨a, ha, ?_, rfl, fun _ => rfl, fun v h => by cases h⟩⟩
      have : f ≠ g := by
        rintro rfl
        simp [attrOf, hf] at ha
      simp [told, this]
    | some attr =>
      dsimp only
      obtain ⟨a, ha⟩ := hw.has f attr hf
      have hao : attrOf b f = some a := by simp [attrOf, hf, ha]
      rw [ha]
      dsimp only
      split
      · rename_i hc
        have s := Same.put (b := b) (a' := { a with value := v }) ha rfl rfl rfl
        refine ⟨s, by simp [sets], rfl, ?_⟩
        intro g x hx
        by_cases e : f = g
        · subst e
          rw [hao] at hx
          cases hx
          refine ⟨{ a with value := v }, by simp [attrOf, hf, Dict.get?_set_self], by simp [told, hc.1, hc.2], rfl, fun _ => rfl, fun v h => by cases h⟩
        · refine ⟨x, ?_, by simp [told, e], rfl, fun _ => rfl, fun v h => by cases h⟩
          unfold attrOf at hx ⊢
          dsimp only
          split at hx
          · rename_i attr' hg
            rw [Dict.get?_set_ne _ _ (fun h => e (hw.inj f g attr hf (by rw [hg, h])))]
            exact hx
          · cases hx
      · rename_i hc
        refine ⟨Same.refl b, by simp [sets], rfl, fun g x hx => ⟨x, hx, ?_, rfl, fun _ => rfl, fun v h => by cases h⟩⟩
        by_cases e : f = g
        · subst e
          rw [hao] at hx
          cases hx
          simp only [told, true_and]
          rw [if_neg hc]
          rfl
        · simp [told, e]

theorem report_spec {b : Block V} (hw : Wf b) (cs : List (Text × Raw)) :
    ∃ hs, Heard ext b cs hs ∧ Stepped ext b (handleChanges ext b cs).1 (.report cs) (.report hs) := by
  obtain ⟨s, hic, hse, hs, hheard, hr, -, hhe, hat⟩ := changes_spec (ext := ext) cs hw false
  obtain ⟨f1, f2, f3, f4, f5, f6, f7, f8⟩ := handleChanges_frame (ext := ext) b cs
  refine ⟨hs, hheard, ⟨⟨by rw [f5, s.mriPrefix], by rw [f6, s.name], by rw [f2, s.fields], by rw [f3, s.muxes], by rw [f4, s.iconFields],
    fun x => by rw [f1]; exact s.attrs x⟩, by rw [f7, hse]; simp [sets], by rw [f8, hhe]; rfl, ?_⟩⟩
  intro f a ha
  unfold attrOf at ha
  split at ha
  · rename_i attr hf
    obtain ⟨a', ha', aft⟩ := hat f attr a hf ha
    refine ⟨a', ?_, aft.value, aft.rest, ?_, ?_⟩
    · unfold attrOf
      rw [f2, s.fields, hf, f1]
      exact ha'
    · intro h
      refine aft.same (h.imp (fun h v hv => ?_) id)
      have := List.filterMap_eq_nil_iff.1 h (f, v) hv
      simp at this
    · intro v hv hnr hm
      obtain ⟨pre, x, post, e, h1, h2⟩ := last_split _ hs v hv
      have hx : x = (f, v) := by
        by_cases e : x.1 = f
        · rw [if_pos e] at h1
          cases h1
          rw [← e]
        · rw [if_neg e] at h1
          cases h1
      subst hx
      obtain ⟨tags0, ht⟩ := aft.last pre v post e (fun w hw' => by have := h2 _ hw'; simp at this) hnr hm
      cases v with
      | text t => exact ⟨t, rfl, muxTags_link ht⟩
      | _ => cases ht
  · cases ha

theorem last_append {α : Type} (l m : List α) (d : α) : ((l ++ m).getLast?).getD d = (m.getLast?).getD ((l.getLast?).getD d) := by
  rw [List.getLast?_append]
  cases m.getLast? with
  | none => rfl
  | some x => rfl

/-- What a history does -/
structure Ran (ext : Ext V) (b b' : Block V) (evs evs' : List (Ev V)) : Prop where
  same : Same b b'
  sent : b'.sent = b.sent ++ evs.flatMap (sets b)
  health : b'.health = ((evs'.flatMap healthTold).getLast?).getD b.health
  attr : ∀ f a, attrOf b f = some a → ∃ a', attrOf b' f = some a' ∧
    a'.value = ((evs'.flatMap (told ext a f)).getLast?).getD a.value ∧
    withoutLinkedValueTags a'.tags = withoutLinkedValueTags a.tags ∧
    (evs'.flatMap (reported f) = [] ∨ f ∉ b.muxes → a'.tags = a.tags) ∧
    (∀ v, (evs'.flatMap (reported f)).getLast? = some v → ¬ Refused ext b (f, v) → f ∈ b.muxes → ∃ t, v = .text t ∧ LinkOk b.mriPrefix t a'.tags)

theorem sets_same {b b' : Block V} (hw : Wf b) (s : Same b b') (e : Ev V) : sets b' e = sets b e := by
  cases e with
  | send f v =>
    unfold sets
    dsimp only
    congr 2
    cases h : attrOf b f with
    | some a =>
      obtain ⟨a', h', -, hwr, -⟩ := s.attrOf h
      rw [h']
      simp [hwr]
    | none =>
      unfold attrOf at h ⊢
      rw [s.fields]
      split at h
      · rename_i attr hf
        have := s.attrs attr
        rw [h] at this
        cases h2 : b'.attrs.get? attr with
        | none => rfl
        | some a' => rw [h2] at this; cases this
      · rfl
  | _ => rfl

theorem run_spec : ∀ (evs : List (Ev V)) {b : Block V}, Wf b → ∃ evs', HeardAll ext b evs evs' ∧ Ran ext b (run ext b evs) evs evs' := by
  intro evs
  induction evs with
  | nil =>
    intro b hw
    exact ⟨[], .nil, Same.refl b, by simp [run], rfl, fun f a ha => ⟨a, ha, rfl, rfl, fun _ => rfl, fun v h => by cases h⟩⟩
  | cons e evs ih =>
    intro b hw
    obtain ⟨e', he, st⟩ : ∃ e', (∀ evs', HeardAll ext b evs evs' → HeardAll ext b (e :: evs) (e' :: evs')) ∧ Stepped ext b (step ext b e) e e' := by
      cases e with
      | report cs =>
        obtain ⟨hs, hh, st⟩ := report_spec (ext := ext) hw cs
        exact ⟨.report hs, fun _ h => .report hh h, st⟩
      | send f v => exact ⟨.send f v, fun _ h => .send h, putSend_spec hw f v⟩
      | done f v => exact ⟨.done f v, fun _ h => .done h, putDone_spec hw f v⟩
    obtain ⟨evs', hheard, rn⟩ := ih (hw.same st.same)
    have hback : ∀ {x y}, HeardAll ext (step ext b e) x y → HeardAll ext b x y := by
      intro x y h
      induction h with
      | nil => exact .nil
      | report h _ ih => exact .report (heard_same hw st.same h) ih
      | send _ ih => exact .send ih
      | done _ ih => exact .done ih
    refine ⟨e' :: evs', he _ (hback hheard), ?_⟩
    rw [show run ext b (e :: evs) = run ext (step ext b e) evs from rfl]
    refine ⟨st.same.trans rn.same, ?_, ?_, ?_⟩
    · rw [rn.sent, st.sent, List.append_assoc, List.flatMap_cons]
      congr 2
      have : ∀ l : List (Ev V), l.flatMap (sets (step ext b e)) = l.flatMap (sets b) := by
        intro l
        induction l with
        | nil => rfl
        | cons x l ih => rw [List.flatMap_cons, List.flatMap_cons, ih, sets_same hw st.same]
      exact this evs
    · rw [rn.health, st.health, List.flatMap_cons, last_append]
    · intro f a ha
      obtain ⟨a1, h1, v1, r1, s1, l1⟩ := st.attr f a ha
      obtain ⟨a2, h2, v2, r2, s2, l2⟩ := rn.attr f a1 h1
      obtain ⟨a1', h1', hk, hwr, hh⟩ := st.same.attrOf ha
      rw [h1] at h1'
      cases h1'
      have htold : ∀ l : List (Ev V), l.flatMap (told ext a1 f) = l.flatMap (told ext a f) := by
        intro l
        induction l with
        | nil => rfl
        | cons x l ih => rw [List.flatMap_cons, List.flatMap_cons, ih, told_congr hk hwr hh]
      refine ⟨a2, h2, ?_, r2.trans r1, ?_, ?_⟩
      · rw [v2, v1, htold, List.flatMap_cons, last_append]
      · rw [List.flatMap_cons]
        intro h
        rw [s2 (h.imp (fun h => (List.append_eq_nil_iff.1 h).2) (fun h => by rw [st.same.muxes]; exact h)),
          s1 (h.imp (fun h => (List.append_eq_nil_iff.1 h).1) id)]
      · intro v hv hnr hm
        rw [List.flatMap_cons, List.getLast?_append] at hv
        cases hl : (evs'.flatMap (reported f)).getLast? with
        | some v' =>
          rw [hl] at hv
          cases hv
          have := l2 v hl (fun h => hnr ((refused_same hw st.same _).1 h)) (by rw [st.same.muxes]; exact hm)
          rw [st.same.mriPrefix] at this
          exact this
        | none =>
          rw [hl] at hv
          obtain ⟨t, ht, hlink⟩ := l1 v hv hnr hm
          refine ⟨t, ht, ?_⟩
          rw [s2 (.inl (List.getLast?_eq_none_iff.1 hl))]
          exact hlink

end

end Verif.Proofs.PandABlock
