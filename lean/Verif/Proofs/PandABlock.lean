import Verif.Spec.PandABlock
import Verif.Proofs.PyDict
import Verif.Props.Tags
/-!
Lemmas for Props/PandABlock.
-/
namespace Verif.Proofs.PandABlock
open Verif Verif.Tags Verif.PandABlock Verif.Spec.PandABlock

variable {V : Type} {ext : Ext V}

/-! ### splitting -/

theorem splitAt_ne (c : Char) (t : Text) : splitAt c t ≠ [] := by
  cases t with
  | nil => simp [splitAt]
  | cons x xs =>
    rw [splitAt]
    cases splitAt c xs with
    | nil => simp
    | cons w ws => dsimp only; split <;> simp

theorem splitAt_free {c : Char} {t : Text} (h : c ∉ t) : splitAt c t = [t] := by
  induction t with
  | nil => rfl
  | cons x xs ih =>
    simp only [List.mem_cons, not_or] at h
    rw [splitAt, ih h.2]
    dsimp only
    rw [if_neg (fun e => h.1 e.symm)]

theorem splitAt_append {c : Char} {a : Text} (h : c ∉ a) (b : Text) : splitAt c (a ++ c :: b) = a :: splitAt c b := by
  induction a with
  | nil =>
    show splitAt c (c :: b) = [] :: splitAt c b
    rw [splitAt]
    cases hs : splitAt c b with
    | nil => exact absurd hs (splitAt_ne c b)
    | cons w ws => dsimp only; rw [if_pos rfl]
  | cons x xs ih =>
    simp only [List.mem_cons, not_or] at h
    rw [List.cons_append, splitAt, ih h.2]
    dsimp only
    rw [if_neg (fun e => h.1 e.symm)]

theorem splitAt_length (c : Char) (t : Text) : (splitAt c t).length = t.count c + 1 := by
  induction t with
  | nil => rfl
  | cons x xs ih =>
    rw [splitAt]
    cases hs : splitAt c xs with
    | nil => exact absurd hs (splitAt_ne c xs)
    | cons w ws =>
      rw [hs] at ih
      dsimp only
      by_cases e : x = c
      · subst e
        rw [if_pos rfl, List.count_cons_self]
        simp only [List.length_cons] at ih ⊢
        omega
      · rw [if_neg e, List.count_cons_of_ne e]
        simpa using ih

theorem splitAt_two {c : Char} {t a b : Text} (h : splitAt c t = [a, b]) : t = a ++ c :: b ∧ c ∉ a ∧ c ∉ b := by
  have hc : t.count c = 1 := by
    have := splitAt_length c t
    rw [h] at this
    simpa using this.symm
  have hm : c ∈ t := List.count_pos_iff.1 (by omega)
  obtain ⟨p, q, rfl, hp⟩ : ∃ p q, t = p ++ c :: q ∧ c ∉ p := by
    clear h hc
    induction t with
    | nil => cases hm
    | cons x xs ih =>
      by_cases e : x = c
      · exact ⟨[], xs, by simp [e], by simp⟩
      · obtain ⟨p, q, rfl, hp⟩ := ih (by
          rcases List.mem_cons.1 hm with h | h
          · exact absurd h.symm e
          · exact h)
        exact ⟨x :: p, q, rfl, by simp [hp, Ne.symm e]⟩
  have hq : c ∉ q := by
    intro hq
    rw [List.count_append, List.count_cons_self] at hc
    have := List.count_pos_iff.2 hq
    omega
  rw [splitAt_append hp, splitAt_free hq] at h
  cases h
  exact ⟨rfl, hp, hq⟩

/-! ### changes -/

/-- What does not change -/
structure Same (b b' : Block V) : Prop where
  mriPrefix : b'.mriPrefix = b.mriPrefix
  name : b'.name = b.name
  fields : b'.fields = b.fields
  muxes : b'.muxes = b.muxes
  iconFields : b'.iconFields = b.iconFields
  attrs : ∀ attr, (b'.attrs.get? attr).map (fun a => (a.kind, a.writeable, a.handler)) =
    (b.attrs.get? attr).map (fun a => (a.kind, a.writeable, a.handler))

theorem Same.refl (b : Block V) : Same b b := ⟨rfl, rfl, rfl, rfl, rfl, fun _ => rfl⟩

theorem Same.trans {a b c : Block V} (h : Same a b) (g : Same b c) : Same a c :=
  ⟨g.mriPrefix.trans h.mriPrefix, g.name.trans h.name, g.fields.trans h.fields, g.muxes.trans h.muxes,
    g.iconFields.trans h.iconFields, fun x => (g.attrs x).trans (h.attrs x)⟩

/-- An attribute is replaced by one of the same kind -/
theorem Same.put {b : Block V} {attr : Text} {a a' : Attr V} (h : b.attrs.get? attr = some a) (hk : a'.kind = a.kind)
    (hw : a'.writeable = a.writeable) (hh : a'.handler = a.handler) : Same b { b with attrs := b.attrs.set attr a' } := by
  refine ⟨rfl, rfl, rfl, rfl, rfl, fun x => ?_⟩
  show (Dict.get? (Dict.set b.attrs attr a') x).map _ = _
  rw [Dict.get?_set]
  by_cases e : attr = x
  · subst e
    rw [if_pos rfl, h]
    simp [hk, hw, hh]
  · rw [if_neg e]

/-- What holds of every block that was made -/
structure Wf (b : Block V) : Prop where
  inj : ∀ f g attr, b.fields.get? f = some (some attr) → b.fields.get? g = some (some attr) → f = g
  has : ∀ f attr, b.fields.get? f = some (some attr) → ∃ a, b.attrs.get? attr = some a
  notHealth : ∀ f attr, b.fields.get? f = some (some attr) → upper f ≠ healthName

theorem Wf.same {b b' : Block V} (h : Wf b) (s : Same b b') : Wf b' := by
  refine ⟨?_, ?_, ?_⟩
  · rw [s.fields]; exact h.inj
  · rw [s.fields]
    intro f attr hf
    obtain ⟨a, ha⟩ := h.has f attr hf
    have := s.attrs attr
    rw [ha] at this
    cases hb : b'.attrs.get? attr with
    | none => rw [hb] at this; cases this
    | some a' => exact ⟨a', rfl⟩
  · rw [s.fields]; exact h.notHealth

theorem falsy_iff (v : Raw) : falsy v = true ↔ (v = .text [] ∨ v = .lines [] ∨ v = .nothing ∨ v = .bit false) := by
  cases v with
  | text t => cases t <;> simp [falsy]
  | lines t => cases t <;> simp [falsy]
  | nothing => simp [falsy]
  | bit b => cases b <;> simp [falsy]

theorem taken_label (a : Attr V) (i : Text) (h : a.handler = .label i) (v : Raw) :
    taken ext a v = ext.validate a.kind (if falsy v then .text i else v) := by
  unfold taken
  rw [h]
  dsimp only
  by_cases hf : falsy v = true
  · rw [if_pos hf, if_pos ((falsy_iff v).1 hf)]
  · rw [if_neg hf, if_neg (fun h => hf ((falsy_iff v).2 h))]

variable [DecidableEq V]

theorem attrChange_taken (a : Attr V) (v : Raw) :
    (attrChange ext a v = none ∧ taken ext a v = none) ∨
    ∃ a', attrChange ext a v = some a' ∧ taken ext a v = some a'.value ∧
      a'.kind = a.kind ∧ a'.writeable = a.writeable ∧ a'.handler = a.handler ∧ a'.tags = a.tags := by
  cases hh : a.handler with
  | field =>
    have ht : taken ext a v = ext.validate a.kind v := by unfold taken; rw [hh]
    rw [ht]
    unfold attrChange
    rw [hh]
    dsimp only
    cases hv : ext.validate a.kind v with
    | none => exact .inl ⟨rfl, rfl⟩
    | some x =>
      refine .inr ?_
      dsimp only
      by_cases hp : a.pending = true
      · rw [if_pos hp]
        by_cases he : x = a.value
        · rw [if_pos he]; exact ⟨_, rfl, by simp [he], rfl, rfl, rfl, rfl⟩
        · rw [if_neg he]; exact ⟨_, rfl, rfl, rfl, rfl, rfl, rfl⟩
      · rw [if_neg hp]; exact ⟨_, rfl, rfl, rfl, rfl, rfl, rfl⟩
  | table =>
    have ht : taken ext a v = ext.validate a.kind v := by unfold taken; rw [hh]
    rw [ht]
    unfold attrChange
    rw [hh]
    dsimp only
    cases hv : ext.validate a.kind v with
    | none => exact .inl ⟨rfl, rfl⟩
    | some x => exact .inr ⟨_, rfl, rfl, rfl, rfl, rfl, rfl⟩
  | label i =>
    rw [taken_label a i hh]
    unfold attrChange
    rw [hh]
    dsimp only
    cases hv : ext.validate a.kind (if falsy v = true then .text i else v) with
    | none => exact .inl ⟨rfl, rfl⟩
    | some x => exact .inr ⟨_, rfl, rfl, rfl, rfl, rfl, rfl⟩

theorem muxTags_none_iff (pre : Text) (tags : List Text) (v : Raw) : muxTags pre tags v = none ↔
    ∀ t, v = .text t → ∃ block field, t = block ++ '.' :: field ∧ '.' ∉ block ∧ '.' ∉ field ∧ camel field = none := by
  cases v with
  | text t =>
    unfold muxTags
    constructor
    · intro h t' e
      cases e
      dsimp only at h
      split at h
      · rename_i block field hs
        cases hc : camel field with
        | none =>
          obtain ⟨h1, h2, h3⟩ := splitAt_two hs
          exact ⟨block, field, h1, h2, h3, hc⟩
        | some c => rw [hc] at h; cases h
      · cases h
    · intro h
      obtain ⟨block, field, h1, h2, h3, hc⟩ := h t rfl
      have hs : splitAt '.' t = [block, field] := by rw [h1, splitAt_append h2, splitAt_free h3]
      dsimp only
      rw [hs]
      dsimp only
      rw [hc]
  | lines l => simp [muxTags]
  | nothing => simp [muxTags]
  | bit b => simp [muxTags]

/-- What one change does to the attribute for the name `f`: `a'` is the attribute afterwards -/
structure Hit (ext : Ext V) (b : Block V) (f : Text) (v : Raw) (a a' : Attr V) : Prop where
  value : a'.value = (taken ext a v).getD a.value
  tags : a'.tags = if f ∈ b.muxes ∧ taken ext a v ≠ none then (muxTags b.mriPrefix a.tags v).getD a.tags else a.tags

/-- One change: what stays, whether it raises, and what becomes of each attribute -/
theorem oneChange_spec {b : Block V} (hw : Wf b) (icon : Bool) (k : Text) (v : Raw) :
    let r := oneChange ext b icon k v
    Same b r.block ∧ (r.raised = true ↔ Refused ext b (k, v)) ∧
    (∀ f attr a, b.fields.get? f = some (some attr) → b.attrs.get? attr = some a →
      ∃ a', r.block.attrs.get? attr = some a' ∧ (f = k → Hit ext b f v a a') ∧ (f ≠ k → a' = a)) := by
  dsimp only
  obtain ⟨r, hr⟩ : ∃ r, r = oneChange ext b icon k v := ⟨_, rfl⟩
  rw [← hr]
  unfold Refused
  by_cases hh : upper k = healthName
  · have hh' : upper k = "HEALTH".toList := hh
    simp only [hh', if_true]
    unfold oneChange at hr
    rw [if_pos hh] at hr
    have hf : ∀ f attr a, b.fields.get? f = some (some attr) → b.attrs.get? attr = some a →
        f = k → False := fun f attr a hf _ e => hw.notHealth f attr hf (e ▸ hh)
    cases v with
    | text t =>
      dsimp only at hr
      rw [hr]
      refine ⟨⟨rfl, rfl, rfl, rfl, rfl, fun _ => rfl⟩, by simp, fun f attr a h1 h2 => ⟨a, h2, fun e => (hf f attr a h1 h2 e).elim, fun _ => rfl⟩⟩
    | _ =>
      dsimp only at hr
      rw [hr]
      exact ⟨Same.refl b, by simp, fun f attr a h1 h2 => ⟨a, h2, fun e => (hf f attr a h1 h2 e).elim, fun _ => rfl⟩⟩
  · have hh' : upper k ≠ "HEALTH".toList := hh
    simp only [hh', if_false]
    unfold oneChange at hr
    rw [if_neg hh] at hr
    cases hk : b.fields.get? k with
    | none =>
      rw [hk] at hr
      dsimp only at hr
      rw [hr]
      refine ⟨Same.refl b, by simp [attrOf, hk], fun f attr a h1 h2 => ⟨a, h2, fun e => ?_, fun _ => rfl⟩⟩
      rw [e, hk] at h1; cases h1
    | some o =>
      cases o with
      | none =>
        rw [hk] at hr
        dsimp only at hr
        rw [hr]
        refine ⟨Same.refl b, by simp [attrOf, hk], fun f attr a h1 h2 => ⟨a, h2, fun e => ?_, fun _ => rfl⟩⟩
        rw [e, hk] at h1; cases h1
      | some attr0 =>
        rw [hk] at hr
        dsimp only at hr
        obtain ⟨a0, ha0⟩ := hw.has k attr0 hk
        have hao : attrOf b k = some a0 := by simp [attrOf, hk, ha0]
        have hp : partChange ext b attr0 v = (attrChange ext a0 v).map fun a' => { b with attrs := b.attrs.set attr0 a' } := by
          unfold partChange; rw [ha0]
        rw [hp] at hr
        rcases attrChange_taken (ext := ext) a0 v with ⟨h1, h2⟩ | ⟨a1, h1, h2, hk1, hw1, hh1, ht1⟩
        · rw [h1] at hr
          dsimp only [Option.map_none] at hr
          rw [hr]
          refine ⟨Same.refl b, ?_, fun f attr a hf ha => ⟨a, ha, fun e => ?_, fun _ => rfl⟩⟩
          · simp [hao, h2]
          · subst e
            rw [hk] at hf
            cases hf
            rw [ha0] at ha
            cases ha
            exact ⟨by simp [h2], by simp [h2]⟩
        · rw [h1] at hr
          dsimp only [Option.map_some] at hr
          have hs1 := Same.put (b := b) ha0 hk1 hw1 hh1
          obtain ⟨b1, hb1⟩ : ∃ b1 : Block V, { b with attrs := b.attrs.set attr0 a1 } = b1 := ⟨_, rfl⟩
          rw [hb1] at hr hs1
          have hg1 : b1.attrs.get? attr0 = some a1 := by rw [← hb1]; exact Dict.get?_set_self _ _ _
          have hg2 : ∀ attr, attr0 ≠ attr → b1.attrs.get? attr = b.attrs.get? attr := by
            intro attr hne; rw [← hb1]; exact Dict.get?_set_ne _ _ hne
          have hm : muxChange b1 k attr0 v = if k ∈ b.muxes then
              (muxTags b.mriPrefix a0.tags v).map fun ts => { b1 with attrs := b1.attrs.set attr0 { a1 with tags := ts } } else some b1 := by
            unfold muxChange
            rw [hs1.muxes, hs1.mriPrefix, hg1]
            simp only [ht1]
          rw [hm] at hr
          by_cases hmx : k ∈ b.muxes
          · rw [if_pos hmx] at hr
            cases hmt : muxTags b.mriPrefix a0.tags v with
            | none =>
              rw [hmt] at hr
              dsimp only [Option.map_none] at hr
              rw [hr]
              refine ⟨hs1, ?_, fun f attr a hf ha => ?_⟩
              · have := (muxTags_none_iff _ _ _).1 hmt
                simp only [hao, true_iff]
                exact ⟨a0, rfl, .inr ⟨hmx, this⟩⟩
              · by_cases e : f = k
                · subst e
                  rw [hk] at hf
                  cases hf
                  rw [ha0] at ha
                  cases ha
                  exact ⟨a1, hg1, fun _ => ⟨by simp [h2], by simp [h2, hmx, hmt, ht1]⟩, fun h => absurd rfl h⟩
                · have hne : attr0 ≠ attr := fun h => e (hw.inj f k attr hf (h ▸ hk))
                  exact ⟨a, by rw [hg2 attr hne, ha], fun h => absurd h e, fun _ => rfl⟩
            | some ts =>
              rw [hmt] at hr
              dsimp only [Option.map_some] at hr
              rw [hr]
              refine ⟨hs1.trans (Same.put hg1 rfl rfl rfl), ?_, fun f attr a hf ha => ?_⟩
              · constructor
                · intro h; cases h
                · rintro ⟨a, h3, h4⟩
                  rw [hao] at h3
                  cases h3
                  rcases h4 with h4 | ⟨-, h4⟩
                  · rw [h2] at h4; cases h4
                  · rw [(muxTags_none_iff _ _ _).2 h4] at hmt; cases hmt
              · by_cases e : f = k
                · subst e
                  rw [hk] at hf
                  cases hf
                  rw [ha0] at ha
                  cases ha
                  exact ⟨{ a1 with tags := ts }, Dict.get?_set_self _ _ _, fun _ => ⟨by simp [h2], by simp [h2, hmx, hmt]⟩, fun h => absurd rfl h⟩
                · have hne : attr0 ≠ attr := fun h => e (hw.inj f k attr hf (h ▸ hk))
                  exact ⟨a, by show (Dict.set b1.attrs attr0 _).get? attr = _; rw [Dict.get?_set_ne _ _ hne, hg2 attr hne, ha], fun h => absurd h e, fun _ => rfl⟩
          · rw [if_neg hmx] at hr
            dsimp only at hr
            rw [hr]
            refine ⟨hs1, ?_, fun f attr a hf ha => ?_⟩
            · constructor
              · intro h; cases h
              · rintro ⟨a, h3, h4⟩
                rw [hao] at h3
                cases h3
                rcases h4 with h4 | ⟨h4, -⟩
                · rw [h2] at h4; cases h4
                · exact absurd h4 hmx
            · by_cases e : f = k
              · subst e
                rw [hk] at hf
                cases hf
                rw [ha0] at ha
                cases ha
                exact ⟨a1, hg1, fun _ => ⟨by simp [h2], by simp [hmx, ht1]⟩, fun h => absurd rfl h⟩
              · have hne : attr0 ≠ attr := fun h => e (hw.inj f k attr hf (h ▸ hk))
                exact ⟨a, by rw [hg2 attr hne, ha], fun h => absurd h e, fun _ => rfl⟩

theorem Wf.attrOf {b : Block V} (hw : Wf b) {f : Text} {a : Attr V} (h : attrOf b f = some a) : upper f ≠ "HEALTH".toList := by
  unfold Spec.PandABlock.attrOf at h
  split at h
  · rename_i attr hf; exact hw.notHealth f attr hf
  · cases h

/-- What one change does beside -/
theorem oneChange_rest {b : Block V} (hw : Wf b) (icon : Bool) (k : Text) (v : Raw) :
    let r := oneChange ext b icon k v
    r.block.shownIcon = b.shownIcon ∧ r.block.sent = b.sent ∧
    (r.raised = false → (r.icon = true ↔ icon = true ∨ k ∈ b.iconFields ∧ (attrOf b k).isSome)) ∧
    (upper k ≠ "HEALTH".toList → r.block.health = b.health) ∧
    (upper k = "HEALTH".toList → ∀ t, v = .text t → r.block.health = if upper t = "OK".toList then "OK".toList else t) ∧
    (upper k = "HEALTH".toList → (∀ t, v ≠ .text t) → r.block.health = b.health) := by
  dsimp only
  by_cases hh : upper k = healthName
  · have hh' : upper k = "HEALTH".toList := hh
    have hn : attrOf b k = none := by
      cases h : attrOf b k with
      | none => rfl
      | some a => exact absurd hh' (hw.attrOf h)
    unfold oneChange
    rw [if_pos hh]
    cases v with
    | text t => simp [hn, hh']
    | _ => simp [hh']
  · have hh' : upper k ≠ "HEALTH".toList := hh
    simp only [hh', false_implies, and_true, ne_eq, not_false_eq_true, true_implies]
    unfold oneChange
    rw [if_neg hh]
    cases hk : b.fields.get? k with
    | none => simp [attrOf, hk]
    | some o =>
      cases o with
      | none => simp [attrOf, hk]
      | some attr =>
        obtain ⟨a, ha⟩ := hw.has k attr hk
        have hao : attrOf b k = some a := by simp [attrOf, hk, ha]
        dsimp only
        cases hp : partChange ext b attr v with
        | none => simp
        | some b1 =>
          have h1 : b1.shownIcon = b.shownIcon ∧ b1.sent = b.sent ∧ b1.health = b.health := by
            unfold partChange at hp
            rw [ha] at hp
            dsimp only at hp
            cases hc : attrChange ext a v with
            | none => rw [hc] at hp; cases hp
            | some a' => rw [hc] at hp; cases hp; exact ⟨rfl, rfl, rfl⟩
          dsimp only
          cases hm : muxChange b1 k attr v with
          | none => simp [h1]
          | some b2 =>
            have h2 : b2.shownIcon = b1.shownIcon ∧ b2.sent = b1.sent ∧ b2.health = b1.health := by
              unfold muxChange at hm
              split at hm
              · split at hm
                · cases hm
                · rename_i a' _
                  cases hc : muxTags b1.mriPrefix a'.tags v with
                  | none => rw [hc] at hm; cases hm
                  | some ts => rw [hc] at hm; cases hm; exact ⟨rfl, rfl, rfl⟩
              · cases hm; exact ⟨rfl, rfl, rfl⟩
            simp [h1, h2, hao]

theorem Same.taken {b b' : Block V} (s : Same b b') {attr : Text} {a : Attr V} (h : b.attrs.get? attr = some a) :
    ∃ a', b'.attrs.get? attr = some a' ∧ ∀ v, Spec.PandABlock.taken ext a' v = Spec.PandABlock.taken ext a v := by
  have := s.attrs attr
  rw [h] at this
  cases hb : b'.attrs.get? attr with
  | none => rw [hb] at this; cases this
  | some a' =>
    rw [hb] at this
    simp only [Option.map_some, Option.some.injEq, Prod.mk.injEq] at this
    refine ⟨a', rfl, fun v => ?_⟩
    unfold Spec.PandABlock.taken
    rw [this.1, this.2.2]

theorem refused_same {b b' : Block V} (hw : Wf b) (s : Same b b') (c : Text × Raw) : Refused ext b' c ↔ Refused ext b c := by
  unfold Refused
  by_cases hh : upper c.1 = "HEALTH".toList
  · simp only [hh, if_true]
  · simp only [hh, if_false]
    unfold attrOf
    rw [s.fields, s.muxes]
    cases hf : b.fields.get? c.1 with
    | none => simp
    | some o =>
      cases o with
      | none => simp
      | some attr =>
        obtain ⟨a, ha⟩ := hw.has _ _ hf
        obtain ⟨a', ha', ht⟩ := s.taken (ext := ext) ha
        simp only [ha, ha', Option.some.injEq, exists_eq_left', ht]

theorem heard_same {b b' : Block V} (hw : Wf b) (s : Same b b') {cs hs : List (Text × Raw)} (h : Heard ext b' cs hs) : Heard ext b cs hs := by
  induction h with
  | nil => exact .nil
  | refused h => exact .refused ((refused_same hw s _).1 h)
  | cons h _ ih => exact .cons (fun g => h ((refused_same hw s _).2 g)) ih

theorem heard_unique {b : Block V} {cs hs : List (Text × Raw)} (h : Heard ext b cs hs) : ∀ {hs'}, Heard ext b cs hs' → hs' = hs := by
  induction h with
  | nil => intro _ h; cases h; rfl
  | refused h =>
    intro _ h'
    cases h' with
    | refused => rfl
    | cons g => exact absurd h g
  | cons h _ ih =>
    intro _ h'
    cases h' with
    | refused g => exact absurd g h
    | cons _ g => rw [ih g]

/-- the tags that are no links stay -/
theorem muxTags_rest {pre : Text} {tags ts : List Text} {v : Raw} (h : muxTags pre tags v = some ts) :
    withoutLinkedValueTags ts = withoutLinkedValueTags tags := by
  unfold muxTags at h
  cases v with
  | text t =>
    dsimp only at h
    split at h
    · rename_i block field _
      cases hc : camel field with
      | none => rw [hc] at h; cases h
      | some c =>
        rw [hc] at h
        cases h
        unfold withoutLinkedValueTags
        rw [List.filter_append, List.filter_filter]
        have hp : linkedPre.isPrefixOf (linkedValueTag (pre ++ ':' :: block) c) = true := by
          rw [List.isPrefixOf_iff_prefix]
          unfold linkedValueTag
          rw [List.append_assoc]
          exact List.prefix_append _ _
        simp [hp]
    · cases h
      unfold withoutLinkedValueTags
      rw [List.filter_filter]
      simp
  | _ => cases h

/-- What becomes of the attribute for `f` when `hs` is heard -/
structure After (ext : Ext V) (b : Block V) (f : Text) (hs : List (Text × Raw)) (a a' : Attr V) : Prop where
  value : a'.value = ((hs.filterMap (fun c => if c.1 = f then taken ext a c.2 else none)).getLast?).getD a.value
  rest : withoutLinkedValueTags a'.tags = withoutLinkedValueTags a.tags
  same : (∀ v, (f, v) ∉ hs) ∨ f ∉ b.muxes → a'.tags = a.tags
  last : ∀ pre v post, hs = pre ++ (f, v) :: post → (∀ w, (f, w) ∉ post) → ¬ Refused ext b (f, v) → f ∈ b.muxes →
    ∃ tags0, muxTags b.mriPrefix tags0 v = some a'.tags

theorem after_cons {b : Block V} (hw : Wf b) {f k : Text} {v : Raw} {a a1 a2 : Attr V} {hs : List (Text × Raw)} {attr : Text}
    (hf : b.fields.get? f = some (some attr)) (ha : b.attrs.get? attr = some a)
    (hit : f = k → Hit ext b f v a a1) (miss : f ≠ k → a1 = a) (ht : ∀ v, taken ext a1 v = taken ext a v)
    (h : After ext b f hs a1 a2) : After ext b f ((k, v) :: hs) a a2 := by
  have htag : withoutLinkedValueTags a1.tags = withoutLinkedValueTags a.tags := by
    by_cases e : f = k
    · rw [(hit e).tags]
      split
      · cases hm : muxTags b.mriPrefix a.tags v with
        | none => rfl
        | some ts => exact muxTags_rest hm
      · rfl
    · rw [miss e]
  refine ⟨?_, h.rest.trans htag, ?_, ?_⟩
  · rw [h.value]
    simp only [ht]
    by_cases e : f = k
    · have hv := (hit e).value
      rw [List.filterMap_cons]
      simp only [e, if_true]
      cases htk : taken ext a v with
      | none => rw [htk] at hv; simp only [hv]; rfl
      | some x =>
        rw [htk] at hv
        simp only [hv, Option.getD_some]
        rw [List.getLast?_cons]
        cases (hs.filterMap (fun c => if c.1 = k then taken ext a c.2 else none)).getLast? <;> rfl
    · rw [miss e, List.filterMap_cons]
      have : ((k, v) : Text × Raw).1 ≠ f := fun h => e h.symm
      simp only [this, if_false]
  · intro hd
    have h1 : a1.tags = a.tags := by
      by_cases e : f = k
      · rcases hd with hd | hd
        · exact absurd (by rw [e]; simp) (hd v)
        · rw [(hit e).tags, if_neg (fun h => hd h.1)]
      · rw [miss e]
    rw [← h1]
    apply h.same
    rcases hd with hd | hd
    · exact .inl fun w hw => hd w (List.mem_cons_of_mem _ hw)
    · exact .inr hd
  · intro pre w post he hpost hr hm
    cases pre with
    | nil =>
      simp only [List.nil_append, List.cons.injEq, Prod.mk.injEq] at he
      obtain ⟨⟨rfl, rfl⟩, rfl⟩ := he
      have hao : attrOf b k = some a := by simp [attrOf, hf, ha]
      have hnh := hw.attrOf hao
      unfold Refused at hr
      rw [if_neg hnh] at hr
      have h1 : taken ext a v ≠ none := fun h => hr ⟨a, hao, .inl h⟩
      have h2 : muxTags b.mriPrefix a.tags v ≠ none := fun h => hr ⟨a, hao, .inr ⟨hm, (muxTags_none_iff _ _ _).1 h⟩⟩
      rw [h.same (.inl hpost), (hit rfl).tags, if_pos ⟨hm, h1⟩]
      cases hx : muxTags b.mriPrefix a.tags v with
      | none => exact absurd hx h2
      | some ts => exact ⟨a.tags, hx⟩
    | cons p pre =>
      simp only [List.cons_append, List.cons.injEq] at he
      exact h.last pre w post he.2 hpost hr hm

theorem after_nil {b : Block V} {f : Text} {a : Attr V} : After ext b f [] a a :=
  ⟨rfl, rfl, fun _ => rfl, fun pre v post h => by cases pre <;> cases h⟩

theorem after_same {b b' : Block V} (hw : Wf b) (s : Same b b') {f : Text} {hs : List (Text × Raw)} {a a' : Attr V}
    (h : After ext b' f hs a a') : After ext b f hs a a' :=
  ⟨h.value, h.rest, fun g => h.same (by rw [s.muxes]; exact g), fun pre v post e hp hr hm => by
    have := h.last pre v post e hp (fun g => hr ((refused_same hw s _).1 g)) (by rw [s.muxes]; exact hm)
    rw [s.mriPrefix] at this
    exact this⟩

/-- The health after a list of changes -/
def healthAfter (h : Text) (hs : List (Text × Raw)) : Text :=
  ((hs.filterMap (fun c => if upper c.1 = "HEALTH".toList then
    match c.2 with
    | .text t => some (if upper t = "OK".toList then "OK".toList else t)
    | _ => none
    else none)).getLast?).getD h

theorem changes_spec : ∀ (cs : List (Text × Raw)) {b : Block V} (_ : Wf b) (icon : Bool),
    let r := changes ext b icon cs
    Same b r.block ∧ r.block.shownIcon = b.shownIcon ∧ r.block.sent = b.sent ∧
    ∃ hs, Heard ext b cs hs ∧ (r.raised = true ↔ ∃ c ∈ hs, Refused ext b c) ∧
      (r.raised = false → hs = cs ∧ (r.icon = true ↔ icon = true ∨ ∃ c ∈ cs, c.1 ∈ b.iconFields ∧ (attrOf b c.1).isSome)) ∧
      r.block.health = healthAfter b.health hs ∧
      (∀ f attr a, b.fields.get? f = some (some attr) → b.attrs.get? attr = some a →
        ∃ a', r.block.attrs.get? attr = some a' ∧ After ext b f hs a a') := by
  intro cs
  induction cs with
  | nil =>
    intro b hw icon
    exact ⟨Same.refl b, rfl, rfl, [], .nil, by simp [changes], fun _ => ⟨rfl, by simp [changes]⟩, rfl,
      fun f attr a _ ha => ⟨a, ha, after_nil⟩⟩
  | cons c cs ih =>
    intro b hw icon
    obtain ⟨k, v⟩ := c
    obtain ⟨s1, hr1, ha1⟩ := oneChange_spec (ext := ext) hw icon k v
    obtain ⟨hi1, hse1, hic1, hh1, hh2, hh3⟩ := oneChange_rest (ext := ext) hw icon k v
    dsimp only
    rw [changes]
    obtain ⟨r, er⟩ : ∃ r, oneChange ext b icon k v = r := ⟨_, rfl⟩
    rw [er] at s1 hr1 ha1 hi1 hse1 hic1 hh1 hh2 hh3 ⊢
    have hhealth : ∀ hs, healthAfter b.health ((k, v) :: hs) = healthAfter r.block.health hs := by
      intro hs
      unfold healthAfter
      rw [List.filterMap_cons]
      dsimp only
      by_cases hk : upper k = "HEALTH".toList
      · rw [if_pos hk]
        cases v with
        | text t =>
          dsimp only
          rw [List.getLast?_cons, hh2 hk t rfl]
          cases (hs.filterMap _).getLast? <;> rfl
        | _ => dsimp only; rw [hh3 hk (by simp)]
      · rw [if_neg hk, hh1 hk]
    cases hr : r.raised with
    | true =>
      rw [if_pos rfl]
      have href := hr1.1 hr
      refine ⟨s1, hi1, hse1, [(k, v)], .refused href, ⟨fun _ => ⟨_, by simp, href⟩, fun _ => hr⟩, ?_, ?_, ?_⟩
      · intro h; rw [hr] at h; cases h
      · rw [hhealth]; rfl
      · intro f attr a hf ha
        obtain ⟨a', h1, h2, h3⟩ := ha1 f attr a hf ha
        obtain ⟨a2, h4, h5⟩ := s1.taken (ext := ext) ha
        rw [h1] at h4
        cases h4
        exact ⟨a', h1, after_cons hw hf ha h2 h3 h5 after_nil⟩
    | false =>
      rw [if_neg (by simp)]
      have hnref : ¬ Refused ext b (k, v) := fun h => by rw [hr1.2 h] at hr; cases hr
      have hw1 := hw.same s1
      obtain ⟨s2, hi2, hse2, hs, hheard, hr2, hic2, hhe2, ha2⟩ := ih hw1 r.icon
      refine ⟨s1.trans s2, hi2.trans hi1, hse2.trans hse1, (k, v) :: hs, .cons hnref (heard_same hw s1 hheard), ?_, ?_, ?_, ?_⟩
      · rw [hr2]
        constructor
        · rintro ⟨c, hc, h⟩
          exact ⟨c, List.mem_cons_of_mem _ hc, (refused_same hw s1 c).1 h⟩
        · rintro ⟨c, hc, h⟩
          rcases List.mem_cons.1 hc with rfl | hc
          · exact absurd h hnref
          · exact ⟨c, hc, (refused_same hw s1 c).2 h⟩
      · intro h
        obtain ⟨h1, h2⟩ := hic2 h
        refine ⟨by rw [h1], ?_⟩
        rw [h2, hic1 hr]
        have hat : ∀ k, (attrOf r.block k).isSome = (attrOf b k).isSome := by
          intro k
          unfold attrOf
          rw [s1.fields]
          cases hf : b.fields.get? k with
          | none => rfl
          | some o =>
            cases o with
            | none => rfl
            | some attr =>
              obtain ⟨a, ha⟩ := hw.has _ _ hf
              obtain ⟨a', ha', -⟩ := s1.taken (ext := ext) ha
              simp [ha, ha']
        simp only [hat, s1.iconFields, List.mem_cons, exists_eq_or_imp, or_assoc]
      · rw [hhe2, hhealth]
      · intro f attr a hf ha
        obtain ⟨a1, h1, h2, h3⟩ := ha1 f attr a hf ha
        obtain ⟨a1', h4, h5⟩ := s1.taken (ext := ext) ha
        rw [h1] at h4
        cases h4
        obtain ⟨a2, h6, h7⟩ := ha2 f attr a1 (by rw [s1.fields]; exact hf) h1
        exact ⟨a2, h6, after_cons hw hf ha h2 h3 h5 (after_same hw s1 h7)⟩

end Verif.Proofs.PandABlock
