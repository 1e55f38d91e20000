import Verif.Proofs.PandARun
/-! When the block for a block of a PandA can be made. -/
namespace Verif.Proofs.PandABlock
open Verif Verif.Tags Verif.PandABlock Verif.Spec.PandABlock

variable {V : Type} {ext : Ext V}

/-- What is known of the parts: those of all blocks and the groups, and those for the names `done` of the PandA -/
def Parts (done : List Text) (b : Block V) : Prop :=
  ∀ p ∈ b.parts, (p.1 = p.2 ∧ p.1 ∈ reserved) ∨ ∃ f ∈ done, p.1 = undot f ∧ published f = some p.2

/-- A name for which a part can be added -/
structure Free (done : List Text) (f : Text) : Prop where
  chars : ∀ c ∈ f, Verif.Fields.upper c = true ∨ Verif.Fields.digit c = true ∨ c = '_' ∨ c = '.'
  name : ∃ x, published f = some x ∧ Verif.Fields.camelRe x = true ∧ x ∉ reserved
  new : ∀ g ∈ done, published g ≠ published f

theorem reserved_lower : ∀ r ∈ reserved, ∃ c ∈ r, 'a' ≤ c ∧ c ≤ 'z' := by decide

theorem undot_chars {f : Text} (h : ∀ c ∈ f, Verif.Fields.upper c = true ∨ Verif.Fields.digit c = true ∨ c = '_' ∨ c = '.') :
    ∀ c ∈ undot f, Verif.Fields.upper c = true ∨ Verif.Fields.digit c = true ∨ c = '_' := by
  intro c hc
  obtain ⟨d, hd, rfl⟩ := List.mem_map.1 hc
  by_cases e : d = '.'
  · rw [if_pos e]; exact .inr (.inr rfl)
  · rw [if_neg e]
    rcases h d hd with h | h | h | h
    · exact .inl h
    · exact .inr (.inl h)
    · exact .inr (.inr h)
    · exact absurd h e

theorem undot_not_reserved {f : Text} (h : ∀ c ∈ f, Verif.Fields.upper c = true ∨ Verif.Fields.digit c = true ∨ c = '_' ∨ c = '.') :
    undot f ∉ reserved := by
  intro hm
  obtain ⟨c, hc, h1, h2⟩ := reserved_lower _ hm
  have h1' : (97 : Nat) ≤ c.toNat := h1
  have h2' : c.toNat ≤ 122 := h2
  rcases undot_chars h c hc with h | h | h
  · have := (by simpa [Verif.Fields.upper] using h : 'A' ≤ c ∧ c ≤ 'Z').2
    have : c.toNat ≤ 90 := this
    omega
  · have := (by simpa [Verif.Fields.digit] using h : '0' ≤ c ∧ c ≤ '9').2
    have : c.toNat ≤ 57 := this
    omega
  · rw [h] at h1'
    revert h1'
    decide

theorem partNameOk_of {t : Text} (h : ∀ c ∈ t, Verif.Fields.upper c = true ∨ Verif.Fields.digit c = true ∨ c = '_') : partNameOk t = true := by
  induction t with
  | nil => rfl
  | cons c cs ih =>
    have hc : (c.isAlphanum || c = '_' || c = '-') = true := by
      rcases h c List.mem_cons_self with h | h | h
      · have := (by simpa [Verif.Fields.upper] using h : 'A' ≤ c ∧ c ≤ 'Z')
        have hu : c.isUpper = true := by simp only [Char.isUpper, Bool.and_eq_true, decide_eq_true_eq]; exact this
        simp [Char.isAlphanum, Char.isAlpha, hu]
      · have := (by simpa [Verif.Fields.digit] using h : '0' ≤ c ∧ c ≤ '9')
        have hu : c.isDigit = true := by simp only [Char.isDigit, Bool.and_eq_true, decide_eq_true_eq]; exact this
        simp [Char.isAlphanum, hu]
      · simp [h]
    have hr := ih fun c hc => h c (List.mem_cons_of_mem _ hc)
    unfold partNameOk
    split
    · rfl
    · rfl
    · rename_i h1 h2
      cases h2
      rw [hc, hr]
      rfl

theorem can_add {b : Block V} {done : List Text} {f x : Text} (hp : Parts done b) (hf : Free done f) (hx : published f = some x) :
    addPart b (undot f) x = some { b with parts := b.parts ++ [(undot f, x)] } ∧
    Parts (f :: done) { b with parts := b.parts ++ [(undot f, x)] } := by
  obtain ⟨y, hy, hc, hr⟩ := hf.name
  rw [hx] at hy
  cases hy
  constructor
  · unfold addPart
    rw [if_pos]
    refine ⟨partNameOk_of (undot_chars hf.chars), ?_, hc, ?_⟩
    · intro hm
      obtain ⟨p, hpm, he⟩ := List.mem_map.1 hm
      rcases hp p hpm with ⟨-, h2⟩ | ⟨g, hg, h1, -⟩
      · rw [he] at h2
        exact undot_not_reserved hf.chars h2
      · refine hf.new g hg ?_
        unfold published
        rw [← h1, he]
    · intro hm
      rcases List.mem_cons.1 hm with rfl | hm
      · exact hr (by decide)
      · obtain ⟨p, hpm, he⟩ := List.mem_map.1 hm
        rcases hp p hpm with ⟨h1, h2⟩ | ⟨g, hg, -, h2⟩
        · rw [h1, he] at h2
          exact hr h2
        · rw [he] at h2
          exact hf.new g hg (h2.trans hx.symm)
  · intro p hpm
    rcases List.mem_append.1 hpm with hpm | hpm
    · rcases hp p hpm with h | ⟨g, hg, h⟩
      · exact .inl h
      · exact .inr ⟨g, List.mem_cons_of_mem _ hg, h⟩
    · rw [List.mem_singleton] at hpm
      subst hpm
      exact .inr ⟨f, List.mem_cons_self, rfl, hx⟩

theorem can_field {b : Block V} {done : List Text} {f : Text} (hp : Parts done b) (hf : Free done f) (k : Kind) (ts : List Text)
    (w : Bool) (it : Int) (hd : Handler) : ∃ b', fieldPart ext b f k ts w it hd = some b' ∧ Parts (f :: done) b' := by
  obtain ⟨x, hx, -⟩ := hf.name
  obtain ⟨h1, h2⟩ := can_add hp hf hx
  unfold fieldPart
  rw [show camel (undot f) = some x from hx]
  dsimp only
  rw [h1]
  exact ⟨_, rfl, h2⟩

theorem groups_ok : ∀ g ∈ groups, g ∈ reserved ∧ partNameOk g = true ∧ Verif.Fields.camelRe g = true ∧ g ≠ "health".toList := by decide

theorem can_group {b : Block V} {done : List Text} (hp : Parts done b) {g : Text} (hg : g ∈ groups)
    (hfree : ∀ f ∈ done, published f ≠ some g) : ∃ b', makeGroup ext b g = some b' ∧ Parts done b' := by
  unfold makeGroup
  by_cases hm : g ∈ b.parts.map (·.1)
  · rw [if_pos hm]
    exact ⟨b, rfl, hp⟩
  · rw [if_neg hm]
    have hres : g ∈ reserved := (groups_ok g hg).1
    have hok : partNameOk g = true ∧ Verif.Fields.camelRe g = true ∧ g ≠ "health".toList := (groups_ok g hg).2
    have hadd : addPart b g g = some { b with parts := b.parts ++ [(g, g)] } := by
      unfold addPart
      rw [if_pos]
      refine ⟨hok.1, hm, hok.2.1, ?_⟩
      intro hs
      rcases List.mem_cons.1 hs with h | hs
      · exact hok.2.2 h
      · obtain ⟨p, hpm, he⟩ := List.mem_map.1 hs
        rcases hp p hpm with ⟨h1, -⟩ | ⟨f, hf, -, h2⟩
        · exact hm (List.mem_map.2 ⟨p, hpm, h1.trans he⟩)
        · rw [he] at h2
          exact hfree f hf h2
    rw [hadd]
    refine ⟨_, rfl, ?_⟩
    intro p hpm
    rcases List.mem_append.1 hpm with hpm | hpm
    · exact hp p hpm
    · rw [List.mem_singleton] at hpm
      subst hpm
      exact .inl ⟨rfl, hres⟩

/-- A list of names for which parts can be added one after the other -/
def FreeAll (done : List Text) : List Text → Prop
  | [] => True
  | f :: fs => Free done f ∧ FreeAll (f :: done) fs

/-- Names that are done are not the names of groups -/
def Apart (done : List Text) : Prop := ∀ f ∈ done, ∀ x, published f = some x → x ∉ reserved

theorem Apart.cons {done : List Text} {f : Text} (h : Apart done) (hf : Free done f) : Apart (f :: done) := by
  intro g hg x hx
  rcases List.mem_cons.1 hg with rfl | hg
  · obtain ⟨y, hy, -, hr⟩ := hf.name
    rw [hx] at hy
    cases hy
    exact hr
  · exact h g hg x hx

theorem Apart.groups {done : List Text} (h : Apart done) {g : Text} (hg : g ∈ groups) : ∀ f ∈ done, published f ≠ some g := by
  intro f hf he
  exact h f hf g he (groups_ok g hg).1

theorem ignore_parts (b : Block V) (names : List Text) : (ignore b names).parts = b.parts := rfl

theorem can_parts {b : Block V} {done : List Text} (hp : Parts done b) (ha : Apart done) {n : Text} {fd : FieldData} {ws : List Want}
    (hn : PandAName n) (hw : wants b.name n fd = some ws) (hf : FreeAll done (partsFor n fd ws)) :
    ∃ b', makePartsFor ext b n fd = some b' ∧ Parts ((partsFor n fd ws).reverse ++ done) b' := by
  have hund : undot n = n := by
    unfold undot
    refine (List.map_congr_left (g := id) (fun x hx => ?_)).trans (List.map_id n)
    by_cases e : x = '.'
    · exact absurd (e ▸ hx) (clean_name hn).2.2
    · rw [if_neg e]; rfl
  unfold makePartsFor
  by_cases hh : upper n = healthName
  · rw [if_pos hh]
    have hh' : upper n = "HEALTH".toList := hh
    unfold wants at hw
    rw [if_pos hh'] at hw
    cases hw
    refine ⟨b, rfl, ?_⟩
    unfold partsFor
    rw [if_neg (fun h => h.1 hh')]
    exact hp
  · rw [if_neg hh]
    have hh' : upper n ≠ "HEALTH".toList := hh
    have hmux : ∀ (port : Port) {done : List Text} {b : Block V}, Parts done b → Apart done → Free done n →
        ∃ b', makeMux ext b n fd port = some b' ∧ Parts (n :: done) b' := by
      intro port done b hp ha hf
      obtain ⟨b1, h1, p1⟩ := can_group (ext := ext) hp (g := inputs) (by decide) (ha.groups (by decide))
      obtain ⟨x, hx, -⟩ := hf.name
      unfold makeMux
      rw [h1]
      dsimp only
      have hcx : camel n = some x := by
        rw [← hund]; exact hx
      rw [hcx]
      dsimp only
      obtain ⟨b2, h2, p2⟩ := can_field (ext := ext) p1 hf (.choice (muxLabels fd.labels)) ([groupTag inputs, sinkPortTag port "ZERO".toList, widgetTag "combo".toList] ++
        if port = .bool then [badgeValueTag (mri b1) (x ++ "Delay".toList) "plus".toList] else []) true 1 .field
      rw [h2]
      exact ⟨_, rfl, p2⟩
    have htime : ∀ w, FreeAll done [n, n ++ ".UNITS".toList] → ∃ b', makeTime ext b n w = some b' ∧ Parts ([n ++ ".UNITS".toList, n] ++ done) b' := by
      intro w hf
      obtain ⟨b1, h1, p1⟩ := can_group (ext := ext) hp (g := if w = true then parameters else readbacks) (by cases w <;> decide) (ha.groups (by cases w <;> decide))
      unfold makeTime
      dsimp only
      rw [h1]
      dsimp only
      obtain ⟨b2, h2, p2⟩ := can_field (ext := ext) p1 hf.1 (.number "float64") [groupTag (if w = true then parameters else readbacks),
        widgetTag (if w = true then "textinput".toList else "textupdate".toList)] w 2 .field
      rw [h2]
      exact can_field p2 hf.2.1 _ _ _ _ _
    have hparam : ∀ w k, valueKind fd.subtyp fd.labels = some k → FreeAll done [n] → ∃ b', makeParam ext b n fd w = some b' ∧ Parts (n :: done) b' := by
      intro w k hk hf
      obtain ⟨b1, h1, p1⟩ := can_group (ext := ext) hp (g := if w = true then parameters else readbacks) (by cases w <;> decide) (ha.groups (by cases w <;> decide))
      unfold makeParam
      dsimp only
      rw [h1]
      dsimp only
      have hmk : metaKind fd.subtyp fd.labels = some k := by rw [metaKind_eq]; exact hk
      rw [hmk]
      exact can_field p1 hf.1 _ _ _ _ _
    have hout : ∀ port k, FreeAll done [n] → ∃ b', makeOut ext b n port k = some b' ∧ Parts (n :: done) b' := by
      intro port k hf
      obtain ⟨b1, h1, p1⟩ := can_group (ext := ext) hp (g := outputs) (by decide) (ha.groups (by decide))
      unfold makeOut
      rw [h1]
      exact can_field p1 hf.1 _ _ _ _ _
    have hvalue : ∀ w ws, (valueKind fd.subtyp fd.labels).map (fun k => [value n k w]) = some ws → ∃ k, valueKind fd.subtyp fd.labels = some k ∧ ws.map (·.field) = [n] := by
      intro w ws h
      cases hk : valueKind fd.subtyp fd.labels with
      | none => rw [hk] at h; cases h
      | some k =>
        rw [hk] at h
        cases h
        exact ⟨k, rfl, by cases w <;> rfl⟩
    have htf : ∀ w, (time n w).map (·.field) = [n, n ++ ".UNITS".toList] := by intro w; cases w <;> rfl
    have hpf : ¬ (fd.typ = "write" ∧ fd.subtyp = "action") → partsFor n fd ws = ws.map (·.field) := by
      intro h
      unfold partsFor
      rw [if_neg (fun g => h g.2)]
    have hnw : fd.typ ≠ "write" → ¬ (fd.typ = "write" ∧ fd.subtyp = "action") := fun h g => h g.1
    unfold wants at hw
    rw [if_neg hh'] at hw
    dsimp only
    split at hw
    · rename_i ht
      cases hw
      rw [hpf (hnw (by rw [ht]; decide)), htf] at hf ⊢
      rw [if_pos (.inl ht)]
      exact htime _ hf
    · rename_i ht
      have hpf' := hpf (hnw (by rw [ht]; decide))
      split at hw
      · rename_i hs
        cases hw
        rw [hpf', htf] at hf ⊢
        rw [if_pos (.inr ⟨.inl ht, hs⟩)]
        exact htime _ hf
      · rename_i hs
        obtain ⟨k, hk, hfs⟩ := hvalue _ _ hw
        rw [hpf', hfs] at hf ⊢
        rw [if_neg (by rw [ht]; simp [hs]), if_neg (by rw [ht]; simp), if_pos (.inl ht)]
        exact hparam _ k hk hf
    · rename_i ht
      have hpf' := hpf (hnw (by rw [ht]; decide))
      split at hw
      · rename_i hs
        cases hw
        rw [hpf', htf] at hf ⊢
        rw [if_pos (.inr ⟨.inr ht, hs⟩)]
        exact htime _ hf
      · rename_i hs
        obtain ⟨k, hk, hfs⟩ := hvalue _ _ hw
        rw [hpf', hfs] at hf ⊢
        rw [if_neg (by rw [ht]; simp [hs]), if_neg (by rw [ht]; simp), if_pos (.inr (.inl ht))]
        exact hparam _ k hk hf
    · rename_i ht
      split at hw
      · rename_i hs
        have : partsFor n fd ws = [n] := by
          unfold partsFor
          rw [if_pos ⟨hh', ht, hs⟩]
        rw [this] at hf ⊢
        rw [if_neg (by rw [ht]; simp), if_pos ⟨ht, hs⟩]
        obtain ⟨b1, h1, p1⟩ := can_group (ext := ext) hp (g := parameters) (by decide) (ha.groups (by decide))
        unfold makeAction
        rw [h1]
        obtain ⟨x, hx, -⟩ := hf.1.name
        have hcx : camel n = some x := by
          rw [← hund]; exact hx
        obtain ⟨h3, h4⟩ := can_add p1 hf.1 hx
        rw [hund] at h3
        rw [hcx]
        dsimp only
        rw [h3]
        refine ⟨_, rfl, ?_⟩
        rw [hund] at h4
        exact h4
      · rename_i hs
        obtain ⟨k, hk, hfs⟩ := hvalue _ _ hw
        rw [hpf (fun g => hs g.2), hfs] at hf ⊢
        rw [if_neg (by rw [ht]; simp), if_neg (by simp [hs]), if_pos (.inr (.inr ht))]
        exact hparam _ k hk hf
    · rename_i ht
      cases hw
      rw [hpf (hnw (by rw [ht]; decide))] at hf ⊢
      rw [if_neg (by rw [ht]; simp), if_neg (by rw [ht]; simp), if_neg (by rw [ht]; simp), if_pos ht]
      exact hout _ _ hf
    · rename_i ht
      cases hw
      rw [hpf (hnw (by rw [ht]; decide))] at hf ⊢
      rw [if_neg (by rw [ht]; simp), if_neg (by rw [ht]; simp), if_neg (by rw [ht]; simp), if_neg (by rw [ht]; simp), if_pos ht]
      obtain ⟨b1, h1, p1⟩ := hout .int32 (.number "int32") hf
      rw [h1]
      exact ⟨_, rfl, p1⟩
    · rename_i ht
      have hpf' := hpf (hnw (by rw [ht]; decide))
      rw [if_neg (by rw [ht]; simp), if_neg (by rw [ht]; simp), if_neg (by rw [ht]; simp), if_neg (by rw [ht]; simp), if_neg (by rw [ht]; simp), if_pos ht]
      split at hw
      · rename_i hs
        cases hw
        rw [hpf'] at hf ⊢
        rw [if_pos hs]
        exact ⟨_, rfl, hp⟩
      · rename_i hs
        cases hw
        rw [hpf'] at hf ⊢
        rw [if_neg hs]
        obtain ⟨b1, h1, p1⟩ := can_group (ext := ext) hp (g := outputs) (by decide) (ha.groups (by decide))
        unfold makeExtCapture
        rw [h1]
        exact can_field p1 hf.1 _ _ _ _ _
    · rename_i ht
      cases hw
      rw [hpf (hnw (by rw [ht]; decide))] at hf ⊢
      rw [if_neg (by rw [ht]; simp), if_neg (by rw [ht]; simp), if_neg (by rw [ht]; simp), if_neg (by rw [ht]; simp), if_neg (by rw [ht]; simp), if_neg (by rw [ht]; simp), if_pos ht]
      obtain ⟨b1, h1, p1⟩ := hmux .bool hp ha hf.1
      rw [h1]
      dsimp only
      obtain ⟨b2, h2, p2⟩ := can_group (ext := ext) p1 (g := inputs) (by decide) ((ha.cons hf.1).groups (by decide))
      unfold makeMuxDelay
      rw [h2]
      exact can_field p2 hf.2.1 _ _ _ _ _
    · rename_i ht
      cases hw
      rw [hpf (hnw (by rw [ht]; decide))] at hf ⊢
      rw [if_neg (by rw [ht]; simp), if_neg (by rw [ht]; simp), if_neg (by rw [ht]; simp), if_neg (by rw [ht]; simp), if_neg (by rw [ht]; simp), if_neg (by rw [ht]; simp), if_neg (by rw [ht]; simp), if_pos ht]
      exact hmux .int32 hp ha hf.1
    · rename_i ht
      cases hw
      rw [hpf (hnw (by rw [ht]; decide))] at hf ⊢
      rw [if_neg (by rw [ht]; simp), if_neg (by rw [ht]; simp), if_neg (by rw [ht]; simp), if_neg (by rw [ht]; simp), if_neg (by rw [ht]; simp), if_neg (by rw [ht]; simp), if_neg (by rw [ht]; simp), if_neg (by rw [ht]; simp), if_pos ht]
      obtain ⟨b1, h1, p1⟩ := can_group (ext := ext) hp (g := parameters) (by decide) (ha.groups (by decide))
      unfold makeTable
      rw [h1]
      obtain ⟨x, hx, -⟩ := hf.1.name
      obtain ⟨h3, h4⟩ := can_add p1 hf.1 hx
      rw [show camel (undot n) = some x from hx]
      dsimp only
      rw [h3]
      exact ⟨_, rfl, h4⟩
    · cases hw

theorem apart_all {done fs : List Text} (ha : Apart done) (hf : FreeAll done fs) : Apart (fs.reverse ++ done) := by
  induction fs generalizing done with
  | nil => exact ha
  | cons f fs ih =>
    have := ih (ha.cons hf.1) hf.2
    rw [List.reverse_cons, List.append_assoc]
    exact this

theorem freeAll_append {done a b : List Text} : FreeAll done (a ++ b) ↔ FreeAll done a ∧ FreeAll (a.reverse ++ done) b := by
  induction a generalizing done with
  | nil => simp [FreeAll]
  | cons f fs ih =>
    rw [List.cons_append, FreeAll, FreeAll, ih, List.reverse_cons, List.append_assoc, and_assoc]
    rfl

theorem can_all : ∀ (data : List (Text × FieldData)) {b : Block V} {done : List Text}, Parts done b → Apart done → Inv (ext := ext) b → PandAName b.name →
    (∀ e ∈ data, PandAName e.1) → (∀ e ∈ data, wants b.name e.1 e.2 ≠ none) →
    FreeAll done (data.flatMap fun e => partsFor e.1 e.2 ((wants b.name e.1 e.2).getD [])) → ∃ b', makeAll ext b data = some b' := by
  intro data
  induction data with
  | nil => intro b done _ _ _ _ _ _ _; exact ⟨b, rfl⟩
  | cons e data ih =>
    intro b done hp ha hi hb hn hw hf
    obtain ⟨n, fd⟩ := e
    rw [List.flatMap_cons, freeAll_append] at hf
    cases hws : wants b.name n fd with
    | none => exact absurd hws (hw (n, fd) List.mem_cons_self)
    | some ws =>
      dsimp only at hf
      rw [hws] at hf
      obtain ⟨b1, h1, p1⟩ := can_parts (ext := ext) hp ha (hn (n, fd) List.mem_cons_self) hws hf.1
      have m := makePartsFor_spec hi hb (hn (n, fd) List.mem_cons_self) h1
      obtain ⟨ks, -, g⟩ := m.grow
      rw [makeAll, h1]
      refine ih p1 (apart_all ha hf.1) m.inv (by rw [g.name]; exact hb) (fun e he => hn e (List.mem_cons_of_mem _ he)) ?_ ?_
      · rw [g.name]; exact fun e he => hw e (List.mem_cons_of_mem _ he)
      · rw [g.name]; exact hf.2

theorem freeAll_of {done fs : List Text} (h1 : ∀ f ∈ fs, Free done f) (h2 : (fs.map published).Nodup) : FreeAll done fs := by
  induction fs generalizing done with
  | nil => trivial
  | cons f fs ih =>
    rw [List.map_cons, List.nodup_cons] at h2
    refine ⟨h1 f List.mem_cons_self, ih (fun g hg => ?_) h2.2⟩
    have := h1 g (List.mem_cons_of_mem _ hg)
    refine ⟨this.chars, this.name, fun k hk => ?_⟩
    rcases List.mem_cons.1 hk with rfl | hk
    · intro e; exact h2.1 (e ▸ List.mem_map.2 ⟨g, hg, rfl⟩)
    · exact this.new k hk

end Verif.Proofs.PandABlock
