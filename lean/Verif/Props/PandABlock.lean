import Verif.Proofs.PandACan
/-!
C73: the block for a block of a PandA has the attributes that its fields ask for, and they show what the PandA says.
-/
namespace Verif.Props.PandABlock
open Verif Verif.Tags Verif.PandABlock Verif.Spec.PandABlock Verif.Proofs.PandABlock

variable {V : Type} {ext : Ext V}

/-- The fields of a block: names as a PandA has them, each once -/
structure Fields (name : Text) (data : List (Text × FieldData)) : Prop where
  name : PandAName name
  fields : ∀ e ∈ data, PandAName e.1
  once : (data.map (·.1)).Nodup

/-! ### the attributes -/

/-- Every field of a block that could be made has the attributes that are documented for its type: under the name of the PandA
in camel case, of the right type, writeable if it should be, restored in the right round, in its group, and in the flow graph
an output under the name that inputs know it by -/
theorem made_as_documented {pre name label : Text} {data : List (Text × FieldData)} {b : Block V} (hd : Fields name data)
    (h : make ext pre name label data = some b) {n : Text} {fd : FieldData} (hm : (n, fd) ∈ data) :
    ∃ ws, wants name n fd = some ws ∧ ∀ w ∈ ws, ∃ attr a, published w.field = some attr ∧ b.attrs.get? attr = some a ∧
      attrOf b w.field = some a ∧ Meets w a ∧ a.value = ext.default a.kind := by
  obtain ⟨i, -, hall⟩ := makeAll_spec data (inv_common pre name label) hd.name hd.fields hd.once h
  obtain ⟨⟨ws, hws, hw⟩, -⟩ := hall (n, fd) hm
  refine ⟨ws, hws, fun w hx => ?_⟩
  obtain ⟨attr, a, h1, h2, h3, h4, h5⟩ := hw w hx
  exact ⟨attr, a, h1, h3, by simp [attrOf, h2, h3], h4, i.fresh attr a h3 h5⟩

/-- A block is made if the types of its fields are known, and the names for them in camel case are names, are not those of the
attributes of every block or of groups, and are all different -/
theorem made {pre name label : Text} {data : List (Text × FieldData)} (hd : Fields name data)
    (hk : ∀ e ∈ data, wants name e.1 e.2 ≠ none)
    (hn : ∀ f ∈ data.flatMap (fun e => partsFor e.1 e.2 ((wants name e.1 e.2).getD [])),
      ∃ x, published f = some x ∧ Verif.Fields.camelRe x = true ∧ x ∉ reserved)
    (hu : ((data.flatMap (fun e => partsFor e.1 e.2 ((wants name e.1 e.2).getD []))).map published).Nodup) :
    ∃ b, make ext pre name label data = some b := by
  refine can_all data (done := []) ?_ ?_ (inv_common pre name label) hd.name hd.fields hk (freeAll_of ?_ hu)
  · intro p hp
    left
    simp only [common, List.mem_cons, List.not_mem_nil, or_false] at hp
    rcases hp with rfl | rfl | rfl <;> decide
  · intro f hf; cases hf
  · intro f hf
    refine ⟨?_, hn f hf, fun g hg => by cases hg⟩
    obtain ⟨e, he, hm⟩ := List.mem_flatMap.1 hf
    have hpn := hd.fields e he
    have hown : f = e.1 ∨ ∃ s ∈ ["UNITS", "CAPTURE", "DELAY"], f = e.1 ++ '.' :: String.toList s := by
      unfold partsFor at hm
      split at hm
      · exact .inl (List.mem_singleton.1 hm)
      · cases hw : wants name e.1 e.2 with
        | none => exact absurd hw (hk e he)
        | some ws =>
          rw [show wants (common ext pre name label).name e.1 e.2 = some ws from hw] at hm
          obtain ⟨w, hwm, rfl⟩ := List.mem_map.1 hm
          exact wants_suffix hw w hwm
    intro c hc
    rcases hown with rfl | ⟨s, hs, rfl⟩
    · rcases hpn c hc with h | h | h
      · exact .inl h
      · exact .inr (.inl h)
      · exact .inr (.inr (.inl h))
    · rcases List.mem_append.1 hc with hc | hc
      · rcases hpn c hc with h | h | h
        · exact .inl h
        · exact .inr (.inl h)
        · exact .inr (.inr (.inl h))
      · rcases List.mem_cons.1 hc with rfl | hc
        · exact .inr (.inr (.inr rfl))
        · left
          have hup : ∀ s ∈ ["UNITS", "CAPTURE", "DELAY"], ∀ c ∈ String.toList s, Verif.Fields.upper c = true := by decide
          exact hup s hs c hc

/-- An action of the PandA is a method -/
theorem actions_are_methods {pre name label : Text} {data : List (Text × FieldData)} {b : Block V} (hd : Fields name data)
    (h : make ext pre name label data = some b) {n : Text} {fd : FieldData} (hm : (n, fd) ∈ data) (hh : upper n ≠ "HEALTH".toList)
    (ht : fd.typ = "write") (hs : fd.subtyp = "action") : ∃ m, published n = some m ∧ m ∈ b.methods := by
  obtain ⟨-, -, hall⟩ := makeAll_spec data (inv_common pre name label) hd.name hd.fields hd.once h
  exact (hall (n, fd) hm).2.2.2 hh ht hs

/-- What the busses table shows is not taken for the block -/
theorem busses_elsewhere {pre name label : Text} {data : List (Text × FieldData)} {b : Block V} (hd : Fields name data)
    (h : make ext pre name label data = some b) {n : Text} {fd : FieldData} (hm : (n, fd) ∈ data) (hh : upper n ≠ "HEALTH".toList) :
    ∀ k ∈ elsewhere n fd, attrOf b k = none := by
  obtain ⟨-, -, hall⟩ := makeAll_spec data (inv_common pre name label) hd.name hd.fields hd.once h
  intro k hk
  simp [attrOf, (hall (n, fd) hm).2.1 hh k hk]

/-- An attribute shows one field: what is reported under two names is in two attributes -/
theorem one_attribute_each {pre name label : Text} {data : List (Text × FieldData)} {b : Block V} (hd : Fields name data)
    (h : make ext pre name label data = some b) {f g attr : Text} (h1 : b.fields.get? f = some (some attr))
    (h2 : b.fields.get? g = some (some attr)) : f = g :=
  (makeAll_spec data (inv_common pre name label) hd.name hd.fields hd.once h).1.inj f g attr h1 h2

/-! ### histories -/

section
variable [DecidableEq V]

/-- After any history of reports and puts, an attribute shows the last value that it was told: by the PandA, in what was heard
of its reports, or by a put that the PandA has accepted; before that it has its first value -/
theorem shows_last_told {pre name label : Text} {data : List (Text × FieldData)} {b : Block V} (hd : Fields name data)
    (h : make ext pre name label data = some b) {f : Text} {a : Attr V} (ha : attrOf b f = some a) (evs : List (Ev V)) :
    ∃ evs', HeardAll ext b evs evs' ∧ ∃ a', attrOf (run ext b evs) f = some a' ∧
      a'.value = ((evs'.flatMap (told ext a f)).getLast?).getD a.value := by
  have hw := (makeAll_spec data (inv_common pre name label) hd.name hd.fields hd.once h).1.toWf
  obtain ⟨evs', hh, r⟩ := run_spec (ext := ext) evs hw
  obtain ⟨a', h1, h2, -⟩ := r.attr f a ha
  exact ⟨evs', hh, a', h1, h2⟩

/-- What is heard is determined by the history -/
theorem heard_determined {b : Block V} {evs evs1 evs2 : List (Ev V)} (h1 : HeardAll ext b evs evs1) (h2 : HeardAll ext b evs evs2) :
    evs1 = evs2 := by
  induction h1 generalizing evs2 with
  | nil => cases h2; rfl
  | report h _ ih => cases h2 with | report h' g => rw [ih g, heard_unique h h']
  | send _ ih => cases h2 with | send g => rw [ih g]
  | done _ ih => cases h2 with | done g => rw [ih g]

/-- Nothing is heard that was not said -/
theorem heard_sub {b : Block V} {cs hs : List (Text × Raw)} (h : Heard ext b cs hs) : ∀ c ∈ hs, c ∈ cs := by
  induction h with
  | nil => intro c hc; cases hc
  | refused _ => intro c hc; exact List.mem_cons.2 (.inl (List.mem_singleton.1 hc))
  | cons _ _ ih =>
    intro c hc
    rcases List.mem_cons.1 hc with rfl | hc
    · exact List.mem_cons_self
    · exact List.mem_cons_of_mem _ (ih c hc)

/-- If no report has anything that is refused, all of it is heard -/
theorem all_heard {b : Block V} {evs : List (Ev V)} (h : ∀ cs, Ev.report cs ∈ evs → ∀ c ∈ cs, ¬ Refused ext b c) :
    HeardAll ext b evs evs := by
  have hr : ∀ cs : List (Text × Raw), (∀ c ∈ cs, ¬ Refused ext b c) → Heard ext b cs cs := by
    intro cs
    induction cs with
    | nil => intro _; exact .nil
    | cons c cs ih => intro h; exact .cons (h c List.mem_cons_self) (ih fun c hc => h c (List.mem_cons_of_mem _ hc))
  induction evs with
  | nil => exact .nil
  | cons e evs ih =>
    have hrest := ih fun cs hc => h cs (List.mem_cons_of_mem _ hc)
    cases e with
    | report cs => exact .report (hr cs (h cs List.mem_cons_self)) hrest
    | send f v => exact .send hrest
    | done f v => exact .done hrest

/-- Every value that the PandA reports and every put that it accepts is shown until the next, if no report has anything that is
refused. Missing: a report with a value that is refused (see `bad_value_hides_others`) -/
theorem shows_last_told_partial {pre name label : Text} {data : List (Text × FieldData)} {b : Block V} (hd : Fields name data)
    (h : make ext pre name label data = some b) {f : Text} {a : Attr V} (ha : attrOf b f = some a) (evs : List (Ev V))
    (hn : ∀ cs, Ev.report cs ∈ evs → ∀ c ∈ cs, ¬ Refused ext b c) :
    ∃ a', attrOf (run ext b evs) f = some a' ∧ a'.value = ((evs.flatMap (told ext a f)).getLast?).getD a.value := by
  obtain ⟨evs', hh, a', h1, h2⟩ := shows_last_told hd h ha evs
  rw [heard_determined hh (all_heard hn)] at h2
  exact ⟨a', h1, h2⟩

/-- An attribute stays what it was made: its type, whether it can be put, and all its tags but the links -/
theorem meaning_stays {pre name label : Text} {data : List (Text × FieldData)} {b : Block V} (hd : Fields name data)
    (h : make ext pre name label data = some b) {f : Text} {a : Attr V} (ha : attrOf b f = some a) (evs : List (Ev V)) :
    ∃ a', attrOf (run ext b evs) f = some a' ∧ a'.kind = a.kind ∧ a'.writeable = a.writeable ∧
      a'.tags.filter (fun t => !"linkedvalue:".toList.isPrefixOf t) = a.tags.filter (fun t => !"linkedvalue:".toList.isPrefixOf t) ∧
      (f ∉ b.muxes → a'.tags = a.tags) := by
  have hw := (makeAll_spec data (inv_common pre name label) hd.name hd.fields hd.once h).1.toWf
  obtain ⟨evs', hh, r⟩ := run_spec (ext := ext) evs hw
  obtain ⟨a', h1, -, h3, h4, -⟩ := r.attr f a ha
  obtain ⟨a'', h1', hk, hwr, -⟩ := r.same.attrOf ha
  rw [h1] at h1'
  cases h1'
  exact ⟨a', h1, hk, hwr, h3, fun hm => h4 (.inr hm)⟩

/-- An input is linked to the output that the PandA last reported for it, and to nothing if that is no output or if nothing was reported -/
theorem link_follows {pre name label : Text} {data : List (Text × FieldData)} {b : Block V} (hd : Fields name data)
    (h : make ext pre name label data = some b) {n : Text} {fd : FieldData} (hm : (n, fd) ∈ data) (hh : upper n ≠ "HEALTH".toList)
    (ht : fd.typ = "bit_mux" ∨ fd.typ = "pos_mux") (evs : List (Ev V)) :
    ∃ evs', HeardAll ext b evs evs' ∧ ∃ a', attrOf (run ext b evs) n = some a' ∧
      (evs'.flatMap (reported n) = [] → links a'.tags = []) ∧
      (∀ v, (evs'.flatMap (reported n)).getLast? = some v → ¬ Refused ext b (n, v) → ∃ t, v = .text t ∧ LinkOk pre t a'.tags) := by
  obtain ⟨i, ⟨ks, -, g⟩, hall⟩ := makeAll_spec data (inv_common pre name label) hd.name hd.fields hd.once h
  obtain ⟨⟨ws, hws, hw⟩, -, hmux, -⟩ := hall (n, fd) hm
  have hin := hmux hh ht
  obtain ⟨w, hwm, hwf⟩ : ∃ w ∈ ws, w.field = n := by
    have hws' : wants name n fd = some ws := hws
    unfold wants at hws'
    rw [if_neg hh] at hws'
    rcases ht with ht | ht <;> rw [ht] at hws' <;> cases hws' <;> exact ⟨_, List.mem_cons_self, rfl⟩
  obtain ⟨attr, a, h1, h2, h3, h4, h5⟩ := hw w hwm
  rw [hwf] at h2
  have hao : attrOf b n = some a := by simp [attrOf, h2, h3]
  obtain ⟨evs', hheard, r⟩ := run_spec (ext := ext) evs i.toWf
  obtain ⟨a', h1', -, -, h6, h7⟩ := r.attr n a hao
  refine ⟨evs', hheard, a', h1', fun he => ?_, fun v hv hr => ?_⟩
  · rw [h6 (.inl he)]
    exact i.muxed n hin attr a h2 h3
  · have := h7 v hv hr hin
    rw [g.mriPrefix] at this
    exact this

/-- The link of an input leads to the attribute of the other block that stands for the output -/
theorem link_leads_to_output {pre name label : Text} {data : List (Text × FieldData)} {b : Block V} (hd : Fields name data)
    (h : make ext pre name label data = some b) {n : Text} {fd : FieldData} (hm : (n, fd) ∈ data) (hh : upper n ≠ "HEALTH".toList)
    (ht : fd.typ = "bit_out" ∨ fd.typ = "pos_out") {tags : List Text} (hl : LinkOk pre (name ++ '.' :: n) tags) :
    ∃ attr a port, links tags = ["linkedvalue:".toList ++ attr ++ ':' :: mri b] ∧ b.attrs.get? attr = some a ∧ attrOf b n = some a ∧
      portTagDetails a.tags = .found true port (name ++ '.' :: n) := by
  obtain ⟨i, ⟨ks, -, g⟩, -⟩ := makeAll_spec data (inv_common pre name label) hd.name hd.fields hd.once h
  obtain ⟨ws, hws, hw⟩ := made_as_documented hd h hm
  obtain ⟨w, port, hwm, hwf, hwp⟩ : ∃ w port, w ∈ ws ∧ w.field = n ∧ w.port = .found true port (name ++ '.' :: n) := by
    unfold wants at hws
    rw [if_neg hh] at hws
    rcases ht with ht | ht <;> rw [ht] at hws <;> cases hws <;> exact ⟨_, _, List.mem_cons_self, rfl, rfl⟩
  obtain ⟨attr, a, h1, h2, h3, h4, -⟩ := hw w hwm
  rw [hwf] at h1 h3
  obtain ⟨attr', ha', hlk⟩ := hl.1 name n rfl (clean_name hd.name).2.2 (clean_name (hd.fields _ hm)).2.2
  rw [h1] at ha'
  cases ha'
  refine ⟨attr, a, port, ?_, h2, h3, by rw [h4.port, hwp]⟩
  rw [hlk]
  unfold mri
  rw [g.mriPrefix, g.name]
  rfl

/-- The health of the block is what the PandA last said of it -/
theorem health_follows {pre name label : Text} {data : List (Text × FieldData)} {b : Block V} (hd : Fields name data)
    (h : make ext pre name label data = some b) (evs : List (Ev V)) :
    ∃ evs', HeardAll ext b evs evs' ∧ (run ext b evs).health = ((evs'.flatMap healthTold).getLast?).getD "OK".toList := by
  obtain ⟨i, ⟨ks, -, g⟩, -⟩ := makeAll_spec data (inv_common pre name label) hd.name hd.fields hd.once h
  obtain ⟨evs', hh, r⟩ := run_spec (ext := ext) evs i.toWf
  refine ⟨evs', hh, ?_⟩
  rw [r.health, g.rest.2.1]
  rfl

/-- Every block has an icon, a label and a help; of these only the label can be put, and it alone is saved -/
theorem every_block_has {pre name label : Text} {data : List (Text × FieldData)} {b : Block V} (hd : Fields name data)
    (h : make ext pre name label data = some b) :
    ∃ i l p, b.attrs.get? "icon".toList = some i ∧ b.attrs.get? "label".toList = some l ∧ b.attrs.get? "help".toList = some p ∧
      i.writeable = false ∧ l.writeable = true ∧ p.writeable = false ∧ i.kind = .string ∧ l.kind = .string ∧ p.kind = .string ∧
      getConfigTag i.tags = none ∧ getConfigTag l.tags = some (configTag 1) ∧ getConfigTag p.tags = none := by
  obtain ⟨-, ⟨ks, -, g⟩, -⟩ := makeAll_spec data (inv_common pre name label) hd.name hd.fields hd.once h
  exact ⟨_, _, _, g.attrs "icon".toList _ rfl, g.attrs "label".toList _ rfl, g.attrs "help".toList _ rfl, rfl, rfl, rfl, rfl, rfl, rfl,
    show getConfigTag [widgetTag "icon".toList] = none by decide +kernel,
    show getConfigTag [widgetTag "textinput".toList, configTag 1] = some (configTag 1) by decide +kernel,
    show getConfigTag [widgetTag "help".toList] = none by decide +kernel⟩

/-- The PandA is told to set what is put to writeable attributes, in order, and nothing else -/
theorem puts_are_sent {pre name label : Text} {data : List (Text × FieldData)} {b : Block V} (hd : Fields name data)
    (h : make ext pre name label data = some b) (evs : List (Ev V)) :
    (run ext b evs).sent = evs.flatMap (sets b) := by
  obtain ⟨i, ⟨ks, -, g⟩, -⟩ := makeAll_spec data (inv_common pre name label) hd.name hd.fields hd.once h
  obtain ⟨evs', -, r⟩ := run_spec (ext := ext) evs i.toWf
  rw [r.sent, g.rest.2.2]
  rfl

/-! ### the icon -/

/-- The values of the fields that the icon shows -/
def iconShould (b : Block V) : List (Text × V) := b.iconFields.filterMap fun k => (attrOf b k).map fun a => (k, a.value)

theorem iconValues_eq (b : Block V) : iconValues b = iconShould b := by
  unfold iconValues iconShould
  congr 1
  funext k
  unfold attrOf
  cases b.fields.get? k with
  | none => rfl
  | some o => cases o <;> rfl

/-- The fields that the icon of a block shows, by the type of the block; the name of a block is its type and its number -/
def iconWants : List (Text × List Text) :=
  [("LUT".toList, ["FUNC".toList, "TYPEA".toList, "TYPEB".toList, "TYPEC".toList, "TYPED".toList, "TYPEE".toList]),
   ("PULSE".toList, ["TRIG_EDGE".toList]), ("PCAP".toList, ["TRIG_EDGE".toList]),
   ("SRGATE".toList, ["SET_EDGE".toList, "RST_EDGE".toList])]

/-- The icon is drawn from the fields for the type of the block, whatever its number -/
theorem icon_fields {pre typ num label : Text} {data : List (Text × FieldData)} {b : Block V} (hd : Fields (typ ++ num) data)
    (h : make ext pre (typ ++ num) label data = some b) (hn : ∀ c ∈ num, c.isDigit = true) {fs : List Text} (ht : (typ, fs) ∈ iconWants) :
    b.iconFields = fs := by
  obtain ⟨-, ⟨ks, -, g⟩, -⟩ := makeAll_spec data (inv_common pre (typ ++ num) label) hd.name hd.fields hd.once h
  rw [g.iconFields]
  show iconFieldsOf (typ ++ num) = fs
  have hs : ∀ num : Text, (∀ c ∈ num, c.isDigit = true) → ∀ rest : Text, (num ++ rest).dropWhile Char.isDigit = rest.dropWhile Char.isDigit := by
    intro num
    induction num with
    | nil => intro _ _; rfl
    | cons c cs ih =>
      intro h rest
      rw [List.cons_append, List.dropWhile_cons, if_pos (h c List.mem_cons_self)]
      exact ih (fun c hc => h c (List.mem_cons_of_mem _ hc)) rest
  have hstrip : rstripDigits (typ ++ num) = rstripDigits typ := by
    unfold rstripDigits
    rw [List.reverse_append, hs _ (fun c hc => hn c (List.mem_reverse.1 hc))]
  unfold iconFieldsOf
  rw [hstrip]
  simp only [iconWants, List.mem_cons, List.not_mem_nil, or_false, Prod.mk.injEq] at ht
  rcases ht with ⟨rfl, rfl⟩ | ⟨rfl, rfl⟩ | ⟨rfl, rfl⟩ | ⟨rfl, rfl⟩ <;> decide

/-- A report: the icon is drawn anew if it tells a field of the icon, with the values that are then shown -/
theorem icon_drawn {pre name label : Text} {data : List (Text × FieldData)} {b : Block V} (hd : Fields name data)
    (h : make ext pre name label data = some b) (evs : List (Ev V)) (cs : List (Text × Raw))
    (hok : (handleChanges ext (run ext b evs) cs).2 = false) :
    (handleChanges ext (run ext b evs) cs).1.shownIcon =
      if ∃ c ∈ cs, c.1 ∈ b.iconFields ∧ (attrOf b c.1).isSome then some (iconShould (handleChanges ext (run ext b evs) cs).1)
      else (run ext b evs).shownIcon := by
  have hw := (makeAll_spec data (inv_common pre name label) hd.name hd.fields hd.once h).1.toWf
  obtain ⟨evs', -, r⟩ := run_spec (ext := ext) evs hw
  generalize run ext b evs = b1 at *
  have hw1 := hw.same r.same
  obtain ⟨s, hic, -, hs, -, hrr, hnr, -, -⟩ := changes_spec (ext := ext) cs hw1 false
  have hsome : ∀ k, (attrOf b1 k).isSome = (attrOf b k).isSome := by
    intro k
    cases hk : attrOf b k with
    | some a =>
      obtain ⟨a', h', -⟩ := r.same.attrOf hk
      rw [h']; rfl
    | none =>
      cases hk1 : attrOf b1 k with
      | none => rfl
      | some a1 =>
        exfalso
        unfold attrOf at hk hk1
        rw [r.same.fields] at hk1
        split at hk1
        · rename_i attr hf
          rw [hf] at hk
          dsimp only at hk
          have := r.same.attrs attr
          rw [hk, hk1] at this
          cases this
        · cases hk1
  unfold handleChanges at hok ⊢
  dsimp only at hok ⊢
  cases hra : (changes ext b1 false cs).raised with
  | true => rw [hra] at hok; simp at hok
  | false =>
    rw [hra] at hok
    rw [if_neg (by decide)] at hok ⊢
    obtain ⟨-, hicon⟩ := hnr hra
    have hiff : (changes ext b1 false cs).icon = true ↔ ∃ c ∈ cs, c.1 ∈ b.iconFields ∧ (attrOf b c.1).isSome := by
      rw [hicon, r.same.iconFields]
      simp only [hsome, Bool.false_eq_true, false_or]
    cases hi : (changes ext b1 false cs).icon with
    | false =>
      rw [if_neg (by decide), if_neg (fun g => by have := hiff.2 g; rw [hi] at this; cases this)]
      exact hic
    | true =>
      rw [hi] at hok
      rw [if_pos rfl] at hok ⊢
      rw [if_pos (hiff.1 hi)]
      split at hok
      · rename_i hdr
        rw [if_pos hdr]
        rw [iconValues_eq]
        rfl
      · simp at hok

/-- While the PandA is the only one who changes the block, and no report ends in an exception, the icon that is shown is the
one for the values that are shown. Missing: puts and refused values (see `put_leaves_icon`) -/
theorem icon_current_partial {pre name label : Text} {data : List (Text × FieldData)} {b : Block V} (hd : Fields name data)
    (h : make ext pre name label data = some b) (css : List (List (Text × Raw)))
    (hok : ∀ a cs c, css = a ++ cs :: c → (handleChanges ext (run ext b (a.map .report)) cs).2 = false) :
    (run ext b (css.map .report)).shownIcon = none ∨
    (run ext b (css.map .report)).shownIcon = some (iconShould (run ext b (css.map .report))) := by
  have hi0 : b.shownIcon = none := by
    obtain ⟨-, ⟨ks, -, g⟩, -⟩ := makeAll_spec data (inv_common pre name label) hd.name hd.fields hd.once h
    rw [g.rest.1]
    rfl
  have hw := (makeAll_spec data (inv_common pre name label) hd.name hd.fields hd.once h).1.toWf
  -- by induction from the end
  have main : ∀ (n : Nat) (css : List (List (Text × Raw))), css.length = n →
      (∀ a cs c, css = a ++ cs :: c → (handleChanges ext (run ext b (a.map .report)) cs).2 = false) →
      (run ext b (css.map .report)).shownIcon = none ∨
      (run ext b (css.map .report)).shownIcon = some (iconShould (run ext b (css.map .report))) := by
    intro n
    induction n with
    | zero =>
      intro css hl _
      cases css with
      | nil => exact .inl hi0
      | cons _ _ => cases hl
    | succ n ih =>
      intro css hl hok
      have hne : css ≠ [] := by intro e; rw [e] at hl; cases hl
      obtain ⟨init, cs, rfl⟩ : ∃ init cs, css = init ++ [cs] := ⟨css.dropLast, css.getLast hne, (List.dropLast_concat_getLast hne).symm⟩
      have hprev := ih init (by simpa using hl) (fun a x c e => hok a x (c ++ [cs]) (by rw [e]; simp))
      have hnow := hok init cs [] rfl
      have hrun : run ext b ((init ++ [cs]).map .report) = (handleChanges ext (run ext b (init.map .report)) cs).1 := by
        unfold run
        rw [List.map_append, List.foldl_append]
        rfl
      rw [hrun]
      have hdr := icon_drawn hd h (init.map .report) cs hnow
      by_cases hex : ∃ c ∈ cs, c.1 ∈ b.iconFields ∧ (attrOf b c.1).isSome
      · rw [if_pos hex] at hdr
        exact .inr hdr
      · rw [if_neg hex] at hdr
        rcases hprev with hp | hp
        · exact .inl (hdr.trans hp)
        · refine .inr ((hdr.trans hp).trans (congrArg some ?_))
          obtain ⟨_, -, r⟩ := run_spec (ext := ext) (init.map .report) hw
          have hw1 := hw.same r.same
          obtain ⟨hs, hheard, st⟩ := report_spec (ext := ext) hw1 cs
          unfold iconShould
          rw [st.same.iconFields, r.same.iconFields]
          have hcong : ∀ (l : List Text) (g1 g2 : Text → Option (Text × V)), (∀ k ∈ l, g1 k = g2 k) → l.filterMap g1 = l.filterMap g2 := by
            intro l g1 g2
            induction l with
            | nil => intro _; rfl
            | cons x l ih =>
              intro h
              rw [List.filterMap_cons, List.filterMap_cons, h x List.mem_cons_self, ih fun k hk => h k (List.mem_cons_of_mem _ hk)]
          refine hcong _ _ _ fun k hk => ?_
          cases ha : attrOf (run ext b (init.map .report)) k with
          | none =>
            cases hb : attrOf (handleChanges ext (run ext b (init.map .report)) cs).1 k with
            | none => rfl
            | some a1 =>
              exfalso
              unfold attrOf at ha hb
              rw [st.same.fields] at hb
              split at hb
              · rename_i attr hf
                rw [hf] at ha
                dsimp only at ha
                have := st.same.attrs attr
                rw [ha, hb] at this
                cases this
              · cases hb
          | some a =>
            obtain ⟨a', h1, h2, -⟩ := st.attr k a ha
            rw [h1]
            have hnone : told ext a k (.report hs) = [] := by
              unfold told
              rw [List.filterMap_eq_nil_iff]
              intro c hc
              have hcs : c ∈ cs := by
                exact heard_sub hheard c hc
              rw [if_neg]
              rintro rfl
              refine hex ⟨c, hcs, hk, ?_⟩
              cases hb : attrOf b c.1 with
              | some _ => rfl
              | none =>
                exfalso
                unfold attrOf at ha hb
                rw [r.same.fields] at ha
                split at ha
                · rename_i attr hf
                  rw [hf] at hb
                  dsimp only at hb
                  have := r.same.attrs attr
                  rw [ha, hb] at this
                  cases this
                · cases ha
            rw [hnone] at h2
            simp [h2]
  exact main css.length css rfl hok

end

/-! ### a block -/

section Example

/-- Values as they are reported; a number must be of digits, and a choice one of its labels -/
def ext1 : Ext Raw where
  default := fun _ => .nothing
  validate := fun k v =>
    match k, v with
    | .number _, .text t => if t.all Char.isDigit then some v else none
    | .choice l, .text t => if t ∈ l then some v else none
    | .choice _, _ => none
    | _, _ => some v
  draws := fun _ => true

/-- A pulse block -/
def data1 : List (Text × FieldData) :=
  [("TRIG".toList, ⟨"bit_mux", "", ["TTLIN1.VAL".toList, "ONE".toList, "SEQ1.OUTA".toList, "ZERO".toList]⟩),
   ("DELAY".toList, ⟨"time", "", []⟩), ("PULSES".toList, ⟨"param", "uint", []⟩),
   ("TRIG_EDGE".toList, ⟨"param", "enum", ["Rising".toList, "Falling".toList]⟩), ("OUT".toList, ⟨"bit_out", "", []⟩),
   ("FORCE_RST".toList, ⟨"write", "action", []⟩), ("QUEUED".toList, ⟨"read", "uint", []⟩), ("HEALTH".toList, ⟨"read", "enum", []⟩)]

/-- A block of positions -/
def data2 : List (Text × FieldData) := [("VAL".toList, ⟨"pos_out", "", []⟩), ("INP".toList, ⟨"pos_mux", "", []⟩), ("TABLE".toList, ⟨"table", "", []⟩)]

def b1 : Block Raw := (make ext1 "PANDA".toList "PULSE1".toList "Pulse 1".toList data1).getD (common ext1 [] [] [])

theorem fields1 : Fields "PULSE1".toList data1 := ⟨by decide, by decide, by decide⟩
theorem made1 : make ext1 "PANDA".toList "PULSE1".toList "Pulse 1".toList data1 = some b1 := by decide +kernel

/-- the attributes of the pulse block -/
example : b1.attrs.keys = ["icon", "label", "help", "inputs", "trig", "trigDelay", "parameters", "delay", "delayUnits", "pulses", "trigEdge",
    "outputs", "out", "readbacks", "queued"].map String.toList ∧ b1.methods = ["forceRst".toList] := by decide +kernel

example : ∃ b, make ext1 "PANDA".toList "PULSE1".toList "Pulse 1".toList data1 = some b :=
  made fields1 (by decide +kernel) (by
    have : ∀ f ∈ data1.flatMap (fun e => partsFor e.1 e.2 ((wants "PULSE1".toList e.1 e.2).getD [])),
      (published f).any (fun x => Verif.Fields.camelRe x && !decide (x ∈ reserved)) = true := by decide +kernel
    intro f hf
    obtain ⟨x, hx, h⟩ := (Option.any_eq_true _ _).1 (this f hf)
    simp only [Bool.and_eq_true, Bool.not_eq_true', decide_eq_false_iff_not] at h
    exact ⟨x, hx, h⟩) (by decide +kernel)
example := made_as_documented (ext := ext1) fields1 made1 (n := "DELAY".toList) (fd := ⟨"time", "", []⟩) (by decide)
example : ∃ m, published "FORCE_RST".toList = some m ∧ m ∈ b1.methods :=
  actions_are_methods (ext := ext1) fields1 made1 (fd := ⟨"write", "action", []⟩) (by decide) (by decide) rfl rfl
example : ∃ b, make ext1 "PANDA".toList "INENC1".toList "Encoder 1".toList data2 = some b ∧
    ∀ k ∈ ["VAL.CAPTURE".toList, "VAL.SCALE".toList], attrOf b k = none := by
  have hm : (make ext1 "PANDA".toList "INENC1".toList "Encoder 1".toList data2).isSome = true := by decide +kernel
  obtain ⟨b, hb⟩ := Option.isSome_iff_exists.1 hm
  have hall := busses_elsewhere (ext := ext1) ⟨by decide, by decide, by decide⟩ hb (n := "VAL".toList) (fd := ⟨"pos_out", "", []⟩) (by decide) (by decide)
  exact ⟨b, hb, fun k hk => hall k (by revert hk; revert k; decide)⟩
example : "TRIG".toList = "TRIG".toList := one_attribute_each (ext := ext1) fields1 made1 (attr := "trig".toList) (by decide +kernel) (by decide +kernel)

/-- A history: reports, and a put -/
def evs1 : List (Ev Raw) :=
  [.report [("TRIG".toList, .text "SEQ1.OUTA".toList), ("PULSES".toList, .text "3".toList), ("HEALTH".toList, .text "Ok".toList)],
   .send "PULSES".toList (.text "5".toList), .done "PULSES".toList (.text "5".toList),
   .report [("PULSES".toList, .text "5".toList), ("TRIG_EDGE".toList, .text "Falling".toList), ("HEALTH".toList, .text "Too fast".toList)]]

example : ((attrOf (run ext1 b1 evs1) "PULSES".toList).map (·.value)) = some (.text "5".toList) ∧
    ((attrOf (run ext1 b1 evs1) "TRIG".toList).map (links ·.tags)) = some ["linkedvalue:outa:PANDA:SEQ1".toList] ∧
    (run ext1 b1 evs1).health = "Too fast".toList ∧ (run ext1 b1 evs1).sent = [("PULSES".toList, .text "5".toList)] ∧
    (run ext1 b1 evs1).shownIcon = some [("TRIG_EDGE".toList, .text "Falling".toList)] := by decide +kernel

/-- nothing in it is refused -/
theorem evs1_fine : ∀ cs, Ev.report cs ∈ evs1 → ∀ c ∈ cs, ¬ Refused ext1 b1 c := by
  have hone : ∀ cs : List (Text × Raw), (changes ext1 b1 false cs).raised = false → ∀ c ∈ cs, ¬ Refused ext1 b1 c := by
    intro cs hr c hc hre
    obtain ⟨i, -, -⟩ := makeAll_spec data1 (inv_common "PANDA".toList "PULSE1".toList "Pulse 1".toList) fields1.name fields1.fields fields1.once made1
    obtain ⟨-, -, -, hs, hheard, hiff, himp, -⟩ := changes_spec (ext := ext1) cs i.toWf false
    have := hiff.2 ⟨c, by rw [(himp hr).1]; exact hc, hre⟩
    rw [hr] at this
    cases this
  intro cs hcs
  simp only [evs1, List.mem_cons, Ev.report.injEq, List.not_mem_nil, or_false, reduceCtorEq, false_or] at hcs
  rcases hcs with rfl | rfl
  · exact hone _ (by decide +kernel)
  · exact hone _ (by decide +kernel)

example := shows_last_told_partial (ext := ext1) fields1 made1 (f := "PULSES".toList) (a := (attrOf b1 "PULSES".toList).getD ⟨.bool, true, [], .nothing, .field, false⟩)
  (by decide +kernel) evs1 evs1_fine
example := link_follows (ext := ext1) fields1 made1 (n := "TRIG".toList) (fd := ⟨"bit_mux", "", ["TTLIN1.VAL".toList, "ONE".toList, "SEQ1.OUTA".toList, "ZERO".toList]⟩)
  (by decide) (by decide) (.inl rfl) evs1
example := link_leads_to_output (ext := ext1) fields1 made1 (n := "OUT".toList) (fd := ⟨"bit_out", "", []⟩) (by decide) (by decide) (.inl rfl)
  (tags := ["linkedvalue:out:PANDA:PULSE1".toList]) (muxTags_link (pre := "PANDA".toList) (tags := []) (by decide +kernel))
example := health_follows (ext := ext1) fields1 made1 evs1
example : (run ext1 b1 evs1).sent = evs1.flatMap (sets b1) := puts_are_sent (ext := ext1) fields1 made1 evs1
example : b1.iconFields = ["TRIG_EDGE".toList] :=
  icon_fields (ext := ext1) (typ := "PULSE".toList) (num := "1".toList) fields1 made1 (by decide) (by decide)
example := icon_drawn (ext := ext1) fields1 made1 evs1 [("TRIG_EDGE".toList, .text "Rising".toList)] (by decide +kernel)
example := icon_current_partial (ext := ext1) fields1 made1 [[("TRIG_EDGE".toList, .text "Rising".toList)]] (by
  intro a cs c e
  cases a with
  | nil => cases e; decide +kernel
  | cons x a => cases a <;> cases e)
example := meaning_stays (ext := ext1) fields1 made1 (f := "PULSES".toList) (a := (attrOf b1 "PULSES".toList).getD ⟨.bool, true, [], .nothing, .field, false⟩)
  (by decide +kernel) evs1

/-! ### what goes wrong -/

/-- One value that an attribute refuses hides all that comes after it in the report: PULSES stays as it was although the PandA
said that it is 3 now -/
theorem bad_value_hides_others : ∃ cs : List (Text × Raw), ("PULSES".toList, Raw.text "3".toList) ∈ cs ∧
    ¬ Refused ext1 b1 ("PULSES".toList, .text "3".toList) ∧
    (attrOf (run ext1 b1 [.report cs]) "PULSES".toList).map (·.value) = some .nothing := by
  refine ⟨[("TRIG_EDGE".toList, .text "Either".toList), ("PULSES".toList, .text "3".toList)], by decide, ?_, by decide +kernel⟩
  exact evs1_fine _ List.mem_cons_self _ (by decide)

/-- The answer to a put that arrives after a newer report hides it: the PandA has 6, the attribute shows 5 -/
theorem late_put_hides_report :
    (attrOf (run ext1 b1 [.send "PULSES".toList (.text "5".toList), .report [("PULSES".toList, .text "6".toList)],
      .done "PULSES".toList (.text "5".toList)]) "PULSES".toList).map (·.value) = some (.text "5".toList) := by decide +kernel

/-- A put is shown at once, but the icon and the link stay until the next report -/
theorem put_leaves_icon : ∃ evs : List (Ev Raw), (attrOf (run ext1 b1 evs) "TRIG_EDGE".toList).map (·.value) = some (.text "Rising".toList) ∧
    (run ext1 b1 evs).shownIcon = some [("TRIG_EDGE".toList, .text "Falling".toList)] ∧
    (attrOf (run ext1 b1 evs) "TRIG".toList).map (·.value) = some (.text "TTLIN1.VAL".toList) ∧
    (attrOf (run ext1 b1 evs) "TRIG".toList).map (links ·.tags) = some ["linkedvalue:outa:PANDA:SEQ1".toList] :=
  ⟨evs1 ++ [.send "TRIG_EDGE".toList (.text "Rising".toList), .done "TRIG_EDGE".toList (.text "Rising".toList),
    .send "TRIG".toList (.text "TTLIN1.VAL".toList), .done "TRIG".toList (.text "TTLIN1.VAL".toList)], by decide +kernel⟩

/-- A field with the name of one of the attributes of all blocks: the block, and with it the PandA, cannot be made -/
theorem help_field_unmade : make ext1 "PANDA".toList "PULSE1".toList "Pulse 1".toList [("HELP".toList, ⟨"param", "uint", []⟩)] = none := by
  decide +kernel

end Example

end Verif.Props.PandABlock
