import Verif.Spec.PandATalk
import Verif.Proofs.PyDict
import Verif.Props.Tags
import Verif.Props.PandAClient
/-!
C98: "What the PandA says about its blocks, fields, tables and changes is what Malcolm takes it to be, and what Malcolm
sets is what the PandA is told."
-/
set_option linter.unusedVariables false
namespace Verif.Props.PandATalk
open Verif Verif.PandAClient Verif.PandATalk Verif.Spec.PandATalk

/-! ### words -/

theorem words_cons_blank (c : Char) (t : Text) (h : blank c = true) : words (c :: t) = words t := by
  show (if blank c then _ else _) = _
  rw [if_pos h]

theorem words_word (w : Text) (h : Word w) : words w = [w] := by
  obtain ⟨hne, hb⟩ := h
  induction w with
  | nil => exact absurd rfl hne
  | cons c cs ih =>
    have hc := hb c (List.mem_cons_self ..)
    show (if blank c then _ else _) = _
    rw [hc]
    cases cs with
    | nil => rfl
    | cons d ds =>
      have hd := hb d (by simp)
      have := ih (by simp) (fun x hx => hb x (List.mem_cons_of_mem _ hx))
      simp only [hd, this, Bool.false_eq_true, if_false]

theorem words_append (w : Text) (h : Word w) (t : Text) : words (w ++ ' ' :: t) = w :: words t := by
  obtain ⟨hne, hb⟩ := h
  induction w with
  | nil => exact absurd rfl hne
  | cons c cs ih =>
    have hc := hb c (List.mem_cons_self ..)
    cases cs with
    | nil =>
      show (if blank c then _ else _) = _
      rw [hc]
      show [c] :: words (' ' :: t) = _
      rw [words_cons_blank _ _ (by decide)]
    | cons d ds =>
      have hd := hb d (by simp)
      have := ih (by simp) (fun x hx => hb x (List.mem_cons_of_mem _ hx))
      show (if blank c then _ else _) = _
      rw [hc]
      show (if blank d then _ else match words (d :: ds ++ ' ' :: t) with | w :: ws => (c :: w) :: ws | [] => [[c]]) = _
      rw [this, hd]
      rfl

theorem showInt_word (n : Int) : Word (Tags.showInt n) := by
  have hd : ∀ k : Nat, ∀ c ∈ Nat.toDigits 10 k, blank c = false := by
    intro k c hk
    have h := Nat.isDigit_of_mem_toDigits (b := 10) (by decide) (by decide) hk
    simp only [blank, Bool.or_eq_false_iff, decide_eq_false_iff_not]
    refine ⟨⟨⟨⟨⟨?_, ?_⟩, ?_⟩, ?_⟩, ?_⟩, ?_⟩ <;> (intro e; subst e; exact absurd h (by decide))
  have hne : ∀ k : Nat, Nat.toDigits 10 k ≠ [] := by
    intro k e
    have := Tags.readInt_digits k
    rw [e] at this
    cases this
  unfold Tags.showInt
  split
  · refine ⟨by simp, ?_⟩
    intro c hc
    rcases List.mem_cons.1 hc with e | hc
    · subst e; decide
    · exact hd _ c hc
  · exact ⟨hne _, hd _⟩

/-! ### loops -/

theorem set_fresh {V : Type} (d : Dict Text V) (k : Text) (v : V) (h : k ∉ Dict.keys d) : d.set k v = d ++ [(k, v)] := by
  induction d with
  | nil => rfl
  | cons x d ih =>
    obtain ⟨k', v'⟩ := x
    simp only [Dict.keys, List.map_cons, List.mem_cons, not_or] at h
    show (if k' = k then _ else _) = _
    rw [if_neg (fun e => h.1 e.symm), ih h.2]
    rfl

theorem collect_some {α β : Type} (f : α → Option β) (g : α → β) (l : List α) (h : ∀ x ∈ l, f x = some (g x)) :
    collect f l = some (l.map g) := by
  induction l with
  | nil => rfl
  | cons x l ih =>
    show (match f x, collect f l with | some y, some ys => some (y :: ys) | _, _ => none) = _
    rw [h x (List.mem_cons_self ..), ih (fun y hy => h y (List.mem_cons_of_mem _ hy))]
    rfl

theorem numbers_read (bs : List Block) (d : Dict Text Int) (hn : (bs.map (·.name)).Nodup)
    (hd : ∀ b ∈ bs, b.name ∉ Dict.keys d) (hw : ∀ b ∈ bs, Word b.name) :
    numbersLoop (bs.map blockLine) d = some (d ++ bs.map (fun b => (b.name, b.number))) := by
  induction bs generalizing d with
  | nil => show some d = _; rw [List.map_nil, List.append_nil]
  | cons b bs ih =>
    simp only [List.map_cons, List.nodup_cons, List.mem_map, not_exists, not_and] at hn
    have hl : words (blockLine b) = [b.name, Tags.showInt b.number] := by
      unfold blockLine
      rw [words_append _ (hw b (List.mem_cons_self ..)), words_word _ (showInt_word _)]
    show (match words (blockLine b) with
      | [name, number] => (match Tags.readInt number with
        | some n => numbersLoop (bs.map blockLine) (d.set name n) | none => none)
      | _ => none) = _
    rw [hl]
    simp only [Tags.readInt_show]
    rw [set_fresh _ _ _ (hd b (List.mem_cons_self ..)), ih _ hn.2]
    · simp
    · intro b' hb'
      simp only [Dict.keys, List.map_append, List.map_cons, List.map_nil, List.mem_append, List.mem_singleton, not_or]
      exact ⟨hd b' (List.mem_cons_of_mem _ hb'), fun e => hn.1 b' hb' e⟩
    · exact fun b' hb' => hw b' (List.mem_cons_of_mem _ hb')

theorem fields_read (fs : List Field) (d : Dict Text (Int × Text × Text)) (hn : (fs.map (·.name)).Nodup)
    (hd : ∀ f ∈ fs, f.name ∉ Dict.keys d)
    (hw : ∀ f ∈ fs, Word f.name ∧ Word f.type ∧ (f.subtype = [] ∨ Word f.subtype)) :
    fieldsLoop (fs.map fieldLine) d = some (d ++ fs.map (fun f => (f.name, f.index, f.type, f.subtype))) := by
  induction fs generalizing d with
  | nil => show some d = _; rw [List.map_nil, List.append_nil]
  | cons f fs ih =>
    simp only [List.map_cons, List.nodup_cons, List.mem_map, not_exists, not_and] at hn
    obtain ⟨h1, h2, h3⟩ := hw f (List.mem_cons_self ..)
    have rest : fieldsLoop (fs.map fieldLine) (d.set f.name (f.index, f.type, f.subtype)) =
        some (d ++ (f :: fs).map (fun f => (f.name, f.index, f.type, f.subtype))) := by
      rw [set_fresh _ _ _ (hd f (List.mem_cons_self ..)), ih _ hn.2]
      · simp
      · intro b' hb'
        simp only [Dict.keys, List.map_append, List.map_cons, List.map_nil, List.mem_append, List.mem_singleton, not_or]
        exact ⟨hd b' (List.mem_cons_of_mem _ hb'), fun e => hn.1 b' hb' e⟩
      · exact fun b' hb' => hw b' (List.mem_cons_of_mem _ hb')
    rw [List.map_cons]
    unfold fieldsLoop
    rcases h3 with h3 | h3
    · have hl : words (fieldLine f) = [f.name, Tags.showInt f.index, f.type] := by
        unfold fieldLine
        rw [if_pos h3, List.append_nil, List.append_assoc, List.cons_append, words_append _ h1, words_append _ (showInt_word _),
          words_word _ h2]
      rw [hl]
      simp only [Tags.readInt_show]
      rw [h3] at rest
      exact rest
    · have hl : words (fieldLine f) = [f.name, Tags.showInt f.index, f.type, f.subtype] := by
        unfold fieldLine
        rw [if_neg h3.1, List.append_assoc, List.append_assoc, List.cons_append, List.cons_append, words_append _ h1,
          words_append _ (showInt_word _), words_append _ h2, words_word _ h3]
      rw [hl]
      simp only [Tags.readInt_show]
      exact rest

/-! ### labels -/

theorem isEnum_iff (t s : Text) :
    isEnum t s = true ↔ t = "bit_mux".toList ∨ t = "pos_mux".toList ∨ s = "enum".toList := by
  unfold isEnum
  rw [Bool.or_eq_true, Bool.or_eq_true, decide_eq_true_iff, decide_eq_true_iff, decide_eq_true_iff, or_assoc]

/-- what is read of a field -/
def row (f : Field) : Text × Int × Text × Text := (f.name, f.index, f.type, f.subtype)

theorem mem_enumFields (fs : List Field) (n : Text) :
    n ∈ enumFields (fs.map row) ↔ ∃ f ∈ fs, labelled f = some n := by
  induction fs with
  | nil => simp [enumFields]
  | cons f fs ih =>
    have hx : ∀ o : Option Text, labelled f = o →
        ((∃ f' ∈ f :: fs, labelled f' = some n) ↔ o = some n ∨ ∃ f' ∈ fs, labelled f' = some n) := by
      intro o ho
      constructor
      · rintro ⟨f', hf, h⟩
        rcases List.mem_cons.1 hf with e | hf
        · subst e; exact Or.inl (ho ▸ h)
        · exact Or.inr ⟨f', hf, h⟩
      · rintro (h | ⟨f', hf, h⟩)
        · exact ⟨f, List.mem_cons_self .., ho.trans h⟩
        · exact ⟨f', List.mem_cons_of_mem _ hf, h⟩
    rw [List.map_cons]
    show n ∈ (if isEnum f.type f.subtype then f.name :: enumFields (fs.map row)
      else if f.type = "ext_out".toList then capture f.name :: enumFields (fs.map row) else enumFields (fs.map row)) ↔ _
    by_cases h1 : f.type = "bit_mux".toList ∨ f.type = "pos_mux".toList ∨ f.subtype = "enum".toList
    · rw [if_pos ((isEnum_iff _ _).2 h1), hx (some f.name) (by unfold labelled; rw [if_pos h1]), List.mem_cons, ih,
        Option.some.injEq, eq_comm]
    · rw [if_neg (fun h => h1 ((isEnum_iff _ _).1 h))]
      by_cases h2 : f.type = "ext_out".toList
      · rw [if_pos h2, hx (some (capture f.name)) (by unfold labelled capture; rw [if_neg h1, if_pos h2]), List.mem_cons, ih,
          Option.some.injEq, eq_comm]
      · rw [if_neg h2, hx none (by unfold labelled; rw [if_neg h1, if_neg h2]), ih]
        simp

theorem dot_capture (n : Text) : '.' ∈ capture n := by
  unfold capture
  exact List.mem_append_right _ (by decide)

theorem capture_inj {a b : Text} (h : capture a = capture b) : a = b := List.append_cancel_right h

theorem labelled_cases (f : Field) (n : Text) (h : labelled f = some n) : n = f.name ∨ n = capture f.name := by
  unfold labelled at h
  split at h
  · exact Or.inl (Option.some.inj h).symm
  · split at h
    · exact Or.inr (Option.some.inj h).symm
    · cases h

theorem name_inj {α β : Type} (g : α → β) (l : List α) (hn : (l.map g).Nodup) (a b : α) (ha : a ∈ l) (hb : b ∈ l)
    (h : g a = g b) : a = b := by
  induction l with
  | nil => cases ha
  | cons x l ih =>
    simp only [List.map_cons, List.nodup_cons, List.mem_map, not_exists, not_and] at hn
    rcases List.mem_cons.1 ha with e1 | h1 <;> rcases List.mem_cons.1 hb with e2 | h2
    · rw [e1, e2]
    · subst e1; exact (hn.1 b h2 h.symm).elim
    · subst e2; exact (hn.1 a h1 h).elim
    · exact ih hn.2 h1 h2

theorem labels_read (ask : Text → Resp) (bs : List Block) (hs : Describes ask bs) (hN : Named bs) (b : Block) (hb : b ∈ bs)
    (fs : List Field) (hfs : ∀ f, f ∈ fs ↔ f ∈ b.fields) (f : Field) (hf : f ∈ b.fields) :
    labels ask b.name (enumFields (fs.map row)) f.name = some (if (labelled f).isSome then f.labels else []) := by
  have hnd := hN.fields b hb
  have hplain := hN.plain b hb
  unfold labels
  by_cases h1 : f.name ∈ enumFields (fs.map row)
  · rw [if_pos h1]
    obtain ⟨g, hg, hl⟩ := (mem_enumFields _ _).1 h1
    have hg' := (hfs g).1 hg
    have hgf : g = f := by
      rcases labelled_cases g _ hl with e | e
      · exact name_inj _ _ hnd _ _ hg' hf e.symm
      · exact absurd (e ▸ dot_capture g.name) (hplain f hf)
    subst hgf
    have := hs.labels b hb g hf _ hl
    show loopOver (ask ("*ENUMS.".toList ++ b.name ++ '.' :: g.name ++ "?\n".toList)) = _
    rw [this, hl]
    rfl
  · rw [if_neg h1]
    by_cases h2 : capture f.name ∈ enumFields (fs.map row)
    · rw [if_pos h2]
      obtain ⟨g, hg, hl⟩ := (mem_enumFields _ _).1 h2
      have hg' := (hfs g).1 hg
      have hgf : g = f := by
        rcases labelled_cases g _ hl with e | e
        · exact absurd (e ▸ dot_capture f.name) (hplain g hg')
        · exact name_inj _ _ hnd _ _ hg' hf (capture_inj e).symm
      subst hgf
      have := hs.labels b hb g hf _ hl
      show loopOver (ask ("*ENUMS.".toList ++ b.name ++ '.' :: capture g.name ++ "?\n".toList)) = _
      rw [this, hl]
      rfl
    · rw [if_neg h2]
      have : labelled f = none := by
        cases hl : labelled f with
        | none => rfl
        | some n =>
          rcases labelled_cases f n hl with e | e
          · subst e; exact absurd ((mem_enumFields _ _).2 ⟨f, (hfs f).2 hf, hl⟩) h1
          · subst e; exact absurd ((mem_enumFields _ _).2 ⟨f, (hfs f).2 hf, hl⟩) h2
      rw [this]
      rfl

/-- If the PandA says which blocks and fields it has, then that is what the client returns, with the descriptions and
labels of each field: the blocks by name, the fields of a block by index. -/
theorem blocks_as_described (ask : Text → Resp) (bs : List Block) (hs : Describes ask bs) (hN : Named bs) :
    ∃ (bs' : List Block) (fs : Block → List Field), bs'.Perm bs ∧ bs'.Pairwise (fun a b => a.name ≤ b.name) ∧
      (∀ b ∈ bs, (fs b).Perm b.fields ∧ (fs b).Pairwise (fun f g => f.index ≤ g.index)) ∧
      getBlocksData ask = some (bs'.map (fun b => (b.name, ⟨b.number, b.description, (fs b).map seen⟩))) := by
  let bs' := bs.mergeSort (fun a b => decide (a.name ≤ b.name))
  let fs : Block → List Field := fun b => b.fields.mergeSort (fun f g => decide (f.index ≤ g.index))
  have hperm : bs'.Perm bs := List.mergeSort_perm _ _
  have hfperm : ∀ b, (fs b).Perm b.fields := fun b => List.mergeSort_perm _ _
  have hsortB : bs'.Pairwise (fun a b => a.name ≤ b.name) := by
    have := List.pairwise_mergeSort (le := fun (a b : Block) => decide (a.name ≤ b.name))
      (by intro a b c h1 h2; simp only [decide_eq_true_eq] at *; exact List.le_trans h1 h2)
      (by intro a b; simp only [Bool.or_eq_true, decide_eq_true_eq]; exact List.le_total _ _) bs
    exact this.imp (fun h => by simpa using h)
  have hsortF : ∀ b, (fs b).Pairwise (fun f g => f.index ≤ g.index) := by
    intro b
    have := List.pairwise_mergeSort (le := fun (a b : Field) => decide (a.index ≤ b.index))
      (by intro a b c h1 h2; simp only [decide_eq_true_eq] at *; omega)
      (by intro a b; simp only [Bool.or_eq_true, decide_eq_true_eq]; omega) b.fields
    exact this.imp (fun h => by simpa using h)
  refine ⟨bs', fs, hperm, hsortB, fun b _ => ⟨hfperm b, hsortF b⟩, ?_⟩
  have hnum : numbersLoop (bs.map blockLine) [] = some (bs.map (fun b => (b.name, b.number))) := by
    have := numbers_read bs [] hN.blocks (fun b _ => by simp [Dict.keys]) hN.word
    simpa using this
  have hkeys : sortNames (Dict.keys (bs.map (fun b => (b.name, b.number)))) = bs'.map (·.name) := by
    have h1 : Dict.keys (bs.map (fun b => (b.name, b.number))) = bs.map (·.name) := by simp [Dict.keys, Function.comp_def]
    rw [h1]
    show (bs.map (·.name)).mergeSort (fun a b => decide (a ≤ b)) = _
    exact (List.map_mergeSort (f := fun b : Block => b.name) (r := fun a b => decide (a.name ≤ b.name))
      (s := fun a b => decide (a ≤ b)) (fun a _ b _ => rfl)).symm
  have hone : ∀ b ∈ bs, blockData ask (bs.map (fun b => (b.name, b.number))) b.name =
      some (b.name, ⟨b.number, b.description, (fs b).map seen⟩) := by
    intro b hb
    have hg : Dict.get? (bs.map (fun b => (b.name, b.number))) b.name = some b.number := by
      refine Dict.get?_of_mem_nodup ?_ (List.mem_map.2 ⟨b, hb, rfl⟩)
      have : Dict.keys (bs.map (fun b => (b.name, b.number))) = bs.map (·.name) := by simp [Dict.keys, Function.comp_def]
      rw [this]
      exact hN.blocks
    have hd : stripOk (ask (askDesc b.name)) = some b.description := by
      unfold askDesc
      rw [hs.desc b hb]
      rfl
    have hl : loopOver (ask (askFields b.name)) = some (b.fields.map fieldLine) := by
      unfold askFields
      rw [hs.fields b hb]
      rfl
    have hf : fieldsLoop (b.fields.map fieldLine) [] = some (b.fields.map row) := by
      have := fields_read b.fields [] (hN.fields b hb) (fun b _ => by simp [Dict.keys]) (hN.words b hb)
      rw [List.nil_append] at this
      exact this
    have hsf : sortFields (b.fields.map row) = (fs b).map row := by
      exact (List.map_mergeSort (f := row) (r := fun f g : Field => decide (f.index ≤ g.index))
        (fun a _ b _ => rfl)).symm
    have hc : collect (fieldData ask b.name (enumFields ((fs b).map row))) ((fs b).map row) = some ((fs b).map seen) := by
      have : ((fs b).map seen) = ((fs b).map row).map (fun r => (r.1, (⟨r.2.2.1, r.2.2.2,
          (((stripOk (ask (askFieldDesc b.name r.1)))).getD []),
          ((labels ask b.name (enumFields ((fs b).map row)) r.1).getD [])⟩ : FieldData))) := by
        rw [List.map_map]
        apply List.map_congr_left
        intro f hf'
        have hf := (hfperm b).mem_iff.1 hf'
        have h1 := labels_read ask bs hs hN b hb (fs b) (fun f => (hfperm b).mem_iff) f hf
        have h2 : stripOk (ask (askFieldDesc b.name f.name)) = some f.description := by
          unfold askFieldDesc
          rw [hs.fieldDesc b hb f hf]
          rfl
        show seen f = (f.name, (⟨f.type, f.subtype, (stripOk (ask (askFieldDesc b.name f.name))).getD [],
          (labels ask b.name (enumFields ((fs b).map row)) f.name).getD []⟩ : FieldData))
        rw [h1, h2]
        rfl
      rw [this]
      apply collect_some
      intro r hr
      obtain ⟨f, hf', e⟩ := List.mem_map.1 hr
      subst e
      have hf := (hfperm b).mem_iff.1 hf'
      have h1 := labels_read ask bs hs hN b hb (fs b) (fun f => (hfperm b).mem_iff) f hf
      have h2 : stripOk (ask (askFieldDesc b.name f.name)) = some f.description := by
        unfold askFieldDesc
        rw [hs.fieldDesc b hb f hf]
        rfl
      have h1' : labels ask b.name (enumFields ((fs b).map row)) (row f).1 = _ := h1
      have h2' : stripOk (ask (askFieldDesc b.name (row f).1)) = _ := h2
      unfold fieldData
      rw [h1', h2']
      rfl
    unfold blockData
    rw [hg, hd, hl]
    simp only [hf, hsf, hc]
  unfold getBlocksData
  rw [hs.blocks]
  show (match numbersLoop (bs.map blockLine) [] with | none => none | some numbers => _) = _
  rw [hnum]
  simp only
  rw [hkeys]
  have : bs'.map (fun b => (b.name, (⟨b.number, b.description, (fs b).map seen⟩ : BlockData))) =
      (bs'.map (·.name)).map (fun n => ((blockData ask (bs.map (fun b => (b.name, b.number))) n).getD (n, ⟨0, [], []⟩))) := by
    rw [List.map_map]
    apply List.map_congr_left
    intro b hb
    show _ = (blockData ask (bs.map (fun b => (b.name, b.number))) b.name).getD _
    rw [hone b (hperm.mem_iff.1 hb)]
    rfl
  rw [this]
  apply collect_some
  intro n hn
  obtain ⟨b, hb, e⟩ := List.mem_map.1 hn
  subst e
  show blockData ask _ b.name = some ((blockData ask _ b.name).getD _)
  rw [hone b (hperm.mem_iff.1 hb)]
  rfl

theorem bitsFields_eq (fs : List Field)
    (hw : ∀ f ∈ fs, Word f.name ∧ Word f.type ∧ (f.subtype = [] ∨ Word f.subtype)) :
    bitsFields (fs.map fieldLine) =
      (fs.filter (fun f => decide (f.type = "ext_out".toList ∧ f.subtype = "bits".toList))).map
        (fun f => "PCAP.".toList ++ f.name) := by
  induction fs with
  | nil => rfl
  | cons f fs ih =>
    obtain ⟨h1, h2, h3⟩ := hw f (List.mem_cons_self ..)
    have ih := ih (fun g hg => hw g (List.mem_cons_of_mem _ hg))
    rw [List.map_cons, List.filter_cons]
    unfold bitsFields
    rcases h3 with h3 | h3
    · have hl : words (fieldLine f) = [f.name, Tags.showInt f.index, f.type] := by
        unfold fieldLine
        rw [if_pos h3, List.append_nil, List.append_assoc, List.cons_append, words_append _ h1, words_append _ (showInt_word _),
          words_word _ h2]
      rw [hl, if_neg (by rw [h3]; simp)]
      exact ih
    · have hl : words (fieldLine f) = [f.name, Tags.showInt f.index, f.type, f.subtype] := by
        unfold fieldLine
        rw [if_neg h3.1, List.append_assoc, List.append_assoc, List.cons_append, List.cons_append, words_append _ h1,
          words_append _ (showInt_word _), words_append _ h2, words_word _ h3]
      rw [hl]
      simp only
      by_cases h : f.type = "ext_out".toList ∧ f.subtype = "bits".toList
      · rw [if_pos h, if_pos (by simpa using h), ih, List.map_cons]
      · rw [if_neg h, if_neg (by simpa using h), ih]

/-- The lists of bits that can be captured are those of the fields of PCAP of that kind, by name. -/
theorem bits_as_described (ask : Text → Resp) (fs : List Field) (bits : Text → List Line)
    (hl : ask "PCAP.*?\n".toList = .lines (fs.map fieldLine))
    (hb : ∀ f ∈ fs, ask ("PCAP.".toList ++ f.name ++ ".BITS?\n".toList) = .lines (bits f.name))
    (hw : ∀ f ∈ fs, Word f.name ∧ Word f.type ∧ (f.subtype = [] ∨ Word f.subtype)) :
    ∃ fs' : List Field,
      fs'.Perm (fs.filter (fun f => decide (f.type = "ext_out".toList ∧ f.subtype = "bits".toList))) ∧
      fs'.Pairwise (fun f g => "PCAP.".toList ++ f.name ≤ "PCAP.".toList ++ g.name) ∧
      pcapBits ask = some (fs'.map (fun f => ("PCAP.".toList ++ f.name ++ ".CAPTURE".toList, bits f.name))) := by
  let key : Field → Text := fun f => "PCAP.".toList ++ f.name
  let sel := fs.filter (fun f => decide (f.type = "ext_out".toList ∧ f.subtype = "bits".toList))
  let fs' := sel.mergeSort (fun f g => decide (key f ≤ key g))
  have hp : fs'.Perm sel := List.mergeSort_perm _ _
  refine ⟨fs', hp, ?_, ?_⟩
  · have := List.pairwise_mergeSort (le := fun (a b : Field) => decide (key a ≤ key b))
      (by intro a b c h1 h2; simp only [decide_eq_true_eq] at *; exact List.le_trans h1 h2)
      (by intro a b; simp only [Bool.or_eq_true, decide_eq_true_eq]; exact List.le_total _ _) sel
    exact this.imp (fun h => by simpa [key] using h)
  · have hs : sortNames (sel.map key) = fs'.map key :=
      (List.map_mergeSort (f := key) (r := fun f g => decide (key f ≤ key g)) (s := fun a b => decide (a ≤ b))
        (fun a _ b _ => rfl)).symm
    have hbits : bitsFields (fs.map fieldLine) = sel.map key := bitsFields_eq fs hw
    have hone : ∀ f ∈ fs', bitsOf ask (key f) = some ("PCAP.".toList ++ f.name ++ ".CAPTURE".toList, bits f.name) := by
      intro f hf
      unfold bitsOf
      rw [hb f (List.mem_filter.1 (hp.mem_iff.1 hf)).1]
      rfl
    unfold pcapBits
    rw [hl]
    show collect (bitsOf ask) (sortNames (bitsFields (fs.map fieldLine))) = _
    rw [hbits, hs]
    have hm : fs'.map (fun f => ("PCAP.".toList ++ f.name ++ ".CAPTURE".toList, bits f.name)) =
        (fs'.map key).map (fun k => (bitsOf ask k).getD (k, [])) := by
      rw [List.map_map]
      apply List.map_congr_left
      intro f hf
      show _ = (bitsOf ask (key f)).getD _
      rw [hone f hf]
      rfl
    rw [hm]
    apply collect_some
    intro k hk
    obtain ⟨f, hf, e⟩ := List.mem_map.1 hk
    subst e
    rw [hone f hf]
    rfl

/-! ### tables -/

theorem columns_read (cs : List Column) (d : Dict Text (Text × Option Text)) (hn : (cs.map (·.name)).Nodup)
    (hd : ∀ c ∈ cs, c.name ∉ Dict.keys d) (hw : ∀ c ∈ cs, Word c.name ∧ ∀ k, c.kind = some k → Word k) :
    tableLoop (cs.map columnLine) d =
      some (d ++ cs.map (fun c => (c.name, Tags.showInt c.hi ++ ':' :: Tags.showInt c.lo, c.kind))) := by
  induction cs generalizing d with
  | nil => show some d = _; rw [List.map_nil, List.append_nil]
  | cons c cs ih =>
    simp only [List.map_cons, List.nodup_cons, List.mem_map, not_exists, not_and] at hn
    obtain ⟨h1, h2⟩ := hw c (List.mem_cons_self ..)
    have hbits : Word (Tags.showInt c.hi ++ ':' :: Tags.showInt c.lo) := by
      refine ⟨by simp, ?_⟩
      intro x hx
      rcases List.mem_append.1 hx with hx | hx
      · exact (showInt_word c.hi).2 x hx
      · rcases List.mem_cons.1 hx with e | hx
        · subst e; decide
        · exact (showInt_word c.lo).2 x hx
    have rest : tableLoop (cs.map columnLine) (d.set c.name (Tags.showInt c.hi ++ ':' :: Tags.showInt c.lo, c.kind)) =
        some (d ++ (c :: cs).map (fun c => (c.name, Tags.showInt c.hi ++ ':' :: Tags.showInt c.lo, c.kind))) := by
      rw [set_fresh _ _ _ (hd c (List.mem_cons_self ..)), ih _ hn.2]
      · simp
      · intro b' hb'
        simp only [Dict.keys, List.map_append, List.map_cons, List.map_nil, List.mem_append, List.mem_singleton, not_or]
        exact ⟨hd b' (List.mem_cons_of_mem _ hb'), fun e => hn.1 b' hb' e⟩
      · exact fun b' hb' => hw b' (List.mem_cons_of_mem _ hb')
    rw [List.map_cons]
    unfold tableLoop
    cases hk : c.kind with
    | none =>
      have hl : words (columnLine c) = [Tags.showInt c.hi ++ ':' :: Tags.showInt c.lo, c.name] := by
        unfold columnLine
        rw [hk]
        simp only [List.append_nil]
        rw [words_append _ hbits, words_word _ h1]
      rw [hl]
      rw [hk] at rest
      exact rest
    | some k =>
      have hl : words (columnLine c) = [Tags.showInt c.hi ++ ':' :: Tags.showInt c.lo, c.name, k] := by
        unfold columnLine
        rw [hk]
        simp only []
        rw [List.append_assoc, List.cons_append, words_append _ hbits, words_append _ h1, words_word _ (h2 k hk)]
      rw [hl]
      rw [hk] at rest
      exact rest

theorem bits_read (hi lo : Int) : readBits (Tags.showInt hi ++ ':' :: Tags.showInt lo) = some (hi, lo) := by
  have h := Tags.no_colon hi
  have h1 : (Tags.showInt hi ++ ':' :: Tags.showInt lo).dropWhile (· ≠ ':') = ':' :: Tags.showInt lo := by
    rw [List.dropWhile_append_of_pos]
    · simp
    · intro x hx
      simp only [ne_eq, decide_not, Bool.not_eq_true', decide_eq_false_iff_not]
      intro e; exact h (e ▸ hx)
  have h2 : (Tags.showInt hi ++ ':' :: Tags.showInt lo).takeWhile (· ≠ ':') = Tags.showInt hi := by
    rw [List.takeWhile_append_of_pos]
    · simp
    · intro x hx
      simp only [ne_eq, decide_not, Bool.not_eq_true', decide_eq_false_iff_not]
      intro e; exact h (e ▸ hx)
  unfold readBits
  rw [h1, h2]
  simp only [Tags.readInt_show]

/-- The same for the fields of a table, in the order in which the PandA lists them: the bits they are in, labels only for
enums, and signed just if they are called int. -/
theorem table_as_described (ask : Text → Resp) (block field : Text) (cs : List Column)
    (h : DescribesTable ask block field cs) :
    getTableFields ask block field = some (cs.map (fun c => (c.name, ⟨c.hi, c.lo, c.description,
      if c.kind = some "enum".toList then some c.labels else none, decide (c.kind = some "int".toList)⟩))) := by
  have hc := columns_read cs [] h.nodup (fun _ _ => by simp [Dict.keys]) h.words
  rw [List.nil_append] at hc
  unfold getTableFields
  rw [h.fields]
  show (match tableLoop (cs.map columnLine) [] with | none => none | some fields => _) = _
  rw [hc]
  simp only
  have hone : ∀ c ∈ cs, tableField ask block field (c.name, Tags.showInt c.hi ++ ':' :: Tags.showInt c.lo, c.kind) =
      some (c.name, ⟨c.hi, c.lo, c.description, if c.kind = some "enum".toList then some c.labels else none,
        decide (c.kind = some "int".toList)⟩) := by
    intro c hm
    unfold tableField askTable
    rw [bits_read, h.desc c hm]
    simp only [stripOk]
    show (if c.kind = some "enum".toList then _ else _) = _
    by_cases he : c.kind = some "enum".toList
    · rw [if_pos he, h.labels c hm he, if_pos he]
      rw [he]
      rfl
    · rw [if_neg he, if_neg he]
      rfl
  have hm : cs.map (fun c => (c.name, (⟨c.hi, c.lo, c.description,
      if c.kind = some "enum".toList then some c.labels else none, decide (c.kind = some "int".toList)⟩ : TableField))) =
      (cs.map (fun c => (c.name, Tags.showInt c.hi ++ ':' :: Tags.showInt c.lo, c.kind))).map
        (fun r => (tableField ask block field r).getD (r.1, ⟨0, 0, [], none, false⟩)) := by
    rw [List.map_map]
    apply List.map_congr_left
    intro c hc
    show _ = (tableField ask block field (c.name, Tags.showInt c.hi ++ ':' :: Tags.showInt c.lo, c.kind)).getD _
    rw [hone c hc]
    rfl
  rw [hm]
  apply collect_some
  intro r hr
  obtain ⟨c, hc, e⟩ := List.mem_map.1 hr
  subst e
  rw [hone c hc]
  rfl

/-! ### changes -/

theorem takeWhile_stop (a b : Text) (c : Char) (h : c ∉ a) : (a ++ c :: b).takeWhile (· ≠ c) = a := by
  rw [List.takeWhile_append_of_pos]
  · simp
  · intro x hx
    simp only [ne_eq, decide_not, Bool.not_eq_true', decide_eq_false_iff_not]
    intro e; exact h (e ▸ hx)

theorem dropWhile_stop (a b : Text) (c : Char) (h : c ∉ a) : (a ++ c :: b).dropWhile (· ≠ c) = c :: b := by
  rw [List.dropWhile_append_of_pos]
  · simp
  · intro x hx
    simp only [ne_eq, decide_not, Bool.not_eq_true', decide_eq_false_iff_not]
    intro e; exact h (e ▸ hx)

/-- Names that `get_changes` can tell from what follows -/
def Readable : Change → Prop
  | .value f _ => '=' ∉ f
  | .table f => '=' ∉ f
  | .failed f => '=' ∉ f ∧ ' ' ∉ f

theorem changes_loop (errors : Bool) (cs : List Change) (tables : List Text) (hr : ∀ c ∈ cs, Readable c)
    (hn : (tables ++ cs.filterMap Change.tableOf).Nodup) :
    changesLoop errors (cs.map Change.line) tables =
      some (cs.filterMap (Change.seen errors), tables ++ cs.filterMap Change.tableOf) := by
  induction cs generalizing tables with
  | nil => simp [changesLoop]
  | cons c cs ih =>
    have hr' : ∀ c ∈ cs, Readable c := fun x hx => hr x (List.mem_cons_of_mem _ hx)
    have hc := hr c (List.mem_cons_self ..)
    rw [List.map_cons]
    unfold changesLoop
    cases c with
    | value f v =>
      have hc : '=' ∉ f := hc
      have hin : '=' ∈ Change.line (.value f v) := List.mem_append_right _ (List.mem_cons_self ..)
      simp only [if_pos hin]
      rw [ih tables hr' hn]
      show some ((List.takeWhile _ (f ++ '=' :: v), Value.text (List.drop 1 (List.dropWhile _ (f ++ '=' :: v)))) ::
        List.filterMap (Change.seen errors) cs, _) = _
      rw [takeWhile_stop _ _ _ hc, dropWhile_stop _ _ _ hc]
      rfl
    | table f =>
      have hc : '=' ∉ f := hc
      have hin : '=' ∉ Change.line (.table f) := by
        show '=' ∉ f ++ ['<']
        intro h
        rcases List.mem_append.1 h with h | h
        · exact hc h
        · exact absurd h (by decide)
      have hne : Change.line (.table f) ≠ [] := by show f ++ ['<'] ≠ []; simp
      have hlast : (Change.line (.table f)).getLast? = some '<' := by show (f ++ ['<']).getLast? = _; simp
      have hdrop : (Change.line (.table f)).dropLast = f := by show (f ++ ['<']).dropLast = _; simp
      have hnew : f ∉ tables := by
        intro h
        exact (List.nodup_append.1 hn).2.2 f h f (by simp [Change.tableOf]) rfl
      simp only [if_neg hin, if_neg hne, if_pos hlast, hdrop, if_neg hnew]
      have hn' : (tables ++ [f] ++ cs.filterMap Change.tableOf).Nodup := by
        rw [List.append_assoc]
        exact hn
      rw [ih _ hr' hn']
      simp [Change.seen, Change.tableOf]
    | failed f =>
      have hc : '=' ∉ f ∧ ' ' ∉ f := hc
      have hin : '=' ∉ Change.line (.failed f) := by
        show '=' ∉ f ++ " (error)".toList
        intro h
        rcases List.mem_append.1 h with h | h
        · exact hc.1 h
        · exact absurd h (by decide)
      have hne : Change.line (.failed f) ≠ [] := by show f ++ " (error)".toList ≠ []; simp
      have hlast : (Change.line (.failed f)).getLast? ≠ some '<' := by
        show (f ++ " (error)".toList).getLast? ≠ _
        simp
      have hsuf : "(error)".toList.isSuffixOf (Change.line (.failed f)) = true := by
        show "(error)".toList.isSuffixOf (f ++ " (error)".toList) = true
        rw [List.isSuffixOf_iff_suffix]
        exact ⟨f ++ [' '], by simp⟩
      have htake : (Change.line (.failed f)).takeWhile (· ≠ ' ') = f := takeWhile_stop f "(error)".toList ' ' hc.2
      have hn' : (tables ++ cs.filterMap Change.tableOf).Nodup := hn
      simp only [if_neg hin, if_neg hne, if_neg hlast, if_pos hsuf, htake]
      cases errors with
      | true =>
        simp only [if_true]
        rw [ih _ hr' hn']
        rfl
      | false =>
        simp only [Bool.false_eq_true, if_false]
        rw [ih _ hr' hn']
        rfl

/-- Every change that is reported is passed on with its value, in the order of the report; the tables that have changed
come again at the end with their rows, as they are when they are asked for. -/
theorem changes_as_reported (ask : Text → Resp) (cs : List Change) (errors : Bool) (hr : ∀ c ∈ cs, Readable c)
    (hn : (cs.filterMap Change.tableOf).Nodup) (rows : Text → List Line)
    (ha : ∀ f, .table f ∈ cs → ask (f ++ "?\n".toList) = .lines (rows f)) :
    getChanges ask (.lines (cs.map Change.line)) errors =
      some (cs.filterMap (Change.seen errors) ++ (cs.filterMap Change.tableOf).map (fun f => (f, .rows (rows f)))) := by
  have hl := changes_loop errors cs [] hr hn
  rw [List.nil_append] at hl
  unfold getChanges
  show (match changesLoop errors (cs.map Change.line) [] with | none => none | some (out, tables) => _) = _
  rw [hl]
  simp only
  rw [collect_some _ (fun f => (f, Value.rows (rows f)))]
  intro f hf
  obtain ⟨c, hc, e⟩ := List.mem_filterMap.1 hf
  cases c with
  | table g =>
    cases e
    unfold askField
    rw [ha f hc]
    rfl
  | value => cases e
  | failed => cases e

/-! ### setting -/

theorem lines_of_message (t rest : Text) (h : '\n' ∉ t) : splitLines (t ++ '\n' :: rest) = t :: splitLines rest :=
  PandAClient.split_line t rest h

theorem target_stop (f rest : Text) (c : Char) (hc : c = '=' ∨ c = '?' ∨ c = '<') (hp : Plain f) : target (f ++ c :: rest) = f := by
  unfold target
  rw [List.takeWhile_append_of_pos]
  · rw [List.takeWhile_cons_of_neg, List.append_nil]
    rcases hc with e | e | e <;> subst e <;> decide
  · intro x hx
    have := hp x hx
    simp [this.1, this.2.1, this.2.2.1]

/-- The PandA is told to set exactly this field to exactly this value, if the value is one line. -/
theorem set_as_asked_partial (f v : Text) (hp : Plain f) (hv : '\n' ∉ v) : told (setMessage f v) = [.assign f v] := by
  have hl : '\n' ∉ f ++ '=' :: v := by
    intro h
    rcases List.mem_append.1 h with h | h
    · exact (hp _ h).2.2.2 rfl
    · rcases List.mem_cons.1 h with h | h
      · exact absurd h (by decide)
      · exact hv h
  unfold told setMessage
  rw [lines_of_message _ [] hl]
  show readCommands [f ++ '=' :: v] none = _
  unfold readCommands
  rw [target_stop f v '=' (Or.inl rfl) hp, List.drop_left]
  rfl

/-- All fields are set, in order, whatever the PandA replies; the user is told if one was refused, and which. -/
theorem all_set_partial (ask : Text → Resp) (values : List (Text × Text)) (hv : ∀ x ∈ values, Plain x.1 ∧ '\n' ∉ x.2) :
    told (setFields ask values).1.flatten = values.map (fun x => .assign x.1 x.2) ∧
    ((setFields ask values).2 = none ↔ ∀ x ∈ values, ask (x.1 ++ '=' :: x.2 ++ ['\n']) = .line "OK".toList) ∧
    ∀ f, (setFields ask values).2 = some f →
      ∃ v, (f, v) ∈ values ∧ ask (f ++ '=' :: v ++ ['\n']) ≠ .line "OK".toList := by
  refine ⟨?_, ?_, ?_⟩
  · unfold setFields told
    simp only
    induction values with
    | nil => rfl
    | cons x l ih =>
      obtain ⟨h1, h2⟩ := hv x (List.mem_cons_self ..)
      have hl : '\n' ∉ x.1 ++ '=' :: x.2 := by
        intro h
        rcases List.mem_append.1 h with h | h
        · exact (h1 _ h).2.2.2 rfl
        · rcases List.mem_cons.1 h with h | h
          · exact absurd h (by decide)
          · exact h2 h
      rw [List.map_cons, List.flatten_cons]
      unfold setMessage
      rw [List.append_assoc, List.singleton_append, lines_of_message _ _ hl, List.dropLast_cons_of_ne_nil (PandAClient.split_ne _)]
      have ih := ih (fun y hy => hv y (List.mem_cons_of_mem _ hy))
      unfold setMessage at ih
      rw [List.map_cons]
      unfold readCommands
      rw [target_stop x.1 x.2 '=' (Or.inl rfl) h1, List.drop_left]
      exact congrArg _ ih
  · unfold setFields setMessage
    simp only [Option.map_eq_none_iff, List.find?_eq_none, decide_eq_true_eq, ne_eq, Decidable.not_not]
  · intro f h
    unfold setFields at h
    simp only [Option.map_eq_some_iff] at h
    obtain ⟨x, hx, e⟩ := h
    subst e
    refine ⟨x.2, List.mem_of_find?_eq_some hx, ?_⟩
    have := List.find?_some hx
    simpa [setMessage] using this

theorem rows_read (f : Text) (rows done : List Text) (hr : ∀ r ∈ rows, r ≠ [] ∧ '\n' ∉ r) :
    readCommands (splitLines (rows.flatMap (fun r => r ++ ['\n']) ++ ['\n'])).dropLast (some (f, done)) =
      [.table f (done ++ rows)] := by
  induction rows generalizing done with
  | nil =>
    show readCommands [[]] (some (f, done)) = _
    simp [readCommands]
  | cons r rows ih =>
    obtain ⟨h1, h2⟩ := hr r (List.mem_cons_self ..)
    rw [List.flatMap_cons, List.append_assoc, List.append_assoc, List.singleton_append, lines_of_message _ _ h2,
      List.dropLast_cons_of_ne_nil (PandAClient.split_ne _)]
    unfold readCommands
    rw [if_neg h1, ih _ (fun y hy => hr y (List.mem_cons_of_mem _ hy))]
    simp

/-- The PandA is told to set this table to these rows, if none is empty and each is one line; the words of a table are. -/
theorem table_as_asked_partial (block field : Text) (rows : List Text) (hb : Plain block) (hf : Plain field)
    (hr : ∀ r ∈ rows, r ≠ [] ∧ '\n' ∉ r) :
    told (tableMessage block field rows) = [.table (block ++ '.' :: field) rows] := by
  have hp : Plain (block ++ '.' :: field) := by
    intro c hc
    rcases List.mem_append.1 hc with h | h
    · exact hb c h
    · rcases List.mem_cons.1 h with h | h
      · subst h; decide
      · exact hf c h
  have hl : '\n' ∉ (block ++ '.' :: field) ++ ['<'] := by
    intro h
    rcases List.mem_append.1 h with h | h
    · exact (hp _ h).2.2.2 rfl
    · exact absurd h (by decide)
  unfold told tableMessage
  have e : block ++ '.' :: field ++ "<\n".toList ++ (rows.flatMap (fun r => r ++ ['\n'])) ++ ['\n'] =
      (block ++ '.' :: field ++ ['<']) ++ '\n' :: ((rows.flatMap (fun r => r ++ ['\n'])) ++ ['\n']) := by simp
  rw [e, lines_of_message _ _ hl, List.dropLast_cons_of_ne_nil (PandAClient.split_ne _)]
  unfold readCommands
  rw [target_stop _ [] '<' (Or.inr (Or.inr rfl)) hp, List.drop_left]
  exact rows_read _ rows [] hr

/-- The rows that are whole numbers are such. -/
theorem numbers_one_line (values : List Int) : ∀ r ∈ intRows values, r ≠ [] ∧ '\n' ∉ r := by
  intro r hr
  obtain ⟨n, _, e⟩ := List.mem_map.1 hr
  subst e
  obtain ⟨h1, h2⟩ := showInt_word n
  exact ⟨h1, fun h => absurd (h2 _ h) (by decide)⟩

/-- A label with a line end in it makes the PandA do what the second line says. -/
theorem label_gives_command : told (setMessage "*METADATA.LABEL_TTLIN1".toList "a\n*PCAP.ARM=".toList) =
    [.assign "*METADATA.LABEL_TTLIN1".toList "a".toList, .assign "*PCAP.ARM".toList []] := by
  decide +kernel

/-- It gets two replies for it, so that the one to the second line goes to the next request, and so on from then on. -/
theorem replies_shifted : (run (Id := Nat) {} [.send 1, .send 2,
    .recv (("OK\nOK\nOK =5\n".toList).map Char.toNat)]).loop.delivered =
      [(1, .line "OK".toList), (2, .line "OK".toList)] := by decide +kernel

/-! ### an example -/

def seqBlock : Block where
  name := "SEQ".toList
  number := 2
  description := "Sequencer".toList
  fields := [⟨"BITA".toList, 1, "bit_mux".toList, [], "Input".toList, ["ZERO".toList, "ONE".toList]⟩,
    ⟨"TABLE".toList, 0, "table".toList, [], "Rows".toList, []⟩,
    ⟨"OUT".toList, 2, "ext_out".toList, "bits".toList, "Out".toList, ["No".toList, "Value".toList]⟩]

def answers : List (Text × Resp) :=
  [("*BLOCKS?\n".toList, .lines ["SEQ 2".toList]),
   ("*DESC.SEQ?\n".toList, .line "OK =Sequencer".toList),
   ("SEQ.*?\n".toList, .lines ["BITA 1 bit_mux".toList, "TABLE 0 table".toList, "OUT 2 ext_out bits".toList]),
   ("*DESC.SEQ.BITA?\n".toList, .line "OK =Input".toList),
   ("*DESC.SEQ.TABLE?\n".toList, .line "OK =Rows".toList),
   ("*DESC.SEQ.OUT?\n".toList, .line "OK =Out".toList),
   ("*ENUMS.SEQ.BITA?\n".toList, .lines ["ZERO".toList, "ONE".toList]),
   ("*ENUMS.SEQ.OUT.CAPTURE?\n".toList, .lines ["No".toList, "Value".toList]),
   ("SEQ.TABLE.FIELDS?\n".toList, .lines ["15:0 REPEATS".toList, "19:16 TRIGGER enum".toList, "63:32 POSITION int".toList]),
   ("*DESC.SEQ.TABLE[].REPEATS?\n".toList, .line "OK =Repeats".toList),
   ("*DESC.SEQ.TABLE[].TRIGGER?\n".toList, .line "OK =Trigger".toList),
   ("*DESC.SEQ.TABLE[].POSITION?\n".toList, .line "OK =Position".toList),
   ("*ENUMS.SEQ.TABLE[].TRIGGER?\n".toList, .lines ["Immediate".toList]),
   ("SEQ1.TABLE?\n".toList, .lines ["1".toList, "2".toList])]

def answer (t : Text) : Resp := (answers.find? (fun x => decide (x.1 = t))).elim (.error "ERR".toList) (·.2)

example : Describes answer [seqBlock] where
  blocks := by decide +kernel
  desc := by
    intro b hb
    rw [List.mem_singleton.1 hb]
    decide +kernel
  fields := by
    intro b hb
    rw [List.mem_singleton.1 hb]
    decide +kernel
  fieldDesc := by
    intro b hb f hf
    rw [List.mem_singleton.1 hb] at hf ⊢
    simp only [seqBlock, List.mem_cons, List.not_mem_nil, or_false] at hf
    rcases hf with e | e | e <;> subst e <;> decide +kernel
  labels := by
    intro b hb f hf n hn
    rw [List.mem_singleton.1 hb] at hf ⊢
    simp only [seqBlock, List.mem_cons, List.not_mem_nil, or_false] at hf
    rcases hf with e | e | e <;> subst e
    · have : n = "BITA".toList := by
        have h : labelled ⟨"BITA".toList, 1, "bit_mux".toList, [], "Input".toList, ["ZERO".toList, "ONE".toList]⟩ = some "BITA".toList := by
          decide +kernel
        rw [h] at hn; exact (Option.some.inj hn).symm
      subst this; decide +kernel
    · have h : labelled ⟨"TABLE".toList, 0, "table".toList, [], "Rows".toList, []⟩ = none := by decide +kernel
      rw [h] at hn; cases hn
    · have : n = "OUT.CAPTURE".toList := by
        have h : labelled ⟨"OUT".toList, 2, "ext_out".toList, "bits".toList, "Out".toList, ["No".toList, "Value".toList]⟩ =
            some "OUT.CAPTURE".toList := by decide +kernel
        rw [h] at hn; exact (Option.some.inj hn).symm
      subst this; decide +kernel

example : Named [seqBlock] where
  blocks := by decide +kernel
  fields := by decide +kernel
  word := by unfold Word; decide +kernel
  words := by unfold Word; decide +kernel
  plain := by decide +kernel

example : getTableFields answer "SEQ".toList "TABLE".toList =
    some [("REPEATS".toList, ⟨15, 0, "Repeats".toList, none, false⟩),
      ("TRIGGER".toList, ⟨19, 16, "Trigger".toList, some ["Immediate".toList], false⟩),
      ("POSITION".toList, ⟨63, 32, "Position".toList, none, true⟩)] := by decide +kernel

example : getChanges answer (.lines ["TTLIN1.VAL=1".toList, "SEQ1.TABLE<".toList, "X.Y (error)".toList, "Z=a=b".toList]) false =
    some [("TTLIN1.VAL".toList, .text "1".toList), ("SEQ1.TABLE".toList, .nothing), ("Z".toList, .text "a=b".toList),
      ("SEQ1.TABLE".toList, .rows ["1".toList, "2".toList])] := by decide +kernel

example : told (tableMessage "SEQ1".toList "TABLE".toList (intRows [1, -2])) =
    [.table "SEQ1.TABLE".toList ["1".toList, "-2".toList]] := by decide +kernel

end Verif.Props.PandATalk
