import Verif.Spec.DesignFiles
import Verif.Proofs.PandAMake
import Verif.Props.Design
/-!
C113: the files of designs.
-/
namespace Verif.Props.DesignFiles
open Verif Verif.DesignFiles Verif.Spec.DesignFiles
open Verif.Design (stem)
open Verif.PandABlock (sortTexts)
open Verif.Spec.PandABlock (Sorted)
open Verif.Proofs.PandABlock (sort_perm sort_sorted)

/-! ### Names and paths -/

theorem split_flat : ∀ {n : Name}, '/' ∉ n → split n = [n]
  | [], _ => rfl
  | c :: cs, h => by
    have h1 : '/' ∉ cs := fun hm => h (List.mem_cons_of_mem _ hm)
    have h2 : c ≠ '/' := fun e => h (e ▸ List.mem_cons_self)
    simp [split, split_flat h1, h2]

theorem flat_json {n : Name} (h : '/' ∉ n) : '/' ∉ n ++ json := by
  simp [json, h]

theorem stem_plain {n : Name} (h : ¬ json <:+: n) : stem n = n :=
  Verif.Design.stem_plain fun ⟨a, b, e⟩ => h ⟨a, b, e.symm⟩

theorem stem_json : ∀ {n : Name}, ¬ json <:+: n → stem (n ++ json) = n
  | [], _ => by decide
  | c :: cs, h => by
    have h1 : ¬ json <:+: cs := fun ⟨a, b, e⟩ => h ⟨c :: a, b, by rw [← e]; simp⟩
    have h2 : ['.', 'j', 's', 'o', 'n'].isPrefixOf (c :: (cs ++ json)) = false := by
      cases hp : ['.', 'j', 's', 'o', 'n'].isPrefixOf (c :: (cs ++ json))
      · rfl
      · exfalso
        match cs, h, hp with
        | [], _, hp => simp [json] at hp
        | [x], _, hp => simp [json] at hp
        | [x, y], _, hp => simp [json] at hp
        | [x, y, z], _, hp => simp [json] at hp
        | x :: y :: z :: u :: r, h, hp =>
          simp at hp
          obtain ⟨rfl, rfl, rfl, rfl, rfl⟩ := hp
          exact h ⟨[], r, rfl⟩
    rw [List.cons_append, stem, if_neg (by rw [h2]; simp), stem_json h1]

theorem head_flat {n : Name} (h : '/' ∉ n) : n.head? ≠ some '/' := by
  cases n with
  | nil => simp
  | cons c cs => intro e; simp at e; exact h (e ▸ List.mem_cons_self)

theorem pre_false {n : Name} (h : ¬ templatePre <+: n) : templatePre.isPrefixOf n = false := by
  cases hp : templatePre.isPrefixOf n
  · rfl
  · exact absurd (List.isPrefixOf_iff_prefix.1 hp) h

theorem target_good (d : Disk) (b : Block) {n : Name} (h : Good n) : target d b n = some (fileOf b n) := by
  unfold target
  rw [pre_false h.own, stem_plain h.plain, split_flat (flat_json h.flat)]
  simp [head_flat h.flat, walk, fileOf]

theorem target_template (d : Disk) (b : Block) {n : Name} (h : Template n) {t : Path} (ht : b.templates = some t) :
    target d b n = some (t ++ [n ++ json]) := by
  unfold target
  rw [List.isPrefixOf_iff_prefix.2 h.pre, stem_plain h.plain, split_flat (flat_json h.flat)]
  simp [head_flat h.flat, walk, ht]

theorem mem_entries {paths : List Path} {dir : Path} {f : Name} : f ∈ entries paths dir ↔ dir ++ [f] ∈ paths := by
  unfold entries
  rw [List.mem_filterMap]
  constructor
  · rintro ⟨p, hp, e⟩
    split at e
    · rename_i hc
      obtain ⟨h1, rfl⟩ := hc
      have : p = p.dropLast ++ [f] := by
        rw [List.getLast?_eq_some_getLast h1] at e
        injection e with e
        rw [← e, List.dropLast_concat_getLast]
      rw [← this]; exact hp
    · cases e
  · intro h
    exact ⟨_, h, by simp⟩

theorem nodup_entries {paths : List Path} (h : paths.Nodup) (dir : Path) : (entries paths dir).Nodup := by
  unfold entries
  induction paths with
  | nil => exact List.nodup_nil
  | cons p ps ih =>
    obtain ⟨h1, h2⟩ := List.nodup_cons.1 h
    rw [List.filterMap_cons]
    split
    · exact ih h2
    · rename_i f hf
      refine List.nodup_cons.2 ⟨?_, ih h2⟩
      intro hm
      have hm : dir ++ [f] ∈ ps := mem_entries.1 hm
      have : dir ++ [f] ∈ [p] := mem_entries.1 (by unfold entries; rw [List.filterMap_cons, hf]; simp)
      simp at this
      exact h1 (this ▸ hm)

theorem entries_append (a c : List Path) (dir : Path) : entries (a ++ c) dir = entries a dir ++ entries c dir := by
  unfold entries; rw [List.filterMap_append]

theorem good_template {n : Name} (h : Good n) (g : Template n) : False := h.own g.pre

/-! ### What is on offer -/

/-- What `Tidy` says for one block -/
structure Neat (d : Disk) (b : Block) : Prop where
  once : d.files.keys.Nodup
  designs : ∀ f, b.dir ++ [f] ∈ d.files.keys → json <:+ f → ∃ n, Good n ∧ f = n ++ json
  templates : ∀ t, b.templates = some t → ∀ f, t ++ [f] ∉ d.dirs ∧ (t ++ [f] ∈ d.files.keys → ∃ n, Template n ∧ f = n ++ json)

theorem _root_.Verif.Spec.DesignFiles.Tidy.neat {w : World} (h : Tidy w) {b : Block} (hb : b ∈ w.blocks) : Neat w.disk b := ⟨h.once, h.designs b hb, h.templates b hb⟩

theorem good_of_file {d : Disk} {b : Block} (h : Neat d b) {n : Name} (hf : fileOf b n ∈ d.files.keys) : Good n := by
  obtain ⟨m, hm, e⟩ := h.designs _ hf (List.suffix_append _ _)
  rw [List.append_cancel_right e]; exact hm

theorem mem_ownNames {d : Disk} {b : Block} (h : Neat d b) (n : Name) : n ∈ ownNames d b ↔ n = [] ∨ fileOf b n ∈ d.files.keys := by
  unfold ownNames
  rw [List.mem_cons, List.mem_map]
  refine or_congr Iff.rfl ⟨?_, ?_⟩
  · rintro ⟨f, hf, rfl⟩
    obtain ⟨h1, h2⟩ := List.mem_filter.1 hf
    have h1 := mem_entries.1 h1
    obtain ⟨m, hm, rfl⟩ := h.designs f h1 (List.isSuffixOf_iff_suffix.1 h2)
    rw [stem_json hm.plain]
    exact h1
  · intro hf
    have hg := good_of_file h hf
    exact ⟨n ++ json, List.mem_filter.2 ⟨mem_entries.2 hf, List.isSuffixOf_iff_suffix.2 (List.suffix_append _ _)⟩, stem_json hg.plain⟩

theorem nodup_map_stem {fs : List Name} (h : fs.Nodup) (hf : ∀ f ∈ fs, ∃ n, ¬ json <:+: n ∧ f = n ++ json) : (fs.map stem).Nodup := by
  induction fs with
  | nil => exact List.nodup_nil
  | cons f fs ih =>
    obtain ⟨h1, h2⟩ := List.nodup_cons.1 h
    refine List.nodup_cons.2 ⟨?_, ih h2 fun g hg => hf g (List.mem_cons_of_mem _ hg)⟩
    intro hm
    obtain ⟨g, hg, e⟩ := List.mem_map.1 hm
    obtain ⟨m, hm1, rfl⟩ := hf g (List.mem_cons_of_mem _ hg)
    obtain ⟨n, hn1, rfl⟩ := hf f List.mem_cons_self
    rw [stem_json hm1, stem_json hn1] at e
    exact h1 (e ▸ hg)

theorem nodup_ownNames {d : Disk} {b : Block} (h : Neat d b) : (ownNames d b).Nodup := by
  unfold ownNames
  have hgood : ∀ f ∈ (entries d.files.keys b.dir).filter (json.isSuffixOf ·), ∃ n, Good n ∧ f = n ++ json := by
    intro f hf
    obtain ⟨h1, h2⟩ := List.mem_filter.1 hf
    exact h.designs f (mem_entries.1 h1) (List.isSuffixOf_iff_suffix.1 h2)
  refine List.nodup_cons.2 ⟨?_, nodup_map_stem ((nodup_entries h.once _).sublist List.filter_sublist)
    fun f hf => (hgood f hf).imp fun n ⟨h1, h2⟩ => ⟨h1.plain, h2⟩⟩
  intro hm
  obtain ⟨f, hf, e⟩ := List.mem_map.1 hm
  obtain ⟨n, hn, rfl⟩ := hgood f hf
  rw [stem_json hn.plain] at e
  exact hn.some e

theorem foldl_new (names : List Name) : ∀ (ts : List Name), ts.Nodup →
    ts.foldl (fun names t => if t ∈ names then names else names ++ [t]) names = names ++ ts.filter (· ∉ names)
  := by
  intro ts
  induction ts generalizing names with
  | nil => intro _; simp
  | cons t ts ih =>
    intro h
    obtain ⟨h1, h2⟩ := List.nodup_cons.1 h
    rw [List.foldl_cons, List.filter_cons]
    by_cases ht : t ∈ names
    · simp only [ht, if_true, not_true_eq_false, decide_false]
      rw [ih names h2]; rfl
    · simp only [ht, if_false, not_false_eq_true, decide_true, if_true]
      rw [ih _ h2, List.append_assoc, List.singleton_append]
      congr 2
      refine List.filter_congr fun x hx => ?_
      have : x ≠ t := fun e => h1 (e ▸ hx)
      simp [this]

/-- The list on offer is as it should be, with the design that is there or new -/
theorem offer_ok {d : Disk} {b : Block} (h : Neat d b) (extra : Name) (he : extra = [] ∨ fileOf b extra ∈ d.files.keys ∨ HasTemplate d b extra) :
    ∃ names, offer d b extra = some names ∧ Offered d { b with choices := names, design := extra } := by
  let own := sortTexts (if extra ≠ [] ∧ extra ∉ ownNames d b then ownNames d b ++ [extra] else ownNames d b)
  have hown : ∀ n, n ∈ own ↔ n = [] ∨ fileOf b n ∈ d.files.keys ∨ (n = extra ∧ HasTemplate d b n) := by
    intro n
    show n ∈ sortTexts _ ↔ _
    rw [(sort_perm _).mem_iff]
    split
    · rename_i hc
      rw [List.mem_append, mem_ownNames h]
      have hx : HasTemplate d b extra := by
        rcases he with e | e | e
        · exact absurd e hc.1
        · exact absurd ((mem_ownNames h _).2 (.inr e)) hc.2
        · exact e
      simp only [List.mem_singleton]
      constructor
      · rintro ((e | e) | e)
        · exact .inl e
        · exact .inr (.inl e)
        · exact .inr (.inr ⟨e, e ▸ hx⟩)
      · rintro (e | e | e)
        · exact .inl (.inl e)
        · exact .inl (.inr e)
        · exact .inr e.1
    · rename_i hc
      rw [mem_ownNames h]
      constructor
      · rintro (e | e)
        · exact .inl e
        · exact .inr (.inl e)
      · rintro (e | e | e)
        · exact .inl e
        · exact .inr e
        · refine Classical.byContradiction fun hn => hc ⟨?_, ?_⟩
          · intro e0; exact hn (.inl (e.1.trans e0))
          · intro e0; exact hn ((mem_ownNames h _).1 (e.1 ▸ e0))
  have hnd : own.Nodup := by
    show (sortTexts _).Nodup
    rw [(sort_perm _).nodup_iff]
    split
    · rename_i hc
      refine List.nodup_append.2 ⟨nodup_ownNames h, by simp, ?_⟩
      intro a ha c hcm e
      simp at hcm
      exact hc.2 (hcm ▸ e ▸ ha)
    · exact nodup_ownNames h
  rcases (show b.templates = none ∨ ∃ t, b.templates = some t by cases b.templates <;> simp) with ht | ⟨t, ht⟩
  · refine ⟨own, ?_, own, [], by simp, hnd, sort_sorted _, List.Pairwise.nil, hown, ?_⟩
    · show templateNames d b own = some own
      unfold templateNames; rw [ht]
    · intro n
      constructor
      · intro hm; cases hm
      · rintro ⟨_, _, t, e, _⟩; rw [show b.templates = none from ht] at e; cases e
  · have hent : entries (d.files.keys ++ d.dirs) t = entries d.files.keys t := by
      rw [entries_append]
      have : entries d.dirs t = [] := List.eq_nil_iff_forall_not_mem.2 fun f hf => ((h.templates t ht) f).1 (mem_entries.1 hf)
      rw [this, List.append_nil]
    let fs := sortTexts (entries d.files.keys t)
    have hfs : ∀ f ∈ fs, ∃ n, Template n ∧ f = n ++ json := fun f hf =>
      ((h.templates t ht) f).2 (mem_entries.1 ((sort_perm _).mem_iff.1 hf))
    have hall : fs.all (fun f => templatePre.isPrefixOf f && json.isSuffixOf f) = true := by
      rw [List.all_eq_true]
      intro f hf
      obtain ⟨n, hn, rfl⟩ := hfs f hf
      rw [List.isPrefixOf_iff_prefix.2 (hn.pre.trans (List.prefix_append _ _)), List.isSuffixOf_iff_suffix.2 (List.suffix_append _ _)]
      rfl
    have hfn : fs.Nodup := (sort_perm _).nodup_iff.2 (nodup_entries h.once t)
    have hts : (fs.map stem).Nodup := nodup_map_stem hfn fun f hf => (hfs f hf).imp fun n ⟨h1, h2⟩ => ⟨h1.plain, h2⟩
    have hmem : ∀ n, n ∈ fs.map stem ↔ HasTemplate d b n := by
      intro n
      constructor
      · intro hm
        obtain ⟨f, hf, e⟩ := List.mem_map.1 hm
        obtain ⟨m, hm1, rfl⟩ := hfs f hf
        rw [stem_json hm1.plain] at e
        subst e
        exact ⟨hm1, t, ht, mem_entries.1 ((sort_perm _).mem_iff.1 hf)⟩
      · rintro ⟨h1, t', e, h2⟩
        rw [ht] at e
        injection e with e
        subst e
        exact List.mem_map.2 ⟨_, (sort_perm _).mem_iff.2 (mem_entries.2 h2), stem_json h1.plain⟩
    have hnot : ∀ n, HasTemplate d b n → (n ∉ own ↔ n ≠ extra) := by
      intro n hn
      rw [hown]
      constructor
      · intro hc e; exact hc (.inr (.inr ⟨e, hn⟩))
      · rintro hc (e | e | e)
        · have := hn.1.pre; rw [e] at this; exact absurd this (by decide)
        · exact good_template (good_of_file h e) hn.1
        · exact hc e.1
    refine ⟨own ++ (fs.map stem).filter (· ∉ own), ?_, own, (fs.map stem).filter (· ∉ own), rfl, ?_, sort_sorted _, ?_, hown, ?_⟩
    · show templateNames d b own = some _
      unfold templateNames
      rw [ht]
      dsimp only
      rw [hent, if_pos hall, foldl_new _ _ hts]
    · refine List.nodup_append.2 ⟨hnd, hts.sublist List.filter_sublist, ?_⟩
      intro a ha c hc e
      have := (List.mem_filter.1 hc).2
      simp at this
      exact this (e ▸ ha)
    · have hmap : ∀ l : List Name, (∀ f ∈ l, ∃ n, Template n ∧ f = n ++ json) → ((l.map stem).map (· ++ json)) = l := by
        intro l hl
        rw [List.map_map]
        conv => rhs; rw [← List.map_id l]
        refine List.map_congr_left fun f hf => ?_
        obtain ⟨n, hn, rfl⟩ := hl f hf
        simp [stem_json hn.plain]
      refine List.Pairwise.sublist (l₂ := (fs.map stem).map (· ++ json)) (List.filter_sublist.map _) ?_
      rw [hmap fs hfs]
      exact sort_sorted _
    · intro n
      rw [List.mem_filter, hmem]
      constructor
      · rintro ⟨h1, h2⟩
        exact ⟨(hnot n h1).1 (by simpa using h2), h1⟩
      · rintro ⟨h1, h2⟩
        exact ⟨h2, by simpa using (hnot n h2).2 h1⟩

/-! ### Histories -/

def key (b : Block) : Path × Option Path := (b.dir, b.templates)

theorem map_key {bs cs : List Block} (h : cs.map key = bs.map key) {i : Nat} {c : Block} (hc : cs[i]? = some c) :
    ∃ b, bs[i]? = some b ∧ b.dir = c.dir ∧ b.templates = c.templates := by
  have h1 : (cs.map key)[i]? = some (key c) := by rw [List.getElem?_map, hc]; rfl
  rw [h, List.getElem?_map] at h1
  cases hb : bs[i]? with
  | none => rw [hb] at h1; cases h1
  | some b =>
    rw [hb] at h1
    simp only [Option.map_some, Option.some.injEq, key, Prod.mk.injEq] at h1
    exact ⟨b, rfl, h1.1, h1.2⟩

theorem map_key_mem {bs cs : List Block} (h : cs.map key = bs.map key) {c : Block} (hc : c ∈ cs) :
    ∃ b ∈ bs, b.dir = c.dir ∧ b.templates = c.templates := by
  obtain ⟨i, hi⟩ := List.getElem?_of_mem hc
  obtain ⟨b, h1, h2⟩ := map_key h hi
  exact ⟨b, List.mem_of_getElem? h1, h2⟩

theorem tidy_blocks {d : Disk} {bs cs : List Block} (h : Tidy ⟨d, bs⟩) (hk : cs.map key = bs.map key) : Tidy ⟨d, cs⟩ := by
  refine ⟨?_, ?_, h.once, ?_, ?_, ?_⟩
  · intro i j b c hb hc e
    obtain ⟨b', h1, h2, _⟩ := map_key hk hb
    obtain ⟨c', h3, h4, _⟩ := map_key hk hc
    exact h.apart i j b' c' h1 h3 (by rw [h2, h4, e])
  · intro b hb c hc
    obtain ⟨b', h1, h2, _⟩ := map_key_mem hk hb
    obtain ⟨c', h3, _, h4⟩ := map_key_mem hk hc
    rw [← h2, ← h4]
    exact h.separate b' h1 c' h3
  · intro b hb
    obtain ⟨b', h1, h2, _⟩ := map_key_mem hk hb
    rw [← h2]
    exact h.designs b' h1
  · intro b hb
    obtain ⟨b', h1, h2, _⟩ := map_key_mem hk hb
    rw [← h2]
    exact h.free b' h1
  · intro b hb
    obtain ⟨b', h1, _, h2⟩ := map_key_mem hk hb
    rw [← h2]
    exact h.templates b' h1

theorem mem_put {d : Disk} {p q : Path} {text : List Char} : q ∈ (put d p text).files.keys ↔ q ∈ d.files.keys ∨ q = p := by
  rw [← Dict.mem_iff, ← Dict.mem_iff]
  unfold put Dict.mem
  dsimp only
  rw [Dict.get?_set]
  by_cases e : p = q
  · subst e; simp
  · simp [e, Ne.symm e]

theorem file_inj {b c : Block} {f : Name} {n : Name} (h : c.dir ++ [f] = fileOf b n) : c.dir = b.dir ∧ f = n ++ json := by
  have := List.append_inj' h rfl
  exact ⟨this.1, by simpa using this.2⟩

theorem tidy_put {d : Disk} {bs : List Block} (h : Tidy ⟨d, bs⟩) {b : Block} (hb : b ∈ bs) {n : Name} (hn : Good n) (text : List Char) :
    Tidy ⟨put d (fileOf b n) text, bs⟩ := by
  refine ⟨h.apart, h.separate, Dict.nodup_set h.once _ _, ?_, h.free, ?_⟩
  · intro c hc f hf hj
    rcases mem_put.1 hf with hf | hf
    · exact h.designs c hc f hf hj
    · exact ⟨n, hn, (file_inj hf).2⟩
  · intro c hc t ht f
    refine ⟨(h.templates c hc t ht f).1, ?_⟩
    intro hf
    rcases mem_put.1 hf with hf | hf
    · exact (h.templates c hc t ht f).2 hf
    · have := (List.append_inj' hf rfl).1
      subst this
      exact absurd ht (h.separate b hb c hc)

theorem offered_same {d d' : Disk} {b b' : Block} (h : Offered d b) (h1 : b'.dir = b.dir) (h2 : b'.templates = b.templates)
    (h3 : b'.choices = b.choices) (h4 : b'.design = b.design) (h5 : ∀ n, fileOf b n ∈ d'.files.keys ↔ fileOf b n ∈ d.files.keys)
    (h6 : ∀ t f, b.templates = some t → (t ++ [f] ∈ d'.files.keys ↔ t ++ [f] ∈ d.files.keys)) : Offered d' b' := by
  have ht : ∀ n, HasTemplate d' b' n ↔ HasTemplate d b n := by
    intro n
    unfold HasTemplate
    rw [h2]
    refine and_congr Iff.rfl ⟨?_, ?_⟩
    · rintro ⟨t, e, hm⟩; exact ⟨t, e, (h6 t _ e).1 hm⟩
    · rintro ⟨t, e, hm⟩; exact ⟨t, e, (h6 t _ e).2 hm⟩
  have hf : ∀ n, fileOf b' n = fileOf b n := fun n => by unfold fileOf; rw [h1]
  obtain ⟨own, temps, k1, k2, k3, k4, k5, k6⟩ := h
  refine ⟨own, temps, by rw [h3]; exact k1, by rw [h3]; exact k2, k3, k4, ?_, ?_⟩
  · intro n; rw [k5, ht, hf, h5, h4]
  · intro n; rw [k6, ht, h4]

/-- The design that is loaded is there -/
def Current (d : Disk) (b : Block) : Prop := b.design = [] ∨ fileOf b b.design ∈ d.files.keys ∨ HasTemplate d b b.design

structure Inv (w : World) : Prop where
  tidy : Tidy w
  offered : ∀ (i : Nat) b, w.blocks[i]? = some b → Offered w.disk b ∧ Current w.disk b

theorem set_key {bs : List Block} {i : Nat} {b b' : Block} (hb : bs[i]? = some b) (h : key b' = key b) : (bs.set i b').map key = bs.map key := by
  apply List.ext_getElem?
  intro j
  rw [List.getElem?_map, List.getElem?_map, List.getElem?_set]
  split
  · rename_i e
    subst e
    split
    · rw [hb]; simp [h]
    · rename_i hl
      rw [List.getElem?_eq_none (by omega)]
  · rfl

theorem markClean_key (d : Disk) (b : Block) (n : Name) : key (markClean d b n) = key b := by
  unfold markClean; split <;> rfl

theorem start_key (d : Disk) (b : Block) : key (start d b) = key b := by
  unfold start; split <;> rfl

/-- What a block has after a design was saved or loaded -/
theorem markClean_ok {d : Disk} {b : Block} (h : Neat d b) (n : Name) (he : n = [] ∨ fileOf b n ∈ d.files.keys ∨ HasTemplate d b n) :
    Offered d (markClean d b n) ∧ Current d (markClean d b n) ∧ (markClean d b n).design = n ∧ (markClean d b n).fault = b.fault := by
  obtain ⟨names, h1, h2⟩ := offer_ok h n he
  unfold markClean
  rw [h1]
  exact ⟨h2, he, rfl, rfl⟩

theorem start_ok {d : Disk} {b : Block} (h : Neat d b) : Offered d (start d b) ∧ Current d (start d b) ∧ (start d b).fault = false := by
  obtain ⟨names, h1, h2⟩ := offer_ok h [] (.inl rfl)
  unfold start
  rw [h1]
  exact ⟨offered_same h2 rfl rfl rfl rfl (fun _ => Iff.rfl) (fun _ _ _ => Iff.rfl), .inl rfl, rfl⟩

/-- A new world in which one block and perhaps its own files changed -/
theorem inv_set {w : World} (h : Inv w) {i : Nat} {b b' : Block} {d' : Disk} (hb : w.blocks[i]? = some b) (hk : key b' = key b)
    (ht : Tidy ⟨d', w.blocks⟩) (hd : ∀ p, (∀ f, p ≠ b.dir ++ [f]) → (p ∈ d'.files.keys ↔ p ∈ w.disk.files.keys))
    (ho : Offered d' b' ∧ Current d' b') : Inv ⟨d', w.blocks.set i b'⟩ := by
  refine ⟨tidy_blocks ht (set_key hb hk), ?_⟩
  intro j c hc
  by_cases e : i = j
  · subst e
    have : c = b' := by
      rw [List.getElem?_set_self' , hb] at hc
      simpa using hc.symm
    rw [this]; exact ho
  · have hc' : w.blocks[j]? = some c := by
      rw [show (⟨d', w.blocks.set i b'⟩ : World).blocks = w.blocks.set i b' from rfl, List.getElem?_set_ne e] at hc
      exact hc
    have hne : c.dir ≠ b.dir := fun e2 => e (h.tidy.apart j i c b hc' hb e2).symm
    obtain ⟨h1, h2⟩ := h.offered j c hc'
    have hbm := List.mem_of_getElem? hb
    have hcm := List.mem_of_getElem? hc'
    have hf : ∀ n, fileOf c n ∈ d'.files.keys ↔ fileOf c n ∈ w.disk.files.keys := fun n => hd _ fun f e2 => hne (List.append_inj' e2 rfl).1
    have htm : ∀ t f, c.templates = some t → (t ++ [f] ∈ d'.files.keys ↔ t ++ [f] ∈ w.disk.files.keys) := fun t f e2 => hd _ fun g e3 => by
      have := (List.append_inj' e3 rfl).1
      subst this
      exact h.tidy.separate b hbm c hcm e2
    refine ⟨offered_same h1 rfl rfl rfl rfl hf htm, ?_⟩
    rcases h2 with e2 | e2 | ⟨e2, t, e3, e4⟩
    · exact .inl e2
    · exact .inr (.inl ((hf _).2 e2))
    · exact .inr (.inr ⟨e2, t, e3, (htm t _ e3).2 e4⟩)

theorem Inv.fault {w : World} (h : Inv w) {i : Nat} {b : Block} (hb : w.blocks[i]? = some b) (x : Bool) :
    Inv ⟨w.disk, w.blocks.set i { b with fault := x }⟩ := by
  obtain ⟨h1, h2⟩ := h.offered i b hb
  exact inv_set h hb rfl h.tidy (fun _ _ => Iff.rfl) ⟨offered_same h1 rfl rfl rfl rfl (fun _ => Iff.rfl) (fun _ _ _ => Iff.rfl), h2⟩

/-- Where a save goes to -/
theorem saveTo_cases {w : World} (h : Inv w) {i : Nat} {b : Block} (hb : w.blocks[i]? = some b) {name : Name} (hn : name = [] ∨ Good name) :
    saveTo w.disk b name = none ∨ (Good (named b name) ∧ saveTo w.disk b name = some (fileOf b (named b name))) := by
  have hbm := List.mem_of_getElem? hb
  have hN : named b name = [] ∨ Good (named b name) ∨ Template (named b name) := by
    unfold named
    split
    · rcases (h.offered i b hb).2 with e | e | e
      · exact .inl e
      · exact .inr (.inl (good_of_file (h.tidy.neat hbm) e))
      · exact .inr (.inr e.1)
    · rename_i h1; exact .inr (.inl (hn.resolve_left h1))
  unfold saveTo
  rcases hN with e | e | e
  · rw [if_pos (.inl e)]; exact .inl rfl
  · right
    refine ⟨e, ?_⟩
    rw [if_neg (by rw [pre_false e.own]; simp [e.some])]
    unfold openW
    rw [target_good _ _ e]
    exact if_neg (h.tidy.free b hbm _)
  · rw [if_pos (.inr (List.isPrefixOf_iff_prefix.2 e.pre))]; exact .inl rfl

theorem put_away {d : Disk} {b : Block} {n : Name} {text : List Char} (p : Path) (hp : ∀ f, p ≠ b.dir ++ [f]) :
    p ∈ (put d (fileOf b n) text).files.keys ↔ p ∈ d.files.keys := by
  rw [mem_put]
  exact ⟨fun h => h.resolve_right (hp _), .inl⟩

theorem mem_put_self (d : Disk) (p : Path) (text : List Char) : p ∈ (put d p text).files.keys := mem_put.2 (.inr rfl)

/-- What is on offer can be read -/
theorem read_offered {w : World} (h : Inv w) {i : Nat} {b : Block} (hb : w.blocks[i]? = some b) {n : Name} (hm : n ∈ b.choices) :
    n = [] ∨ ((fileOf b n ∈ w.disk.files.keys ∨ HasTemplate w.disk b n) ∧ ∃ text, readDesign w.disk b n = some text) := by
  have hn := h.tidy.neat (List.mem_of_getElem? hb)
  have key : n = [] ∨ fileOf b n ∈ w.disk.files.keys ∨ HasTemplate w.disk b n := by
    obtain ⟨own, temps, k1, _, _, _, k5, k6⟩ := (h.offered i b hb).1
    rw [k1] at hm
    rcases List.mem_append.1 hm with hm | hm
    · rcases (k5 n).1 hm with e | e | e
      · exact .inl e
      · exact .inr (.inl e)
      · exact .inr (.inr e.2)
    · exact .inr (.inr ((k6 n).1 hm).2)
  have get : ∀ p, p ∈ w.disk.files.keys → ∃ text, w.disk.files.get? p = some text := fun p hp => by
    cases hg : w.disk.files.get? p with
    | none => exact absurd hp (Dict.get?_none_iff.1 hg)
    | some text => exact ⟨text, rfl⟩
  rcases key with e | e | e
  · exact .inl e
  · refine .inr ⟨.inl e, ?_⟩
    unfold readDesign
    rw [target_good _ _ (good_of_file hn e)]
    exact get _ e
  · refine .inr ⟨.inr e, ?_⟩
    obtain ⟨t, e1, e2⟩ := e.2
    unfold readDesign
    rw [target_template _ _ e.1 e1]
    exact get _ e2

theorem inv_step {w : World} (h : Inv w) (e : Ev) (hf : Fine e) : Inv (step w e) := by
  cases e with
  | save i name text =>
    simp only [step]
    split
    · exact h
    · rename_i b hb
      have hbm := List.mem_of_getElem? hb
      unfold save
      by_cases hx : b.fault = true
      · rw [if_pos hx]
        exact inv_set h hb rfl h.tidy (fun _ _ => Iff.rfl) (h.offered i b hb)
      · rw [if_neg hx]
        rcases saveTo_cases h hb hf with e | ⟨hg, e⟩
        · rw [e]; exact h.fault hb true
        · rw [e]
          have ht := tidy_put h.tidy hbm hg text
          have hk := markClean_ok (ht.neat hbm) (named b name) (.inr (.inl (mem_put_self _ _ _)))
          exact inv_set h hb (markClean_key _ _ _) ht put_away ⟨hk.1, hk.2.1⟩
  | load i name ok =>
    simp only [step]
    split
    · exact h
    · rename_i b hb
      have hbm := List.mem_of_getElem? hb
      unfold load
      by_cases hc : b.fault = true ∨ name ∉ b.choices
      · rw [if_pos hc]
        exact inv_set h hb rfl h.tidy (fun _ _ => Iff.rfl) (h.offered i b hb)
      · rw [if_neg hc]
        have hm : name ∈ b.choices := Classical.byContradiction fun hm => hc (.inr hm)
        unfold doLoad
        have clean : ∀ n, (n = [] ∨ fileOf b n ∈ w.disk.files.keys ∨ HasTemplate w.disk b n) → Inv ⟨w.disk, w.blocks.set i (markClean w.disk b n)⟩ := by
          intro n hn
          have hk := markClean_ok (h.tidy.neat hbm) n hn
          exact inv_set h hb (markClean_key _ _ _) h.tidy (fun _ _ => Iff.rfl) ⟨hk.1, hk.2.1⟩
        split
        · rename_i e0
          split
          · exact clean _ (.inl e0)
          · exact h.fault hb true
        · rename_i e0
          obtain ⟨h1, text, h2⟩ := (read_offered h hb hm).resolve_left e0
          rw [h2]
          dsimp only
          split
          · exact clean _ (.inr h1)
          · exact h.fault hb true
  | reset i =>
    simp only [step]
    split
    · exact h
    · rename_i b hb; exact h.fault hb false
  | crash i name text k =>
    simp only [step]
    split
    · exact h
    · rename_i b hb
      have hbm := List.mem_of_getElem? hb
      have same : Inv ⟨w.disk, w.blocks.set i (start w.disk b)⟩ := by
        have hk := start_ok (h.tidy.neat hbm)
        exact inv_set h hb (start_key _ _) h.tidy (fun _ _ => Iff.rfl) ⟨hk.1, hk.2.1⟩
      cases k with
      | zero => exact same
      | succ k =>
        simp only [crash]
        by_cases hx : b.fault = true
        · rw [if_pos hx]; exact same
        · rw [if_neg hx]
          rcases saveTo_cases h hb hf with e | ⟨hg, e⟩
          · rw [e]; exact same
          · rw [e]
            have ht := tidy_put h.tidy hbm hg (text.take k)
            have hk := start_ok (ht.neat hbm)
            exact inv_set h hb (start_key _ _) ht put_away ⟨hk.1, hk.2.1⟩
  | write p text => exact hf.elim

theorem inv_run : ∀ (es : List Ev) {w : World}, Inv w → (∀ e ∈ es, Fine e) → Inv (run w es)
  | [], _, h, _ => h
  | e :: es, _, h, hf => inv_run es (inv_step h e (hf e List.mem_cons_self)) fun e' he => hf e' (List.mem_cons_of_mem _ he)

theorem inv_init {d : Disk} {bs : List Block} (h : Tidy ⟨d, bs⟩) : Inv (init d bs) := by
  have hk : (bs.map (start d)).map key = bs.map key := by
    rw [List.map_map]
    exact List.map_congr_left fun b _ => start_key d b
  refine ⟨tidy_blocks h hk, ?_⟩
  intro i c hc
  simp only [init, List.getElem?_map] at hc
  cases hb : bs[i]? with
  | none => rw [hb] at hc; cases hc
  | some b =>
    rw [hb] at hc
    simp only [Option.map_some, Option.some.injEq] at hc
    subst hc
    have hk := start_ok (h.neat (List.mem_of_getElem? hb))
    exact ⟨hk.1, hk.2.1⟩

/-! ### The claims -/

/-- C113, partial: what a block offers to load is, after any history of saves, loads, resets and crashes of any blocks, "no design", the designs saved for this block
and its templates, in order and each once. For good names only. -/
theorem offered_partial {d : Disk} {bs : List Block} (h : Tidy ⟨d, bs⟩) (es : List Ev) (hf : ∀ e ∈ es, Fine e) (i : Nat) (b : Block)
    (hb : (run (init d bs) es).blocks[i]? = some b) : Offered (run (init d bs) es).disk b :=
  ((inv_run es (inv_init h) hf).offered i b hb).1

/-- C113, partial: what is on offer is loaded when it is asked for, if it can be put into effect, and it is then the design of the block -/
theorem offered_loads_partial {d : Disk} {bs : List Block} (h : Tidy ⟨d, bs⟩) (es : List Ev) (hf : ∀ e ∈ es, Fine e) (i : Nat) (b : Block)
    (hb : (run (init d bs) es).blocks[i]? = some b) (hr : b.fault = false) (n : Name) (hn : n ∈ b.choices) :
    (n = [] ∨ ∃ text, readDesign (run (init d bs) es).disk b n = some text) ∧
    (load (run (init d bs) es).disk b n true).design = n ∧ (load (run (init d bs) es).disk b n true).fault = false := by
  have hi := inv_run es (inv_init h) hf
  have hro := read_offered hi hb hn
  have hneat := hi.tidy.neat (List.mem_of_getElem? hb)
  refine ⟨hro.imp id And.right, ?_⟩
  unfold load
  rw [if_neg (by simp [hr, hn])]
  unfold doLoad
  rcases hro with e | ⟨h1, text, h2⟩
  · rw [if_pos e]
    have hk := markClean_ok hneat n (.inl e)
    exact ⟨hk.2.2.1, hk.2.2.2.trans hr⟩
  · have hk := markClean_ok hneat n (.inr h1)
    rw [h2]
    split
    · exact ⟨hk.2.2.1, hk.2.2.2.trans hr⟩
    · exact ⟨hk.2.2.1, hk.2.2.2.trans hr⟩

/-- A name that is not on offer is refused, and nothing changes -/
theorem not_offered_refused (d : Disk) (b : Block) (n : Name) (ok : Bool) (h : n ∉ b.choices) : load d b n ok = b := by
  unfold load; rw [if_pos (.inr h)]

theorem get_put_ne {d : Disk} {p q : Path} {text : List Char} (h : p ≠ q) : (put d p text).files.get? q = d.files.get? q :=
  Dict.get?_set_ne _ _ h

/-- What an event does to files -/
theorem step_file {w : World} (h : Inv w) (e : Ev) (hf : Fine e) (p : Path)
    (hp : ∀ i name text b, (e = .save i name text ∨ ∃ k, e = .crash i name text k) → w.blocks[i]? = some b → Good (named b name) →
      fileOf b (named b name) ≠ p) : (step w e).disk.files.get? p = w.disk.files.get? p := by
  cases e with
  | save i name text =>
    simp only [step]
    split
    · rfl
    · rename_i b hb
      unfold save
      split
      · rfl
      · rcases saveTo_cases h hb hf with e | ⟨hg, e⟩
        · rw [e]
        · rw [e]; exact get_put_ne (hp i name text b (.inl rfl) hb hg)
  | load i name ok => simp only [step]; split <;> rfl
  | reset i => simp only [step]; split <;> rfl
  | crash i name text k =>
    simp only [step]
    split
    · rfl
    · rename_i b hb
      cases k with
      | zero => rfl
      | succ k =>
        simp only [crash]
        split
        · rfl
        · rcases saveTo_cases h hb hf with e | ⟨hg, e⟩
          · rw [e]
          · rw [e]; exact get_put_ne (hp i name text b (.inr ⟨_, rfl⟩) hb hg)
  | write p text => exact hf.elim

theorem step_blocks (w : World) (e : Ev) : (step w e).blocks.map key = w.blocks.map key := by
  cases e with
  | save i name text =>
    simp only [step]
    split
    · rfl
    · rename_i b hb
      refine set_key hb ?_
      unfold save
      split
      · rfl
      · split
        · rfl
        · exact markClean_key _ _ _
  | load i name ok =>
    simp only [step]
    split
    · rfl
    · rename_i b hb
      refine set_key hb ?_
      unfold load doLoad
      split
      · rfl
      · split
        · split
          · exact markClean_key _ _ _
          · rfl
        · split
          · rfl
          · split
            · exact markClean_key _ _ _
            · rfl
  | reset i =>
    simp only [step]
    split
    · rfl
    · rename_i b hb; exact set_key hb rfl
  | crash i name text k =>
    simp only [step]
    split
    · rfl
    · rename_i b hb; exact set_key hb (start_key _ _)
  | write p text => rfl

/-- C113, partial: saving, loading and crashing only ever write files of designs of the block they are done for; templates and all other files stay as they are -/
theorem others_kept_partial {d : Disk} {bs : List Block} (h : Tidy ⟨d, bs⟩) (es : List Ev) (hf : ∀ e ∈ es, Fine e) (p : Path)
    (hp : ∀ b ∈ bs, ∀ n, Good n → fileOf b n ≠ p) : (run (init d bs) es).disk.files.get? p = d.files.get? p := by
  have go : ∀ (es : List Ev) (w : World), Inv w → (∀ e ∈ es, Fine e) → (∀ b ∈ w.blocks, ∀ n, Good n → fileOf b n ≠ p) →
      (run w es).disk.files.get? p = w.disk.files.get? p := by
    intro es
    induction es with
    | nil => intro w _ _ _; rfl
    | cons e es ih =>
      intro w hi hf hp
      have h1 := step_file hi e (hf e List.mem_cons_self) p fun i name text b _ hb hg => hp b (List.mem_of_getElem? hb) _ hg
      refine (ih (step w e) (inv_step hi e (hf e List.mem_cons_self)) (fun e' he => hf e' (List.mem_cons_of_mem _ he)) ?_).trans h1
      intro b hb n hn
      obtain ⟨b', h2, h3, _⟩ := map_key_mem (step_blocks w e) hb
      have := hp b' h2 n hn
      unfold fileOf at this ⊢
      rw [← h3]; exact this
  refine go es (init d bs) (inv_init h) hf ?_
  intro b hb n hn
  obtain ⟨b', h2, h3⟩ := List.mem_map.1 (show b ∈ bs.map (start d) from hb)
  have e : b.dir = b'.dir := by rw [← h3]; exact congrArg Prod.fst (start_key d b')
  have := hp b' h2 n hn
  unfold fileOf at this ⊢
  rw [e]; exact this

/-- C113, partial: a save under a good name by a block that is Ready succeeds; the design of the block is then the one saved, and whatever is done after that - to other designs, by
other blocks, crashes among it - what was saved is read back, as long as the block does not save under this name again. -/
theorem saved_kept_partial {d : Disk} {bs : List Block} (h : Tidy ⟨d, bs⟩) (es : List Ev) (hf : ∀ e ∈ es, Fine e) (i : Nat) (b : Block)
    (hb : (run (init d bs) es).blocks[i]? = some b) (hr : b.fault = false) (n : Name) (hn : Good n) (text : List Char) :
    let w := step (run (init d bs) es) (.save i n text)
    (∃ b', w.blocks[i]? = some b' ∧ b'.design = n ∧ b'.fault = false ∧ n ∈ b'.choices) ∧
    ∀ more, (∀ e ∈ more, Fine e) → Others w i n more → ∀ b', (run w more).blocks[i]? = some b' → readDesign (run w more).disk b' n = some text := by
  have hi := inv_run es (inv_init h) hf
  have hbm := List.mem_of_getElem? hb
  have hst : saveTo (run (init d bs) es).disk b n = some (fileOf b n) := by
    rcases saveTo_cases hi hb (.inr hn) with e | ⟨_, e⟩
    · exfalso
      unfold saveTo openW at e
      rw [show named b n = n from if_neg hn.some, if_neg (by rw [pre_false hn.own]; simp [hn.some]), target_good _ _ hn] at e
      have e2 : (if fileOf b n ∈ (run (init d bs) es).disk.dirs then none else some (fileOf b n)) = none := e
      rw [if_neg (show fileOf b n ∉ _ from hi.tidy.free b hbm _)] at e2
      cases e2
    · rw [e, show named b n = n from if_neg hn.some]
  have hsave : save (run (init d bs) es).disk b n text =
      (put (run (init d bs) es).disk (fileOf b n) text, markClean (put (run (init d bs) es).disk (fileOf b n) text) b n) := by
    unfold save
    rw [if_neg (by rw [hr]; simp), hst, show named b n = n from if_neg hn.some]
  have hw : step (run (init d bs) es) (.save i n text) =
      ⟨put (run (init d bs) es).disk (fileOf b n) text,
       (run (init d bs) es).blocks.set i (markClean (put (run (init d bs) es).disk (fileOf b n) text) b n)⟩ := by
    simp only [step, hb, hsave]
  have hwi : Inv (step (run (init d bs) es) (.save i n text)) := inv_step hi _ (.inr hn)
  intro w
  have hb' : w.blocks[i]? = some (markClean (put (run (init d bs) es).disk (fileOf b n) text) b n) := by
    show (step _ _).blocks[i]? = _
    rw [hw]
    show ((run (init d bs) es).blocks.set i _)[i]? = _
    rw [List.getElem?_set_self', hb]; rfl
  have ht : Tidy ⟨put (run (init d bs) es).disk (fileOf b n) text, (run (init d bs) es).blocks⟩ := tidy_put hi.tidy hbm hn text
  have hk := markClean_ok (d := put (run (init d bs) es).disk (fileOf b n) text) (ht.neat hbm) n (.inr (.inl (mem_put_self _ _ _)))
  refine ⟨⟨_, hb', hk.2.2.1, hk.2.2.2.trans hr, ?_⟩, ?_⟩
  · obtain ⟨own, temps, k1, _, _, _, k5, _⟩ := hk.1
    rw [k1]
    refine List.mem_append.2 (.inl ((k5 n).2 (.inr (.inl ?_))))
    have : (markClean (put (run (init d bs) es).disk (fileOf b n) text) b n).dir = b.dir := congrArg Prod.fst (markClean_key _ _ _)
    have e : fileOf (markClean (put (run (init d bs) es).disk (fileOf b n) text) b n) n = fileOf b n := congrArg (· ++ [n ++ json]) this
    exact (congrArg (· ∈ (put (run (init d bs) es).disk (fileOf b n) text).files.keys) e).mpr (mem_put_self _ _ _)
  · intro more hmf hmo b2 hb2
    have go : ∀ (more : List Ev) (w : World), Inv w → (∀ e ∈ more, Fine e) → Others w i n more →
        (∃ c, w.blocks[i]? = some c ∧ c.dir = b.dir) → w.disk.files.get? (fileOf b n) = some text →
        (run w more).disk.files.get? (fileOf b n) = some text ∧ ∃ c, (run w more).blocks[i]? = some c ∧ c.dir = b.dir := by
      intro more
      induction more with
      | nil => intro w _ _ _ h1 h2; exact ⟨h2, h1⟩
      | cons e more ih =>
        intro w hi hf ho h1 h2
        have hfe := hf e List.mem_cons_self
        refine ih (step w e) (inv_step hi e hfe) (fun e' he => hf e' (List.mem_cons_of_mem _ he)) ho.2 ?_ ?_
        · obtain ⟨c, hc, hc2⟩ := h1
          obtain ⟨c', h3, h4, _⟩ := map_key (step_blocks w e).symm hc
          exact ⟨c', h3, h4.trans hc2⟩
        · refine (step_file hi e hfe _ ?_).trans h2
          intro j name text' c hE hc hg heq
          have hinj := file_inj (b := b) (c := c) heq
          have hnm : named c name = n := List.append_cancel_right hinj.2
          have ho1 : j ≠ i ∨ (name ≠ n ∧ (name = [] → ∀ b, w.blocks[j]? = some b → b.design ≠ n)) := by
            rcases hE with rfl | ⟨k, rfl⟩
            · exact ho.1
            · exact ho.1
          have hji : j = i := by
            obtain ⟨c', hc', hc2⟩ := h1
            exact hi.tidy.apart j i c c' hc hc' (by rw [hinj.1, hc2])
          rcases ho1 with e1 | ⟨e1, e2⟩
          · exact e1 hji
          · unfold named at hnm
            split at hnm
            · rename_i e3; exact e2 e3 c hc hnm
            · exact e1 hnm
    obtain ⟨g1, c, g2, g3⟩ := go more w hwi hmf hmo ⟨_, hb', congrArg Prod.fst (markClean_key _ _ _)⟩ (by
      show (step _ _).disk.files.get? _ = _
      rw [hw]
      exact Dict.get?_set_self _ _ _)
    unfold readDesign
    rw [target_good _ _ hn]
    have : fileOf b2 n = fileOf b n := by
      rw [hb2] at g2
      injection g2 with g2
      unfold fileOf; rw [g2, g3]
    rw [this]; exact g1

/-- C113: a save without a name of a block with no design, or under the name of a template, changes no file: for all disks and names -/
theorem save_refused (d : Disk) (b : Block) (name : Name) (text : List Char) (h : named b name = [] ∨ templatePre <+: named b name) :
    (save d b name text).1 = d ∧ (b.fault = false → (save d b name text).2 = { b with fault := true }) := by
  have e : saveTo d b name = none := by
    unfold saveTo
    exact if_pos (h.imp id List.isPrefixOf_iff_prefix.2)
  unfold save
  rw [e]
  cases b.fault <;> simp

/-- C113, partial: a process that ends during a save leaves all other files as they were, and of the design what it was before or a beginning of the new one; all of it once the last step
is done -/
theorem crash_partial (d : Disk) (b : Block) (n : Name) (hn : Good n) (text : List Char) (k : Nat) :
    (∀ p, p ≠ fileOf b n → (crash d b n text k).files.get? p = d.files.get? p) ∧
    ((crash d b n text k).files.get? (fileOf b n) = d.files.get? (fileOf b n) ∨
      ∃ j, (crash d b n text k).files.get? (fileOf b n) = some (text.take j)) ∧
    (b.fault = false → fileOf b n ∉ d.dirs → text.length < k → (crash d b n text k).files.get? (fileOf b n) = some text) := by
  cases k with
  | zero => exact ⟨fun _ _ => rfl, .inl rfl, fun _ _ h => absurd h (by omega)⟩
  | succ k =>
    have hto : saveTo d b n = if fileOf b n ∈ d.dirs then none else some (fileOf b n) := by
      unfold saveTo
      rw [show named b n = n from if_neg hn.some, if_neg (by rw [pre_false hn.own]; simp [hn.some])]
      unfold openW
      rw [target_good _ _ hn]
    simp only [crash, hto]
    by_cases hx : b.fault = true
    · rw [if_pos hx]
      exact ⟨fun _ _ => rfl, .inl rfl, fun h => by rw [hx] at h; cases h⟩
    · rw [if_neg hx]
      by_cases hd : fileOf b n ∈ d.dirs
      · rw [if_pos hd]
        exact ⟨fun _ _ => rfl, .inl rfl, fun _ h => absurd hd h⟩
      · rw [if_neg hd]
        refine ⟨fun p hp => get_put_ne (Ne.symm hp), .inr ⟨k, Dict.get?_set_self _ _ _⟩, fun _ _ h => ?_⟩
        dsimp only
        rw [List.take_of_length_le (by omega)]
        exact Dict.get?_set_self _ _ _

/-! ### Against the property -/

/-- For every design: a process that ends after the first step of a save leaves it empty; what was saved before is lost, and the new is not there -/
theorem crash_loses (d : Disk) (b : Block) (n : Name) (hn : Good n) (text : List Char) (hr : b.fault = false) (hd : fileOf b n ∉ d.dirs) :
    (crash d b n text 1).files.get? (fileOf b n) = some [] := by
  have hto : saveTo d b n = some (fileOf b n) := by
    unfold saveTo
    rw [show named b n = n from if_neg hn.some, if_neg (by rw [pre_false hn.own]; simp [hn.some])]
    unfold openW
    rw [target_good _ _ hn]
    exact if_neg hd
  simp only [crash, hto, hr]
  exact Dict.get?_set_self _ _ _

def cfg : Path := [['c']]
def blockA : Block := { dir := cfg ++ [['A']], templates := some [['t']] }
def blockB : Block := { dir := cfg ++ [['B']], templates := some [['t']] }

def temp : Name := templatePre ++ ['x']

/-- Two blocks with a directory of templates; the second has a design `x` -/
def disk : Disk :=
  { files := [(fileOf blockB ['x'], ['1']), ([['t'], temp ++ json], ['2'])], dirs := [[], cfg, blockA.dir, blockB.dir, [['t']]] }

def good (l : List Char) : Bool := l ≠ [] && !(l.contains '/') && (stem l == l) && !(templatePre.isPrefixOf l)

theorem stem_short : ∀ {n : Name}, json <:+: n → (stem n).length < n.length
  | [], h => by
    obtain ⟨a, b, e⟩ := h
    have := congrArg List.length e
    simp [json] at this
  | c :: cs, h => by
    rw [stem]
    split
    · simp
    · rename_i hp
      have : json <:+: cs := by
        obtain ⟨a, b, e⟩ := h
        match a with
        | [] => exact absurd (List.isPrefixOf_iff_prefix.2 ⟨b, by simpa [json] using e⟩) hp
        | x :: a => simp at e; exact ⟨a, b, by simpa using e.2⟩
      have := stem_short this
      simp; omega

theorem plain_of_stem {n : Name} (h : stem n = n) : ¬ json <:+: n := fun hc => by
  have := stem_short hc
  rw [h] at this
  omega

theorem good_of {n : Name} (h : good n = true) : Good n := by
  simp only [good, Bool.and_eq_true, Bool.not_eq_true', beq_iff_eq, decide_eq_true_eq, ne_eq] at h
  obtain ⟨⟨⟨h1, h2⟩, h3⟩, h4⟩ := h
  refine ⟨h1, ?_, plain_of_stem h3, fun hc => ?_⟩
  · intro hm
    have : n.contains '/' = true := by simpa using hm
    rw [h2] at this; cases this
  · rw [List.isPrefixOf_iff_prefix.2 hc] at h4; cases h4

theorem temp_ok : Template temp := ⟨by decide, plain_of_stem (by decide +kernel), ⟨['x'], rfl⟩⟩

/-- They meet the hypotheses -/
theorem disk_tidy : Tidy ⟨disk, [blockA, blockB]⟩ := by
  refine ⟨?_, ?_, by decide +kernel, ?_, ?_, ?_⟩
  · intro i j b c hb hc e
    match i, j, hb, hc with
    | 0, 0, _, _ => rfl
    | 1, 1, _, _ => rfl
    | 0, 1, hb, hc => cases hb; cases hc; revert e; decide
    | 1, 0, hb, hc => cases hb; cases hc; revert e; decide
  · decide +kernel
  · intro b hb f hf _
    simp only [List.mem_cons, List.not_mem_nil, or_false] at hb
    rcases hb with rfl | rfl
    · have h1 : blockA.dir ++ [f] ∈ [fileOf blockB ['x'], [['t'], temp ++ json]] := hf
      simp [blockA, blockB, fileOf, cfg] at h1
    · have h1 : blockB.dir ++ [f] ∈ [fileOf blockB ['x'], [['t'], temp ++ json]] := hf
      simp [blockB, fileOf, cfg] at h1
      exact ⟨['x'], good_of (by decide +kernel), h1⟩
  · intro b hb f hf
    simp only [List.mem_cons, List.not_mem_nil, or_false] at hb
    have h1 : b.dir ++ [f] ∈ [[], cfg, blockA.dir, blockB.dir, [['t']]] := hf
    rcases hb with rfl | rfl <;> simp [blockA, blockB, cfg] at h1
  · intro b hb t ht f
    have e : t = [['t']] := by
      simp only [List.mem_cons, List.not_mem_nil, or_false] at hb
      rcases hb with rfl | rfl <;> · injection ht with ht; exact ht.symm
    subst e
    refine ⟨fun hf => ?_, fun hf => ?_⟩
    · have h1 : [['t']] ++ [f] ∈ [[], cfg, blockA.dir, blockB.dir, [['t']]] := hf
      simp [blockA, blockB, cfg] at h1
    · have h1 : [['t']] ++ [f] ∈ [fileOf blockB ['x'], [['t'], temp ++ json]] := hf
      simp [blockB, fileOf, cfg] at h1
      exact ⟨temp, temp_ok, h1⟩

/-- Both save a design `x`, the first loads a template, a save of the second is cut short -/
def history : List Ev :=
  [.save 0 ['x'] ['5'], .save 1 ['y'] ['6'], .load 0 temp true, .save 0 [] ['7'], .reset 0, .crash 1 ['y'] ['8', '9'] 2, .load 1 ['x'] true]

example : ∀ e ∈ history, Fine e := by
  intro e he
  simp only [history, List.mem_cons, List.not_mem_nil, or_false] at he
  rcases he with rfl | rfl | rfl | rfl | rfl | rfl | rfl
  · exact .inr (good_of (by decide +kernel))
  · exact .inr (good_of (by decide +kernel))
  · trivial
  · exact .inl rfl
  · trivial
  · exact .inr (good_of (by decide +kernel))
  · trivial

example : let w := run (init disk [blockA, blockB]) history
    w.blocks.map (·.design) = [temp, ['x']] ∧ w.blocks.map (·.choices) = [[[], temp, ['x']], [[], ['x'], ['y'], temp]] ∧
    w.disk.files.get? (fileOf blockA ['x']) = some ['5'] ∧ w.disk.files.get? (fileOf blockB ['x']) = some ['1'] ∧
    w.disk.files.get? (fileOf blockB ['y']) = some ['8'] := by decide +kernel

/-- A block can overwrite the designs of another: a slash in the name is not refused -/
theorem slash_overwrites :
    let w := run (init disk [blockA, blockB]) [.save 0 ['.', '.', '/', 'B', '/', 'x'] ['5'], .load 1 ['x'] true]
    w.disk.files.get? (fileOf blockB ['x']) = some ['5'] ∧ (w.blocks.map (·.fault)) = [false, false] ∧ (w.blocks.map (·.design)) = [['.', '.', '/', 'B', '/', 'x'], ['x']] := by
  decide +kernel

/-- Nor is a name that is a path from the root: so a template is overwritten -/
theorem template_overwritten :
    let w := run (init disk [blockA, blockB]) [.save 0 (['/', 't', '/'] ++ temp) ['5']]
    w.disk.files.get? [['t'], temp ++ json] = some ['5'] ∧ (w.blocks.map (·.fault)) = [false, false] := by decide +kernel

/-- A name is cut at ".json": a copy kept under such a name takes the place of the design -/
theorem cut_overwrites :
    let w := run (init disk [blockA, blockB]) [.save 1 (['x'] ++ json ++ ['2']) ['5']]
    w.disk.files.get? (fileOf blockB ['x']) = some ['5'] ∧ (w.blocks.map (·.fault)) = [false, false] := by decide +kernel

/-- A file with ".json" twice is offered under a name for which there is no file: to load it puts the block in Fault -/
theorem offered_not_there :
    let d := put disk (blockA.dir ++ [['z'] ++ json ++ json]) ['3']
    let w := init d [blockA, blockB]
    (w.blocks.map (·.choices)).head? = some [[], ['z'], temp] ∧ ((step w (.load 0 ['z'] true)).blocks.map (·.fault)) = [true, false] := by decide +kernel

/-- A file among the templates that is not called as one: every save writes its file, is refused after that and puts the block in Fault -/
theorem stray_template :
    let w := run (init disk [blockA, blockB]) [.write [['t'], ['y'] ++ json] [], .save 0 ['x'] ['5']]
    w.disk.files.get? (fileOf blockA ['x']) = some ['5'] ∧ (w.blocks.map (·.fault)) = [true, false] ∧ (w.blocks.map (·.design)) = [[], []] := by decide +kernel


end Verif.Props.DesignFiles
