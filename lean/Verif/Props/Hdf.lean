import Verif.Spec.Hdf
import Verif.Proofs.PyDict
/-!
C64: the datasets that an HDF writer part announces are the ones in the files. C65: paths for Windows.
-/
namespace Verif.Props.Hdf
open Verif Verif.Hdf Verif.Spec.Hdf

theorem HasData.mono {xs ys : List Xml} {p : Path} {s : Source} (h : HasData xs p s) (hs : ∀ x ∈ xs, x ∈ ys) :
    HasData ys p s := by
  cases h with
  | here h => exact .here (hs _ h)
  | under h h2 => exact .under (hs _ h) h2

theorem HasAttr.mono {xs ys : List Xml} {p : Path} {n : String} {v : List String} (h : HasAttr xs p n v)
    (hs : ∀ x ∈ xs, x ∈ ys) : HasAttr ys p n v := by
  cases h with
  | here h => exact .here (hs _ h)
  | under h h2 => exact .under (hs _ h) h2

theorem mem_dimsEls (g : Gen) (link : Bool) (x : Xml) : ∀ (ds : List Dim) (i : Nat), x ∈ dimsEls g link i ds ↔
    ∃ j d, ds[j]? = some d ∧ x ∈ dimEls g link (i + j) d := by
  intro ds
  induction ds with
  | nil => intro i; simp [dimsEls]
  | cons d ds ih =>
    intro i
    rw [dimsEls, List.mem_append, ih]
    constructor
    · rintro (h | ⟨j, d', hj, h⟩)
      · exact ⟨0, d, rfl, h⟩
      · exact ⟨j + 1, d', hj, by rw [show i + (j + 1) = i + 1 + j by omega]; exact h⟩
    · rintro ⟨j, d', hj, h⟩
      cases j with
      | zero => simp only [List.getElem?_cons_zero, Option.some.injEq] at hj; subst hj; exact .inl h
      | succ j => exact .inr ⟨j, d', hj, by rw [show i + 1 + j = i + (j + 1) by omega]; exact h⟩

theorem mem_dimEls (g : Gen) (link : Bool) (i : Nat) (d : Dim) (x : Xml) : x ∈ dimEls g link i d ↔
    ∃ a ∈ d.axes, x = .attr (a ++ "_set_indices") [toString i] ∨
      x = if link then .link (a ++ "_set") ["entry", "detector", a ++ "_set"] else makeSetPoints d a (g.units a) := by
  unfold dimEls
  simp only [List.mem_flatMap, List.mem_cons, List.not_mem_nil, or_false]

/-- the children of the entry group -/
def entryEls (g : Gen) (pi : PartInfo) (remove : Bool) : List Xml :=
  [.attr "NX_class" ["NXentry"],
      .group "detector" (nxdata "detector" (primaryRank pi) g remove false ++ [.data "detector" .detector ""])] ++
     (calculated pi).map (fun c => attrGroup (primaryRank pi) g remove c.1 c.2) ++
     (ndAttributes pi).map (fun d => attrGroup (primaryRank pi) g remove d.1 d.2.2) ++
     [.group "NDAttributes"
       [.attr "NX_class" ["NXcollection"],
        .data "NDArrayUniqueId" (.ndattribute "NDArrayUniqueId") "",
        .data "NDArrayTimeStamp" (.ndattribute "NDArrayTimeStamp") ""]]

theorem makeLayout_eq (g : Gen) (pi : PartInfo) (remove : Bool) :
    makeLayout g pi remove = [.group "entry" (entryEls g pi remove)] := rfl

theorem detector_mem (g : Gen) (pi : PartInfo) (remove : Bool) :
    .group "detector" (nxdata "detector" (primaryRank pi) g remove false ++ [.data "detector" .detector ""]) ∈
      entryEls g pi remove := by
  simp [entryEls]

theorem has_entry {g : Gen} {pi : PartInfo} {remove : Bool} {p : Path} {s : Source}
    (h : HasData (entryEls g pi remove) p s) : HasData (makeLayout g pi remove) ("entry" :: p) s := by
  rw [makeLayout_eq]
  exact .under (List.mem_singleton.2 rfl) h

theorem has_detector (g : Gen) (pi : PartInfo) (remove : Bool) :
    HasData (makeLayout g pi remove) ["entry", "detector", "detector"] .detector :=
  has_entry (.under (detector_mem g pi remove) (.here (u := "") (by simp)))

theorem has_uniqueid (g : Gen) (pi : PartInfo) (remove : Bool) :
    HasData (makeLayout g pi remove) uniqueIdPath (.ndattribute "NDArrayUniqueId") :=
  has_entry (.under (n := "NDAttributes") (List.mem_append_right _ (List.mem_singleton.2 rfl)) (.here (u := "") (by simp)))

theorem has_calculated (g : Gen) (pi : PartInfo) (remove : Bool) (c : String × String) (h : c ∈ calculated pi) :
    HasData (makeLayout g pi remove) ["entry", c.1, c.1] (.ndattribute c.2) := by
  apply has_entry
  refine .under (ys := nxdata c.1 (primaryRank pi) g remove true ++ [.data c.1 (.ndattribute c.2) ""]) ?_ (.here (u := "") (by simp))
  apply List.mem_append_left
  apply List.mem_append_left
  apply List.mem_append_right
  exact List.mem_map.2 ⟨c, h, rfl⟩

theorem has_ndAttribute (g : Gen) (pi : PartInfo) (remove : Bool) (c : String × DatasetType × String) (h : c ∈ ndAttributes pi) :
    HasData (makeLayout g pi remove) ["entry", c.1, c.1] (.ndattribute c.2.2) := by
  apply has_entry
  refine .under (ys := nxdata c.1 (primaryRank pi) g remove true ++ [.data c.1 (.ndattribute c.2.2) ""]) ?_ (.here (u := "") (by simp))
  apply List.mem_append_left
  apply List.mem_append_right
  exact List.mem_map.2 ⟨c, h, rfl⟩

theorem has_set (g : Gen) (pi : PartInfo) (i : Nat) (d : Dim) (a : String) (hd : g.dimensions[i]? = some d) (ha : a ∈ d.axes) :
    HasData (makeLayout g pi false) ["entry", "detector", a ++ "_set"] (.constant (d.positions a)) := by
  apply has_entry
  refine .under (detector_mem g pi false) (.here (u := g.units a) ?_)
  apply List.mem_append_left
  unfold nxdata
  apply List.mem_cons_of_mem
  rw [if_neg (by decide)]
  apply List.mem_append_right
  rw [mem_dimsEls]
  refine ⟨i, d, hd, ?_⟩
  rw [mem_dimEls]
  exact ⟨a, ha, .inr rfl⟩

/-! ### what configure gives -/

theorem configure_some {windows remove : Bool} {pi : PartInfo} {g : Gen} {fileDir : List Char} {formatName pre post : String}
    {out : Out} (h : configure windows remove pi g fileDir formatName pre post = some out) :
    ∃ dir, onIoc windows pi (rstrip fileDir) = some dir ∧
      out.pluginFile = dir ++ '/' :: (pre ++ formatName ++ post).toList ∧
      out.layout = makeLayout g pi remove ∧ setDimensions g = some out.puts ∧
      createDatasetInfos formatName pi g (pre ++ formatName ++ post) remove = some out.infos ∧
      out.additional = if remove then some (additionalFile (pre ++ formatName ++ post) g dir) else none := by
  unfold configure at h
  simp only at h
  change (match onIoc windows pi (rstrip fileDir) with | none => none | some h5Dir => _) = some out at h
  cases hd : onIoc windows pi (rstrip fileDir) with
  | none => rw [hd] at h; cases h
  | some dir =>
    rw [hd] at h
    simp only at h
    split at h
    · cases hp : setDimensions g with
      | none => rw [hp] at h; cases h
      | some puts =>
        rw [hp] at h
        simp only at h
        cases hi : createDatasetInfos formatName pi g (pre ++ formatName ++ post) remove with
        | none => rw [hi] at h; cases h
        | some infos =>
          rw [hi] at h
          cases h
          refine ⟨dir, rfl, ?_, rfl, rfl, rfl, rfl⟩
          simp only [String.toList_append, List.append_assoc, List.cons_append, List.nil_append]
    · cases h

/-- What `create_dataset_infos` announces: a path of the layout in the file of the plugin, or a demand position. -/
theorem infos_cases {name : String} {pi : PartInfo} {g : Gen} {filename : String} {remove : Bool} {infos : List Produced}
    (h : createDatasetInfos name pi g filename remove = some infos) (i : Produced) (hi : i ∈ infos) :
    (i.filename = filename ∧ i.uniqueid = uniqueIdPath ∧ ∃ s, HasData (makeLayout g pi remove) i.path s) ∨
    (i.uniqueid = [] ∧ ∃ a ∈ g.axes, (remove = true → i.filename = additionalName filename ∧ i.path = setPath a) ∧
      (remove = false → i.filename = filename ∧ i.path = ["entry", "detector", a ++ "_set"])) := by
  unfold createDatasetInfos at h
  simp only at h
  split at h
  · cases h
  · simp only [Option.some.injEq] at h
    subst h
    rw [List.mem_append, List.mem_append] at hi
    rcases hi with (hi | hi) | hi
    · left
      split at hi
      · cases hi
      · rw [List.mem_cons] at hi
        rcases hi with rfl | hi
        · exact ⟨rfl, rfl, _, has_detector g pi remove⟩
        · obtain ⟨c, hc, rfl⟩ := List.mem_map.1 hi
          exact ⟨rfl, rfl, _, has_calculated g pi remove c hc⟩
    · left
      obtain ⟨c, hc, rfl⟩ := List.mem_map.1 hi
      exact ⟨rfl, rfl, _, has_ndAttribute g pi remove c hc⟩
    · right
      obtain ⟨a, ha, rfl⟩ := List.mem_map.1 hi
      refine ⟨?_, a, ha, ?_, ?_⟩
      · cases remove <;> rfl
      · rintro rfl; exact ⟨rfl, rfl⟩
      · rintro rfl; exact ⟨rfl, rfl⟩

/-- **C64** part: whatever infos the parts gave, whatever the generator, every dataset that a configured HDF writer
part announces will be written at the path it announces in the file it announces, and so will the dataset of unique
ids that it names. What is missing: with the demand positions in a file of their own on a detector whose server runs
on Windows they are not, see `set_points_elsewhere`; that the plugin does what the layout says is taken from its
documentation. -/
theorem announced_written_partial (windows remove : Bool) (pi : PartInfo) (g : Gen) (fileDir : List Char)
    (formatName pre post : String) (out : Out) (hg : Ok g)
    (h : configure windows remove pi g fileDir formatName pre post = some out)
    (hw : windows = false ∨ remove = false) :
    ∀ i ∈ out.infos, Written windows pi fileDir out i.filename i.path ∧
      (i.uniqueid ≠ [] → Written windows pi fileDir out i.filename i.uniqueid) := by
  obtain ⟨dir, hdir, hplug, hlay, _, hinf, hadd⟩ := configure_some h
  intro i hi
  rcases infos_cases hinf i hi with ⟨h1, h2, s, h3⟩ | ⟨h1, a, ha, h2, h3⟩
  · refine ⟨.inl ⟨dir, hdir, by rw [hplug, h1], s, by rw [hlay]; exact h3⟩, fun _ => .inl ⟨dir, hdir, by rw [hplug, h1], ?_⟩⟩
    rw [hlay, h2]
    exact ⟨_, has_uniqueid g pi remove⟩
  · refine ⟨?_, fun hc => absurd h1 hc⟩
    obtain ⟨d, hd, had⟩ := hg.covered a ha
    obtain ⟨k, hk⟩ := List.getElem?_of_mem hd
    cases remove with
    | false =>
      obtain ⟨e1, e2⟩ := h3 rfl
      refine .inl ⟨dir, hdir, by rw [hplug, e1], ?_⟩
      rw [hlay, e2]
      exact ⟨_, has_set g pi k d a hk had⟩
    | true =>
      obtain ⟨e1, e2⟩ := h2 rfl
      rcases hw with rfl | hw
      · simp only [onIoc] at hdir
        cases hdir
        right
        rw [hadd, if_pos rfl, e1, e2]
        refine ⟨_, rfl, ?_⟩
        rw [List.map_flatMap, List.mem_flatMap]
        refine ⟨d, hd, ?_⟩
        rw [List.map_map]
        exact List.mem_map.2 ⟨a, had, rfl⟩
      · cases hw

/-- **C64**: each NDAttribute that a part says is a useful dataset is announced under its name and type, with the rank of
the scan, and the layout fills it from that attribute. -/
theorem attribute_announced (windows remove : Bool) (pi : PartInfo) (g : Gen) (fileDir : List Char)
    (formatName pre post : String) (out : Out)
    (h : configure windows remove pi g fileDir formatName pre post = some out)
    (name : String) (type : DatasetType) (attr : String) (ha : (name, type, attr) ∈ ndAttributes pi) :
    ⟨name, pre ++ formatName ++ post, type, g.dimensions.length, ["entry", name, name], uniqueIdPath⟩ ∈ out.infos ∧
    HasData out.layout ["entry", name, name] (.ndattribute attr) := by
  obtain ⟨dir, hdir, hplug, hlay, _, hinf, hadd⟩ := configure_some h
  refine ⟨?_, by rw [hlay]; exact has_ndAttribute g pi remove _ ha⟩
  unfold createDatasetInfos at hinf
  simp only at hinf
  split at hinf
  · cases hinf
  · simp only [Option.some.injEq] at hinf
    rw [← hinf]
    apply List.mem_append_left
    apply List.mem_append_right
    exact List.mem_map.2 ⟨_, ha, rfl⟩

/-- **C64**: the frames and the statistics of them are announced if a part says that it produces frames, with their
ranks; the layout fills them from the detector and the attributes. -/
theorem frames_announced (windows remove : Bool) (pi : PartInfo) (g : Gen) (fileDir : List Char)
    (formatName pre post : String) (out : Out)
    (h : configure windows remove pi g fileDir formatName pre post = some out) (r : Nat) (hr : r ∈ ndArrays pi) :
    (⟨formatName ++ ".data", pre ++ formatName ++ post, .primary, r + g.dimensions.length, ["entry", "detector", "detector"],
      uniqueIdPath⟩ ∈ out.infos ∧ HasData out.layout ["entry", "detector", "detector"] .detector) ∧
    ∀ name attr, (name, attr) ∈ calculated pi →
      ⟨formatName ++ "." ++ name, pre ++ formatName ++ post, .secondary, g.dimensions.length, ["entry", name, name],
        uniqueIdPath⟩ ∈ out.infos ∧ HasData out.layout ["entry", name, name] (.ndattribute attr) := by
  obtain ⟨dir, hdir, hplug, hlay, _, hinf, hadd⟩ := configure_some h
  unfold createDatasetInfos at hinf
  simp only at hinf
  split at hinf
  · cases hinf
  · rename_i hl
    simp only [Option.some.injEq] at hinf
    rw [← hinf, hlay]
    cases hn : ndArrays pi with
    | nil => rw [hn] at hr; cases hr
    | cons r' l =>
      rw [hn] at hr hl
      have hl0 : l = [] := by
        cases l with
        | nil => rfl
        | cons x y => simp only [List.length_cons] at hl; omega
      subst hl0
      simp only [List.mem_singleton] at hr
      subst hr
      refine ⟨⟨?_, has_detector g pi remove⟩, fun name attr hc => ⟨?_, has_calculated g pi remove _ hc⟩⟩
      · apply List.mem_append_left
        apply List.mem_append_left
        exact List.mem_cons_self
      · apply List.mem_append_left
        apply List.mem_append_left
        apply List.mem_cons_of_mem
        exact List.mem_map.2 ⟨_, hc, rfl⟩

/-! ### the shape -/

theorem puts_keys {g : Gen} {puts : List (String × Val)} (h : setDimensions g = some puts) :
    puts.map (·.1) = "numExtraDims" :: (List.range 10).flatMap (fun i =>
      ["posNameDim" ++ (suffixes[i]?).getD "", "extraDimSize" ++ (suffixes[i]?).getD ""]) := by
  unfold setDimensions at h
  simp only at h
  split at h
  · cases h
    rw [List.map_cons, List.map_flatMap]
    congr 2
    funext i
    split <;> rfl
  · cases h

theorem keys_nodup : ("numExtraDims" :: (List.range 10).flatMap (fun i =>
      ["posNameDim" ++ (suffixes[i]?).getD "", "extraDimSize" ++ (suffixes[i]?).getD ""])).Nodup := by decide +kernel

/-- **C64**: the shape that the plugin is told is the shape of the scan: it has one index for each dimension, and its
indexes are, from the slowest to the fastest, the dimensions of the generator, each called `d` and its number, as the
position labels are (C46), and of its size. -/
theorem shape_told (windows remove : Bool) (pi : PartInfo) (g : Gen) (fileDir : List Char)
    (formatName pre post : String) (out : Out)
    (h : configure windows remove pi g fileDir formatName pre post = some out) :
    Dict.get? out.puts "numExtraDims" = some (.int ((g.dimensions.length : Int) - 1)) ∧
    ∀ i d, g.dimensions[i]? = some d → ∃ s, suffixes[g.dimensions.length - 1 - i]? = some s ∧
      Dict.get? out.puts ("posNameDim" ++ s) = some (.str ("d" ++ toString i)) ∧
      Dict.get? out.puts ("extraDimSize" ++ s) = some (.int d.size) := by
  obtain ⟨dir, hdir, hplug, hlay, hp, hinf, hadd⟩ := configure_some h
  have hk : (Dict.keys out.puts).Nodup := by
    unfold Dict.keys; rw [puts_keys hp]; exact keys_nodup
  have hp' := hp
  unfold setDimensions at hp
  simp only at hp
  split at hp
  · rename_i hn
    simp only [Option.some.injEq] at hp
    refine ⟨Dict.get?_of_mem_nodup hk (by rw [← hp]; exact List.mem_cons_self), ?_⟩
    intro i d hd
    have hi : i < g.dimensions.length := (List.getElem?_eq_some_iff.1 hd).1
    have hs : g.dimensions.length - 1 - i < suffixes.length := by
      show _ < 10
      omega
    refine ⟨suffixes[g.dimensions.length - 1 - i], List.getElem?_eq_getElem hs, ?_⟩
    have hmem : ∀ x, x ∈ (if g.dimensions.length - 1 - i < g.dimensions.length then
          [("posNameDim" ++ (suffixes[g.dimensions.length - 1 - i]?).getD "",
              Val.str ("d" ++ toString (g.dimensions.length - (g.dimensions.length - 1 - i) - 1))),
           ("extraDimSize" ++ (suffixes[g.dimensions.length - 1 - i]?).getD "",
              Val.int ((g.dimensions[g.dimensions.length - (g.dimensions.length - 1 - i) - 1]?).elim 1 (fun d => (d.size : Int))))]
        else [("posNameDim" ++ (suffixes[g.dimensions.length - 1 - i]?).getD "", .str ""),
              ("extraDimSize" ++ (suffixes[g.dimensions.length - 1 - i]?).getD "", .int 1)]) → x ∈ out.puts := by
      intro x hx
      rw [← hp]
      apply List.mem_cons_of_mem
      rw [List.mem_flatMap]
      exact ⟨g.dimensions.length - 1 - i, List.mem_range.2 (by omega), hx⟩
    rw [if_pos (by omega), show g.dimensions.length - (g.dimensions.length - 1 - i) - 1 = i by omega, hd,
      List.getElem?_eq_getElem hs] at hmem
    exact ⟨Dict.get?_of_mem_nodup hk (hmem _ (by simp)), Dict.get?_of_mem_nodup hk (hmem _ (by simp))⟩
  · cases hp

/-- **C64**: the demand positions. For each axis of dimension `i` there is one dataset with the positions of that axis
in order, the group of the frames says that they go with index `i`, and they are as many as that index of the frames is
long. -/
theorem set_points (windows : Bool) (pi : PartInfo) (g : Gen) (fileDir : List Char)
    (formatName pre post : String) (out : Out) (hg : Ok g)
    (h : configure windows false pi g fileDir formatName pre post = some out)
    (i : Nat) (d : Dim) (a : String) (hd : g.dimensions[i]? = some d) (ha : a ∈ d.axes) :
    HasData out.layout ["entry", "detector", a ++ "_set"] (.constant (d.positions a)) ∧
    HasAttr out.layout ["entry", "detector"] (a ++ "_set_indices") [toString i] ∧
    (d.positions a).length = d.size := by
  obtain ⟨dir, hdir, hplug, hlay, hp, hinf, hadd⟩ := configure_some h
  rw [hlay]
  refine ⟨has_set g pi i d a hd ha, ?_, hg.sized d (List.mem_of_getElem? hd) a ha⟩
  rw [makeLayout_eq]
  refine .under (List.mem_singleton.2 rfl) (.under (detector_mem g pi false) (.here ?_))
  apply List.mem_append_left
  unfold nxdata
  apply List.mem_cons_of_mem
  rw [if_neg (by decide)]
  apply List.mem_append_right
  rw [mem_dimsEls]
  refine ⟨i, d, hd, ?_⟩
  rw [mem_dimEls, Nat.zero_add]
  exact ⟨a, ha, .inl rfl⟩

/-- **C64**: each link of the layout is to a dataset of the layout. -/
theorem links_lead (windows remove : Bool) (pi : PartInfo) (g : Gen) (fileDir : List Char)
    (formatName pre post : String) (out : Out)
    (h : configure windows remove pi g fileDir formatName pre post = some out) (p t : Path) (hl : HasLink out.layout p t) :
    ∃ s, HasData out.layout t s := by
  obtain ⟨dir, hdir, hplug, hlay, hp, hinf, hadd⟩ := configure_some h
  rw [hlay] at hl ⊢
  have key : ∀ name rank lk n t, Xml.link n t ∈ nxdata name rank g remove lk → ∃ s, HasData (makeLayout g pi remove) t s := by
    intro name rank lk n t hm
    unfold nxdata at hm
    rw [List.mem_cons] at hm
    rcases hm with hm | hm
    · cases hm
    · cases remove with
      | true => rw [if_pos rfl] at hm; cases hm
      | false =>
        rw [if_neg (by decide), List.mem_append] at hm
        rcases hm with hm | hm
        · simp at hm
        · rw [mem_dimsEls] at hm
          obtain ⟨j, d, hj, hm⟩ := hm
          rw [mem_dimEls] at hm
          obtain ⟨a, ha, hm | hm⟩ := hm
          · cases hm
          · cases lk with
            | false => cases hm
            | true => cases hm; exact ⟨_, has_set g pi j d a hj ha⟩
  rw [makeLayout_eq] at hl
  cases hl with
  | here hm => simp at hm
  | under hm hl =>
    rw [List.mem_singleton] at hm
    cases hm
    cases hl with
    | here hm =>
      unfold entryEls at hm
      simp only [List.mem_append, List.mem_cons, List.mem_map, List.not_mem_nil, or_false] at hm
      rcases hm with ((hm | ⟨_, _, hm⟩) | ⟨_, _, hm⟩) | hm
      · rcases hm with hm | hm <;> cases hm
      · cases hm
      · cases hm
      · cases hm
    | under hm hl =>
      unfold entryEls at hm
      simp only [List.mem_append, List.mem_cons, List.mem_map, List.not_mem_nil, or_false] at hm
      have leaf : ∀ name rank lk src p, HasLink (nxdata name rank g remove lk ++ [.data name src ""]) p t →
          ∃ s, HasData (makeLayout g pi remove) t s := by
        intro name rank lk src p hh
        cases hh with
        | here hm =>
          rw [List.mem_append] at hm
          rcases hm with hm | hm
          · exact key _ _ _ _ _ hm
          · simp at hm
        | under hm hh =>
          rw [List.mem_append] at hm
          rcases hm with hm | hm
          · exfalso
            unfold nxdata at hm
            rw [List.mem_cons] at hm
            rcases hm with hm | hm
            · cases hm
            · cases remove with
              | true => rw [if_pos rfl] at hm; cases hm
              | false =>
                rw [if_neg (by decide), List.mem_append] at hm
                rcases hm with hm | hm
                · simp at hm
                · rw [mem_dimsEls] at hm
                  obtain ⟨j, d, hj, hm⟩ := hm
                  rw [mem_dimEls] at hm
                  obtain ⟨a, ha, hm | hm⟩ := hm
                  · cases hm
                  · cases lk <;> cases hm
          · simp at hm
      rcases hm with ((hm | ⟨_, _, hm⟩) | ⟨_, _, hm⟩) | hm
      · rcases hm with hm | hm
        · cases hm
        · cases hm; exact leaf _ _ _ _ _ hl
      · unfold attrGroup at hm; cases hm; exact leaf _ _ _ _ _ hl
      · unfold attrGroup at hm; cases hm; exact leaf _ _ _ _ _ hl
      · cases hm
        cases hl with
        | here hm => simp at hm
        | under hm _ => simp at hm

/-- **C64**: the `axes` of the group of the frames has one entry for each index of the frames: for a dimension of one
axis it names the dataset of the positions of that axis. -/
theorem axes_fit (windows : Bool) (pi : PartInfo) (g : Gen) (fileDir : List Char)
    (formatName pre post : String) (out : Out)
    (h : configure windows false pi g fileDir formatName pre post = some out) (r : Nat) (hr : r ∈ ndArrays pi) :
    ∃ v, HasAttr out.layout ["entry", "detector"] "axes" v ∧ v.length = r + g.dimensions.length ∧
      ∀ (i : Nat) d a, g.dimensions[i]? = some d → d.axes = [a] → v[i]? = some (a ++ "_set") := by
  obtain ⟨dir, hdir, hplug, hlay, hp, hinf, hadd⟩ := configure_some h
  refine ⟨g.dimensions.map padDim ++ List.replicate (primaryRank pi) ".", ?_, ?_, ?_⟩
  · rw [hlay, makeLayout_eq]
    refine .under (List.mem_singleton.2 rfl) (.under (detector_mem g pi false) (.here ?_))
    apply List.mem_append_left
    unfold nxdata
    rw [if_neg (by decide)]
    simp
  · have hp : primaryRank pi = r := by
      unfold createDatasetInfos at hinf
      simp only at hinf
      split at hinf
      · cases hinf
      · rename_i hl
        unfold primaryRank
        cases hn : ndArrays pi with
        | nil => rw [hn] at hr; cases hr
        | cons x l =>
          rw [hn] at hr hl
          cases l with
          | nil => exact (List.mem_singleton.1 hr).symm
          | cons y l => simp only [List.length_cons] at hl; omega
    simp [hp, Nat.add_comm]
  · intro i d a hd ha
    have hi : i < g.dimensions.length := (List.getElem?_eq_some_iff.1 hd).1
    rw [List.getElem?_append_left (by simpa using hi), List.getElem?_map, hd]
    simp [padDim, ha]

/-! ### a layout that can be used -/

theorem set_inj {a b : String} (h : a ++ "_set" = b ++ "_set") : a = b := by
  have := congrArg String.toList h
  rw [String.toList_append, String.toList_append] at this
  exact String.toList_inj.1 (List.append_cancel_right this)

theorem indices_inj {a b : String} (h : a ++ "_set_indices" = b ++ "_set_indices") : a = b := by
  have := congrArg String.toList h
  rw [String.toList_append, String.toList_append] at this
  exact String.toList_inj.1 (List.append_cancel_right this)

theorem indices_long (a n : String) (hn : n.toList.length < 12) : a ++ "_set_indices" ≠ n := by
  intro h
  have := congrArg (fun s => s.toList.length) h
  simp only [String.toList_append, List.length_append] at this
  have e : "_set_indices".toList.length = 12 := by decide
  omega

theorem set_ne_detector (a : String) : a ++ "_set" ≠ "detector" := by
  intro h
  have := congrArg (fun s => s.toList.getLast?) h
  simp only [String.toList_append] at this
  rw [List.getLast?_append] at this
  have e1 : "_set".toList.getLast? = some 't' := by decide
  have e2 : "detector".toList.getLast? = some 'r' := by decide
  rw [e1, e2] at this
  simp at this

/-- the keys of the elements of the dimensions -/
def axisKeys (a : String) : List (Bool × String) := [(false, a ++ "_set_indices"), (true, a ++ "_set")]

theorem dimEls_keys (g : Gen) (link : Bool) (i : Nat) (d : Dim) : (dimEls g link i d).map key = d.axes.flatMap axisKeys := by
  unfold dimEls
  rw [List.map_flatMap]
  congr 1
  funext a
  cases link <;> rfl

theorem dimsEls_keys (g : Gen) (link : Bool) : ∀ (ds : List Dim) (i : Nat), (dimsEls g link i ds).map key =
    (ds.flatMap (·.axes)).flatMap axisKeys := by
  intro ds
  induction ds with
  | nil => intro i; rfl
  | cons d ds ih =>
    intro i
    rw [dimsEls, List.map_append, dimEls_keys, ih, List.flatMap_cons, List.flatMap_append]

theorem mem_axisKeys (l : List String) (k : Bool × String) : k ∈ l.flatMap axisKeys ↔
    ∃ a ∈ l, k = (false, a ++ "_set_indices") ∨ k = (true, a ++ "_set") := by
  simp only [List.mem_flatMap, axisKeys, List.mem_cons, List.not_mem_nil, or_false]

theorem axisKeys_nodup (l : List String) (h : l.Nodup) : (l.flatMap axisKeys).Nodup := by
  induction l with
  | nil => exact List.nodup_nil
  | cons a l ih =>
    rw [List.nodup_cons] at h
    rw [List.flatMap_cons, List.nodup_append]
    refine ⟨?_, ih h.2, ?_⟩
    · simp [axisKeys]
    · intro k hk k' hk' he
      subst he
      rw [mem_axisKeys] at hk'
      obtain ⟨b, hb, hk'⟩ := hk'
      simp only [axisKeys, List.mem_cons, List.not_mem_nil, or_false] at hk
      rcases hk with rfl | rfl <;> rcases hk' with hk' | hk' <;> simp only [Prod.mk.injEq] at hk'
      · exact h.1 (indices_inj hk'.2 ▸ hb)
      · cases hk'.1
      · cases hk'.1
      · exact h.1 (set_inj hk'.2 ▸ hb)

theorem nxdata_keys_nodup (name : String) (rank : Nat) (g : Gen) (remove link : Bool) (hg : Ok g)
    (hn : ∀ d ∈ g.dimensions, ∀ a ∈ d.axes, name ≠ a ++ "_set") :
    ((nxdata name rank g remove link).map key ++ [(true, name)]).Nodup := by
  unfold nxdata
  cases remove with
  | true =>
    rw [if_pos rfl]
    simp [key]
  | false =>
    rw [if_neg (by decide)]
    simp only [List.map_cons, List.map_append, List.map_nil, key, dimsEls_keys, List.cons_append, List.nil_append]
    have hA := axisKeys_nodup _ hg.once
    have hnot : ∀ n : String, n.toList.length < 12 → (false, n) ∉ (g.dimensions.flatMap (·.axes)).flatMap axisKeys := by
      intro n hl hm
      rw [mem_axisKeys] at hm
      obtain ⟨a, _, hm | hm⟩ := hm
      · simp only [Prod.mk.injEq, true_and] at hm
        exact indices_long a n hl hm.symm
      · simp at hm
    have hname : (true, name) ∉ (g.dimensions.flatMap (·.axes)).flatMap axisKeys := by
      intro hm
      rw [mem_axisKeys] at hm
      obtain ⟨a, ha, hm | hm⟩ := hm
      · simp at hm
      · simp only [Prod.mk.injEq, true_and] at hm
        rw [List.mem_flatMap] at ha
        obtain ⟨d, hd, ha⟩ := ha
        exact hn d hd a ha hm
    have h1 := hnot "signal" (by decide)
    have h2 := hnot "axes" (by decide)
    have h3 := hnot "NX_class" (by decide)
    simp only [List.nodup_cons, List.mem_cons, List.mem_append, List.not_mem_nil, or_false, Prod.mk.injEq, reduceCtorEq,
      false_and, false_or, not_or, List.nodup_append, true_and]
    refine ⟨⟨by simp, by simp, h1⟩, ⟨by simp, h2⟩, h3, hA, by simp, ?_⟩
    intro k hk k' hk' he
    subst hk' he
    exact hname hk

theorem nxdata_no_group (name : String) (rank : Nat) (g : Gen) (remove link : Bool) (n : String) (ys : List Xml) :
    Xml.group n ys ∉ nxdata name rank g remove link := by
  intro hm
  unfold nxdata at hm
  rw [List.mem_cons] at hm
  rcases hm with hm | hm
  · cases hm
  · cases remove with
    | true => rw [if_pos rfl] at hm; cases hm
    | false =>
      rw [if_neg (by decide), List.mem_append] at hm
      rcases hm with hm | hm
      · simp at hm
      · rw [mem_dimsEls] at hm
        obtain ⟨j, d, hj, hm⟩ := hm
        rw [mem_dimEls] at hm
        obtain ⟨a, ha, hm | hm⟩ := hm
        · cases hm
        · cases link <;> cases hm

theorem nxgroup_valid (name : String) (rank : Nat) (g : Gen) (remove link : Bool) (src : Source) (hg : Ok g)
    (hn : ∀ d ∈ g.dimensions, ∀ a ∈ d.axes, name ≠ a ++ "_set") :
    Valid (nxdata name rank g remove link ++ [.data name src ""]) := by
  refine .mk ?_ ?_
  · rw [List.map_append]
    exact nxdata_keys_nodup name rank g remove link hg hn
  · intro n ys hm
    rw [List.mem_append] at hm
    rcases hm with hm | hm
    · exact absurd hm (nxdata_no_group _ _ _ _ _ _ _)
    · simp at hm

/-- The names of the datasets that the parts want -/
def wanted (pi : PartInfo) : List String := (calculated pi).map (·.1) ++ (ndAttributes pi).map (·.1)

/-- **C64**: if the parts want datasets of different names, none of them `detector` or `NDAttributes` or that of a
dataset of demand positions, then no group of the layout has two things of the same name. -/
theorem layout_valid (windows remove : Bool) (pi : PartInfo) (g : Gen) (fileDir : List Char)
    (formatName pre post : String) (out : Out) (hg : Ok g)
    (h : configure windows remove pi g fileDir formatName pre post = some out)
    (hw : (wanted pi).Nodup) (hd : "detector" ∉ wanted pi) (ha : "NDAttributes" ∉ wanted pi)
    (hs : ∀ d ∈ g.dimensions, ∀ a ∈ d.axes, a ++ "_set" ∉ wanted pi) : Valid out.layout := by
  obtain ⟨dir, hdir, hplug, hlay, hp, hinf, hadd⟩ := configure_some h
  rw [hlay, makeLayout_eq]
  refine .mk (by simp) ?_
  intro n ys hm
  rw [List.mem_singleton] at hm
  cases hm
  refine .mk ?_ ?_
  · have e : (entryEls g pi remove).map key =
        (false, "NX_class") :: ("detector" :: (wanted pi ++ ["NDAttributes"])).map (fun n => (true, n)) := by
      unfold entryEls wanted
      simp only [List.map_append, List.map_cons, List.map_nil, List.map_map, key, List.cons_append, List.nil_append,
        List.append_assoc]
      rfl
    rw [e, List.nodup_cons]
    refine ⟨by simp, ?_⟩
    have hN : ("detector" :: (wanted pi ++ ["NDAttributes"])).Nodup := by
      rw [List.nodup_cons, List.nodup_append]
      refine ⟨?_, hw, by simp, ?_⟩
      · rw [List.mem_append]
        rintro (hc | hc)
        · exact hd hc
        · simp at hc
      · intro x hx y hy he
        rw [List.mem_singleton] at hy
        subst he hy
        exact ha hx
    exact List.Pairwise.map _ (fun a b hab hc => hab (by simpa using hc)) hN
  · intro n ys hm
    unfold entryEls at hm
    simp only [List.mem_append, List.mem_cons, List.mem_map, List.not_mem_nil, or_false] at hm
    rcases hm with ((hm | ⟨c, hc, hm⟩) | ⟨c, hc, hm⟩) | hm
    · rcases hm with hm | hm
      · cases hm
      · cases hm
        exact nxgroup_valid _ _ _ _ _ _ hg (fun d _ a _ hc => set_ne_detector a hc.symm)
    · unfold attrGroup at hm
      cases hm
      refine nxgroup_valid _ _ _ _ _ _ hg (fun d hd a ha hcc => hs d hd a ha ?_)
      rw [← hcc]
      exact List.mem_append_left _ (List.mem_map.2 ⟨c, hc, rfl⟩)
    · unfold attrGroup at hm
      cases hm
      refine nxgroup_valid _ _ _ _ _ _ hg (fun d hd a ha hcc => hs d hd a ha ?_)
      rw [← hcc]
      exact List.mem_append_right _ (List.mem_map.2 ⟨c, hc, rfl⟩)
    · cases hm
      exact .mk (by simp [key]) (by intro n ys hm; simp at hm)

theorem mem_of_key {xs : List Xml} (h : (xs.map key).Nodup) {x y : Xml} (hx : x ∈ xs) (hy : y ∈ xs) (hk : key x = key y) :
    x = y := by
  induction xs with
  | nil => cases hx
  | cons z xs ih =>
    rw [List.map_cons, List.nodup_cons] at h
    rw [List.mem_cons] at hx hy
    rcases hx with rfl | hx <;> rcases hy with rfl | hy
    · rfl
    · exact absurd (List.mem_map.2 ⟨y, hy, hk.symm⟩) h.1
    · exact absurd (List.mem_map.2 ⟨x, hx, hk⟩) h.1
    · exact ih h.2 hx hy

/-- In a valid layout a path leads to one dataset only. -/
theorem one_source {xs : List Xml} (hv : Valid xs) {p : Path} {s s' : Source} (h : HasData xs p s) (h' : HasData xs p s') :
    s = s' := by
  induction h with
  | here h =>
    obtain ⟨hn, hg⟩ := hv
    cases h' with
    | here h2 =>
      have := mem_of_key hn h h2 rfl
      cases this
      rfl
    | under h2 h3 => cases h3
  | under h hd ih =>
    obtain ⟨hn, hg⟩ := hv
    cases h' with
    | here h2 => cases hd
    | under h2 h3 =>
      have := mem_of_key hn h h2 rfl
      cases this
      exact ih (hg _ _ h) h3

/-! ### Windows -/

theorem replaceGo_skip (old new : List Char) : ∀ (a s : List Char), replaceGo old new a.length (a ++ s) = replaceGo old new 0 s := by
  intro a
  induction a with
  | nil => intro s; rfl
  | cons c a ih => intro s; exact ih s

theorem replaceGo_none (old new : List Char) : ∀ s : List Char, (∀ a b, s ≠ a ++ old ++ b) → replaceGo old new 0 s = s := by
  intro s
  induction s with
  | nil => intro _; rfl
  | cons c s ih =>
    intro h
    rw [replaceGo]
    rw [if_neg]
    · rw [ih]
      intro a b hab
      exact h (c :: a) b (by rw [hab]; simp)
    · intro hp
      rw [List.isPrefixOf_iff_prefix] at hp
      obtain ⟨b, hb⟩ := hp
      exact h [] b (by simpa using hb.symm)

theorem replace_start (old new rest : List Char) (hne : old ≠ []) (h : OnlyAtStart old (old ++ rest)) :
    replace old new (old ++ rest) = new ++ rest := by
  cases old with
  | nil => exact absurd rfl hne
  | cons c old =>
    show replaceGo (c :: old) new 0 (c :: (old ++ rest)) = _
    rw [replaceGo, if_pos (by rw [List.isPrefixOf_iff_prefix]; exact ⟨rest, by simp⟩)]
    congr 1
    show replaceGo (c :: old) new old.length (old ++ rest) = rest
    rw [replaceGo_skip, replaceGo_none]
    intro a b hab
    have := h (c :: old ++ a) b (by rw [hab]; simp)
    simp at this

/-- **C65** part: with one translator whose prefix is where the path starts and nowhere else in it, the path for Windows is
the drive letter, or the network prefix and the prefix, in the place of the prefix, then the rest, with backslashes.
What is missing: a prefix that occurs again is replaced again, see `replaced_again`. -/
theorem translated_partial (pi : PartInfo) (drive pre network rest : List Char) (ht : translators pi = [(drive, pre, network)])
    (hne : pre ≠ []) (hc : ':' ∉ pre ++ rest) (ho : OnlyAtStart pre (pre ++ rest)) :
    translate pi (pre ++ rest) = some (((if network = [] then drive ++ [':'] else network ++ pre) ++ rest).map
      (fun c => if c = '/' then '\\' else c)) := by
  unfold translate
  rw [ht]
  simp only
  rw [if_pos (by rw [List.isPrefixOf_iff_prefix]; exact ⟨rest, rfl⟩), if_neg hc]
  by_cases hn : network = []
  · rw [if_neg (by simp [hn]), replace_start _ _ _ hne ho, if_pos hn]
  · rw [if_pos hn, replace_start _ _ _ hne ho, if_neg hn]

/-- **C65**: it is refused if there is not exactly one translator, if the path does not start with the prefix, or if it has a
colon. -/
theorem refused_iff (pi : PartInfo) (path : List Char) : translate pi path = none ↔
    ¬ ∃ drive pre network, translators pi = [(drive, pre, network)] ∧ pre <+: path ∧ ':' ∉ path := by
  unfold translate
  split
  · rename_i drive pre network ht
    rw [ht]
    simp only [List.cons.injEq, Prod.mk.injEq, and_true]
    by_cases hp : pre <+: path
    · rw [if_pos (List.isPrefixOf_iff_prefix.2 hp)]
      by_cases hc : ':' ∈ path
      · rw [if_pos hc]
        simp only [true_iff]
        rintro ⟨_, _, _, _, _, h⟩
        exact h hc
      · rw [if_neg hc]
        constructor
        · intro h; split at h <;> cases h
        · intro h
          exact absurd ⟨drive, pre, network, ⟨rfl, rfl, rfl⟩, hp, hc⟩ h
    · rw [if_neg (fun h => hp (List.isPrefixOf_iff_prefix.1 h))]
      simp only [true_iff]
      rintro ⟨_, p, _, ⟨_, rfl, _⟩, h, _⟩
      exact hp h
  · rename_i hx
    simp only [true_iff]
    rintro ⟨d, p, n, h, _⟩
    exact hx d p n h

/-- one translator for drive X of `/dls` -/
def xDrive : PartInfo := [("WINPATH", [.translator "X".toList "/dls".toList []])]

/-- The negation of the full C65: `/dls/i18/dls` is made into `X:\i18X:`. -/
theorem replaced_again : translate xDrive "/dls/i18/dls".toList = some "X:\\i18X:".toList := by decide +kernel

example : translate xDrive "/dls/i18/data".toList = some "X:\\i18\\data".toList := by decide +kernel
example : OnlyAtStart "/dls".toList "/dls/i18/data".toList := by
  intro a b h
  have hl := congrArg List.length h
  simp at hl
  rcases a with _ | ⟨_, _ | ⟨_, _ | ⟨_, _ | ⟨_, _ | ⟨_, _ | ⟨_, _ | ⟨_, _ | ⟨_, _ | ⟨_, _ | ⟨_, a⟩⟩⟩⟩⟩⟩⟩⟩⟩⟩ <;>
    simp_all <;> omega

/-! ### witnesses -/

/-- A scan of y and x -/
def grid : Gen :=
  { axes := ["y", "x"], units := fun _ => "mm"
    dimensions := [⟨["y"], 2, fun _ => ["0", "1"]⟩, ⟨["x"], 3, fun _ => ["0", "1", "2"]⟩] }

theorem grid_ok : Ok grid := by
  constructor
  · intro a ha
    simp only [grid, List.mem_cons, List.not_mem_nil, or_false] at ha
    rcases ha with rfl | rfl
    · exact ⟨_, List.mem_cons_self, List.mem_singleton.2 rfl⟩
    · exact ⟨_, List.mem_cons_of_mem _ List.mem_cons_self, List.mem_singleton.2 rfl⟩
  · decide
  · intro d hd a ha
    simp only [grid, List.mem_cons, List.not_mem_nil, or_false] at hd
    rcases hd with rfl | rfl <;> rfl

/-- a detector with a statistic, a position of a motor, and a translator -/
def parts : PartInfo :=
  [("DRV", [.ndArray 2]), ("STAT", [.calculated "sum" "STATS_TOTAL"]), ("POS", [.ndAttribute "x.value" .positionValue "x"]),
   ("WINPATH", [.translator "X".toList "/dls".toList []])]

theorem sets_of (windows remove : Bool) : ∃ out, configure windows remove parts grid "/dls/d/".toList "det" "" ".h5" = some out := by
  cases windows <;> cases remove <;> exact ⟨_, rfl⟩

example : ∃ out, configure false false parts grid "/dls/d/".toList "det" "" ".h5" = some out ∧
    out.pluginFile = "/dls/d/det.h5".toList ∧
    out.infos.map (fun i => (i.name, i.filename, i.path, i.rank)) =
      [("det.data", "det.h5", ["entry", "detector", "detector"], 4), ("det.sum", "det.h5", ["entry", "sum", "sum"], 2),
       ("x.value", "det.h5", ["entry", "x.value", "x.value"], 2), ("y.value_set", "det.h5", ["entry", "detector", "y_set"], 1),
       ("x.value_set", "det.h5", ["entry", "detector", "x_set"], 1)] := by
  refine ⟨_, rfl, ?_, ?_⟩ <;> decide +kernel

example : (wanted parts).Nodup ∧ "detector" ∉ wanted parts ∧ "NDAttributes" ∉ wanted parts ∧
    ∀ d ∈ grid.dimensions, ∀ a ∈ d.axes, a ++ "_set" ∉ wanted parts := by
  refine ⟨by decide +kernel, by decide +kernel, by decide +kernel, ?_⟩
  intro d hd a ha
  simp only [grid, List.mem_cons, List.not_mem_nil, or_false] at hd
  rcases hd with rfl | rfl <;> simp only [List.mem_singleton] at ha <;> subst ha <;> decide +kernel

/-- The negation of the full C64: on Windows, with the demand positions in a file of their own, the part writes that file
itself, under the name that the Windows machine has for it. The file that it announces is written by nobody. -/
theorem set_points_elsewhere : ∃ out, configure true true parts grid "/dls/d/".toList "det" "" ".h5" = some out ∧
    (∃ i ∈ out.infos, i.name = "x.value_set" ∧ i.filename = "detadditional.h5" ∧
      ¬ Written true parts "/dls/d/".toList out i.filename i.path) ∧
    out.additional.map (·.1) = some "X:\\d/detadditional.h5".toList := by
  refine ⟨_, rfl, ⟨⟨"x.value_set", "detadditional.h5", .positionSet, 1, ["entry", "x_set"], []⟩, by decide +kernel, rfl, rfl, ?_⟩,
    by decide +kernel⟩
  rintro (⟨dir, h1, h2, _⟩ | ⟨ds, h1, _⟩)
  · have h1' : dir = "X:\\d".toList := by
      have : onIoc true parts (rstrip "/dls/d/".toList) = some "X:\\d".toList := by decide +kernel
      rw [this] at h1
      cases h1
      rfl
    subst h1'
    revert h2
    decide +kernel
  · have := congrArg (Option.map (·.1)) h1
    simp only [Option.map_some] at this
    revert this
    decide +kernel

/-- The `axes` of the group of a dataset that is not the frames has an entry for each index of the frames, although the
dataset has, as it is announced, the indexes of the scan only. -/
theorem axes_misfit : ∃ out, configure false false parts grid "/dls/d/".toList "det" "" ".h5" = some out ∧
    (∃ i ∈ out.infos, i.name = "det.sum" ∧ i.path = ["entry", "sum", "sum"] ∧ i.rank = 2) ∧
    HasAttr out.layout ["entry", "sum"] "axes" ["y_set", "x_set", ".", "."] := by
  refine ⟨_, rfl, ⟨⟨"det.sum", "det.h5", .secondary, 2, ["entry", "sum", "sum"], uniqueIdPath⟩, by decide +kernel, rfl, rfl, rfl⟩, ?_⟩
  refine .under List.mem_cons_self (.under (List.mem_cons_of_mem _ (List.mem_cons_of_mem _ List.mem_cons_self)) (.here ?_))
  exact List.mem_cons_of_mem _ List.mem_cons_self

/-- Two parts that want a dataset of the same name make a layout that has two groups of one name -/
theorem same_name_twice : ∃ out, configure false false
      [("DRV", [.ndArray 2]), ("A", [.calculated "sum" "STATS_TOTAL"]), ("B", [.calculated "sum" "STATS_TOTAL"])]
      grid "/d".toList "det" "" ".h5" = some out ∧ ¬ Valid out.layout := by
  refine ⟨_, rfl, ?_⟩
  rintro ⟨-, h⟩
  obtain ⟨h, -⟩ := h "entry" _ List.mem_cons_self
  revert h
  decide +kernel

end Verif.Props.Hdf
