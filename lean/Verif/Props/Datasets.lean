import Verif.Spec.Datasets
import Verif.Props.Hdf
/-!
C79: what is captured with the frames of a detector or of a PandA is announced, defined and stored.
-/
namespace Verif.Props.Datasets
open Verif Verif.Hdf Verif.Datasets Verif.Spec.Datasets Verif.Spec.Hdf Verif.Props.Hdf

/-! ### names -/

theorem partNameOk_iff (l : List Char) : PandABlock.partNameOk l = true ↔
    ∃ body : List Char, (∀ c ∈ body, c.isAlphanum = true ∨ c = '_' ∨ c = '-') ∧ (l = body ∨ l = body ++ ['\n']) := by
  induction l with
  | nil => exact ⟨fun _ => ⟨[], by simp, .inl rfl⟩, fun _ => rfl⟩
  | cons c cs ih =>
    constructor
    · intro h
      by_cases hn : c :: cs = ['\n']
      · exact ⟨[], by simp, .inr (by simpa using hn)⟩
      · have h2 : PandABlock.partNameOk (c :: cs) = ((c.isAlphanum || c = '_' || c = '-') && PandABlock.partNameOk cs) := by
          rw [PandABlock.partNameOk.eq_def]
          split
          · rename_i heq; cases heq
          · rename_i heq; exact absurd heq hn
          · rename_i heq; cases heq; rfl
        rw [h2] at h
        simp only [Bool.and_eq_true, Bool.or_eq_true, decide_eq_true_eq] at h
        obtain ⟨body, hb, he⟩ := ih.1 h.2
        refine ⟨c :: body, ?_, ?_⟩
        · intro x hx
          rcases List.mem_cons.1 hx with rfl | hx
          · rcases h.1 with (h1 | h1) | h1
            · exact .inl h1
            · exact .inr (.inl h1)
            · exact .inr (.inr h1)
          · exact hb x hx
        · rcases he with he | he
          · exact .inl (by rw [he])
          · exact .inr (by rw [he]; rfl)
    · rintro ⟨body, hb, he⟩
      cases body with
      | nil =>
        rcases he with he | he
        · cases he
        · rw [he]; rfl
      | cons x body =>
        have hx := hb x (by simp)
        have hcs : PandABlock.partNameOk cs = true := ih.2 ⟨body, fun c hc => hb c (by simp [hc]), by
          rcases he with he | he
          · cases he; exact .inl rfl
          · cases he; exact .inr rfl⟩
        have hc : c = x := by rcases he with he | he <;> cases he <;> rfl
        subst hc
        rw [PandABlock.partNameOk.eq_def]
        split
        · rfl
        · rfl
        · rename_i heq
          cases heq
          simp only [Bool.and_eq_true, Bool.or_eq_true, decide_eq_true_eq]
          refine ⟨?_, hcs⟩
          rcases hx with h | h | h
          · exact .inl (.inl h)
          · exact .inl (.inr h)
          · exact .inr h

theorem nameOk_iff (s : String) : nameOk s = true ↔ GoodName s := partNameOk_iff s.toList

theorem fromAttributeType_eq (name : String) (type : AttrType) (attr : String) :
    fromAttributeType name type attr = if nameOk name = true then some (typed name type attr).info else none := by
  unfold fromAttributeType
  by_cases h : nameOk name = true
  · rw [if_pos h, if_pos h]; cases type <;> rfl
  · rw [if_neg h, if_neg h]

/-! ### a PandA -/

theorem bitInfos_eq (b : Bit) : bitInfos b =
    if b.capture = true → b.dataset ≠ "" → nameOk b.dataset = true then some ((bitValues b).map Value.info) else none := by
  unfold bitInfos bitValues
  rw [fromAttributeType_eq]
  by_cases h1 : b.dataset = ""
  · simp [h1]
  · by_cases h2 : b.capture = true
    · by_cases h3 : nameOk b.dataset = true <;> simp [h1, h2, h3]
    · simp [h1, h2]

theorem positionInfos_eq (p : Position) : positionInfos p =
    if p.dataset ≠ "" → p.capture ≠ .no → p.capture ≠ .minMax → nameOk p.dataset = true then
      some ((positionValues p).map Value.info) else none := by
  unfold positionInfos positionValues
  by_cases h1 : p.dataset = ""
  · simp [h1]
  · obtain ⟨name, capture, dataset, type⟩ := p
    simp only at h1
    by_cases h3 : nameOk dataset = true
    · cases capture <;> simp [h1, h3, Capture.words, extreme, fromAttributeType_eq, Value.info, least, greatest,
        String.append_assoc]
    · cases capture <;> simp [h1, h3, Capture.words, extreme, fromAttributeType_eq, Value.info, least, greatest,
        String.append_assoc]

theorem mapM_cond {α β : Type} (f : α → Option β) (ok : α → Prop) [DecidablePred ok] (g : α → β)
    (hf : ∀ a, f a = if ok a then some (g a) else none) (l : List α) (r : List β) :
    l.mapM f = some r ↔ (∀ a ∈ l, ok a) ∧ r = l.map g := by
  induction l generalizing r with
  | nil => simp [eq_comm]
  | cons a l ih =>
    rw [List.mapM_cons, hf a]
    by_cases h : ok a
    · rw [if_pos h]
      simp only [Option.pure_def, Option.bind_eq_bind, Option.bind_some, Option.bind_eq_some_iff, Option.some.injEq, ih]
      constructor
      · rintro ⟨x, ⟨h1, rfl⟩, rfl⟩
        exact ⟨by simpa [h] using h1, rfl⟩
      · rintro ⟨h1, rfl⟩
        exact ⟨_, ⟨fun b hb => h1 b (List.mem_cons_of_mem _ hb), rfl⟩, rfl⟩
    · rw [if_neg h]
      simp only [Option.bind_eq_bind, Option.bind_none, reduceCtorEq, false_iff]
      intro hc
      exact h (hc.1 a List.mem_cons_self)

/-- **C79**: a PandA reports what it records, in the order of its tables, and each value once. It does that unless a name that is
given to something captured is not a good one: the name of a position of which just the minimum and the maximum are captured
is not looked at. -/
theorem panda_reported_partial (bits : List Bit) (positions : List Position) (infos : List Info) :
    pandaReport bits positions = some infos ↔
      infos = (pandaValues bits positions).map Value.info ∧
      (∀ b ∈ bits, b.capture = true → b.dataset ≠ "" → GoodName b.dataset) ∧
      (∀ p ∈ positions, p.capture ≠ .no → p.capture ≠ .minMax → p.dataset ≠ "" → GoodName p.dataset) := by
  have hb := mapM_cond bitInfos (fun b => b.capture = true → b.dataset ≠ "" → nameOk b.dataset = true)
    (fun b => (bitValues b).map Value.info) bitInfos_eq bits
  have hp := mapM_cond positionInfos (fun p => p.dataset ≠ "" → p.capture ≠ .no → p.capture ≠ .minMax → nameOk p.dataset = true)
    (fun p => (positionValues p).map Value.info) positionInfos_eq positions
  have e : (pandaValues bits positions).map Value.info =
      (bits.map (fun b => (bitValues b).map Value.info)).flatten ++
        (positions.map (fun p => (positionValues p).map Value.info)).flatten := by
    unfold pandaValues
    rw [List.map_append, List.map_flatMap, List.map_flatMap, List.flatMap_def, List.flatMap_def]
  simp only [← nameOk_iff]
  rw [e]
  unfold pandaReport
  constructor
  · intro h
    split at h
    · rename_i b p h1 h2
      obtain ⟨h3, rfl⟩ := (hb b).1 h1
      obtain ⟨h4, rfl⟩ := (hp p).1 h2
      cases h
      exact ⟨rfl, h3, fun p hp a b c => h4 p hp c a b⟩
    · cases h
  · rintro ⟨rfl, h1, h2⟩
    rw [(hb _).2 ⟨h1, rfl⟩, (hp _).2 ⟨fun p hp a b c => h2 p hp b c a, rfl⟩]

/-- **C79**: a driver reports its frames, unless told not to, and each of its extra attributes once, in their order. It does that
unless the name of one of them is not a good one. -/
theorem driver_reported (useful : Bool) (rows : List Extra) (infos : List Info) :
    driverReport useful rows = some infos ↔
      infos = (if useful then [.ndArray 2] else []) ++ (driverValues rows).map Value.info ∧ ∀ r ∈ rows, GoodName r.name := by
  have h := mapM_cond (fun r : Extra => fromAttributeType r.name r.type r.name) (fun r => nameOk r.name = true)
    (fun r => (typed r.name r.type r.name).info) (fun r => fromAttributeType_eq _ _ _) rows
  unfold driverReport driverValues
  simp only [Option.map_eq_some_iff, h, ← nameOk_iff, List.map_map]
  constructor
  · rintro ⟨x, ⟨h1, rfl⟩, rfl⟩
    exact ⟨rfl, h1⟩
  · rintro ⟨rfl, h1⟩
    exact ⟨_, ⟨h1, rfl⟩, rfl⟩

/-- **C79**: what a driver reports is defined for areaDetector: if there are extra attributes a file of definitions is written, with
one definition for each, in their order, of that name, from the source that was asked for and with a type that
areaDetector has for that kind of source. A table that has one which areaDetector has no type for is refused. -/
theorem driver_defined (rows : List Extra) :
    ((∃ r ∈ rows, r.sourceType = .param ∧ r.dataType = .native) ↔ setExtra rows = none) ∧
    (∀ kept, setExtra rows = some kept → kept = rows ∧
      (attributesFile rows = none ↔ rows = []) ∧
      ∀ file, attributesFile rows = some file → file.length = rows.length ∧
        ∀ (i : Nat) (r : Extra) (d : Definition), rows[i]? = some r → file[i]? = some d → DefinedBy r d) := by
  unfold setExtra
  constructor
  · constructor
    · rintro ⟨r, hr, h1, h2⟩
      rw [if_pos (List.any_eq_true.2 ⟨r, hr, by simp [h1, h2]⟩)]
    · intro h
      split at h
      · rename_i h1
        obtain ⟨r, hr, h2⟩ := List.any_eq_true.1 h1
        exact ⟨r, hr, by simpa using h2⟩
      · cases h
  · intro kept h
    split at h
    · cases h
    · rename_i h1
      cases h
      refine ⟨rfl, ?_, ?_⟩
      · unfold attributesFile
        cases rows <;> simp
      · intro file hf
        unfold attributesFile at hf
        split at hf
        · cases hf
          refine ⟨by simp, ?_⟩
          intro i r d hr hd
          rw [List.getElem?_map, hr] at hd
          cases hd
          have hn : ¬ (r.sourceType = .param ∧ r.dataType = .native) := by
            intro hc
            exact h1 (List.any_eq_true.2 ⟨r, List.mem_of_getElem? hr, by simp [hc.1, hc.2]⟩)
          unfold define DefinedBy
          obtain ⟨name, sid, st, dt, ty⟩ := r
          cases st
          · cases dt <;> simp_all
          · cases dt <;> simp
        · cases hf

/-- **C79**: a statistic is stored from the attribute that the plugin is told to attach to each frame, and that is the statistic's
parameter. -/
theorem stats_defined (s : Statistic) : ∃ attr, statsReport s = [.calculated s.lower attr] ∧
    statsFile s = [⟨attr, "PARAM", "DOUBLE", s.value⟩] := ⟨_, rfl, rfl⟩

/-! ### in the file -/

/-- What a name is followed by -/
def ends : List String := [".data", ".value", ".min", ".max"]

theorem last_ends {e : String} (he : e ∈ ends) (n : String) :
    (n ++ e).toList.getLast? = e.toList.getLast? ∧ e.toList.getLast? ∈ [some 'a', some 'e', some 'n', some 'x'] := by
  simp only [ends, List.mem_cons, List.not_mem_nil, or_false] at he
  rcases he with rfl | rfl | rfl | rfl <;> simp [String.toList_append, List.getLast?_append]

theorem ends_inj {n n' e e' : String} (he : e ∈ ends) (he' : e' ∈ ends) (h : n ++ e = n' ++ e') : n = n' ∧ e = e' := by
  have hl : e.toList.getLast? = e'.toList.getLast? := by
    rw [← (last_ends he n).1, ← (last_ends he' n').1, h]
  have hee : e = e' := by
    simp only [ends, List.mem_cons, List.not_mem_nil, or_false] at he he'
    rcases he with rfl | rfl | rfl | rfl <;> rcases he' with rfl | rfl | rfl | rfl <;>
      first | rfl | (exfalso; revert hl; decide)
  subst hee
  exact ⟨String.append_left_inj _ |>.1 h, rfl⟩

theorem nodup_named : ∀ (l : List (String × List String)), (l.map (·.1)).Nodup → (∀ p ∈ l, p.2.Nodup ∧ ∀ e ∈ p.2, e ∈ ends) →
    (l.flatMap (fun p => p.2.map (fun e => p.1 ++ e))).Nodup := by
  intro l
  induction l with
  | nil => intro _ _; simp
  | cons p l ih =>
    intro hn hp
    rw [List.map_cons, List.nodup_cons] at hn
    obtain ⟨h1, h2⟩ := hp p List.mem_cons_self
    rw [List.flatMap_cons, List.nodup_append]
    refine ⟨?_, ih hn.2 (fun q hq => hp q (List.mem_cons_of_mem _ hq)), ?_⟩
    · unfold List.Nodup
      rw [List.pairwise_map]
      exact List.Pairwise.imp_of_mem (fun ha hb hab hc => hab (ends_inj (h2 _ ha) (h2 _ hb) hc).2) h1
    · intro x hx y hy hxy
      obtain ⟨e, he, rfl⟩ := List.mem_map.1 hx
      obtain ⟨q, hq, hy⟩ := List.mem_flatMap.1 hy
      obtain ⟨e', he', rfl⟩ := List.mem_map.1 hy
      have := (ends_inj (h2 e he) ((hp q (List.mem_cons_of_mem _ hq)).2 e' he') hxy).1
      exact hn.1 (List.mem_map.2 ⟨q, hq, this.symm⟩)

/-- What follows the name of a type -/
def tail : AttrType → String
  | .position => ".value"
  | _ => ".data"

theorem typed_dataset (n : String) (t : AttrType) (a : String) : (typed n t a).dataset = n ++ tail t := by cases t <;> rfl

theorem tail_mem (t : AttrType) : tail t ∈ ends := by cases t <;> simp [tail, ends]

/-- what the names of a position are followed by -/
def posTails (p : Position) : List String :=
  match p.capture with
  | .no => []
  | .minMax => [".min", ".max"]
  | .minMaxMean => [".min", ".max", tail p.type]
  | _ => [tail p.type]

theorem posTails_ok (p : Position) : (posTails p).Nodup ∧ ∀ e ∈ posTails p, e ∈ ends := by
  obtain ⟨n, c, d, t⟩ := p
  cases c <;> cases t <;> simp [posTails, tail, ends]

theorem datasets_eq (rows : List Extra) (bits : List Bit) (positions : List Position) :
    ∃ l : List (String × List String), l.map (·.1) = rows.map (·.name) ++ pandaNames bits positions ∧
      (∀ p ∈ l, p.2.Nodup ∧ ∀ e ∈ p.2, e ∈ ends) ∧
      (driverValues rows ++ pandaValues bits positions).map (·.dataset) = l.flatMap (fun p => p.2.map (fun e => p.1 ++ e)) := by
  refine ⟨rows.map (fun r => (r.name, [tail r.type])) ++
    ((bits.filter (fun b => b.capture && b.dataset != "")).map (fun b => (b.dataset, [tail b.type])) ++
     (positions.filter (fun p => p.capture != .no && p.dataset != "")).map (fun p => (p.dataset, posTails p))), ?_, ?_, ?_⟩
  · unfold pandaNames
    simp [List.map_append, List.map_map, Function.comp_def]
  · intro p hp
    simp only [List.mem_append, List.mem_map] at hp
    rcases hp with ⟨r, -, rfl⟩ | ⟨b, -, rfl⟩ | ⟨q, -, rfl⟩
    · exact ⟨by simp, by simpa using tail_mem _⟩
    · exact ⟨by simp, by simpa using tail_mem _⟩
    · exact posTails_ok q
  · unfold driverValues pandaValues
    rw [List.map_append, List.map_append, List.flatMap_append, List.flatMap_append]
    congr 1
    · induction rows with
      | nil => rfl
      | cons r rows ih =>
        rw [List.map_cons, List.map_cons, List.map_cons, List.flatMap_cons, ← ih, typed_dataset]
        rfl
    · congr 1
      · induction bits with
        | nil => rfl
        | cons b bits ih =>
          rw [List.flatMap_cons, List.map_append, ih, List.filter_cons]
          unfold bitValues
          by_cases h : b.capture = true ∧ b.dataset ≠ ""
          · rw [if_pos h, if_pos (by simp [h]), List.map_cons, List.map_cons, List.flatMap_cons, typed_dataset]
            rfl
          · rw [if_neg h, if_neg (by simpa using h)]
            rfl
      · induction positions with
        | nil => rfl
        | cons p ps ih =>
          rw [List.flatMap_cons, List.map_append, ih, List.filter_cons]
          unfold positionValues
          by_cases h : p.dataset = ""
          · rw [if_pos h, if_neg (by simp [h])]
            rfl
          · rw [if_neg h]
            obtain ⟨n, c, d, t⟩ := p
            simp only at h
            cases c <;> simp [h, posTails, typed_dataset, least, greatest]

theorem stat_lower_inj {s t : Statistic} (h : s.lower = t.lower) : s = t := by
  cases s <;> cases t <;> first | rfl | (exfalso; revert h; decide)

theorem wanted_dataset {rows : List Extra} {bits : List Bit} {positions : List Position} {x : String}
    (h : x ∈ (driverValues rows ++ pandaValues bits positions).map (·.dataset)) : ∃ n e, e ∈ ends ∧ x = n ++ e := by
  obtain ⟨l, h1, h2, h3⟩ := datasets_eq rows bits positions
  rw [h3, List.mem_flatMap] at h
  obtain ⟨p, hp, h⟩ := h
  obtain ⟨e, he, rfl⟩ := List.mem_map.1 h
  exact ⟨_, e, (h2 p hp).2 e he, rfl⟩

theorem not_ends {e : String} (he : e ∈ ends) (n x : String) (h : x.toList.getLast? ∈ [some 'r', some 's', some 't']) : x ≠ n ++ e := by
  rintro rfl
  obtain ⟨h1, h2⟩ := last_ends he n
  rw [h1] at h
  simp only [List.mem_cons, List.not_mem_nil, or_false] at h h2
  rcases h with h | h | h <;> rw [h] at h2 <;> simp at h2

theorem stat_not_ends {e : String} (he : e ∈ ends) (n : String) (s : Statistic) : s.lower ≠ n ++ e := by
  intro h
  have h1 : '.' ∈ s.lower.toList := by
    rw [h, String.toList_append]
    simp only [ends, List.mem_cons, List.not_mem_nil, or_false] at he
    rcases he with rfl | rfl | rfl | rfl <;> simp
  revert h1
  cases s <;> decide

/-- The parts of a detector that say what is recorded: its driver, the tables of a PandA, the statistics plugins -/
def reports (drv bus : String) (dinfos binfos : List Info) (stats : List (String × Statistic)) : PartInfo :=
  (drv, dinfos) :: (bus, binfos) :: stats.map (fun s => (s.1, statsReport s.2))

theorem calculated_info (n : String) (l : List Value) (pi : PartInfo) : calculated ((n, l.map Value.info) :: pi) = calculated pi := by
  induction l with
  | nil => rfl
  | cons v l ih => rw [← ih]; rfl

theorem calculated_frames (n : String) (useful : Bool) (l : List Info) (pi : PartInfo) :
    calculated ((n, (if useful then [.ndArray 2] else []) ++ l) :: pi) = calculated ((n, l) :: pi) := by
  cases useful <;> rfl

theorem attributes_info (n : String) (l : List Value) (pi : PartInfo) : ndAttributes ((n, l.map Value.info) :: pi) =
    l.map (fun v => (v.dataset, v.type, v.attr)) ++ ndAttributes pi := by
  induction l with
  | nil => rfl
  | cons v l ih => rw [List.map_cons, List.map_cons, List.cons_append, ← ih]; rfl

theorem attributes_frames (n : String) (useful : Bool) (l : List Info) (pi : PartInfo) :
    ndAttributes ((n, (if useful then [.ndArray 2] else []) ++ l) :: pi) = ndAttributes ((n, l) :: pi) := by
  cases useful <;> rfl

theorem calculated_reports (drv bus : String) (useful : Bool) (ds bs : List Value) (stats : List (String × Statistic)) :
    calculated (reports drv bus ((if useful then [.ndArray 2] else []) ++ ds.map Value.info) (bs.map Value.info) stats) =
      stats.map (fun s => (s.2.lower, "STATS_" ++ s.2.value)) := by
  unfold reports
  rw [calculated_frames, calculated_info, calculated_info]
  induction stats with
  | nil => rfl
  | cons s stats ih => rw [List.map_cons, List.map_cons, ← ih]; rfl

theorem attributes_reports (drv bus : String) (useful : Bool) (ds bs : List Value) (stats : List (String × Statistic)) :
    ndAttributes (reports drv bus ((if useful then [.ndArray 2] else []) ++ ds.map Value.info) (bs.map Value.info) stats) =
      (ds ++ bs).map (fun v => (v.dataset, v.type, v.attr)) := by
  unfold reports
  rw [attributes_frames, attributes_info, attributes_info, List.map_append]
  have : ndAttributes (stats.map (fun s => (s.1, statsReport s.2))) = [] := by
    induction stats with
    | nil => rfl
    | cons s stats ih => rw [List.map_cons, ← ih]; rfl
  rw [this, List.append_nil]

/-- **C79**: each value that is recorded is announced, with the rank of the scan, under its name and type, and the dataset that is
announced is filled from that value. -/
theorem recorded_announced (windows remove : Bool) (g : Gen) (fileDir : List Char) (formatName pre post : String) (out : Out)
    (drv bus : String) (useful : Bool) (rows : List Extra) (bits : List Bit) (positions : List Position)
    (stats : List (String × Statistic)) (dinfos binfos : List Info)
    (hd : driverReport useful rows = some dinfos) (hb : pandaReport bits positions = some binfos)
    (h : configure windows remove (reports drv bus dinfos binfos stats) g fileDir formatName pre post = some out)
    (v : Value) (hv : v ∈ driverValues rows ++ pandaValues bits positions) :
    ⟨v.dataset, pre ++ formatName ++ post, v.type, g.dimensions.length, ["entry", v.dataset, v.dataset], uniqueIdPath⟩ ∈ out.infos ∧
    HasData out.layout ["entry", v.dataset, v.dataset] (.ndattribute v.attr) := by
  obtain ⟨rfl, -⟩ := (driver_reported useful rows dinfos).1 hd
  obtain ⟨rfl, -⟩ := (panda_reported_partial bits positions binfos).1 hb
  refine attribute_announced _ _ _ _ _ _ _ _ _ h v.dataset v.type v.attr ?_
  rw [attributes_reports]
  exact List.mem_map.2 ⟨v, hv, rfl⟩

/-- **C79** in part: if no two values are given the same name, then no two of them are stored in the same dataset: the dataset of
each has it, and nothing else. Missing: that the names are different is not checked (`same_dataset_twice`). -/
theorem recorded_apart_partial (windows remove : Bool) (g : Gen) (fileDir : List Char) (formatName pre post : String) (out : Out)
    (hg : Ok g) (drv bus : String) (useful : Bool) (rows : List Extra) (bits : List Bit) (positions : List Position)
    (stats : List (String × Statistic)) (dinfos binfos : List Info)
    (hd : driverReport useful rows = some dinfos) (hb : pandaReport bits positions = some binfos)
    (h : configure windows remove (reports drv bus dinfos binfos stats) g fileDir formatName pre post = some out)
    (hn : (rows.map (·.name) ++ pandaNames bits positions).Nodup) (hs : (stats.map (·.2)).Nodup) :
    Valid out.layout ∧
    ∀ v ∈ driverValues rows ++ pandaValues bits positions, ∀ src,
      HasData out.layout ["entry", v.dataset, v.dataset] src ↔ src = .ndattribute v.attr := by
  have hann := recorded_announced windows remove g fileDir formatName pre post out drv bus useful rows bits positions stats
    dinfos binfos hd hb h
  obtain ⟨rfl, -⟩ := (driver_reported useful rows dinfos).1 hd
  obtain ⟨rfl, -⟩ := (panda_reported_partial bits positions binfos).1 hb
  have hw : wanted (reports drv bus ((if useful then [.ndArray 2] else []) ++ (driverValues rows).map Value.info)
      ((pandaValues bits positions).map Value.info) stats) =
      stats.map (fun s => s.2.lower) ++ (driverValues rows ++ pandaValues bits positions).map (·.dataset) := by
    unfold wanted
    rw [calculated_reports, attributes_reports, List.map_map, List.map_map]
    rfl
  have hno : ∀ x : String, x.toList.getLast? ∈ [some 'r', some 's', some 't'] → (∀ s : Statistic, x ≠ s.lower) →
      x ∉ stats.map (fun s => s.2.lower) ++ (driverValues rows ++ pandaValues bits positions).map (·.dataset) := by
    intro x hx hxs hm
    rcases List.mem_append.1 hm with hm | hm
    · obtain ⟨s, -, hse⟩ := List.mem_map.1 hm
      exact hxs s.2 hse.symm
    · obtain ⟨n, e, he, rfl⟩ := wanted_dataset hm
      exact not_ends he n _ hx rfl
  have hval : Valid out.layout := by
    refine layout_valid windows remove _ g fileDir formatName pre post out hg h ?_ ?_ ?_ ?_
    · rw [hw, List.nodup_append]
      refine ⟨?_, ?_, ?_⟩
      · have : stats.map (fun s => s.2.lower) = (stats.map (·.2)).map Statistic.lower := by rw [List.map_map]; rfl
        rw [this]
        exact List.Pairwise.map _ (fun a b hab hc => hab (stat_lower_inj hc)) hs
      · obtain ⟨l, h1, h2, h3⟩ := datasets_eq rows bits positions
        rw [h3]
        exact nodup_named l (by rw [h1]; exact hn) h2
      · intro x hx y hy hxy
        subst hxy
        obtain ⟨n, e, he, rfl⟩ := wanted_dataset hy
        obtain ⟨s, -, hse⟩ := List.mem_map.1 hx
        exact stat_not_ends he n s.2 hse
    · rw [hw]
      exact hno _ (by decide) (fun s => by cases s <;> decide)
    · rw [hw]
      exact hno _ (by decide) (fun s => by cases s <;> decide)
    · intro d hd a ha
      rw [hw]
      refine hno _ (by simp [String.toList_append, List.getLast?_append]) (fun s hc => ?_)
      have hl : (a ++ "_set").toList.getLast? = some 't' := by simp [String.toList_append, List.getLast?_append]
      rw [hc] at hl
      cases s <;> first | (revert hl; decide) | skip
      have h4 : (a ++ "_set").toList.length = 3 := by rw [hc]; rfl
      rw [String.toList_append, List.length_append] at h4
      simp at h4
  refine ⟨hval, fun v hv src => ⟨fun hs => one_source hval hs (hann v hv).2, fun hs => hs ▸ (hann v hv).2⟩⟩

/-! ### witnesses -/

/-- A PandA that captures a bit, the value of an encoder and the spread of another -/
def someBits : List Bit := [⟨"TTLIN1.VAL", true, "shutter", .monitor⟩, ⟨"TTLIN2.VAL", false, "spare", .monitor⟩]
def somePositions : List Position :=
  [⟨"INENC1.VAL", .value, "x", .position⟩, ⟨"INENC2.VAL", .minMaxMean, "y", .position⟩, ⟨"COUNTER1.OUT", .diff, "izero", .detector⟩]

example : ∃ infos, pandaReport someBits somePositions = some infos ∧
    (someBits.map (·.dataset) ++ pandaNames someBits somePositions ≠ []) ∧ (pandaNames someBits somePositions).Nodup ∧
    pandaValues someBits somePositions =
      [⟨"shutter.data", .monitor, "TTLIN1.VAL"⟩, ⟨"x.value", .positionValue, "INENC1.VAL.Value"⟩,
       ⟨"y.min", .positionMin, "INENC2.VAL.Min"⟩, ⟨"y.max", .positionMax, "INENC2.VAL.Max"⟩,
       ⟨"y.value", .positionValue, "INENC2.VAL.Mean"⟩, ⟨"izero.data", .primary, "COUNTER1.OUT.Diff"⟩] :=
  ⟨_, rfl, by decide, by decide, by decide⟩

/-- extra attributes of a driver -/
def someRows : List Extra := [⟨"temp", "BL-TEMP", .pv, .double, .monitor⟩, ⟨"exposure", "ACQUIRE_TIME", .param, .double, .detector⟩]

example : ∃ dinfos binfos out, driverReport true someRows = some dinfos ∧ pandaReport someBits somePositions = some binfos ∧
    configure false false (reports "DRV" "BUSSES" dinfos binfos [("STAT", .sum)]) grid "/d".toList "det" "" ".h5" = some out ∧
    (someRows.map (·.name) ++ pandaNames someBits somePositions).Nodup ∧ Ok grid ∧
    (∃ i ∈ out.infos, i.name = "y.max" ∧ i.rank = 2) :=
  ⟨_, _, _, rfl, rfl, rfl, by decide, grid_ok,
    ⟨⟨"y.max", "det.h5", .positionMax, 2, ["entry", "y.max", "y.max"], uniqueIdPath⟩, by decide +kernel, rfl, rfl⟩⟩

example : setExtra someRows = some someRows ∧ (attributesFile someRows).map (·.map (·.datatype)) = some ["DBR_DOUBLE", "DOUBLE"] := by
  decide

/-- Two values that were given the same name are both announced, and the layout has two groups of that name -/
theorem same_dataset_twice : ∃ infos out,
    pandaReport [] [⟨"INENC1.VAL", .value, "x", .position⟩, ⟨"INENC2.VAL", .value, "x", .position⟩] = some infos ∧
    configure false false (reports "DRV" "BUSSES" [] infos []) grid "/d".toList "panda" "" ".h5" = some out ∧
    ¬ Valid out.layout := by
  refine ⟨_, _, rfl, rfl, ?_⟩
  rintro ⟨-, h⟩
  obtain ⟨h, -⟩ := h "entry" _ List.mem_cons_self
  revert h
  decide +kernel

/-- A name that is refused for a value is not for a minimum and a maximum -/
theorem bad_name_announced :
    pandaReport [] [⟨"INENC1.VAL", .value, "x/y", .position⟩] = none ∧
    pandaReport [] [⟨"INENC1.VAL", .minMax, "x/y", .position⟩] =
      some [.ndAttribute "x/y.min" .positionMin "INENC1.VAL.Min", .ndAttribute "x/y.max" .positionMax "INENC1.VAL.Max"] ∧
    ¬ GoodName "x/y" := by
  refine ⟨rfl, rfl, ?_⟩
  rw [← nameOk_iff]
  decide

end Verif.Props.Datasets
