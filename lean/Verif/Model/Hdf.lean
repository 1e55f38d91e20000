/-!
The file of an areaDetector HDF writer: malcolm/modules/ADCore/parts/hdfwriterpart.py 38-391 and 511-610,
and `FilePathTranslatorInfo` (ADCore/infos.py 7-48).

A path inside an HDF file is the list of the names on it (`/entry/detector/detector` is
`["entry", "detector", "detector"]`): the names have no slash in them.
-/
namespace Verif.Hdf

abbrev Path := List String

/-- A dimension of a `CompoundGenerator`: its axes, its size, and `get_positions` of an axis, each position
written with `%.12g` (hdfwriterpart.py 166) -/
structure Dim where
  axes : List String
  size : Nat
  positions : String → List String

/-- What is used of a `CompoundGenerator`. `scanpointgenerator` makes `axes` and `dimensions` of the same
generators: see `Gen.Ok` in Spec/Hdf. -/
structure Gen where
  axes : List String
  dimensions : List Dim
  units : String → String

inductive DatasetType
  | primary | secondary | monitor | positionSet | positionValue | positionMin | positionMax
  deriving DecidableEq, Repr

/-- infos.py 7-20, 51-91 -/
inductive Info
  | translator (drive pathPrefix network : List Char)
  | ndArray (rank : Nat)
  | calculated (name attr : String)
  | ndAttribute (name : String) (type : DatasetType) (attr : String)
  deriving DecidableEq, Repr

/-- `{part_name: [Info]}`: what the parts reported. A part that gave None or an exception gives nothing
(core/info.py 34-36). -/
abbrev PartInfo := List (String × List Info)

/-- core/info.py 42-58 `NDArrayDatasetInfo.filter_values` -/
def ndArrays (pi : PartInfo) : List Nat :=
  pi.flatMap (fun p => p.2.filterMap (fun | .ndArray r => some r | _ => none))
/-- the same for CalculatedNDAttributeDatasetInfo -/
def calculated (pi : PartInfo) : List (String × String) :=
  pi.flatMap (fun p => p.2.filterMap (fun | .calculated n a => some (n, a) | _ => none))
/-- the same for NDAttributeDatasetInfo -/
def ndAttributes (pi : PartInfo) : List (String × DatasetType × String) :=
  pi.flatMap (fun p => p.2.filterMap (fun | .ndAttribute n t a => some (n, t, a) | _ => none))
/-- the same for FilePathTranslatorInfo -/
def translators (pi : PartInfo) : List (List Char × List Char × List Char) :=
  pi.flatMap (fun p => p.2.filterMap (fun | .translator d p n => some (d, p, n) | _ => none))

/-- scanning/infos.py 86-112 DatasetProducedInfo -/
structure Produced where
  name : String
  filename : String
  type : DatasetType
  rank : Nat
  path : Path
  /-- `""` is the empty list -/
  uniqueid : Path
  deriving DecidableEq, Repr

/-- `filename.replace(".", "additional.")` (126, 258) -/
def additionalName (filename : String) : String :=
  String.ofList (filename.toList.flatMap (fun c => if c = '.' then "additional.".toList else [c]))

/-- 593: `set_path`, the path within the additional file -/
def setPath (axis : String) : Path := ["entry", axis ++ "_set"]

def uniqueIdPath : Path := ["entry", "NDAttributes", "NDArrayUniqueId"]

/-- hdfwriterpart.py 58-138 `create_dataset_infos`; none is the AssertionError of 74-77 -/
def createDatasetInfos (name : String) (pi : PartInfo) (g : Gen) (filename : String) (remove : Bool) :
    Option (List Produced) :=
  let rank := g.dimensions.length
  if 1 < (ndArrays pi).length then none else
  let primary := match ndArrays pi with
    | [] => []
    | r :: _ =>
      ⟨name ++ ".data", filename, .primary, r + rank, ["entry", "detector", "detector"], uniqueIdPath⟩ ::
        (calculated pi).map (fun c => (⟨name ++ "." ++ c.1, filename, .secondary, rank, ["entry", c.1, c.1], uniqueIdPath⟩ : Produced))
  let others := (ndAttributes pi).map (fun d => (⟨d.1, filename, d.2.1, rank, ["entry", d.1, d.1], uniqueIdPath⟩ : Produced))
  let sets := g.axes.map (fun dim =>
    if remove then (⟨dim ++ ".value_set", additionalName filename, .positionSet, 1, setPath dim, []⟩ : Produced)
    else ⟨dim ++ ".value_set", filename, .positionSet, 1, ["entry", "detector", dim ++ "_set"], []⟩)
  some (primary ++ others ++ sets)

/-! ### the layout -/

/-- Where the data of a dataset of the layout comes from -/
inductive Source
  | detector
  | ndattribute (attr : String)
  | constant (values : List String)
  deriving DecidableEq, Repr

/-- An element of the layout file. `attr` has the value as the list of what is joined by commas.
Simplified: of the attributes of a dataset there is only its units. -/
inductive Xml
  | attr (name : String) (value : List String)
  | data (name : String) (source : Source) (units : String)
  | link (name : String) (target : Path)
  | group (name : String) (children : List Xml)
  deriving Repr

/-- 205-212: the entry of `axes` for a dimension -/
def padDim (d : Dim) : String :=
  match d.axes with
  | [a] => a ++ "_set"
  | _ => "."

/-- 163-183 `make_set_points` -/
def makeSetPoints (d : Dim) (axis units : String) : Xml := .data (axis ++ "_set") (.constant (d.positions axis)) units

/-- 230-248: the elements for dimension `i` -/
def dimEls (g : Gen) (link : Bool) (i : Nat) (d : Dim) : List Xml :=
  d.axes.flatMap (fun axis =>
    [.attr (axis ++ "_set_indices") [toString i],
     if link then .link (axis ++ "_set") ["entry", "detector", axis ++ "_set"] else makeSetPoints d axis (g.units axis)])

/-- `for i, d in enumerate(...)` of 230, from `i` on -/
def dimsEls (g : Gen) (link : Bool) : Nat → List Dim → List Xml
  | _, [] => []
  | i, d :: ds => dimEls g link i d ++ dimsEls g link (i + 1) ds

/-- 186-249 `make_nxdata`: the children of the group that it makes -/
def nxdata (name : String) (rank : Nat) (g : Gen) (remove link : Bool) : List Xml :=
  .attr "signal" [name] ::
  (if remove then [] else
    [.attr "axes" (g.dimensions.map padDim ++ List.replicate rank "."), .attr "NX_class" ["NXdata"]] ++
      dimsEls g link 0 g.dimensions)

/-- 322-338, 344-360: the group of an NDAttribute -/
def attrGroup (pr : Nat) (g : Gen) (remove : Bool) (name attr : String) : Xml :=
  .group name (nxdata name pr g remove true ++ [.data name (.ndattribute attr) ""])

/-- 295-299 -/
def primaryRank (pi : PartInfo) : Nat :=
  match ndArrays pi with
  | [] => 2
  | r :: _ => r

/-- 273-391 `make_layout_xml`: the children of the root -/
def makeLayout (g : Gen) (pi : PartInfo) (remove : Bool) : List Xml :=
  let pr := primaryRank pi
  [.group "entry"
    ([.attr "NX_class" ["NXentry"],
      .group "detector" (nxdata "detector" pr g remove false ++ [.data "detector" .detector ""])] ++
     (calculated pi).map (fun c => attrGroup pr g remove c.1 c.2) ++
     (ndAttributes pi).map (fun d => attrGroup pr g remove d.1 d.2.2) ++
     [.group "NDAttributes"
       [.attr "NX_class" ["NXcollection"],
        .data "NDArrayUniqueId" (.ndattribute "NDArrayUniqueId") "",
        .data "NDArrayTimeStamp" (.ndattribute "NDArrayTimeStamp") ""]])]

/-! ### the dimensions -/

/-- 38 -/
def suffixes : List String := ["N", "X", "Y", "3", "4", "5", "6", "7", "8", "9"]

/-- A value put to the plugin -/
inductive Val
  | int (i : Int)
  | str (s : String)
  deriving DecidableEq, Repr

/-- 141-160 `set_dimensions`: what is put; none is the AssertionError of 143 -/
def setDimensions (g : Gen) : Option (List (String × Val)) :=
  let n := g.dimensions.length
  if n ≤ 10 then
    some (("numExtraDims", .int ((n : Int) - 1)) ::
      (List.range 10).flatMap (fun i =>
        let suffix := (suffixes[i]?).getD ""
        if i < n then
          let f := n - i - 1
          [("posNameDim" ++ suffix, .str ("d" ++ toString f)),
           ("extraDimSize" ++ suffix, .int ((g.dimensions[f]?).elim 1 (fun d => (d.size : Int))))]
        else [("posNameDim" ++ suffix, .str ""), ("extraDimSize" ++ suffix, .int 1)]))
  else none

/-! ### file names -/

/-- `s.replace(old, new)` for a non-empty `old`; `skip` is how much of `old` is still to be passed -/
def replaceGo (old new : List Char) : Nat → List Char → List Char
  | _, [] => []
  | skip + 1, _ :: s => replaceGo old new skip s
  | 0, c :: s => if old.isPrefixOf (c :: s) then new ++ replaceGo old new (old.length - 1) s else c :: replaceGo old new 0 s

/-- `s.replace(old, new)`. An empty `old` (the new text between all characters) is `path_prefix == ""`. -/
def replace (old new s : List Char) : List Char :=
  match old with
  | [] => new ++ s.flatMap (fun c => c :: new)
  | _ => replaceGo old new 0 s

/-- infos.py 22-48 `translate_filepath`; none is the BadValueError or AssertionError -/
def translate (pi : PartInfo) (filepath : List Char) : Option (List Char) :=
  match translators pi with
  | [(drive, pre, network)] =>
    if pre.isPrefixOf filepath then
      if ':' ∈ filepath then none
      else
        let back := fun (s : List Char) => s.map (fun c => if c = '/' then '\\' else c)
        if network ≠ [] then some (back (replace pre (network ++ pre) filepath))
        else some (back (replace pre (drive ++ [':']) filepath))
    else none
  | _ => none

/-- `fileDir.rstrip(os.sep)` -/
def rstrip (s : List Char) : List Char := (s.reverse.dropWhile (· == '/')).reverse

/-- What HDFWriterPart.on_configure leaves behind: the file of the plugin as the plugin is told it, the layout, the
sizes put, the file that it writes itself, and the infos that it returns -/
structure Out where
  pluginFile : List Char
  layout : List Xml
  puts : List (String × Val)
  /-- the file opened by `_write_additional_hdf` and the datasets made in it -/
  additional : Option (List Char × List (Path × List String))
  infos : List Produced

/-- hdfwriterpart.py 252-270 `_write_additional_hdf` -/
def additionalFile (filename : String) (g : Gen) (h5Dir : List Char) : List Char × List (Path × List String) :=
  (h5Dir ++ '/' :: (additionalName filename).toList,
   g.dimensions.flatMap (fun d => d.axes.map (fun a => (setPath a, d.positions a))))

/-- hdfwriterpart.py 511-610 `on_configure`. `fileTemplate` is `pre ++ "%s" ++ post` with no other `%`. The plugin
opens the file that `sprintf(fileTemplate, filePath, fileName)` gives, which is what `areaDetector` documents. Not
modelled: the waits, and the layout file itself, the check of the plugin that the layout is valid is passed. -/
def configure (windows remove : Bool) (pi : PartInfo) (g : Gen) (fileDir : List Char) (formatName pre post : String) :
    Option Out :=
  let fileDir := rstrip fileDir
  let h5? := if windows then translate pi fileDir else some fileDir
  match h5? with
  | none => none
  | some h5Dir =>
    let filename := pre ++ formatName ++ post
    if filename.toList.contains '.' then
      match setDimensions g with
      | none => none
      | some puts =>
        match createDatasetInfos formatName pi g filename remove with
        | none => none
        | some infos =>
          some { pluginFile := (h5Dir ++ ['/']) ++ pre.toList ++ formatName.toList ++ post.toList
                 layout := makeLayout g pi remove
                 puts := puts
                 additional := if remove then some (additionalFile filename g h5Dir) else none
                 infos := infos }
    else none

end Verif.Hdf
