import Verif.Model.Hdf
import Verif.Model.PandABlock
/-!
What parts say is recorded with the frames of a detector: malcolm/modules/ADCore/infos.py 92-127,
malcolm/modules/ADCore/parts/detectordriverpart.py 186-227, 314-326, 425-439, malcolm/modules/ADCore/parts/statspluginpart.py 48-72 and
malcolm/modules/ADPandABlocks/parts/pandadatasetbussespart.py 18-95.

A name is the list of its characters where it is checked, else a string.
-/
namespace Verif.Datasets
open Verif Verif.Hdf

/-- ADCore/util.py 15-26 AttributeDatasetType -/
inductive AttrType
  | detector | monitor | position
  deriving DecidableEq, Repr

/-- part.py 42 `PART_NAME_RE.match(name)` -/
def nameOk (name : String) : Bool := PandABlock.partNameOk name.toList

/-- infos.py 92-127 `from_attribute_type`; none is the AssertionError -/
def fromAttributeType (name : String) (type : AttrType) (attr : String) : Option Info :=
  if nameOk name then
    match type with
    | .detector => some (.ndAttribute (name ++ ".data") .primary attr)
    | .monitor => some (.ndAttribute (name ++ ".data") .monitor attr)
    | .position => some (.ndAttribute (name ++ ".value") .positionValue attr)
  else none

/-! ### a detector driver -/

/-- ADCore/util.py 29-42 DataType and SourceType -/
inductive DataType
  | int | double | string | native
  deriving DecidableEq, Repr
inductive SourceType
  | param | pv
  deriving DecidableEq, Repr

/-- A row of ADCore/util.py 90-107 ExtraAttributesTable, without its description -/
structure Extra where
  name : String
  sourceId : String
  sourceType : SourceType
  dataType : DataType
  type : AttrType
  deriving DecidableEq, Repr

/-- An element of the attributes file: what an areaDetector attaches to each frame -/
structure Definition where
  name : String
  type : String
  datatype : String
  source : String
  deriving DecidableEq, Repr

/-- detectordriverpart.py 220-227 `set_extra_attributes`; none is the ValueError -/
def setExtra (rows : List Extra) : Option (List Extra) :=
  if rows.any (fun r => r.sourceType = .param && r.dataType = .native) then none else some rows

/-- detectordriverpart.py 186-218 `build_attribute_xml` -/
def define (r : Extra) : Definition :=
  match r.sourceType with
  | .pv => ⟨r.name, "EPICS_PV", (match r.dataType with
      | .int => "DBR_LONG"
      | .double => "DBR_DOUBLE"
      | .string => "DBR_STRING"
      | .native => "DBR_NATIVE"), r.sourceId⟩
  | .param => ⟨r.name, "PARAM", (match r.dataType with
      | .int => "INT"
      | .double => "DOUBLE"
      | .string => "STRING"
      | .native => "DBR_NATIVE"), r.sourceId⟩

/-- detectordriverpart.py 425-439: the attributes file written by `on_configure`, if one is -/
def attributesFile (rows : List Extra) : Option (List Definition) := if 0 < rows.length then some (rows.map define) else none

/-- detectordriverpart.py 314-326 `on_report_status`; none is the AssertionError -/
def driverReport (useful : Bool) (rows : List Extra) : Option (List Info) :=
  (rows.mapM (fun r => fromAttributeType r.name r.type r.name)).map
    (fun is => (if useful then [.ndArray 2] else []) ++ is)

/-! ### a statistics plugin -/

/-- ADCore/util.py 45-57 StatisticsName: its name in lower case and its value -/
inductive Statistic
  | min | minX | minY | max | maxX | maxY | mean | sigma | sum | net
  deriving DecidableEq, Repr

def Statistic.lower : Statistic → String
  | .min => "min" | .minX => "min_x" | .minY => "min_y" | .max => "max" | .maxX => "max_x" | .maxY => "max_y"
  | .mean => "mean" | .sigma => "sigma" | .sum => "sum" | .net => "net"

def Statistic.value : Statistic → String
  | .min => "MIN_VALUE" | .minX => "MIN_X" | .minY => "MIN_Y" | .max => "MAX_VALUE" | .maxX => "MAX_X" | .maxY => "MAX_Y"
  | .mean => "MEAN_VALUE" | .sigma => "SIGMA_VALUE" | .sum => "TOTAL" | .net => "NET"

/-- statspluginpart.py 48-57 `on_report_status` -/
def statsReport (s : Statistic) : List Info := [.calculated s.lower ("STATS_" ++ s.value)]

/-- statspluginpart.py 59-72 `_make_attributes_xml` -/
def statsFile (s : Statistic) : List Definition := [⟨"STATS_" ++ s.value, "PARAM", "DOUBLE", s.value⟩]

/-! ### a PandA -/

/-- pandablocks/util.py 44-58 PositionCapture -/
inductive Capture
  | no | value | diff | sum | mean | min | max | minMax | minMaxMean
  deriving DecidableEq, Repr

/-- `capture.value.split(" ")` -/
def Capture.words : Capture → List String
  | .no => ["No"] | .value => ["Value"] | .diff => ["Diff"] | .sum => ["Sum"] | .mean => ["Mean"] | .min => ["Min"] | .max => ["Max"]
  | .minMax => ["Min", "Max"] | .minMaxMean => ["Min", "Max", "Mean"]

/-- A row of the bits table, as far as it is used: ADPandABlocks/util.py 125-138 -/
structure Bit where
  name : String
  capture : Bool
  dataset : String
  type : AttrType
  deriving DecidableEq, Repr

/-- A row of the positions table: ADPandABlocks/util.py 141-157 -/
structure Position where
  name : String
  capture : Capture
  dataset : String
  type : AttrType
  deriving DecidableEq, Repr

/-- pandadatasetbussespart.py 18-28, 32-36: the type that a row has to begin with -/
def initialType (position : Bool) (name : String) : AttrType :=
  if position && "INENC".toList.isPrefixOf name.toList then .position else .monitor

/-- pandadatasetbussespart.py 53-63 -/
def bitInfos (b : Bit) : Option (List Info) :=
  if b.dataset ≠ "" ∧ b.capture then (fromAttributeType b.dataset b.type b.name).map (fun i => [i]) else some []

/-- pandadatasetbussespart.py 71-82: one of "Min" and "Max", if it is there -/
def extreme (p : Position) (suffix lower : String) (type : DatasetType) (acc : List Info × List String) : List Info × List String :=
  if suffix ∈ acc.2 then (acc.1 ++ [.ndAttribute (p.dataset ++ "." ++ lower) type (p.name ++ "." ++ suffix)], acc.2.erase suffix)
  else acc

/-- pandadatasetbussespart.py 66-94; none is an AssertionError -/
def positionInfos (p : Position) : Option (List Info) :=
  if p.dataset ≠ "" ∧ p.capture ≠ .no then
    let r := if p.capture.words.length > 1 then
        extreme p "Max" "max" .positionMax (extreme p "Min" "min" .positionMin ([], p.capture.words))
      else ([], p.capture.words)
    match r.2 with
    | [] => some r.1
    | [suffix] => (fromAttributeType p.dataset p.type (p.name ++ "." ++ suffix)).map (fun i => r.1 ++ [i])
    | _ => none
  else some []

/-- pandadatasetbussespart.py 50-95 `on_report_status`; none is an AssertionError -/
def pandaReport (bits : List Bit) (positions : List Position) : Option (List Info) :=
  match bits.mapM bitInfos, positions.mapM positionInfos with
  | some b, some p => some (b.flatten ++ p.flatten)
  | _, _ => none

end Verif.Datasets
