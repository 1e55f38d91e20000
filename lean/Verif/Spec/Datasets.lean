import Verif.Model.Datasets
/-!
What a detector or a PandA records with its frames, and under which name: a value is an NDAttribute of the frames.
-/
namespace Verif.Spec.Datasets
open Verif.Hdf Verif.Datasets

/-- A value that is recorded: the dataset it is to be found in, the type of that, and the NDAttribute -/
structure Value where
  dataset : String
  type : DatasetType
  attr : String
  deriving DecidableEq, Repr

/-- Under which name and type a value of a detector, a monitor or a position is found -/
def typed (name : String) : AttrType → String → Value
  | .detector, attr => ⟨name ++ ".data", .primary, attr⟩
  | .monitor, attr => ⟨name ++ ".data", .monitor, attr⟩
  | .position, attr => ⟨name ++ ".value", .positionValue, attr⟩

/-- The values of a bit: itself, if it is captured and has a name to be found under -/
def bitValues (b : Bit) : List Value := if b.capture = true ∧ b.dataset ≠ "" then [typed b.dataset b.type b.name] else []

/-- The extremes of a position -/
def least (p : Position) : Value := ⟨p.dataset ++ ".min", .positionMin, p.name ++ ".Min"⟩
def greatest (p : Position) : Value := ⟨p.dataset ++ ".max", .positionMax, p.name ++ ".Max"⟩

/-- The values of a position that is captured and has a name to be found under. If only one is captured that is its value, of the
type that the row says. -/
def positionValues (p : Position) : List Value :=
  if p.dataset = "" then []
  else match p.capture with
    | .no => []
    | .value => [typed p.dataset p.type (p.name ++ ".Value")]
    | .diff => [typed p.dataset p.type (p.name ++ ".Diff")]
    | .sum => [typed p.dataset p.type (p.name ++ ".Sum")]
    | .mean => [typed p.dataset p.type (p.name ++ ".Mean")]
    | .min => [typed p.dataset p.type (p.name ++ ".Min")]
    | .max => [typed p.dataset p.type (p.name ++ ".Max")]
    | .minMax => [least p, greatest p]
    | .minMaxMean => [least p, greatest p, typed p.dataset p.type (p.name ++ ".Mean")]

/-- All that a PandA records -/
def pandaValues (bits : List Bit) (positions : List Position) : List Value :=
  bits.flatMap bitValues ++ positions.flatMap positionValues

/-- The names that are given to what is captured -/
def pandaNames (bits : List Bit) (positions : List Position) : List String :=
  (bits.filter (fun b => b.capture && b.dataset != "")).map (·.dataset) ++
    (positions.filter (fun p => p.capture != .no && p.dataset != "")).map (·.dataset)

/-- What a detector driver records: each of its extra attributes, under its own name -/
def driverValues (rows : List Extra) : List Value := rows.map (fun r => typed r.name r.type r.name)

/-- A name of letters, digits, dashes and underscores. The pattern of the code ends with `$`, which also matches before a newline at
the very end. -/
def GoodName (s : String) : Prop :=
  ∃ body : List Char, (∀ c ∈ body, c.isAlphanum = true ∨ c = '_' ∨ c = '-') ∧ (s.toList = body ∨ s.toList = body ++ ['\n'])

/-- A value as a part reports it -/
def Value.info (v : Value) : Info := .ndAttribute v.dataset v.type v.attr

/-- How areaDetector is told where an attribute comes from: a PV or a parameter of the driver, and of which type -/
def DefinedBy (r : Extra) (d : Definition) : Prop :=
  d.name = r.name ∧ d.source = r.sourceId ∧
  match r.sourceType with
  | .pv => d.type = "EPICS_PV" ∧ (r.dataType, d.datatype) ∈
      [(.int, "DBR_LONG"), (.double, "DBR_DOUBLE"), (.string, "DBR_STRING"), (.native, "DBR_NATIVE")]
  | .param => d.type = "PARAM" ∧ (r.dataType, d.datatype) ∈ [(.int, "INT"), (.double, "DOUBLE"), (.string, "STRING")]

end Verif.Spec.Datasets
