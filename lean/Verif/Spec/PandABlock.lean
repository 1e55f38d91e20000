import Verif.Model.PandABlock
/-!
What a user knows of the fields of a PandA and of the block that Malcolm makes for them.
-/
namespace Verif.Spec.PandABlock
open Verif Verif.Tags Verif.PandABlock

/-- What the type of an attribute should be: this, or a choice of these labels in which ZERO and ONE come first and the
others are sorted -/
inductive Wanted
  | exactly (k : Kind)
  | anyOrder (labels : List Text)

/-- An attribute that is documented for a field of a PandA: the name under which the PandA reports it, its type, whether it can be
put, in which round it is restored from a saved design (if it is saved), its group, and what it is in the flow graph -/
structure Want where
  field : Text
  kind : Wanted
  writeable : Bool
  restored : Option Int
  group : Text
  port : Details := .nothing

/-- The types of the values of a PandA -/
def valueKind (subtyp : String) (labels : List Text) : Option Kind :=
  match subtyp with
  | "enum" => some (.choice labels)
  | "bit" => some .bool
  | "uint" => some (.number "uint32")
  | "" => some (.number "uint32")
  | "int" => some (.number "int32")
  | "pos" => some (.number "int32")
  | "scalar" => some (.number "float64")
  | "lut" => some .string
  | _ => none

/-- A value: a parameter if it can be put, else a readback -/
def value (n : Text) (k : Kind) (writeable : Bool) : Want :=
  if writeable then ⟨n, .exactly k, true, some 1, "parameters".toList, .nothing⟩
  else ⟨n, .exactly k, false, none, "readbacks".toList, .nothing⟩

/-- A time: its units are restored in the first round, and its value after them in the second -/
def time (n : Text) (writeable : Bool) : List Want :=
  let units : Kind := .choice ["min".toList, "s".toList, "ms".toList, "us".toList]
  if writeable then
    [⟨n, .exactly (.number "float64"), true, some 2, "parameters".toList, .nothing⟩,
     ⟨n ++ ".UNITS".toList, .exactly units, true, some 1, "parameters".toList, .nothing⟩]
  else
    [⟨n, .exactly (.number "float64"), false, none, "readbacks".toList, .nothing⟩,
     ⟨n ++ ".UNITS".toList, .exactly units, true, some 1, "readbacks".toList, .nothing⟩]

/-- The attributes for a field `n` of the block `block`, by the type of the field; `none` for a type that is not known.
The health of the block, and an action (which becomes a method) have no attributes -/
def wants (block n : Text) (fd : FieldData) : Option (List Want) :=
  if upper n = "HEALTH".toList then some []
  else match fd.typ with
  | "time" => some (time n true)
  | "param" => if fd.subtyp = "time" then some (time n true) else (valueKind fd.subtyp fd.labels).map fun k => [value n k true]
  | "read" => if fd.subtyp = "time" then some (time n false) else (valueKind fd.subtyp fd.labels).map fun k => [value n k false]
  | "write" => if fd.subtyp = "action" then some [] else (valueKind fd.subtyp fd.labels).map fun k => [value n k true]
  | "bit_out" => some [⟨n, .exactly .bool, false, none, "outputs".toList, .found true .bool (block ++ '.' :: n)⟩]
  | "pos_out" => some [⟨n, .exactly (.number "int32"), false, none, "outputs".toList, .found true .int32 (block ++ '.' :: n)⟩]
  | "ext_out" => if fd.subtyp = "bits" then some []
      else some [⟨n ++ ".CAPTURE".toList, .exactly (.choice fd.labels), true, some 1, "outputs".toList, .nothing⟩]
  | "bit_mux" => some [⟨n, .anyOrder fd.labels, true, some 1, "inputs".toList, .found false .bool "ZERO".toList⟩,
      ⟨n ++ ".DELAY".toList, .exactly (.number "uint8"), true, some 1, "inputs".toList, .nothing⟩]
  | "pos_mux" => some [⟨n, .anyOrder fd.labels, true, some 1, "inputs".toList, .found false .int32 "ZERO".toList⟩]
  | "table" => some [⟨n, .exactly .table, true, some 1, "parameters".toList, .nothing⟩]
  | _ => none

/-- Sorted by the code points of the characters -/
def Sorted (l : List Text) : Prop := l.Pairwise (fun a b => textLe a b = true)

/-- The type is as wanted -/
def KindOk : Wanted → Kind → Prop
  | .exactly k, k' => k' = k
  | .anyOrder labels, k' => ∃ first rest, k' = .choice (first ++ rest) ∧ (first ++ rest).Perm labels ∧
      (∀ l ∈ first, l = "ZERO".toList ∨ l = "ONE".toList) ∧ (∀ l ∈ rest, l ≠ "ZERO".toList ∧ l ≠ "ONE".toList) ∧ Sorted rest

/-- The attribute is as wanted, as those see it who read its tags -/
structure Meets {V : Type} (w : Want) (a : Attr V) : Prop where
  kind : KindOk w.kind a.kind
  writeable : a.writeable = w.writeable
  restored : (getConfigTag a.tags).bind iterationOf = w.restored
  group : a.tags.filter (fun t => groupPre.isPrefixOf t) = [groupTag w.group]
  port : portTagDetails a.tags = w.port

/-- The name of the attribute for a name of the PandA -/
def published (field : Text) : Option Text := camel (undot field)

/-- The groups of attributes -/
def groups : List Text := ["parameters".toList, "readbacks".toList, "outputs".toList, "inputs".toList]

/-- Names that fields of a PandA should not have: the attributes of every block, and the groups -/
def reserved : List Text := ["health".toList, "icon".toList, "label".toList, "help".toList] ++ groups

/-- The names of the PandA for which a field of type `fd` asks for an attribute or a method -/
def partsFor (n : Text) (fd : FieldData) (ws : List Want) : List Text :=
  if upper n ≠ "HEALTH".toList ∧ fd.typ = "write" ∧ fd.subtyp = "action" then [n] else ws.map (·.field)

/-- What is reported to the table of busses and not to the block -/
def elsewhere (n : Text) (fd : FieldData) : List Text :=
  if fd.typ = "pos_out" then [".CAPTURE", ".UNITS", ".SCALE", ".OFFSET", ".DATA_DELAY"].map (n ++ String.toList ·)
  else if fd.typ = "ext_out" ∧ fd.subtyp = "bits" then [n ++ ".CAPTURE".toList]
  else []

/-- The names of fields and blocks of a PandA: capital letters, digits and underscores -/
def PandAName (n : Text) : Prop := ∀ c ∈ n, Fields.upper c = true ∨ Fields.digit c = true ∨ c = '_'

instance (n : Text) : Decidable (PandAName n) := by unfold PandAName; infer_instance

/-! ### histories -/

section
variable {V : Type} (ext : Ext V)

/-- What an attribute becomes when `v` is reported; `none` if that is refused. An empty label stands for the description of the block -/
def taken (a : Attr V) (v : Raw) : Option V :=
  match a.handler with
  | .label initial => ext.validate a.kind (if v = .text [] ∨ v = .lines [] ∨ v = .nothing ∨ v = .bit false then .text initial else v)
  | _ => ext.validate a.kind v

/-- The attribute of the block for a name of the PandA -/
def attrOf (b : Block V) (field : Text) : Option (Attr V) :=
  match b.fields.get? field with
  | some (some attr) => b.attrs.get? attr
  | _ => none

/-- A reported change with which the block can do nothing: a health that is not a text, a value that the attribute refuses, or
a value of an input that does not name an output -/
def Refused (b : Block V) (c : Text × Raw) : Prop :=
  if upper c.1 = "HEALTH".toList then ∀ t, c.2 ≠ .text t
  else ∃ a, attrOf b c.1 = some a ∧
    (taken ext a c.2 = none ∨
     c.1 ∈ b.muxes ∧ ∀ t, c.2 = .text t → ∃ block field, t = block ++ '.' :: field ∧ '.' ∉ block ∧ '.' ∉ field ∧ camel field = none)

/-- What is heard of a report: nothing after the first change that is refused -/
inductive Heard (b : Block V) : List (Text × Raw) → List (Text × Raw) → Prop
  | nil : Heard b [] []
  | refused {c cs} : Refused ext b c → Heard b (c :: cs) [c]
  | cons {c cs hs} : ¬ Refused ext b c → Heard b cs hs → Heard b (c :: cs) (c :: hs)

/-- What is heard of a history -/
inductive HeardAll (b : Block V) : List (Ev V) → List (Ev V) → Prop
  | nil : HeardAll b [] []
  | report {cs hs evs evs'} : Heard ext b cs hs → HeardAll b evs evs' → HeardAll b (.report cs :: evs) (.report hs :: evs')
  | send {f v evs evs'} : HeardAll b evs evs' → HeardAll b (.send f v :: evs) (.send f v :: evs')
  | done {f v evs evs'} : HeardAll b evs evs' → HeardAll b (.done f v :: evs) (.done f v :: evs')

/-- What an event tells the attribute `a` for the name `f`: what is reported, and what the PandA has accepted of a put; a label is
set at once, and a table only by what is reported -/
def told (a : Attr V) (f : Text) : Ev V → List V
  | .report hs => hs.filterMap (fun c => if c.1 = f then taken ext a c.2 else none)
  | .send g v =>
    match a.handler with
    | .label _ => if g = f ∧ a.writeable = true then [v] else []
    | _ => []
  | .done g v => if g = f ∧ a.writeable = true ∧ a.handler = .field then [v] else []

/-- What an event reports for the name `f` -/
def reported (f : Text) : Ev V → List Raw
  | .report hs => hs.filterMap (fun c => if c.1 = f then some c.2 else none)
  | _ => []

/-- What an event tells of the health of the block -/
def healthTold : Ev V → List Text
  | .report hs => hs.filterMap (fun c => if upper c.1 = "HEALTH".toList then
      match c.2 with
      | .text t => some (if upper t = "OK".toList then "OK".toList else t)
      | _ => none
      else none)
  | _ => []

/-- What an event has the PandA set -/
def sets (b : Block V) : Ev V → List (Text × V)
  | .send f v => if ((attrOf b f).map (·.writeable)) = some true then [(f, v)] else []
  | _ => []

end

/-- The tags that link an input to the value of an output -/
def links (tags : List Text) : List Text := tags.filter (fun t => "linkedvalue:".toList.isPrefixOf t)

/-- The links of an input with the value `t`: one, to the attribute of the output that it names, or none -/
def LinkOk (mriPrefix t : Text) (tags : List Text) : Prop :=
  (∀ block field, t = block ++ '.' :: field → '.' ∉ block → '.' ∉ field →
    ∃ attr, published field = some attr ∧ links tags = ["linkedvalue:".toList ++ attr ++ ':' :: (mriPrefix ++ ':' :: block)]) ∧
  (t.count '.' ≠ 1 → links tags = [])

end Verif.Spec.PandABlock
