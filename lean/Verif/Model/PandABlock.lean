import Verif.Model.PyDict
import Verif.Model.Tags
import Verif.Model.Fields
/-!
The block that stands for one block of a PandA: malcolm/modules/pandablocks/controllers/pandablockcontroller.py, the parts
pandafieldpart.py, pandatablepart.py 96-102, pandalabelpart.py, pandaactionpart.py, pandaiconpart.py, and core/camel.py 21-32.

Simplifications. A text is the list of its characters, and upper and lower case are those of ASCII. Every part here makes one field, so a part
is its name and the name of its field; descriptions and labels of metas are left out. What a meta makes of a value is a parameter
`Ext`: the values of attributes have any type. An exception ends the constructor (`none`), or the handling of a list of
changes (the flag `raised`). Time stamps and alarms of attributes are left out.
-/
namespace Verif.PandABlock
open Verif Verif.Tags

/-- The type of a meta: NumberMeta with its dtype, ChoiceMeta with its choices, BooleanMeta, StringMeta, TableMeta -/
inductive Kind
  | number (dtype : String)
  | choice (choices : List Text)
  | bool
  | string
  | table
  deriving DecidableEq, Repr

/-- pandablocksclient.py 9, `FieldData` without the description -/
structure FieldData where
  typ : String
  subtyp : String
  labels : List Text := []
  deriving DecidableEq, Repr

/-- What the PandA reports: text, the lines of a table, None for a table that is still to come; or the boolean that the manager
makes of a bit (pandamanagercontroller.py 248) -/
inductive Raw
  | text (t : Text)
  | lines (l : List Text)
  | nothing
  | bit (b : Bool)
  deriving DecidableEq, Repr

/-- Which class `handle_change` is of: PandAFieldPart, PandATablePart or PandALabelPart with its initial value -/
inductive Handler
  | field
  | table
  | label (initial : Text)
  deriving DecidableEq, Repr

/-- An attribute: its meta, its value, and what its part has beside (pandafieldpart.py 48: `pending_change`) -/
structure Attr (V : Type) where
  kind : Kind
  writeable : Bool
  tags : List Text
  value : V
  handler : Handler := .field
  pending : Bool := false
  deriving DecidableEq

/-- What metas do: `validate(None)`, and `validate` of what is reported (`none` is the exception); for a table this is
`table_from_list` before (pandatablepart.py 97) -/
structure Ext (V : Type) where
  default : Kind → V
  validate : Kind → Raw → Option V
  /-- whether `update_icon` ends without an exception for these values of the fields of the icon -/
  draws : List (Text × V) → Bool

/-- pandablockcontroller.py 82-97: the controller. `parts` are the names of the parts and of their fields, `fields` is
`field_parts` with the name of the attribute for its part, `muxes` are the keys of `mux_metas`. `shownIcon` are the values with which the icon
was last drawn, `sent` is what the client was told to set -/
structure Block (V : Type) where
  mriPrefix : Text
  name : Text
  parts : List (Text × Text) := []
  attrs : Dict Text (Attr V) := []
  methods : List Text := []
  fields : Dict Text (Option Text) := []
  muxes : List Text := []
  iconFields : List Text := []
  shownIcon : Option (List (Text × V)) := none
  health : Text := "OK".toList
  sent : List (Text × V) := []
  deriving DecidableEq

/-! ### names -/

/-- `str.split(c)` -/
def splitAt (c : Char) : Text → List Text
  | [] => [[]]
  | x :: xs =>
    match splitAt c xs with
    | [] => [[x]]
    | w :: ws => if x = c then [] :: w :: ws else (x :: w) :: ws

/-- `str.title()`: a letter after a letter is small, any other letter is a capital -/
def title (afterLetter : Bool) : Text → Text
  | [] => []
  | c :: cs =>
    if c.isAlpha then (if afterLetter then c.toLower else c.toUpper) :: title true cs
    else c :: title false cs

/-- camel.py 21-32, `snake_to_camel`; `none` is the IndexError -/
def camel (name : Text) : Option Text :=
  match ((splitAt '_' name).map (title false)).flatten with
  | [] => none
  | c :: cs => some (c.toLower :: cs)

/-- pandafieldpart.py 41, 52: `field_name.replace(".", "_")` -/
def undot (name : Text) : Text := name.map (fun c => if c = '.' then '_' else c)

/-- part.py 42 `PART_NAME_RE` -/
def partNameOk : Text → Bool
  | [] => true
  | ['\n'] => true
  | c :: cs => (c.isAlphanum || c = '_' || c = '-') && partNameOk cs

/-- `x.upper()` -/
def upper (t : Text) : Text := t.map Char.toUpper

/-- "HEALTH" -/
def healthName : Text := "HEALTH".toList

/-- tags.py 115-119, `linked_value_tag` -/
def linkedPre : Text := "linkedvalue:".toList
def linkedValueTag (mri attr : Text) : Text := linkedPre ++ attr ++ ':' :: mri

/-- tags.py 122-125 -/
def withoutLinkedValueTags (tags : List Text) : List Text := tags.filter (fun t => !linkedPre.isPrefixOf t)

/-! ### making the parts -/

section
variable {V : Type} (ext : Ext V)

/-- controller.py 63-68 `add_part` and part.py 103-120, 145-150: the name of a part is allowed and new, the name of its field is
camelCase and new. The block has the field `health` (basiccontroller.py 23) -/
def addPart (b : Block V) (part attr : Text) : Option (Block V) :=
  if partNameOk part ∧ part ∉ b.parts.map (·.1) ∧ Fields.camelRe attr ∧ attr ∉ "health".toList :: b.parts.map (·.2) then
    some { b with parts := b.parts ++ [(part, attr)] }
  else none

/-- grouppart.py 20-24: the attribute of a group -/
def groupAttr : Attr V :=
  let kind := .choice ["expanded".toList, "collapsed".toList]
  ⟨kind, true, [widgetTag "group".toList, configTag 1], ext.default kind, .field, false⟩

/-- pandablockcontroller.py 236-242, `_make_group` -/
def makeGroup (b : Block V) (group : Text) : Option (Block V) :=
  if group ∈ b.parts.map (·.1) then some b
  else (addPart b group group).map fun b => { b with attrs := b.attrs.set group (groupAttr ext) }

/-- models.py 454-458, 550-554, 691-695, 724-728, 937: `default_widget` -/
def defaultWidget (kind : Kind) (writeable : Bool) : Text :=
  match kind with
  | .bool => if writeable then "checkbox".toList else "led".toList
  | .choice _ => if writeable then "combo".toList else "textupdate".toList
  | .table => "table".toList
  | _ => if writeable then "textinput".toList else "textupdate".toList

/-- pandablockcontroller.py 52-70, `make_meta`: the type; `none` is the ValueError -/
def metaKind (subtyp : String) (labels : List Text) : Option Kind :=
  if subtyp = "enum" then some (.choice labels)
  else if subtyp = "bit" then some .bool
  else if subtyp = "uint" ∨ subtyp = "" then some (.number "uint32")
  else if subtyp = "int" ∨ subtyp = "pos" then some (.number "int32")
  else if subtyp = "scalar" then some (.number "float64")
  else if subtyp = "lut" then some .string
  else none

/-- pandablockcontroller.py 244-254, `_make_field_part`, and pandafieldpart.py 33-58 -/
def fieldPart (b : Block V) (field : Text) (kind : Kind) (tags : List Text) (writeable : Bool) (iteration : Int)
    (handler : Handler) : Option (Block V) :=
  match camel (undot field) with
  | none => none
  | some attr =>
    (addPart b (undot field) attr).map fun b => { b with
      attrs := b.attrs.set attr
        ⟨kind, writeable, if writeable then tags ++ [configTag iteration] else tags, ext.default kind, handler, false⟩
      fields := b.fields.set field (some attr) }

/-- "parameters", "readbacks", "outputs", "inputs" -/
def parameters : Text := "parameters".toList
def readbacks : Text := "readbacks".toList
def outputs : Text := "outputs".toList
def inputs : Text := "inputs".toList

/-- pandablockcontroller.py 256-275, `_make_time` -/
def makeTime (b : Block V) (field : Text) (writeable : Bool) : Option (Block V) :=
  let group := if writeable then parameters else readbacks
  let widget := if writeable then "textinput".toList else "textupdate".toList
  match makeGroup ext b group with
  | none => none
  | some b =>
    match fieldPart ext b field (.number "float64") [groupTag group, widgetTag widget] writeable 2 .field with
    | none => none
    | some b =>
      fieldPart ext b (field ++ ".UNITS".toList) (.choice ["min".toList, "s".toList, "ms".toList, "us".toList])
        [groupTag group, widgetTag "combo".toList] true 1 .field

/-- pandablockcontroller.py 277-287, `_make_action`, and pandaactionpart.py 26-51 -/
def makeAction (b : Block V) (field : Text) : Option (Block V) :=
  match makeGroup ext b parameters with
  | none => none
  | some b =>
    match camel field with
    | none => none
    | some method => (addPart b field method).map fun b => { b with methods := b.methods ++ [method] }

/-- pandablockcontroller.py 289-303, `_make_param` -/
def makeParam (b : Block V) (field : Text) (fd : FieldData) (writeable : Bool) : Option (Block V) :=
  let group := if writeable then parameters else readbacks
  match makeGroup ext b group with
  | none => none
  | some b =>
    match metaKind fd.subtyp fd.labels with
    | none => none
    | some kind => fieldPart ext b field kind [groupTag group, widgetTag (defaultWidget kind writeable)] writeable 1 .field

/-- pandablockcontroller.py 305-315, `_make_out`; the subtype is "bit" or "pos" -/
def makeOut (b : Block V) (field : Text) (port : Port) (kind : Kind) : Option (Block V) :=
  match makeGroup ext b outputs with
  | none => none
  | some b =>
    fieldPart ext b field kind
      [groupTag outputs, sourcePortTag port (b.name ++ '.' :: field), widgetTag (defaultWidget kind false)] false 1 .field

/-- pandablockcontroller.py 317-324, `_make_ext_capture` -/
def makeExtCapture (b : Block V) (field : Text) (fd : FieldData) : Option (Block V) :=
  match makeGroup ext b outputs with
  | none => none
  | some b => fieldPart ext b (field ++ ".CAPTURE".toList) (.choice fd.labels) [groupTag outputs, widgetTag "combo".toList] true 1 .field

/-- `a <= b` of Python strings -/
def textLe : Text → Text → Bool
  | [], _ => true
  | _ :: _, [] => false
  | a :: as, b :: bs => if a = b then textLe as bs else decide (a.toNat < b.toNat)

/-- one step of a sort -/
def insertText (t : Text) : List Text → List Text
  | [] => [t]
  | u :: us => if textLe t u then t :: u :: us else u :: insertText t us

/-- `sorted` -/
def sortTexts : List Text → List Text
  | [] => []
  | t :: ts => insertText t (sortTexts ts)

/-- "ZERO" and "ONE" -/
def fixed : List Text := ["ZERO".toList, "ONE".toList]

/-- pandablockcontroller.py 330-332: ZERO and ONE first, then the rest in order -/
def muxLabels (labels : List Text) : List Text :=
  labels.filter (fun t => decide (t ∈ fixed)) ++ sortTexts (labels.filter (fun t => !decide (t ∈ fixed)))

/-- The mri of a block of the PandA, pandablockcontroller.py 82 -/
def mri (b : Block V) : Text := b.mriPrefix ++ ':' :: b.name

/-- pandablockcontroller.py 326-340, `_make_mux` -/
def makeMux (b : Block V) (field : Text) (fd : FieldData) (port : Port) : Option (Block V) :=
  match makeGroup ext b inputs with
  | none => none
  | some b =>
    match camel field with
    | none => none
    | some c =>
      let badge := if port = .bool then [badgeValueTag (mri b) (c ++ "Delay".toList) "plus".toList] else []
      (fieldPart ext b field (.choice (muxLabels fd.labels))
        ([groupTag inputs, sinkPortTag port "ZERO".toList, widgetTag "combo".toList] ++ badge) true 1 .field).map fun b =>
          { b with muxes := b.muxes ++ [field] }

/-- pandablockcontroller.py 342-349, `_make_mux_delay` -/
def makeMuxDelay (b : Block V) (field : Text) : Option (Block V) :=
  match makeGroup ext b inputs with
  | none => none
  | some b =>
    fieldPart ext b (field ++ ".DELAY".toList) (.number "uint8") [groupTag inputs, widgetTag "textinput".toList] true 1 .field

/-- pandablockcontroller.py 351-357, `_make_table`. The columns are in Model/PandATable; that `PandATablePart` may raise for them
is left out -/
def makeTable (b : Block V) (field : Text) : Option (Block V) :=
  match makeGroup ext b parameters with
  | none => none
  | some b =>
    match camel (undot field) with
    | none => none
    | some attr =>
      (addPart b (undot field) attr).map fun b => { b with
        attrs := b.attrs.set attr
          ⟨.table, true, [widgetTag "table".toList, groupTag parameters, configTag 1], ext.default .table, .table, false⟩
        fields := b.fields.set field (some attr) }

/-- pandablockcontroller.py 215-218: fields that are in the table of the busses -/
def posSuffixes : List Text := [".CAPTURE".toList, ".UNITS".toList, ".SCALE".toList, ".OFFSET".toList, ".DATA_DELAY".toList]

/-- pandablockcontroller.py 215-218 -/
def ignore (b : Block V) (names : List Text) : Block V :=
  { b with fields := names.foldl (fun d n => d.set n none) b.fields }

/-- pandablockcontroller.py 186-234, `_make_parts_for` -/
def makePartsFor (b : Block V) (field : Text) (fd : FieldData) : Option (Block V) :=
  if upper field = healthName then some b
  else
    let writeable := decide (fd.typ ≠ "read")
    if fd.typ = "time" ∨ (fd.typ = "param" ∨ fd.typ = "read") ∧ fd.subtyp = "time" then makeTime ext b field writeable
    else if fd.typ = "write" ∧ fd.subtyp = "action" then makeAction ext b field
    else if fd.typ = "param" ∨ fd.typ = "read" ∨ fd.typ = "write" then makeParam ext b field fd writeable
    else if fd.typ = "bit_out" then makeOut ext b field .bool .bool
    else if fd.typ = "pos_out" then (makeOut ext b field .int32 (.number "int32")).map (ignore · (posSuffixes.map (field ++ ·)))
    else if fd.typ = "ext_out" then
      if fd.subtyp = "bits" then some (ignore b [field ++ ".CAPTURE".toList])
      else makeExtCapture ext b field fd
    else if fd.typ = "bit_mux" then
      match makeMux ext b field fd .bool with
      | none => none
      | some b => makeMuxDelay ext b field
    else if fd.typ = "pos_mux" then makeMux ext b field fd .int32
    else if fd.typ = "table" then makeTable ext b field
    else none

/-- `rstrip("0123456789")` -/
def rstripDigits (t : Text) : Text := (t.reverse.dropWhile Char.isDigit).reverse

/-- pandablockcontroller.py 158-165 with `update_fields` of pandaluticonpart.py 83, pandapulseiconpart.py 7 and
pandasrgateiconpart.py 7 -/
def iconFieldsOf (name : Text) : List Text :=
  let typ := rstripDigits name
  if typ = "LUT".toList then ["FUNC".toList, "TYPEA".toList, "TYPEB".toList, "TYPEC".toList, "TYPED".toList, "TYPEE".toList]
  else if typ = "PULSE".toList ∨ typ = "PCAP".toList then ["TRIG_EDGE".toList]
  else if typ = "SRGATE".toList then ["SET_EDGE".toList, "RST_EDGE".toList]
  else []

/-- pandablockcontroller.py 154-184, `_make_common_parts`. `label` is the description of the block, with its number if it has one -/
def common (mriPrefix name label : Text) : Block V :=
  { mriPrefix, name
    parts := [("icon".toList, "icon".toList), ("label".toList, "label".toList), ("help".toList, "help".toList)]
    attrs := [
      ("icon".toList, ⟨.string, false, [widgetTag "icon".toList], ext.default .string, .field, false⟩),
      ("label".toList, ⟨.string, true, [widgetTag "textinput".toList, configTag 1],
        (ext.validate .string (.text label)).getD (ext.default .string), .label label, false⟩),
      ("help".toList, ⟨.string, false, [widgetTag "help".toList], ext.default .string, .field, false⟩)]
    fields := [("LABEL".toList, some "label".toList)]
    iconFields := iconFieldsOf name }

/-- pandablockcontroller.py 96-97: all fields, one after the other -/
def makeAll : Block V → List (Text × FieldData) → Option (Block V)
  | b, [] => some b
  | b, (n, fd) :: rest =>
    match makePartsFor ext b n fd with
    | none => none
    | some b' => makeAll b' rest

/-- pandablockcontroller.py 74-97, `__init__` -/
def make (mriPrefix name label : Text) (data : List (Text × FieldData)) : Option (Block V) :=
  makeAll ext (common ext mriPrefix name label) data

/-! ### changes -/

/-- `not value` -/
def falsy : Raw → Bool
  | .text t => t.isEmpty
  | .lines l => l.isEmpty
  | .nothing => true
  | .bit b => !b

/-- pandafieldpart.py 60-67, pandatablepart.py 96-98, pandalabelpart.py 20-23: `handle_change`; `none` is the exception. A label is
told `str` of what is reported, which for a text is itself -/
def attrChange [DecidableEq V] (a : Attr V) (v : Raw) : Option (Attr V) :=
  match a.handler with
  | .field =>
    match ext.validate a.kind v with
    | none => none
    | some x => if a.pending then
        if x = a.value then some { a with pending := false } else some { a with pending := false, value := x }
      else some { a with value := x }
  | .table => (ext.validate a.kind v).map fun x => { a with value := x }
  | .label initial => (ext.validate a.kind (if falsy v then .text initial else v)).map fun x => { a with value := x }

/-- `part.handle_change` for the part of an attribute -/
def partChange [DecidableEq V] (b : Block V) (attr : Text) (v : Raw) : Option (Block V) :=
  match b.attrs.get? attr with
  | none => none
  | some a => (attrChange ext a v).map fun a' => { b with attrs := b.attrs.set attr a' }

/-- pandablockcontroller.py 142-152, `_handle_mux_update`: the tags; `none` is an exception -/
def muxTags (mriPrefix : Text) (tags : List Text) (v : Raw) : Option (List Text) :=
  match v with
  | .text t =>
    match splitAt '.' t with
    | [block, field] =>
      match camel field with
      | none => none
      | some c => some (withoutLinkedValueTags tags ++ [linkedValueTag (mriPrefix ++ ':' :: block) c])
    | _ => some (withoutLinkedValueTags tags)
  | _ => none

/-- pandablockcontroller.py 125-130: a change of an input moves its link -/
def muxChange (b : Block V) (field attr : Text) (v : Raw) : Option (Block V) :=
  if field ∈ b.muxes then
    match b.attrs.get? attr with
    | none => none
    | some a => (muxTags b.mriPrefix a.tags v).map fun ts => { b with attrs := b.attrs.set attr { a with tags := ts } }
  else some b

/-- What the handling of one change gives: the block, whether the icon has to be drawn, and whether there was an exception -/
structure Res (V : Type) where
  block : Block V
  icon : Bool
  raised : Bool

/-- pandablockcontroller.py 103-130, one change -/
def oneChange [DecidableEq V] (b : Block V) (icon : Bool) (k : Text) (v : Raw) : Res V :=
  if upper k = healthName then
    match v with
    | .text t => ⟨{ b with health := if upper t = "OK".toList then "OK".toList else t }, icon, false⟩
    | _ => ⟨b, icon, true⟩
  else
    match b.fields.get? k with
    | none => ⟨b, icon, false⟩
    | some none => ⟨b, icon, false⟩
    | some (some attr) =>
      match partChange ext b attr v with
      | none => ⟨b, icon, true⟩
      | some b1 =>
        let icon := icon || decide (k ∈ b.iconFields)
        match muxChange b1 k attr v with
        | none => ⟨b1, icon, true⟩
        | some b2 => ⟨b2, icon, false⟩

/-- pandablockcontroller.py 103-130: one after the other, until the first exception -/
def changes [DecidableEq V] : Block V → Bool → List (Text × Raw) → Res V
  | b, icon, [] => ⟨b, icon, false⟩
  | b, icon, (k, v) :: rest =>
    let r := oneChange ext b icon k v
    if r.raised then r else changes r.block r.icon rest

/-- pandablockcontroller.py 132-137: the values for the icon -/
def iconValues (b : Block V) : List (Text × V) :=
  b.iconFields.filterMap fun k =>
    match b.fields.get? k with
    | some (some attr) => (b.attrs.get? attr).map fun a => (k, a.value)
    | _ => none

/-- pandablockcontroller.py 99-140, `handle_changes`: the block, and whether there was an exception -/
def handleChanges [DecidableEq V] (b : Block V) (cs : List (Text × Raw)) : Block V × Bool :=
  let r := changes ext b false cs
  if r.raised then (r.block, true)
  else if r.icon then
    if ext.draws (iconValues r.block) then ({ r.block with shownIcon := some (iconValues r.block) }, false)
    else (r.block, true)
  else (r.block, false)

/-! ### puts -/

/-- pandafieldpart.py 69-74 up to the answer of the PandA, pandatablepart.py 100-102, pandalabelpart.py 25-27: a put of a value that
the meta has accepted. `field` is the name that the part knows. A label is set before the PandA is told (LABEL stands for its metadata
field) -/
def putSend (b : Block V) (field : Text) (v : V) : Block V :=
  match b.fields.get? field with
  | some (some attr) =>
    match b.attrs.get? attr with
    | none => b
    | some a =>
      if a.writeable then
        match a.handler with
        | .field => { b with attrs := b.attrs.set attr { a with pending := true }, sent := b.sent ++ [(field, v)] }
        | .table => { b with sent := b.sent ++ [(field, v)] }
        | .label _ => { b with attrs := b.attrs.set attr { a with value := v }, sent := b.sent ++ [(field, v)] }
      else b
  | _ => b

/-- pandafieldpart.py 75: the PandA has accepted the value -/
def putDone (b : Block V) (field : Text) (v : V) : Block V :=
  match b.fields.get? field with
  | some (some attr) =>
    match b.attrs.get? attr with
    | none => b
    | some a =>
      if a.writeable ∧ a.handler = .field then { b with attrs := b.attrs.set attr { a with value := v } } else b
  | _ => b

/-- What happens to a block: a report of the PandA, a put that reaches it, and a put that it has answered -/
inductive Ev (V : Type)
  | report (cs : List (Text × Raw))
  | send (field : Text) (v : V)
  | done (field : Text) (v : V)

/-- one event -/
def step [DecidableEq V] (b : Block V) : Ev V → Block V
  | .report cs => (handleChanges ext b cs).1
  | .send f v => putSend b f v
  | .done f v => putDone b f v

/-- a history -/
def run [DecidableEq V] (b : Block V) (evs : List (Ev V)) : Block V := evs.foldl (step ext) b

end
end Verif.PandABlock
