import Verif.Model.PandATalk
/-!
What a PandA is, how it says so, and how it reads what it is sent.
-/
namespace Verif.Spec.PandATalk
open Verif Verif.PandAClient Verif.PandATalk

/-- A name or type: not empty and without blanks. -/
def Word (t : Text) : Prop := t ≠ [] ∧ ∀ c ∈ t, blank c = false

/-- A field of a block of the PandA -/
structure Field where
  name : Text
  index : Int
  type : Text
  subtype : Text
  description : Text
  labels : List Line

/-- A block of the PandA -/
structure Block where
  name : Text
  number : Int
  description : Text
  fields : List Field

/-- Whether the field has labels, and under which name -/
def labelled (f : Field) : Option Text :=
  if f.type = "bit_mux".toList ∨ f.type = "pos_mux".toList ∨ f.subtype = "enum".toList then some f.name
  else if f.type = "ext_out".toList then some (f.name ++ ".CAPTURE".toList)
  else none

/-- How the PandA writes a field: the subtype is left out if there is none. -/
def fieldLine (f : Field) : Text :=
  f.name ++ ' ' :: Tags.showInt f.index ++ ' ' :: f.type ++ (if f.subtype = [] then [] else ' ' :: f.subtype)

/-- How the PandA writes a block and how many there are of it. -/
def blockLine (b : Block) : Text := b.name ++ ' ' :: Tags.showInt b.number

/-- Names are words, without dots, and different. -/
structure Named (bs : List Block) : Prop where
  blocks : (bs.map (·.name)).Nodup
  fields : ∀ b ∈ bs, (b.fields.map (·.name)).Nodup
  word : ∀ b ∈ bs, Word b.name
  words : ∀ b ∈ bs, ∀ f ∈ b.fields, Word f.name ∧ Word f.type ∧ (f.subtype = [] ∨ Word f.subtype)
  plain : ∀ b ∈ bs, ∀ f ∈ b.fields, '.' ∉ f.name

/-- The PandA has these blocks and says so when asked. -/
structure Describes (ask : Text → Resp) (bs : List Block) : Prop where
  blocks : ask "*BLOCKS?\n".toList = .lines (bs.map blockLine)
  desc : ∀ b ∈ bs, ask ("*DESC.".toList ++ b.name ++ "?\n".toList) = .line ("OK =".toList ++ b.description)
  fields : ∀ b ∈ bs, ask (b.name ++ ".*?\n".toList) = .lines (b.fields.map fieldLine)
  fieldDesc : ∀ b ∈ bs, ∀ f ∈ b.fields,
    ask ("*DESC.".toList ++ b.name ++ '.' :: f.name ++ "?\n".toList) = .line ("OK =".toList ++ f.description)
  labels : ∀ b ∈ bs, ∀ f ∈ b.fields, ∀ n, labelled f = some n →
    ask ("*ENUMS.".toList ++ b.name ++ '.' :: n ++ "?\n".toList) = .lines f.labels

/-- what a user of the client should see of a field -/
def seen (f : Field) : Text × FieldData :=
  (f.name, ⟨f.type, f.subtype, f.description, if (labelled f).isSome then f.labels else []⟩)

/-- A field of a table -/
structure Column where
  name : Text
  hi : Int
  lo : Int
  kind : Option Text
  description : Text
  labels : List Line

/-- How the PandA writes it -/
def columnLine (c : Column) : Text :=
  Tags.showInt c.hi ++ ':' :: Tags.showInt c.lo ++ ' ' :: c.name ++ (match c.kind with | some k => ' ' :: k | none => [])

/-- The table has these fields and the PandA says so when asked. -/
structure DescribesTable (ask : Text → Resp) (block field : Text) (cs : List Column) : Prop where
  nodup : (cs.map (·.name)).Nodup
  words : ∀ c ∈ cs, Word c.name ∧ ∀ k, c.kind = some k → Word k
  fields : ask (block ++ '.' :: field ++ ".FIELDS?\n".toList) = .lines (cs.map columnLine)
  desc : ∀ c ∈ cs, ask ("*DESC.".toList ++ block ++ '.' :: field ++ "[].".toList ++ c.name ++ "?\n".toList) =
    .line ("OK =".toList ++ c.description)
  labels : ∀ c ∈ cs, c.kind = some "enum".toList →
    ask ("*ENUMS.".toList ++ block ++ '.' :: field ++ "[].".toList ++ c.name ++ "?\n".toList) = .lines c.labels

/-- A change of a field as reported: its value, or that a table has changed, or that it cannot be read. -/
inductive Change
  | value (field text : Text)
  | table (field : Text)
  | failed (field : Text)

/-- How it is written -/
def Change.line : Change → Text
  | .value f v => f ++ '=' :: v
  | .table f => f ++ ['<']
  | .failed f => f ++ " (error)".toList

def Change.field : Change → Text
  | .value f _ => f
  | .table f => f
  | .failed f => f

/-- What is seen of it at once; failures only if they are asked for. -/
def Change.seen (errors : Bool) : Change → Option (Text × Value)
  | .value f v => some (f, .text v)
  | .table f => some (f, .nothing)
  | .failed f => if errors then some (f, .failed) else none

/-- the table that has changed -/
def Change.tableOf : Change → Option Text
  | .table f => some f
  | _ => none

/-- What the PandA is told -/
inductive Command
  | assign (field value : Text)
  | query (what : Text)
  | table (field : Text) (rows : List Text)
  | other (line : Text)
  deriving DecidableEq, Repr

/-- The part of a line before the first of the characters `=`, `?` and `<` -/
def target (line : Text) : Text := line.takeWhile (fun c => !(c == '=' || c == '?' || c == '<'))

/-- How the PandA reads lines: a line with `<` is followed by the rows of a table, up to an empty line, and
nothing is done before that line has come. The table that is being read is kept beside the lines. -/
def readCommands : List Line → Option (Text × List Text) → List Command
  | [], none => []
  | [], some _ => []
  | line :: ls, some (f, rows) =>
    if line = [] then .table f rows :: readCommands ls none else readCommands ls (some (f, rows ++ [line]))
  | line :: ls, none =>
    match line.drop (target line).length with
    | '=' :: v => .assign (target line) v :: readCommands ls none
    | '?' :: _ => .query (target line) :: readCommands ls none
    | '<' :: _ => readCommands ls (some (target line, []))
    | _ => .other line :: readCommands ls none

/-- How the PandA reads a text: the lines that have ended. -/
def told (text : Text) : List Command := readCommands (splitLines text).dropLast none

/-- A name that can be told from what follows it -/
def Plain (t : Text) : Prop := ∀ c ∈ t, c ≠ '=' ∧ c ≠ '?' ∧ c ≠ '<' ∧ c ≠ '\n'

end Verif.Spec.PandATalk
