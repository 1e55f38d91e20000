import Verif.Model.PyDict
import Verif.Model.PandAClient
import Verif.Model.Tags
/-!
What the PandA client asks, what it makes of the answers, and what it sends to set fields:
malcolm/modules/pandablocks/pandablocksclient.py 15-18 and 181-372. That a request gets its own reply is in
`Verif.PandAClient`; here `ask` is the reply to a request, so the order in which the requests of one function are sent
does not matter.

Simplifications: `none` is any exception; only ASCII blanks count as blank; names are not put through `%` a second time.
-/
namespace Verif.PandATalk
open Verif Verif.PandAClient

abbrev Text := List Char

/-- A reply as something to loop over: pandablocksclient.py 183, 225, 279, 293, 317. Python loops over the characters of
a reply with one line. -/
def loopOver : Resp → Option (List Line)
  | .lines ls => some ls
  | .line l => some (l.map (fun c => [c]))
  | .error _ => none

/-- pandablocksclient.py 15-18 `strip_ok` -/
def stripOk : Resp → Option Text
  | .line ('O' :: 'K' :: ' ' :: '=' :: v) => some v
  | _ => none

/-- what `split()` takes for blank (pandablocksclient.py 184, 226, 280, 318) -/
def blank (c : Char) : Bool := c = ' ' || c = '\t' || c = '\n' || c = '\r' || c = '\x0b' || c = '\x0c'

/-- `text.split()` (pandablocksclient.py 184, 226, 280, 318) -/
def words : Text → List Text
  | [] => []
  | c :: cs =>
    if blank c then words cs
    else match cs with
      | [] => [[c]]
      | d :: _ =>
        if blank d then [c] :: words cs
        else match words cs with
          | w :: ws => (c :: w) :: ws
          | [] => [[c]]

/-- one after the other, until one fails (the loops of pandablocksclient.py 217-271 and 333-340) -/
def collect {α β : Type} (f : α → Option β) : List α → Option (List β)
  | [] => some []
  | x :: l =>
    match f x, collect f l with
    | some y, some ys => some (y :: ys)
    | _, _ => none

/-- `sorted(names)` (pandablocksclient.py 217, 285): by the numbers of the characters -/
def sortNames (l : List Text) : List Text := l.mergeSort (fun a b => decide (a ≤ b))

/-! ### blocks -/

/-- pandablocksclient.py 9 -/
structure FieldData where
  type : Text
  subtype : Text
  description : Text
  labels : List Line
  deriving DecidableEq, Repr

/-- pandablocksclient.py 8 -/
structure BlockData where
  number : Int
  description : Text
  fields : Dict Text FieldData
  deriving DecidableEq, Repr

/-- pandablocksclient.py 183-185 -/
def numbersLoop : List Line → Dict Text Int → Option (Dict Text Int)
  | [], d => some d
  | line :: l, d =>
    match words line with
    | [name, number] =>
      match Tags.readInt number with
      | some n => numbersLoop l (d.set name n)
      | none => none
    | _ => none

/-- pandablocksclient.py 224-234: index, type and subtype of each field -/
def fieldsLoop : List Line → Dict Text (Int × Text × Text) → Option (Dict Text (Int × Text × Text))
  | [], d => some d
  | line :: l, d =>
    match words line with
    | [name, index, type] =>
      match Tags.readInt index with
      | some i => fieldsLoop l (d.set name (i, type, []))
      | none => none
    | [name, index, type, subtype] =>
      match Tags.readInt index with
      | some i => fieldsLoop l (d.set name (i, type, subtype))
      | none => none
    | _ => none

/-- pandablocksclient.py 237-240: in the order of their indexes -/
def sortFields (d : Dict Text (Int × Text × Text)) : Dict Text (Int × Text × Text) :=
  d.mergeSort (fun a b => decide (a.2.1 ≤ b.2.1))

/-- pandablocksclient.py 251 -/
def isEnum (type subtype : Text) : Bool :=
  type = "bit_mux".toList || type = "pos_mux".toList || subtype = "enum".toList

/-- pandablocksclient.py 254, 264: the name under which the labels of an `ext_out` are asked for -/
def capture (name : Text) : Text := name ++ ".CAPTURE".toList

/-- pandablocksclient.py 248-254 -/
def enumFields : Dict Text (Int × Text × Text) → List Text
  | [] => []
  | (name, _, type, subtype) :: l =>
    if isEnum type subtype then name :: enumFields l
    else if type = "ext_out".toList then capture name :: enumFields l
    else enumFields l

/-- pandablocksclient.py 255-257 -/
def askEnum (block name : Text) : Text := "*ENUMS.".toList ++ block ++ '.' :: name ++ "?\n".toList

/-- pandablocksclient.py 262-267 -/
def labels (ask : Text → Resp) (block : Text) (enums : List Text) (name : Text) : Option (List Line) :=
  if name ∈ enums then loopOver (ask (askEnum block name))
  else if capture name ∈ enums then loopOver (ask (askEnum block (capture name)))
  else some []

/-- pandablocksclient.py 243-245 -/
def askFieldDesc (block name : Text) : Text := "*DESC.".toList ++ block ++ '.' :: name ++ "?\n".toList

/-- pandablocksclient.py 260-271: one field -/
def fieldData (ask : Text → Resp) (block : Text) (enums : List Text) (f : Text × Int × Text × Text) :
    Option (Text × FieldData) :=
  match labels ask block enums f.1, stripOk (ask (askFieldDesc block f.1)) with
  | some ls, some desc => some (f.1, ⟨f.2.2.1, f.2.2.2, desc, ls⟩)
  | _, _ => none

/-- pandablocksclient.py 212 -/
def askDesc (block : Text) : Text := "*DESC.".toList ++ block ++ "?\n".toList

/-- pandablocksclient.py 213 -/
def askFields (block : Text) : Text := block ++ ".*?\n".toList

/-- pandablocksclient.py 217-271: one block -/
def blockData (ask : Text → Resp) (numbers : Dict Text Int) (name : Text) : Option (Text × BlockData) :=
  match numbers.get? name, stripOk (ask (askDesc name)), loopOver (ask (askFields name)) with
  | some number, some desc, some lines =>
    match fieldsLoop lines [] with
    | some fields =>
      match collect (fieldData ask name (enumFields (sortFields fields))) (sortFields fields) with
      | some fs => some (name, ⟨number, desc, fs⟩)
      | none => none
    | none => none
  | _, _, _ => none

/-- pandablocksclient.py 181-186 `_get_block_numbers` and 204-273 `get_blocks_data` -/
def getBlocksData (ask : Text → Resp) : Option (Dict Text BlockData) :=
  match loopOver (ask "*BLOCKS?\n".toList) with
  | none => none
  | some lines =>
    match numbersLoop lines [] with
    | none => none
    | some numbers => collect (blockData ask numbers) (sortNames numbers.keys)

/-! ### bits and tables -/

/-- pandablocksclient.py 278-284 -/
def bitsFields : List Line → List Text
  | [] => []
  | line :: l =>
    match words line with
    | [name, _, type, subtype] =>
      if type = "ext_out".toList ∧ subtype = "bits".toList then ("PCAP.".toList ++ name) :: bitsFields l else bitsFields l
    | _ => bitsFields l

/-- pandablocksclient.py 285-288: one of the fields -/
def bitsOf (ask : Text → Resp) (field : Text) : Option (Text × List Line) :=
  (loopOver (ask (field ++ ".BITS?\n".toList))).map (fun bs => (capture field, bs))

/-- pandablocksclient.py 275-289 `get_pcap_bits_fields`, for fields with different names -/
def pcapBits (ask : Text → Resp) : Option (List (Text × List Line)) :=
  match loopOver (ask "PCAP.*?\n".toList) with
  | none => none
  | some lines => collect (bitsOf ask) (sortNames (bitsFields lines))

/-- pandablocksclient.py 10-12 -/
structure TableField where
  hi : Int
  lo : Int
  description : Text
  labels : Option (List Line)
  signed : Bool
  deriving DecidableEq, Repr

/-- pandablocksclient.py 315-327: the bits and the third word of each field -/
def tableLoop : List Line → Dict Text (Text × Option Text) → Option (Dict Text (Text × Option Text))
  | [], d => some d
  | line :: l, d =>
    match words line with
    | bits :: name :: [] => tableLoop l (d.set name (bits, none))
    | bits :: name :: kind :: _ => tableLoop l (d.set name (bits, some kind))
    | _ => none

/-- pandablocksclient.py 334: the two numbers -/
def readBits (t : Text) : Option (Int × Int) :=
  match t.dropWhile (· ≠ ':') with
  | _ :: lo =>
    match Tags.readInt (t.takeWhile (· ≠ ':')), Tags.readInt lo with
    | some h, some l => some (h, l)
    | _, _ => none
  | [] => none

/-- pandablocksclient.py 324, 331: what is asked about a field of the table -/
def askTable (what block field name : Text) : Text :=
  what ++ block ++ '.' :: field ++ "[].".toList ++ name ++ "?\n".toList

/-- pandablocksclient.py 333-340: one field -/
def tableField (ask : Text → Resp) (block field : Text) (f : Text × Text × Option Text) : Option (Text × TableField) :=
  match readBits f.2.1, stripOk (ask (askTable "*DESC.".toList block field f.1)) with
  | some (hi, lo), some desc =>
    if f.2.2 = some "enum".toList then
      match loopOver (ask (askTable "*ENUMS.".toList block field f.1)) with
      | some ls => some (f.1, ⟨hi, lo, desc, some ls, false⟩)
      | none => none
    else some (f.1, ⟨hi, lo, desc, none, decide (f.2.2 = some "int".toList)⟩)
  | _, _ => none

/-- pandablocksclient.py 314-341 `get_table_fields` -/
def getTableFields (ask : Text → Resp) (block field : Text) : Option (Dict Text TableField) :=
  match loopOver (ask (block ++ '.' :: field ++ ".FIELDS?\n".toList)) with
  | none => none
  | some lines =>
    match tableLoop lines [] with
    | none => none
    | some fields => collect (tableField ask block field) fields

/-! ### changes -/

/-- What `get_changes` yields for a field: pandablocksclient.py 295-312 -/
inductive Value
  | text (t : Text)
  | nothing
  | failed
  | rows (ls : List Line)
  deriving DecidableEq, Repr

/-- pandablocksclient.py 300 -/
def askField (field : Text) : Text := field ++ "?\n".toList

/-- pandablocksclient.py 293-310: what is yielded, and the tables asked for -/
def changesLoop (errors : Bool) : List Line → List Text → Option (List (Text × Value) × List Text)
  | [], tables => some ([], tables)
  | line :: l, tables =>
    let also (x : Text × Value) (r : Option (List (Text × Value) × List Text)) := r.map (fun (o, t) => (x :: o, t))
    if '=' ∈ line then
      also (line.takeWhile (· ≠ '='), .text ((line.dropWhile (· ≠ '=')).drop 1)) (changesLoop errors l tables)
    else if line = [] then none
    else if line.getLast? = some '<' then
      also (line.dropLast, .nothing)
        (changesLoop errors l (if line.dropLast ∈ tables then tables else tables ++ [line.dropLast]))
    else if "(error)".toList.isSuffixOf line then
      if errors then also (line.takeWhile (· ≠ ' '), .failed) (changesLoop errors l tables)
      else changesLoop errors l tables
    else changesLoop errors l tables

/-- pandablocksclient.py 291-312 `get_changes`: all that is yielded; `reply` is that to `*CHANGES?` -/
def getChanges (ask : Text → Resp) (reply : Resp) (errors : Bool) : Option (List (Text × Value)) :=
  match loopOver reply with
  | none => none
  | some lines =>
    match changesLoop errors lines [] with
    | none => none
    | some (out, tables) =>
      match collect (fun f => (loopOver (ask (askField f))).map (fun ls => (f, Value.rows ls))) tables with
      | none => none
      | some ts => some (out ++ ts)

/-! ### setting -/

/-- pandablocksclient.py 357 -/
def setMessage (field value : Text) : Text := field ++ '=' :: value ++ ['\n']

/-- pandablocksclient.py 354-365 `set_fields`: what is sent, in order, and the first field that was refused if any. All is
sent before the first reply is looked at. -/
def setFields (ask : Text → Resp) (values : List (Text × Text)) : List Text × Option Text :=
  (values.map (fun x => setMessage x.1 x.2),
   (values.find? (fun x => decide (ask (setMessage x.1 x.2) ≠ .line "OK".toList))).map (·.1))

/-- pandablocksclient.py 367-371: the text for a table -/
def tableMessage (block field : Text) (rows : List Text) : Text :=
  block ++ '.' :: field ++ "<\n".toList ++ (rows.flatMap (fun r => r ++ ['\n'])) ++ ['\n']

/-- pandablocksclient.py 370: the rows of a table are whole numbers -/
def intRows (values : List Int) : List Text := values.map Tags.showInt

end Verif.PandATalk
