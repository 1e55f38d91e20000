import Verif.Model.PyDict
/-!
The tables of bits and positions of a PandA: malcolm/modules/pandablocks/parts/pandabussespart.py.

Simplifications. The name of a field is its block, its name and, if there is one, its subfield; only subfields that
the tables know occur. Positions are rationals, not floats. The dictionaries from names to row numbers (54-63, 171-193)
are replaced by looking for the name among the names of the table, which is the same as names are distinct. What
`int()`, `float()` and `PositionCapture()` make of a reported text is part of the report.
-/
namespace Verif.PandABusses

inductive Suffix
  | capture | scale | offset | units
  deriving DecidableEq, Repr

/-- `BLOCK.FIELD` -/
structure Name where
  block : String
  field : String
  deriving DecidableEq, Repr

/-- `BLOCK.FIELD` or `BLOCK.FIELD.SUFFIX` -/
structure Key where
  name : Name
  suffix : Option Suffix := none
  deriving DecidableEq, Repr

/-- `PositionCapture`: util.py 44-58 -/
inductive Cap
  | no | value | diff | sum | mean | min | max | minMax | minMaxMean
  deriving DecidableEq, Repr

/-- A reported value: a boolean for a bit, otherwise a text and what it parses as; none if that raises ValueError -/
structure Raw where
  bool : Bool := false
  text : String := ""
  int : Option Int := none
  float : Option Rat := none
  cap : Option Cap := none
  deriving DecidableEq, Repr

/-- `BitsTable`: util.py 35-41, column by column -/
structure Bits where
  name : List Name := []
  value : List Bool := []
  capture : List Bool := []
  deriving DecidableEq, Repr

/-- `PositionsTable`: util.py 81-96, column by column -/
structure Positions where
  name : List Name := []
  value : List Rat := []
  units : List String := []
  scale : List Rat := []
  offset : List Rat := []
  capture : List Cap := []
  deriving DecidableEq, Repr

/-- The columns that have been changed: the argument `column_changes` of bits. pandabussespart.py 256-258 -/
structure BitChanges where
  value : Option (List Bool) := none
  capture : Option (List Bool) := none

/-- The same for positions -/
structure PosChanges where
  value : Option (List Rat) := none
  units : Option (List String) := none
  scale : Option (List Rat) := none
  offset : Option (List Rat) := none
  capture : Option (List Cap) := none

/-- The state of the part: pandabussespart.py 50-64. `posValues` is `_pos_values`, `pcap` is `_pcap_bit_indexes` and
`bitField` is `_bit_pcap_fields` -/
structure State where
  bits : Bits := {}
  positions : Positions := {}
  posValues : List Int := []
  pcap : Dict Key (List Nat) := []
  bitField : Dict Name Key := []

/-- pandabussespart.py 17-31, `update_column`, and the assignment to one row of its result. The row is always one of
the table -/
def updateColumn {α : Type} (changed : Option (List α)) (column : List α) (i : Nat) (v : α) : Option (List α) :=
  some ((changed.getD column).set i v)

/-- pandabussespart.py 34-38, `make_updated_table`, for bits -/
def updateBits (t : Bits) (c : BitChanges) : Bits :=
  { t with value := c.value.getD t.value, capture := c.capture.getD t.capture }

/-- The same for positions -/
def updatePositions (t : Positions) (c : PosChanges) : Positions :=
  { t with
    value := c.value.getD t.value
    units := c.units.getD t.units
    scale := c.scale.getD t.scale
    offset := c.offset.getD t.offset
    capture := c.capture.getD t.capture }

/-- pandabussespart.py 165-193, `create_busses`, one PCAP field after another: the names of the bits, and the lookups.
A bit without a name is skipped (179). `start` is the number of bits so far -/
def createBits : Dict Key (List (Option Name)) → Nat → List Name × Dict Key (List Nat) × Dict Name Key
  | [], _ => ([], [], [])
  | (k, names) :: rest, start =>
    let named := names.filterMap id
    let (ns, pcap, fields) := createBits rest (start + named.length)
    (named ++ ns, (k, List.range' start named.length) :: pcap, named.map (·, k) ++ fields)

/-- pandabussespart.py 165-193, `create_busses` with the initial tables of 144-163 -/
def createBusses (pcapFields : Dict Key (List (Option Name))) (posNames : List Name) : State :=
  let (names, pcap, fields) := createBits pcapFields 0
  { bits := { name := names, value := names.map fun _ => false, capture := names.map fun _ => false }
    positions :=
      { name := posNames, value := posNames.map fun _ => 0, units := posNames.map fun _ => "",
        scale := posNames.map fun _ => 1, offset := posNames.map fun _ => 0, capture := posNames.map fun _ => .no }
    posValues := posNames.map fun _ => 0
    pcap := pcap
    bitField := fields }

inductive Err
  | value      -- ValueError from int(), float() or PositionCapture(), 214-227
  | unknown    -- AssertionError, 260-264
  | key        -- KeyError, 113
  | refused    -- the PandA does not answer OK: 123 and 140
  deriving DecidableEq, Repr

/-- pandabussespart.py 195-204, `_handle_bit`: none if it is not a bit -/
def handleBit (s : State) (c : BitChanges) (k : Key) (r : Raw) : Option BitChanges :=
  if k.suffix = none then
    match s.bits.name.idxOf? k.name with
    | some i => some { c with value := updateColumn c.value s.bits.value i r.bool }
    | none => none
  else none

/-- pandabussespart.py 213-231: the raw value, or the column that is reported -/
def parsePos (s : State) (c : PosChanges) (i : Nat) (k : Key) (r : Raw) : Except Err (List Int × PosChanges) :=
  match k.suffix with
  | none => match r.int with
    | some v => .ok (s.posValues.set i v, c)
    | none => .error .value
  | some .scale => match r.float with
    | some v => .ok (s.posValues, { c with scale := updateColumn c.scale s.positions.scale i v })
    | none => .error .value
  | some .offset => match r.float with
    | some v => .ok (s.posValues, { c with offset := updateColumn c.offset s.positions.offset i v })
    | none => .error .value
  | some .capture => match r.cap with
    | some v => .ok (s.posValues, { c with capture := updateColumn c.capture s.positions.capture i v })
    | none => .error .value
  | some .units => .ok (s.posValues, { c with units := updateColumn c.units s.positions.units i r.text })

/-- pandabussespart.py 206-241, `_handle_pos`: none if it is not a position -/
def handlePos (s : State) (c : PosChanges) (k : Key) (r : Raw) : Option (Except Err (List Int × PosChanges)) :=
  match s.positions.name.idxOf? k.name with
  | none => none
  | some i => some <|
    match parsePos s c i k r with
    | .error e => .error e
    | .ok (vs, c) =>
      let scale := (c.scale.getD s.positions.scale).getD i 0
      let offset := (c.offset.getD s.positions.offset).getD i 0
      .ok (vs, { c with value := updateColumn c.value s.positions.value i ((vs.getD i 0 : Int) * scale + offset) })

/-- pandabussespart.py 243-254, `_handle_pcap`: none if it is not a field that captures bits -/
def handlePcap (s : State) (c : BitChanges) (k : Key) (r : Raw) : Option BitChanges :=
  match s.pcap.get? k with
  | none => none
  | some is => some (is.foldl (fun c i =>
      { c with capture := updateColumn c.capture s.bits.capture i (decide (r.text ≠ "No")) }) c)

/-- pandabussespart.py 259-264: all reports of one poll. The raw values of positions are changed at once, the tables
only at the end, so an exception leaves the first changed and the second not -/
def handleReports (s : State) (b : BitChanges) (p : PosChanges) : List (Key × Raw) → State × Except Err (BitChanges × PosChanges)
  | [] => (s, .ok (b, p))
  | (k, r) :: rest =>
    match handleBit s b k r with
    | some b' => handleReports s b' p rest
    | none =>
      match handlePos s p k r with
      | some (.error e) => (s, .error e)
      | some (.ok (vs, p')) => handleReports { s with posValues := vs } b p' rest
      | none =>
        match handlePcap s b k r with
        | some b' => handleReports s b' p rest
        | none => (s, .error .unknown)

/-- pandabussespart.py 256-273, `handle_changes`. A table without changes is not set again, which shows in no value -/
def handleChanges (s : State) (reports : List (Key × Raw)) : State × Option Err :=
  match handleReports s {} {} reports with
  | (s', .error e) => (s', some e)
  | (s', .ok (b, p)) => ({ s' with bits := updateBits s'.bits b, positions := updatePositions s'.positions p }, none)

/-- pandabussespart.py 88-104, `get_column_changes`, for one column: rows with a name that is not in the table are
ignored -/
def columnChanges {α : Type} [DecidableEq α] (names : List Name) (column : List α) :
    List (Name × α) → Option (List α) → Option (List α)
  | [], c => c
  | (n, v) :: rest, c =>
    match names.idxOf? n with
    | none => columnChanges names column rest c
    | some i =>
      columnChanges names column rest
        (if column[i]? ≠ some v then updateColumn c column i v else c)

/-- A value in a message to the PandA -/
inductive Sent
  | text (s : String)
  | num (r : Rat)
  | cap (c : Cap)
  deriving DecidableEq, Repr

/-- pandabussespart.py 110-123: the fields that `set_bits` sends: KeyError for a bit that is not in the table -/
def captureFields (s : State) (capture : List Bool) : List Name → Dict Key Bool → Except Err (Dict Key Bool)
  | [], d => .ok d
  | n :: rest, d =>
    match s.bits.name.idxOf? n, s.bitField.get? n with
    | some i, some f =>
      captureFields s capture rest
        (if capture.getD i false then d.set f true
         else if d.mem f then d else d.set f false)
    | _, _ => .error .key

/-- pandabussespart.py 106-124, `set_bits`, with the names and the captures of the new table. The second component
says for each PCAP field sent to the PandA whether it is to be captured ("Value" or "No"); `accept` whether the PandA
takes them -/
def setBits (s : State) (rows : List (Name × Bool)) (accept : Bool) : State × Dict Key Bool × Option Err :=
  match columnChanges s.bits.name s.bits.capture rows none with
  | none => (s, [], none)
  | some capture =>
    match captureFields s capture (rows.map (·.1)) [] with
    | .error e => (s, [], some e)
    | .ok fields =>
      if accept then ({ s with bits := updateBits s.bits { capture := some capture } }, fields, none)
      else (s, fields, some .refused)

/-- A row of a new table of positions -/
structure PosRow where
  name : Name
  units : String
  scale : Rat
  offset : Rat
  capture : Cap
  deriving DecidableEq, Repr

/-- pandabussespart.py 132-139: the fields of one column, for all rows of the table -/
def columnFields {α : Type} (names : List Name) (sfx : Suffix) (f : α → Sent) : Option (List α) → List (Key × Sent)
  | none => []
  | some column => (names.zip column).map fun nv => (⟨nv.1, some sfx⟩, f nv.2)

/-- pandabussespart.py 126-142, `set_positions`. `accept` says whether the PandA takes the fields sent for a column -/
def setPositions (s : State) (rows : List PosRow) (accept : Suffix → Bool) : State × List (Key × Sent) × Option Err :=
  let t := s.positions
  let capture := columnChanges t.name t.capture (rows.map fun r => (r.name, r.capture)) none
  let scale := columnChanges t.name t.scale (rows.map fun r => (r.name, r.scale)) none
  let offset := columnChanges t.name t.offset (rows.map fun r => (r.name, r.offset)) none
  let units := columnChanges t.name t.units (rows.map fun r => (r.name, r.units)) none
  let s1 := columnFields t.name .capture Sent.cap capture
  let s2 := s1 ++ columnFields t.name .scale Sent.num scale
  let s3 := s2 ++ columnFields t.name .offset Sent.num offset
  let s4 := s3 ++ columnFields t.name .units Sent.text units
  if capture.isSome ∧ ¬ accept .capture then (s, s1, some .refused)
  else if scale.isSome ∧ ¬ accept .scale then (s, s2, some .refused)
  else if offset.isSome ∧ ¬ accept .offset then (s, s3, some .refused)
  else if units.isSome ∧ ¬ accept .units then (s, s4, some .refused)
  else ({ s with positions := updatePositions t { units := units, scale := scale, offset := offset, capture := capture } },
    s4, none)

end Verif.PandABusses
