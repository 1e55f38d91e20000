/-!
How a PandA table is written as 32-bit words and read back: malcolm/modules/pandablocks/parts/pandatablepart.py.

Simplifications. A table is a list of rows, one cell per column in the order of the fields; the columns of a Malcolm
table always have the same length. numpy arrays are modelled by their values and by the width and signedness of the
type that numpy's promotion rules (version 1, as in Pipfile.lock) give to each intermediate array.
-/
namespace Verif.PandATable

/-- The exceptions that can come out: pandatablepart.py 37-39 (AssertionError), 113 (ValueError from list.index),
130 (ZeroDivisionError), 123, 139 and 145 (IndexError), 134 (ValueError from reshape) -/
inductive Err
  | assertion
  | value
  | index
  | zeroDivision
  deriving DecidableEq, Repr

/-- `TableFieldData`: pandablocksclient.py 10-12. `labels` is empty for a field that is not an enum -/
structure Field where
  hi : Nat
  lo : Nat
  labels : List String := []
  signed : Bool := false
  deriving DecidableEq, Repr

/-- One value of a column: of a ChoiceArrayMeta, a BooleanArrayMeta or a NumberArrayMeta. pandatablepart.py 71-80 -/
inductive Cell
  | choice (label : String)
  | bool (b : Bool)
  | num (v : Int)
  deriving DecidableEq, Repr

/-- pandatablepart.py 43-46, `get_nbits_mask`. `__init__` (68-70) has checked that it is at least one -/
def nbits (f : Field) : Nat := f.hi + 1 - f.lo

/-- pandatablepart.py 19-32, `get_dtype`: the number of bits of the type of a column. More than 64 bits raise;
here they do not occur as a field cannot span two words -/
def dtypeBits (n : Nat) : Nat := if n ≤ 8 then 8 else if n ≤ 16 then 16 else if n ≤ 32 then 32 else 64

/-- pandatablepart.py 35-40, `get_column_index` -/
def columnIndex (f : Field) : Except Err Nat :=
  if f.hi / 32 = f.lo / 32 then .ok (f.lo / 32) else .error .assertion

/-- pandatablepart.py 91-92, `max(f.bits_hi for f in self.field_data.values())` and `int((max_bits_hi + 31) / 32)` -/
def intsPerRow (fs : List Field) : Nat := ((fs.map (·.hi)).foldl max 0 + 31) / 32

/-- The type of `column_value & mask` in list_from_table (pandatablepart.py 120), as numpy gives it: the number of
bits, and whether it is signed. Labels are looked up to a uint32 array (114); a bool array with an integer mask makes
int64; an unsigned column keeps its type, as the mask fits in it; so does a signed one, unless the mask is as wide as
the type, when the result has the next wider type -/
def arrayType (f : Field) : Nat × Bool :=
  if f.labels ≠ [] then (32, false)
  else if nbits f = 1 then (64, true)
  else
    let w := dtypeBits (nbits f)
    if f.signed then (if nbits f = w then (2 * w, true) else (w, true)) else (w, false)

/-- The value that an integer has in an array of `bits` bits -/
def wrap (bits : Nat) (signed : Bool) (v : Int) : Int :=
  let u := v % (2 ^ bits : Nat)
  if signed ∧ (2 ^ (bits - 1) : Nat) ≤ u then u - (2 ^ bits : Nat) else u

/-- The integer that is masked: pandatablepart.py 110-117. A boolean column holds 0 and 1. A cell of
another kind than its column is excluded by the meta of the table -/
def rawOf (f : Field) (c : Cell) : Except Err Int :=
  if f.labels ≠ [] then
    match c with
    | .choice l => match f.labels.idxOf? l with
      | some i => .ok i
      | none => .error .value
    | _ => .error .value
  else
    match c with
    | .bool b => .ok (if b then 1 else 0)
    | .num v => .ok v
    | .choice _ => .error .value

/-- pandatablepart.py 119-120 and the `astype` of 123: `(column_value & mask) << bits_lo % 32`, as uint32. The bits of
`v & mask` are those of `v % 2**nbits` for negative numbers as well -/
def shifted (f : Field) (v : Int) : Nat :=
  let masked := v % (2 ^ nbits f : Nat)
  let (bits, signed) := arrayType f
  (wrap bits signed (masked * (2 ^ (f.lo % 32) : Nat)) % (2 ^ 32 : Nat)).toNat

/-- pandatablepart.py 122-123: or the value of one column into a row of the matrix. An index past the end raises -/
def orInto (f : Field) (c : Cell) (row : List Nat) : Except Err (List Nat) :=
  match rawOf f c with
  | .error e => .error e
  | .ok v =>
    match columnIndex f with
    | .error e => .error e
    | .ok i => if i < row.length then .ok (row.modify i (· ||| shifted f v)) else .error .index

/-- pandatablepart.py 109-123, for one row: or all columns, in order, into `row` -/
def packRow : List Field → List Cell → List Nat → Except Err (List Nat)
  | f :: fs, c :: cs, row =>
    match orInto f c row with
    | .error e => .error e
    | .ok row' => packRow fs cs row'
  | _, _, row => .ok row

/-- pandatablepart.py 104-126, `list_from_table`. The code goes column by column and this model row by row, which
changes only which of several exceptions is seen -/
def listFromTable (fs : List Field) : List (List Cell) → Except Err (List Nat)
  | [] => .ok []
  | r :: rs =>
    match packRow fs r (List.replicate (intsPerRow fs) 0) with
    | .error e => .error e
    | .ok words =>
      match listFromTable fs rs with
      | .error e => .error e
      | .ok rest => .ok (words ++ rest)

/-- pandatablepart.py 138-152: the value of one column in one row of the matrix -/
def unpackCell (f : Field) (row : List Nat) : Except Err Cell :=
  match columnIndex f with
  | .error e => .error e
  | .ok i =>
    match row[i]? with
    | none => .error .index
    | some word =>
      let v := word / 2 ^ (f.lo % 32) % 2 ^ nbits f
      if f.labels ≠ [] then
        match f.labels[v]? with
        | some l => .ok (.choice l)
        | none => .error .index
      else if nbits f = 1 then .ok (.bool (v != 0))
      else .ok (.num (wrap (dtypeBits (nbits f)) f.signed v))

/-- pandatablepart.py 137-153: one row -/
def unpackRow (row : List Nat) : List Field → Except Err (List Cell)
  | [] => .ok []
  | f :: fs =>
    match unpackCell f row with
    | .error e => .error e
    | .ok c =>
      match unpackRow row fs with
      | .error e => .error e
      | .ok cs => .ok (c :: cs)

/-- pandatablepart.py 130-134: cut the list in `k` rows of `n` words -/
def chunks (n : Nat) : Nat → List Nat → List (List Nat)
  | 0, _ => []
  | k + 1, ws => ws.take n :: chunks n k (ws.drop n)

/-- Every row of the matrix -/
def unpackRows (fs : List Field) : List (List Nat) → Except Err (List (List Cell))
  | [] => .ok []
  | r :: rs =>
    match unpackRow r fs with
    | .error e => .error e
    | .ok c =>
      match unpackRows fs rs with
      | .error e => .error e
      | .ok cs => .ok (c :: cs)

/-- pandatablepart.py 128-155, `table_from_list`: `reshape` raises if the words do not make whole rows. A word is
taken as the uint32 it is sent as -/
def tableFromList (fs : List Field) (ws : List Nat) : Except Err (List (List Cell)) :=
  let n := intsPerRow fs
  if n = 0 then .error .zeroDivision
  else if ws.length / n * n ≠ ws.length then .error .value
  else unpackRows fs (chunks n (ws.length / n) ws)

end Verif.PandATable
