import Verif.Model.PyDict
/-!
Values and the validating metas: malcolm/core/models.py 433-1045, malcolm/core/table.py.

The external packages numpy and annotypes enter as a structure `Ext` of functions with the laws the
code relies on.
-/
namespace Verif.Meta
open Verif

/-- The classes of exception the modelled code raises. -/
inductive Err
  | key | type | value | assertion | index | attribute | notWriteable | field | unexpected
  /-- whatever a user function raised -/
  | user (n : Nat)
  deriving DecidableEq, Repr

deriving instance DecidableEq for Except

/-- models.py 623-634 `_dtype_strings` -/
inductive DType
  | int8 | uint8 | int16 | uint16 | int32 | uint32 | int64 | uint64 | float32 | float64
  deriving DecidableEq, Repr

/-- A Python value with no structure. `num` is a numpy scalar: its dtype and its bit pattern;
`float` a Python float; `enum` a member of an `Enum` class with a string value. -/
inductive Scalar
  | none
  | bool (b : Bool)
  | int (n : Int)
  | float (bits : Nat)
  | str (s : String)
  | enum (cls value : String)
  | num (d : DType) (bits : Nat)
  deriving DecidableEq, Repr

/-- The `typ` of an annotypes `Array`. -/
inductive ElTyp
  | bool | str | enum (cls : String) | num (d : DType)
  deriving DecidableEq, Repr

/-- A scalar, a Python list, a bare numpy array or an annotypes `Array`. For `arr`, `np` says that
the `Array` wraps a numpy array of dtype `t`, not a list.
Simplification: sequences of sequences are not modelled. -/
inductive Col
  | scalar (x : Scalar)
  | list (xs : List Scalar)
  | nd (t : ElTyp) (xs : List Scalar)
  | arr (t : ElTyp) (np : Bool) (xs : List Scalar)
  deriving DecidableEq, Repr

/-- A value that can be put: one of the above, a dictionary (a serialized table) or a `Table`. -/
inductive Val
  | col (c : Col)
  | dict (d : Dict String Col)
  | table (d : Dict String Col)
  deriving DecidableEq, Repr

/-- The value has the Python type that `t` names. -/
def Scalar.hasTyp : ElTyp → Scalar → Bool
  | .bool, .bool _ => true
  | .str, .str _ => true
  | .enum c, .enum c' _ => c = c'
  | .num d, .num d' _ => d = d'
  | _, _ => false

/-- What the model assumes of numpy, annotypes and `str`. -/
structure Ext where
  /-- `np.<dtype>(x)` and the element-wise cast of `np.array(xs, dtype=t)` -/
  cast : ElTyp → Scalar → Except Err Scalar
  cast_typed : ∀ t x y, cast t x = .ok y → y.hasTyp t = true
  cast_id : ∀ t y, y.hasTyp t = true → cast t y = .ok y
  /-- `None` is replaced by `0` before the cast (models.py 683-684): numpy can represent 0 -/
  cast_zero : ∀ d, ∃ y, cast (.num d) (.int 0) = .ok y
  /-- `bool(x)` for floats and numpy scalars -/
  truthyNum : Scalar → Bool
  /-- the integer a float or numpy scalar is equal to (and hashes like), if any -/
  asInt : Scalar → Option Int
  /-- `str(value)` -/
  str : Val → String
  /-- `to_array(Array[t], x)` of something that is neither a sequence, an `Array`, a string nor
  `None`, and of a numpy array of another dtype: whether annotypes accepts it by wrapping it -/
  wraps : Bool

/-- Keys of a Python dictionary: `True == 1 == 1.0 == np.int32(1)` are one key. -/
inductive Key
  | none | int (n : Int) | str (s : String) | enum (cls value : String) | other (x : Scalar)
  deriving DecidableEq, Repr

def Ext.keyOf (e : Ext) : Scalar → Key
  | .none => .none
  | .bool b => .int (if b then 1 else 0)
  | .int n => .int n
  | .str s => .str s
  | .enum c v => .enum c v
  | x => match e.asInt x with
    | some n => .int n
    | .none => .other x

/-- `bool(x)` -/
def Ext.truthy (e : Ext) : Scalar → Bool
  | .none => false
  | .bool b => b
  | .int n => n ≠ 0
  | .str s => s ≠ ""
  | .enum _ _ => true
  | x => e.truthyNum x

/-- models.py 433 -/
def falseStrings : List String := ["0", "False", "false", "FALSE", "No", "no", "NO"]

/-- The choices of a ChoiceMeta: strings, or members of one Enum class with these string values
(models.py 489-537 reject mixtures: `set_endpoint_data` checks each element). -/
inductive Choices
  | strs (l : List String)
  | enums (cls : String) (l : List String)
  deriving DecidableEq, Repr

/-- The choices as values, in order -/
def Choices.values : Choices → List Scalar
  | .strs l => l.map .str
  | .enums c l => l.map (.enum c)

/-- models.py 528-533 `enum_cls` -/
def Choices.typ : Choices → ElTyp
  | .strs _ => .str
  | .enums c _ => .enum c

/-- models.py 506-520: the entries of one choice, in the order they are assigned -/
def choiceEntries (i : Nat) : Scalar → List (Key × Scalar)
  | .enum c v => [(.str v, .enum c v), (.enum c v, .enum c v), (.int i, .enum c v)]
  | .str s => [(.str s, .str s), (.int i, .str s)]
  | _ => []

/-- models.py 496-520: the loop over the choices -/
def choiceLoop : Nat → List Scalar → Dict Key Scalar → Dict Key Scalar
  | _, [], d => d
  | i, c :: cs, d => choiceLoop (i + 1) cs (Dict.update d (choiceEntries i c))

/-- models.py 489-526 `set_choices`: the lookup table -/
def Choices.lookup (c : Choices) : Dict Key Scalar :=
  Dict.set (choiceLoop 0 c.values []) .none (c.values.head?.getD (.str ""))

/-- models.py 539-545 `ChoiceMeta.validate` for a hashable value -/
def Ext.choose (e : Ext) (c : Choices) (x : Scalar) : Except Err Scalar :=
  match Dict.get? c.lookup (e.keyOf x) with
  | some y => .ok y
  | .none => .error .value

/-- `for x in value` -/
def Val.iter : Val → Except Err (List Scalar)
  | .col (.scalar (.str s)) => .ok (s.toList.map (fun ch => .str ch.toString))
  | .col (.scalar _) => .error .type
  | .col (.list xs) => .ok xs
  | .col (.nd _ xs) => .ok xs
  | .col (.arr _ _ xs) => .ok xs
  | .dict d => .ok (d.keys.map .str)
  | .table d => .ok (d.keys.map .str)

/-- Map a function that may raise over a list, stopping at the first error. -/
def mapE {A B : Type} (f : A → Except Err B) : List A → Except Err (List B)
  | [] => .ok []
  | a :: as => match f a with
    | .error e => .error e
    | .ok b => match mapE f as with
      | .error e => .error e
      | .ok bs => .ok (b :: bs)

/-- annotypes `to_array(Array[t], value)` (not in /repo): `None` gives an empty Array, an Array is
returned if its `typ` matches and refused otherwise, a string is wrapped in a list, a sequence is
wrapped as it is. A numpy array of another dtype and a bare value: see `Ext.wraps`. -/
def Ext.toArray (e : Ext) (t : ElTyp) : Val → Except Err Col
  | .col (.scalar .none) => .ok (.arr t false [])
  | .col (.scalar (.str s)) => .ok (.arr t false [.str s])
  | .col (.scalar x) => if e.wraps then .ok (.arr t false [x]) else .error .assertion
  | .col (.list xs) => .ok (.arr t false xs)
  | .col (.nd t' xs) =>
    if t' = t then .ok (.arr t true xs)
    else if e.wraps then .ok (.arr t false xs) else .error .assertion
  | .col (.arr t' np xs) => if t' = t then .ok (.arr t np xs) else .error .assertion
  | .dict _ => .error .assertion
  | .table _ => .error .assertion

/-- models.py 738-751 `to_np_array`. A string is a Sequence, but numpy makes an array without
dimensions of it, which cannot be used as a column: it is an error here. -/
def Ext.toNpArray (e : Ext) (t : ElTyp) : Val → Except Err Col
  | .col (.arr t' np xs) =>
    if np = true ∧ t' = t then .ok (.arr t' np xs)
    else match mapE (e.cast t) xs with
      | .error er => .error er
      | .ok ys => .ok (.arr t true ys)
  | .col (.list xs) =>
    match mapE (e.cast t) xs with
    | .error er => .error er
    | .ok ys => .ok (.arr t true ys)
  | .col (.scalar (.str _)) => .error .value
  | v => e.toArray t v

/-- The array metas (models.py 754-833). -/
inductive ArrMeta
  | bool | num (d : DType) | str | choice (c : Choices)
  deriving DecidableEq, Repr

def ArrMeta.typ : ArrMeta → ElTyp
  | .bool => .bool
  | .num d => .num d
  | .str => .str
  | .choice c => c.typ

/-- models.py 783-784: a string is made a list of one -/
def choiceArg : Val → Val
  | .col (.scalar (.str s)) => .col (.list [.str s])
  | v => v

/-- models.py 778-804 `ChoiceArrayMeta.validate` -/
def Ext.validateChoiceArray (e : Ext) (c : Choices) (v : Val) : Except Err Col :=
  match v with
  | .col (.scalar .none) => .ok (.arr c.typ false [])
  | _ =>
    match (choiceArg v).iter with
    | .error er => .error er
    | .ok xs =>
      match mapE (e.choose c) xs with
      | .error er => .error er
      | .ok ys =>
        match v with
        | .col (.arr t np xs) =>
          if t = c.typ ∧ xs.map e.keyOf = ys.map e.keyOf then .ok (.arr t np xs)
          else .ok (.arr c.typ false ys)
        | _ => .ok (.arr c.typ false ys)

/-- models.py 828-833 `StringArrayMeta.validate` -/
def Ext.validateStringArray (e : Ext) (v : Val) : Except Err Col :=
  match e.toArray .str v with
  | .error er => .error er
  | .ok (.arr t np xs) =>
    if xs.all (fun x => x.hasTyp .str) then .ok (.arr t np xs) else .error .assertion
  | .ok _ => .error .assertion

/-- The array metas' `validate` (models.py 759, 778, 815, 828) -/
def Ext.validateArr (e : Ext) (m : ArrMeta) (v : Val) : Except Err Col :=
  match m with
  | .bool => e.toNpArray .bool v
  | .num d => e.toNpArray (.num d) v
  | .str => e.validateStringArray v
  | .choice c => e.validateChoiceArray c v

/-- A `VMeta` -/
inductive VMeta
  | bool | num (d : DType) | str | choice (c : Choices)
  | arr (m : ArrMeta)
  | table (elements : Dict String ArrMeta)
  deriving DecidableEq, Repr

/-- models.py 444-449 `BooleanMeta.validate`; a list, dictionary, Array or Table is not hashable, so
`value in FALSE_STRINGS` raises TypeError. -/
def Ext.validateBool (e : Ext) : Val → Except Err Val
  | .col (.scalar (.str s)) =>
    .ok (.col (.scalar (.bool (if s ∈ falseStrings then false else s ≠ ""))))
  | .col (.scalar x) => .ok (.col (.scalar (.bool (e.truthy x))))
  | _ => .error .type

/-- models.py 681-686 `NumberMeta.validate`. numpy scalar types called with a sequence give a numpy
array. -/
def Ext.validateNum (e : Ext) (d : DType) : Val → Except Err Val
  | .col (.scalar x) =>
    match e.cast (.num d) (if x = .none then .int 0 else x) with
    | .error er => .error er
    | .ok y => .ok (.col (.scalar y))
  | .col (.list xs) | .col (.nd _ xs) | .col (.arr _ _ xs) =>
    match mapE (e.cast (.num d)) xs with
    | .error er => .error er
    | .ok ys => .ok (.col (.nd (.num d) ys))
  | .dict _ => .error .type
  | .table _ => .error .type

/-- models.py 712-719 `StringMeta.validate` -/
def Ext.validateStr (e : Ext) : Val → Except Err Val
  | .col (.scalar .none) => .ok (.col (.scalar (.str "")))
  | .col (.scalar (.str s)) => .ok (.col (.scalar (.str s)))
  | v => .ok (.col (.scalar (.str (e.str v))))

/-- models.py 539-545 `ChoiceMeta.validate` -/
def Ext.validateChoice (e : Ext) (c : Choices) : Val → Except Err Val
  | .col (.scalar x) =>
    match e.choose c x with
    | .error er => .error er
    | .ok y => .ok (.col (.scalar y))
  | _ => .error .type

/-- `len(x)` of an Array -/
def Col.length : Col → Nat
  | .scalar _ => 0
  | .list xs | .nd _ xs | .arr _ _ xs => xs.length

/-- table.py 8-10 `validate_column_lengths`: the set of lengths has exactly one element -/
def columnLengthsOk (d : Dict String Col) : Bool :=
  match d.values.map Col.length with
  | [] => false
  | n :: ns => ns.all (· = n)

/-- models.py 922: the loop over `self.elements`, validating `value[k]` -/
def Ext.validateColumns (e : Ext) (value : Dict String Col) :
    Dict String ArrMeta → Except Err (Dict String Col)
  | [] => .ok []
  | (k, m) :: rest =>
    match Dict.get? value k with
    | .none => .error .key
    | some c =>
      match e.validateArr m (.col c) with
      | .error er => .error er
      | .ok c' =>
        match e.validateColumns value rest with
        | .error er => .error er
        | .ok d => .ok ((k, c') :: d)

/-- models.py 908-915: the dictionary to be checked -/
def tableArg (elements : Dict String ArrMeta) : Val → Except Err (Dict String Col)
  | .col (.scalar .none) => .ok (elements.map (fun kv => (kv.1, .scalar .none)))
  | .table d => .ok d
  | .dict d => .ok d
  | .col _ => .error .value

/-- models.py 907-932 `TableMeta.validate`. The table class stores its arguments (the check at
928-931 that it wraps them in Arrays always passes for values the array metas return). -/
def Ext.validateTable (e : Ext) (elements : Dict String ArrMeta) (v : Val) : Except Err Val :=
  match tableArg elements v with
  | .error er => .error er
  | .ok value =>
    let keys := value.keys.filter (· ≠ "typeid")
    if elements.keys.any (fun k => !decide (k ∈ keys)) then .error .assertion
    else if keys.any (fun k => !decide (k ∈ elements.keys)) then .error .assertion
    else match e.validateColumns value elements with
      | .error er => .error er
      | .ok cols => if columnLengthsOk cols then .ok (.table cols) else .error .assertion

/-- `meta.validate(value)` -/
def Ext.validate (e : Ext) (m : VMeta) (v : Val) : Except Err Val :=
  match m with
  | .bool => e.validateBool v
  | .num d => e.validateNum d v
  | .str => e.validateStr v
  | .choice c => e.validateChoice c v
  | .arr m =>
    match e.validateArr m v with
    | .error er => .error er
    | .ok c => .ok (.col c)
  | .table elements => e.validateTable elements v

/-! ### Tables as rows (table.py 23-36) -/

/-- table.py 25-28: `for key, data in zip(call_types, row): attrs[key].append(data)`.
The columns are kept in the order of `call_types`. -/
def appendRow : List (List Scalar) → List Scalar → List (List Scalar)
  | c :: cs, x :: xs => (c ++ [x]) :: appendRow cs xs
  | cs, _ => cs

/-- table.py 23-30 `from_rows`: the columns of the new table, one per name -/
def fromRows (names : List String) (rows : List (List Scalar)) : List (List Scalar) :=
  rows.foldl appendRow (names.map (fun _ => []))

/-- `zip(*data)` -/
def zipRows : List (List Scalar) → List (List Scalar)
  | [] => []
  | [c] => c.map (fun x => [x])
  | c :: cs => List.zipWith (fun x r => x :: r) c (zipRows cs)

/-- table.py 32-36 `rows`; raises AssertionError if the columns differ in length (or there are none) -/
def rowsOf (cols : List (List Scalar)) : Except Err (List (List Scalar)) :=
  match cols.map List.length with
  | [] => .error .assertion
  | n :: ns => if ns.all (· = n) then .ok (zipRows cols) else .error .assertion

/-- `column[i]` -/
def cellAt (i : Nat) (c : List Scalar) : Except Err Scalar :=
  match c[i]? with
  | some x => .ok x
  | .none => .error .index

/-- table.py 12-21 `table[i]` for an integer -/
def rowAt (cols : List (List Scalar)) (i : Nat) : Except Err (List Scalar) :=
  match cols.map List.length with
  | [] => .error .assertion
  | n :: ns =>
    if ns.all (· = n) then
      mapE (cellAt i) cols
    else .error .assertion

/-! ### Maps of metas (models.py 995-1045) -/

/-- A MapMeta: names with their metas, and the required ones -/
structure MapMeta where
  elements : Dict String VMeta
  required : List String
  deriving DecidableEq, Repr

/-- models.py 1035-1040: the loop over the elements -/
def Ext.mapLoop (e : Ext) (params : Dict String Val) (addMissing : Bool) :
    Dict String VMeta → Except Err (Dict String Val)
  | [] => .ok []
  | (k, m) :: rest =>
    match Dict.get? params k with
    | some v =>
      match e.validate m v with
      | .error er => .error er
      | .ok w =>
        match e.mapLoop params addMissing rest with
        | .error er => .error er
        | .ok d => .ok ((k, w) :: d)
    | .none =>
      if addMissing then
        match e.validate m (.col (.scalar .none)) with
        | .error er => .error er
        | .ok w =>
          match e.mapLoop params addMissing rest with
          | .error er => .error er
          | .ok d => .ok ((k, w) :: d)
      else e.mapLoop params addMissing rest

/-- models.py 1023-1045 `MapMeta.validate` -/
def Ext.validateMap (e : Ext) (mm : MapMeta) (params : Dict String Val) (addMissing : Bool) :
    Except Err (Dict String Val) :=
  if params.keys.any (fun k => !decide (k ∈ mm.elements.keys)) then .error .assertion
  else match e.mapLoop params addMissing mm.elements with
    | .error er => .error er
    | .ok args =>
      if mm.required.any (fun r => !decide (r ∈ args.keys)) then .error .assertion else .ok args

end Verif.Meta
