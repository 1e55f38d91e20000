import Verif.Model.PyDict
/-!
The pvAccess bridge: malcolm/modules/pva/controllers/pvaconvert.py, and `BlockHandler` of pvaservercomms.py 32-262.

p4p enters in two places. A `Value` is a tree with a type at each node, and keeps what it is made from. Assignment to a field
keeps the type of the field: a structure takes the fields of a dictionary one by one, refusing unknown ones and leaving the
others; a value of another type is converted or refused, which is a parameter (`Ext`).

Simplified: numbers are integers with a type specifier; the notifier hands over the values of a Delta as they were when it was
sent (C02); the calls of p4p come one at a time, as they take the lock of the handler.
-/
namespace Verif.Pva
open Verif

/-- What a block is made of -/
inductive Py
  | none
  | str (s : String)
  /-- an Enum with a string value -/
  | enum (s : String)
  /-- AlarmSeverity or AlarmStatus -/
  | alarm (n : Int)
  | num (spec : String) (x : Int)
  /-- a numpy array or an annotypes Array of numbers -/
  | nums (spec : String) (xs : List Int)
  | strs (xs : List String)
  | enums (xs : List String)
  /-- a list, or an Array of objects -/
  | objs (vs : List Py)
  /-- a dictionary or an object with `to_dict`; its `typeid` is kept apart -/
  | dict (typeid : Option String) (fields : List (String × Py))

/-- `p4p.Value` and what it can hold -/
inductive Pv
  | str (s : String)
  | num (spec : String) (x : Int)
  | nums (spec : String) (xs : List Int)
  | strs (xs : List String)
  /-- a list of variants -/
  | any (vs : List Pv)
  | struct (id : String) (fields : List (String × Pv))

/-- core/models.py 382 -/
def ntTable : String := "epics:nt/NTTable:1.0"

/-- pvaconvert.py 15-34 `type_specifiers`, but for strings -/
def specs : List String := ["?", "b", "B", "h", "H", "i", "I", "l", "L", "f", "d"]

/-- A field of a dictionary -/
def field {α : Type} : List (String × α) → String → Option α
  | [], _ => none
  | (k, v) :: fs, n => if k = n then some v else field fs n

/-- `value[name]` -/
def Py.get : Py → String → Option Py
  | .dict _ fs, n => field fs n
  | _, _ => Option.none

/-- pvaconvert.py 74-79: the label of a column -/
def labelOf (name : String) (m : Py) : Option String :=
  match m.get "label" with
  | some (.str s) => if s = "" then some name else some s
  | _ => none

/-- 69-81: the labels of a table -/
def labels (fields : List (String × Py)) : Option (List String) :=
  match (field fields "meta").bind (Py.get · "elements") with
  | some (.dict _ els) => els.mapM (fun e => labelOf e.1 e.2)
  | _ => none

/-- 80-84, with the labels in front if it is a table. The type cannot have two fields of a name (`Type` raises). -/
def withLabels (typeid : Option String) (fields : List (String × Py)) (fs : List (String × Pv)) : Option (List (String × Pv)) :=
  if typeid = some ntTable then
    match labels fields with
    | some ls => if (field fs "labels").isSome then none else some (("labels", .strs ls) :: fs)
    | none => none
  else some fs

/-- 118-128 `convert_dict_to_value` on an element, given what 37-98 make of it: None is an empty structure, and what is not
a dictionary cannot be unpacked -/
def asObj : Py → Option Pv → Option Pv
  | .none, _ => some (.struct "structure" [])
  | .dict _ _, c => c
  | _, _ => none

mutual
/-- 37-98 `convert_to_type_tuple_value`, which gives the type and the value. `none` is an exception. -/
def conv : Py → Option Pv
  | .none => none
  | .str s => some (.str s)
  | .enum s => some (.str s)
  | .alarm n => some (.num "i" n)
  | .num spec x => if spec ∈ specs then some (.num spec x) else none
  | .nums spec xs => if spec ∈ specs then some (.nums spec xs) else none
  | .strs xs => some (.strs xs)
  | .enums xs => some (.strs xs)
  | .objs vs => (convObjs vs).map .any
  | .dict typeid fields =>
    match convFields fields with
    | none => none
    | some fs => (withLabels typeid fields fs).map (.struct (typeid.getD "structure"))
/-- 46-48, 58-60 -/
def convObjs : List Py → Option (List Pv)
  | [] => some []
  | v :: vs =>
    match asObj v (conv v), convObjs vs with
    | some w, some ws => some (w :: ws)
    | _, _ => none
/-- 82-86 -/
def convFields : List (String × Py) → Option (List (String × Pv))
  | [] => some []
  | (k, v) :: fs =>
    match conv v, convFields fs with
    | some w, some ws => some ((k, w) :: ws)
    | _, _ => none
end

mutual
/-- 131-143 `convert_value_to_dict`, 101-115 `convert_from_type_spec` -/
def back : Pv → Py
  | .str s => .str s
  | .num spec x => .num spec x
  | .nums spec xs => .nums spec xs
  | .strs xs => .strs xs
  | .any vs => .objs (backList vs)
  | .struct id fs => .dict (if id = "structure" then none else some id) (backFields (id = ntTable) fs)
def backList : List Pv → List Py
  | [] => []
  | v :: vs => back v :: backList vs
/-- 138-142 -/
def backFields (table : Bool) : List (String × Pv) → List (String × Py)
  | [] => []
  | (k, v) :: fs => if table = true ∧ k = "labels" then backFields table fs else (k, back v) :: backFields table fs
end

/-- How p4p converts a value to the type of a field of another type, if it does -/
abbrev Ext := Pv → Pv → Option Pv

/-- the other fields stay -/
def setField {α : Type} : List (String × α) → String → α → List (String × α)
  | [], _, _ => []
  | (k, v) :: fs, n, x => if k = n then (k, x) :: fs else (k, v) :: setField fs n x

mutual
/-- `value[name] = update` of p4p, on what the field held -/
def store (ext : Ext) : Pv → Pv → Option Pv
  | old, .str s => match old with
    | .str _ => some (.str s)
    | _ => ext old (.str s)
  | old, .num spec x => match old with
    | .num spec' _ => if spec = spec' then some (.num spec x) else ext old (.num spec x)
    | _ => ext old (.num spec x)
  | old, .nums spec xs => match old with
    | .nums spec' _ => if spec = spec' then some (.nums spec xs) else ext old (.nums spec xs)
    | _ => ext old (.nums spec xs)
  | old, .strs xs => match old with
    | .strs _ => some (.strs xs)
    | _ => ext old (.strs xs)
  | old, .any vs => match old with
    | .any _ => some (.any vs)
    | _ => ext old (.any vs)
  | old, .struct id fs => match old with
    | .struct id' fs' => (storeFields ext fs' fs).map (.struct id')
    | _ => ext old (.struct id fs)
/-- each field of the dictionary -/
def storeFields (ext : Ext) : List (String × Pv) → List (String × Pv) → Option (List (String × Pv))
  | old, [] => some old
  | old, (k, v) :: fs =>
    match field old k with
    | none => none
    | some o =>
      match store ext o v with
      | none => none
      | some x => storeFields ext (setField old k x) fs
end

/-- 146-150 `update_path`, for a path that is not empty -/
def updatePath (ext : Ext) (new : Pv) : Pv → List String → Option Pv
  | .struct id fs, [k] =>
    match field fs k with
    | none => none
    | some o => (store ext o new).map (fun x => .struct id (setField fs k x))
  | .struct id fs, k :: ks =>
    match field fs k with
    | none => none
    | some o => (updatePath ext new o ks).map (fun x => .struct id (setField fs k x))
  | _, _ => none

/-- A change in a Delta; without a value it is a deletion -/
abbrev Change := List String × Option Py

/-- What the handler is sent -/
inductive Resp
  | delta (changes : List Change)
  /-- Return or Error -/
  | other

/-- pvaservercomms.py 33-40 -/
structure Handler where
  /-- `self.pv` is set -/
  pv : Bool := false
  /-- `self.value` -/
  value : Option Pv := none
  /-- `self.pv.isOpen()` -/
  isOpen : Bool := false
  /-- `self.put_paths` -/
  putPaths : List String := []
  /-- what the clients were sent last -/
  shown : Option Pv := none

/-- core/models.py 1212 and 1259 -/
def unputtable : List String := ["malcolm:core/Method:1.1", "malcolm:core/BlockMeta:1.0"]

/-- `v.getID()`; what is not a structure has none -/
def Pv.id : Pv → Option String
  | .struct i _ => some i
  | _ => none

/-- 206-216: the paths of a block that can be put, or of a field -/
def putPaths (isField : Bool) (v : Pv) : List String :=
  if isField then
    match v.id with
    | some i => if i ∈ unputtable then [] else ["value"]
    | none => []
  else
    match v with
    | .struct _ fs => (fs.filter (fun f => match f.2.id with
        | some i => decide (i ∉ unputtable)
        | none => false)).map (fun f => f.1 ++ ".value")
    | _ => []

/-- 197-219 `_create_initial_value` -/
def createInitial (isField : Bool) (h : Handler) : List Change → Option Handler
  | [([], some u)] =>
    match asObj u (conv u) with
    | none => none
    | some v => some { h with value := some v, putPaths := putPaths isField v, isOpen := true, shown := some v }
  | _ => none

/-- 225-232: the changes one after the other -/
def updateAll (ext : Ext) : Pv → List Change → Option Pv
  | v, [] => some v
  | v, (p, u) :: cs =>
    match u, p with
    | none, _ => none
    | some _, [] => none
    | some u, p =>
      match conv u with
      | none => none
      | some w =>
        match updatePath ext w v p with
        | none => none
        | some v' => updateAll ext v' cs

/-- 221-235 `_update_value` -/
def updateValue (ext : Ext) (h : Handler) (v : Pv) (cs : List Change) : Option Handler :=
  if cs = [] then none
  else
    match updateAll ext v cs with
    | none => none
    | some v' => some { h with value := some v', shown := some v' }

/-- 171-195 `handle` -/
def handle (ext : Ext) (isField : Bool) (h : Handler) (r : Resp) : Handler :=
  if h.pv then
    match r with
    | .other => { h with isOpen := false }
    | .delta cs =>
      match h.value with
      | none => (createInitial isField h cs).getD { h with isOpen := false }
      | some v => if h.isOpen then (updateValue ext h v cs).getD { h with isOpen := false } else h
  else h

/-- 239-249 `onFirstConnect`: then it subscribes -/
def connect (h : Handler) : Handler := { h with pv := true }

/-- 253-262 `onLastDisconnect`: then it unsubscribes -/
def disconnect (h : Handler) : Handler := { h with pv := false, value := none, isOpen := false }

/-- What a client puts: the dotted names of what it changed with those of all that it is in (`changedSet`), and the value -/
structure PutOp where
  changed : List String
  value : Pv

/-- where `a.b` is cut; a name without a dot and a longer one fail the check of line 147 -/
def cut (attrs : List String) (changed : String) : Option String := attrs.find? (fun a => a ++ ".value" = changed)

/-- 115-169 `put`: the path and the value of the request, `none` if it is refused. Simplified: `split(".")` of a name of
`put_paths` is the name of the attribute and `value`, as names of attributes have no dots (C54). -/
def put (isField : Bool) (h : Handler) (fieldName : String) (op : PutOp) : Option (List String × Py) :=
  match h.putPaths.filter (· ∈ op.changed) with
  | [c] =>
    if isField then
      if c = "value" then
        match back op.value with
        | .dict _ fs => (field fs "value").map (fun v => ([fieldName, "value"], v))
        | _ => none
      else none
    else
      match h.value with
      | some (.struct _ fs) =>
        match cut (fs.map (·.1)) c with
        | none => none
        | some a =>
          match op.value with
          | .struct _ gs =>
            match field gs a with
            | some (.struct i hs) => ((back (.struct i hs)).get "value").map (fun v => ([a, "value"], v))
            | _ => none
          | _ => none
      | _ => none
  | _ => none

end Verif.Pva
