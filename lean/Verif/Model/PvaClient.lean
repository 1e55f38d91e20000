import Verif.Model.Pva
/-!
The local copy of a remote block over pvAccess: malcolm/modules/pva/controllers/pvaclientcomms.py 34-148, with
`BlockModel` and `apply_change` of malcolm/core/models.py (131-141, 375-379, 1265-1320).

p4p enters in three places. A monitor gives the whole value of the channel with the names of the fields that were stored
since the last one. Storing a structure stores, and so marks, each thing in it that is not a structure. A monitor whose
callback raises is closed.

Simplified: the object made from a serialized value is the value (`Py`), and which typeids are those of a Model is a parameter;
whether the setter of a Model takes a value is a parameter (`Acc`), and it then holds the value as it was given.
-/
namespace Verif.PvaClient
open Verif Verif.Pva

/-- The typeids of subclasses of Model -/
abbrev Models := String → Bool

/-- `isinstance(ob, Model)` -/
def isModel (m : Models) : Py → Bool
  | .dict (some t) _ => m t
  | _ => false

/-- pvaclientcomms.py 37-42: a Model, or a dictionary (an object with a typeid is none) in which all are Models -/
def recursed (m : Models) : Py → Bool
  | .dict (some t) _ => m t
  | .dict none fs => fs.all (fun f => isModel m f.2)
  | _ => false

mutual
/-- 34-48 `_update_settable_fields`: the paths it adds, `pre` being the path of the object -/
def terminals (m : Models) (pre : List String) : Py → List (List String)
  | .dict t fs => if recursed m (.dict t fs) then terminalsIn m pre fs else [pre]
  | _ => [pre]
/-- 44-45 -/
def terminalsIn (m : Models) (pre : List String) : List (String × Py) → List (List String)
  | [] => []
  | (k, v) :: fs => terminals m (pre ++ [k]) v ++ terminalsIn m pre fs
end

/-- The local block, `update_fields`, and whether the monitor is not closed -/
structure Client where
  fields : List (String × Py)
  update : List (List String) := []
  alive : Bool := true

/-- A new field is last -/
def setOrAdd : List (String × Py) → String → Py → List (String × Py)
  | [], n, x => [(n, x)]
  | (k, v) :: fs, n, x => if k = n then (k, x) :: fs else (k, v) :: setOrAdd fs n x

/-- The fields of a field that are replaced -/
def setIn (fs : List (String × Py)) (k : String) (news : List (String × Py)) : List (String × Py) :=
  match field fs k with
  | some (.dict t gs) => setField fs k (.dict t (news.foldl (fun gs n => setField gs n.1 n.2) gs))
  | _ => fs

/-- models.py 1311-1312 `_update_fields` -/
def updateFields (fs : List (String × Py)) : List (String × Py) :=
  setIn fs "meta" [("fields", .strs ((fs.map (·.1)).filter (· ≠ "meta")))]

/-- `v[n]` for each of the names; `none` is the KeyError -/
def take (v : Py) : List String → Option (List (String × Py))
  | [] => some []
  | n :: ns =>
    match v.get n, take v ns with
    | some x, some xs => some ((n, x) :: xs)
    | _, _ => none

/-- pvaclientcomms.py 94-109, one turn of the loop: the health, the settings of the block (models.py 1274-1275), or a new
field, which must be a Model -/
def takeField (m : Models) (fs : List (String × Py)) (k : String) (v : Py) : Option (List (String × Py)) :=
  if k = "health" then (take v ["value", "alarm", "timeStamp"]).map (setIn fs "health")
  else if k = "meta" then (take v ["description", "tags", "writeable", "label", "fields"]).map (setIn fs "meta")
  else if isModel m v then some (updateFields (setOrAdd fs k v))
  else none

/-- 93-111: the loop; what comes after an exception is not done -/
def takeFields (m : Models) (c : Client) : List (String × Pv) → Client
  | [] => c
  | (k, v) :: vs =>
    match takeField m c.fields k (back v) with
    | none => { c with alive := false }
    | some fs => takeFields m { c with
        fields := fs
        update := c.update ++ (match field fs k with
          | some x => terminals m [k] x
          | none => []) } vs

/-- 90-92 with models.py 1314-1320: all fields but these two are removed -/
def onlyOwn (fs : List (String × Py)) : List (String × Py) :=
  updateFields (fs.filter (fun f => f.1 = "health" ∨ f.1 = "meta"))

/-- 85-111 `_regenerate_block` -/
def regenerate (m : Models) (c : Client) : Pv → Client
  | .struct _ vs => takeFields m { c with fields := onlyOwn c.fields } vs
  | _ => { c with alive := false }

/-- `value["a.b.c"]` -/
def atPv : Pv → List String → Option Pv
  | v, [] => some v
  | .struct _ fs, k :: ks =>
    match field fs k with
    | none => none
    | some v => atPv v ks
  | _, _ :: _ => none

/-- models.py 131-141, 375-379 `apply_change` below a field of the block: all on the way must be Models -/
def applyAt (m : Models) (u : Py) : Py → List String → Option Py
  | .dict t fs, [k] =>
    if isModel m (.dict t fs) then
      match field fs k with
      | none => none
      | some _ => some (.dict t (setField fs k u))
    else none
  | .dict t fs, k :: l :: ks =>
    if isModel m (.dict t fs) then
      match field fs k with
      | none => none
      | some v => (applyAt m u v (l :: ks)).map (fun x => .dict t (setField fs k x))
    else none
  | _, _ => none

/-- models.py 131-141 for the block itself, which has no setters -/
def applyChange (m : Models) (u : Py) (fs : List (String × Py)) : List String → Option (List (String × Py))
  | k :: l :: ks =>
    match field fs k with
    | none => none
    | some v => (applyAt m u v (l :: ks)).map (fun x => setField fs k x)
  | _ => none

/-- Whether the setter at the path takes the value, in the block as it is: `validate` and the checks of models.py 78-129 -/
abbrev Acc := List (String × Py) → List String → Py → Bool

/-- pvaclientcomms.py 118-122: one turn of the loop -/
def applyOne (m : Models) (acc : Acc) (value : Pv) (c : Client) (p : List String) : Client :=
  if c.alive then
    match atPv value p with
    | none => { c with alive := false }
    | some v =>
      if acc c.fields p (back v) then
        match applyChange m (back v) c.fields p with
        | none => { c with alive := false }
        | some fs => { c with fields := fs }
      else { c with alive := false }
  else c

/-- `changedSet(parents=True, expand=False)`: what was stored, and all that it is in -/
def changedSet (stored : List (List String)) (p : List String) : Bool := stored.any (fun s => p.isPrefixOf s)

/-- 113-122 `_update_block`. The set is gone through in some order, which is a parameter. -/
def updateBlock (m : Models) (acc : Acc) (order : List (List String) → List (List String)) (c : Client) (value : Pv)
    (stored : List (List String)) : Client :=
  (order (c.update.filter (changedSet stored))).foldl (applyOne m acc value) c

/-- What the callback is called with: Disconnected (`now` is the time, in seconds and nanoseconds), another exception, or a value
with what was stored since the last one -/
inductive Msg
  | disconnected (now : Int × Int)
  | other
  | value (v : Pv) (stored : List (List String))

/-- alarm.py 66-68 as it is serialized -/
def disconnectedAlarm : Py :=
  .dict (some "alarm_t") [("severity", .alarm 4), ("status", .alarm 7), ("message", .str "pvAccess disconnected")]

/-- timestamp.py 20-39 as it is serialized -/
def timeStamp (now : Int × Int) : Py :=
  .dict (some "time_t") [("secondsPastEpoch", .num "l" now.1), ("nanoseconds", .num "i" now.2), ("userTag", .num "i" 0)]

/-- pvaclientcomms.py 62-79 `callback` -/
def callback (m : Models) (acc : Acc) (order : List (List String) → List (List String)) (c : Client) (msg : Msg) : Client :=
  if c.alive then
    match msg with
    | .disconnected now => { c with
        update := []
        fields := setIn c.fields "health" [("value", .str "pvAccess disconnected"), ("alarm", disconnectedAlarm), ("timeStamp", timeStamp now)] }
    | .other => c
    | .value v stored => if c.update = [] then regenerate m c v else updateBlock m acc order c v stored
  else c

/-! ### what the server stores -/

mutual
/-- What is stored when a value is: each thing in it that is not a structure -/
def leaves : Pv → List (List String)
  | .struct _ fs => leavesIn fs
  | _ => [[]]
def leavesIn : List (String × Pv) → List (List String)
  | [] => []
  | (k, v) :: fs => (leaves v).map (k :: ·) ++ leavesIn fs
end

/-- pvaservercomms.py 221-235 with pvaconvert.py 146-150: what is stored for the changes of a Delta -/
def storedBy : List Change → List (List String)
  | [] => []
  | (p, u) :: cs => (match u.bind conv with
    | some w => (leaves w).map (p ++ ·)
    | none => []) ++ storedBy cs

/-! ### puts -/

/-- pvaclientcomms.py 124-148 `send_put`: what the server is sent, the value of the attribute with what it is in, and what is
changed in it. Simplified: a table in which nothing changes is left out. `none` is an exception. -/
def sendPut (a : String) (v : Py) : Option PutOp :=
  match conv v with
  | none => none
  | some w => some { changed := [a, a ++ ".value"], value := .struct "structure" [(a, .struct "structure" [("value", w)])] }

end Verif.PvaClient
