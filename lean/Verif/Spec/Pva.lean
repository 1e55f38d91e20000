import Verif.Model.Pva
/-!
What a pvAccess client should see of a block.
-/
namespace Verif.Spec.Pva
open Verif Verif.Pva

mutual
/-- The data of a value, without the Python class that holds it: an Enum is its value, `structure` is the same as no
typeid, and None in a list is an empty dictionary. -/
def plain : Py → Py
  | .none => .none
  | .str s => .str s
  | .enum s => .str s
  | .alarm n => .num "i" n
  | .num spec x => .num spec x
  | .nums spec xs => .nums spec xs
  | .strs xs => .strs xs
  | .enums xs => .strs xs
  | .objs vs => .objs (plainList vs)
  | .dict typeid fields => .dict (if typeid = some "structure" then none else typeid) (plainFields fields)
def plainList : List Py → List Py
  | [] => []
  | v :: vs => (match plain v with
    | .none => .dict none []
    | x => x) :: plainList vs
def plainFields : List (String × Py) → List (String × Py)
  | [] => []
  | (k, v) :: fs => (k, plain v) :: plainFields fs
end

mutual
/-- What can be sent: no None but in lists, in lists only dictionaries and None, known types of numbers, and tables with a meta
that describes their columns and no column or other field called labels. -/
def sendable : Py → Prop
  | .none => False
  | .num spec _ => spec ∈ specs
  | .nums spec _ => spec ∈ specs
  | .objs vs => sendableList vs
  | .dict typeid fields => sendableFields fields ∧
      (typeid = some ntTable → (labels fields).isSome = true ∧ "labels" ∉ fields.map (·.1))
  | _ => True
def sendableList : List Py → Prop
  | [] => True
  | v :: vs => (v = .none ∨ ((∃ t fs, v = .dict t fs) ∧ sendable v)) ∧ sendableList vs
def sendableFields : List (String × Py) → Prop
  | [] => True
  | (_, v) :: fs => sendable v ∧ sendableFields fs
end

/-- What a block has at a path -/
def at_ : Py → List String → Option Py
  | b, [] => some b
  | .dict _ fs, k :: ks =>
    match field fs k with
    | none => none
    | some v => at_ v ks
  | _, _ :: _ => none

/-- The fields with one replaced, or added at the end -/
def put1 : List (String × Py) → String → Py → List (String × Py)
  | [], n, x => [(n, x)]
  | (k, v) :: fs, n, x => if k = n then (k, x) :: fs else (k, v) :: put1 fs n x

/-- The block with another value at a path; as it is if there is no such place -/
def setAt (u : Py) : Py → List String → Py
  | _, [] => u
  | .dict t fs, k :: ks =>
    match field fs k with
    | some v => .dict t (put1 fs k (setAt u v ks))
    | none => if ks = [] then .dict t (put1 fs k u) else .dict t fs
  | b, _ :: _ => b

/-- The block without what is at a path -/
def removeAt : Py → List String → Py
  | b, [] => b
  | .dict t fs, k :: ks =>
    match field fs k with
    | some v => if ks = [] then .dict t (fs.filter (·.1 ≠ k)) else .dict t (put1 fs k (removeAt v ks))
    | none => .dict t fs
  | b, _ :: _ => b

/-- The block after a change -/
def change (b : Py) (c : Change) : Py :=
  match c.2 with
  | some u => setAt u b c.1
  | none => removeAt b c.1

mutual
/-- The new value is of the type of the old one, and has at least its fields, in its order -/
def keeps : Py → Py → Prop
  | old, .none => old = .none
  | old, .str _ => ∃ s, old = .str s
  | old, .enum _ => ∃ s, old = .enum s
  | old, .alarm _ => ∃ n, old = .alarm n
  | old, .num spec _ => ∃ x, old = .num spec x
  | old, .nums spec _ => ∃ xs, old = .nums spec xs
  | old, .strs _ => ∃ xs, old = .strs xs
  | old, .enums _ => ∃ xs, old = .enums xs
  | old, .objs _ => ∃ xs, old = .objs xs
  | old, .dict t fs => ∃ fs', old = .dict t fs' ∧ (fs'.map (·.1)).Sublist (fs.map (·.1)) ∧ (fs.map (·.1)).Nodup ∧ keepsFields fs' fs
def keepsFields : List (String × Py) → List (String × Py) → Prop
  | _, [] => True
  | old, (k, v) :: fs => (∀ o, field old k = some o → keeps o v) ∧ keepsFields old fs
end

/-- A change that does not take fields or change types where the block has something already. (`labels` is the name of a
field that is made up for tables.) -/
def Grows (b : Py) (c : Change) : Prop :=
  match c.2, at_ b c.1 with
  | none, _ => True
  | some u, some old => keeps (plain old) (plain u)
  | some _, none => "labels" ∉ c.1

/-- The changes one after the other -/
def AllGrow : Py → List Change → Prop
  | _, [] => True
  | b, c :: cs => Grows b c ∧ AllGrow (change b c) cs

/-- What happens to a block and to its channel -/
inductive Ev
  /-- the first client connects -/
  | connect
  /-- the last one goes -/
  | disconnect
  /-- the block changes -/
  | changes (cs : List Change)
  /-- the controller sends something else than a Delta -/
  | other

structure World where
  block : Py
  handler : Handler

/-- The controller sends the block to a new subscriber, and then each change -/
def step (ext : Ext) (w : World) : Ev → World
  | .connect =>
    if w.handler.pv then w
    else { w with handler := handle ext false (connect w.handler) (.delta [([], some w.block)]) }
  | .disconnect => { w with handler := disconnect w.handler }
  | .changes cs => { block := cs.foldl change w.block, handler := handle ext false w.handler (.delta cs) }
  | .other => { w with handler := handle ext false w.handler .other }

def run (ext : Ext) (w : World) (evs : List Ev) : World := evs.foldl (step ext) w

/-- Each change of the history, where it comes, only grows -/
def Growing (ext : Ext) : World → List Ev → Prop
  | _, [] => True
  | w, e :: es => (∀ cs, e = .changes cs → AllGrow w.block cs) ∧ Growing ext (step ext w e) es

end Verif.Spec.Pva
