import Verif.Model.Notifier
/-!
The local copy of a remote block: malcolm/modules/web/controllers/websocketclientcomms.py 155-226, with
`BlockModel` and `apply_change` of malcolm/core/models.py (131-141, 375-379, 1278-1320).

A block is a tree as in Verif.Model.Notifier, with the order of its fields beside it. Simplifications: a value that the
remote block holds passes validation here and is the same afterwards; a field that holds None is the same as a missing
one. An array of strings is a leaf, `enc` gives the one for each list.
-/
namespace Verif.Proxy
open Verif.Notifier

abbrev Enc := List String → Int

/-- `BlockModel`: models.py 1278-1285. `names` are the keys of `call_types` in order -/
structure Block where
  names : List String
  tree : Tree

/-- One of the changes of a Delta: response.py 57-74, as made by notifier.py 142-175. `whole` is one with an empty
path -/
inductive Change
  | whole (names : List String) (d : Tree)
  | set (p : Path) (v : Tree)
  | delete (p : Path)

def leaf (n : Int) : Tree
  | [] => some (.leaf n)
  | _ => none

/-- models.py 1311-1312: the fields listed by a block with these keys -/
def listed (names : List String) : List String := names.filter (· ≠ "meta")

/-- models.py 1311-1312, `_update_fields` -/
def updateFields (enc : Enc) (b : Block) : Block :=
  { b with tree := b.tree.setAt ["meta", "fields"] (leaf (enc (listed b.names))) }

/-- models.py 1314-1320, `remove_endpoint` -/
def removeEndpoint (enc : Enc) (b : Block) (name : String) : Block :=
  updateFields enc { names := b.names.filter (· ≠ name), tree := b.tree.setAt [name] Tree.absent }

/-- models.py 1287-1309, `set_endpoint_data` of a block -/
def setEndpoint (enc : Enc) (b : Block) (name : String) (v : Tree) : Block :=
  updateFields enc { names := if name ∈ b.names then b.names else b.names ++ [name], tree := b.tree.setAt [name] v }

/-- models.py 131-141 `apply_change` of the object at `at_` of tree `t`, with the setters called there. `none` is the
exception: the object has no `apply_change` (it is not a Model), no such part or setter (a block has none), or there is
no value (a deletion) -/
def applyChange (t : Tree) (at_ : Path) (v : Option Tree) : Path → Option Tree
  | [] => none
  | [k] =>
    match v with
    | none => none
    | some v => if t at_ = some .model ∧ at_ ≠ [] ∧ t (at_ ++ [k]) ≠ none then some (t.setAt (at_ ++ [k]) v) else none
  | k :: l :: rest => if t at_ = some .model ∧ t (at_ ++ [k]) ≠ none then applyChange t (at_ ++ [k]) v (l :: rest) else none

/-- websocketclientcomms.py 213-218: the health of the block takes value, alarm and time stamp -/
def setHealth (t : Tree) (d : Tree) : Tree :=
  ["value", "alarm", "timeStamp"].foldl (fun t k => t.setAt ["health", k] (d.sub ["health", k])) t

/-- websocketclientcomms.py 219-223 with models.py 1274-1275: the settings of the block -/
def setMeta (t : Tree) (d : Tree) : Tree :=
  ["description", "tags", "writeable", "label", "fields"].foldl (fun t k => t.setAt ["meta", k] (d.sub ["meta", k])) t

/-- websocketclientcomms.py 212-226, one turn of the loop -/
def takeField (enc : Enc) (d : Tree) (b : Block) (field : String) : Block :=
  if field = "health" then { b with tree := setHealth b.tree d }
  else if field = "meta" then { b with tree := setMeta b.tree d }
  else setEndpoint enc b field (d.sub [field])

/-- websocketclientcomms.py 208-226, `_regenerate_block` -/
def regenerate (enc : Enc) (b : Block) (names : List String) (d : Tree) : Block :=
  let b := (b.names.filter (fun f => f ≠ "health" ∧ f ≠ "meta")).foldl (removeEndpoint enc) b
  names.foldl (takeField enc d) b

/-- websocketclientcomms.py 193-206, `_handle_change`; `none` is an exception, with nothing changed: for a path of one
name, `path[1]` is an IndexError whatever the change -/
def handleChange (enc : Enc) (b : Block) : Change → Option Block
  | .whole names d => some (regenerate enc b names d)
  | .set [] _ => none  -- is a `whole`
  | .set [f] v =>
    if f ≠ "health" ∧ f ≠ "meta" then none
    else (applyChange b.tree [] (some v) [f]).map fun t => { b with tree := t }
  | .set p v => (applyChange b.tree [] (some v) p).map fun t => { b with tree := t }
  | .delete [] => none
  | .delete [f] =>
    if f ≠ "health" ∧ f ≠ "meta" then none
    else (applyChange b.tree [] none [f]).map fun t => { b with tree := t }
  | .delete p => (applyChange b.tree [] none p).map fun t => { b with tree := t }

/-- websocketclientcomms.py 180-191, `_handle_response`: the changes up to the first that raises; whether none did -/
def handleDelta (enc : Enc) (b : Block) : List Change → Block × Bool
  | [] => (b, true)
  | c :: cs =>
    match handleChange enc b c with
    | none => (b, false)
    | some b => handleDelta enc b cs

/-- The Deltas of a subscription, one after the other: websocketclientcomms.py 155-178. One that fails is logged -/
def handleDeltas (enc : Enc) (b : Block) (deltas : List (List Change)) : Block :=
  deltas.foldl (fun b d => (handleDelta enc b d).1) b

end Verif.Proxy
