import Verif.Model.PyDict
/-!
Subscriptions to a block: malcolm/core/notifier.py, and the setters of malcolm/core/models.py that
feed it.

A block is a tree of `Model` objects, which are mutable and attached at one path each (models.py
59-65), holding immutable values.  A tree is represented by what sits at each path.
Simplifications: the order of fields in an object is not represented, and a field that holds None is
the same as a missing field.
-/
namespace Verif.Notifier
open Verif

abbrev Path := List String

/-- What sits at a path. -/
inductive Kind
  /-- any immutable value without parts (scalars, arrays, alarms, timestamps, ...) -/
  | leaf (n : Int)
  /-- a `Model` (models.py 45): has attributes, is mutable -/
  | model
  /-- a `Table` (core/table.py): has attributes (its columns), is replaced as a whole -/
  | table
  /-- a `dict` of Models, such as `MapMeta.elements`: `getattr` finds nothing in it -/
  | dict
  deriving DecidableEq, Repr

/-- A value, as the partial map from relative paths to what is there. -/
abbrev Tree := Path → Option Kind

/-- `stripPrefix p q = some r` iff `q = p ++ r`. -/
def stripPrefix : Path → Path → Option Path
  | [], q => some q
  | _ :: _, [] => none
  | a :: p, b :: q => if a = b then stripPrefix p q else none

def Tree.absent : Tree := fun _ => none
def Tree.sub (t : Tree) (p : Path) : Tree := fun q => t (p ++ q)
/-- The tree with `v` in place of what was at `p`. -/
def Tree.setAt (t : Tree) (p : Path) (v : Tree) : Tree := fun q =>
  match stripPrefix p q with
  | some r => v r
  | none => t q

/-- Does `getattr(o, name)` look inside `o`? -/
def Kind.hasAttrs : Kind → Bool
  | .model | .table => true
  | _ => false

/-- A Python reference to an object, held in a node at some path or in a change for some path:
either it is the object that is attached at that path now, so that its content is whatever the block
now has there, or it is an object that was there before, with the content it had when it was
replaced. -/
inductive Data
  | live
  | snap (v : Tree)

/-- The content of a reference held for path `at_`. `none` is Python's None. -/
def content (cur : Tree) (at_ : Path) : Option Data → Tree
  | none => Tree.absent
  | some .live => cur.sub at_
  | some (.snap v) => v

/-- `getattr(data, name, None)` for data held for path `at_`. -/
def childData (cur : Tree) (at_ : Path) (name : String) : Option Data → Option Data
  | none => none
  | some .live =>
    match cur at_ with
    | some k => if k.hasAttrs ∧ cur (at_ ++ [name]) ≠ none then some .live else none
    | none => none
  | some (.snap v) =>
    match v [] with
    | some k => if k.hasAttrs ∧ v [name] ≠ none then some (.snap (v.sub [name])) else none
    | none => none

/-- request.py `Subscribe`; `key` is (callback, id), which `generate_key` returns. -/
structure Sub where
  key : Nat
  path : Path
  delta : Bool
  deriving DecidableEq, Repr

/-- One change, `[path, data]` or `[path]` (a deletion). -/
abbrev Change := Path × Option Data

/-- What a subscriber receives (response.py Update, Delta, Return). A stanza of a Delta without a
value is a deletion; a value of None is the same by the simplification above. -/
inductive Msg
  | update (v : Tree)
  | delta (stanzas : List (Path × Tree))
  | ret

abbrev Resp := Sub × Msg

/-- notifier.py 131-140 `NotifierNode` (without `parent`, which nothing reads). -/
inductive Node
  | mk (deltas updates : List Sub) (data : Option Data) (children : List (String × Node))

namespace Node
def deltas : Node → List Sub | mk d _ _ _ => d
def updates : Node → List Sub | mk _ u _ _ => u
def data : Node → Option Data | mk _ _ d _ => d
def children : Node → List (String × Node) | mk _ _ _ c => c
end Node

/-- Append to the list of changes of a child: `child_changes.setdefault(name, []).append(c)`. -/
def pushChange (cc : Dict String (List Change)) (name : String) (c : Change) :
    Dict String (List Change) :=
  Dict.set cc name ((Dict.get? cc name).getD [] ++ [c])

/-- notifier.py 177-218 `_add_child_change` and `_update_data`, for a node at `at_` with children
`names`. The state is the node's data and `child_changes`. -/
def addChange (cur : Tree) (at_ : Path) (names : List String)
    (st : Option Data × Dict String (List Change)) (change : Change) :
    Option Data × Dict String (List Change) :=
  match change.1 with
  | name :: rest =>
    if name ∈ names then (st.1, pushChange st.2 name (rest, change.2)) else st
  | [] =>
    (change.2, names.foldl (fun cc name => pushChange cc name ([], childData cur at_ name change.2)) st.2)

/-- `freeze` of the data of a change (notifier.py 167-168); freezing happens when the changes are
sent, so an object still attached is frozen with its content of that moment. -/
def freezeChange (cur : Tree) (at_ : Path) (c : Change) : Path × Tree :=
  (c.1, content cur (at_ ++ c.1) c.2)

mutual
/-- notifier.py 142-175 `notify_changes` of a node at path `at_`: the node afterwards and the
responses in order. -/
def Node.notify (cur : Tree) (at_ : Path) : Node → List Change → Node × List Resp
  | .mk ds us data cs, changes =>
    let st := changes.foldl (addChange cur at_ (cs.map (·.1))) (data, [])
    let own := us.map (fun s => (s, Msg.update (content cur at_ st.1)))
      ++ ds.map (fun s => (s, Msg.delta (changes.map (freezeChange cur at_))))
    let res := notifyChildren cur at_ cs st.2
    (.mk ds us st.1 (res.map (fun r => (r.1, r.2.1))),
     own ++ st.2.flatMap (fun nc => match Dict.get? res nc.1 with | some r => r.2 | none => []))
/-- notifier.py 172-174, the recursion into each child that has changes. -/
def notifyChildren (cur : Tree) (at_ : Path) :
    List (String × Node) → Dict String (List Change) → List (String × Node × List Resp)
  | [], _ => []
  | (name, n) :: rest, cc =>
    (match Dict.get? cc name with
     | none => (name, n, [])
     | some ch =>
       let r := n.notify cur (at_ ++ [name]) ch
       (name, r.1, r.2)) :: notifyChildren cur at_ rest cc
end

/-- A chain of new nodes for the path that is left (notifier.py 237-238, repeated). -/
def newChain (cur : Tree) (at_ : Path) (data : Option Data) (s : Sub) : Path → Node × List Resp
  | [] =>
    if s.delta then (.mk [s] [] data [], [(s, .delta [([], content cur at_ data)])])
    else (.mk [] [s] data [], [(s, .update (content cur at_ data))])
  | name :: rest =>
    let r := newChain cur (at_ ++ [name]) (childData cur at_ name data) s rest
    (.mk [] [] data [(name, r.1)], r.2)

/-- notifier.py 220-249 `handle_subscribe` of a node at `at_`. -/
def Node.subscribe (cur : Tree) (at_ : Path) (s : Sub) : Path → Node → Node × List Resp
  | [], .mk ds us data cs =>
    if s.delta then (.mk (ds ++ [s]) us data cs, [(s, .delta [([], content cur at_ data)])])
    else (.mk ds (us ++ [s]) data cs, [(s, .update (content cur at_ data))])
  | name :: rest, .mk ds us data cs =>
    match Dict.get? cs name with
    | none =>
      let r := newChain cur (at_ ++ [name]) (childData cur at_ name data) s rest
      (.mk ds us data (cs ++ [(name, r.1)]), r.2)
    | some child =>
      let r := Node.subscribe cur (at_ ++ [name]) s rest child
      (.mk ds us data (Dict.set cs name r.1), r.2)

/-- notifier.py 251-282 `handle_unsubscribe`; `none` is the KeyError or ValueError of a path or
request that is not there. -/
def Node.unsubscribe (s : Sub) : Path → Node → Option (Node × List Resp)
  | [], .mk ds us data cs =>
    if s ∈ us then some (.mk ds (us.erase s) data cs, [(s, .ret)])
    else if s ∈ ds then some (.mk (ds.erase s) us data cs, [(s, .ret)])
    else none
  | name :: rest, .mk ds us data cs =>
    match Dict.get? cs name with
    | none => none
    | some child =>
      match Node.unsubscribe s rest child with
      | none => none
      | some (child', r) =>
        if child'.children.isEmpty ∧ child'.updates = [] ∧ child'.deltas = [] then
          some (.mk ds us data (Dict.erase cs name), r)
        else some (.mk ds us data (Dict.set cs name child'), r)

/-- The effect on a reference held for path `at_` of attaching another object at `p`: the object it
refers to is detached if it was at or below `p`. -/
def detachData (cur : Tree) (p at_ : Path) : Option Data → Option Data
  | some .live => if (stripPrefix p at_).isSome then some (.snap (cur.sub at_)) else some .live
  | some (.snap v) => some (.snap v)
  | none => none

mutual
/-- The effect on the references held by nodes of attaching another object at `p`: those to objects
at or below `p` now refer to detached objects. -/
def Node.detach (cur : Tree) (p : Path) (at_ : Path) : Node → Node
  | .mk ds us data cs =>
    .mk ds us (detachData cur p at_ data) (detachChildren cur p at_ cs)
def detachChildren (cur : Tree) (p : Path) (at_ : Path) : List (String × Node) → List (String × Node)
  | [] => []
  | (name, n) :: rest => (name, n.detach cur p (at_ ++ [name])) :: detachChildren cur p at_ rest
end

/-- ... and on the references held by changes not yet sent. -/
def detachChange (cur : Tree) (p : Path) (c : Change) : Change := (c.1, detachData cur p c.1 c.2)

/-- A block with its notifier. -/
structure State where
  /-- the block as it is now -/
  cur : Tree
  /-- `_tree` -/
  root : Node
  /-- `_squashed_count` -/
  count : Nat := 0
  /-- `_squashed_changes` -/
  pending : List Change := []
  /-- `_subscription_keys` -/
  keys : Dict Nat Sub := []
  /-- the responses handed to callbacks so far, oldest first.  Callbacks are called after the lock is
  released (notifier.py 119-120); the order among flushes is that of the releases, which holds as
  long as no other thread runs between a release and the callbacks (cooperative threads). -/
  sent : List Resp := []
  /-- the keys of the requests that were answered with an Error (controller.py 144-147: whatever the
  handler raises) -/
  errors : List Nat := []
  /-- history variable: the block at the end of the last flush -/
  flushed : Tree

/-- What the holder of the block can do. `assign` at a path whose parent is not a Model of the block
does nothing (there is no such object to call a setter of). -/
inductive Op
  /-- `with notifier.changes_squashed:` entered / left -/
  | enter
  | exit
  /-- models.py 124-128, 346-356, 1297-1307: put a new value or Model at a path and notify it -/
  | assign (p : Path) (v : Tree)
  /-- models.py 1314-1320 `remove_endpoint` -/
  | delete (p : Path)
  /-- models.py 388-402: the value of an NTTable at path `p` is replaced by a table with columns
  `cols`, of which `changed` are new arrays (taken from `v`) and the rest are the old ones -/
  | tableSet (p : Path) (cols changed : List String) (v : Tree)
  | subscribe (s : Sub)
  | unsubscribe (key : Nat)

/-- The table with the changed columns taken from `v`. -/
def mergeTable (old : Tree) (changed : List String) (v : Tree) : Tree
  | [] => some .table
  | k :: r => if k ∈ changed then v (k :: r) else old (k :: r)

/-- Is there a Model at the parent of `p`, so that a setter of it can be called? -/
def hasParent (cur : Tree) (p : Path) : Bool :=
  match p with
  | [] => false
  | _ => cur p.dropLast = some .model

/-- Put `v` at `p`, and tell the notifier `notes`. Only inside `changes_squashed` (the setters enter
it themselves; `add_squashed_change` asserts it, notifier.py 91). -/
def State.put (s : State) (p : Path) (v : Tree) (notes : List Change) : State :=
  { s with
    cur := s.cur.setAt p v
    root := s.root.detach s.cur p []
    pending := s.pending.map (detachChange s.cur p) ++ notes }

def State.step (s : State) : Op → State
  | .enter => { s with count := s.count + 1 }
  | .exit =>
    -- notifier.py 108-120
    match s.count with
    | 0 => s
    | 1 =>
      let r := s.root.notify s.cur [] s.pending
      { s with count := 0, pending := [], root := r.1, sent := s.sent ++ r.2, flushed := s.cur }
    | n + 2 => { s with count := n + 1 }
  | .assign p v =>
    if s.count > 0 ∧ hasParent s.cur p then
      s.put p v [(p, if v [] = none then none else some .live)] else s
  | .delete p =>
    if s.count > 0 ∧ hasParent s.cur p then s.put p Tree.absent [(p, none)] else s
  | .tableSet p cols changed v =>
    if s.count > 0 ∧ hasParent s.cur p ∧ s.cur p = some .table then
      let t := mergeTable (s.cur.sub p) changed v
      if changed.length = cols.length then s.put p t [(p, some .live)]
      else s.put p t (changed.map (fun k => (p ++ [k], some .live)))
    else s
  | .subscribe sb =>
    -- notifier.py 61-65; the lock is held, so not while another thread is squashing
    if s.count = 0 then
      let r := s.root.subscribe s.cur [] sb sb.path
      { s with root := r.1, sent := s.sent ++ r.2, keys := Dict.set s.keys sb.key sb }
    else s
  | .unsubscribe key =>
    -- notifier.py 67-71
    if s.count = 0 then
      match Dict.get? s.keys key with
      | none => { s with errors := s.errors ++ [key] }
      | some sb =>
        match s.root.unsubscribe sb sb.path with
        | none => { s with keys := Dict.erase s.keys key, errors := s.errors ++ [key] }
        | some (root, r) => { s with root := root, sent := s.sent ++ r, keys := Dict.erase s.keys key }
    else s

/-- A block before anyone subscribed. -/
def State.init (block : Tree) : State :=
  { cur := block, flushed := block, root := .mk [] [] (some .live) [] }

def State.run (s : State) (ops : List Op) : State := ops.foldl State.step s

end Verif.Notifier
