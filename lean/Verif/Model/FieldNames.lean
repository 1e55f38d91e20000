/-!
The names of the fields that a block can have: malcolm/core/models.py 45-65, 1279-1320 with
malcolm/modules/builtin/controllers/managercontroller.py 194-203, 275-283. A field is kept as an attribute of the Python object of the block, beside
its `path` and its `notifier`.
-/
namespace Verif.FieldNames

/-- core/models.py 47: what `path` of the block is: a list, or the field of this name -/
inductive PathV where
  | list (l : List String)
  | model
deriving Repr, DecidableEq

/-- core/models.py 45-48, 1282-1285; managercontroller.py 83, 120-134: the block, and what the controller knows of it -/
structure Block where
  path : PathV
  /-- core/models.py 46: `notifier` is still the notifier -/
  notifier : Bool
  /-- the keys of `call_types`, without "meta" -/
  types : List String
  /-- the fields that are attributes of the object -/
  attrs : List String
  /-- `meta.fields`, which everybody can see -/
  shown : List String
  /-- the names of `_current_part_fields` -/
  current : List String
  /-- the value of `exports`: the names -/
  exports : List String
  /-- core/notifier.py 84-101: the paths of what was told, newest last -/
  told : List (List String)
deriving Repr, DecidableEq

/-- core/controller.py 49-54 and managercontroller.py 297-302: a new block with fields of its own -/
def Block.new (mri : String) (own : List String) : Block :=
  { path := .list [mri], notifier := true, types := own, attrs := own, shown := own, current := [], exports := [], told := [] }

/-- core/models.py 1305: `setattr(self, name, value)` -/
def Block.setattr (b : Block) (name : String) : Block :=
  { b with attrs := if name ∈ b.attrs then b.attrs else b.attrs ++ [name],
           path := if name = "path" then .model else b.path,
           notifier := if name = "notifier" then false else b.notifier }

/-- core/models.py 1318: `delattr(self, name)`; below the attribute of the object is that of the class (46-47), an empty path -/
def Block.delattr (b : Block) (name : String) : Block :=
  { b with attrs := b.attrs.filter (· ≠ name), path := if name = "path" then .list [] else b.path }

/-- core/models.py 1308, 1311-1312 -/
def Block.updateFields (b : Block) : Block := { b with shown := b.types }

/-- core/models.py 1307, 1320: tells the notifier; none of the two can be done with a field in the place of the path or of the notifier -/
def Block.tell (b : Block) (name : String) : Block × Bool :=
  match b.path, b.notifier with
  | .list l, true => ({ b with told := b.told ++ [l ++ [name]] }, true)
  | _, _ => (b, false)

/-- core/models.py 1287-1309; false is that it raises. -/
def Block.setEndpoint (b : Block) (name : String) : Block × Bool :=
  if b.notifier = false then (b, false)
  else
    let b := if name ∈ b.types then b else { b with types := b.types ++ [name] }
    match b.path with
    | .model => (b, false)
    | .list _ =>
      match (b.setattr name).tell name with
      | (b, false) => (b, false)
      | (b, true) => (b.updateFields, true)

/-- core/models.py 1314-1320 -/
def Block.removeEndpoint (b : Block) (name : String) : Block × Bool :=
  if b.notifier = false then (b, false)
  else if name ∉ b.attrs then (b, false)
  else ((({ b with types := b.types.filter (· ≠ name) } : Block).delattr name).updateFields).tell name

/-- managercontroller.py 276-283: one after the other, until one raises -/
def each (f : Block → String → Block × Bool) : Block → List String → Block × Bool
  | b, [] => (b, true)
  | b, n :: ns =>
    match f b n with
    | (b, false) => (b, false)
    | (b, true) => each f b ns

/-- managercontroller.py 275-283; the parts of states are in Verif.Model.Stateful. -/
def Block.update (b : Block) (names : List String) : Block × Bool :=
  match each Block.removeEndpoint b b.current with
  | (b, false) => (b, false)
  | (b, true) => each Block.setEndpoint { b with current := names } names

/-- managercontroller.py 194-203, for names that are camelCase, as all of those here are. The names are those after 336-338;
the fields of parts that are shown (324-328), which come before those of the exports, count as names here. -/
def Block.putExports (b : Block) (names : List String) : Block × Bool := ({ b with exports := names } : Block).update names

/-- managercontroller.py 194-203: any history of puts, whether each of them went well -/
def Block.run (b : Block) (ps : List (List String)) : Block × List Bool :=
  ps.foldl (fun x names => ((x.1.putExports names).1, x.2 ++ [(x.1.putExports names).2])) (b, [])

end Verif.FieldNames
