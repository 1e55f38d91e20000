import Verif.Model.Layout
/-!
Saving and loading a design: malcolm/modules/builtin/controllers/managercontroller.py 417-452, 474-491, 506-564
(`do_save`, `_validated_config_filename`, `do_load`, `_mark_clean`),
malcolm/modules/builtin/parts/childpart.py 209-257 (`on_load`, `on_save`) and malcolm/core/views.py 168-186
(`put_attribute_values`).

Simplifications: every part is a child part (Model/Layout.lean); a file gives back what was written to it, so JSON is not
modelled; values are strings; the puts of one iteration, which are all sent before any is waited for, are done one after
another in the order in which they are sent, and so are the hooks of the parts; when something raises there is no result;
loads are not at init; designs of the old format, without "attributes", are not loaded.
-/
namespace Verif.Design
open Verif.Layout (Name Part Attr Row LayoutInfo)

/-- What a child does: the iteration of the config tag of an attribute (builtin/util.py, `config_tag`), the attributes that
are not to be saved (childpart.py 83-88), and a put to an attribute, `none` if it raises -/
structure Kind where
  tag : Name → Name → Option Nat
  noSave : Name → List Name
  put : Name → Dict Name Attr → Name → String → Option (Dict Name Attr)

/-- A design as it is in a file -/
structure File where
  layout : Dict Name (Int × Int × Bool)
  exports : Dict String String
  own : Dict Name String
  children : Dict Name (Dict Name String)
  deriving DecidableEq, Repr, Inhabited

/-- The manager: its layout and children, its exports with the choices for their sources, and `our_config_attributes`, the
config attributes of its own parts, each with the part it belongs to -/
structure Manager where
  base : Layout.Manager
  exports : List (String × String)
  choices : List String
  own : List (Name × Name × String)
  deriving DecidableEq, Repr, Inhabited

/-! ## Saving -/

/-- childpart.py 247-257 -/
def onSave (K : Kind) (p : Part) : Dict Name String :=
  p.child.filterMap fun ka =>
    if ka.1 ∉ K.noSave p.name ∧ (K.tag p.name ka.1).isSome then some (ka.1, ka.2.value) else none

/-- managercontroller.py 417-443. The name of the design is looked at in `Store.save` -/
def doSave (K : Kind) (m : Manager) : File where
  layout := m.base.layout.foldl (fun d r => d.set r.1 (r.2.x, r.2.y, r.2.visible)) []
  exports := m.exports.foldl (fun d r => d.set r.1 r.2) []
  own := m.own.foldl (fun d r => d.set r.1 r.2.2) []
  children := m.base.parts.foldl (fun d p => d.set p.name (onSave K p)) []

/-! ## Loading -/

/-- `sorted`, by insertion -/
def insert {α : Type} (le : α → α → Bool) (a : α) : List α → List α
  | [] => [a]
  | b :: l => if le a b then a :: b :: l else b :: insert le a l

def sort {α : Type} (le : α → α → Bool) : List α → List α
  | [] => []
  | a :: l => insert le a (sort le l)

/-- The keys of a dictionary that is filled with these -/
def uniq : List Nat → List Nat
  | [] => []
  | a :: l => if a ∈ uniq l then uniq l else a :: uniq l

/-- childpart.py 214-231: what can be restored, with its iteration -/
def entries (K : Kind) (p : Part) (s : Dict Name String) : List (Nat × Name × String) :=
  s.filterMap fun kv =>
    match p.child.get? kv.1, K.tag p.name kv.1 with
    | some _, some i => some (i, kv.1, kv.2)
    | _, _ => none

/-- childpart.py 238-241: what is to be put in an iteration -/
def toSet (c : Dict Name Attr) (es : List (Nat × Name × String)) (i : Nat) : List (Name × String) :=
  es.filterMap fun e => if e.1 = i ∧ (c.get? e.2.1).map (·.value) ≠ some e.2.2 then some e.2 else none

/-- views.py 168-186 on a child -/
def puts (K : Kind) (n : Name) : Dict Name Attr → List (Name × String) → Option (Dict Name Attr)
  | c, [] => some c
  | c, kv :: rest => match K.put n c kv.1 kv.2 with
    | some c => puts K n c rest
    | none => none

/-- childpart.py 235-242 -/
def iterate (K : Kind) (n : Name) (es : List (Nat × Name × String)) : Dict Name Attr → List Nat → Option (Dict Name Attr)
  | c, [] => some c
  | c, i :: rest => match puts K n c (sort (fun a b => a.1 ≤ b.1) (toSet c es i)) with
    | some c => iterate K n es c rest
    | none => none

/-- childpart.py 209-242 -/
def onLoad (K : Kind) (p : Part) (s : Dict Name String) : Option Part :=
  let es := entries K p s
  (iterate K p.name es p.child (sort (fun a b => a ≤ b) (uniq (es.map (·.1))))).map fun c => { p with child := c }

/-- The hooks, managercontroller.py 545-549 -/
def loadHooks (K : Kind) (children : Dict Name (Dict Name String)) : List Part → Option (List Part)
  | [] => some []
  | p :: ps => match onLoad K p ((children.get? p.name).getD []), loadHooks K children ps with
    | some p, some ps => some (p :: ps)
    | _, _ => none

/-- managercontroller.py 525-531: the rows of the layout table -/
def rows (f : File) : List Row := f.layout.map fun d => ⟨d.1, d.2.1, d.2.2.1, d.2.2.2⟩

/-- Whether the field of an own attribute is on the block, managercontroller.py 316-329: its part is not hidden -/
def shown (layout : List (Name × LayoutInfo)) (owner : Name) : Bool :=
  !(layout.any fun r => r.1 = owner && !r.2.visible)

/-- managercontroller.py 539-543 and views.py 168-186: the own attributes of the design are put. `none` is the assertion that
the block has the attribute -/
def putOwn (layout : List (Name × LayoutInfo)) (saved : Dict Name String) :
    List (Name × Name × String) → Option (List (Name × Name × String))
  | [] => some []
  | (k, owner, v) :: rest =>
    match putOwn layout saved rest with
    | none => none
    | some rest =>
      match saved.get? k with
      | none => some ((k, owner, v) :: rest)
      | some w => if shown layout owner then some ((k, owner, w) :: rest) else none

/-- managercontroller.py 518-550 -/
def doLoad (K : Kind) (m : Manager) (f : File) : Option Manager :=
  match m.base.setLayout (rows f) with
  | none => none
  | some base =>
    -- `self.exports.set_value` validates the sources
    if f.exports.keys.all (· ∈ m.choices) then
      match putOwn base.layout f.own m.own with
      | none => none
      | some own =>
        match loadHooks K f.children base.parts with
        | none => none
        | some parts => some { m with base := { base with parts }, exports := f.exports, own }
    else none

/-! ## Files -/

/-- `name.split(".json")[0]`, managercontroller.py 490 -/
def stem : List Char → List Char
  | [] => []
  | c :: cs => if ['.', 'j', 's', 'o', 'n'].isPrefixOf (c :: cs) then [] else c :: stem cs

/-- The directory with the designs of a block: what is in the file of each stem -/
abbrev Store := Dict (List Char) File

/-- managercontroller.py 417-421, 444-449: `none` if the name is not allowed -/
def Store.save (st : Store) (name : List Char) (f : File) : Option Store :=
  if name = [] ∨ ['t', 'e', 'm', 'p', 'l', 'a', 't', 'e', '_'].isPrefixOf name then none else some (st.set (stem name) f)

/-- managercontroller.py 514-517: `none` if there is no such file. Templates, which are in another directory, are left out -/
def Store.load (st : Store) (name : List Char) : Option File := st.get? (stem name)

end Verif.Design
