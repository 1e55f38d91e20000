import Verif.Model.Controller
/-!
Views of blocks: malcolm/core/views.py, with malcolm/core/controller.py 109-122.

Looking up an attribute of a Python object is modelled by its rules: data descriptors of the class
(properties), then the dictionary of the instance, then other members of the class, then `__getattr__`.
Names beginning with two underscores are left out.
-/
namespace Verif.View
open Verif Verif.Meta

/-- What a field of a block is: `isinstance(data[endpoint], MethodModel)` or not. -/
inductive Kind
  | method
  | other
  deriving DecidableEq, Repr

/-- The endpoints of a BlockModel in order (`meta` and the fields). -/
abbrev Data := Dict String Kind

/-- views.py 27-40, 151-204: members of View and Block that are not properties, as functions of the
class -/
def members : List String :=
  ["to_dict", "_make_async_method", "put_attribute_values_async", "put_attribute_values",
   "when_value_matches", "when_value_matches_async"]

/-- views.py 21-25: the instance attributes set by `View.__init__`, in order -/
def own : List String := ["typeid", "_controller", "_context", "_data"]

/-- What the name of an attribute of a view gives. -/
inductive Got
  /-- a view of the field with that name -/
  | field (name : String) (k : Kind)
  /-- the block's name -/
  | mri
  /-- an instance attribute set by `View.__init__` -/
  | own (name : String)
  /-- the function that posts to that method without waiting -/
  | async (method : String)
  /-- a function of the class -/
  | member (name : String)
  | keyError
  deriving DecidableEq, Repr

/-- A view of a block: the properties of its class and the dictionary of the instance. -/
structure Block where
  props : List String
  inst : Dict String Got
  deriving DecidableEq, Repr

/-- `object.__setattr__`: AttributeError (`none`) if the class has a property of that name: they have
no setter, and `mri` (views.py 157-159) is one -/
def setattr (props : List String) (inst : Dict String Got) (name : String) (g : Got) : Option (Dict String Got) :=
  if name ∈ props ∨ name = "mri" then none else some (Dict.set inst name g)

/-- views.py 21-25 -/
def setOwn (props : List String) : List String → Dict String Got → Option (Dict String Got)
  | [], inst => some inst
  | n :: ns, inst =>
    match setattr props inst n (.own n) with
    | none => none
    | some inst' => setOwn props ns inst'

/-- views.py 144-149, 161-166: an `_async` function for each method -/
def setAsync (props : List String) : Data → Dict String Got → Option (Dict String Got)
  | [], inst => some inst
  | (n, .method) :: d, inst =>
    match setattr props inst (n ++ "_async") (.async n) with
    | none => none
    | some inst' => setAsync props d inst'
  | (_, .other) :: d, inst => setAsync props d inst

/-- views.py 43-64 and 144-149: a class with a property for each endpoint there is now, and an
instance of it -/
def make (data : Data) : Option Block :=
  match setOwn data.keys own [] with
  | none => none
  | some inst =>
    match setAsync data.keys data inst with
    | none => none
    | some inst' => some { props := data.keys, inst := inst' }

/-- controller.py 117-122: the child of the data as it is now; KeyError if it has none of that name
(the `__getitem__` of Serializable, which is in annotypes) -/
def child (now : Data) (name : String) : Got :=
  match Dict.get? now name with
  | some k => .field name k
  | none => .keyError

/-- `getattr(view, name)` when the block's endpoints are `now` (views.py 43-51, 151-159) -/
def Block.get (v : Block) (now : Data) (name : String) : Got :=
  if name ∈ v.props then child now name
  else if name = "mri" then .mri
  else match Dict.get? v.inst name with
    | some g => g
    | none => if name ∈ members then .member name else child now name

/-! ### Items of a view -/

/-- What `getattr` gives for views that have no `__getattr__`, and what indexing gives. -/
inductive Item (X : Type)
  | value (x : X)
  | attributeError
  /-- a KeyError object, returned and not raised -/
  | keyErrorObject
  deriving DecidableEq, Repr

/-- views.py 33-37 `View.__getitem__` -/
def item {X : Type} (getattr : String → Item X) (name : String) : Item X :=
  match getattr name with
  | .attributeError => .keyErrorObject
  | r => r

/-- `getattr` of an Attribute view: its endpoints and the members of its class (views.py 67-101) -/
def attributeGet (name : String) : Item String :=
  if name ∈ ["meta", "value", "alarm", "timeStamp", "put_value", "put_value_async", "subscribe_value",
    "typeid", "_controller", "_context", "_data", "to_dict"] then .value name else .attributeError

/-! ### Calling a method -/

/-- views.py 107-114 `_add_positional_args`: zipped with the names the method takes; `none` is the
AssertionError. -/
def addPositional {X : Type} : List (String × X) → Dict String X → Option (Dict String X)
  | [], kwargs => some kwargs
  | (name, v) :: rest, kwargs =>
    if Dict.mem kwargs name then none else addPositional rest (Dict.set kwargs name v)

/-- views.py 116-126 `post`: the parameters of the Post that is sent -/
def post {X : Type} (takes : List String) (args : List X) (kwargs : Dict String X) : Option (Dict String X) :=
  addPositional (takes.zip args) kwargs

/-! ### Putting several values -/

/-- What comes of `put_attribute_values_async`. -/
inductive Put
  | sent
  | keyError
  deriving DecidableEq, Repr

/-- views.py 176-180: each is looked up first (`hasattr` lets a KeyError through) and then put. The
block's endpoints are taken not to change meanwhile. -/
def putLoop {X : Type} (v : Block) (now : Data) : List (String × X) → List (String × X) → List (String × X) × Put
  | sent, [] => (sent, .sent)
  | sent, (n, x) :: rest =>
    match v.get now n with
    | .keyError => (sent, .keyError)
    | _ => putLoop v now (sent ++ [(n, x)]) rest

/-- views.py 168-180: a plain dictionary (`plain`) is sorted by name first. The names of a dictionary
are distinct, so values are not compared. -/
def putValues {X : Type} (v : Block) (now : Data) (plain : Bool) (params : Dict String X) :
    List (String × X) × Put :=
  putLoop v now [] (if plain then params.mergeSort (fun a b => decide (a.1 ≤ b.1)) else params)

end Verif.View
