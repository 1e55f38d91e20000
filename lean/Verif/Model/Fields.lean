import Verif.Model.PyDict
/-!
The fields of a block: malcolm/core/camel.py 3, malcolm/core/part.py 42-120, 145-160,
malcolm/core/controller.py 59-94, malcolm/core/models.py 1278-1320.
-/
namespace Verif.Fields
open Verif

/-- `[a-z]` -/
def lower (c : Char) : Bool := 'a' ≤ c && c ≤ 'z'
/-- `[A-Z]` -/
def upper (c : Char) : Bool := 'A' ≤ c && c ≤ 'Z'
/-- `[0-9]` -/
def digit (c : Char) : Bool := '0' ≤ c && c ≤ '9'

/-- `$`: the end, or just before a newline at the end -/
def atEnd : List Char → Bool
  | [] => true
  | ['\n'] => true
  | _ => false

/-- camel.py 3: `[a-z0-9]*([A-Z][a-z0-9]*)*$` after the first letter. A greedy match needs no
backtracking: the classes that can come next are disjoint. -/
def camelRest : List Char → Bool
  | c :: cs => if lower c || digit c || upper c then camelRest cs else atEnd (c :: cs)
  | [] => true

/-- camel.py 3 `CAMEL_RE.match` -/
def camelRe : List Char → Bool
  | c :: cs => lower c && camelRest cs
  | [] => false

/-- part.py 45-47 `FieldRegistry.fields`: for each owner its fields, by name. `O` is the type of
owners: `None` for the controller itself and one for each part object. -/
abbrev Registry (O : Type) := Dict O (List String)

variable {O : Type} [DecidableEq O]

/-- part.py 114-118: no owner has a field of that name -/
def nameFree (r : Registry O) (name : String) : Bool := r.values.all (fun fs => !decide (name ∈ fs))

/-- part.py 119-120: `setdefault` and `append` -/
def appendField (r : Registry O) (owner : O) (name : String) : Registry O :=
  match Dict.get? r owner with
  | some fs => Dict.set r owner (fs ++ [name])
  | none => Dict.set r owner [name]

/-- part.py 103-120 `_add_field`; `none` is the AssertionError. -/
def addField (r : Registry O) (owner : O) (name : String) : Option (Registry O) :=
  if camelRe name.toList then
    if nameFree r name then
      some (appendField r owner name)
    else none
  else none

/-- One registration, as a caller that catches the error sees it: the registry afterwards and whether
it was accepted. -/
def register (r : Registry O) (on : O × String) : Registry O × Bool :=
  match addField r on.1 on.2 with
  | some r' => (r', true)
  | none => (r, false)

/-- A history of registrations: the registry and what was accepted, in order -/
def registerAll (r : Registry O) : List (O × String) → Registry O × List (O × String)
  | [] => (r, [])
  | on :: l =>
    let s := register r on
    let t := registerAll s.1 l
    (t.1, if s.2 then on :: t.2 else t.2)

/-- part.py 49-54 `get_field`: which owner's field it finds -/
def getField (r : Registry O) (name : String) : Option O :=
  (r.find? (fun of => decide (name ∈ of.2))).map (·.1)

/-- models.py 1287-1309 `BlockModel.set_endpoint_data` for a field, on the list of field names
(`call_types` without `meta`). Names that are used for other things by the model object itself raise:
`meta` must be a BlockMeta (1293-1294), and `notifier` and `path` are overwritten by `setattr` (1305)
before they are used (1307). `none` is the exception. -/
def setEndpoint (fields : List String) (name : String) : Option (List String) :=
  if name = "meta" ∨ name = "notifier" ∨ name = "path" then none
  else if name ∈ fields then some fields else some (fields ++ [name])

/-- A loop that stops at the first exception -/
def setEndpoints : List String → List String → Option (List String)
  | fields, [] => some fields
  | fields, n :: ns =>
    match setEndpoint fields n with
    | some fields' => setEndpoints fields' ns
    | none => none

/-- controller.py 59-61, 91-94 `setup` / `add_initial_part_fields`: the field names of the block -/
def setupBlock (r : Registry O) : Option (List String) := setEndpoints [] r.values.flatten

/-- A controller's parts (by name) and registry -/
structure Ctl (O : Type) where
  parts : Dict String O := []
  registry : Registry O := []
  deriving DecidableEq, Repr

/-- `part.setup`: the part registers its fields one after the other, until one is refused -/
def partSetup (owner : O) : Registry O → List String → Registry O × Bool
  | r, [] => (r, true)
  | r, n :: ns =>
    match addField r owner n with
    | some r' => partSetup owner r' ns
    | none => (r, false)

/-- controller.py 63-68 `add_part`, with whether it raised -/
def addPart (c : Ctl O) (name : String) (owner : O) (fields : List String) : Ctl O × Bool :=
  if Dict.mem c.parts name then (c, false)
  else
    let s := partSetup owner c.registry fields
    if s.2 then ({ parts := Dict.set c.parts name owner, registry := s.1 }, true)
    else ({ c with registry := s.1 }, false)

end Verif.Fields
