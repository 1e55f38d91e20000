import Verif.Model.Yaml
/-!
How block definitions in YAML are put together: malcolm/yamlutil.py 31-50, 89-110, 137-248, malcolm/imalcolm.py 145-156 and the part of
malcolm/core/controller.py 63-68 and core/process.py 214-229 that this reaches. How texts are filled in and arguments are bound is
`Model/Yaml.lean`.

Simplified: which python package has what under a name is a function (`World.found`), and what the constructor of a part or controller
class makes of its arguments is the name of the part or controller, or a refusal (`World.make`); arguments of blocks and includes are
texts; making a define or a parameter does not fail; `part.setup` (controller.py 67) is left out.
-/
namespace Verif.Compose
open Verif Verif.Yaml

/-- The sections of a file, with what is written under them: yamlutil.py 17, 182-201 -/
inductive Body
  | parameter (name : Text) (default : Option Text)
  | define (name value : Text)
  | part (cls : Text) (params : Dict Text Val)
  | controller (cls : Text) (params : Dict Text Val)
  | block (name : Text) (params : Dict Text Text)
  | incl (name : Text) (params : Dict Text Text)

/-- A section: yamlutil.py 182-201 -/
structure Sec where
  line : Nat
  body : Body

/-- A file as read by `from_yaml`, yamlutil.py 251-286 -/
structure File where
  path : Text
  /-- `yamlname` -/
  name : Text
  /-- `yamldir` -/
  dir : Text
  sections : List Sec

/-- yamlutil.py 17 SECTION_NAMES -/
def sectionNames : List Text :=
  ["parameters".toList, "controllers".toList, "parts".toList, "blocks".toList, "includes".toList, "defines".toList]

/-- `name.split(".")`, yamlutil.py 187 -/
def splitDots : Text → List Text
  | [] => [[]]
  | c :: cs =>
    if c = '.' then [] :: splitDots cs
    else match splitDots cs with
      | [] => [[c]]
      | w :: ws => (c :: w) :: ws

/-- yamlutil.py 187-196: which kind of section a name is for; `none` is the YamlError -/
def sectionOf (name : Text) : Option Text :=
  match splitDots name with
  | [_, s, _] => if s ∈ sectionNames then some s else none
  | _ => none

/-- what is used of a section in Model/Yaml.lean: yamlutil.py 60, 67 -/
def Sec.yaml (s : Sec) : Section :=
  match s.body with
  | .parameter n d => .parameter n d
  | .define n v => .define n v
  | _ => .user

/-- the sections of a file in Model/Yaml.lean: yamlutil.py 59-69 -/
def File.yaml (f : File) : List Section := f.sections.map Sec.yaml

/-- A part: what it was made of and its name, yamlutil.py 46-48 -/
structure Part where
  cls : Text
  params : Dict Text Val
  name : Text

/-- A controller with its parts, yamlutil.py 169-171 -/
structure Ctrl where
  cls : Text
  params : Dict Text Val
  mri : Text
  parts : List Part

/-- Why making something failed -/
inductive Cause
  /-- yamlutil.py 221-224 -/
  | noModule
  /-- yamlutil.py 228-233 -/
  | noIdent
  /-- an exception other than ImportError while the module is imported, such as yamlutil.py 97-99, 159-161 -/
  | broken
  /-- yamlutil.py 236 -/
  | arguments
  /-- the constructor raised: yamlutil.py 237 -/
  | refused
  /-- controller.py 64-66 -/
  | duplicatePart
  /-- RecursionError -/
  | recursion
  /-- imalcolm.py 153 -/
  | partsOnTop
  /-- process.py 225-227 -/
  | duplicateMri
  deriving DecidableEq, Repr

/-- An exception: the lines of files that were put in front of its message, outermost first (yamlutil.py 238-246) -/
structure Err where
  trace : List (Text × Nat) := []
  cause : Cause
  deriving DecidableEq, Repr

/-- What is found under a name: yamlutil.py 217-227 -/
inductive Found
  | noModule
  /-- another file of the same package is not as it has to be -/
  | broken
  | noIdent
  /-- a creator made from a file -/
  | file (f : File)
  /-- a class -/
  | cls

/-- What there is besides the files -/
structure World where
  found : Text → Found
  /-- the name of the part, or the mri of the controller -/
  make : Text → Dict Text Val → Option Text

/-- What a creator is made for -/
inductive Kind
  | block | incl
  deriving DecidableEq, Repr

/-- yamlutil.py 96, 158 -/
def File.controllers (f : File) : List (Text × Dict Text Val) :=
  f.sections.filterMap fun s => match s.body with
    | .controller cls params => some (cls, params)
    | _ => none

/-- yamlutil.py 97-99, 159-161: is the file as it has to be? -/
def File.fits (f : File) : Kind → Bool
  | .block => f.controllers.length == 1
  | .incl => f.controllers.length == 0

/-- yamlutil.py 288-306 `substitute_params` -/
def fill (d : Dict Text Text) (params : Dict Text Val) : Dict Text Val :=
  params.map fun kv => (kv.1, replaceSubstitutions d kv.2)

/-- the same for texts: yamlutil.py 288-306 -/
def fillTexts (d : Dict Text Text) (params : Dict Text Text) : Dict Text Text :=
  params.map fun kv => (kv.1, substText d kv.2)

/-- yamlutil.py 238-246: file and line are put in front; those of what was called (239-240) are left out -/
def located {α : Type} (f : File) (line : Nat) : Except Err α → Except Err α
  | .ok x => .ok x
  | .error e => .error { e with trace := (f.path, line) :: e.trace }

/-- yamlutil.py 216-248 `instantiate` of a class -/
def instantiateClass (w : World) (f : File) (line : Nat) (cls : Text) (params : Dict Text Val) : Except Err Text :=
  match w.found cls with
  | .noModule => located f line (.error { cause := .noModule })
  | .broken => .error { cause := .broken }
  | .noIdent => located f line (.error { cause := .noIdent })
  | _ =>
    match w.make cls params with
    | some name => .ok name
    | none => located f line (.error { cause := .refused })

/-- yamlutil.py 216-248 `instantiate` of a creator, `call` being what calling it does. The file is read when its module is imported (220),
where only an ImportError is caught. -/
def instantiateFile {α : Type} (w : World) (f : File) (line : Nat) (k : Kind) (name : Text) (call : File → Except Err α) : Except Err α :=
  match w.found name with
  | .noModule => located f line (.error { cause := .noModule })
  | .broken => .error { cause := .broken }
  | .noIdent => located f line (.error { cause := .noIdent })
  | .cls => located f line (.error { cause := .refused })
  | .file g => if g.fits k then located f line (call g) else .error { cause := .broken }

/-- yamlutil.py 37-48: what one section adds to the controllers and to the parts -/
def sectionMakes (w : World) (call : Kind → File → Dict Text Text → Except Err (List Ctrl × List Part)) (f : File) (d : Dict Text Text)
    (s : Sec) : Except Err (List Ctrl × List Part) :=
  match s.body with
  | .block name params => instantiateFile w f s.line .block name (fun g => call .block g (fillTexts d params))
  | .incl name params => instantiateFile w f s.line .incl name (fun g => call .incl g (fillTexts d params))
  | .part cls params =>
    match instantiateClass w f s.line cls (fill d params) with
    | .ok name => .ok ([], [⟨cls, fill d params, name⟩])
    | .error e => .error e
  | _ => .ok ([], [])

/-- yamlutil.py 31-50 `_create_blocks_and_parts` -/
def blocksAndParts (one : Sec → Except Err (List Ctrl × List Part)) : List Sec → Except Err (List Ctrl × List Part)
  | [] => .ok ([], [])
  | s :: ss =>
    match one s with
    | .error e => .error e
    | .ok (c, p) =>
      match blocksAndParts one ss with
      | .error e => .error e
      | .ok (cs, ps) => .ok (c ++ cs, p ++ ps)

/-- yamlutil.py 170-171 with controller.py 63-68: the parts of a controller that has some already -/
def addParts : List Part → List Part → Except Err (List Part)
  | has, [] => .ok has
  | has, p :: ps => if p.name ∈ has.map (·.name) then .error { cause := .duplicatePart } else addParts (has ++ [p]) ps

/-- yamlutil.py 158: is this the section of the controller? -/
def isController (s : Sec) : Bool :=
  match s.body with
  | .controller _ _ => true
  | _ => false

/-- yamlutil.py 168-173: the controller comes last -/
def finish (w : World) (f : File) (d : Dict Text Text) (cs : List Ctrl) (ps : List Part) : Except Err (List Ctrl × List Part) :=
  match f.sections.find? isController with
  | none => .error { cause := .broken }
  | some s =>
    match s.body with
    | .controller cls params =>
      match instantiateClass w f s.line cls (fill d params) with
      | .error e => .error e
      | .ok mri =>
        match addParts [] ps with
        | .error e => .error e
        | .ok has => .ok (cs ++ [⟨cls, fill d params, mri, has⟩], [])
    | _ => .error { cause := .broken }

/-- yamlutil.py 101-104 `include_creator` and 163-173 `block_creator`, called with `given`, at most so many deep -/
def create (w : World) : Nat → Kind → File → Dict Text Text → Except Err (List Ctrl × List Part)
  | 0, _, _, _ => .error { cause := .recursion }
  | n + 1, k, f, given =>
    match bindArgs f.yaml given with
    | none => .error { cause := .arguments }
    | some params =>
      let d := createDefines f.yaml f.name f.dir params
      match blocksAndParts (sectionMakes w (create w n) f d) f.sections with
      | .error e => .error e
      | .ok (cs, ps) =>
        match k with
        | .incl => .ok (cs, ps)
        | .block => finish w f d cs ps

/-- process.py 224-228, for one after the other: the mris of the process -/
def addControllers : List Text → List Ctrl → Except Err (List Text)
  | has, [] => .ok has
  | has, c :: cs => if c.mri ∈ has then .error { cause := .duplicateMri } else addControllers (has ++ [c.mri]) cs

/-- imalcolm.py 149-155: what the process started with a file has -/
def startUp (w : World) (depth : Nat) (f : File) : Except Err (List Ctrl) :=
  if f.fits .incl then
    match create w depth .incl f [] with
    | .error e => .error e
    | .ok (cs, ps) =>
      if ps.isEmpty then
        match addControllers [] cs with
        | .error e => .error e
        | .ok _ => .ok cs
      else .error { cause := .partsOnTop }
  else .error { cause := .broken }

end Verif.Compose
