import Verif.Model.Design
import Verif.Model.PandABlock
/-!
The files of the designs of blocks: malcolm/modules/builtin/controllers/managercontroller.py 143-155 (`do_init`), 411-452 (`save`), 454-500
(`_set_layout_names`, `_validated_config_filename`, `_make_config_dir`), 502-517 (`set_design`), 552-564 (`_mark_clean`), with statefulcontroller.py 152-168
(`try_stateful_function`).

Simplified: what a design says is a text (Model/Design.lean has the rest); whether a text that was read can be put into effect is given with the event. The
directory of each block is there (`_make_config_dir`). A block is Ready or in Fault, `init` is done. Links, access rights, full disks and names that no file can
have are left out, and so are puts of the index of a design.
-/
namespace Verif.DesignFiles
open Verif
open Verif.Design (stem)
open Verif.PandABlock (sortTexts)

abbrev Name := List Char
/-- A file or directory by the names on the way to it, from the root -/
abbrev Path := List Name

/-- The disk: files with their texts, and directories -/
structure Disk where
  files : Dict Path (List Char)
  dirs : List Path
  deriving DecidableEq, Repr

/-- managercontroller.py 65-78, 114: the directory of designs, `config_dir` with the mri, that of templates if there is one, and the attribute `design` with its choices -/
structure Block where
  dir : Path
  templates : Option Path
  design : Name := []
  choices : List Name := []
  fault : Bool := false
  deriving DecidableEq, Repr

/-! ### Paths: open() and os.path.join, managercontroller.py 448, 490, 516 -/

/-- The names between slashes: managercontroller.py 490 -/
def split : List Char → List Name
  | [] => [[]]
  | c :: cs =>
    match split cs with
    | [] => [[c]]
    | n :: ns => if c = '/' then [] :: n :: ns else (c :: n) :: ns

/-- Where a path of names leads from a directory, if all but the last are directories: managercontroller.py 448, 516 -/
def walk (dirs : List Path) (cur : Path) : List Name → Option Path
  | [] => none
  | [n] => some (cur ++ [n])
  | n :: m :: ns =>
    if n = [] ∨ n = ['.'] then walk dirs cur (m :: ns)
    else if n = ['.', '.'] then walk dirs cur.dropLast (m :: ns)
    else if cur ++ [n] ∈ dirs then walk dirs (cur ++ [n]) (m :: ns)
    else none

/-- managercontroller.py 458, 490 -/
def json : Name := ['.', 'j', 's', 'o', 'n']
/-- managercontroller.py 421, 465, 484 -/
def templatePre : Name := ['t', 'e', 'm', 'p', 'l', 'a', 't', 'e', '_']

/-- managercontroller.py 485-491 `_validated_config_filename`, and the file it leads to. A name that begins with a slash leaves the directory out. The path of templates
is empty if there is none, which leads to the current directory: no file is there -/
def target (d : Disk) (b : Block) (name : Name) : Option Path :=
  let from_ := if templatePre.isPrefixOf name then b.templates else some b.dir
  match from_ with
  | none => none
  | some dir => walk d.dirs (if (stem name).head? = some '/' then [] else dir) (split (stem name ++ json))

/-! ### The names on offer -/

/-- What is in a directory, of these paths: managercontroller.py 457, 464 -/
def entries (paths : List Path) (dir : Path) : List Name :=
  paths.filterMap fun p => if p ≠ [] ∧ p.dropLast = dir then p.getLast? else none

/-- managercontroller.py 455-459 -/
def ownNames (d : Disk) (b : Block) : List Name :=
  [] :: ((entries d.files.keys b.dir).filter (json.isSuffixOf ·)).map stem

/-- managercontroller.py 463-471: `none` if the assertion fails -/
def templateNames (d : Disk) (b : Block) (names : List Name) : Option (List Name) :=
  match b.templates with
  | none => some names
  | some t =>
    let fs := sortTexts (entries (d.files.keys ++ d.dirs) t)
    if fs.all (fun f => templatePre.isPrefixOf f && json.isSuffixOf f) then
      some ((fs.map stem).foldl (fun names t => if t ∈ names then names else names ++ [t]) names)
    else none

/-- managercontroller.py 454-472 `_set_layout_names` -/
def offer (d : Disk) (b : Block) (extra : Name) : Option (List Name) :=
  let names := ownNames d b
  let names := if extra ≠ [] ∧ extra ∉ names then names ++ [extra] else names
  templateNames d b (sortTexts names)

/-- managercontroller.py 552-564 `_mark_clean` -/
def markClean (d : Disk) (b : Block) (design : Name) : Block :=
  match offer d b design with
  | none => { b with fault := true }
  | some names => { b with choices := names, design }

/-! ### save and load -/

/-- managercontroller.py 448: the file can be opened to write -/
def openW (d : Disk) (b : Block) (name : Name) : Option Path :=
  match target d b name with
  | none => none
  | some p => if p ∈ d.dirs then none else some p

/-- managercontroller.py 448-449 -/
def put (d : Disk) (p : Path) (text : List Char) : Disk := { d with files := d.files.set p text }

/-- managercontroller.py 418-419 -/
def named (b : Block) (name : Name) : Name := if name = [] then b.design else name

/-- managercontroller.py 418-421, 445-448: the file that a save goes to -/
def saveTo (d : Disk) (b : Block) (name : Name) : Option Path :=
  if named b name = [] ∨ templatePre.isPrefixOf (named b name) then none else openW d b (named b name)

/-- managercontroller.py 411-452 `save`, which is refused unless the block is Ready -/
def save (d : Disk) (b : Block) (name : Name) (text : List Char) : Disk × Block :=
  if b.fault then (d, b)
  else match saveTo d b name with
    | none => (d, { b with fault := true })
    | some p => (put d p text, markClean (put d p text) b (named b name))

/-- managercontroller.py 448-449: the disk if the process ends during a save, after so many steps. The first empties the file, the others write a character each -/
def crash (d : Disk) (b : Block) (name : Name) (text : List Char) : Nat → Disk
  | 0 => d
  | k + 1 => if b.fault then d else match saveTo d b name with
    | none => d
    | some p => put d p (text.take k)

/-- managercontroller.py 514-516: what is read of a design -/
def readDesign (d : Disk) (b : Block) (name : Name) : Option (List Char) :=
  match target d b name with
  | none => none
  | some p => d.files.get? p

/-- managercontroller.py 506-550 `do_load`; `ok`: whether what was read can be put into effect -/
def doLoad (d : Disk) (b : Block) (name : Name) (ok : Bool) : Block :=
  if name = [] then (if ok then markClean d b name else { b with fault := true })
  else match readDesign d b name with
    | none => { b with fault := true }
    | some _ => if ok then markClean d b name else { b with fault := true }

/-- managercontroller.py 502-504 `set_design`: a name that is not on offer is refused -/
def load (d : Disk) (b : Block) (name : Name) (ok : Bool) : Block :=
  if b.fault ∨ name ∉ b.choices then b else doLoad d b name ok

/-- managercontroller.py 143-155 `do_init`, without an initial design -/
def start (d : Disk) (b : Block) : Block :=
  match offer d b [] with
  | none => { b with design := [], fault := true }
  | some names => { b with choices := names, design := [], fault := false }

/-! ### Histories -/

/-- The process or processes with their blocks: managercontroller.py 65-78 -/
structure World where
  disk : Disk
  blocks : List Block
  deriving DecidableEq, Repr

/-- What can happen -/
inductive Ev
  | save (i : Nat) (name : Name) (text : List Char)
  | load (i : Nat) (name : Name) (ok : Bool)
  /-- a block is reset: statefulcontroller.py 103-110 -/
  | reset (i : Nat)
  /-- the process of a block ends during a save and is started again -/
  | crash (i : Nat) (name : Name) (text : List Char) (k : Nat)
  /-- somebody writes a file -/
  | write (p : Path) (text : List Char)
  deriving DecidableEq

/-- One event: managercontroller.py 143-155, 411-452, 502-504 -/
def step (w : World) : Ev → World
  | .save i name text =>
    match w.blocks[i]? with
    | none => w
    | some b => { disk := (save w.disk b name text).1, blocks := w.blocks.set i (save w.disk b name text).2 }
  | .load i name ok =>
    match w.blocks[i]? with
    | none => w
    | some b => { w with blocks := w.blocks.set i (load w.disk b name ok) }
  | .reset i =>
    match w.blocks[i]? with
    | none => w
    | some b => { w with blocks := w.blocks.set i { b with fault := false } }
  | .crash i name text k =>
    match w.blocks[i]? with
    | none => w
    | some b => { disk := crash w.disk b name text k, blocks := w.blocks.set i (start (crash w.disk b name text k) b) }
  | .write p text => { w with disk := put w.disk p text }

/-- A history: managercontroller.py 143-155, 411-452, 502-504 -/
def run (w : World) (es : List Ev) : World := es.foldl step w

/-- Blocks that were just made, on a disk: managercontroller.py 143-155 -/
def init (d : Disk) (bs : List Block) : World := ⟨d, bs.map (start d)⟩

end Verif.DesignFiles
