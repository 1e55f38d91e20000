import Verif.Model.Odin
import Verif.Model.PyDict
/-!
The writer of an Odin detector: malcolm/modules/ADOdin/parts/odinwriterpart.py. What it puts in the file that leads to all others (a VDS, a
virtual dataset), what it says is there, where the files are, and how it counts frames.

Simplified: a path in the file is its kind and number or axis, not the text; the arrays that vdsgen lays out are left out, except which
dataset of which files it is told to join, and how many frames it is told each file has; that the writer's processes call their files
`{filePath}{fileName}_{number}.h5`, with numbers from 1 on, is taken from what the code expects (179-181); `on_seek` (429-445) is left out, as `on_pause`, which is called before it
(runnablecontroller.py 701), raises.
-/
namespace Verif.OdinFile
open Verif

abbrev Text := List Char

/-! ### names -/

/-- `fileTemplate.replace("%s", new)`, odinwriterpart.py 374, 380 -/
def replace (new : Text) : Text → Text
  | '%' :: 's' :: rest => new ++ replace new rest
  | c :: rest => c :: replace new rest
  | [] => []

/-- `s.rstrip("/")`, odinwriterpart.py 371 -/
def rstrip (s : Text) : Text := (s.reverse.dropWhile (· = '/')).reverse

/-- `os.path.join(a, b)`, odinwriterpart.py 377, 180 -/
def join (a b : Text) : Text :=
  if b.head? = some '/' then b
  else if a = [] ∨ a.getLast? = some '/' then a ++ b
  else a ++ '/' :: b

/-- the part of a path after its last "/", and what is before it with the "/"; for odinwriterpart.py 157, 381 -/
def lastPart (p : Text) : Text × Text :=
  ((p.reverse.dropWhile (· ≠ '/')).reverse, (p.reverse.takeWhile (· ≠ '/')).reverse)

/-- `os.path.split(p)`, odinwriterpart.py 157 -/
def split (p : Text) : Text × Text :=
  let h := (lastPart p).1
  (if h.all (· = '/') then h else rstrip h, (lastPart p).2)

/-- `os.path.splitext(p)[0]`, odinwriterpart.py 381: what is before the last "." of the last part, if there is anything but "." before it -/
def root (p : Text) : Text :=
  let name := (lastPart p).2
  match name.reverse.dropWhile (· ≠ '.') with
  | [] => p
  | _ :: stem => if stem.any (· ≠ '.') then (lastPart p).1 ++ stem.reverse else p

/-- `f"{n:06d}"`, odinwriterpart.py 180 -/
def pad6 (n : Nat) : Text := List.replicate (6 - (Nat.toDigits 10 n).length) '0' ++ Nat.toDigits 10 n

/-- What a user gives: odinwriterpart.py 361-363 -/
structure Names where
  fileDir : Text
  format : Text := "odin".toList
  template : Text := "%s.h5".toList

/-- odinwriterpart.py 374: the name of the VDS that is told -/
def Names.vdsName (n : Names) : Text := replace n.format n.template

/-- odinwriterpart.py 377: where the VDS is -/
def Names.vds (n : Names) : Text := join n.fileDir n.vdsName

/-- odinwriterpart.py 380-381: the name that the writer gets -/
def Names.raw (n : Names) : Text := root (replace (n.format ++ "_raw_data".toList) n.template)

/-- odinwriterpart.py 371, 389: the directory that the writer gets -/
def Names.filePath (n : Names) : Text := rstrip n.fileDir ++ ['/']

/-- odinwriterpart.py 386-392: where the writer's process number `i` (from 0) writes when it is told this -/
def Names.written (n : Names) (i : Nat) : Text := n.filePath ++ n.raw ++ '_' :: pad6 (i + 1) ++ ".h5".toList

/-- odinwriterpart.py 179-181: where the VDS looks for what process number `i` has written -/
def Names.linked (n : Names) (i : Nat) : Text := join (split n.vds).1 (n.raw ++ '_' :: pad6 (i + 1) ++ ".h5".toList)

/-! ### the file -/

/-- The datasets of a frame: odinwriterpart.py 240-241 -/
inductive Kind
  | data | sum | uid
  deriving DecidableEq, Repr

/-- A node of the file -/
inductive Path
  /-- `/process/{kind}_interleave`, odinwriterpart.py 135 -/
  | interleave (k : Kind)
  /-- `/{kind}`, odinwriterpart.py 146 -/
  | top (k : Kind)
  /-- `/raw{i}` -/
  | raw (i : Nat)
  /-- `/uid{i}` -/
  | uid (i : Nat)
  /-- `/entry/detector/{name}`, `/entry/detector_{group}/{name}` -/
  | entry (group : Option Text) (name : Text)
  deriving DecidableEq, Repr

/-- Where a node leads -/
inductive Node
  /-- a dataset of another file, odinwriterpart.py 199-203 -/
  | link (file dataset : Text)
  /-- the frames of a dataset of several files, in blocks, `frames` being how many each has: odinwriterpart.py 129-140 -/
  | joined (files : List Text) (dataset : Text) (block : Nat) (frames : List Int)
  /-- the same in the shape of the scan: odinwriterpart.py 142-153 -/
  | shaped (of : Path) (shape : List Nat)
  /-- the positions of an axis in its dimension: odinwriterpart.py 287-297 -/
  | positions (axis : Text) (dim : Nat)
  deriving DecidableEq, Repr

/-- The exceptions of the modelled functions -/
inductive Exc
  | badValue | zeroDivision | exists | missing | noExtension | notImplemented
  deriving DecidableEq, Repr

/-- A dimension of the generator -/
structure Dim where
  axes : List Text
  size : Nat
  alternate : Bool := false
  deriving DecidableEq, Repr

/-- `generator.size`, odinwriterpart.py 166 -/
def size (dims : List Dim) : Nat := dims.foldr (fun d n => d.size * n) 1

/-- `vds[path] = …`: h5py does not replace a node; odinwriterpart.py 202-203, 276 -/
def put (vds : Dict Path Node) (p : Path) (n : Node) : Except Exc (Dict Path Node) :=
  if Dict.mem vds p then .error .exists else .ok (Dict.set vds p n)

/-- one after the other, as in odinwriterpart.py 183-237 -/
def putAll : List (Path × Node) → Dict Path Node → Except Exc (Dict Path Node)
  | [], vds => .ok vds
  | (p, n) :: l, vds =>
    match put vds p n with
    | .error e => .error e
    | .ok vds => putAll l vds

/-- What is read of the child block: odinwriterpart.py 159-163 -/
structure Child where
  blockSize : Nat
  /-- `numProcesses` -/
  processes : Nat
  deriving DecidableEq, Repr

/-- The part's names of the datasets: odinwriterpart.py 316-328 -/
structure Part where
  uidName : Text := "uid".toList
  sumName : Text := "sum".toList
  secondary : Text := "sum".toList
  /-- `done_when_reaches` -/
  doneWhen : Int := 0
  /-- `unique_id_offset` -/
  offset : Int := 0
  deriving DecidableEq, Repr

/-- odinwriterpart.py 114-153 `one_vds` -/
def oneVds (files : List Text) (dims : List Dim) (child : Child) (source : Text) (target : Kind) : List (Path × Node) :=
  [(.interleave target, .joined files source child.blockSize (Odin.filesShape (size dims) child.blockSize child.processes)),
   (.top target, .shaped (.interleave target) (dims.map Dim.size))]

/-- odinwriterpart.py 199-204: the links to the files, `count` being the number of the first -/
def links : List Text → Nat → List (Path × Node)
  | [], _ => []
  | f :: fs, count => (.raw count, .link f "/data".toList) :: (.uid count, .link f "/uid".toList) :: links fs (count + 1)

/-- odinwriterpart.py 179-181 -/
def files (n : Names) (child : Child) : List Text := (List.range child.processes).map n.linked

/-- odinwriterpart.py 156-237 `create_vds`. With no process or no block there is a ZeroDivisionError (98). -/
def createVds (n : Names) (dims : List Dim) (child : Child) (p : Part) : Except Exc (Dict Path Node) :=
  if child.processes * child.blockSize = 0 then .error .zeroDivision
  else if (dims.drop 1).any (·.alternate) then .error .badValue
  else putAll (oneVds (files n child) dims child "data".toList .data ++ links (files n child) 1 ++
    oneVds (files n child) dims child p.uidName .uid ++ oneVds (files n child) dims child p.sumName .sum) []

/-- odinwriterpart.py 240 `set_bases`: the group of each kind -/
def groupOf : Kind → Option Text
  | .data => none
  | .sum => some "sum".toList
  | .uid => some "uid".toList

/-- odinwriterpart.py 241 `set_data` -/
def nameOf : Kind → Text
  | .data => "data".toList
  | .sum => "sum".toList
  | .uid => "uid".toList

/-- `f"{axis}_set"`, odinwriterpart.py 68, 259 -/
def setName (axis : Text) : Text := axis ++ "_set".toList

/-- odinwriterpart.py 281-297: the positions of the axes, from dimension `i` on. An axis is in one dimension only (scanpointgenerator), so
289-291 is not reached. -/
def axisNodes (k : Kind) : Nat → List Dim → List (Path × Node)
  | _, [] => []
  | i, d :: ds => d.axes.map (fun a => (.entry (groupOf k) (setName a), .positions a i)) ++ axisNodes k (i + 1) ds

/-- odinwriterpart.py 266-299: one kind; the hard link (276) leads where the dataset does -/
def addKind (dims : List Dim) (k : Kind) (vds : Dict Path Node) : Except Exc (Dict Path Node) :=
  match Dict.get? vds (.top k) with
  | none => .error .missing
  | some x => putAll ((.entry (groupOf k) (nameOf k), x) :: axisNodes k 0 dims) vds

/-- odinwriterpart.py 244-301 `add_nexus_nodes` -/
def addNexus (dims : List Dim) (vds : Dict Path Node) : Except Exc (Dict Path Node) :=
  match addKind dims .data vds with
  | .error e => .error e
  | .ok vds =>
    match addKind dims .sum vds with
    | .error e => .error e
    | .ok vds => addKind dims .uid vds

/-- What is used of a DatasetProducedInfo -/
structure Dataset where
  path : Path
  rank : Nat
  uniqueid : Option Path := none
  deriving DecidableEq, Repr

/-- odinwriterpart.py 35-70 `create_dataset_infos` -/
def infos (secondary : Text) (dims : List Dim) : List Dataset :=
  [⟨.entry none "data".toList, dims.length + 2, some (.entry (some "uid".toList) "uid".toList)⟩,
   ⟨.entry (some secondary) secondary, dims.length + 2, some (.entry (some "uid".toList) "uid".toList)⟩] ++
  (dims.flatMap (·.axes)).map (fun a => ⟨.entry none (setName a), 1, none⟩)

/-- odinwriterpart.py 73-94 `create_raw_dataset_infos` -/
def rawInfos (rank nRaw : Nat) : List Dataset :=
  (List.range (nRaw + 1)).map (fun i => ⟨.raw (i + 1), rank, none⟩) ++ (List.range (nRaw + 1)).map (fun i => ⟨.uid (i + 1), rank, none⟩)

/-- odinwriterpart.py 355-426 `on_configure`: the part, the file that was made, and the datasets announced -/
def onConfigure (p : Part) (n : Names) (child : Child) (dims : List Dim) (completed toDo : Int) :
    Except Exc (Part × Dict Path Node × List Dataset) :=
  let p := { p with doneWhen := completed + toDo, offset := 0 }
  if '.' ∉ n.vds then .error .noExtension
  else match createVds n dims child p with
    | .error e => .error e
    | .ok vds =>
      match addNexus dims vds with
      | .error e => .error e
      | .ok vds => .ok (p, vds, infos p.secondary dims ++ rawInfos (dims.length + 2) child.processes)

/-! ### the frames -/

/-- odinwriterpart.py 348-350 `on_pause` -/
def onPause (_ : Part) : Except Exc Part := .error .notImplemented

/-- odinwriterpart.py 459-465 `on_post_run_armed` -/
def onPostRunArmed (p : Part) (toDo : Int) : Part := { p with doneWhen := p.doneWhen + toDo }

/-- odinwriterpart.py 447-457 `on_run`: is it over when `numCaptured` has this value? -/
def runOver (p : Part) (captured : Int) : Bool := decide (captured = p.doneWhen)

/-- odinwriterpart.py 477-480 `update_completed_steps`: what is reported -/
def progress (p : Part) (captured : Int) : Int := captured + p.offset

end Verif.OdinFile
