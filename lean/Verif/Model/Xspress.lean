import Verif.Model.Odin
import Verif.Model.PyDict
/-!
The writer of an Xspress detector: malcolm/modules/xspress3/parts/xspresswriterpart.py. What it puts in the file that
leads to all others (a VDS, a virtual dataset), what it says is there, and how it counts frames.

Simplified: the directory, which is the same for all files, is left out; a path in the file is its kind and number or
axis, not the text; the arrays that vdsgen lays out are left out, except how many frames it is told each file has.
-/
namespace Verif.Xspress
open Verif

/-- A node of the file -/
inductive Path
  /-- `/raw/mca{i}` -/
  | mca (i : Nat)
  /-- `/raw/uid{i}` -/
  | uid (i : Nat)
  /-- `/raw/scalar_{i}` -/
  | scalar (i : Nat)
  /-- `/raw/dtc` -/
  | dtc
  /-- `/data` -/
  | data
  /-- `/entry/xspress/data` -/
  | entryData
  /-- `/entry/xspress/uid` -/
  | entryUid
  /-- `/entry/xspress/{axis}_set` -/
  | axisSet (axis : String)
  deriving DecidableEq, Repr

/-- Where a node leads: to a dataset of another file, or it is one of this file -/
inductive Node
  /-- dataset `mca_{chan}` of a file -/
  | mca (file : String) (chan : Nat)
  /-- `uid` of a file -/
  | uid (file : String)
  | scalar (file : String) (i : Nat)
  | dtc (file : String)
  /-- the images of all files, `frames` being how many images each file is said to have -/
  | images (files : List String) (frames : List Int)
  /-- the positions of an axis in its dimension -/
  | positions (axis : String) (dim : Nat)
  deriving DecidableEq, Repr

/-- The exceptions of the modelled functions -/
inductive Exc
  | indexError | badValue | zeroDivision | exists | notImplemented
  deriving DecidableEq, Repr

/-- A dimension of the generator -/
structure Dim where
  axes : List String
  size : Nat
  alternate : Bool
  deriving DecidableEq, Repr

/-- xspresswriterpart.py 33 `dict_filewriter` -/
def letters : List String := ["A", "B", "C", "D", "E", "F", "G", "H"]

/-- 193, 425: the name of the file of one writer -/
def fileName (raw letter : String) : String := raw ++ "_" ++ letter ++ "_000000.h5"

/-- 192-195 (and 424-427): `[... dict_filewriter[i] ... for i in range(n)]` -/
def files (raw : String) : Nat → Except Exc (List String)
  | 0 => .ok []
  | n + 1 =>
    match files raw n, letters[n]? with
    | .ok l, some c => .ok (l ++ [fileName raw c])
    | .error e, _ => .error e
    | .ok _, none => .error .indexError

/-- 197, 428 -/
def metaFile (raw : String) : String := raw ++ "_meta.h5"

/-- `vds[path] = ...`: h5py does not replace a node -/
def put (vds : Dict Path Node) (p : Path) (n : Node) : Except Exc (Dict Path Node) :=
  if Dict.mem vds p then .error .exists else .ok (Dict.set vds p n)

/-- 216-225: the links to the channels, from channel `chan` on, `n` of them being left -/
def mcaLoop (perFile : Nat) (files : List String) : Nat → Nat → Nat → Dict Path Node → Except Exc (Dict Path Node)
  | 0, _, _, vds => .ok vds
  | n + 1, chan, counter, vds =>
    let counter := if chan ≥ perFile * (counter + 1) then counter + 1 else counter
    match files[counter]? with
    | none => .error .indexError
    | some f =>
      match put vds (.mca chan) (.mca f chan) with
      | .error e => .error e
      | .ok vds => mcaLoop perFile files n (chan + 1) counter vds

/-- 229-230, 234-237: a link for each number below `n` -/
def linkLoop (path : Nat → Path) (node : Nat → Option Node) : Nat → Nat → Dict Path Node → Except Exc (Dict Path Node)
  | 0, _, vds => .ok vds
  | n + 1, i, vds =>
    match node i with
    | none => .error .indexError
    | some x =>
      match put vds (path i) x with
      | .error e => .error e
      | .ok vds => linkLoop path node n (i + 1) vds

/-- `generator.size` -/
def size (dims : List Dim) : Nat := dims.foldr (fun d n => d.size * n) 1

/-- What is read of the child block -/
structure Child where
  /-- `blockSize` -/
  blockSize : Nat
  /-- `numProcesses` -/
  processes : Nat
  deriving DecidableEq, Repr

/-- 170-240 `create_vds`, with 110-167 `files_shape` (the same function as that of odinwriterpart.py) and `one_vds`.
With no process or no block there is a ZeroDivisionError (112). -/
def createVds (dims : List Dim) (raw : String) (child : Child) (numDatasets : Nat) : Except Exc (Dict Path Node) :=
  if child.processes * child.blockSize = 0 then .error .zeroDivision
  else if (dims.drop 1).any (·.alternate) then .error .badValue
  else match files raw child.processes with
    | .error e => .error e
    | .ok fs =>
      let vds : Dict Path Node := [(.data, .images fs (Odin.filesShape (size dims) child.blockSize child.processes))]
      match mcaLoop (numDatasets / child.processes) fs numDatasets 0 0 vds with
      | .error e => .error e
      | .ok vds =>
        match linkLoop .uid (fun f => fs[f]?.map .uid) child.processes 0 vds with
        | .error e => .error e
        | .ok vds =>
          match linkLoop .scalar (fun i => some (.scalar (metaFile raw) i)) 9 0 vds with
          | .error e => .error e
          | .ok vds => put vds .dtc (.dtc (metaFile raw))

/-- 285-301: the positions of the axes of one dimension -/
def axisLoop (dim : Nat) : List String → Dict Path Node → Except Exc (Dict Path Node)
  | [], vds => .ok vds
  | a :: as, vds =>
    match put vds (.axisSet a) (.positions a dim) with
    | .error e => .error e
    | .ok vds => axisLoop dim as vds

def dimLoop : Nat → List Dim → Dict Path Node → Except Exc (Dict Path Node)
  | _, [], vds => .ok vds
  | i, d :: ds, vds =>
    match axisLoop i d.axes vds with
    | .error e => .error e
    | .ok vds => dimLoop (i + 1) ds vds

/-- 247-303 `add_nexus_nodes`: the hard link (280) leads where `/data` does. An axis is in one dimension only
(scanpointgenerator), so 293-295 is not reached. -/
def addNexus (dims : List Dim) (vds : Dict Path Node) : Except Exc (Dict Path Node) :=
  match Dict.get? vds .data with
  | none => .error .indexError
  | some x =>
    match put vds .entryData x with
    | .error e => .error e
    | .ok vds => dimLoop 0 dims vds

/-- 259-266: the attribute `axes`, `none` being "." -/
def padDims (dims : List Dim) : List (Option String) :=
  dims.map (fun d => match d.axes with | [a] => some a | _ => none) ++ [none, none]

/-- What is used of a DatasetProducedInfo -/
structure Dataset where
  path : Path
  rank : Nat
  uniqueid : Option Path := none
  deriving DecidableEq, Repr

/-- 40-64 `create_dataset_infos` -/
def primaryInfos (dims : List Dim) : List Dataset :=
  ⟨.entryData, dims.length + 2, some .entryUid⟩ :: (dims.flatMap (·.axes)).map (fun a => ⟨.axisSet a, 1, none⟩)

/-- 67-107 `create_raw_dataset_infos` -/
def rawInfos (rank numDatasets pairs : Nat) : List Dataset :=
  (List.range numDatasets).map (fun i => ⟨.mca i, rank, none⟩) ++
  (List.range 9).map (fun i => ⟨.scalar i, rank, none⟩) ++
  (List.range pairs).map (fun i => ⟨.uid i, rank, none⟩) ++ [⟨.dtc, rank, none⟩]

/-- 376-380: the number of frames in a chunk, for an exposure in units of which there are `perSecond` in a second -/
def chunk (perSecond exposure : Nat) : Nat :=
  let c := perSecond / exposure
  let c := if c < 1 then 1 else c
  if c ≥ 4000 then 4096 else c

/-- The part. `num_pairs` and `num_datasets` are arguments of its constructor (318-332). -/
structure Part where
  pairs : Nat
  datasets : Nat
  /-- `done_when_reaches` -/
  doneWhen : Int := 0
  /-- `unique_id_offset` -/
  offset : Int := 0
  deriving DecidableEq, Repr

/-- 359-439 `on_configure`: the file that was made, the datasets announced, the frames in a chunk; for template and
format that give `raw`. The duration is that of the generator; with none there is a ZeroDivisionError (376). -/
def onConfigure (p : Part) (child : Child) (raw : String) (dims : List Dim) (perSecond duration : Nat)
    (completed toDo : Int) : Except Exc (Part × Dict Path Node × List Dataset × Nat) :=
  let p := { p with doneWhen := completed + p.pairs * toDo, offset := 0 }
  if duration = 0 then .error .zeroDivision
  else match createVds dims raw child p.datasets with
    | .error e => .error e
    | .ok vds =>
      match addNexus dims vds with
      | .error e => .error e
      | .ok vds =>
        match files raw p.pairs with
        | .error e => .error e
        | .ok _ => .ok (p, vds, primaryInfos dims ++ rawInfos (dims.length + 2) p.datasets p.pairs,
            chunk perSecond duration)

/-- 352-354 `on_pause` -/
def onPause (_ : Part) : Except Exc Part := .error .notImplemented

/-- 442-458 `on_seek` -/
def onSeek (p : Part) (completed toDo : Int) : Part :=
  { p with offset := completed - p.doneWhen, doneWhen := p.doneWhen + toDo }

/-- 473-478 `on_post_run_armed` -/
def onPostRunArmed (p : Part) (toDo : Int) : Part := { p with doneWhen := p.doneWhen + p.pairs * toDo }

/-- 461-470 `on_run`: is it over when `numCaptured` has this value? -/
def runOver (p : Part) (captured : Int) : Bool := decide (captured = p.doneWhen)

/-- 490-493 `update_completed_steps`: what is reported -/
def progress (p : Part) (captured : Int) : Int := captured + p.offset

end Verif.Xspress
