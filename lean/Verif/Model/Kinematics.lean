import Verif.Model.PmacUtil
import Mathlib.Algebra.Order.Field.Rat
/-!
The files for Savu, which works out where the compound motors were from where the raw motors were:
malcolm/modules/ADPandABlocks/parts/kinematicssavupart.py, and malcolm/modules/pmac/util.py 112-138.

Simplified: file names are left out, as are the texts that are copied as they are (the program, the list of
processes); the text with the variables is given cut at its spaces and at "=".
-/
namespace Verif.Kinematics
open Verif Verif.PmacUtil

/-- pandablocks/util.py 44-58 `PositionCapture`, as far as it is told apart -/
inductive Capture
  | no | value | mean | minMaxMean | other
  deriving DecidableEq, Repr

/-- A row of the positions table of the PandA, as used in kinematicssavupart.py 177-187 and 274-276: `datasetName`, `capture`, `scale` and `offset` -/
structure Pos where
  name : String
  capture : Capture
  scale : ℚ
  offset : ℚ
  deriving DecidableEq

/-- which of the three datasets of a position, kinematicssavupart.py 174, 192-194, 217-222 -/
inductive Kind
  | mean | min | max
  deriving DecidableEq, Repr

/-- A DatasetProducedInfo of another part, as used in kinematicssavupart.py 215-246. `kind` is `none` for a type that is not a position. -/
structure Info where
  name : String
  kind : Option Kind
  file : String
  path : String
  deriving DecidableEq, Repr

/-- A row of the layout table of the PMAC, as used in pmac/util.py 120-131: `axisNumber` is `none` if the block has none or it is 0 -/
structure Row where
  name : String
  motor : Motor
  number : Option Nat

/-- The exceptions of kinematicssavupart.py 144, 168, 190, 224, 295, 274, 346 -/
inductive Exc
  | mapping (e : Err) | noPort | noDataset | noValue | badVariables | notInTable | exists
  deriving DecidableEq, Repr

/-- The part, kinematicssavupart.py 67-82: what it keeps from configure -/
structure Part where
  /-- `cs_port` -/
  port : Option Text := none
  /-- `axis_numbers` -/
  numbers : Dict String Nat := []
  /-- `pos_table` -/
  pos : List Pos := []
  /-- `q_value_mapping` -/
  q : Dict Nat String := []
  /-- `use_min_max` -/
  minMax : Bool := true

/-- pmac/util.py 132 `cs.split(",", 1)[0]` -/
def portOf (cs : Text) : Text := cs.takeWhile (fun c => decide (c ≠ ','))

/-- pmac/util.py 112-138 `cs_axis_numbers` -/
def axisNumbers (port : Text) : List Row → Dict String Nat → Dict String Nat
  | [], d => d
  | r :: rs, d =>
    match r.number with
    | some k => if r.motor.cs ≠ [] ∧ portOf r.motor.cs = port then axisNumbers port rs (Dict.set d r.name k)
        else axisNumbers port rs d
    | none => axisNumbers port rs d

/-- kinematicssavupart.py 154-157: the number of the Q variable of each compound motor -/
def qLoop : List (String × MotorInfo) → Dict Nat String → Dict Nat String
  | [], d => d
  | (n, i) :: l, d =>
    match csAxisNames.idxOf? i.csAxis with
    | some k => qLoop l (Dict.set d (k + 1) n)
    | none => qLoop l d

/-- kinematicssavupart.py 176-187: `dataset_i` and `use_min_max` after looking through the table for one scannable -/
def findPos (scannable : String) : Nat → List Pos → Option Nat → Bool → Option Nat × Bool
  | _, [], i, mm => (i, mm)
  | ind, p :: ps, i, mm =>
    if p.name = scannable then
      match p.capture with
      | .minMaxMean => findPos scannable (ind + 1) ps (some ind) mm
      | .mean => findPos scannable (ind + 1) ps (some ind) false
      | .value => findPos scannable (ind + 1) ps (some ind) false
      | _ => findPos scannable (ind + 1) ps i mm
    else findPos scannable (ind + 1) ps i mm

/-- kinematicssavupart.py 175-190: for all raw motors; `assert dataset_i` fails for `None` and for 0 -/
def posLoop (pos : List Pos) : List (String × Nat) → Bool → Except Exc Bool
  | [], mm => .ok mm
  | (n, _) :: l, mm =>
    match findPos n 0 pos none mm with
    | (some (_ + 1), mm) => posLoop pos l mm
    | _ => .error .noDataset

/-- kinematicssavupart.py 174, 192-194, and 376-379 in another order -/
def kinds (minMax : Bool) : List Kind := if minMax then [.mean, .min, .max] else [.mean]

/-- kinematicssavupart.py 95-205 `on_configure`: the part after it, and the datasets announced: axis and kind. -/
def onConfigure (p : Part) (layout : List Row) (pos : List Pos) (axesToMove : List String) :
    Except Exc (Part × List (String × Kind)) :=
  match csAxisMapping axesToMove (layout.map (fun r => (r.name, r.motor))) with
  | .error e => .error (.mapping e)
  | .ok mapping =>
    let port := match p.port with
      | some c => some c
      | none => ((Dict.values mapping).head?).map MotorInfo.csPort
    let q := qLoop mapping []
    match port with
    | none => .error .noPort
    | some c =>
      if c = [] then .error .noPort
      else
        let numbers := axisNumbers c layout []
        match posLoop pos numbers true with
        | .error e => .error e
        | .ok mm =>
          .ok (⟨some c, numbers, pos, q, mm⟩, (Dict.values q).flatMap (fun a => (kinds mm).map (fun k => (a, k))))

/-! ### post configure -/

/-- kinematicssavupart.py 215-222: the last info of that kind whose name starts with the scannable and a dot -/
def findInfo (scannable : String) (k : Kind) (infos : List Info) : Option Info :=
  (infos.filter (fun i => (scannable ++ ".").toList.isPrefixOf i.name.toList && decide (i.kind = some k))).getLast?

/-- kinematicssavupart.py 32 `PVar`: `p{number}{kind}` leads to a dataset of a file -/
structure PVar where
  number : Nat
  kind : Kind
  file : String
  path : String
  deriving DecidableEq, Repr

/-- kinematicssavupart.py 225-231, 233-246 -/
def pvar (n : Nat) (k : Kind) (i : Info) : PVar := ⟨n, k, i.file, i.path⟩

/-- kinematicssavupart.py 213-248: `p_vars` and `use_min_max` -/
def varLoop (infos : List Info) : List (String × Nat) → Bool → Except Exc (List PVar × Bool)
  | [], mm => .ok ([], mm)
  | (s, n) :: l, mm =>
    match findInfo s .mean infos with
    | none => .error .noValue
    | some v =>
      match findInfo s .min infos, findInfo s .max infos with
      | some a, some b =>
        match varLoop infos l mm with
        | .error e => .error e
        | .ok (vs, mm) => .ok (pvar n .mean v :: pvar n .min a :: pvar n .max b :: vs, mm)
      | _, _ =>
        match varLoop infos l false with
        | .error e => .error e
        | .ok (vs, mm) => .ok (pvar n .mean v :: vs, mm)

/-- kinematicssavupart.py 36, 40, 400: `"%02d" % n` -/
def pad2 (n : Nat) : String := if n < 10 then "0" ++ toString n else toString n

/-- kinematicssavupart.py 35-36 `MRES_VAR` -/
def mresVar (axis : Nat) : String := "P48" ++ pad2 axis

/-- kinematicssavupart.py 39-40 `OFFSET_VAR` -/
def offsetVar (axis : Nat) : String := "P49" ++ pad2 axis

/-- kinematicssavupart.py 271-283 `check_mres_and_pos`: the value of variable `var`; `none` is the ValueError of `index` -/
def checkMres (pos : List Pos) (var : String) : List (String × Nat) → String → Option String
  | [], v => some v
  | (s, n) :: l, v =>
    match pos.find? (fun p => decide (p.name = s)) with
    | none => none
    | some p =>
      if var = mresVar n then checkMres pos var l (if p.scale ≠ 1 then "1.0" else v)
      else if var = offsetVar n then checkMres pos var l (if p.offset ≠ 0 then "0.0" else v)
      else checkMres pos var l v

/-- kinematicssavupart.py 285-297 `parse_input_variables`: each variable is given as it is split at "=" -/
def parseVars (p : Part) : List (List String) → Dict String String → Except Exc (Dict String String)
  | [], d => .ok d
  | t :: ts, d =>
    if t = [""] then parseVars p ts d
    else match t with
      | var :: v :: _ =>
        if v.toList.head? = some '$' then parseVars p ts d
        else match checkMres p.pos var p.numbers v with
          | none => .error .notInTable
          | some v' => parseVars p ts (Dict.set d var v')
      | _ => .error .badVariables

/-- kinematicssavupart.py 345-348: the links; h5py does not replace one -/
def linkVars : List PVar → Dict (Nat × Kind) (String × String) → Except Exc (Dict (Nat × Kind) (String × String))
  | [], d => .ok d
  | v :: vs, d =>
    if Dict.mem d (v.number, v.kind) then .error .exists else linkVars vs (Dict.set d (v.number, v.kind) (v.file, v.path))

/-- kinematicssavupart.py 391-403: the name of the dataset for Q variable `i + 1` -/
def qName (q : Dict Nat String) (i : Nat) : String :=
  match Dict.get? q (i + 1) with
  | some a => a
  | none => "rawQ" ++ pad2 (i + 1)

/-- kinematicssavupart.py 382-403: the datasets of one kind; a dataset leads to a row of `final_result_q{kind}` -/
def vdsLoop (q : Dict Nat String) (k : Kind) : Nat → Nat → Dict (String × Kind) (Kind × Nat) →
    Except Exc (Dict (String × Kind) (Kind × Nat))
  | 0, _, f => .ok f
  | n + 1, i, f =>
    if Dict.mem f (qName q i, k) then .error .exists
    else vdsLoop q k n (i + 1) (Dict.set f (qName q i, k) (k, i))

/-- kinematicssavupart.py 381-403: the loop over the kinds -/
def vdsKinds (q : Dict Nat String) : List Kind → Dict (String × Kind) (Kind × Nat) →
    Except Exc (Dict (String × Kind) (Kind × Nat))
  | [], f => .ok f
  | k :: ks, f =>
    match vdsLoop q k 9 0 f with
    | .error e => .error e
    | .ok f => vdsKinds q ks f

/-- What kinematicssavupart.py 208-269 leaves behind: the links to the raw motors, the variables, whether min and max are used,
and the datasets of the compound motors -/
structure Files where
  links : Dict (Nat × Kind) (String × String)
  vars : Dict String String
  minMax : Bool
  vds : Dict (String × Kind) (Kind × Nat)
  deriving DecidableEq

/-- kinematicssavupart.py 208-269 `on_post_configure`, 299-412 `create_files`, `create_vds_file` (the set points of the axes, 406-412, are
left out) -/
def onPostConfigure (p : Part) (infos : List Info) (vars : List (List String)) : Except Exc Files :=
  match varLoop infos p.numbers p.minMax with
  | .error e => .error e
  | .ok (pvars, mm) =>
    match parseVars p vars [] with
    | .error e => .error e
    | .ok d =>
      match linkVars pvars [] with
      | .error e => .error e
      | .ok links =>
        match vdsKinds p.q (kinds mm) [] with
        | .error e => .error e
        | .ok f => .ok ⟨links, d, mm, f⟩

/-- kinematicssavupart.py 261: the block with the kinematics; 26-27 describe it as `[$(pmac_mri):$(suffix)]` -/
def csBlock (pmac suffix : String) : String := pmac ++ ":" ++ suffix

/-- kinematicssavupart.py 59: the suffix if none is given -/
def defaultCsSuffix : String := ":CS"

/-- kinematicssavupart.py 251: the block with the status; 29-30 describe it as `[$(pmac_mri):$(suffix)]` -/
def statusBlock (pmac _suffix : String) : String := pmac ++ ":STATUS"

end Verif.Kinematics
