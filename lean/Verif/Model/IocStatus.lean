import Verif.Model.PyDict
import Verif.Model.Yaml
import Verif.Model.PandABlock
/-!
The status block of an IOC: malcolm/modules/system/parts/dirparsepart.py 59-188.  Texts are lists of characters.
-/
namespace Verif.IocStatus
open Verif.Yaml (Text replace dollar)
open Verif.PandABlock (splitAt)

/-- `text.strip("\n")` of dirparsepart.py 164 -/
def stripNewlines (t : Text) : Text := ((t.dropWhile (· = '\n')).reverse.dropWhile (· = '\n')).reverse

/-- `text.replace(" ", "")` of dirparsepart.py 167 -/
def withoutSpaces (t : Text) : Text := t.filter (· ≠ ' ')

/-- dirparsepart.py 163-165: the lines that are not comments -/
def depList (lines : List Text) : List Text := (lines.filter (fun l => !(['#'].isPrefixOf l))).map stripNewlines

/-- dirparsepart.py 166-169: one line -/
def addLine (d : Dict Text Text) (dep : Text) : Dict Text Text :=
  match splitAt '=' (withoutSpaces dep) with
  | [name, path] => d.set name path
  | _ => d

/-- dirparsepart.py 166-169: all lines -/
def collect (deps : List Text) : Dict Text Text := deps.foldl addLine []

/-- dirparsepart.py 173-174: one name is replaced in all paths. The keys that are assigned exist, so they keep their place
and the loop meets each of them once. -/
def expandOne (d : Dict Text Text) (k1 : Text) : Dict Text Text :=
  match d.get? k1 with
  | some v1 => d.map (fun kv => (kv.1, replace (dollar k1) v1 kv.2))
  | none => d

/-- dirparsepart.py 172-174: the outer loop reads `v1` when it comes to `k1`, so as the earlier names left it -/
def expandAll (d : Dict Text Text) : Dict Text Text := d.keys.foldl expandOne d

/-- The alarm that a HealthInfo has: severity and message of dirparsepart.py 116-139 -/
inductive Health
  /-- "IOC running from non-prod area", minor -/
  | nonProd
  /-- "OK" -/
  | ok
  /-- "IOC not running (procServ enabled)" -/
  | stopped
  /-- "neither IOC nor procServ are running" -/
  | absent
  deriving DecidableEq, Repr

/-- The part. `disk` is what is at a directory: the lines of its configure/RELEASE, if the directory and that file exist.
Simplification: the disk doesn't change. -/
structure State where
  dlsVersion : Option Text := none
  hasProcserv : Bool := false
  dir1 : Option Text := none
  dir2 : Option Text := none
  /-- dirparsepart.py 76-81: the columns `module` and `path` are the keys and the values -/
  dependencies : Dict Text Text := []
  /-- "reported IOC directory not found" -/
  notFound : Bool := false
  /-- the last HealthInfo reported -/
  health : Option Health := none

abbrev Disk := Text → Option (List Text)

/-- dirparsepart.py 156-188 `parse_release`; models.py 323-344: `set_value` clears the alarm -/
def parseRelease (disk : Disk) (dir : Text) (s : State) : State :=
  match disk dir with
  | some lines =>
    if 0 < (depList lines).length then { s with dependencies := expandAll (collect (depList lines)), notFound := false }
    else s
  | none => { s with notFound := true }

/-- dirparsepart.py 145-147 and 152-154 -/
def dirUpdated (disk : Disk) (s : State) : State :=
  match s.dir1, s.dir2 with
  | some a, some b => parseRelease disk (a ++ b) s
  | _, _ => s

/-- dirparsepart.py 115: `value.lower() == "work" or value.lower() == "other"` -/
def isNonProd (v : Text) : Bool := v.map Char.toLower = "work".toList || v.map Char.toLower = "other".toList

/-- dirparsepart.py 111-140 `version_updated`; `none` is None or a value that is not ok -/
def versionUpdated (value : Option Text) (s : State) : State :=
  match value with
  | some v => { s with dlsVersion := some v, health := some (if isNonProd v then .nonProd else .ok) }
  | none => { s with health := some (if s.hasProcserv then .stopped else .absent) }

/-- What a PV says: a value, or `none` when it is not ok -/
inductive Ev
  | version (v : Option Text)
  | dir1 (v : Option Text)
  | dir2 (v : Option Text)
  | status (ok : Bool)
  deriving DecidableEq, Repr

/-- The callbacks of the four PVs, dirparsepart.py 32-61, 106-154 -/
def step (disk : Disk) (s : State) : Ev → State
  | .version v => versionUpdated v s
  | .status ok => if ok then versionUpdated s.dlsVersion { s with hasProcserv := true } else s
  | .dir1 v => dirUpdated disk (match v with | some t => { s with dir1 := some t } | none => s)
  | .dir2 v => dirUpdated disk (match v with | some t => { s with dir2 := some t } | none => s)

def run (disk : Disk) (evs : List Ev) : State := evs.foldl (step disk) {}

end Verif.IocStatus
