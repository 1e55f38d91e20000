import Verif.Model.PmacUtil
import Verif.Model.PandABlock
import Verif.Model.Tags
/-!
To which coordinate system a motor is assigned: malcolm/modules/pmac/parts/rawmotorsinkportspart.py,
malcolm/modules/pmac/parts/compoundmotorsinkportspart.py and malcolm/modules/pmac/parts/cssourceportspart.py.

A value of a PV that is not ok is none.
-/
namespace Verif.MotorPorts
open Verif Verif.PmacUtil

/-- `CS_AXIS_NAMES + ["I"]` -/
def axisNames : List Text := csAxisNames ++ [['I']]

/-- What an attribute shows: its value, and whether its alarm is invalid -/
structure Shown where
  value : Text
  invalid : Bool
  deriving DecidableEq, Repr

/-- The attributes of a RawMotorSinkPortsPart -/
structure Raw where
  /-- `port_choices` -/
  ports : List Text := []
  port : Option Text := none
  axis : Option Text := none
  /-- the choices of `cs_attr` -/
  choices : List Text := []
  cs : Shown := ⟨[], false⟩
  pmac : Shown := ⟨[], false⟩
  axisNumber : Option Int := some 0
  /-- whether there are monitors -/
  monitored : Bool := false
  /-- what was put to the CsPort and CsAxis PVs -/
  sent : List (Nat × Text) := []
  deriving DecidableEq, Repr

/-- What came of a call: the new state, and whether there was an exception -/
structure Res where
  raw : Raw
  raised : Bool
  deriving DecidableEq, Repr

/-- rawmotorsinkportspart.py 73-76 -/
def choicesOf (ports : List Text) : List Text :=
  [] :: (ports.drop 1).flatMap (fun p => axisNames.map (fun a => p ++ ',' :: a))

/-- rawmotorsinkportspart.py 119-127; `set_value` of a ChoiceMeta refuses what is not a choice (core/models.py 523-546), None is the
first choice -/
def showCs (r : Raw) : Res :=
  match r.port, r.axis with
  | some port, some axis =>
    if port ≠ [] ∧ axis ≠ [] then
      if port ++ ',' :: axis ∈ r.choices then ⟨{ r with cs := ⟨port ++ ',' :: axis, false⟩ }, false⟩ else ⟨r, true⟩
    else ⟨{ r with cs := ⟨[], false⟩ }, false⟩
  | _, _ => ⟨{ r with cs := ⟨r.choices.headD [], true⟩ }, false⟩

/-- rawmotorsinkportspart.py 95-102: the port of the CS, by a monitor -/
def portUpdate (v : Option Nat) (r : Raw) : Res :=
  match v with
  | none => showCs { r with port := none }
  | some 0 => showCs { r with port := some [] }
  | some i =>
    match r.ports[i]? with
    | none => ⟨r, true⟩
    | some p => showCs { r with port := some p }

/-- rawmotorsinkportspart.py 103-108: the axis of the CS -/
def axisUpdate (v : Option Text) (r : Raw) : Res :=
  showCs { r with axis := match v with
    | some a => if a ∈ axisNames then some a else none
    | none => none }

/-- `str.strip()` of spaces -/
def strip (t : Text) : Text := ((t.dropWhile (· = ' ')).reverse.dropWhile (· = ' ')).reverse
/-- `str.rstrip(")")` -/
def rstripParen (t : Text) : Text := (t.reverse.dropWhile (· = ')')).reverse

/-- rawmotorsinkportspart.py 113-115, compoundmotorsinkportspart.py 61-64: `"@asyn(PORT,num)"` into the port and the number; none is
an IndexError -/
def parseOut (out : Text) : Option (Text × Option Text) :=
  match (PandABlock.splitAt '(' out)[1]? with
  | none => none
  | some t =>
    let split := PandABlock.splitAt ',' (rstripParen t)
    some (strip (split.headD []), split[1]?.map strip)

/-- rawmotorsinkportspart.py 109-118: the OUT field of the motor -/
def outUpdate (v : Option Text) (r : Raw) : Res :=
  match v with
  | none => showCs { r with pmac := ⟨[], true⟩, axisNumber := none }
  | some out =>
    match parseOut out with
    | none => ⟨r, true⟩
    | some (port, num) =>
      match num.bind Tags.readInt with
      | none => ⟨{ r with pmac := ⟨port, false⟩ }, true⟩
      | some n => showCs { r with pmac := ⟨port, false⟩, axisNumber := some n }

/-- What happens after another, unless there is an exception -/
def Res.andThen (x : Res) (f : Raw → Res) : Res := if x.raised then x else f x.raw

/-- rawmotorsinkportspart.py 62-87 `reconnect`, if all PVs are connected -/
def reconnect (ports : List Text) (port : Nat) (axis out : Text) (r : Raw) : Res :=
  let r := { r with monitored := false, ports, choices := choicesOf ports }
  match ports[port]? with
  | none => ⟨r, true⟩
  | some p =>
    ((axisUpdate (some axis) { r with port := some p }).andThen (outUpdate (some out))).andThen
      (fun r => ⟨{ r with monitored := true }, false⟩)

/-- rawmotorsinkportspart.py 129-140 `caput`; `port` and `axis` are what is read back. The `split` of 131 gives a ValueError unless there
are two parts. -/
def caput (value : Text) (port : Nat) (axis : Text) (r : Raw) : Res :=
  let target := if value ≠ [] then
      match PandABlock.splitAt ',' value with
      | [p, a] => if p ∈ r.ports then some (r.ports.idxOf p, a) else none
      | _ => none
    else some (0, [])
  match target with
  | none => ⟨r, true⟩
  | some t =>
    let r := { r with sent := r.sent ++ [t] }
    match r.ports[port]? with
    | none => ⟨r, true⟩
    | some p => axisUpdate (some axis) { r with port := some p }

/-- What can happen to the part -/
inductive Ev
  | reconnect (ports : List Text) (port : Nat) (axis out : Text)
  | port (v : Option Nat)
  | axis (v : Option Text)
  | out (v : Option Text)
  | put (value : Text) (port : Nat) (axis : Text)
  deriving DecidableEq, Repr

def step (r : Raw) : Ev → Res
  | .reconnect ports port axis out => reconnect ports port axis out r
  | .port v => portUpdate v r
  | .axis v => axisUpdate v r
  | .out v => outUpdate v r
  | .put value port axis => caput value port axis r

/-- a history; an exception goes to who called, and the part lives on -/
def run (r : Raw) (evs : List Ev) : Raw := evs.foldl (fun r e => (step r e).raw) r

/-- compoundmotorsinkportspart.py 57-65 `_update_value`; none is an exception. An index of -1 is the last. -/
def compound (v : Option Text) : Option Shown :=
  match v with
  | none => some ⟨[], true⟩
  | some out =>
    match parseOut out with
    | none => none
    | some (port, num) =>
      match num.bind Tags.readInt with
      | none => none
      | some n =>
        match (if n - 1 < 0 then (if 0 ≤ n - 1 + 9 then csAxisNames[(n - 1 + 9).toNat]? else none) else csAxisNames[(n - 1).toNat]?) with
        | none => none
        | some a => some ⟨port ++ ',' :: a, false⟩

/-- cssourceportspart.py 42-52: the tags of the source port of an axis, when the port of the CS is known -/
def sourceTags (old : List Text) (port axis : Text) : List Text := Tags.withSourcePortTag .motor old (port ++ ',' :: axis)

end Verif.MotorPorts
