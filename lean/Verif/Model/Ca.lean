import Verif.Model.PyDict
/-!
Attributes and methods on EPICS PVs: malcolm/modules/ca/util.py 64-369, ca/parts/caactionpart.py 40-136.

What comes from `cothread.catools` is taken from its documentation: a reading has a value, a severity and, from a
monitor, a time; a PV that is not connected is reported by an object that has only `ok = False` (it has no
`severity`). The callback of one subscription is called again only after it has returned. Times are integers in some
unit.
-/
namespace Verif.Ca

/-- What `caget` or a monitor gives for one PV: `gone` is the object with `ok = False` -/
inductive Reading (V : Type)
  | got (value : V) (severity : Nat) (stamp : Option Int)
  | gone
  deriving DecidableEq, Repr

/-- core/alarm.py 38-82: `Alarm.ok`, the alarm of util.py 118-122, and `Alarm.disconnected` -/
inductive Alarm
  | ok
  | record (severity : Nat)
  | disconnected
  deriving DecidableEq, Repr

/-- What a client sees of the attribute (core/models.py 346-356) -/
structure Attr (V : Type) where
  value : V
  alarm : Alarm
  stamp : Int
  deriving DecidableEq, Repr

/-- The alarm of util.py 117-124 -/
def alarmOf (severity : Nat) : Alarm := if severity ≠ 0 then .record severity else .ok

/-- util.py 107-130 `_update_value` at the time `now`; none is an exception, of `validate`, which leaves the attribute
as it is. `set_value` validates the old value again (core/models.py 331). Not modelled: the user callback. -/
def updateValue {V : Type} (validate : V → Option V) (now : Int) (a : Attr V) : Reading V → Option (Attr V)
  | .gone => (validate a.value).map (fun v => { value := v, alarm := .disconnected, stamp := now })
  | .got x severity stamp => (validate x).map (fun v => { value := v, alarm := alarmOf severity, stamp := stamp.getD now })

/-! ### the pacing of monitor updates -/

/-- util.py 167-177, after the update of a callback that came at `now`: the new `_update_after`, and how long the
callback sleeps -/
def pace (minDelta after now : Int) : Int × Int :=
  let delta := now - after
  if delta > minDelta then (now + minDelta, 0)
  else if delta < 0 then (after, -delta)
  else (after + minDelta, 0)

/-- Callbacks one after another, each no sooner than the one before has returned: `_update_after` at the end, or none
if one of them comes too soon. `free` is when the last callback returned. -/
def paceAll (minDelta : Int) : Int → Int → List Int → Option Int
  | after, _, [] => some after
  | after, free, now :: rest =>
    if free ≤ now then
      let r := pace minDelta after now
      paceAll minDelta r.1 (now + r.2) rest
    else none

/-! ### an attribute on one PV -/

/-- CAAttribute: its attribute and meta, and whether it has a monitor -/
structure Caa (M V : Type) where
  vmeta : M
  attr : Attr V
  monitor : Bool
  deriving DecidableEq, Repr

/-- How the meta takes a value, what `on_connect` makes of it, and `throw` -/
structure Conf (M V : Type) where
  validate : M → V → Option V
  /-- none is an exception -/
  onConnect : M → Reading V → Option M
  throw : Bool

/-- What happens to it -/
inductive Ev (V : Type)
  /-- Init or reset: what `caget` of rbv and pv gave, none if it raised -/
  | reconnect (now : Int) (readings : Option (Reading V × List (Reading V)))
  /-- the monitor has a new reading -/
  | monitor (now : Int) (r : Reading V)
  /-- a put: none if the caput raised, then what `caget` of the rbv gave, none if it raised -/
  | put (now : Int) (done : Option (Option (Reading V)))
  | disable
  deriving DecidableEq, Repr

def isGone {V : Type} : Reading V → Bool
  | .gone => true
  | _ => false

variable {M V : Type}

/-- util.py 228-255 `reconnect`, 98-105 `disconnect`, 155-177 `_monitor_callback` and 257-273 `caput`; the Bool is
whether the call returned without an exception -/
def step (c : Conf M V) (s : Caa M V) : Ev V → Caa M V × Bool
  | .disable => ({ s with monitor := false }, true)
  | .monitor now r =>
    if s.monitor then
      match updateValue (c.validate s.vmeta) now s.attr r with
      | none => (s, false)
      | some a => ({ s with attr := a }, true)
    else (s, true)
  | .put now done =>
    match done with
    | some (some r) =>
      match updateValue (c.validate s.vmeta) now s.attr r with
      | none => (s, false)
      | some a => ({ s with attr := a }, true)
    | _ => (s, false)
  | .reconnect now readings =>
    let s := { s with monitor := false }
    match readings with
    | none => (s, false)
    | some (r, rs) =>
      if c.throw && (r :: rs).any isGone then (s, false)
      else
        match c.onConnect s.vmeta r with
        | none => (s, false)
        | some m =>
          let s := { s with vmeta := m }
          match updateValue (c.validate m) now s.attr r with
          | none => (s, false)
          | some a => ({ s with attr := a, monitor := true }, true)

/-- A history -/
def run (c : Conf M V) (s : Caa M V) (evs : List (Ev V)) : Caa M V := evs.foldl (fun s e => (step c s e).1) s

/-- cachoicepart.py 40-47: the choices come from the PV and a put writes the index of the choice;
none is the ValueError of `index` -/
def choicePut (choices : List String) (value : String) : Option Nat :=
  if value ∈ choices then some (choices.findIdx (· == value)) else none

/-! ### a table of waveforms -/

/-- WaveformTableAttribute: `_local_value` has what was last given for each column, `none` being the object of a PV
that is gone, and the worst severity -/
structure Wave where
  cols : Dict String (Option (List Int))
  severity : Nat
  attr : Attr (Dict String (List Int))
  deriving DecidableEq, Repr

/-- core/models.py 907-927 of a dict with all the columns: the columns must be numbers and of equal length -/
def waveTable (cols : Dict String (Option (List Int))) : Option (Dict String (List Int)) :=
  let full := cols.filterMap (fun c => c.2.map (fun v => (c.1, v)))
  if cols.all (fun c => c.2.isSome) then
    match full with
    | [] => some []
    | (_, v) :: rest => if rest.all (fun c => c.2.length == v.length) then some full else none
  else none

/-- util.py 158-164 with `value_index`: `gone.severity` raises, after the column was overwritten.
`_local_value.ok` is True from the start and `or` keeps it so. -/
def waveMonitor (now : Int) (w : Wave) (name : String) : Reading (List Int) → Wave
  | .gone => { w with cols := Dict.set w.cols name none }
  | .got v severity stamp =>
    let cols := Dict.set w.cols name (some v)
    let sev := max w.severity severity
    match waveTable cols with
    | none => { w with cols := cols, severity := sev }
    | some t => { cols := cols, severity := sev, attr := { value := t, alarm := alarmOf sev, stamp := stamp.getD now } }

/-! ### actions -/

/-- caactionpart.py 98-114 `wait_for_good_status`: `updates` are the statuses of the monitor and when they come, in
order; what it returns. Simplified: the time between an update and the next `get` is nothing. -/
def waitGood (good : String) (deadline : Int) : Option String → List (Int × String) → Option String
  | status, [] => status
  | status, (t, v) :: rest =>
    if t ≤ deadline then
      if v = good then some v else waitGood good deadline (some v) rest
    else status

/-- caactionpart.py 116-136 `caput`, after the caput itself has completed at `now`; the Bool is whether it returned
without an exception -/
def action (statusPv : Option (String × Int)) (now : Int) (updates : List (Int × String)) : Bool :=
  match statusPv with
  | none => true
  | some (good, timeout) => decide (waitGood good (now + timeout) none updates = some good)

end Verif.Ca
