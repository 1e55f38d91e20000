import Verif.Model.PyDict
import Verif.Model.States
/-!
The stateful controller without threads: health, `transition` and field writeability.
`malcolm/modules/builtin/controllers/basiccontroller.py` and `statefulcontroller.py`.
-/
namespace Verif

/-- core/alarm.py 7-12 `AlarmSeverity` with its integer values. -/
inductive Severity
  | noAlarm | minor | major | invalid | undefined
  deriving DecidableEq, Repr

/-- `AlarmSeverity.value` -/
def Severity.toNat : Severity → Nat
  | .noAlarm => 0 | .minor => 1 | .major => 2 | .invalid => 3 | .undefined => 4

/-- core/alarm.py 39-56 `Alarm`.  Simplification: the `status` member is left out (nothing modelled
reads it). -/
structure Alarm where
  severity : Severity := .noAlarm
  message : String := ""
  deriving DecidableEq, Repr

/-- core/alarm.py 70-71 `is_ok` -/
def Alarm.isOk (a : Alarm) : Bool := a.severity = .noAlarm
/-- core/alarm.py 82 `Alarm.ok` -/
def Alarm.ok : Alarm := {}
/-- core/alarm.py 58-60 `Alarm.major` -/
def Alarm.majorOf (msg : String) : Alarm := ⟨.major, msg⟩
/-- core/alarm.py 62-64 `Alarm.invalid` -/
def Alarm.invalidOf (msg : String) : Alarm := ⟨.invalid, msg⟩

/-- Insertion step of Python's stable `sorted(..., key=severity.value)`: an element goes after
all elements whose key is not larger. -/
def insertBySeverity (a : Alarm) : List Alarm → List Alarm
  | [] => [a]
  | b :: l => if a.severity.toNat < b.severity.toNat then a :: b :: l
              else b :: insertBySeverity a l

/-- `sorted(l, key=lambda a: a.severity.value)` (basiccontroller.py 42); stable. -/
def sortBySeverity (l : List Alarm) : List Alarm :=
  l.foldl (fun acc a => insertBySeverity a acc) []

/-- The value and alarm of the `health` attribute. -/
structure Health where
  text : String := "OK"
  alarm : Alarm := Alarm.ok
  deriving DecidableEq, Repr

/-- basiccontroller.py 30-48, lines 39-48: what `health` is set to from `_faults`.
`set_value(text, alarm=None)` stores `Alarm.ok` (core/models.py 333-334). -/
def healthOf {R : Type} (faults : Dict R Alarm) : Health :=
  match (sortBySeverity (Dict.values faults)).getLast? with
  | some a => ⟨a.message, a⟩
  | none => ⟨"OK", Alarm.ok⟩

/-- basiccontroller.py 35-38: the update of `_faults`. -/
def updateFaults {R : Type} [DecidableEq R] (faults : Dict R Alarm) (r : R) (a : Alarm) :
    Dict R Alarm :=
  if a.isOk then Dict.erase faults r else Dict.set faults r a

/-- Result of a call that may raise. -/
inductive Res
  | ok | typeError | assertion | keyError
  deriving DecidableEq, Repr

/-- A stateful controller: the members of `BasicController` and `StatefulController` that
`transition` and the requests read.  `F` is the type of field objects (methods and attributes),
`R` the type of reporting parts; the controller itself reports as `none`. -/
structure Ctl (F R : Type) where
  /-- `state_set` -/
  ss : StateSet
  /-- `state.value` -/
  state : St
  /-- `state.alarm` -/
  stateAlarm : Alarm := Alarm.ok
  /-- `_faults` -/
  faults : Dict (Option R) Alarm := []
  /-- `health` -/
  health : Health := {}
  /-- `_children_writeable` -/
  children : Dict St (Dict F Bool) := []
  /-- `field.meta.writeable` of every field object -/
  writeable : F → Bool := fun _ => false

namespace Ctl
variable {F R : Type} [DecidableEq F] [DecidableEq R]

/-- basiccontroller.py 30-48 `update_health`. -/
def updateHealth (c : Ctl F R) (r : Option R) (a : Alarm) : Ctl F R :=
  let faults := updateFaults c.faults r a
  { c with faults := faults, health := healthOf faults }

/-- statefulcontroller.py 67-69: mark `field` in the dictionary of every possible state. -/
def markStates (children : Dict St (Dict F Bool)) (possible : List St) (f : F) (states : List St) :
    Dict St (Dict F Bool) :=
  possible.foldl (fun ch s =>
    Dict.set ch s (Dict.set ((Dict.get? ch s).getD []) f (decide (s ∈ states)))) children

/-- statefulcontroller.py 57-69 `set_writeable_in`; the assertion of 60-66 leaves things alone. -/
def setWriteableIn (c : Ctl F R) (f : F) (states : List St) : Ctl F R × Res :=
  if states.all (fun s => decide (s ∈ c.ss.possible)) then
    ({ c with children := markStates c.children c.ss.possible f states }, .ok)
  else (c, .assertion)

/-- statefulcontroller.py 182-186: the states a field is writeable in when it does not say. -/
def defaultStates (possible : List St) : List St :=
  possible.filter (fun s => s ≠ .disabling && s ≠ .disabled)

/-- statefulcontroller.py 176-179: is the field in any state's dictionary already. -/
def declared (c : Ctl F R) (f : F) : Bool :=
  c.ss.possible.any (fun s => Dict.mem ((Dict.get? c.children s).getD []) f)

/-- core/controller.py 70-89 and statefulcontroller.py 170-189 `add_block_field`, restricted to
writeability: with a writeable function the field is marked writeable at once (controller.py 86),
then given default states unless it declared some. -/
def addBlockField (c : Ctl F R) (f : F) (hasFunc : Bool) : Ctl F R :=
  if hasFunc then
    let c := { c with writeable := fun g => if g = f then true else c.writeable g }
    if c.declared f then c
    else { c with children := markStates c.children c.ss.possible f (defaultStates c.ss.possible) }
  else c

/-- managercontroller.py 279-280: forget a field in every state's dictionary. -/
def removeField (c : Ctl F R) (f : F) : Ctl F R :=
  { c with children := c.children.map (fun sd => (sd.1, Dict.erase sd.2 f)) }

/-- statefulcontroller.py 138-143: the alarm of a state. -/
def alarmFor (s : St) (msg : String) : Alarm :=
  if s = .disabled then Alarm.invalidOf "Disabled"
  else if s = .fault then Alarm.majorOf msg
  else Alarm.ok

/-- statefulcontroller.py 147-148: `child.meta.set_writeable(writeable)` for each in turn. -/
def applyWriteable (w : F → Bool) (d : Dict F Bool) : F → Bool :=
  d.foldl (fun w fb => fun g => if g = fb.1 then fb.2 else w g) w

/-- statefulcontroller.py 123-150 `transition`. -/
def transition (c : Ctl F R) (s : St) (msg : String := "") : Ctl F R × Res :=
  match c.ss.transitionAllowed c.state s with
  | none => (c, .assertion)
  | some false => (c, .typeError)
  | some true =>
    let alarm := alarmFor s msg
    let c := c.updateHealth none alarm
    let c := { c with state := s, stateAlarm := alarm }
    match Dict.get? c.children s with
    | none => (c, .keyError)
    | some d => ({ c with writeable := applyWriteable c.writeable d }, .ok)

/-- statefulcontroller.py 112-114 `go_to_error_state`. -/
def goToErrorState (c : Ctl F R) (msg : String) : Ctl F R × Res :=
  if c.state ≠ .fault then c.transition .fault msg else (c, .ok)

/-- Everything that touches these members from outside. -/
inductive Op (F R : Type)
  | setWriteableIn (f : F) (states : List St)
  | addBlockField (f : F) (hasFunc : Bool)
  | removeField (f : F)
  | transition (s : St) (msg : String)
  | report (r : R) (a : Alarm)

def step (c : Ctl F R) : Op F R → Ctl F R
  | .setWriteableIn f s => (c.setWriteableIn f s).1
  | .addBlockField f h => c.addBlockField f h
  | .removeField f => c.removeField f
  | .transition s m => (c.transition s m).1
  | .report r a => c.updateHealth (some r) a

def run (c : Ctl F R) (ops : List (Op F R)) : Ctl F R := ops.foldl step c

/-- statefulcontroller.py 39-53: the constructor starts Disabling, declares the `reset` method
writeable in Disabled and Fault, and goes to Disabled. -/
def init (ss : StateSet) (reset : F) : Ctl F R :=
  let c : Ctl F R := { ss := ss, state := .disabling }
  let c := (c.setWriteableIn reset [.disabled, .fault]).1
  (c.transition .disabled).1

end Ctl
end Verif
