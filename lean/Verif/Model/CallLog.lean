import Verif.Model.PyDict
import Mathlib.Data.Rat.Floor
/-!
The record of the calls of a method, and the time stamps of attributes: malcolm/core/timestamp.py,
malcolm/core/models.py 302-379, 1023-1045, 1170-1247, malcolm/core/controller.py 217-281,
malcolm/modules/scanning/controllers/runnablecontroller.py 296-331.

The function of a method runs with the lock released (controller.py 261-262), so calls overlap and the method may be
described anew in the middle of one. Everything else of a call is done with the lock held, so here a call is two steps.
-/
namespace Verif.CallLog
open Verif

/-! ### time stamps -/

/-- timestamp.py 18-44 `TimeStamp`, without `userTag` -/
structure Stamp where
  sec : Int
  nano : Int
  deriving DecidableEq, Repr

/-- timestamp.py 32-35: of the current time. `np.int64` drops the fraction, towards zero, while `now % 1` of Python is never
negative. Simplification: exact arithmetic instead of that of floats, and no overflow. -/
def Stamp.ofTime (now : ℚ) : Stamp :=
  { sec := if 0 ≤ now then ⌊now⌋ else -⌊-now⌋
    nano := ⌊(now - ⌊now⌋) * 1000000000⌋ }

/-- timestamp.py 41-42 `to_time`, exact -/
def Stamp.toTime (s : Stamp) : ℚ := s.sec + s.nano / 1000000000

/-- timestamp.py 47 `TimeStamp.zero` -/
def Stamp.zero : Stamp := ⟨0, 0⟩

/-! ### attributes -/

/-- models.py 289-311 `AttributeModel`: the value is one that its meta has passed; `none` is `Alarm.ok` -/
structure Attr (V : Type) where
  value : V
  alarm : Option String
  stamp : Stamp
  deriving DecidableEq, Repr

/-- the ways an attribute is changed; `now` is what the clock says -/
inductive Change (V : Type)
  /-- models.py 323-344 `set_value` -/
  | setValue (v : V) (alarm : Option (Option String)) (stamp : Option Stamp) (now : ℚ)
  /-- models.py 358-363 `set_alarm` -/
  | setAlarm (alarm : Option String)
  /-- models.py 375-379 `apply_change` of the value only -/
  | applyValue (v : V)

/-- models.py 323-379: `valid` is `self.meta.validate`, none its exception, in which case nothing is changed -/
def Attr.change {V : Type} (valid : V → Option V) (a : Attr V) : Change V → Attr V
  | .setValue v alarm stamp now =>
    match valid v with
    | none => a
    | some v' =>
      { value := v'
        alarm := match alarm with
          | none => none
          | some x => x
        stamp := match stamp with
          | none => Stamp.ofTime now
          | some s => s }
  | .setAlarm alarm => { a with alarm := alarm }
  | .applyValue v =>
    match valid v with
    | none => a
    | some v' => { a with value := v' }

/-- models.py 323-379: several changes one after the other -/
def Attr.changes {V : Type} (valid : V → Option V) (a : Attr V) (cs : List (Change V)) : Attr V := cs.foldl (Attr.change valid) a

/-! ### methods -/

/-- What is taken from elsewhere: the validation of one value (C16), what `None` is turned into, and what the result of a function is
as a dictionary (none if it is not one) -/
structure Ext (M V : Type) where
  validate : M → V → Option V
  missing : M → Option V
  asMap : V → Option (Dict String V)
  isNone : V → Bool

/-- models.py 995-1021 `MapMeta` -/
structure MapMeta (M : Type) where
  elements : Dict String M
  required : List String

variable {M V : Type}

/-- models.py 1035-1040: the values in the order of the elements -/
def validateLoop (e : Ext M V) (given : Dict String V) (addMissing : Bool) : Dict String M → Option (Dict String V)
  | [] => some []
  | (k, m) :: rest =>
    match Dict.get? given k with
    | some v =>
      match e.validate m v, validateLoop e given addMissing rest with
      | some w, some r => some ((k, w) :: r)
      | _, _ => none
    | none =>
      if addMissing then
        match e.missing m, validateLoop e given addMissing rest with
        | some w, some r => some ((k, w) :: r)
        | _, _ => none
      else validateLoop e given addMissing rest

/-- models.py 1023-1045 `MapMeta.validate`; none is an exception -/
def MapMeta.validate (e : Ext M V) (m : MapMeta M) (given : Dict String V) (addMissing : Bool) : Option (Dict String V) :=
  if (Dict.keys given).all (fun k => decide (k ∈ Dict.keys m.elements)) then
    match validateLoop e given addMissing m.elements with
    | none => none
    | some args => if m.required.all (fun k => decide (k ∈ Dict.keys args)) then some args else none
  else none

/-- models.py 1171-1200 `MethodLog`; an alarm is none for `Alarm.ok` or the message of an `Alarm.major` -/
structure Log (V : Type) where
  value : Dict String V
  present : List String
  alarm : Option String
  stamp : Stamp

/-- models.py 1213-1247 `MethodModel` with its meta; `unpacked` is the tag `method:return:unpacked` -/
structure Method (M V : Type) where
  takes : MapMeta M
  returns : MapMeta M
  unpacked : Bool
  writeable : Bool
  took : Log V
  returned : Log V

/-- What a function does in the end -/
inductive Result (V : Type)
  | value (v : V)
  | raised (message : String)

/-- What the caller is told: the result, the exception of the function, or the exception of making the record of it -/
inductive Reply (V : Type)
  | result (v : V)
  | error (message : String)
  | badRecord

/-- A call: what the function was given and when (`took_value`, `took_ts` of controller.py 255-256), and, if it is over, what the
function did and the reply -/
structure Call (V : Type) where
  args : Dict String V
  start : Stamp
  over : Option (Result V × Reply V)

structure World (M V : Type) where
  method : Method M V
  calls : List (Call V)

/-- controller.py 224 and 233-235: `[x for x in elements if x in given]` -/
def presentOf (elements : Dict String M) (given : Dict String V) : List String :=
  (Dict.keys elements).filter (fun k => decide (k ∈ Dict.keys given))

/-- controller.py 221-227: `set_took` in `update_method_logs`; none is an exception -/
def logTook (e : Ext M V) (m : Method M V) (args : Dict String V) (start : Stamp) : Option (Method M V) :=
  match m.takes.validate e args true with
  | none => none
  | some t => some { m with took := { value := t, present := presentOf m.takes.elements args, alarm := none, stamp := start } }

/-- controller.py 228-238: `set_returned` in `update_method_logs`; none is an exception, also if the result is no dictionary -/
def logReturned (e : Ext M V) (m : Method M V) (ret : Option (Dict String V)) (alarm : Option String) (now : ℚ) :
    Option (Method M V) :=
  match ret with
  | none => none
  | some d =>
    match m.returns.validate e d true with
    | none => none
    | some r =>
      some { m with returned :=
        { value := r, present := presentOf m.returns.elements d, alarm := alarm, stamp := Stamp.ofTime now } }

/-- controller.py 257-273: `returned_value`; none if it is not a dictionary -/
def returnedValue (e : Ext M V) (m : Method M V) : Result V → Option (Dict String V)
  | .raised _ => some []
  | .value v => if m.unpacked then some [("return", v)] else if e.isNone v then some [] else e.asMap v

/-- controller.py 257, 271-273: `returned_alarm` -/
def returnedAlarm : Result V → Option String
  | .raised message => some message
  | .value _ => none

/-- controller.py 217-238 and 274-277 `update_method_logs`; the Bool is whether there was no exception -/
def updateLogs (e : Ext M V) (m : Method M V) (args : Dict String V) (start : Stamp) (res : Result V) (now : ℚ) :
    Method M V × Bool :=
  match logTook e m args start with
  | none => (m, false)
  | some m1 =>
    match logReturned e m1 (returnedValue e m res) (returnedAlarm res) now with
    | none => (m1, false)
    | some m2 => (m2, true)

/-- controller.py 271-281: what the caller gets; an exception in the `finally` takes the place of the outcome -/
def reply (res : Result V) (logged : Bool) : Reply V :=
  if logged then
    match res with
    | .value v => .result v
    | .raised message => .error message
  else .badRecord

/-- models.py 1229-1247: the record of no call; none is an exception -/
def blank (e : Ext M V) (m : MapMeta M) : Option (Log V) :=
  match m.validate e [] true with
  | none => none
  | some v => some { value := v, present := [], alarm := none, stamp := Stamp.zero }

/-- runnablecontroller.py 323-331 for one method: described anew and its record made blank -/
def redescribe (e : Ext M V) (m : Method M V) (takes returns : MapMeta M) : Method M V :=
  let m := { m with takes := takes, returns := returns }
  match blank e takes with
  | none => m
  | some t =>
    let m := { m with took := t }
    match blank e returns with
    | none => m
    | some r => { m with returned := r }

/-- What happens to a method -/
inductive Ev (M V : Type)
  /-- controller.py 240-262: a Post comes at `now` -/
  | post (params : Dict String V) (now : ℚ)
  /-- controller.py 262-281: the function of a call ends at `now` -/
  | finish (i : Nat) (res : Result V) (now : ℚ)
  /-- runnablecontroller.py 296-331 -/
  | redescribe (takes returns : MapMeta M)
  /-- builtin/controllers/statefulcontroller.py 147-148: the state has changed, so the method may be called or no longer -/
  | writeable (b : Bool)

/-- controller.py 240-281 (`_handle_post` from 252 on), runnablecontroller.py 323-331; a finish of a call that is not running is no event -/
def step (e : Ext M V) (w : World M V) : Ev M V → World M V
  | .post params now =>
    if w.method.writeable then
      match w.method.takes.validate e params false with
      | none => w
      | some args => { w with calls := w.calls ++ [{ args := args, start := Stamp.ofTime now, over := none }] }
    else w
  | .finish i res now =>
    match w.calls[i]? with
    | none => w
    | some c =>
      match c.over with
      | some _ => w
      | none =>
        let u := updateLogs e w.method c.args c.start res now
        { method := u.1, calls := w.calls.set i { c with over := some (res, reply res u.2) } }
  | .redescribe takes returns => { w with method := redescribe e w.method takes returns }
  | .writeable b => { w with method := { w.method with writeable := b } }

/-- any history -/
def run (e : Ext M V) (w : World M V) (es : List (Ev M V)) : World M V := es.foldl (step e) w

/-- models.py 1218-1223: a method that nobody has called -/
def start (e : Ext M V) (takes returns : MapMeta M) (unpacked writeable : Bool) : Option (World M V) :=
  match blank e takes, blank e returns with
  | some t, some r =>
    some { method := { takes := takes, returns := returns, unpacked := unpacked, writeable := writeable, took := t, returned := r }
           calls := [] }
  | _, _ => none

end Verif.CallLog
