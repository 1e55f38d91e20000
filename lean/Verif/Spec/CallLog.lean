import Verif.Model.CallLog
/-!
What C120 says, in terms of what a client reads: the record of a method and the time stamps.
-/
namespace Verif.Spec.CallLog
open Verif Verif.CallLog

variable {M V : Type}

/-- a map as MapMeta allows it: a Python dict of elements, of which some are required -/
def WF (m : MapMeta M) : Prop := (Dict.keys m.elements).Nodup ∧ ∀ k ∈ m.required, k ∈ Dict.keys m.elements

/-- what has been validated is valid, and stays as it is -/
def Stable (e : Ext M V) : Prop := ∀ m v w, e.validate m v = some w → e.validate m w = some w

/-- every meta has a value for what is not given -/
def Defaults (e : Ext M V) : Prop := ∀ m, ∃ v, e.missing m = some v

/-- what a method gave, as a dictionary: nothing if it failed -/
def Gave (e : Ext M V) (unpacked : Bool) : Result V → Dict String V → Prop
  | .raised _, d => d = []
  | .value v, d => (unpacked = true ∧ d = [("return", v)])
      ∨ (unpacked = false ∧ e.isNone v = true ∧ d = [])
      ∨ (unpacked = false ∧ e.isNone v = false ∧ e.asMap v = some d)

/-- a dictionary with names and values that the map accepts -/
def Fits (e : Ext M V) (m : MapMeta M) (d : Dict String V) : Prop :=
  ∀ k v, Dict.get? d k = some v → ∃ x w, Dict.get? m.elements k = some x ∧ e.validate x v = some w

/-- a log has a value for each element, in order: the validated one of what was given, and what stands for nothing if it was not; and it lists what was
given -/
def Shows (e : Ext M V) (m : MapMeta M) (given : Dict String V) (log : Log V) : Prop :=
  Dict.keys log.value = Dict.keys m.elements
  ∧ (∀ k x v, Dict.get? m.elements k = some x → Dict.get? given k = some v → Dict.get? log.value k = e.validate x v)
  ∧ (∀ k x, Dict.get? m.elements k = some x → Dict.get? given k = none → Dict.get? log.value k = e.missing x)
  ∧ (∀ k, k ∈ log.present ↔ k ∈ Dict.keys given)

/-- the alarm of the record: the message if the method failed -/
def AlarmOf : Result V → Option String → Prop
  | .value _, a => a = none
  | .raised message, a => a = some message

/-- what the caller should be told -/
def Told : Result V → Reply V → Prop
  | .value v, r => r = .result v
  | .raised message, r => r = .error message

/-- the record says that nobody has called -/
def Uncalled (e : Ext M V) (m : Method M V) : Prop :=
  Shows e m.takes [] m.took ∧ m.took.alarm = none ∧ m.took.stamp = Stamp.zero
  ∧ Shows e m.returns [] m.returned ∧ m.returned.alarm = none ∧ m.returned.stamp = Stamp.zero

/-- the record is that of one call that is over -/
def Of (e : Ext M V) (m : Method M V) (c : Call V) : Prop :=
  ∃ res rep d, c.over = some (res, rep) ∧ Told res rep
    ∧ Shows e m.takes c.args m.took ∧ m.took.alarm = none ∧ m.took.stamp = c.start
    ∧ Gave e m.unpacked res d ∧ Shows e m.returns d m.returned ∧ AlarmOf res m.returned.alarm

/-- no call so far has had its outcome replaced, because the record of it could not be made -/
def AllRecorded (w : World M V) : Prop := ∀ (i : Nat) (c : Call V) res, w.calls[i]? = some c → c.over ≠ some (res, .badRecord)

/-- methods are described by proper maps -/
def Proper : Ev M V → Prop
  | .redescribe takes returns => WF takes ∧ WF returns
  | _ => True

/-- the method is not described anew, and this call does not end -/
def Leaves (i : Nat) : Ev M V → Prop
  | .redescribe _ _ => False
  | .finish j _ _ => j ≠ i
  | _ => True

/-- not later -/
def Le (a b : Stamp) : Prop := a.sec < b.sec ∨ (a.sec = b.sec ∧ a.nano ≤ b.nano)

/-- a clock that does not go back, from `t` on -/
def Clocked : ℚ → List (Ev M V) → Prop
  | _, [] => True
  | t, .post _ now :: es => t ≤ now ∧ Clocked now es
  | t, .finish _ _ now :: es => t ≤ now ∧ Clocked now es
  | t, _ :: es => Clocked t es

/-- the change sets the value, to something valid -/
def Sets {V : Type} (valid : V → Option V) : Change V → Prop
  | .setValue v _ _ _ => ∃ w, valid v = some w
  | _ => False

end Verif.Spec.CallLog
