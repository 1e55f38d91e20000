import Verif.Model.MotorPorts
/-!
What a motor's assignment is, and what a user is to see of it.
-/
namespace Verif.Spec.MotorPorts
open Verif Verif.PmacUtil Verif.MotorPorts

/-- What the part was told last: the names of the ports, the number of the port and the axis -/
structure Told where
  ports : List Text
  port : Option Nat
  axis : Option Text
  deriving DecidableEq, Repr

def tell (t : Told) : Ev → Told
  | .reconnect ports port axis _ => ⟨ports, some port, some axis⟩
  | .port v => { t with port := v }
  | .axis v => { t with axis := v }
  | .out _ => t
  | .put _ port axis => { t with port := some port, axis := some axis }

def toldBy (t : Told) (evs : List Ev) : Told := evs.foldl tell t

/-- What a user is to see: the name of the port and the axis, nothing if the motor is not assigned (that is port 0), and an invalid
alarm if that is not known -/
def Told.seen (t : Told) : Shown :=
  match t.port with
  | none => ⟨[], true⟩
  | some i =>
    match t.axis with
    | none => ⟨[], true⟩
    | some a =>
      if i = 0 then ⟨[], false⟩
      else if a ∈ axisNames then ⟨(t.ports.getD i []) ++ ',' :: a, false⟩
      else ⟨[], true⟩

/-- The ports of a controller: each has a name without a comma, the first, which is for "not assigned", may be without a name -/
def PortsOk (ports : List Text) : Prop := ports ≠ [] ∧ ∀ i, 0 < i → i < ports.length → ports.getD i [] ≠ [] ∧ ',' ∉ ports.getD i []

/-- What may be put: nothing, or a port that is not the first, a comma and an axis -/
def Choice (ports : List Text) (value : Text) : Prop :=
  value = [] ∨ ∃ i a, 0 < i ∧ i < ports.length ∧ a ∈ axisNames ∧ value = ports.getD i [] ++ ',' :: a

/-- What a controller may tell: the number of one of its ports; and a put is of a choice -/
def Sound (t : Told) : Ev → Prop
  | .reconnect ports port _ _ => PortsOk ports ∧ port < ports.length
  | .port v => ∀ i, v = some i → i < t.ports.length
  | .put value port _ => port < t.ports.length ∧ Choice t.ports value
  | _ => True

/-- ... all along a history -/
def SoundAll (t : Told) : List Ev → Prop
  | [] => True
  | e :: evs => Sound t e ∧ SoundAll (tell t e) evs

/-- A part is told by a reconnect or after a put that the motor is not assigned to a port -/
def Unassigns : Ev → Prop
  | .reconnect _ port _ _ => port = 0
  | .put _ port _ => port = 0
  | _ => False

/-- The first port is without a name -/
def ZeroUnnamed (ports : List Text) : Prop := ports.getD 0 [] = []

end Verif.Spec.MotorPorts
