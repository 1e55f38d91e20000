import Verif.Model.TakePart
/-!
What is wanted of a motion controller in a scan.
-/
namespace Verif.Spec.TakePart
open Verif.TakePart Verif.PmacUtil

/-- Some part has reported `i` -/
def Reports (info : List (String × Reported)) (i : Info) : Prop := ∃ n l, (n, Reported.infos l) ∈ info ∧ i ∈ l

/-- Axis `a` is moved by the motion controller -/
def Moves (r : Req) (a : String) : Prop := a ∈ r.axesToMove ∧ a ∉ r.fixed

/-- The motion controller is needed, when `t` are the triggers asked for -/
def Needed (r : Req) (t : Trigger) : Prop := (∃ a, Moves r a) ∨ t ≠ .none

/-- The motor is axis `axis` of the coordinate system `port` -/
def IsAxis (m : Motor) (port axis : Text) : Prop := m.cs = port ++ ',' :: axis ∧ ',' ∉ port ∧ axis ∈ csAxisNames

/-- `n` is the number that `port` ends with -/
def EndsWith (port n : Text) : Prop :=
  ∃ pre, port = pre ++ n ∧ n ≠ [] ∧ (∀ c ∈ n, c.isDigit = true) ∧ ∀ c, pre.getLast? = some c → c.isDigit = false

/-- What is needed to map a block can be read from it: it is a motor with a time to speed and with no coordinate system or one written with
a comma -/
def Readable (o : Option Motor) : Prop := ∃ m, o = some m ∧ m.accelerationTime ≠ 0 ∧ (m.cs = [] ∨ ',' ∈ m.cs)

end Verif.Spec.TakePart
