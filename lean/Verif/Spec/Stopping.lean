import Verif.Model.Stopping
/-!
What may be said of the detectors of a scan that ends what it does.
-/
namespace Verif.Spec.Stopping
open Verif Verif.Stopping

/-- A detector that takes frames, or is set up to take some -/
def Active (st : St) : Prop :=
  st = .configuring ∨ st = .armed ∨ st = .running ∨ st = .postrun ∨ st = .paused ∨ st = .seeking

/-- Nobody has called the scan yet since the process was started, or what was called has ended: what its detectors do is left open -/
def Resting (s : Scan) : Prop := s.hooks = []

/-- The scan becomes so by what happens -/
def Becomes (s : Scan) (e : Ev) (st : St) : Prop := s.st ≠ st ∧ (s.step e).st = st

/-- What happens while a call of the scan goes on, and nothing else is called -/
def Inside : Ev → Prop
  | .part _ | .det _ _ | .next _ | .otherFails => True
  | _ => False

/-- No detector and no other part fails -/
def Well : Ev → Prop
  | .det _ st => st ≠ .fault
  | .otherFails => False
  | _ => True

/-- What is called to go through a scan that is configured -/
def Scanning : Ev → Prop
  | .run | .resume | .pause => True
  | e => Inside e

/-- Something goes on in the block that no abort() ends -/
def Held (st : St) : Prop := st = .resetting ∨ st = .saving ∨ st = .loading ∨ st = .disabling ∨ st = .aborting

/-- How far a detector is from being at rest, if what is called of it ends -/
def rank : St → Nat
  | .running => 3
  | .postrun => 2
  | .configuring | .seeking | .resetting | .saving | .loading | .aborting | .disabling => 1
  | _ => 0

/-- What is left to be done in the hooks that go on -/
def left (s : Scan) : Nat := s.hooks.length + (s.dets.map (fun d => 4 * d.todo.length + rank d.st)).sum

end Verif.Spec.Stopping
