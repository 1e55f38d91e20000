import Verif.Model.Overlap
/-!
What is said of calls that overlap (C110).
-/
namespace Verif.Spec.Overlap
open Verif Verif.Overlap

/-- A state that does not say that something is under way -/
def Settled (s : St) : Prop := s = .ready ∨ s = .disabled ∨ s = .fault

/-- When a call is taken -/
def Taken (k : Kind) (s : St) : Prop :=
  match k with
  | .init | .reset => s = .disabled ∨ s = .fault
  | .disable | .halt => s ≠ .disabling ∧ s ≠ .disabled
  | .save | .load => s = .ready

instance (k : Kind) (s : St) : Decidable (Taken k s) := by unfold Taken; cases k <;> infer_instance

/-- What the block shows while a call is under way -/
def shown : Kind → St
  | .init | .reset => .resetting
  | .disable | .halt => .disabling
  | .save => .saving
  | .load => .loading

/-- Calls that can take a block out of Disabled -/
def Wakes : Ev → Prop
  | .call .reset => True
  | .call .init => True
  | _ => False

/-- Nothing is called, and nothing fails in the background -/
def Untouched : Ev → Prop
  | .call _ => False
  | .error => False
  | _ => True

/-- One thing at a time: nothing is called while a call is under way, and nothing fails in the background -/
def Alone (b : Blk) : List Ev → Prop
  | [] => True
  | e :: es => (∀ k, e = .call k → b.jobs = []) ∧ e ≠ .error ∧ Alone (step b e) es

/-- One thing at a time, for a PandA -/
def PAlone (p : Pan) : List PEv → Prop
  | [] => True
  | e :: es => (∀ j, e = .call j → p.jobs = []) ∧ PAlone (pstep p e) es

end Verif.Spec.Overlap
