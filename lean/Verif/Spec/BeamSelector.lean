import Verif.Model.BeamSelector
/-!
What the beam selector is to do.
-/
namespace Verif.Spec.BeamSelector
open Verif Verif.BeamSelector

/-- The row of a detector that can take part: enabled, one frame per step, with an exposure -/
def Takes (rows : List Row) (name : String) (exposure : ℚ) : Prop :=
  ⟨true, name, exposure, 1⟩ ∈ rows ∧ 0 < exposure

/-- One cycle: to the diffraction position, stay there, back to the imaging position, stay there -/
structure IsCycle (s : Selector) (gaps : List ℚ) (d i : ℚ) (duration : ℚ) (l : List Half) : Prop where
  moves : l.map (fun h => (h.start, h.stop)) = [(s.imagingAngle, s.diffractionAngle), (s.diffractionAngle, s.imagingAngle)]
  /-- each move takes its time -/
  time : ∀ h ∈ l, h.time = s.moveTime
  /-- the detectors have time to expose -/
  stays : ∃ a b, l.map (·.delay) = [a, b] ∧ d ≤ a ∧ i ≤ b
  /-- the motor has time to turn: 2 ms, and what a part asks for -/
  turns : ∀ h ∈ l, 1 / 500 ≤ h.delay ∧ ∀ g ∈ gaps, g ≤ h.delay
  /-- and it takes as long as a point of the scan -/
  total : (l.map (fun h => h.time + h.delay)).sum = duration

/-- So many cycles, one after the other -/
def Cycles (s : Selector) (gaps : List ℚ) (d i : ℚ) (duration : ℚ) (n : Nat) (l : List Half) : Prop :=
  ∃ cs : List (List Half), cs.length = n ∧ l = cs.flatten ∧ ∀ c ∈ cs, IsCycle s gaps d i duration c

end Verif.Spec.BeamSelector
