/-!
What it means that a detector takes one frame for each step.
-/
namespace Verif.Spec.DetArm

/-- The steps from `a` on, before `b`, each once and in order -/
def StepsFrom (a b : Int) (steps : List Int) : Prop := steps = (List.range (b - a).toNat).map fun (k : Nat) => a + (k : Int)

end Verif.Spec.DetArm
