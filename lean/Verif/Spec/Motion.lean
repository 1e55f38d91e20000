import Mathlib.Algebra.Order.Field.Rat
/-!
What it means to move from one position to another.
-/
namespace Verif.Spec.Motion

/-- The positions are on the way from `lo` to `hi`, and go no step back. -/
def OnTheWay (lo hi : ℚ) (path : List ℚ) : Prop :=
  ∃ fs : List ℚ, fs.Pairwise (· ≤ ·) ∧ (∀ f ∈ fs, 0 ≤ f ∧ f ≤ 1) ∧ path = fs.map fun f => lo + (hi - lo) * f

end Verif.Spec.Motion
