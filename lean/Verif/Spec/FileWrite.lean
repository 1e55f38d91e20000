import Verif.Model.FileWrite
/-!
What it means that a file holds the points of a scan.
-/
namespace Verif.Spec.FileWrite
open Verif Verif.FileWrite

/-- A generator gives its points places of their own inside its shape -/
structure Proper {D : Type} (g : Gen D) : Prop where
  inside : ∀ i, i < g.size → (g.index i).length = g.shape.length ∧
    ∀ (k : Nat) (a b : Nat), (g.index i)[k]? = some a → g.shape[k]? = some b → a < b
  own : ∀ i j, i < g.size → j < g.size → g.index i = g.index j → i = j

/-- The point is in the file, with its image, the sum of its image and an id -/
def Stored {D S : Type} (total : D → S) (g : Gen D) (h : Hdf D S) (i : Nat) : Prop :=
  h.data.cells (g.index i) = some (g.image i) ∧ h.sum.cells (g.index i) = some (total (g.image i)) ∧
    ∃ u, h.uid.cells (g.index i) = some u

/-- Where there is an id there is a point with all its data -/
def Truthful {D S : Type} (total : D → S) (g : Gen D) (h : Hdf D S) : Prop :=
  ∀ idx u, h.uid.cells idx = some u → ∃ i, i < g.size ∧ g.index i = idx ∧ Stored total g h i

end Verif.Spec.FileWrite
