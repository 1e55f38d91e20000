import Verif.Model.ValParts
/-!
What a user of a scan block relies on when `validate` or `configure` accepts their parameters, said without the
functions of `Model/ValParts.lean`.
-/
namespace Verif.Spec.ValParts
open Verif Verif.ValParts

/-- The generator squashes exactly these axes into one dimension. -/
def Unrolled (g : Gen) (axes : List String) : Prop := ∃ e ∈ g.squashed, ∀ x, x ∈ e ↔ x ∈ axes

/-- What each of these parts promises about a scan that was accepted. -/
def Content (axes : List String) (g : Gen) (dets : Option (List Row)) : Part → Prop
  | .unroll visible => visible = true → axes.length ≤ 1 ∨ Unrolled g axes
  | .simultaneous allowed => ∀ a ∈ axes, a ∈ allowed
  | .doubleTrigger mri => ∃ rows, dets = some rows ∧ ∀ r ∈ rows, r.mri = mri → r.enable = true → r.frames = 2
  | .guess _ => g.duration ≠ 0
  | .other _ => True

/-- `m` is the longest of the durations `ds`, 0 if there is none. -/
def Longest (ds : List Int) (m : Int) : Prop := (ds = [] ∧ m = 0) ∨ (m ∈ ds ∧ ∀ d ∈ ds, d ≤ m)

/-- The durations that the parts would guess. -/
def guesses (parts : List Part) : List Int := parts.filterMap (fun | .guess d => some d | _ => none)

/-- What must become of the generator of a scan: a duration that was given stays, one that was not is the longest that
a part wants; and if a visible unrolling part is there and there is something to unroll, all axes that move are in one
dimension, squashed once; nothing else about the generator changes. -/
structure Result (parts : List Part) (axes : List String) (g g' : Gen) : Prop where
  duration : (g.duration ≠ 0 ∧ g'.duration = g.duration) ∨ (g.duration = 0 ∧ Longest (guesses parts) g'.duration)
  unrolled : Part.unroll true ∈ parts → 2 ≤ axes.length → ¬ Unrolled g axes →
    g'.squashed = g.squashed ++ [axes] ∧ g'.dims = squashDims axes g.dims
  same : (Part.unroll true ∉ parts ∨ axes.length < 2 ∨ Unrolled g axes) →
    g'.squashed = g.squashed ∧ g'.dims = g.dims

end Verif.Spec.ValParts
