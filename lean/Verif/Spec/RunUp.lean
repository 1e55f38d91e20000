import Verif.Model.RunUp
/-!
How a motor should get up to speed and come to rest.
-/
namespace Verif.Spec.RunUp
open Verif Verif.PmacUtil Verif.RunUp

/-- A motor may be there. Limits that are both 0 on the dial are none. -/
def Allowed (m : Limited) (x : ℚ) : Prop := (m.dialHigh = 0 ∧ m.dialLow = 0) ∨ (m.userLow ≤ x ∧ x ≤ m.userHigh)

/-- The velocity of an axis at the beginning or at the end of a point that it moves through with constant acceleration: it covers
the half of the point in half of the time, so the mean velocity of that half is twice the distance by the duration, and the
mean velocity of the whole point is the velocity at its middle. -/
def velocityAt (entry : Bool) (p : AxisPoint) : ℚ :=
  2 * (2 * (if entry then p.position - p.lower else p.upper - p.position) / p.duration) - (p.upper - p.lower) / p.duration

/-- A motor that is at rest at `x`, and then gains speed at a constant rate for the time `t`, has the velocity `v` at `y`. -/
def SpeedsUp (x t v y : ℚ) : Prop := ∃ a, v = a * t ∧ y = x + a * t * t / 2

/-- It can do so. -/
def Able (m : Limited) (t v : ℚ) : Prop := |v| ≤ m.acceleration * t

/-- Velocity mode 1 of the motion controller (assumed): the velocity at a point is such that the mean of it and of the velocity at
the point before is the mean velocity between the two. -/
def realVelocity (prevPos prevVel pos time : ℚ) : ℚ := 2 * (pos - prevPos) / time - prevVel

/-- A row on one axis: each point begins where the one before ends. -/
def Row : List AxisPoint → Prop
  | [] => True
  | [_] => True
  | p :: q :: ps => p.upper = q.lower ∧ Row (q :: ps)

/-- The axis moves one way, which is up. -/
def Upwards (ps : List AxisPoint) : Prop := ∀ p ∈ ps, p.lower ≤ p.position ∧ p.position ≤ p.upper

/-- It goes through the middle at half time. -/
def Halfway (p : AxisPoint) : Prop := p.position = (p.lower + p.upper) / 2

end Verif.Spec.RunUp
