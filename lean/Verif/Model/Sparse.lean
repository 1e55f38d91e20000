import Mathlib.Algebra.Order.Field.Rat
/-!
Sparse trajectories: malcolm/modules/pmac/parts/pmacchildpart.py 687-762, 856-918, 948.

Only when points are reached is followed here: what `add_profile_point` does with the time is in
Model/Trajectory.
-/
namespace Verif.Sparse

/-- A scan point: its duration, whether it is joined to the next one, whether the next one has the same
velocity, and how long the turnaround after it takes if it is not joined (992-1021). -/
structure Pt where
  dur : ℚ
  joined : Bool
  same : Bool
  gap : ℚ := 0

/-- A point added to the profile: the middle of scan point `i`, its upper bound, or the turnaround after
it. -/
inductive Kind
  | mid
  | upper
  | gap
  deriving DecidableEq, Repr

/-- a point added and the time it takes from the one before -/
structure Ev where
  kind : Kind
  step : Nat
  time : ℚ
  deriving DecidableEq

/-- pmacchildpart.py 709-715: is the point left out? -/
def doSkip (tsp : ℚ) (p : Pt) : Bool := if tsp > 0 ∧ p.joined = false then true else p.joined && p.same

/-- pmacchildpart.py 687-762 `add_sparse_point`: the points it adds, the new time_since_last_pvt and
whether it added one. -/
def addSparsePoint (tsp : ℚ) (i : Nat) (p : Pt) : List Ev × ℚ × Bool :=
  let skip := doSkip tsp p
  let mid : List Ev := if skip then [] else [⟨.mid, i, tsp + p.dur / 2⟩]
  let tsp := if skip then tsp + p.dur else p.dur / 2
  if skip = false ∨ p.joined = false then (mid ++ [⟨.upper, i, tsp⟩], 0, true)
  else (mid, tsp, false)

/-- pmacchildpart.py 856-918 and 948: the loop. `full i` is whether the arrays have more than
PROFILE_POINTS after point `i`; if so and a point was added the function returns, and the next call of
`calculate_generator_profile` starts from the next point with time_since_last_pvt = 0. -/
def loop (full : Nat → Bool) : ℚ → Nat → List Pt → List Ev
  | _, _, [] => []
  | tsp, i, p :: pts =>
    let r := addSparsePoint tsp i p
    let gaps : List Ev := if p.joined then [] else [⟨.gap, i, p.gap⟩]
    r.1 ++ gaps ++ loop full (if r.2.2 && full i then 0 else r.2.1) (i + 1) pts

end Verif.Sparse
