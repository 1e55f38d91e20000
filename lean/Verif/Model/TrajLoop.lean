/-!
Producing a PMAC trajectory in batches:
malcolm/modules/pmac/parts/pmacchildpart.py 375, 406-419, 440-480, 764-779, 781-990.

What is followed is which steps of the scan are turned into profile points and how many profile points
there are. How many a step makes is any function `grow` (two or none, more with turnarounds and
stretched points), so the results are for all generators.
-/
namespace Verif.TrajLoop

/-- The parameters: PROFILE_POINTS, BATCH_POINTS, how many profile points a step makes with the
turnaround after it, and whether `add_sparse_point` said it added one (always true for
`add_generator_point_pair`). -/
structure Cfg where
  profilePoints : Nat := 2000
  batchPoints : Nat := 20000
  grow : Nat → Nat
  added : Nat → Bool
  /-- points made by the run-up and the tail-off: one, or more if stretched -/
  runUp : Nat := 1
  tailOff : Nat := 1

/-- `pending`: length of the profile arrays; `total`: length of completed_steps_lookup; `visited`: the
steps added to the profile; `tails`: how often the tail-off was added. -/
structure St where
  pending : Nat := 0
  total : Nat := 0
  endIndex : Nat := 0
  upTo : Nat := 0
  tailAdded : Bool := false
  visited : List Nat := []
  tails : Nat := 0
  deriving DecidableEq, Repr

/-- A step is added: 818-822, 881-885 and the turnaround after it -/
def visit (c : Cfg) (s : St) (i : Nat) : St :=
  { s with pending := s.pending + c.grow i, total := s.total + c.grow i, visited := s.visited ++ [i] }

/-- pmacchildpart.py 781-786, 824-827, 837-840, 887-892, 902-906 -/
def exceeds (c : Cfg) (s : St) (i : Nat) : Bool := c.added i && decide (s.pending > c.profilePoints)

/-- pmacchildpart.py 817-830 and 880-895: the loop over the points of a batch but the last. The result is
the state, the next `point_index` and whether the function returned. -/
def batchLoop (c : Cfg) : Nat → Nat → St → St × Nat × Bool
  | 0, i, s => (s, i, false)
  | n + 1, i, s =>
    let s := visit c s i
    if exceeds c s i then ({ s with endIndex := i + 1 }, i, true)
    else batchLoop c n (i + 1) s

/-- pmacchildpart.py 764-779 `get_some_points`: the number of points it gets -/
def numPoints (c : Cfg) (start upTo : Nat) : Nat :=
  if upTo - start > c.batchPoints then c.batchPoints + 1 else upTo - start

/-- the loop over all points of the batch but the last -/
def batch (c : Cfg) (start : Nat) (s : St) : St × Nat × Bool := batchLoop c (numPoints c start s.upTo - 1) start s

/-- pmacchildpart.py 793-854 `create_generator_profile_every_point` and 856-918
`create_generator_profile_sparse`, which differ in what a step adds. The flag is the result: a tail-off
is needed. `none` is the loop that never ends. -/
def create (c : Cfg) (start : Nat) (s : St) : Option (St × Bool) :=
  if start = s.upTo then some (s, true)
  else if (batch c start s).2.2 then some ((batch c start s).1, false)
  else if start + numPoints c start s.upTo = s.upTo then
    let i := (batch c start s).2.1
    let s := visit c (batch c start s).1 i
    if exceeds c s i then some ({ s with endIndex := i + 1 }, false)
    else if i + 1 = s.upTo then some (s, true)
    else none
  else if (batch c start s).2.1 = (batch c start s).1.upTo then some ((batch c start s).1, true)
  else if _h : start < (batch c start s).2.1 ∧ (batch c start s).2.1 < (batch c start s).1.upTo ∧
      (batch c start s).1.upTo = s.upTo then
    create c (batch c start s).2.1 (batch c start s).1
  else none
termination_by s.upTo - start
decreasing_by omega

/-- pmacchildpart.py 959-990 `add_tail_off` -/
def addTailOff (c : Cfg) (s : St) : St :=
  { s with pending := s.pending + c.tailOff, total := s.total + c.tailOff, endIndex := s.upTo, tailAdded := true,
           tails := s.tails + 1 }

/-- pmacchildpart.py 948-957: the end of `calculate_generator_profile` -/
def calculate (c : Cfg) (start : Nat) (s : St) : Option St :=
  match create c start s with
  | none => none
  | some (s, needsTail) => if needsTail ∧ s.tailAdded = false then some (addTailOff c s) else some s

/-- pmacchildpart.py 493-496: PROFILE_POINTS are written -/
def write (c : Cfg) (s : St) : St := { s with pending := s.pending - c.profilePoints }

/-- pmacchildpart.py 375, 406-419: `on_configure` for a window of steps. The end index is left from
before. -/
def configure (c : Cfg) (old : St) (completed stepsToDo : Nat) : Option St :=
  let s : St := { pending := c.runUp, total := c.runUp, endIndex := old.endIndex, upTo := completed + stepsToDo }
  match calculate c completed s with
  | none => none
  | some s => some (write c s)

/-- pmacchildpart.py 440-480 `update_step`, without the report of progress. The assertion that nothing is
left (475-478) is not modelled. -/
def updateStep (c : Cfg) (s : St) (scanned : Nat) : Option St :=
  if scanned = 0 then some s
  else
    let s1 : Option St :=
      if s.endIndex < s.upTo ∧ s.total < scanned + c.profilePoints then
        match calculate c s.endIndex s with
        | none => none
        | some s => some (write c s)
      else some s
    match s1 with
    | none => none
    | some s =>
      if s.endIndex = s.upTo ∧ s.pending ≠ 0 then
        match calculate c s.endIndex s with
        | none => none
        | some s => some (write c s)
      else some s

/-- A scan of one window: configure, and then any updates of the number of points scanned. -/
def run (c : Cfg) : St → List Nat → Option St
  | s, [] => some s
  | s, n :: ns =>
    match updateStep c s n with
    | none => none
    | some s => run c s ns

end Verif.TrajLoop
