import Verif.Model.TrajSend
/-!
What C75 says.
-/
namespace Verif.Spec.TrajSend
open Verif.Trajectory Verif.TrajSend

/-- how many points of the controller a request for a move of time `t` takes: one, or more of at most 4 s -/
def size (t : ℚ) : Nat := if t > maxMoveTime then nsplitOf t else 1

/-- how many points requests take -/
def npts : List Op → Nat
  | [] => 0
  | .add t _ _ _ _ :: ops => size t + npts ops
  | _ :: ops => npts ops

/-- the request for the run-up -/
def runUpOp (c : Cfg) (first : Nat) : Op := .add (c.runUp first).1 1 c.runUpProg first (c.runUp first).2

/-- the request for the tail-off -/
def tailOp (c : Cfg) (last : Nat) : Op := .add (c.tail last).1 3 c.tailProg last (c.tail last).2

/-- all requests for a window of steps, in order -/
def wholeOps (c : Cfg) (first steps : Nat) : List Op :=
  runUpOp c first :: (List.range' first steps).flatMap (fun i => c.ops i (decide (i + 1 = first + steps))) ++
    [tailOp c (first + steps)]

/-- `T` is the trajectory of the window as one profile, with nothing written before the end. -/
def Whole (c : Cfg) (first steps : Nat) (T : Traj) : Prop :=
  (Trajectory.start c.mapping).run 0 (wholeOps c first steps) = some T

/-- The configuration makes sense: each scan axis and each coordinate system axis once, with names the
controller has; at least one point in a batch; the run-up is one move; and no step makes so many points
that there is no room for the tail-off beside them. -/
structure Fits (c : Cfg) (first steps : Nat) : Prop where
  axes : c.mapping.keys.Nodup
  csAxes : c.mapping.values.Nodup
  names : ∀ a ∈ c.mapping.values, a ∈ axisNames
  batch : 0 < c.batchPoints
  runUp : (c.runUp first).1 ≤ maxMoveTime
  room : ∀ i last, npts (c.ops i last) + size (c.tail (first + steps)).1 < c.profilePoints
  added : ∀ i last, c.added i = false → npts (c.ops i last) = 0
  noWrite : ∀ i last, ∀ o ∈ c.ops i last, o ≠ .write

/-- The controller holds the first `p.total` points of the trajectory, each once and in order, with the
positions of the axes of the scan and of no other axis, and with times that are those of the trajectory in
ticks, rounded chunk by chunk. -/
structure Holds (c : Cfg) (T : Traj) (p : Pmac) : Prop where
  count : p.buffer.length = p.total
  most : p.total ≤ T.time.length
  modes : p.buffer.map (·.mode) = T.mode.take p.total
  progs : p.buffer.map (·.prog) = T.prog.take p.total
  positions : ∀ kv ∈ c.mapping, ∃ l, Dict.get? T.axes kv.2 = some l ∧ l.length = T.time.length ∧
    p.buffer.map (fun q => Dict.get? q.pos kv.2) = (l.take p.total).map some
  axes : ∀ q ∈ p.buffer, ∀ a, Dict.mem q.pos a = true → a ∈ c.mapping.values
  times : ∃ chunks : List (List ℚ), chunks.flatten = T.time.take p.total ∧ (∀ ch ∈ chunks, ch.length ≤ c.profilePoints) ∧
    p.buffer.map (·.ticks) = allTicks (chunks.map (·.map (· / c.tickS)))

/-- What the part can come to: updates with any number of points scanned, but no more than were sent. -/
inductive Reached (c : Cfg) (s0 : St) : St → Prop
  | start : Reached c s0 s0
  | update {s s' : St} (n : Nat) : Reached c s0 s → n ≤ s.pmac.total → updateStep c s n = some s' → Reached c s0 s'

/-- No update says that more was scanned than was sent: `n` when it comes, `a` when the first writing ends, `b` when the second does. -/
def NotAhead (c : Cfg) (s : St) (n : Nat) (a b : List Nat) : Prop :=
  n ≤ s.pmac.total ∧ (∀ s1, (report c n s).bind (supplyWith c [] n) = some s1 → ∀ m ∈ a, m ≤ s1.pmac.total) ∧
    (∀ s1, updateWith c s n a [] = some s1 → ∀ m ∈ b, m ≤ s1.pmac.total)

/-- What the part can come to when updates may come while an earlier one is still writing. -/
inductive ReachedWith (c : Cfg) (s0 : St) : St → Prop
  | start : ReachedWith c s0 s0
  | update {s s' : St} (n : Nat) (a b : List Nat) : ReachedWith c s0 s → NotAhead c s n a b → updateWith c s n a b = some s' →
      ReachedWith c s0 s'

/-- how many points of the controller there are up to the end of step `first + j`, the upper bound of its
scan point -/
def endOf (c : Cfg) (frame : Nat → Frame) (first steps j : Nat) : Nat :=
  npts (runUpOp c first :: (List.range' first j).flatMap (fun i => c.ops i (decide (i + 1 = first + steps)))) +
    2 * size (frame (first + j)).half

/-- the number of steps that are complete when `n` points of the controller are done -/
def completeAt (c : Cfg) (frame : Nat → Frame) (first steps n : Nat) : Nat :=
  first + ((List.range steps).filter (fun j => endOf c frame first steps j ≤ n)).length

end Verif.Spec.TrajSend
