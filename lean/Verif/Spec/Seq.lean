import Verif.Model.Seq
/-!
What a sequencer does with its rows, independent of how they are cut in tables.
-/
namespace Verif.Spec.Seq
open Verif.Seq

/-- One pulse: wait for the trigger, then `time1` ticks with the outputs set, then `time2` ticks -/
structure Pulse where
  trigger : String
  position : Int
  time1 : Int
  live : Nat
  dead : Nat
  time2 : Int
  deriving DecidableEq, Repr

/-- What comes out: a pulse, or the same pulse again and again for ever -/
inductive Out
  | once (p : Pulse)
  | forever (p : Pulse)
  deriving DecidableEq, Repr

def pulseOf (r : Row) : Pulse := ⟨r.trigger, r.position, r.time1, r.live, r.dead, r.time2⟩

def expandRow (r : Row) : List Out :=
  if r.repeats = 0 then [.forever (pulseOf r)] else List.replicate r.repeats (.once (pulseOf r))

/-- The pulses a list of rows makes -/
def expand (rows : List Row) : List Out := rows.flatMap expandRow

/-- The last pulse of a table, made longer by the ticks that the switch to the other sequencer takes -/
def withSwitch : List Out → List Out
  | [] => []
  | [.once p] => [.once { p with time2 := p.time2 + 6 }]
  | [.forever p] => [.forever p]
  | a :: b :: l => a :: withSwitch (b :: l)

/-- Ticks of a pulse, not counting one that goes on for ever -/
def outTicks : Out → Int
  | .once p => p.time1 + p.time2
  | .forever _ => 0

def ticks (l : List Out) : Int := (l.map outTicks).sum

/-- The rows end with one that is repeated for ever, and no other one is -/
def EndsForever (rows : List Row) : Prop :=
  ∃ init last, rows = init ++ [last] ∧ last.repeats = 0 ∧ ∀ r ∈ init, r.repeats ≠ 0


/-- The sequencers (A is `false`) that stop being active, in order, in a list of reports `(sequencer, active)`;
`a` and `b` are the reports before it -/
def stops : Option Bool → Option Bool → List (Bool × Bool) → List Bool
  | _, _, [] => []
  | a, b, (false, v) :: es => (if a = some true ∧ v = false then [false] else []) ++ stops (some v) b es
  | a, b, (true, v) :: es => (if b = some true ∧ v = false then [true] else []) ++ stops a (some v) es

/-- A, B, A, B, ... -/
def alternate : Bool → List Bool → Prop
  | _, [] => True
  | next, s :: ss => s = next ∧ alternate (!next) ss


/-! ### the pulses of a scan -/

/-- No axis has to move between point `i` and the next, and there is no delay between them -/
def Joined (s : Scan) (i : Nat) : Prop := s.bounds = [] ∨ (s.delay i = 0 ∧ ∀ b ∈ s.bounds, b.2 i = b.1 (i + 1))

/-- Axis `x` moves during point `i`, and no other one moves further -/
def MovesMost (s : Scan) (x : Axis) (i : Nat) : Prop :=
  x ∈ s.axes ∧ x.centre i ≠ x.lower i ∧
    ∀ y ∈ s.axes, (y.centre i - y.lower i).natAbs ≤ (x.centre i - x.lower i).natAbs

/-- a live pulse for point `i`, half of its duration on and half off -/
def livePulse (s : Scan) (i : Nat) (trigger : String) (position : Int) : Out :=
  .once ⟨trigger, position, halfOf (s.dur i), 1, 0, halfOf (s.dur i)⟩

/-- What the sequencer has to do for point `i` of a scan that starts at point `a`. `From last i` says from
which point the turnaround before point `i` may be taken to start. -/
inductive StepOut (From : Nat → Nat → Prop) (s : Scan) (a i : Nat) : List Out → Prop
  /-- within a scan row, or if nothing moves: a pulse, as soon as the last one is over -/
  | within : s.axes = [] ∨ (i ≠ a ∧ Joined s (i - 1)) → StepOut From s a i [livePulse s i "Immediate" 0]
  /-- at the start of the first scan row: a pulse when the motor controller says so -/
  | firstBit : s.axes ≠ [] → s.pcomp = false → i = a → StepOut From s a i [livePulse s i "BITA=1" 0]
  /-- at the start of the others: a dead pulse when the row before is over, then the same -/
  | laterBit : s.axes ≠ [] → s.pcomp = false → i ≠ a → ¬ Joined s (i - 1) →
      StepOut From s a i [.once ⟨"BITA=0", 0, 1250, 0, 1, 1250⟩, livePulse s i "BITA=1" 0]
  /-- position compare: a pulse when the axis that moves most crosses the lower bound of the point in the
  direction of its movement -/
  | firstPos (x : Axis) : s.pcomp = true → i = a → MovesMost s x i →
      StepOut From s a i [livePulse s i (s.enum x.name (decide (x.lower i < x.centre i))) (x.lower i)]
  /-- the same after a dead pulse, as long as that axis moves the wrong way in the turnaround -/
  | laterPos (x : Axis) (last : Nat) (t : ℚ) : s.pcomp = true → i ≠ a → ¬ Joined s (i - 1) → MovesMost s x i →
      From last i → s.blind last i x.name (decide (x.lower i < x.centre i)) = .ok t →
      StepOut From s a i [.once ⟨"Immediate", 0, halfOf t, 0, 1, halfOf t⟩,
        livePulse s i (s.enum x.name (decide (x.lower i < x.centre i))) (x.lower i)]

/-- What it has to do for points `i` to `j` -/
inductive Emits (From : Nat → Nat → Prop) (s : Scan) (a : Nat) : Nat → Nat → List Out → Prop
  | nil (i : Nat) : Emits From s a i i []
  | cons (i j : Nat) (l m : List Out) : StepOut From s a i l → Emits From s a (i + 1) j m → Emits From s a i j (l ++ m)

/-- The turnaround before a point starts from the point before it -/
def pointBefore (last i : Nat) : Prop := last + 1 = i

/-- The turnaround before point `i` is taken to start from the point before it, or else from the last point of one of the
batches before, of `size` points each from point `a`, that is in the same scan row as the point before `i` -/
def SameRow (s : Scan) (a size last i : Nat) : Prop :=
  last + 1 = i ∨ (last < i ∧ (∃ k, 1 ≤ k ∧ last + 1 = a + k * size) ∧ ∀ j, last ≤ j → j + 1 < i → Joined s j)

/-- a live pulse -/
def isLive : Out → Bool
  | .once p => p.live = 1
  | .forever p => p.live = 1

/-- In no 4096 consecutive points of the same scan row have all points the same duration -/
def NoLongRun (s : Scan) (a b : Nat) : Prop :=
  ∀ i, a ≤ i → i + 4096 ≤ b → ∃ j, i ≤ j ∧ j + 1 < i + 4096 ∧ (s.dur j ≠ s.dur (j + 1) ∨ (s.axes ≠ [] ∧ ¬ Joined s j))

end Verif.Spec.Seq
