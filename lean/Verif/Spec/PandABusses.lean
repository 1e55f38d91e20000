import Verif.Model.PandABusses
/-!
What C41, C59 and C60 mean: what the PandA last reported for a field.
-/
namespace Verif.Spec.PandABusses
open Verif.PandABusses

/-- The last report for a field -/
def last (k : Key) (reports : List (Key × Raw)) : Option Raw :=
  (reports.reverse.find? fun r => r.1 = k).map (·.2)

/-- The raw position last reported, 0 at first -/
def rawOf (n : Name) (reports : List (Key × Raw)) : Int := ((last ⟨n, none⟩ reports).bind (·.int)).getD 0

/-- The scale last reported, 1 at first -/
def scaleOf (n : Name) (reports : List (Key × Raw)) : Rat := ((last ⟨n, some .scale⟩ reports).bind (·.float)).getD 1

/-- The offset last reported, 0 at first -/
def offsetOf (n : Name) (reports : List (Key × Raw)) : Rat := ((last ⟨n, some .offset⟩ reports).bind (·.float)).getD 0

/-- The value of a bit last reported, off at first -/
def bitOf (n : Name) (reports : List (Key × Raw)) : Bool := ((last ⟨n, none⟩ reports).map (·.bool)).getD false

/-- Whether the last report of a PCAP field was that it is captured -/
def capturedOf (f : Key) (reports : List (Key × Raw)) : Bool :=
  ((last f reports).map fun r => decide (r.text ≠ "No")).getD false

/-- The state after a number of polls, if none of them raises -/
def after (s : State) : List (List (Key × Raw)) → Option State
  | [] => some s
  | p :: ps => match handleChanges s p with
    | (s', none) => after s' ps
    | (_, some _) => none

/-- The bits of the fields, in order -/
def bitNames (fields : Dict Key (List (Option Name))) : List Name := fields.flatMap fun f => f.2.filterMap id

/-- A PandA: fields and names are distinct, and a position is neither a bit nor a field that captures bits -/
structure Distinct (fields : Dict Key (List (Option Name))) (positions : List Name) : Prop where
  posNodup : positions.Nodup
  bitNodup : (bitNames fields).Nodup
  fieldNodup : (fields.map (·.1)).Nodup
  capture : ∀ f ∈ fields, f.1.suffix = some .capture
  noBit : ∀ n ∈ positions, n ∉ bitNames fields
  noField : ∀ n ∈ positions, ∀ f ∈ fields, f.1.name ≠ n

/-- What can happen to the tables -/
inductive Op
  | poll (reports : List (Key × Raw))
  | setBits (rows : List (Name × Bool)) (accept : Bool)
  | setPositions (rows : List PosRow) (accept : Suffix → Bool)

/-- Its effect, whether it raises or not -/
def apply (s : State) : Op → State
  | .poll rs => (handleChanges s rs).1
  | .setBits rows accept => (setBits s rows accept).1
  | .setPositions rows accept => (setPositions s rows accept).1

/-- The states of a PandA with these fields and positions -/
inductive Reachable (fields : Dict Key (List (Option Name))) (positions : List Name) : State → Prop
  | start : Reachable fields positions (createBusses fields positions)
  | step {s : State} (op : Op) : Reachable fields positions s → Reachable fields positions (apply s op)

end Verif.Spec.PandABusses
