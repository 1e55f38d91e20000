import Verif.Model.Kinematics
/-!
What the files for Savu must hold: for each motor of the scan the data of its own letter, for each raw motor its own
data, and no scaling twice.
-/
namespace Verif.Spec.Kinematics
open Verif.Kinematics

/-- The letters of the axes of a coordinate system, in the order of the variables Q1 to Q9. -/
def letters : List Char := ['A', 'B', 'C', 'U', 'V', 'W', 'X', 'Y', 'Z']

/-- The kinds of data there are, with and without least and greatest. -/
def AKind (minMax : Bool) (k : Kind) : Prop := k = .mean ∨ minMax = true

/-- The value a variable was given: the last one, not counting those in hex. -/
def given (var : String) (l : List (List String)) : Option String :=
  ((l.filterMap (fun t => match t with
    | a :: v :: _ => if a = var ∧ v.toList.head? ≠ some '$' then some v else none
    | _ => none)).getLast?)

/-- An info is of a scannable: its name is that of the scannable, a dot and something. -/
def Of (scannable : String) (i : Info) : Prop := ∃ t : List Char, i.name.toList = scannable.toList ++ '.' :: t

/-- The PandA scales the position of the scannable itself. -/
def Scaled (pos : List Pos) (scannable : String) : Prop :=
  ∃ l p r, pos = l ++ p :: r ∧ (∀ x ∈ l, x.name ≠ scannable) ∧ p.name = scannable ∧ p.scale ≠ 1

/-- The PandA adds an offset to the position of the scannable itself. -/
def Shifted (pos : List Pos) (scannable : String) : Prop :=
  ∃ l p r, pos = l ++ p :: r ∧ (∀ x ∈ l, x.name ≠ scannable) ∧ p.name = scannable ∧ p.offset ≠ 0

/-- The position of the scannable is captured, and it is not the first of the table. -/
def CapturedLater (pos : List Pos) (scannable : String) : Prop :=
  ∃ i p, pos[i + 1]? = some p ∧ p.name = scannable ∧ (p.capture = .value ∨ p.capture = .mean ∨ p.capture = .minMaxMean)

end Verif.Spec.Kinematics
