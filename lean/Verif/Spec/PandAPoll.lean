import Verif.Model.PandAPoll
/-!
What C40 and C58 mean.
-/
namespace Verif.Spec.PandAPoll
open Verif.PandAPoll

/-- What a block shows for a bit after it was told these things: what it was told last, and off before that -/
def shown (k : Key) (outs : List Out) : Bool :=
  outs.foldl (fun b o => match o.block.get? k with
    | some (.bit v) => v
    | _ => b) false

/-- The last report for a field in a list of reports -/
def lastReport (k : Key) (reports : List (Key × Raw)) : Option Raw :=
  (reports.reverse.find? fun r => r.1 = k).map (·.2)

/-- The PandA reports this field at most once in one poll -/
def Once (k : Key) (reports : List (Key × Raw)) : Prop := (reports.filter fun r => r.1 = k).length ≤ 1

/-- The PandA does not report this field in a poll -/
def Silent (k : Key) (reports : List (Key × Raw)) : Prop := ∀ r ∈ reports, r.1 ≠ k

/-- A name that a bit can have: not in the metadata, and not a label -/
def BitName (k : Key) : Prop := k.block ≠ metadata ∧ k.field ≠ ['L', 'A', 'B', 'E', 'L']

/-- Where a report belongs: to its own block and field, or, for a label in the metadata, to that of the block it names -/
inductive Belongs : Key → Key → Prop
  | field (k : Key) (h : k.block ≠ "*METADATA".toList) : Belongs k k
  | label (x : Text) : Belongs ⟨"*METADATA".toList, "LABEL_".toList ++ x⟩ ⟨x, "LABEL".toList⟩

end Verif.Spec.PandAPoll
