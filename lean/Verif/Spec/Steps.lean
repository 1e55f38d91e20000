/-!
Specification vocabulary for scans (C06, C08, C09).  Nothing here mentions the model.
-/
namespace Verif.Spec.Steps

/-- `e` is the end of the segment that contains step `p`, when a scan is cut into consecutive
segments of the given sizes. -/
def SegEnd (parts : List Int) (p e : Int) : Prop :=
  ∃ before size after, parts = before ++ size :: after ∧
    before.sum ≤ p ∧ p < before.sum + size ∧ e = before.sum + size

/-- The windows (first step, number of steps) follow each other without gap or overlap from step `a`
to step `b`. -/
def Contiguous : Int → List (Int × Int) → Int → Prop
  | a, [], b => a = b
  | a, (s, n) :: ws, b => s = a ∧ 0 < n ∧ Contiguous (a + n) ws b

/-- The windows of a scan cut into the given segments, from step `a`. -/
def windowsFrom : Int → List Int → List (Int × Int)
  | _, [] => []
  | a, n :: ns => (a, n) :: windowsFrom (a + n) ns

end Verif.Spec.Steps
