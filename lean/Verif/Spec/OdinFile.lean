import Verif.Model.OdinFile
/-!
What someone who opens the file of an Odin detector relies on, said without the loops of `Model/OdinFile.lean`.
-/
namespace Verif.Spec.OdinFile
open Verif Verif.OdinFile

/-- The dataset of a writer's file that has the frames, their sums or their unique ids -/
def source (p : Part) : Kind → Text
  | .data => "data".toList
  | .sum => p.sumName
  | .uid => p.uidName

/-- Where a reader looks for the frames, their sums and their unique ids: `/entry/detector/data`, `/entry/detector_sum/sum`,
`/entry/detector_uid/uid` -/
def shownAt : Kind → Path
  | .data => .entry none "data".toList
  | .sum => .entry (some "sum".toList) "sum".toList
  | .uid => .entry (some "uid".toList) "uid".toList

/-- and for the positions of an axis, beside them -/
def axisAt (axis : Text) : Kind → Path
  | .data => .entry none (axis ++ "_set".toList)
  | .sum => .entry (some "sum".toList) (axis ++ "_set".toList)
  | .uid => .entry (some "uid".toList) (axis ++ "_set".toList)

/-- What has to be in the file. -/
structure Complete (n : Names) (p : Part) (dims : List Dim) (child : Child) (vds : Dict Path Node) : Prop where
  /-- the frames of all writers are joined, in the order of the writers -/
  joined : ∀ k, Dict.get? vds (.interleave k) = some (.joined ((List.range child.processes).map n.linked) (source p k) child.blockSize
    (Odin.filesShape (size dims) child.blockSize child.processes))
  /-- and are shown in the shape of the scan -/
  shown : ∀ k, Dict.get? vds (shownAt k) = some (.shaped (.interleave k) (dims.map Dim.size))
  raw : ∀ w, w < child.processes → Dict.get? vds (.raw (w + 1)) = some (.link (n.linked w) "/data".toList)
  uid : ∀ w, w < child.processes → Dict.get? vds (.uid (w + 1)) = some (.link (n.linked w) "/uid".toList)
  /-- the positions of an axis are those of the dimension it is in -/
  axis : ∀ k i d a, dims[i]? = some d → a ∈ d.axes → Dict.get? vds (axisAt a k) = some (.positions a i)
  /-- there is nothing for writers that are not there -/
  nothing : ∀ i, child.processes ≤ i → Dict.get? vds (.raw (i + 1)) = none ∧ Dict.get? vds (.uid (i + 1)) = none

/-- A name without directories -/
def Plain (t : Text) : Prop := '/' ∉ t

end Verif.Spec.OdinFile
