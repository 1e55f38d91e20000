import Verif.Model.Xspress
/-!
What someone who opens the file of an Xspress detector relies on, said without the loops of `Model/Xspress.lean`.
-/
namespace Verif.Spec.Xspress
open Verif Verif.Xspress

/-- The file of writer number `w` (from 0), for at most eight of them. -/
def WriterFile (raw : String) (w : Nat) (f : String) : Prop := ∃ c, letters[w]? = some c ∧ f = fileName raw c

/-- The number of points of the scan -/
def points : List Dim → Nat
  | [] => 1
  | d :: ds => d.size * points ds

/-- What has to be in the file: with `channels` channels shared equally among `writers` writers, in blocks of
neighbouring channels, every channel leads to the file of the writer that writes it. -/
structure Complete (raw : String) (dims : List Dim) (blockSize writers channels : Nat) (vds : Dict Path Node) : Prop where
  channel : ∀ w k, w < writers → k < channels / writers →
    ∃ f, WriterFile raw w f ∧
      Dict.get? vds (.mca (w * (channels / writers) + k)) = some (.mca f (w * (channels / writers) + k))
  uid : ∀ w, w < writers → ∃ f, WriterFile raw w f ∧ Dict.get? vds (.uid w) = some (.uid f)
  scalar : ∀ i, i < 9 → Dict.get? vds (.scalar i) = some (.scalar (raw ++ "_meta.h5") i)
  dtc : Dict.get? vds .dtc = some (.dtc (raw ++ "_meta.h5"))
  /-- the images are those of all the files, in the order of the writers -/
  images : ∃ fs, fs.length = writers ∧ (∀ w f, fs[w]? = some f → WriterFile raw w f) ∧
    Dict.get? vds .entryData = some (.images fs (Odin.filesShape (points dims) blockSize writers)) ∧
    Dict.get? vds .data = Dict.get? vds .entryData
  /-- the positions of an axis are those of the dimension it is in -/
  axis : ∀ i d a, dims[i]? = some d → a ∈ d.axes → Dict.get? vds (.axisSet a) = some (.positions a i)

end Verif.Spec.Xspress
