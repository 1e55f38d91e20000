import Mathlib.Algebra.Order.Field.Rat
import Mathlib.Algebra.Order.Floor.Ring
import Mathlib.Data.Rat.Floor
/-!
The shares of the files of an Odin detector: malcolm/modules/ADOdin/parts/odinwriterpart.py 73-113.
-/
namespace Verif.Odin

/-- `range(start, 0, -step)` with a positive step -/
def rangeDown (start step : Nat) : List Nat :=
  if h : start = 0 ∨ step = 0 then [] else start :: rangeDown (start - step) step
termination_by start

/-- odinwriterpart.py 96-113 `files_shape`. The true division of 98 is exact here; in the code it is a
float, which is exact as long as the numbers are not very large. A scan has `frames` frames,
`blockSize` and `fileCount` are positive: else there is a ZeroDivisionError (98). -/
def filesShape (frames blockSize fileCount : Nat) : List Int :=
  let perFile : ℚ := (frames : ℚ) / ((fileCount * blockSize : Nat) : ℚ)
  let remainder := frames % (fileCount * blockSize)
  let remainders := (rangeDown remainder blockSize).map (fun remains => if remains > blockSize then blockSize else remains)
  let remainders := remainders ++ List.replicate (fileCount - remainders.length) 0
  (List.range fileCount).map (fun i => ⌊perFile * blockSize + ((remainders[i]?.getD 0 : Nat) : ℚ)⌋)

/-- odinwriterpart.py 73-94 `create_raw_dataset_infos`: the numbers in the names and paths of the raw
datasets -/
def rawDatasets (nRaw : Nat) : List Nat := (List.range (nRaw + 1)).map (· + 1)

/-- odinwriterpart.py 190-195: the numbers of the links that `create_vds` makes -/
def rawLinks (fileCount : Nat) : List Nat := (List.range fileCount).map (· + 1)

end Verif.Odin
