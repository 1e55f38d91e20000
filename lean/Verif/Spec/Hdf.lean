import Verif.Model.Hdf
/-!
What it means that a dataset is in a file, and that a layout is one that the HDF plugin can use.
-/
namespace Verif.Spec.Hdf
open Verif.Hdf

/-- What is relied on of a `CompoundGenerator`: each of its axes is an axis of one of its dimensions, no axis is
there twice, and a dimension has as many positions of each axis as its size. -/
structure Ok (g : Gen) : Prop where
  covered : ∀ a ∈ g.axes, ∃ d ∈ g.dimensions, a ∈ d.axes
  once : (g.dimensions.flatMap (·.axes)).Nodup
  sized : ∀ d ∈ g.dimensions, ∀ a ∈ d.axes, (d.positions a).length = d.size

/-- The layout has a dataset at a path, filled from a source -/
inductive HasData : List Xml → Path → Source → Prop
  | here {xs n s u} : Xml.data n s u ∈ xs → HasData xs [n] s
  | under {xs n ys p s} : Xml.group n ys ∈ xs → HasData ys p s → HasData xs (n :: p) s

/-- The layout has a link at a path -/
inductive HasLink : List Xml → Path → Path → Prop
  | here {xs n t} : Xml.link n t ∈ xs → HasLink xs [n] t
  | under {xs n ys p t} : Xml.group n ys ∈ xs → HasLink ys p t → HasLink xs (n :: p) t

/-- The group at a path has an attribute -/
inductive HasAttr : List Xml → Path → String → List String → Prop
  | here {xs n v} : Xml.attr n v ∈ xs → HasAttr xs [] n v
  | under {xs g ys p n v} : Xml.group g ys ∈ xs → HasAttr ys p n v → HasAttr xs (g :: p) n v

/-- What must be different in one group: the names of its datasets, links and groups, and the names of its
attributes -/
def key : Xml → Bool × String
  | .attr n _ => (false, n)
  | .data n _ _ => (true, n)
  | .link n _ => (true, n)
  | .group n _ => (true, n)

/-- In no group there are two things of the same name -/
inductive Valid : List Xml → Prop
  | mk {xs} : (xs.map key).Nodup → (∀ n ys, Xml.group n ys ∈ xs → Valid ys) → Valid xs

/-- The name that the machine of the plugin has for a directory -/
def onIoc (windows : Bool) (pi : PartInfo) (dir : List Char) : Option (List Char) :=
  if windows then translate pi dir else some dir

/-- After the configure, a dataset of a file (named relative to `fileDir`) will be written: by the plugin, the file
being the one it opens, or it is in the file that the part has written itself. -/
def Written (windows : Bool) (pi : PartInfo) (fileDir : List Char) (out : Out) (file : String) (path : Path) : Prop :=
  (∃ dir, onIoc windows pi (rstrip fileDir) = some dir ∧ out.pluginFile = dir ++ '/' :: file.toList ∧
    ∃ src, HasData out.layout path src) ∨
  (∃ ds, out.additional = some (rstrip fileDir ++ '/' :: file.toList, ds) ∧ path ∈ ds.map (·.1))

/-- `s` occurs in `t` at its start and nowhere else -/
def OnlyAtStart (s t : List Char) : Prop := ∀ a b, t = a ++ s ++ b → a = []

end Verif.Spec.Hdf
