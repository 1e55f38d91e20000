import Verif.Model.DesignFiles
import Verif.Spec.PandABlock
/-!
What is expected of the files of designs.
-/
namespace Verif.Spec.DesignFiles
open Verif Verif.DesignFiles
open Verif.Spec.PandABlock (Sorted)

/-- A name for a design of one's own: not empty, without a slash, without ".json", not that of a template -/
structure Good (n : Name) : Prop where
  some : n ≠ []
  flat : '/' ∉ n
  plain : ¬ json <:+: n
  own : ¬ templatePre <+: n

/-- The name of a template -/
structure Template (n : Name) : Prop where
  flat : '/' ∉ n
  plain : ¬ json <:+: n
  pre : templatePre <+: n

/-- The file of a design -/
def fileOf (b : Block) (n : Name) : Path := b.dir ++ [n ++ json]

/-- There is a template of that name -/
def HasTemplate (d : Disk) (b : Block) (n : Name) : Prop := Template n ∧ ∃ t, b.templates = some t ∧ t ++ [n ++ json] ∈ d.files.keys

/-- Blocks have directories of their own, in which there are only designs with good names, or files that are no designs; in
directories of templates there are only templates -/
structure Tidy (w : World) : Prop where
  apart : ∀ (i j : Nat) b c, w.blocks[i]? = some b → w.blocks[j]? = some c → b.dir = c.dir → i = j
  separate : ∀ b ∈ w.blocks, ∀ c ∈ w.blocks, c.templates ≠ some b.dir
  once : w.disk.files.keys.Nodup
  designs : ∀ b ∈ w.blocks, ∀ f, b.dir ++ [f] ∈ w.disk.files.keys → json <:+ f → ∃ n, Good n ∧ f = n ++ json
  free : ∀ b ∈ w.blocks, ∀ f, b.dir ++ [f] ∉ w.disk.dirs
  templates : ∀ b ∈ w.blocks, ∀ t, b.templates = some t → ∀ f, t ++ [f] ∉ w.disk.dirs ∧
    (t ++ [f] ∈ w.disk.files.keys → ∃ n, Template n ∧ f = n ++ json)

/-- Events in which no other names are used, and nobody else writes -/
def Fine : Ev → Prop
  | .save _ n _ => n = [] ∨ Good n
  | .crash _ n _ _ => n = [] ∨ Good n
  | .write _ _ => False
  | _ => True

/-- What is on offer is as it should be: no design and the designs on the disk (with the template that is loaded), each once and in order; then the templates, each
once and in the order of their files -/
def Offered (d : Disk) (b : Block) : Prop :=
  ∃ own temps, b.choices = own ++ temps ∧ b.choices.Nodup ∧ Sorted own ∧ Sorted (temps.map (· ++ json)) ∧
    (∀ n, n ∈ own ↔ n = [] ∨ fileOf b n ∈ d.files.keys ∨ (n = b.design ∧ HasTemplate d b n)) ∧
    ∀ n, n ∈ temps ↔ n ≠ b.design ∧ HasTemplate d b n

/-- A save of another design than this one, or no save at all; `name` is what the block calls it -/
def Other (w : World) (i : Nat) (n : Name) : Ev → Prop
  | .save j m _ | .crash j m _ _ => j ≠ i ∨ (m ≠ n ∧ (m = [] → ∀ b, w.blocks[j]? = some b → b.design ≠ n))
  | _ => True

/-- All events are such, one after the other -/
def Others (w : World) (i : Nat) (n : Name) : List Ev → Prop
  | [] => True
  | e :: es => Other w i n e ∧ Others (step w e) i n es

end Verif.Spec.DesignFiles
