import Verif.Model.FieldNames
/-! What C126 says of names of exports. -/
namespace Verif.Spec.FieldNames
open Verif Verif.FieldNames

/-- names that are not also names of something else: each once, none of the block's own, none of its `path` and `notifier` -/
def Fine (own names : List String) : Prop :=
  names.Nodup ∧ (∀ n ∈ names, n ∉ own) ∧ "path" ∉ names ∧ "notifier" ∉ names

/-- the block is as it should be, with these exports -/
structure Good (mri : String) (own names : List String) (b : Block) : Prop where
  path : b.path = .list [mri]
  notifier : b.notifier = true
  types : b.types = own ++ names
  attrs : b.attrs = own ++ names
  shown : b.shown = own ++ names
  current : b.current = names
  told : ∀ p ∈ b.told, ∃ n, p = [mri, n]

end Verif.Spec.FieldNames
