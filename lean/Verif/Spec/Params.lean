import Verif.Model.Params
/-!
What parts ask of `configure`, and what they are given.
-/
namespace Verif.Spec.Params
open Verif.Params

variable {M V R : Type}

/-- Some part has this parameter (and it is not one of `configure` or of its hook) -/
def Wanted (infos : List (Info M V)) (k : String) : Prop := k ∉ ignored ∧ ∃ i ∈ infos, k ∈ Dict.keys i.metas

/-- Some part cannot do without it -/
def Needed (infos : List (Info M V)) (k : String) : Prop := k ∉ ignored ∧ ∃ i ∈ infos, k ∈ i.required

/-- Some part has a default for it -/
def HasDefault (infos : List (Info M V)) (k : String) : Prop :=
  ∃ i ∈ infos, k ∈ Dict.keys i.metas ∧ k ∈ Dict.keys i.defaults

/-- The defaults that the parts have for a parameter, in the order of the parts -/
def defaultsOf (infos : List (Info M V)) (k : String) : List V :=
  infos.filterMap (fun i => if k ∈ Dict.keys i.metas then Dict.get? i.defaults k else none)

/-- As Python dicts are: no key twice; and what is required or has a default has a meta -/
structure WellFormed (i : Info M V) : Prop where
  once : (Dict.keys i.metas).Nodup
  req : ∀ k ∈ i.required, k ∈ Dict.keys i.metas

end Verif.Spec.Params
