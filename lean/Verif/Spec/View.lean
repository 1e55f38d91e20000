import Verif.Model.View
/-! What a call with positional arguments means. -/
namespace Verif.View
open Verif

/-- `d` is what the call gives by name: the first arguments under the first names the method takes, and
the named ones. -/
def Named {X : Type} (takes : List String) (args : List X) (kwargs d : Dict String X) : Prop :=
  ∀ k, Dict.get? d k = match Dict.get? (takes.zip args) k with
    | some v => some v
    | none => Dict.get? kwargs k

end Verif.View
