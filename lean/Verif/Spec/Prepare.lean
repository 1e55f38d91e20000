import Verif.Model.Prepare
/-!
What C124 says of the histories of a configure.
-/
namespace Verif.Spec.Prepare
open Verif Verif.Prepare

/-- nobody else puts the mode -/
def NoMode : Ev → Prop
  | .mode _ => False
  | _ => True

/-- the part has ended well -/
def Ended (w : World) : Prop := w.pc = .done

instance (w : World) : Decidable (Ended w) := inferInstanceAs (Decidable (w.pc = .done))

/-- the part took its last step in `es` at this moment: it was not over before it and is over after it -/
def EndsNow (w : World) (es : List Ev) (e : Ev) : Prop := ¬ Ended (w.run es) ∧ Ended (w.run (es ++ [e]))

end Verif.Spec.Prepare
