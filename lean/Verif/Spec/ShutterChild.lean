import Verif.Model.ShutterChild
/-! What C125 says of a block and its child. -/
namespace Verif.Spec.ShutterChild
open Verif Verif.ShutterChild

/-- everything goes well -/
def well : Goes := { child := true, others := true, asked := true }

/-- nobody calls the child, but the block -/
def TopOnly : Ev → Prop
  | .childDisable _ => False
  | .childReset _ => False
  | _ => True

/-- nobody resets the child, but the block -/
def NotReset : Ev → Prop
  | .childReset _ => False
  | _ => True

end Verif.Spec.ShutterChild
