import Verif.Model.PvaLife
/-!
What C123 says: when there is a server, when a copy can be believed.
-/
namespace Verif.Spec.PvaLife
open Verif Verif.PvaLife

/-- somebody resets -/
def isReset : SEv → Bool
  | .reset _ => true
  | _ => false

/-- the process starts, or starts again -/
def isInit : SEv → Bool
  | .init _ _ => true
  | _ => false

/-- the calls in which closing the channels of clients goes wrong -/
def clientsFail : SEv → Bool
  | .disable _ clients => !clients
  | _ => false

/-- neither started again nor disabled -/
def Steady {V : Type} : CEv V → Prop
  | .init _ _ => False
  | .disable _ => False
  | _ => True

/-- not started again -/
def NoInit {V : Type} : CEv V → Prop
  | .init _ _ => False
  | _ => True

/-- every copy whose health says that it is connected shows what the block of the server is -/
def Current {V : Type} (c : Client V) : Prop :=
  ∀ mri x, Dict.get? c.copies mri = some x → x.ok = true → x.value = c.remote mri

end Verif.Spec.PvaLife
