import Verif.Model.Notifier
/-!
What a subscriber is promised, without reference to how notifications are computed.
-/
namespace Verif.Notifier.Spec
open Verif.Notifier

/-- The messages that one subscription has received, oldest first. -/
def received (sent : List Resp) (s : Sub) : List Msg :=
  sent.filterMap (fun r => if r.1 = s then some r.2 else none)

/-- Apply the stanzas of one Delta to the value the client holds. -/
def applyStanzas (v : Tree) (stanzas : List (Path × Tree)) : Tree :=
  stanzas.foldl (fun v st => v.setAt st.1 st.2) v

/-- What a client that held `v` holds after a message. -/
def hold (v : Tree) : Msg → Tree
  | .delta st => applyStanzas v st
  | _ => v

/-- The value a client holds that starts from nothing and applies every Delta. -/
def replay (msgs : List Msg) : Tree := msgs.foldl hold Tree.absent

/-- The value of an Update. -/
def Msg.value? : Msg → Option Tree
  | .update v => some v
  | _ => none

/-- The value of the last Update received. -/
def lastUpdate (msgs : List Msg) : Option Tree := (msgs.filterMap Msg.value?).getLast?

/-- The value of the block at a path: the published tree, below that path. -/
def valueAt (block : Tree) (p : Path) : Tree := fun q => block (p ++ q)

/-- One path is at or above the other. -/
def Touches (p q : Path) : Prop := p <+: q ∨ q <+: p

end Verif.Notifier.Spec
