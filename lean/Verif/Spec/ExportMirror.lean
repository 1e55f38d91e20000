import Verif.Model.ExportMirror
/-!
What an exported field should be: the field of the child under another label.
-/
namespace Verif.Spec.ExportMirror
open Verif Verif.ExportMirror

/-- The exported field shows what the child's field is. -/
structure Shows (shown child : Attr) : Prop where
  value : shown.value = child.value
  alarm : shown.alarm = child.alarm
  time : shown.time = child.time
  kind : shown.info.kind = child.info.kind

/-- The child takes the field away or puts in another one. -/
def Replaces : Op → Prop
  | .remove => True
  | .put _ => True
  | _ => False

/-- The child sets a table by the columns that are new. -/
def SetsColumns : Op → Prop
  | .setColumns _ _ _ => True
  | _ => False

/-- The child changes the label of its field. -/
def Relabels : Op → Prop
  | .setLabel _ => True
  | .setMeta _ => True
  | _ => False

/-- The child changes the tags of its field. -/
def Retags : Op → Prop
  | .setTags _ => True
  | .setMeta _ => True
  | _ => False

/-- The child changes whether its field can be written. -/
def Rewrites : Op → Prop
  | .setWriteable _ => True
  | .setMeta _ => True
  | _ => False

/-- What is done to the child's field -/
def ops : List Event → List Op
  | [] => []
  | .child os :: es => os ++ ops es
  | .state _ :: es => ops es

/-- Whether the manager's state, when it last changed, was one in which fields can be written -/
def lastState : List Event → Option Bool
  | [] => none
  | .child _ :: es => lastState es
  | .state b :: es => some ((lastState es).getD b)

end Verif.Spec.ExportMirror
