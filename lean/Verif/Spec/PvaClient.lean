import Verif.Model.PvaClient
import Verif.Spec.Pva
/-!
What the local copy of a remote block should show.
-/
namespace Verif.Spec.PvaClient
open Verif Verif.Pva Verif.Spec.Pva Verif.PvaClient

/-- The fields of the local block are those of the remote block, with its data; of the health and of the settings of the block,
which each block has of its own, these parts are. -/
structure Mirrors (local_ : List (String × Py)) (remote : Py) : Prop where
  fields : ∀ k, k ≠ "health" → k ≠ "meta" → at_ (.dict none local_) [k] = at_ remote [k]
  health : at_ remote ["health"] ≠ none → ∀ n ∈ ["value", "alarm", "timeStamp"],
    at_ (.dict none local_) ["health", n] = at_ remote ["health", n]
  meta_ : at_ remote ["meta"] ≠ none → ∀ n ∈ ["description", "tags", "writeable", "label"],
    at_ (.dict none local_) ["meta", n] = at_ remote ["meta", n]

mutual
/-- No dictionary has a name twice. -/
def Tidy : Py → Prop
  | .dict _ fs => (fs.map (·.1)).Nodup ∧ TidyIn fs
  | _ => True
def TidyIn : List (String × Py) → Prop
  | [] => True
  | (_, v) :: fs => Tidy v ∧ TidyIn fs
end

mutual
/-- The type of a value of p4p: its structures, with their names and ids -/
def typeOf : Pv → Pv
  | .struct id fs => .struct id (typeOfIn fs)
  | _ => .str ""
def typeOfIn : List (String × Pv) → List (String × Pv)
  | [] => []
  | (k, v) :: fs => (k, typeOf v) :: typeOfIn fs
end

/-- What is known of the conversions of p4p: the type of a field stays, and only a structure can be stored in a structure. -/
structure KeepsTypes (ext : Ext) : Prop where
  keeps : ∀ old new x, ext old new = some x → typeOf x = typeOf old
  refuses : ∀ old id fs, ext old (.struct id fs) = none
  refused : ∀ new id fs, ext (.struct id fs) new = none

/-- The local block has a health and settings of its own. -/
structure Proper (m : Models) (fs : List (String × Py)) : Prop where
  health : ∃ t gs, field fs "health" = some (.dict (some t) gs) ∧ m t = true ∧ Tidy (.dict (some t) gs) ∧
    ∀ n ∈ ["value", "alarm", "timeStamp"], ∃ x, field gs n = some x
  meta_ : ∃ t gs, field fs "meta" = some (.dict (some t) gs) ∧ m t = true ∧ Tidy (.dict (some t) gs) ∧
    ∀ n ∈ ["description", "tags", "writeable", "label", "fields"], ∃ x, field gs n = some x

/-- A remote block, its channel, and a client that may have begun to monitor it -/
structure Net where
  world : World
  joined : Bool := false
  client : Client

inductive NEv
  /-- the client begins -/
  | join
  /-- something happens to the remote block or to its channel -/
  | remote (e : Ev) (now : Int × Int)

/-- the data that the channel shows -/
def openValue (h : Handler) : Option Pv := if h.isOpen then h.shown else none

/-- what the client is sent: the whole value when the channel opens, the changes while it is open, and that it has closed -/
def sent (e : Ev) (now : Int × Int) (h h' : Handler) : Option Msg :=
  match openValue h, openValue h' with
  | none, none => none
  | none, some v => some (.value v [])
  | some _, none => some (.disconnected now)
  | some _, some v =>
    match e with
    | .changes cs => some (.value v (storedBy cs))
    | _ => none

def stepNet (ext : Ext) (m : Models) (acc : Acc) (order : List (List String) → List (List String)) (n : Net) : NEv → Net
  | .join =>
    if n.joined then n
    else { n with
      joined := true
      client := match openValue n.world.handler with
        | some v => callback m acc order n.client (.value v [])
        | none => n.client }
  | .remote e now =>
    let w := step ext n.world e
    { n with
      world := w
      client := if n.joined then
          match sent e now n.world.handler w.handler with
          | some msg => callback m acc order n.client msg
          | none => n.client
        else n.client }

def runNet (ext : Ext) (m : Models) (acc : Acc) (order : List (List String) → List (List String)) (n : Net) (evs : List NEv) : Net :=
  evs.foldl (stepNet ext m acc order) n

/-- what happens to the remote block -/
def remoteEvs : List NEv → List Ev
  | [] => []
  | .join :: es => remoteEvs es
  | .remote e _ :: es => e :: remoteEvs es

/-- the new values that the remote block is given are tidy -/
def TidyEvs (evs : List Ev) : Prop := ∀ cs, Ev.changes cs ∈ evs → ∀ c ∈ cs, ∀ u, c.2 = some u → Tidy u

/-- There is such a path, and all that it goes through below the block are Models. -/
def OnlyModels (m : Models) (fs : List (String × Py)) (p : List String) : Prop :=
  at_ (.dict none fs) p ≠ none ∧ ∀ q, q ≠ [] → q <+: p → q ≠ p → ∃ x, at_ (.dict none fs) q = some x ∧ isModel m x = true

end Verif.Spec.PvaClient
