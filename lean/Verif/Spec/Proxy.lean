import Verif.Model.Proxy
/-!
What C43 means: the block that a client is told of by the changes sent to it, and for which of them the property is
proved.
-/
namespace Verif.Spec.Proxy
open Verif.Notifier hiding Change
open Verif.Proxy

/-- The remote block after a change, if it was `t` before -/
def after (t : Tree) : Change → Tree
  | .whole _ d => d
  | .set p v => t.setAt p v
  | .delete p => t.setAt p Tree.absent

/-- The remote block after these changes -/
def remote (t : Tree) (changes : List Change) : Tree := changes.foldl after t

/-- A block that can be sent: it has settings and health and other fields, and its settings list them. Its health has
the same description here as there -/
structure Whole (enc : Enc) (here : Block) (names : List String) (d : Tree) : Prop where
  root : d [] = some .model
  order : ∃ others, names = "meta" :: "health" :: others ∧ names.Nodup
  fields : ∀ f r, d (f :: r) ≠ none → f ∈ names
  settings : d ["meta"] = some .model ∧
    ∀ k r, d ("meta" :: k :: r) ≠ none → k ∈ ["description", "tags", "writeable", "label", "fields"]
  list : d.sub ["meta", "fields"] = leaf (enc (listed names))
  health : d ["health"] = some .model ∧ ∀ k r, d ("health" :: k :: r) ≠ none → k ∈ ["value", "alarm", "timeStamp", "meta"]
  healthMeta : d.sub ["health", "meta"] = here.tree.sub ["health", "meta"]

/-- A change of something below a field of the block, in the Models that are there, to a new value -/
def Below (t : Tree) (p : Path) (v : Tree) : Prop :=
  2 ≤ p.length ∧ (∀ q k r, p = q ++ k :: r → t q = some .model) ∧ t p ≠ none ∧ v [] ≠ none

/-- All of the changes are of that kind, one after the other -/
def AllBelow (t : Tree) : List Change → Prop
  | [] => True
  | .set p v :: cs => Below t p v ∧ AllBelow (t.setAt p v) cs
  | _ => False

end Verif.Spec.Proxy
