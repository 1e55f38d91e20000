import Verif.Model.Spawned
/-! Histories in which only one thread waits for a result at a time. -/
namespace Verif.Spawned
open Verif

/-- Nobody calls `get` while another thread waits in it. -/
def OneAtATime {R : Type} (s : Spawned R) : List (Op R) → Prop
  | [] => True
  | .call t :: ops => s.waiting = [] ∧ OneAtATime (s.step (.call t)) ops
  | op :: ops => OneAtATime (s.step op) ops

/-- How many functions are spawned in a piece of history. -/
def spawns (ops : List POp) : Nat := (ops.filter (fun o => o == POp.spawn)).length

end Verif.Spawned
