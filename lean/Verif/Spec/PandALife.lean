import Verif.Model.PandALife
/-!
What is said of the life of the manager of a PandA (C74).
-/
namespace Verif.Spec.PandALife
open Verif Verif.PandALife

/-- The PandA is polled: there is something that can handle its changes -/
def Polled (m : Mgr) : Prop := ∃ e, m.polls < (step m e).polls

/-- No more than one loop polls the PandA -/
def OneLoop (m : Mgr) : Prop :=
  ∀ i k, m.polls < (step m (.poll i)).polls → m.polls < (step m (.poll k)).polls → i = k

/-- A call of `disable` in which nothing raises, and the loop gets its message -/
def disableOk (m : Mgr) : List Ev :=
  [.call .disable, .go .ok, .go .ok] ++ m.live.map .take ++ [.go .ok, .go .ok, .go .ok]

/-- A call of `reset` in which nothing raises -/
def resetOk : List Ev := [.call .reset, .go .ok, .go .ok, .go .ok, .go .ok, .go .ok]

/-- A call of `init` in which nothing raises -/
def initOk : List Ev := [.call .init, .go .ok, .go .ok, .go .ok, .go .ok, .go .ok, .go .ok]

end Verif.Spec.PandALife
