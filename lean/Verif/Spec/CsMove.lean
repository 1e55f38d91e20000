import Verif.Model.CsMove
/-!
What a coordinated move is to do.
-/
namespace Verif.Spec.CsMove
open Verif Verif.CsMove

/-- The demands of a call, one for each axis that is given -/
def Given (args : Axis → Option Int) (d : Demand) : Prop := args d.1 = some d.2

/-- These are all the demands of a call, each once -/
def AllOf (args : Axis → Option Int) (l : List Demand) : Prop := l.Nodup ∧ ∀ d, d ∈ l ↔ Given args d

/-- A controller at rest: moves are not deferred, and nothing waits -/
def AtRest (c : Child) : Prop := c.deferred = false ∧ c.queue = []

/-- Events of one call only -/
def OnlyFirst : Event → Prop
  | .call _ _ => False
  | .step i => i = 0
  | .arrive i _ => i = 0
  | .fail i => i = 0

/-- Calls with these arguments were made at a controller, each when the one before had returned, and all have returned -/
inductive OneAfterOther : Child → List (Axis → Option Int) → Child → Prop
  | none (c) : OneAfterOther c [] c
  | call {c args t es c' m rest c''} : (∀ e ∈ es, OnlyFirst e) → World.run ⟨c, []⟩ (.call args t :: es) = ⟨c', [m]⟩ → m.pc = .done →
    OneAfterOther c' rest c'' → OneAfterOther c (args :: rest) c''

end Verif.Spec.CsMove
