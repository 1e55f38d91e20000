import Verif.Model.WriterStall
/-!
What a user wants of the end of a run of a file writer.
-/
namespace Verif.Spec.WriterStall
open Verif.WriterStall

/-- A frame was written, as far as the plugin told, at time `m` -/
def Frame (env : Nat → List Ev) (m : Nat) : Prop := ∃ v, Ev.captured v ∈ env m

/-- The plugin has told that `v` frames were captured, from the start of the run at `n`, when `now` were, up to `t` -/
def Told (env : Nat → List Ev) (now : Int) (n t : Nat) (v : Int) : Prop :=
  now = v ∨ ∃ m, n < m ∧ m ≤ t ∧ Ev.captured v ∈ env m

/-- No frame is written after `a` up to `b` -/
def Quiet (env : Nat → List Ev) (a b : Nat) : Prop := ∀ m, a < m → m ≤ b → ¬ Frame env m

/-- The run has ended with `r` -/
def Ended (s : St) (r : Result) : Prop := ∃ t, s.phase = .ended t r

end Verif.Spec.WriterStall
