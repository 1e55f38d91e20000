import Verif.Model.Halt
/-!
What is said of the stopping of a process (C119).
-/
namespace Verif.Spec.Halt
open Verif.Halt

/-- Nothing is under way in a block -/
def Settled (s : St) : Prop := s ≠ .disabling

/-- No block is, directly or through others, a child of itself -/
def Acyclic (kids : Nat → List Nat) : Prop := ∃ rank : Nat → Nat, ∀ b, ∀ c ∈ kids b, rank c < rank b

/-- All that has been called has ended -/
def AllOver (w : World) : Prop := ∀ x ∈ w.jobs, ∃ ok, x.ph = .over ok

/-- The call of `halt` of this block has ended -/
def HaltOver (w : World) (b : Nat) : Prop := ∃ x, w.jobs[b]? = some x ∧ ∃ ok, x.ph = .over ok

/-- Each of the steps does something -/
def Effective (kids : Nat → List Nat) (w : World) : List Ev → Prop
  | [] => True
  | e :: es => w.step kids e ≠ w ∧ Effective kids (w.step kids e) es

/-- No part raises of itself -/
def NoFailure (es : List Ev) : Prop := ∀ j, Ev.halt j false ∉ es ∧ Ev.own j false ∉ es

/-- Children first: no ChildPart looks at its block before that has halted -/
def ChildrenFirst (kids : Nat → List Nat) (w : World) : List Ev → Prop
  | [] => True
  | e :: es =>
    (∀ j i x c, e = .kid j i → w.jobs[j]? = some x → (kids x.blk)[i]? = some c → HaltOver w c)
      ∧ ChildrenFirst kids (w.step kids e) es

/-- Nobody is overtaken: no call begins while another is disabling the block, nor one made by a ChildPart after another has disabled it,
and what a ChildPart has found writeable is so still when it calls -/
def Apart (kids : Nat → List Nat) (n : Nat) (w : World) : List Ev → Prop
  | [] => True
  | e :: es =>
    (∀ j x, e = .begin j → w.jobs[j]? = some x → x.ph = .due → w.st x.blk ≠ .disabling ∧ (n ≤ j → w.st x.blk ≠ .disabled))
      ∧ (∀ (j i b c : Nat) own ks, e = .kid j i → w.jobs[j]? = some ⟨b, .running own ks⟩ → ks[i]? = some .seen → (kids b)[i]? = some c →
          w.st c ≠ .disabling ∧ w.st c ≠ .disabled)
      ∧ Apart kids n (w.step kids e) es

end Verif.Spec.Halt
