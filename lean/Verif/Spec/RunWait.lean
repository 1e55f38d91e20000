import Verif.Spec.Runnable
/-!
What is wanted of a call of run() that has been stopped by a pause, an abort or a disable.
-/
namespace Verif.Spec.RunWait
open Verif Verif.Runnable Verif.Spec.Runnable

/-- The call `i` is a run() that was stopped and waits to be told how to go on -/
def Waiting (w : World) (i : Nat) : Prop := ∃ f q, w.threads[i]? = some (.rWait f q)

/-- Nothing goes on: each call is over, or a run() that waits and has not been told anything -/
def Quiet (w : World) : Prop := ∀ p ∈ w.threads, ¬ canMove w p

/-- A call that has failed and has told a run() to end, but has not yet put the block into Fault -/
def faulting : Pc → Bool
  | .faulting _ => true
  | _ => false

/-- What is asked of an event beside what `Tame` asks; `second_run_waits` and `late_fault_waits` of Verif.Props.RunWait show that the claim is
false without it: a run() does not begin in Paused, nor while another call is about to put the block into Fault. -/
def Tidy (w : World) (e : Event) : Prop :=
  Tame w e ∧ ∀ i ch f, e = .step i ch → w.threads[i]? = some (.rBegin f) → w.state ≠ .paused ∧ w.threads.all (fun p => !faulting p) = true

def TidyRun (w : World) : List Event → Prop
  | [] => True
  | e :: es => Tidy w e ∧ TidyRun (w.event e) es

instance (w : World) (e : Event) : Decidable (Tidy w e) := by
  cases e with
  | call c => exact .isTrue ⟨trivial, fun _ _ _ h => by cases h⟩
  | step i ch =>
    by_cases ht : Tame w (.step i ch)
    · match hi : w.threads[i]? with
      | some (.rBegin f) =>
        by_cases hc : w.state ≠ .paused ∧ w.threads.all (fun p => !faulting p) = true
        · exact .isTrue ⟨ht, fun _ _ _ _ _ => hc⟩
        · exact .isFalse fun h => hc (h.2 i ch f rfl hi)
      | none => exact .isTrue ⟨ht, fun _ _ _ h h' => by cases h; rw [hi] at h'; cases h'⟩
      | some p =>
        by_cases hp : ∃ f, p = .rBegin f
        · by_cases hc : w.state ≠ .paused ∧ w.threads.all (fun p => !faulting p) = true
          · exact .isTrue ⟨ht, fun _ _ _ _ _ => hc⟩
          · exact .isFalse fun h => hc (by obtain ⟨f, rfl⟩ := hp; exact h.2 i ch f rfl hi)
        · exact .isTrue ⟨ht, fun _ _ f h h' => by cases h; rw [hi] at h'; cases h'; exact absurd ⟨f, rfl⟩ hp⟩
    · exact .isFalse fun h => ht h.1

instance TidyRun.dec : (w : World) → (es : List Event) → Decidable (TidyRun w es)
  | _, [] => .isTrue trivial
  | w, e :: es =>
    have := TidyRun.dec (w.event e) es
    inferInstanceAs (Decidable (Tidy w e ∧ TidyRun (w.event e) es))

instance (w : World) : Decidable (Quiet w) := inferInstanceAs (Decidable (∀ p ∈ w.threads, ¬ canMove w p))

end Verif.Spec.RunWait
