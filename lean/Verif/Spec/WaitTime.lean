import Verif.Model.WaitTime
/-! What it means for a wait to end in time. -/
namespace Verif.Spec.WaitTime
open Verif Verif.WaitTime
open Verif.Context (Ctx Op Item)
variable {V : Type}

/-- No time passes while the thread has something to do, other than what a turn takes, and the thread is woken at the first tick past its time -/
def Prompt (busy : Bool) (q : List (Item V)) (expires : Option Nat) (now d : Nat) : Prop :=
  busy = true → (q ≠ [] → d = 0) ∧ ∀ u, expires = some u → now + d ≤ max now (u + 1)

/-- every passing of time is prompt -/
def PromptWait (t : Timed V) : List (Ev V) → Prop
  | [] => True
  | ev :: evs => (∀ d, ev = .pass d → Prompt t.waiting t.ctx.q t.expires t.now d) ∧ PromptWait (t.step ev) evs

/-- likewise for a sleep -/
def PromptSleep (t : Sleep V) : List (SEv V) → Prop
  | [] => True
  | ev :: evs => (∀ d, ev = .pass d → Prompt t.ended.isNone t.ctx.q (some t.expires) t.now d) ∧ PromptSleep (t.step ev) evs

/-- how long the callbacks took in all -/
def callbacks : List (Ev V) → Nat
  | [] => 0
  | .turn _ _ c :: evs => c + callbacks evs
  | _ :: evs => callbacks evs

/-- how long the callbacks took in all during a sleep -/
def sleepCallbacks : List (SEv V) → Nat
  | [] => 0
  | .turn _ _ c :: evs => c + sleepCallbacks evs
  | _ :: evs => sleepCallbacks evs

/-- Nothing but this wait takes responses from the queue -/
def Sole : Ev V → Prop
  | .elsewhere op => op ≠ .pop
  | .turn body _ _ => ∀ op ∈ body, op ≠ .pop
  | _ => True

/-- What was in the queue of `s` and what has been put there since -/
def Arrived (s t : Ctx V) : List (Item V) := (t.popped ++ t.q).drop s.popped.length

/-- A response that settles the future -/
def Answers (f : Nat) : Item V → Prop
  | .ret i _ => i = f
  | .error i _ => i = f
  | _ => False

end Verif.Spec.WaitTime
