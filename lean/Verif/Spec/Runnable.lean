import Verif.Model.Runnable
import Verif.Props.States
/-!
What is claimed of the calls of a runnable block (C01, C05).
-/
namespace Verif.Spec.Runnable
open Verif Verif.Runnable

/-- A new block: the constructor has left it Disabled and nobody has called anything -/
def new : World := {}

/-- The states that a block shows: first its own, then that after each event -/
def shown (w : World) : List Event → List St
  | [] => [w.state]
  | e :: es => w.state :: shown (w.event e) es

/-- The calls that were made, in order: the call at position `i` is the thread `i` -/
def calls (es : List Event) : List Call :=
  es.filterMap fun | .call c => some c | .step _ _ => none

/-- The states in which a block may stay when nothing goes on -/
def rest : List St := [.ready, .armed, .paused, .finished, .fault, .disabled, .aborted]

/-- A call that is not over and does not wait for someone to resume, abort, disable or fail. -/
def canMove (w : World) : Pc → Prop
  | .done _ => False
  | .rWait _ q => w.queues q ≠ []
  | _ => True

/-- A configure after it has put the block into Configuring -/
def configuring : Pc → Bool
  | .cReset | .cContexts | .cBetween _ | .cHook .. | .cEnd => true
  | _ => false

/-- A run after it has put the block into Running -/
def running : Pc → Bool
  | .rBetween .. | .rHook .. | .rEnd _ | .rWait .. => true
  | _ => false

/-- An abort or a pause after it has put the block into Aborting or Seeking -/
def stopping : Pc → Bool
  | .aWait _ | .aIgnore _ | .aFresh _ | .aBetween .. | .aHook .. | .aEnd _ => true
  | _ => false

/-- A configure, run, abort or pause that has begun, or an abort that has yet to tell a run to end -/
def busy (p : Pc) : Bool := configuring p || running p || stopping p || decide (p = .aPut)

/-- What is asked of an event, as the code does not ensure it. Verif.Props.RunnableWitness shows that the claim is false
without the first (`spurious_abort_configuring`, `spurious_abort_running`), the second (`late_abort_put`), the last part of
the third (`late_pause`) and the fourth (`resume_in_armed`):
- a part raises AbortedError only when it was told to stop;
- a configure begins only when all earlier configures, runs, aborts and pauses are over;
- a pause begins only when no other pause or abort goes on, and in the state in which it decided where to go;
- resume is not called in Armed. -/
def Tame (w : World) : Event → Prop
  | .call _ => True
  | .step i ch =>
    match w.threads[i]? with
    | some (.cHook _ g n) => ch = .aborted → n < w.stops g
    | some (.rHook _ _ g n) => ch = .aborted → n < w.stops g
    | some (.aHook _ _ g n) => ch = .aborted → n < w.stops g
    | some .cReset => ch ≠ .aborted
    | some (.aFresh _) => ch ≠ .aborted
    | some (.cBegin _) => ∀ j, j < w.threads.length → j ≠ i → w.threads[j]?.any busy = false
    | some (.aBegin (.pause next)) =>
      (∀ j, j < w.threads.length → j ≠ i → w.threads[j]?.any stopping = false) ∧
      next = if w.state = .armed ∨ w.state = .finished then .armed else .paused
    | some .resumeBegin => w.state ≠ .armed
    | _ => True

instance (w : World) (e : Event) : Decidable (Tame w e) := by
  cases e <;> unfold Tame <;> dsimp only <;> (try split) <;> infer_instance

def TameRun (w : World) : List Event → Prop
  | [] => True
  | e :: es => Tame w e ∧ TameRun (w.event e) es

instance TameRun.dec : (w : World) → (es : List Event) → Decidable (TameRun w es)
  | _, [] => .isTrue trivial
  | w, e :: es =>
    have := TameRun.dec (w.event e) es
    inferInstanceAs (Decidable (Tame w e ∧ TameRun (w.event e) es))

instance (w : World) (p : Pc) : Decidable (canMove w p) := by
  cases p <;> unfold canMove <;> infer_instance

def over : Pc → Bool
  | .done _ => true
  | _ => false

/-- The call `i` ends by its next step, with the result `r`: before it is not over, after it it is. -/
def EndsBy (es : List Event) (i : Nat) (ch : Choice) (r : Result) : Prop :=
  (new.run es).threads[i]?.any over = false ∧ (new.run (es ++ [.step i ch])).threads[i]? = some (.done r)

/-- The call `i` took the block from the state `a` to the state `b`, at some time during `es`. -/
def Took (es : List Event) (i : Nat) (a b : St) : Prop :=
  ∃ es1 ch es2, es = es1 ++ .step i ch :: es2 ∧ (new.run es1).state = a ∧ (new.run (es1 ++ [.step i ch])).state = b

/-- The points at which the hooks of the parts run (but those of validate) -/
def inHooks : Pc → Bool
  | .sHook _ | .cReset | .cHook .. | .rHook .. | .aFresh _ | .aHook .. => true
  | _ => false

/-- How the call `i`, which is `c` and was made during `es`, may end with the result `r`, when its last step takes the block
from the state `before` to `after`:
- a stateful call (reset, save, load, disable) that returns leaves the block in its last state;
- a configure that returns leaves it Armed, a run Armed or Finished, a pause Armed or Paused (or Finished if it was so and
  there was nothing to do);
- an abort that returns has taken the block from Aborting to Aborted, a resume to Running;
- all but configure and resume that raise an error leave the block in Fault or Disabled; configure does so too or leaves the
  state as it is (the arguments are not valid, or it was stopped); so does resume;
- a call that was stopped leaves the state to the call that stopped it. -/
def Ending (es : List Event) (i : Nat) (before after : St) : Result → Call → Prop
  | .returned, .stateful k => after = k.finish
  | .returned, .configure => after = .armed
  | .returned, .run last => after = if last then .finished else .armed
  | .returned, .pause given => after = .armed ∨ after = .paused ∨ (after = .finished ∧ before = .finished ∧ given = false)
  | .returned, .abort => Took es i .aborting .aborted ∧ after = before
  | .returned, .resume => (Took es i .paused .running ∨ Took es i .armed .running) ∧ after = before
  | .raised _, .configure => after = .fault ∨ after = .disabled ∨ after = before
  | .raised _, .resume => after = before
  | .raised _, _ => after = .fault ∨ after = .disabled
  | .aborted, .stateful _ | .aborted, .resume => False
  | .aborted, _ => after = before

end Verif.Spec.Runnable
