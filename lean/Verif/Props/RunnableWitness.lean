import Verif.Props.RunnableEnds
/-!
C05: histories on which the claim fails, by running the model. None of them has a part that fails with an error.
-/
namespace Verif.Props.RunnableWitness
open Verif Verif.Runnable Verif.Spec.Runnable

def steps (i n : Nat) : List Event := List.replicate n (.step i .ok)

/-- A block that is Ready: the call 0 is over -/
def ready : List Event := .call (.stateful .init) :: steps 0 3

/-- A block that is Armed: the calls 0 and 1 are over -/
def armed : List Event := ready ++ .call .configure :: steps 1 14

example : (new.run ready).state = .ready ∧ (new.run armed).state = .armed ∧
    (new.run armed).threads = [.done .returned, .done .returned] := by decide +kernel

/-- No call can go on -/
def Stuck (w : World) : Prop := ∀ p ∈ w.threads, ¬canMove w p

instance (w : World) : Decidable (Stuck w) := inferInstanceAs (Decidable (∀ p ∈ w.threads, ¬canMove w p))

/-- A part raises AbortedError in a configure that nobody aborts: configure ends with an error and the block stays
Configuring. -/
theorem spurious_abort_configuring :
    let w := new.run (ready ++ .call .configure :: steps 1 5 ++ [.step 1 .aborted])
    w.state = .configuring ∧ Stuck w ∧ w.threads[1]? = some (.done (.raised "No abort queue")) := by decide +kernel

/-- The same in a run, after a pause in Armed: run waits for ever and the block stays Running. -/
theorem spurious_abort_running :
    let w := new.run (armed ++ .call (.pause false) :: steps 2 10 ++ .call (.run true) :: steps 3 2 ++
      [.step 3 .aborted])
    w.state = .running ∧ Stuck w ∧ w.threads[2]? = some (.done .returned) ∧ w.threads[3]? = some (.rWait true 1) := by
  decide +kernel

/-- A pause has seen that the block is Running, but the run finishes before the pause begins. The block becomes Paused
without a run; a resume then returns and leaves it Running for ever. -/
theorem late_pause :
    let es := armed ++ .call (.run true) :: steps 2 3 ++ .call (.pause false) :: steps 3 2 ++ steps 2 8 ++ steps 3 8
    (new.run es).state = .paused ∧ Stuck (new.run es) ∧
    (new.run es).threads[2]? = some (.done .returned) ∧ (new.run es).threads[3]? = some (.done .returned) ∧
    let w := new.run (es ++ .call .resume :: steps 4 2)
    w.state = .running ∧ Stuck w ∧ w.threads[4]? = some (.done .returned) := by decide +kernel

/-- An abort has taken the block to Aborted but has not yet told the run not to resume. The block is reset and configured,
and now the abort tells the next run. When this is paused it ends; a resume then leaves the block Running for ever. -/
theorem late_abort_put :
    let es := armed ++ .call .abort :: steps 2 4 ++ .call (.stateful .reset) :: steps 3 3 ++
      .call .configure :: steps 4 14 ++ steps 2 1 ++ .call (.run true) :: steps 5 2 ++
      .call (.pause false) :: steps 6 3 ++ [.step 5 .aborted, .step 5 .ok] ++ steps 6 8
    (new.run es).state = .paused ∧ Stuck (new.run es) ∧ (new.run es).threads[5]? = some (.done .aborted) ∧
    let w := new.run (es ++ .call .resume :: steps 7 2)
    w.state = .running ∧ Stuck w ∧ w.threads[7]? = some (.done .returned) := by decide +kernel

/-- A resume that gets through in Armed leaves the block Running for ever. -/
theorem resume_in_armed :
    let w := new.run (armed ++ .call .resume :: steps 2 2)
    w.state = .running ∧ Stuck w := by decide +kernel

/-- A configure whose parts go on after a disable takes the block to Armed, while the next configure still goes on. That one
then takes the block to Fault. -/
theorem old_configure_arms :
    let es := ready ++ .call .configure :: steps 1 6 ++ .call (.stateful .disable) :: steps 2 4 ++
      .call (.stateful .reset) :: steps 3 3 ++ .call .configure :: steps 4 5 ++ steps 1 8
    (new.run es).state = .armed ∧ (new.run es).threads[4]? = some (.cHook 0 2 0) ∧
    (new.run (es ++ steps 4 11)).state = .fault := by decide +kernel

/-- A disable during a run, on a block that was never aborted or paused: the run has no abort queue to answer to, fails and
takes the block to Fault, where the disable fails. -/
theorem disable_faults :
    let w := new.run (armed ++ .call (.run true) :: steps 2 2 ++ .call (.stateful .disable) :: steps 3 2 ++
      [.step 2 .aborted] ++ steps 2 2 ++ steps 3 4)
    w.state = .fault ∧ w.message = "No abort queue" ∧ Stuck w ∧
    w.threads[3]? = some (.done (.raised typeError)) := by decide +kernel

/-- An abort overtakes a pause that waits for the run: the run answers to the queue of the abort, which returns with the
block Aborted. The pause waits on its own queue until it times out and takes the block to Fault. -/
theorem overtaken_pause_faults :
    let es := armed ++ .call (.run true) :: steps 2 2 ++ .call (.pause false) :: steps 3 3 ++
      .call .abort :: steps 4 1 ++ [.step 2 .aborted] ++ steps 4 5 ++ steps 2 1
    (new.run es).state = .aborted ∧ (new.run es).threads[4]? = some (.done .returned) ∧
    (new.run es).threads[2]? = some (.done .aborted) ∧ (new.run es).threads[3]? = some (.aWait (.pause .paused)) ∧
    (new.run (es ++ steps 3 10)).state = .fault := by decide +kernel

/-- A second pause while the first goes on takes the block to Fault. -/
theorem second_pause_faults :
    let w := new.run (armed ++ .call (.run true) :: steps 2 2 ++ .call (.pause false) :: steps 3 3 ++
      .call (.pause false) :: steps 4 5)
    w.state = .fault := by decide +kernel

/-- A pause that stops the parts before the resumed run has started its hooks: the hooks ignore stops that came before. The
pause waits until it times out and returns with the block Paused, while the run goes on. It fails at its end. -/
theorem early_pause_ignored :
    let es := armed ++ .call (.run true) :: steps 2 1 ++ .call (.pause false) :: steps 3 3 ++ steps 2 1 ++ steps 3 8
    (new.run es).state = .paused ∧ (new.run es).threads[2]? = some (.rHook true 0 1 1) ∧
    (new.run es).threads[3]? = some (.done .returned) ∧
    (new.run (es ++ steps 2 6)).state = .fault := by decide +kernel

/-- A block that is Finished: the calls 0, 1 and 2 are over -/
def finished : List Event := armed ++ .call (.run true) :: steps 2 11

example : (new.run finished).state = .finished ∧ (new.run finished).threads[2]? = some (.done .returned) := by decide +kernel

/-- An abort while a configure of a Finished block resets its parts: the contexts of these hooks are not stopped, the contexts of the hooks that come
are made after the stop. If the abort gives up waiting it returns with the block Aborted while the configure goes on with its parts, in a hook that
was told nothing (the stops of its contexts, 0, are those when it was begun). At its end the configure takes the block to Fault. -/
theorem abort_during_reset :
    let es := finished ++ .call .configure :: steps 3 3 ++ .call .abort :: steps 4 1 ++ steps 3 7 ++ steps 4 5
    (new.run (finished ++ .call .configure :: steps 3 3)).threads[3]? = some .cReset ∧
    (new.run es).state = .aborted ∧ (new.run es).threads[4]? = some (.done .returned) ∧
    (new.run es).threads[3]? = some (.cHook 2 2 0) ∧ (new.run es).stops 2 = 0 ∧
    (new.run (es ++ steps 3 8)).state = .fault := by decide +kernel

/-- If the configure is over before the abort gives up, the block is in Fault when the abort wants to take it to Aborted: both fail. -/
theorem abort_during_reset_faults :
    let w := new.run (finished ++ .call .configure :: steps 3 3 ++ .call .abort :: steps 4 1 ++ steps 3 15 ++ steps 4 8)
    w.state = .fault ∧ w.threads[3]? = some (.done (.raised typeError)) ∧ w.threads[4]? = some (.done (.raised typeError)) := by decide +kernel

end Verif.Props.RunnableWitness
