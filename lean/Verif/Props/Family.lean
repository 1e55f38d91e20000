import Verif.Proofs.Family
/-!
C118: disable() and reset() reach everything that is shown beneath a block.
-/
namespace Verif.Props.Family
open Verif Verif.Family Verif.Spec.Family Verif.Proofs.Family

/-! ### what a call does -/

/-- A call ends in the state aimed at if it returns, and in Fault if it raises. -/
theorem ends (op : Op) (o : Oracle) (b : Block) :
    ((b.call op o []).2 = true → (b.call op o []).1.st = op.target) ∧
    ((b.call op o []).2 = false → (b.call op o []).1.st = .fault) := by
  rw [call_st]
  constructor <;> intro h <;> simp [h]

/-- Whatever is called of a block, and whatever goes wrong, everything that is hidden beneath it stays as it is. -/
theorem hidden_kept (b : Block) (es : List Ev) (ht : ∀ e ∈ es, TopCalls e) : Kept b (b.run es) := by
  induction es generalizing b with
  | nil => exact kept_refl b
  | cons e es ih =>
    refine kept_trans _ _ _ ?_ (ih (b.step e) fun e he => ht e (List.mem_cons_of_mem _ he))
    have he := ht e (by simp)
    cases e with
    | call p op o =>
      have hp : p = [] := he
      subst hp
      simp only [Block.step, Block.at, Block.outside]
      split
      · exact call_kept op o b []
      · exact kept_refl b
    | layout p f => exact he.elim

/-! ### if only the top is called -/

/-- **All the blocks shown are in the state of the block at the top, if it is Ready or Disabled**, when the process was started
with all of them Ready and only the top has been called since, whatever went wrong. What is missing for the whole claim: see
`deep_fault`, `disabled_above`, `shown_later`. -/
theorem in_step_partial {b : Block} (h0 : Shown .ready b) (es : List Ev) (ht : ∀ e ∈ es, TopCalls e)
    (hst : (b.run es).st ≠ .fault) : Shown (b.run es).st (b.run es) :=
  tidy_shown _ (run_tidy es ht (shown_tidy _ b h0)) hst

/-- When nothing goes wrong any more, one disable() or reset() makes up for all that has. -/
theorem made_up_partial {b : Block} (h0 : Shown .ready b) (es : List Ev) (ht : ∀ e ∈ es, TopCalls e) (op : Op) {o : Oracle}
    (ho : Well o) (hw : op.writeable (b.run es).st = true) : Shown op.target ((b.run es).step (.call [] op o)) := by
  have h1 := run_tidy es ht (shown_tidy _ b h0)
  have h2 := call_tidy op o _ [] h1
  have h3 := call_well op ho (b.run es) []
  have h4 : ((b.run es).call op o []).1.st = op.target := by rw [call_st, h3]; simp
  simp only [Block.step, Block.at, Block.outside, hw, if_true]
  have := tidy_shown _ h2 (by rw [h4]; exact target_ne)
  rwa [h4] at this

/-- If the layout of the top has changed as well, disable() and then reset() make everything shown Ready: once nothing goes
wrong any more, after disable() all that is shown is Disabled, after reset() Ready. -/
theorem disable_reset_partial {b : Block} (h0 : AllReady b) (es : List Ev) (ht : ∀ e ∈ es, TopOnly e) {o o' : Oracle}
    (ho : Well o) (ho' : Well o') :
    Shown .disabled ((b.run es).step (.call [] .disable o)) ∧
    Shown .ready (((b.run es).step (.call [] .disable o)).step (.call [] .reset o')) := by
  have hc := run_closed es ht (ready_closed b h0).1
  have h1 : Shown .disabled ((b.run es).step (.call [] .disable o)) := by
    simp only [Block.step, Block.at, Block.outside]
    split
    · exact well_shown ho _ [] hc
    · rename_i hw
      exact closed_shown _ hc (not_writeable (op := .disable) (by simpa using hw))
  refine ⟨h1, ?_⟩
  have h1t := shown_tidy _ _ h1
  generalize (b.run es).step (.call [] .disable o) = c at h1 h1t ⊢
  have hst : c.st = .disabled := by cases c; exact h1.1
  have h2 := call_tidy .reset o' c [] h1t
  have h3 := call_well .reset ho' c []
  have h4 : (c.call .reset o' []).1.st = .ready := by rw [call_st, h3]; rfl
  simp only [Block.step, Block.at, Block.outside, hst, Op.writeable, decide_true, Bool.true_or, if_true]
  have := tidy_shown _ h2 (by rw [h4]; simp)
  rwa [h4] at this

/-! ### a beamline -/

/-- Nothing goes wrong -/
def well : Oracle := ⟨fun _ => false, fun _ => false⟩

/-- A scan with a detector, which has a driver and a hidden plugin, and with a PandA -/
def scan (det driver plugin panda : St) : Block :=
  .mk .ready true (.cons true true (.mk det true (.cons true true (.mk driver true .nil)
    (.cons false true (.mk plugin true .nil) .nil))) (.cons true true (.mk panda true .nil) .nil))

example : AllReady (scan .ready .ready .ready .ready) ∧ Shown .ready (scan .ready .ready .fault .ready) := by
  simp [scan, AllReady, KidsReady, Shown, KidsShown]

/-- The driver fails to be disabled, so the detector and the scan are in Fault; then it can be, and all are -/
example :
    let bad : Oracle := ⟨fun p => p = [0, 0], fun _ => false⟩
    let b := (scan .ready .ready .ready .ready).run [.call [] .disable bad]
    states b = [.fault, .fault, .fault, .ready, .disabled] ∧
    states (b.run [.call [] .reset well]) = [.ready, .ready, .ready, .ready, .ready] ∧
    states (b.run [.call [] .disable well]) = [.disabled, .disabled, .disabled, .ready, .disabled] := by
  refine ⟨by decide +kernel, by decide +kernel, by decide +kernel⟩

/-- Finding: a driver that has got into Fault by itself, beneath a detector that is Ready, is passed over by the reset() of a
scan in Fault, which is Ready afterwards. -/
theorem deep_fault :
    let bad : Oracle := ⟨fun p => p = [1], fun p => p = [0]⟩
    let b := (scan .ready .ready .ready .ready).run [.call [0, 0] .disable ⟨fun _ => true, fun _ => false⟩, .call [] .disable bad,
      .call [] .reset well]
    states b = [.ready, .ready, .fault, .ready, .ready] := by decide +kernel

/-- Finding: disable() passes over a child that is Disabled already, whose own children need not be: somebody has reset the
driver since. The scan is then Disabled with a driver that is Ready. -/
theorem disabled_above :
    let b := (scan .ready .ready .ready .ready).run [.call [0] .disable well, .call [0, 0] .reset well, .call [] .disable well]
    states b = [.disabled, .disabled, .ready, .ready, .disabled] := by decide +kernel

/-- Finding: a child that was hidden when the block was disabled and reset, and has been in Fault since before, is not reset when it is
shown: the block is Ready, and reset() is refused. -/
theorem shown_later :
    let b := (scan .ready .ready .ready .ready).run [.layout [] (fun i => i = 0), .call [1] .disable ⟨fun _ => true, fun _ => false⟩,
      .call [] .disable well, .call [] .reset well, .layout [] (fun _ => true), .call [] .reset well]
    states b = [.ready, .ready, .ready, .ready, .fault] := by decide +kernel

/-- Before a layout is set (its init has failed) a block disables all its children, and brings them back -/
example : let b := Block.mk .fault false (.cons false true (.mk .ready true .nil) (.cons true true (.mk .ready true .nil)
      (.cons true false (.mk .ready true .nil) .nil)))
    states (b.run [.call [] .disable well]) = [.disabled, .disabled, .disabled, .ready] ∧
    states (b.run [.call [] .disable well, .call [] .reset well]) = [.ready, .ready, .ready, .ready] := by
  refine ⟨by decide +kernel, by decide +kernel⟩

end Verif.Props.Family
