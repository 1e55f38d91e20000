import Verif.Spec.ShutterChild
/-!
C125. A reset brings a block and the blocks of its children back to Ready, from Fault and from Disabled.
-/
namespace Verif.Props.ShutterChild
open Verif Verif.ShutterChild Verif.Spec.ShutterChild

theorem run_cons (k : Kind) (w : World) (e : Ev) (es : List Ev) : w.run k (e :: es) = (w.step k e).run k es := rfl

/-- **A reset that goes well brings both back**, whatever happened before, for a part that has only the hooks of every part for a child. `_partial`:
false for one that puts an attribute before a run (`not_reset`, `stuck`). -/
theorem reset_brings_back_partial (w : World) (es : List Ev) (h : (w.run .child es).block ≠ .ready) :
    ((w.run .child es).step .child (.reset well)).block = .ready ∧ ((w.run .child es).step .child (.reset well)).child = .ready := by
  generalize w.run .child es = w at *
  obtain ⟨b, c, cl⟩ := w
  cases b <;> cases c <;> simp_all [World.step, hooks, onReset, resetChild, well]

/-- **Ready means that the child is Ready**, when nobody but the block calls it and it does not fall over by itself: for a part with only the hooks of
every part for a child. -/
theorem ready_together_partial (es : List Ev) (ht : ∀ e ∈ es, TopOnly e ∧ e ≠ .childFault)
    (h : (World.run .child ⟨.ready, .ready, cl⟩ es).block = .ready) : (World.run .child ⟨.ready, .ready, cl⟩ es).child = .ready := by
  have key : ∀ (es : List Ev) (w : World), (∀ e ∈ es, TopOnly e ∧ e ≠ .childFault) → (w.block = .ready → w.child = .ready) →
      ((w.run .child es).block = .ready → (w.run .child es).child = .ready) := by
    intro es
    induction es with
    | nil => intro w _ h; exact h
    | cons e es ih =>
      intro w ht h
      rw [run_cons]
      refine ih _ (fun x hx => ht x (List.mem_cons_of_mem _ hx)) ?_
      have he := ht e (List.mem_cons_self ..)
      obtain ⟨b, c, cl⟩ := w
      cases e with
      | disable g =>
        obtain ⟨g1, g2, g3⟩ := g
        cases b <;> cases c <;> cases g1 <;> cases g2 <;> cases g3 <;> simp_all [World.step, hooks, onDisable, disableChild]
      | reset g =>
        obtain ⟨g1, g2, g3⟩ := g
        cases b <;> cases c <;> cases g1 <;> cases g2 <;> cases g3 <;> simp_all [World.step, hooks, onReset, resetChild]
      | childDisable ok => simp [TopOnly] at he
      | childReset ok => simp [TopOnly] at he
      | childFault => simp at he
      | put c' => cases b <;> cases c <;> simp_all [World.step]
  exact key es _ ht (fun _ => rfl) h

/-- **A reset ends in Ready exactly when all the hooks go well**, and in Fault otherwise: for a part for a child, when the child is Ready or its reset goes
well; for one that puts an attribute before a run, when the child is not Disabled and the put goes well. -/
theorem reset_ends (w : World) (g : Goes) (h : w.block ≠ .ready) :
    (w.step .child (.reset g)).block = (if g.others = true ∧ (w.child = .ready ∨ g.child = true) then .ready else .fault)
    ∧ (w.step .preRun (.reset g)).block = (if g.others = true ∧ w.child ≠ .disabled ∧ g.child = true then .ready else .fault) := by
  obtain ⟨b, c, cl⟩ := w
  obtain ⟨g1, g2, g3⟩ := g
  cases b <;> cases c <;> cases g1 <;> cases g2 <;> cases g3 <;> simp_all [World.step, hooks, onReset, resetChild]

/-- A disable ends in Disabled exactly when all the hooks go well, and in Fault otherwise. -/
theorem disable_ends (k : Kind) (w : World) (g : Goes) (h : w.block ≠ .disabled) :
    (w.step k (.disable g)).block = (if g.others = true ∧ (w.child = .disabled ∨ g.child = true) then .disabled else .fault) := by
  obtain ⟨b, c, cl⟩ := w
  obtain ⟨g1, g2, g3⟩ := g
  cases b <;> cases c <;> cases g1 <;> cases g2 <;> cases g3 <;> simp_all [World.step, hooks, onDisable, disableChild]

/-- A disable that goes well disables both, for either part. -/
theorem disable_takes_both (k : Kind) (w : World) (h : w.block ≠ .disabled) :
    (w.step k (.disable well)).block = .disabled ∧ (w.step k (.disable well)).child = .disabled := by
  obtain ⟨b, c, cl⟩ := w
  cases b <;> cases c <;> simp_all [World.step, hooks, onDisable, disableChild, well]

/-- **Ready means that the attribute has its reset value**: after a reset of a block with a part that puts an attribute before a run. -/
theorem reset_closes (w : World) (g : Goes) (hw : w.block ≠ .ready) (h : (w.step .preRun (.reset g)).block = .ready) :
    (w.step .preRun (.reset g)).closed = true := by
  obtain ⟨b, c, cl⟩ := w
  obtain ⟨g1, g2, g3⟩ := g
  cases b <;> cases c <;> cases g1 <;> cases g2 <;> cases g3 <;> simp_all [World.step, hooks, onReset]

/-- A child that was disabled stays so, whatever is called, until it is reset itself. -/
theorem child_stays (es : List Ev) (w : World) (hn : ∀ e ∈ es, NotReset e) (h : w.child = .disabled) :
    (w.run .preRun es).child = .disabled ∧ (w.block ≠ .ready → (w.run .preRun es).block ≠ .ready) := by
  induction es generalizing w with
  | nil => exact ⟨h, id⟩
  | cons e es ih =>
    rw [run_cons]
    have he := hn e (List.mem_cons_self ..)
    have : (w.step .preRun e).child = .disabled ∧ (w.block ≠ .ready → (w.step .preRun e).block ≠ .ready) := by
      obtain ⟨b, c, cl⟩ := w
      cases e with
      | disable g =>
        obtain ⟨g1, g2, g3⟩ := g
        cases b <;> cases g1 <;> cases g2 <;> cases g3 <;> simp_all [World.step, hooks, onDisable, disableChild]
      | reset g =>
        obtain ⟨g1, g2, g3⟩ := g
        cases b <;> cases g1 <;> cases g2 <;> cases g3 <;> simp_all [World.step, hooks, onReset]
      | childDisable ok => cases b <;> simp_all [World.step, disableChild]
      | childReset ok => simp [NotReset] at he
      | childFault => cases b <;> simp_all [World.step]
      | put c' => cases b <;> simp_all [World.step]
    obtain ⟨k1, k2⟩ := ih _ (fun x hx => hn x (List.mem_cons_of_mem _ hx)) this.1
    exact ⟨k1, fun hb => k2 (this.2 hb)⟩

/-- **Never Ready again**: a block with a part that puts an attribute before a run, once it has been disabled well, is not Ready after any number of
resets, however they go, until somebody resets the child itself. -/
theorem stuck (w : World) (hw : w.block ≠ .disabled) (es : List Ev) (hn : ∀ e ∈ es, NotReset e) :
    (w.run .preRun (.disable well :: es)).block ≠ .ready := by
  rw [run_cons]
  have h := disable_takes_both .preRun w hw
  exact (child_stays es _ hn h.2).2 (by rw [h.1]; simp)

/-- Every reset of such a block ends in Fault. -/
theorem reset_faults (w : World) (h : w.child = .disabled) (hb : w.block ≠ .ready) (g : Goes) : (w.step .preRun (.reset g)).block = .fault := by
  obtain ⟨b, c, cl⟩ := w
  obtain ⟨g1, g2, g3⟩ := g
  cases b <;> cases g1 <;> cases g2 <;> cases g3 <;> simp_all [World.step, hooks, onReset]

/-- Somebody who resets the child first gets both back. -/
theorem by_hand (w : World) (hb : w.block ≠ .ready) :
    ((w.step .preRun (.childReset true)).step .preRun (.reset well)) = ⟨.ready, .ready, true⟩ := by
  obtain ⟨b, c, cl⟩ := w
  cases b <;> cases c <;> simp_all [World.step, hooks, onReset, resetChild, well]

/-- non-vacuity: the same calls for either part -/
example : World.run .child ⟨.ready, .ready, true⟩ [.disable well, .reset well] = ⟨.ready, .ready, true⟩
    ∧ World.run .preRun ⟨.ready, .ready, true⟩ [.disable well, .reset well] = ⟨.fault, .disabled, true⟩
    ∧ World.run .preRun ⟨.ready, .ready, true⟩ [.disable well, .reset well, .childReset true, .reset well] = ⟨.ready, .ready, true⟩ := by decide

/-- **Ready, and the child in Fault**: a reset of a block with such a part leaves the child as it is. -/
theorem not_reset : World.run .preRun ⟨.ready, .ready, true⟩ [.childFault, .disable ⟨false, true, true⟩, .reset well] = ⟨.ready, .fault, true⟩
    ∧ World.run .child ⟨.ready, .ready, true⟩ [.childFault, .disable ⟨false, true, true⟩, .reset well] = ⟨.ready, .ready, true⟩ := by decide

end Verif.Props.ShutterChild
