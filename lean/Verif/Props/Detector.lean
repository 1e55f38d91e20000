import Verif.Model.Detector
/-!
C45: "Over every history of configure, run, pause/seek and resume the unique ids the detector produces
are never reused within a scan, and the position labels are attached to the same ids the detector gives
the frames of those steps."

C46: "The position XMLs sent to the labeller cover each step from the start to the end of the scan
exactly once, in order, with consecutive ids."
-/
namespace Verif.Props.Detector
open Verif.Detector

/-- what every history keeps -/
structure Inv (s : Det) : Prop where
  /-- the labeller and the driver agree on where the ids go on -/
  done : s.labeller.done = s.driver.done
  left : s.driver.counter + s.left = s.driver.done
  /-- the next id is the one whose label is the next step -/
  label : s.labeller.stepOf (s.driver.counter + 1) = s.cursor
  below : ∀ f ∈ s.frames, f.id ≤ s.driver.counter
  ids : (s.frames.map (·.id)).Pairwise (· < ·)
  labels : ∀ f ∈ s.frames, f.labelled = f.step
  report : s.driver.report s.driver.counter = s.cursor
  writer : (s.writer.captured : Int) - s.writer.offset = s.cursor ∧ s.writer.captured + s.left = s.writer.done

theorem inv_configure (s : Det) (n : Nat) : Inv (s.step (.configure 0 n)) := by
  refine ⟨?_, ?_, ?_, ?_, ?_, ?_, ?_, ?_, ?_⟩ <;>
    simp [Det.step, Driver.setup, Labeller.setup, Labeller.stepOf, Driver.report, Writer.configure]

theorem inv_step (s : Det) (h : Inv s) (op : Op) (hop : ∀ c n, op = .configure c n → c = 0) : Inv (s.step op) := by
  cases op with
  | configure c n => rw [hop c n rfl]; exact inv_configure s n
  | frame =>
    by_cases hl : 0 < s.left
    · simp only [Det.step, if_pos hl]
      have h1 := h.left
      have h2 := h.label
      have h3 := h.report
      have h4 := h.writer
      unfold Labeller.stepOf at h2
      unfold Driver.report at h3
      refine ⟨h.done, ?_, ?_, ?_, ?_, ?_, ?_, ?_, ?_⟩ <;> try dsimp only
      · omega
      · unfold Labeller.stepOf; push_cast at *; omega
      · intro f hf
        rcases List.mem_append.1 hf with hf | hf
        · have := h.below f hf; omega
        · rw [List.mem_singleton.1 hf]; exact Nat.le_refl _
      · rw [List.map_append, List.pairwise_append]
        refine ⟨h.ids, by simp, ?_⟩
        intro a ha b hb
        obtain ⟨f, hf, rfl⟩ := List.mem_map.1 ha
        have := h.below f hf
        simp at hb
        omega
      · intro f hf
        rcases List.mem_append.1 hf with hf | hf
        · exact h.labels f hf
        · rw [List.mem_singleton.1 hf]; exact h.label
      · unfold Driver.report; dsimp only; push_cast; omega
      · push_cast; omega
      · omega
    · simp only [Det.step, if_neg hl]; exact h
  | next n again =>
    by_cases hl : s.left = 0
    · simp only [Det.step, if_pos hl]
      have h1 := h.left
      have h2 := h.label
      have h3 := h.report
      have h4 := h.writer
      unfold Labeller.stepOf at h2
      unfold Driver.report at h3
      have hc : s.driver.counter = s.driver.done := by omega
      cases again with
      | true =>
        refine ⟨?_, ?_, ?_, ?_, h.ids, h.labels, ?_, ?_, ?_⟩ <;>
          simp only [Driver.next, Driver.setup, Labeller.next, Labeller.stepOf, Driver.report, Writer.seek, if_true,
            Bool.false_eq_true, if_false]
        · have := h.done; omega
        · push_cast at *; omega
        · intro f hf; have := h.below f hf; omega
        · omega
        · omega
      | false =>
        refine ⟨?_, ?_, ?_, h.below, h.ids, h.labels, ?_, ?_, ?_⟩ <;>
          simp only [Driver.next, Driver.setup, Labeller.next, Labeller.stepOf, Driver.report, Writer.seek, if_true,
            Bool.false_eq_true, if_false]
        · have := h.done; omega
        · omega
        · exact h2
        · exact h3
        · omega
    · simp only [Det.step, if_neg hl]; exact h
  | seek c n =>
    have h1 := h.left
    have h5 := h.done
    simp only [Det.step]
    refine ⟨?_, ?_, ?_, ?_, h.ids, h.labels, ?_, ?_, ?_⟩ <;>
      simp only [Driver.setup, Labeller.setup, Labeller.stepOf, Driver.report, Writer.seek,
        Bool.false_eq_true, if_false]
    · omega
    · push_cast; omega
    · intro f hf; have := h.below f hf; omega
    · omega
    · omega

/-- A scan: configure, which is always from step 0 (runnablecontroller.py 485), then anything but
another configure. -/
def Scan (ops : List Op) : Prop := ∀ c n, Op.configure c n ∉ ops

theorem inv_scan (s0 : Det) (n : Nat) (ops : List Op) (h : Scan ops) : Inv (s0.run (.configure 0 n :: ops)) := by
  have key : ∀ (ops : List Op) (s : Det), Inv s → Scan ops → Inv (s.run ops) := by
    intro ops
    induction ops with
    | nil => intro s hs _; exact hs
    | cons op ops ih =>
      intro s hs hsc
      refine ih _ (inv_step s hs op ?_) (fun c n hc => hsc c n (List.mem_cons_of_mem _ hc))
      intro c n hc; subst hc; exact absurd List.mem_cons_self (hsc c n)
  exact key ops _ (inv_configure s0 n) h

/-- **C45**: the ids of the frames of a scan are never used again: each is larger than the one before,
whatever windows, pauses and seeks there are. -/
theorem ids_never_reused (s0 : Det) (n : Nat) (ops : List Op) (h : Scan ops) :
    ((s0.run (.configure 0 n :: ops)).frames.map (·.id)).Pairwise (· < ·) := (inv_scan s0 n ops h).ids

/-- **C45**: the position with the id of a frame is the position of the step the frame was taken for. -/
theorem labels_in_step (s0 : Det) (n : Nat) (ops : List Op) (h : Scan ops) :
    ∀ f ∈ (s0.run (.configure 0 n :: ops)).frames, f.labelled = f.step := (inv_scan s0 n ops h).labels

/-- **C45**: and the completed steps that the driver and the file writer report with each frame are the
steps the hardware has done; the value each waits for is reached when the window is done. -/
theorem progress_is_true (s0 : Det) (n : Nat) (ops : List Op) (h : Scan ops) :
    let s := s0.run (.configure 0 n :: ops)
    s.driver.report s.driver.counter = s.cursor ∧ s.writer.report s.writer.captured = some (s.cursor : Int) ∧
    (s.driver.counter = s.driver.done ↔ s.left = 0) ∧ (s.writer.captured = s.writer.done ↔ s.left = 0) := by
  have hi := inv_scan s0 n ops h
  dsimp only
  have h1 := hi.left
  have h2 := hi.writer
  refine ⟨hi.report, ?_, by omega, by omega⟩
  unfold Writer.report
  rw [h2.1, if_pos (by omega)]

/-- a scan of windows of 3 steps, paused in the second and rewound to step 2 -/
example : ((Det.run {} [.configure 0 3, .frame, .frame, .frame, .next 3 true, .frame, .seek 2 1, .frame,
    .next 3 true, .frame, .frame]).frames.map (fun f => (f.id, f.step))) =
    [(1, 0), (2, 1), (3, 2), (4, 3), (7, 2), (8, 3), (9, 4)] := by decide

/-! ### C46 -/

theorem makeXml_spec (size start : Nat) (h : start ≤ size) :
    (makeXml size start).1 = List.range' start ((makeXml size start).2 - start) ∧
    start ≤ (makeXml size start).2 ∧ (makeXml size start).2 ≤ size ∧
    ((makeXml size start).2 = min size (start + positionsPerXml)) := by
  unfold makeXml
  dsimp only
  refine ⟨rfl, ?_⟩
  split <;> omega

theorem sent_step (first : Nat) (l : Loader) (op : LoadOp)
    (h : l.sent = List.range' first (l.endIndex - first) ∧ first ≤ l.endIndex ∧ l.endIndex ≤ l.size) :
    (l.step op).sent = List.range' first ((l.step op).endIndex - first) ∧ first ≤ (l.step op).endIndex ∧
    (l.step op).endIndex ≤ (l.step op).size ∧ (l.step op).size = l.size ∧ l.endIndex ≤ (l.step op).endIndex := by
  obtain ⟨h1, h2, h3⟩ := h
  cases op with
  | putDone => exact ⟨h1, h2, h3, rfl, Nat.le_refl _⟩
  | qty n =>
    simp only [Loader.step]
    split
    · split
      · obtain ⟨a, b, c, _⟩ := makeXml_spec l.size l.endIndex h3
        refine ⟨?_, Nat.le_trans h2 b, c, rfl, b⟩
        show l.sent ++ (makeXml l.size l.endIndex).1 = List.range' first ((makeXml l.size l.endIndex).2 - first)
        rw [h1, a]
        have e1 : l.endIndex = first + (l.endIndex - first) := by omega
        have e2 : (makeXml l.size l.endIndex).2 - first =
            (l.endIndex - first) + ((makeXml l.size l.endIndex).2 - l.endIndex) := by omega
        rw [e2, ← List.range'_append_1, ← e1]
      · exact ⟨h1, h2, h3, rfl, Nat.le_refl _⟩
    · exact ⟨h1, h2, h3, rfl, Nat.le_refl _⟩

theorem setup_sent (size first : Nat) (h : first ≤ size) :
    (Loader.setup size first).sent = List.range' first ((Loader.setup size first).endIndex - first) ∧
    first ≤ (Loader.setup size first).endIndex ∧ (Loader.setup size first).endIndex ≤ (Loader.setup size first).size := by
  obtain ⟨a, b, c, _⟩ := makeXml_spec size first h
  exact ⟨a, b, c⟩

/-- **C46**: whatever updates of the queue length come, in whatever order with the completion of puts,
the positions sent since the plugin was set up at `first` are `first, first + 1, ...`, each once and in
order, up to the end index, which is at most the size of the scan. -/
theorem positions_once_in_order (size first : Nat) (h : first ≤ size) (ops : List LoadOp) :
    let l := (Loader.setup size first).run ops
    l.sent = List.range' first (l.endIndex - first) ∧ first ≤ l.endIndex ∧ l.endIndex ≤ size := by
  have key : ∀ (ops : List LoadOp) (l : Loader),
      (l.sent = List.range' first (l.endIndex - first) ∧ first ≤ l.endIndex ∧ l.endIndex ≤ l.size) →
      (l.run ops).sent = List.range' first ((l.run ops).endIndex - first) ∧ first ≤ (l.run ops).endIndex ∧
      (l.run ops).endIndex ≤ l.size := by
    intro ops
    induction ops with
    | nil => intro l hl; exact hl
    | cons op ops ih =>
      intro l hl
      obtain ⟨a, b, c, d, _⟩ := sent_step first l op hl
      have := ih (l.step op) ⟨a, b, c⟩
      rw [d] at this
      exact this
  exact key ops _ (setup_sent size first h)

/-- **C46**: and so the id that the plugin gives to the position of step `s` is `idStart + (s - first)`:
ids are consecutive. `Labeller.stepOf` of C45 is the inverse. -/
theorem position_ids (size first : Nat) (h : first ≤ size) (ops : List LoadOp) (lb : Labeller) (hf : lb.first = first)
    (k s : Nat) (hk : ((Loader.setup size first).run ops).sent[k]? = some s) :
    s = first + k ∧ lb.stepOf (lb.idStart + k) = s := by
  obtain ⟨a, _, _⟩ := positions_once_in_order size first h ops
  rw [a] at hk
  obtain ⟨hlt, hk⟩ := List.getElem?_eq_some_iff.1 hk
  rw [List.getElem_range'] at hk
  refine ⟨by omega, ?_⟩
  unfold Labeller.stepOf; push_cast; omega

/-- **C46**: all positions are sent, if often enough the plugin says that its queue is short: each such
update with no put going on sends up to 5000 more. -/
theorem all_positions_sent (size first k : Nat) (h : first ≤ size) (hs : 0 < size) :
    ((Loader.setup size first).run (List.replicate k [LoadOp.qty 0, .putDone]).flatten).endIndex =
      min size (first + positionsPerXml * (k + 1)) := by
  have key : ∀ (k : Nat) (l : Loader), l.loading = false → 0 < l.endIndex → l.endIndex ≤ l.size →
      (l.run (List.replicate k [LoadOp.qty 0, .putDone]).flatten).endIndex =
        min l.size (l.endIndex + positionsPerXml * k) := by
    intro k
    induction k with
    | zero => intro l _ _ h; show l.endIndex = _; omega
    | succ k ih =>
      intro l h1 h2 h3
      rw [List.replicate_succ, List.flatten_cons]
      show (Loader.run ((l.step (.qty 0)).step .putDone) (List.replicate k [LoadOp.qty 0, LoadOp.putDone]).flatten).endIndex = _
      have hp : positionsPerXml = 5000 := rfl
      have hn : nLoadAhead = 4 := rfl
      by_cases hlt : l.endIndex < l.size
      · have hstep : (l.step (.qty 0)).step .putDone =
            { l with loading := false, endIndex := (makeXml l.size l.endIndex).2, sent := l.sent ++ (makeXml l.size l.endIndex).1 } := by
          simp only [Loader.step]
          rw [if_pos ⟨by omega, by omega⟩, if_pos ⟨h1, hlt, by rw [hp, hn]; omega⟩]
        obtain ⟨a, b, c, d⟩ := makeXml_spec l.size l.endIndex h3
        rw [hstep, ih _ rfl (by dsimp only; omega) c]
        dsimp only
        rw [d, Nat.mul_succ]
        omega
      · have hstep : (l.step (.qty 0)).step .putDone = l := by
          simp only [Loader.step]
          rw [if_pos ⟨by omega, by omega⟩, if_neg (by intro hc; exact hlt hc.2.1)]
          cases l; simp_all
        rw [hstep, ih l h1 h2 h3, Nat.mul_succ]
        omega
  have hp : positionsPerXml = 5000 := rfl
  obtain ⟨a, b, c, d⟩ := makeXml_spec size first h
  have := key k (Loader.setup size first) rfl (by show 0 < (makeXml size first).2; omega) c
  rw [this]
  show min size ((makeXml size first).2 + _) = _
  rw [d, Nat.mul_succ]
  omega

/-- an update that comes while a put is going on, or that says the queue is long, sends nothing -/
theorem no_load_while_loading (l : Loader) (n : Nat) (h : l.loading = true ∨ 20000 ≤ n) : l.step (.qty n) = l := by
  simp only [Loader.step]
  split
  · rw [if_neg]
    intro hc
    have hp : positionsPerXml * nLoadAhead = 20000 := rfl
    rw [hp] at hc
    rcases h with h | h
    · rw [hc.1] at h; cases h
    · omega
  · rfl

/-- 12000 positions from step 100: three messages -/
example : ((Loader.setup 12000 100).run [.qty 5000, .qty 4000, .putDone, .qty 9000]).endIndex = 12000 := by decide +kernel

end Verif.Props.Detector
