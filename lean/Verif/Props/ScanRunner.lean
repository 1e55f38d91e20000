import Verif.Model.ScanRunner
import Verif.Proofs.PyDict
/-!
C47: "For every list of scans and every outcome, scansCompleted = scansSuccessful + scansFailed and
equals the number of scans attempted so far; each scan set is attempted its number of repeats unless
aborted."
-/
namespace Verif.Props.ScanRunner
open Verif.ScanRunner

/-- All scans of the sets in order: each set from 1 to its number of repeats. -/
def allScans (sets : List ScanSet) : List (String × Nat) :=
  sets.flatMap (fun s => (List.range' 1 s.repeats.toNat).map (fun n => (s.name, n)))

/-- Nothing raises: directories can be made, the report can be written, waiting for the block and
resetting it work. The scans themselves may have any outcome. -/
def Smooth (w : World) (sets : List ScanSet) : Prop :=
  ∀ s ∈ sets, w.setDirOk s.name = true ∧ ∀ n, 1 ≤ n → n ≤ s.repeats.toNat →
    (w.env s.name n).dirOk = true ∧ (w.env s.name n).resetOk = true ∧ (w.env s.name n).reportOk = true

/-- a state between scans -/
structure Settled (r : Runner) : Prop where
  successes : r.counters.successes = (r.attempts.filter (fun a => a.2.2 = .success)).length
  failures : r.counters.failures = (r.attempts.filter (fun a => a.2.2 ≠ .success)).length
  completed : r.counters.completed = r.attempts.length
  seen : ∀ c ∈ r.seen, c.completed ≤ c.successes + c.failures ∧ c.successes + c.failures ≤ c.completed + 1 ∧
    c.successes + c.failures ≤ r.attempts.length

theorem filter_split {A : Type} (p : A → Bool) (l : List A) :
    (l.filter p).length + (l.filter (fun a => !p a)).length = l.length := by
  induction l with
  | nil => rfl
  | cons a l ih => simp only [List.filter_cons]; cases p a <;> simp <;> omega

theorem Settled.sum {r : Runner} (h : Settled r) : r.counters.completed = r.counters.successes + r.counters.failures := by
  rw [h.completed, h.successes, h.failures]
  have := filter_split (fun a : String × Nat × Outcome => decide (a.2.2 = .success)) r.attempts
  simp only [← decide_not] at this
  exact this.symm

/-- what a scan that does not raise does -/
theorem runScan_settled (r : Runner) (name : String) (n : Nat) (e : Env) (h : Settled r) :
    ((runScan r name n e).2 = true → Settled (runScan r name n e).1 ∧
      (runScan r name n e).1.attempts = r.attempts ++ [(name, n, outcome e)] ∧
      e.dirOk = true ∧ e.resetOk = true ∧ e.reportOk = true) ∧
    ((runScan r name n e).2 = false →
      (runScan r name n e).1.counters = r.counters ∧ (runScan r name n e).1.seen = r.seen ∧
      ((runScan r name n e).1.attempts = r.attempts ∨
        (e.reportOk = false ∧ (runScan r name n e).1.attempts = r.attempts ++ [(name, n, outcome e)])) ∧
      (e.dirOk = false ∨ e.resetOk = false ∨ e.reportOk = false)) := by
  have hsum := h.sum
  unfold runScan
  cases hd : e.dirOk with
  | false => simp
  | true =>
    cases hr : e.resetOk with
    | false => simp
    | true =>
      cases hp : e.reportOk with
      | false => simp
      | true =>
        by_cases ho : outcome e = .success
        · simp only [Bool.true_eq_false, if_false, ho, if_true]
          refine ⟨fun _ => ⟨?_, rfl, trivial, trivial, trivial⟩, fun hc => by cases hc⟩
          unfold Runner.incrementSuccesses Runner.set
          dsimp only
          refine ⟨?_, ?_, ?_, ?_⟩
          · rw [List.filter_append, List.length_append]; simpa using h.successes
          · rw [List.filter_append, List.length_append]; simpa using h.failures
          · rw [List.length_append]; simpa using h.completed
          · intro c hc
            have hcompl := h.completed
            rw [List.length_append, List.length_singleton]
            rw [List.append_assoc] at hc
            rcases List.mem_append.1 hc with hc | hc
            · have := h.seen c hc; omega
            · simp only [List.singleton_append, List.mem_cons, List.not_mem_nil, or_false] at hc
              rcases hc with hc | hc <;> subst hc <;> dsimp only <;> omega
        · simp only [Bool.true_eq_false, if_false, if_neg ho]
          refine ⟨fun _ => ⟨?_, rfl, trivial, trivial, trivial⟩, fun hc => by cases hc⟩
          unfold Runner.incrementFailures Runner.set
          dsimp only
          refine ⟨?_, ?_, ?_, ?_⟩
          · rw [List.filter_append, List.length_append]; simpa [ho] using h.successes
          · rw [List.filter_append, List.length_append]; simpa [ho] using h.failures
          · rw [List.length_append]; simpa using h.completed
          · intro c hc
            have hcompl := h.completed
            rw [List.length_append, List.length_singleton]
            rw [List.append_assoc] at hc
            rcases List.mem_append.1 hc with hc | hc
            · have := h.seen c hc; omega
            · simp only [List.singleton_append, List.mem_cons, List.not_mem_nil, or_false] at hc
              rcases hc with hc | hc <;> subst hc <;> dsimp only <;> omega

/-- a state that a run may be left in by an exception: the last attempt may not be counted -/
structure Halted (r : Runner) : Prop where
  sum : r.counters.completed = r.counters.successes + r.counters.failures
  attempts : r.counters.completed ≤ r.attempts.length ∧ r.attempts.length ≤ r.counters.completed + 1
  seen : ∀ c ∈ r.seen, c.completed ≤ c.successes + c.failures ∧ c.successes + c.failures ≤ c.completed + 1 ∧
    c.successes + c.failures ≤ r.attempts.length

theorem Settled.halted {r : Runner} (h : Settled r) : Halted r :=
  ⟨h.sum, by rw [h.completed]; omega, h.seen⟩

theorem runScan_halted (r : Runner) (name : String) (n : Nat) (e : Env) (h : Settled r)
    (hf : (runScan r name n e).2 = false) : Halted (runScan r name n e).1 := by
  obtain ⟨hc, hs, ha, _⟩ := (runScan_settled r name n e h).2 hf
  refine ⟨by rw [hc]; exact h.sum, ?_, ?_⟩
  · rw [hc, h.completed]
    rcases ha with ha | ⟨_, ha⟩ <;> rw [ha] <;> simp
  · rw [hs]
    intro c hm
    have := h.seen c hm
    rcases ha with ha | ⟨_, ha⟩ <;> rw [ha]
    · exact this
    · simp; omega

theorem runScans_spec (w : World) (name : String) : ∀ (ns : List Nat) (r : Runner), Settled r →
    ((runScans w name r ns).2 = true → Settled (runScans w name r ns).1 ∧
      (runScans w name r ns).1.attempts = r.attempts ++ ns.map (fun n => (name, n, outcome (w.env name n)))) ∧
    ((runScans w name r ns).2 = false → Halted (runScans w name r ns).1 ∧
      (∃ n ∈ ns, (w.env name n).dirOk = false ∨ (w.env name n).resetOk = false ∨ (w.env name n).reportOk = false) ∧
      ∃ done, done <+: ns.map (fun n => (name, n, outcome (w.env name n))) ∧
        (runScans w name r ns).1.attempts = r.attempts ++ done) := by
  intro ns
  induction ns with
  | nil => intro r h; exact ⟨fun _ => ⟨h, by simp [runScans]⟩, fun hc => by cases hc⟩
  | cons n ns ih =>
    intro r h
    have hs := runScan_settled r name n (w.env name n) h
    simp only [runScans]
    cases hx : (runScan r name n (w.env name n)).2 with
    | true =>
      obtain ⟨h1, h2, _⟩ := hs.1 hx
      obtain ⟨i1, i2⟩ := ih _ h1
      rw [if_pos rfl]
      refine ⟨fun hc => ?_, fun hc => ?_⟩
      · obtain ⟨j1, j2⟩ := i1 hc
        refine ⟨j1, ?_⟩
        rw [j2, h2]; simp
      · obtain ⟨j1, ⟨m, hm, j2⟩, done, j3, j4⟩ := i2 hc
        refine ⟨j1, ⟨m, List.mem_cons_of_mem _ hm, j2⟩, (name, n, outcome (w.env name n)) :: done, ?_, ?_⟩
        · rw [List.map_cons, List.cons_prefix_cons]; exact ⟨rfl, j3⟩
        · rw [j4, h2]; simp
    | false =>
      rw [if_neg (by simp)]
      obtain ⟨_, _, ha, he⟩ := hs.2 hx
      refine ⟨fun hc => by (cases hc), fun _ => ⟨runScan_halted r name n _ h hx, ⟨n, List.mem_cons_self, he⟩, ?_⟩⟩
      rcases ha with ha | ⟨_, ha⟩
      · exact ⟨[], List.nil_prefix, by rw [ha]; simp⟩
      · exact ⟨[(name, n, outcome (w.env name n))], by rw [List.map_cons, List.cons_prefix_cons]; exact ⟨rfl, List.nil_prefix⟩, ha⟩

/-- the attempts of all scans, with their outcomes -/
def allAttempts (w : World) (sets : List ScanSet) : List (String × Nat × Outcome) :=
  (allScans sets).map (fun a => (a.1, a.2, outcome (w.env a.1 a.2)))

theorem allAttempts_cons (w : World) (s : ScanSet) (ss : List ScanSet) : allAttempts w (s :: ss) =
    (List.range' 1 s.repeats.toNat).map (fun n => (s.name, n, outcome (w.env s.name n))) ++ allAttempts w ss := by
  unfold allAttempts allScans
  rw [List.flatMap_cons, List.map_append, List.map_map]
  rfl

theorem runSets_spec (w : World) : ∀ (sets : List ScanSet) (r : Runner), Settled r →
    ((runSets w r sets).2 = true → Settled (runSets w r sets).1 ∧
      (runSets w r sets).1.attempts = r.attempts ++ allAttempts w sets) ∧
    ((runSets w r sets).2 = false → Halted (runSets w r sets).1 ∧ ¬ Smooth w sets ∧
      ∃ done, done <+: allAttempts w sets ∧ (runSets w r sets).1.attempts = r.attempts ++ done) := by
  intro sets
  induction sets with
  | nil => intro r h; exact ⟨fun _ => ⟨h, by simp [runSets, allAttempts, allScans]⟩, fun hc => by cases hc⟩
  | cons s ss ih =>
    intro r h
    rw [allAttempts_cons]
    have hdir : w.setDirOk s.name = true ∨ w.setDirOk s.name = false := by cases w.setDirOk s.name <;> simp
    rcases hdir with hd | hd
    rotate_left
    · have hset : runScanSet w r s = (r, false) := by unfold runScanSet; rw [hd]; rfl
      simp only [runSets, hset, Bool.false_eq_true, if_false]
      refine ⟨fun hc => by (cases hc), fun _ => ⟨h.halted, ?_, [], List.nil_prefix, by simp⟩⟩
      intro hc
      have := (hc s List.mem_cons_self).1
      rw [hd] at this; cases this
    · have hset : runScanSet w r s = runScans w s.name r (List.range' 1 s.repeats.toNat) := by
        unfold runScanSet; rw [if_pos hd]
      simp only [runSets, hset]
      obtain ⟨h1, h2⟩ := runScans_spec w s.name (List.range' 1 s.repeats.toNat) r h
      cases hx : (runScans w s.name r (List.range' 1 s.repeats.toNat)).2 with
      | true =>
        rw [if_pos rfl]
        obtain ⟨a1, a2⟩ := h1 hx
        obtain ⟨i1, i2⟩ := ih _ a1
        refine ⟨fun hc => ?_, fun hc => ?_⟩
        · obtain ⟨j1, j2⟩ := i1 hc
          exact ⟨j1, by rw [j2, a2, List.append_assoc]⟩
        · obtain ⟨j1, j2, done, j3, j4⟩ := i2 hc
          refine ⟨j1, fun hs => j2 (fun t ht => hs t (List.mem_cons_of_mem _ ht)), _, List.prefix_append_right_inj _ |>.2 j3, ?_⟩
          rw [j4, a2, List.append_assoc]
      | false =>
        rw [if_neg (by simp)]
        obtain ⟨a1, ⟨n, hn, a2⟩, done, a3, a4⟩ := h2 hx
        refine ⟨fun hc => by (cases hc), fun _ => ⟨a1, ?_, done, a3.trans (List.prefix_append _ _), a4⟩⟩
        intro hs
        rw [List.mem_range'_1] at hn
        obtain ⟨b1, b2, b3⟩ := (hs s List.mem_cons_self).2 n hn.1 (by omega)
        rcases a2 with a2 | a2 | a2
        · rw [b1] at a2; cases a2
        · rw [b2] at a2; cases a2
        · rw [b3] at a2; cases a2

theorem run_eq (w : World) (old : Counters) (sets : List ScanSet) (hs : sets ≠ []) :
    run w old sets true = some (runSets w {} sets) := by
  unfold run
  rw [if_neg hs, if_neg (by simp)]
  rfl

theorem settled_init : Settled {} := ⟨rfl, rfl, rfl, fun _ h => by cases h⟩

/-- **C47** part: a run that ends without an exception, whatever the outcomes of the scans: the
counters are the numbers of scans attempted, of those configured and run without an error, and of the others; each scan
of each set is attempted, in order, from 1 to its number of repeats. -/
theorem finished_run_partial (w : World) (old : Counters) (sets : List ScanSet) (r : Runner)
    (hrun : run w old sets true = some (r, true)) :
    r.counters.completed = r.counters.successes + r.counters.failures ∧
    r.counters.completed = r.attempts.length ∧
    r.counters.successes = ((allScans sets).filter (fun a =>
      (w.env a.1 a.2).configureOk = true ∧ (w.env a.1 a.2).runOutcome = .success)).length ∧
    r.attempts.map (fun a => (a.1, a.2.1)) = allScans sets := by
  have hs : sets ≠ [] := by intro hc; subst hc; simp [run] at hrun
  rw [run_eq w old sets hs] at hrun
  have hr := Option.some.inj hrun
  obtain ⟨h1, h2⟩ := (runSets_spec w sets {} settled_init).1 (by rw [hr])
  rw [hr] at h1 h2
  have h2' : r.attempts = allAttempts w sets := h2
  refine ⟨h1.sum, h1.completed, ?_, ?_⟩
  · rw [show r.counters.successes = _ from h1.successes, h2']
    unfold allAttempts
    rw [List.filter_map, List.length_map]
    congr 1
    apply List.filter_congr
    intro a _
    simp only [Function.comp_def, outcome]
    cases (w.env a.1 a.2).configureOk <;> simp
  · rw [h2']
    simp [allAttempts, Function.comp_def]

/-- **C47** part: a run ends without an exception if nothing but the scans goes wrong. -/
theorem smooth_run_finishes (w : World) (old : Counters) (sets : List ScanSet) (hs : sets ≠ []) (h : Smooth w sets) :
    ∃ r, run w old sets true = some (r, true) := by
  rw [run_eq w old sets hs]
  cases hx : (runSets w {} sets).2 with
  | true => exact ⟨_, by rw [← hx]⟩
  | false => exact absurd h ((runSets_spec w sets {} settled_init).2 hx).2.1

/-- **C47** part: at every moment of every run, ended or not, with or without an exception:
scansSuccessful + scansFailed is scansCompleted or one more (for the moment between the two updates),
and never more than the number of scans attempted; the scans attempted are the first of all scans, in
order. What is missing: see `counters_differ_for_a_moment` and `attempt_not_counted`. -/
theorem counters_partial (w : World) (old : Counters) (sets : List ScanSet) (r : Runner) (ok : Bool)
    (hrun : run w old sets true = some (r, ok)) :
    r.counters.completed = r.counters.successes + r.counters.failures ∧
    (r.attempts.length = r.counters.completed ∨ (ok = false ∧ r.attempts.length = r.counters.completed + 1)) ∧
    (∀ c ∈ r.seen, c.completed ≤ c.successes + c.failures ∧ c.successes + c.failures ≤ c.completed + 1 ∧
      c.successes + c.failures ≤ r.attempts.length) ∧
    r.attempts.map (fun a => (a.1, a.2.1)) <+: allScans sets := by
  have hs : sets ≠ [] := by intro hc; subst hc; simp [run] at hrun
  rw [run_eq w old sets hs] at hrun
  have hr := Option.some.inj hrun
  have hspec := runSets_spec w sets {} settled_init
  rw [hr] at hspec
  cases ok with
  | true =>
    obtain ⟨h1, h2⟩ := hspec.1 rfl
    refine ⟨h1.sum, .inl h1.completed.symm, h1.seen, ?_⟩
    rw [show r.attempts = _ from h2]
    simp [allAttempts, Function.comp_def]
  | false =>
    obtain ⟨h1, _, done, h3, h4⟩ := hspec.2 rfl
    refine ⟨h1.sum, ?_, h1.seen, ?_⟩
    · have := h1.attempts; dsimp only at this; simp; omega
    · rw [show r.attempts = _ from h4]
      have := h3.map (fun a : String × Nat × Outcome => (a.1, a.2.1))
      simpa [allAttempts, Function.comp_def] using this

/-- The counters start at zero, whatever a run before left. -/
theorem counters_start_at_zero (w : World) (old old' : Counters) (sets : List ScanSet) (b : Bool) :
    run w old sets b = run w old' sets b := by
  unfold run Runner.set
  split
  · rfl
  · split <;> rfl

theorem sum_toNat : ∀ (l : List ScanSet), (∀ s ∈ l, 0 ≤ s.repeats) →
    (l.map (·.repeats)).sum = ((l.map (fun s => s.repeats.toNat)).sum : Nat) := by
  intro l
  induction l with
  | nil => intro _; rfl
  | cons a l ih =>
    intro h
    have h1 := ih (fun s hs => h s (List.mem_cons_of_mem _ hs))
    have h2 := h a List.mem_cons_self
    simp only [List.map_cons, List.sum_cons, h1]
    push_cast
    omega

/-- **C47** part: after a run without an exception scansCompleted is scansConfigured. -/
theorem completed_is_configured (w : World) (old : Counters) (d : Dict String ScanSet) (r : Runner)
    (hn : ∀ s ∈ d.values, 0 ≤ s.repeats) (hrun : run w old d.values true = some (r, true)) :
    (r.counters.completed : Int) = scansConfigured d := by
  obtain ⟨_, h1, _, h2⟩ := finished_run_partial w old d.values r hrun
  unfold scansConfigured
  rw [sum_toNat _ hn, h1]
  have : r.attempts.length = (allScans d.values).length := by rw [← h2]; simp
  rw [this]
  unfold allScans
  rw [List.length_flatMap]
  simp

/-- The entries of the file that have different names are all kept, in order. -/
theorem all_entries_loaded (entries : List ScanSet) (h : (entries.map (·.name)).Nodup) :
    (loadFile entries).values = entries := by
  have key : ∀ (es : List ScanSet) (d : Dict String ScanSet), (∀ e ∈ es, e.name ∉ d.keys) →
      (es.map (·.name)).Nodup →
      (es.foldl (fun d s => Dict.set d s.name s) d) = d ++ es.map (fun s => (s.name, s)) := by
    intro es
    induction es with
    | nil => intro d _ _; simp
    | cons e es ih =>
      intro d hd hn
      have hset : ∀ (d : Dict String ScanSet) (k : String) (v : ScanSet), k ∉ d.keys → Dict.set d k v = d ++ [(k, v)] := by
        intro d
        induction d with
        | nil => intro k v _; rfl
        | cons p d ihd =>
          intro k v hk
          have h1 : ¬ p.1 = k := fun hc => hk (by rw [← hc]; exact List.mem_cons_self)
          have h2 := ihd k v (fun hc => hk (List.mem_cons_of_mem _ hc))
          simp only [Dict.set]
          rw [if_neg h1, h2]; rfl
      rw [List.foldl_cons, hset d e.name e (hd e List.mem_cons_self), ih]
      · simp
      · intro x hx hc
        simp only [Dict.keys, List.map_append, List.mem_append, List.map_cons, List.map_nil, List.mem_singleton] at hc
        rcases hc with hc | hc
        · exact hd x (List.mem_cons_of_mem _ hx) hc
        · rw [List.map_cons, List.nodup_cons] at hn
          exact hn.1 (by rw [← hc]; exact List.mem_map_of_mem hx)
      · rw [List.map_cons, List.nodup_cons] at hn; exact hn.2
  unfold loadFile
  rw [key entries [] (fun _ _ h => by cases h) h]
  simp [Dict.values, Function.comp_def]

/-! ### what does not hold -/

/-- the world in which all goes well -/
def fine : World := { setDirOk := fun _ => true, env := fun _ _ => {} }

/-- A client can see counters that do not add up: the outcome is counted before the completion. -/
theorem counters_differ_for_a_moment : ∃ r, run fine {} [⟨"a", 1⟩] true = some (r, true) ∧
    ∃ c ∈ r.seen, c.completed ≠ c.successes + c.failures :=
  ⟨_, rfl, ⟨0, 1, 0⟩, by decide, by decide⟩

/-- A scan whose line in the report cannot be written is not counted, and the run ends. -/
theorem attempt_not_counted : ∃ (w : World) (r : Runner), run w {} [⟨"a", 2⟩] true = some (r, false) ∧
    r.attempts.length = 1 ∧ r.counters.completed = 0 :=
  ⟨{ fine with env := fun _ _ => { reportOk := false } }, _, rfl, by decide, by decide⟩

/-- A scan that was aborted is counted as failed and does not stop the runner: the others are run,
although it was `abort` of the runner that aborted it. -/
theorem goes_on_after_abort : ∃ (w : World) (r : Runner), run w {} [⟨"a", 3⟩] true = some (r, true) ∧
    r.attempts = [("a", 1, .aborted), ("a", 2, .success), ("a", 3, .success)] ∧ r.counters = ⟨3, 2, 1⟩ :=
  ⟨{ fine with env := fun _ n => { runOutcome := if n = 1 then .aborted else .success } }, _, rfl, by decide, by decide⟩

/-- Of two entries with the same name the first is not run. -/
theorem same_name_lost : (loadFile [⟨"a", 2⟩, ⟨"b", 1⟩, ⟨"a", 3⟩]).values = [⟨"a", 3⟩, ⟨"b", 1⟩] ∧
    scansConfigured (loadFile [⟨"a", 2⟩, ⟨"b", 1⟩, ⟨"a", 3⟩]) = 4 := by decide

/-- two sets with all kinds of outcomes: the hypotheses of the theorems are met -/
example : Smooth { fine with env := fun s n => { configureOk := n ≠ 2, runOutcome := if s = "b" then .timeout else .success } }
    [⟨"a", 3⟩, ⟨"b", 2⟩] := by intro s hs; exact ⟨rfl, fun _ _ _ => ⟨rfl, rfl, rfl⟩⟩

end Verif.Props.ScanRunner
