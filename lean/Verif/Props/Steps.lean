import Verif.Proofs.Steps
/-!
C06 (breakpoints partition the scan), C07 (completedSteps), C08 (where a pause goes) and
C09 (no step is skipped).
-/
set_option linter.unusedSectionVars false
namespace Verif.Props.Steps
open Verif Verif.Steps Verif.Spec.Steps
variable {A : Type} [DecidableEq A] {P : Type} [DecidableEq P]

/-- What scanpointgenerator guarantees about the dimensions of a prepared generator (no axis in two
dimensions, no empty dimension), plus: every dimension has an axis. -/
structure AxedGenerator (dims : List (Dim A)) : Prop where
  axes : ∀ d ∈ dims, d.axes ≠ []
  distinct : dims.Pairwise (fun d d' => ∀ a ∈ d.axes, a ∉ d'.axes)
  sizes : ∀ d ∈ dims, 0 < d.size

theorem AxedGenerator.reverse {dims : List (Dim A)} (h : AxedGenerator dims) :
    AxedGenerator dims.reverse := by
  refine ⟨fun d hd => h.axes d (List.mem_reverse.1 hd), ?_, fun d hd => h.sizes d (List.mem_reverse.1 hd)⟩
  rw [List.pairwise_reverse]
  exact h.distinct.imp (fun hab a ha hb => hab a hb ha)

theorem genSize_pos {dims : List (Dim A)} (h : AxedGenerator dims) : 0 < genSize dims := by
  have key : ∀ l : List (Dim A), (∀ d ∈ l, 0 < d.size) → 0 < genSize l := by
    intro l hl
    induction l with
    | nil => simp [genSize]
    | cons d ds ih => exact Nat.mul_pos (hl d (by simp)) (ih (fun d' h' => hl d' (by simp [h'])))
  exact key dims h.sizes

/-- C06, no breakpoints: every run does the same number of steps, and a whole number of runs makes
up the scan. -/
theorem steps_per_run_without_breakpoints {dims : List (Dim A)} (hg : AxedGenerator dims)
    {axesToMove : List A} {plan : Plan} (h : getStepsPerRun dims axesToMove [] = .ok plan) :
    ∃ (k : Int) (n : Nat), plan.steps = [k] ∧ plan.useBp = false ∧ 0 < k ∧ 0 < n ∧
      (n : Int) * k = genSize dims := by
  unfold getStepsPerRun at h
  split at h
  · cases h
  · rename_i inner hi
    simp at h
    subst h
    have hr := hg.reverse
    have h1 := inner_mul_outer axesToMove dims.reverse axesToMove hr.axes hr.distinct
      (fun _ _ _ _ => Iff.rfl) inner hi
    rw [genSize_reverse] at h1
    refine ⟨inner, outerSteps axesToMove dims.reverse, rfl, rfl, ?_, outerSteps_pos hr.sizes, ?_⟩
    · have := innerSteps_pos hr.sizes hi; omega
    · rw [← h1, Int.natCast_mul, Int.mul_comm]

/-- C06, with breakpoints: the steps per run add up to the scan, they are the breakpoints given
(completed with what they leave of the inner scan, if anything) repeated a whole number of times,
and they are positive if the breakpoints given are. -/
theorem steps_per_run_with_breakpoints {dims : List (Dim A)} (hg : AxedGenerator dims)
    {axesToMove : List A} {bps : List Int} (hb : bps ≠ []) {plan : Plan}
    (h : getStepsPerRun dims axesToMove bps = .ok plan) :
    plan.useBp = true ∧ plan.bpSteps = some (prefixSums plan.steps) ∧
    plan.steps.sum = genSize dims ∧
    (∃ rest n, rest.length ≤ 1 ∧ 0 < n ∧ plan.steps = repeatList (bps ++ rest) n ∧
      (∀ x ∈ rest, 0 < x)) ∧
    ((∀ b ∈ bps, 0 < b) → ∀ x ∈ plan.steps, 0 < x) := by
  unfold getStepsPerRun at h
  split at h
  · cases h
  · rename_i inner hi
    have hlen : bps.length > 0 := List.length_pos_iff.2 hb
    rw [if_pos hlen] at h
    dsimp only at h
    split at h
    · rename_i hle
      simp only [Except.ok.injEq] at h
      have hr := hg.reverse
      have h1 := inner_mul_outer axesToMove dims.reverse axesToMove hr.axes hr.distinct
        (fun _ _ _ _ => Iff.rfl) inner hi
      rw [genSize_reverse] at h1
      obtain ⟨rest, hrest, hrl, hrs, hrp⟩ : ∃ rest : List Int,
          (if bps.sum < (inner : Int) then bps ++ [(inner : Int) - bps.sum] else bps) = bps ++ rest ∧
          rest.length ≤ 1 ∧ (bps ++ rest).sum = (inner : Int) ∧ (∀ x ∈ rest, 0 < x) := by
        by_cases hlt : bps.sum < (inner : Int)
        · refine ⟨[(inner : Int) - bps.sum], by rw [if_pos hlt], by simp, ?_, ?_⟩
          · rw [List.sum_append]; simp; omega
          · intro x hx; simp at hx; omega
        · refine ⟨[], by rw [if_neg hlt]; simp, by simp, ?_, by simp⟩
          simp; omega
      rw [hrest] at h
      subst h
      refine ⟨rfl, rfl, ?_, ⟨rest, outerSteps axesToMove dims.reverse, hrl,
        outerSteps_pos hr.sizes, rfl, hrp⟩, ?_⟩
      · simp only
        rw [sum_repeatList, hrs, ← h1, Int.natCast_mul, Int.mul_comm]
      · intro hpos x hx
        have := mem_repeatList hx
        rw [List.mem_append] at this
        rcases this with h | h
        · exact hpos x h
        · exact hrp x h
    · cases h

/-- The segments a scan is cut into, by the documentation of breakpoints: positive sizes adding up
to the whole scan; without breakpoints all the same; with breakpoints the list given, completed by
what it leaves of the inner scan, over and over. -/
def Segments (total : Int) (bps : List Int) (parts : List Int) : Prop :=
  parts ≠ [] ∧ parts.sum = total ∧ (∀ x ∈ parts, 0 < x) ∧
  (bps = [] → ∃ k n, parts = List.replicate n k) ∧
  (bps ≠ [] → ∃ rest n, rest.length ≤ 1 ∧ parts = repeatList (bps ++ rest) n)

/-- A configured scan is cut into segments, and waits at the start of the first. -/
theorem configured_spec {dims : List (Dim A)} (hg : AxedGenerator dims) {axesToMove : List A}
    {bps : List Int} (hpos : ∀ b ∈ bps, 0 < b) {s0 : Scan P} {m : Machine P}
    (h : configured s0 dims axesToMove bps = .ok m) :
    ∃ parts first rest, Segments (genSize dims) bps parts ∧ parts = first :: rest ∧
      WFAt m.scan parts 0 ∧ m.scan.completed = 0 ∧ m.scan.total = genSize dims ∧
      m.window = (0, first) ∧ m.phase = .armed ∧ m.ran = [] ∧ m.start = 0 := by
  unfold configured doConfigure at h
  cases hp : getStepsPerRun dims axesToMove bps with
  | error e => simp [hp] at h
  | ok plan =>
    simp only [hp] at h
    cases h0 : plan.steps[0]? with
    | none => simp [h0] at h
    | some todo =>
      simp only [h0, Except.ok.injEq] at h
      subst h
      by_cases hb : bps = []
      · subst hb
        obtain ⟨k, n, hs, hu, hk, hn, hprod⟩ := steps_per_run_without_breakpoints hg hp
        have htodo : todo = k := by rw [hs] at h0; simpa using h0.symm
        subst htodo
        have hcons : List.replicate n todo = todo :: List.replicate (n - 1) todo := by
          rw [← List.replicate_succ]; congr 1; omega
        have hall : ∀ x ∈ List.replicate n todo, 0 < x := by
          intro x hx; rw [List.mem_replicate] at hx; omega
        have hsum : (List.replicate n todo).sum = (genSize dims : Int) := by
          rw [sum_replicate, hprod]
        refine ⟨List.replicate n todo, todo, _, ⟨by rw [hcons]; simp, hsum, hall, ?_, by simp⟩,
          hcons, ⟨hsum.symm, hall, Or.inr ⟨hu, rfl, todo, n, hs, rfl⟩, by simp; omega, ?_⟩,
          rfl, rfl, rfl, rfl, rfl, rfl⟩
        · exact fun _ => ⟨_, _, rfl⟩
        · rw [hcons]; simp
      · obtain ⟨hu, hbs, hsum, ⟨rest, n, hr, hn, hrep, hrp⟩, hallp⟩ :=
          steps_per_run_with_breakpoints hg hb hp
        have hall := hallp hpos
        have hcons : plan.steps = todo :: plan.steps.tail := by
          cases hps : plan.steps with
          | nil => rw [hps] at h0; simp at h0
          | cons a t => rw [hps] at h0; simp at h0; subst h0; rfl
        refine ⟨plan.steps, todo, _, ⟨by rw [hcons]; simp, hsum, hall, fun e => absurd e hb,
          fun _ => ⟨rest, n, hr, hrep⟩⟩, hcons,
          ⟨hsum.symm, hall, Or.inl ⟨hu, rfl, by simp [hbs], rfl⟩, by rw [hcons]; simp, ?_⟩,
          rfl, rfl, rfl, rfl, rfl, rfl⟩
        rw [hcons]; simp

/-- `i` calls of `run()`, each left to finish. -/
def runs (i : Nat) : List (Ev P) := (List.replicate i [Ev.run, Ev.runHooksDone]).flatten

theorem runs_succ (i : Nat) : (runs (i + 1) : List (Ev P)) = runs i ++ [Ev.run, Ev.runHooksDone] := by
  simp [runs, List.replicate_succ']

theorem windowsFrom_append (a : Int) (l1 l2 : List Int) :
    windowsFrom a (l1 ++ l2) = windowsFrom a l1 ++ windowsFrom (a + l1.sum) l2 := by
  induction l1 generalizing a with
  | nil => simp [windowsFrom]
  | cons x xs ih => simp [windowsFrom, ih, Int.add_assoc]

theorem windowsFrom_contiguous (a : Int) (l : List Int) (h : ∀ x ∈ l, 0 < x) :
    Contiguous a (windowsFrom a l) (a + l.sum) := by
  induction l generalizing a with
  | nil => simp [windowsFrom, Contiguous]
  | cons x xs ih =>
    refine ⟨rfl, h x (by simp), ?_⟩
    have := ih (a + x) (fun y hy => h y (by simp [hy]))
    rw [List.sum_cons, ← Int.add_assoc]
    exact this

/-- The state after `i` uninterrupted runs. -/
theorem runs_prefix {parts : List Int} {m : Machine P} (hwf : WFAt m.scan parts 0)
    (hph : m.phase = .armed) {first : Int} (hf : parts[0]? = some first)
    (hw : m.window = (0, first)) (hran : m.ran = [])
    (i : Nat) (hi : i < parts.length) :
    let m' := m.run (runs i)
    WFAt m'.scan parts i ∧ m'.phase = .armed ∧
      m'.window = ((parts.take i).sum, parts[i]) ∧ m'.ran = windowsFrom 0 (parts.take i) := by
  induction i with
  | zero =>
    refine ⟨hwf, hph, ?_, by simp [Machine.run, runs, hran, windowsFrom]⟩
    rw [List.getElem?_eq_getElem hi] at hf
    simp only [Option.some.injEq] at hf
    simp [Machine.run, runs, hw, hf]
  | succ i ih =>
    obtain ⟨h1, h2, h3, h4⟩ := ih (by omega)
    rw [runs_succ]
    have e : m.run (runs i ++ [Ev.run, Ev.runHooksDone]) =
        ((m.run (runs i)).step .run).step .runHooksDone := by
      simp [Machine.run, List.foldl_append]
    rw [e]
    generalize m.run (runs i) = m' at *
    have hlt : m'.scan.configured < m'.scan.total := by
      rw [h1.cfg, h1.total]; exact sum_take_lt h1.pos hi
    obtain ⟨hi', s', hp, hwf', -, -, -⟩ := postRun_more h1 hlt
    have e2 : (m'.step .run).step .runHooksDone =
        { scan := s', phase := .armed, window := (m'.scan.configured, parts[i + 1]),
          ran := m'.ran ++ [m'.window], start := m'.start } := by
      simp [Machine.step, h2, hlt, hp]
    rw [e2]
    refine ⟨hwf', rfl, by simp only [h1.cfg], ?_⟩
    simp only
    rw [List.take_succ_eq_append_getElem (by omega : i < parts.length), windowsFrom_append, h4, h3]
    simp [windowsFrom]

/-- C06: for an accepted configuration, the runs that `run()` performs when left alone are exactly
the segments, in order: the block stays Armed after each but the last, is Finished after the last,
and the windows run cover every step of the scan once. -/
theorem runs_cover_scan {dims : List (Dim A)} (hg : AxedGenerator dims) {axesToMove : List A}
    {bps : List Int} (hpos : ∀ b ∈ bps, 0 < b) {s0 : Scan P} {m : Machine P}
    (h : configured s0 dims axesToMove bps = .ok m) :
    ∃ parts, Segments (genSize dims) bps parts ∧
      (∀ i < parts.length, (m.run (runs i)).phase = .armed) ∧
      (m.run (runs parts.length)).phase = .finished ∧
      (m.run (runs parts.length)).ran = windowsFrom 0 parts ∧
      Contiguous 0 (m.run (runs parts.length)).ran (genSize dims) ∧
      (m.run (runs parts.length)).scan.completed = genSize dims := by
  obtain ⟨parts, first, rest, hseg, hcons, hwf, -, htot, hw, hph, hran, -⟩ := configured_spec hg hpos h
  have hpre := fun i hi => runs_prefix hwf hph (first := first) (by simp [hcons]) hw hran i hi
  refine ⟨parts, hseg, fun i hi => (hpre i hi).2.1, ?_⟩
  have hlen : 0 < parts.length := hwf.lt
  obtain ⟨k, hk⟩ : ∃ k, parts.length = k + 1 := ⟨parts.length - 1, by omega⟩
  obtain ⟨h1, h2, h3, h4⟩ := hpre k (by omega)
  rw [hk, runs_succ]
  have e : m.run (runs k ++ [Ev.run, Ev.runHooksDone]) =
      ((m.run (runs k)).step .run).step .runHooksDone := by
    simp [Machine.run, List.foldl_append]
  rw [e]
  have hsum : parts.sum = genSize dims := hseg.2.1
  generalize m.run (runs k) = m' at *
  have hc : m'.scan.configured = parts.sum := by
    rw [h1.cfg, ← hk, List.take_length]
  have hnlt : ¬ m'.scan.configured < m'.scan.total := by rw [hc, h1.total]; omega
  have e2 : (m'.step .run).step .runHooksDone =
      { scan := { m'.scan with completed := m'.scan.configured }, phase := .finished,
        window := (m'.scan.configured, 0),
        ran := m'.ran ++ [m'.window], start := m'.start } := by
    simp [Machine.step, h2, hnlt, postRun_last hnlt]
  rw [e2]
  have hran' : m'.ran ++ [m'.window] = windowsFrom 0 parts := by
    conv => rhs; rw [← List.take_length (l := parts), hk,
      List.take_succ_eq_append_getElem (by omega : k < parts.length), windowsFrom_append]
    rw [h4, h3]
    simp [windowsFrom]
  refine ⟨rfl, hran', ?_, by simp only; rw [hc, hsum]⟩
  simp only
  rw [hran', ← hsum]
  have := windowsFrom_contiguous 0 parts hwf.pos
  simpa using this

/-- C06 fails for a generator with a dimension that has no axes (a StaticPointGenerator): such a
dimension counts both as inner and as outer, so the steps add up to more than the scan. -/
theorem breakpoints_miscount_axisless_dimension :
    ∃ (dims : List (Dim String)) (plan : Plan),
      getStepsPerRun dims ["x"] [2] = .ok plan ∧ plan.steps.sum ≠ genSize dims :=
  ⟨[⟨[], 3⟩, ⟨["x"], 4⟩], _, rfl, by decide⟩

/-- C06 needs the breakpoints to be positive: `configure` accepts others. -/
theorem nonpositive_breakpoints_accepted :
    ∃ (plan : Plan), getStepsPerRun [⟨["x"], 4⟩] ["x"] [0, -1] = .ok plan ∧ plan.steps = [0, -1, 5] :=
  ⟨_, rfl, by decide⟩

/-! ### C07 -/

/-- The latest report of each part, from a list of reports. -/
def latest (reports : List (P × Int)) (p : P) : Option Int :=
  (reports.reverse.find? (fun r => r.1 = p)).map (·.2)

/-- `m` is the smallest of the latest reports. -/
def IsMinLatest (reports : List (P × Int)) (m : Int) : Prop :=
  (∃ p, latest reports p = some m) ∧ ∀ p n, latest reports p = some n → m ≤ n

def reportAll (s : Scan P) (reports : List (P × Int)) : Scan P :=
  reports.foldl (fun s r => updateCompleted s r.1 r.2) s

theorem latest_append (reports : List (P × Int)) (p : P) (n : Int) (q : P) :
    latest (reports ++ [(p, n)]) q = if p = q then some n else latest reports q := by
  unfold latest
  by_cases h : p = q <;> simp [h]

theorem reportAll_append (s : Scan P) (reports : List (P × Int)) (r : P × Int) :
    reportAll s (reports ++ [r]) = updateCompleted (reportAll s reports) r.1 r.2 := by
  simp [reportAll, List.foldl_append]

theorem progress_latest (s : Scan P) (h0 : s.progress = []) (reports : List (P × Int)) :
    (Dict.keys (reportAll s reports).progress).Nodup ∧
    ∀ p, Dict.get? (reportAll s reports).progress p = latest reports p := by
  have key : ∀ n (reports : List (P × Int)), reports.length = n →
      (Dict.keys (reportAll s reports).progress).Nodup ∧
      ∀ p, Dict.get? (reportAll s reports).progress p = latest reports p := by
    intro n
    induction n with
    | zero =>
      intro r hr
      rw [List.length_eq_zero_iff] at hr
      subst hr
      simp [reportAll, h0, latest, Dict.keys, Dict.get?]
    | succ n ih =>
      intro r hr
      have hne : r ≠ [] := by rintro rfl; simp at hr
      obtain ⟨init, x, rfl⟩ : ∃ init x, r = init ++ [x] :=
        ⟨r.dropLast, r.getLast hne, (List.dropLast_concat_getLast hne).symm⟩
      obtain ⟨h1, h2⟩ := ih init (by simpa using hr)
      rw [reportAll_append]
      have hp : (updateCompleted (reportAll s init) x.1 x.2).progress =
          Dict.set (reportAll s init).progress x.1 x.2 := by
        simp only [updateCompleted]
        split
        · rfl
        · split <;> rfl
      rw [hp]
      refine ⟨Dict.nodup_set h1 _ _, ?_⟩
      intro p
      rw [Dict.get?_set, show x = (x.1, x.2) from rfl, latest_append, h2]
  exact key _ reports rfl

/-- C07: for a freshly configured scan and any interleaving of reports, each report leaves
`completedSteps` where it is, or moves it up to the smallest of the parts' latest reports; and it
never lags behind that smallest report. -/
theorem completed_steps_follow_reports (s : Scan P) (h0 : s.progress = [])
    (reports : List (P × Int)) (p : P) (n : Int) :
    let before := reportAll s reports
    let after := reportAll s (reports ++ [(p, n)])
    (after.completed = before.completed ∨
      (before.completed < after.completed ∧ IsMinLatest (reports ++ [(p, n)]) after.completed)) ∧
    (∀ m, IsMinLatest (reports ++ [(p, n)]) m → m ≤ after.completed) := by
  intro before after
  obtain ⟨hn, hg⟩ := progress_latest s h0 (reports ++ [(p, n)])
  have ea : after = updateCompleted before p n := reportAll_append ..
  have hprog : (reportAll s (reports ++ [(p, n)])).progress = Dict.set before.progress p n := by
    rw [show reportAll s (reports ++ [(p, n)]) = updateCompleted before p n from reportAll_append ..]
    simp only [updateCompleted]
    split
    · rfl
    · split <;> rfl
  rw [hprog] at hn hg
  have hmin : ∀ m, listMin (Dict.values (Dict.set before.progress p n)) = some m →
      IsMinLatest (reports ++ [(p, n)]) m := by
    intro m hm
    obtain ⟨h1, h2⟩ := listMin_spec hm
    obtain ⟨kv, hkv, rfl⟩ := List.mem_map.1 h1
    refine ⟨⟨kv.1, ?_⟩, ?_⟩
    · rw [← hg]; exact Dict.get?_of_mem_nodup hn hkv
    · intro q k hq
      rw [← hg] at hq
      exact h2 k (List.mem_map.2 ⟨_, Dict.get?_mem hq, rfl⟩)
  obtain ⟨m, hm⟩ : ∃ m, listMin (Dict.values (Dict.set before.progress p n)) = some m := by
    have := mem_values_set before.progress p n
    cases hv : Dict.values (Dict.set before.progress p n) with
    | nil => rw [hv] at this; simp at this
    | cons x xs => exact ⟨_, rfl⟩
  have hun : ∀ m', IsMinLatest (reports ++ [(p, n)]) m' → m' = m := by
    intro m' h'
    have h2 := hmin m hm
    obtain ⟨q, hq⟩ := h'.1
    obtain ⟨q2, hq2⟩ := h2.1
    exact Int.le_antisymm (h'.2 _ _ hq2) (h2.2 _ _ hq)
  rw [ea]
  simp only [updateCompleted, hm]
  by_cases hgt : m > before.completed
  · rw [if_pos hgt]
    refine ⟨Or.inr ⟨hgt, hmin m hm⟩, fun m' h' => ?_⟩
    rw [hun m' h']; exact Int.le_refl _
  · rw [if_neg hgt]
    refine ⟨Or.inl rfl, fun m' h' => ?_⟩
    rw [hun m' h']; simp only; omega

/-- C07: it never decreases, and stays within `0..total` if the reports do. -/
theorem completed_steps_monotone_and_bounded (s : Scan P) (reports more : List (P × Int)) :
    (reportAll s reports).completed ≤ (reportAll s (reports ++ more)).completed ∧
    (0 ≤ s.completed → s.completed ≤ s.total → (∀ r ∈ reports, r.2 ≤ s.total) →
      0 ≤ (reportAll s reports).completed ∧ (reportAll s reports).completed ≤ s.total) := by
  have step : ∀ (s : Scan P) (l : List (P × Int)), s.completed ≤ (reportAll s l).completed ∧
      ∀ t, s.completed ≤ t → (∀ r ∈ l, r.2 ≤ t) → (reportAll s l).completed ≤ t := by
    intro s l
    induction l generalizing s with
    | nil => exact ⟨Int.le_refl _, fun t h _ => h⟩
    | cons r l ih =>
      have e : reportAll s (r :: l) = reportAll (updateCompleted s r.1 r.2) l := rfl
      rw [e]
      obtain ⟨-, -, -, -, -, -, h1, h2⟩ := updateCompleted_frame s r.1 r.2
      obtain ⟨h3, h4⟩ := ih (updateCompleted s r.1 r.2)
      refine ⟨by omega, fun t ht hr => h4 t ?_ (fun r' h' => hr r' (by simp [h']))⟩
      have := hr r (by simp)
      omega
  refine ⟨?_, ?_⟩
  · rw [show reportAll s (reports ++ more) = reportAll (reportAll s reports) more by
      simp [reportAll, List.foldl_append]]
    exact (step _ _).1
  · intro h0 ht hr
    have := step s reports
    exact ⟨by omega, this.2 _ ht hr⟩

/-- C07, a limit of what is reported: parts that have not reported yet do not count, and a rewind
does not forget old reports.  Here part 2 was at step 10 before a seek back to 2; a report of 8 by
part 1 moves `completedSteps` to 8 although part 2 has reported nothing since the seek. -/
theorem stale_report_counts_after_seek :
    ∃ (s s' : Scan Nat) (w : Window), s.progress = [(1, 10), (2, 10)] ∧ doPause s 2 = .ok (s', w) ∧
      s'.completed = 2 ∧ (updateCompleted s' 1 8).completed = 8 :=
  ⟨{ total := 20, completed := 10, configured := 20, spr := [20], progress := [(1, 10), (2, 10)] },
    _, _, rfl, rfl, by decide, by decide⟩

/-! ### C08 -/

/-- C08: an accepted `pause(lastGoodStep)` on a scan cut into `parts`.  If the step asked for is
explicit, or the steps completed are not already the whole scan, then the scan goes to a step `p`
inside `0..total`, and the parts are told to do the steps from `p` to the end of the segment
containing `p`.  The step is the one asked for, brought into range (the number of completed steps if
negative, the last step if beyond the end), or one less if a run is in progress and it is the end of
that run. -/
theorem pause_goes_to_segment {parts : List Int} {m : Machine P} {i : Nat}
    (hwf : WFAt m.scan parts i) (h0 : 0 ≤ m.scan.completed) (hf : m.phase ≠ .fault) (lg : Int)
    (hlg : 0 ≤ lg ∨ m.scan.completed < m.scan.total ∨ ∃ last, m.phase = .running last)
    (hle : m.scan.completed ≤ m.scan.configured)
    (hnoop : ¬ (lg < 0 ∧ m.phase = .finished)) :
    ∃ p e, 0 ≤ p ∧ p < m.scan.total ∧ SegEnd parts p e ∧
      (m.step (.pause lg)).window = (p, e - p) ∧
      (m.step (.pause lg)).scan.completed = p ∧
      (m.step (.pause lg)).scan.configured = e ∧
      (m.step (.pause lg)).phase =
        (match m.phase with
         | .running last | .paused last => .paused last
         | _ => .armed) ∧
      (let want := if lg < 0 then m.scan.completed
                   else if lg ≥ m.scan.total then m.scan.total - 1 else lg
       p = want ∨ (p = want - 1 ∧ want = m.scan.configured ∧
         m.phase ≠ .armed ∧ m.phase ≠ .finished)) := by
  have htot : 0 < m.scan.total := by have := hwf.cfg_pos; have := hwf.cfg_le; omega
  have hcp := hwf.cfg_pos
  have hcl := hwf.cfg_le
  obtain ⟨p, hp, hp0, hp1, hpw⟩ : ∃ p, pauseTarget m.scan m.phase lg = some p ∧ 0 ≤ p ∧
      p < m.scan.total ∧
      (let want := if lg < 0 then m.scan.completed
                   else if lg ≥ m.scan.total then m.scan.total - 1 else lg
       p = want ∨ (p = want - 1 ∧ want = m.scan.configured ∧
         m.phase ≠ .armed ∧ m.phase ≠ .finished)) := by
    unfold pauseTarget
    rw [if_neg hnoop]
    generalize hw : (if lg < 0 then m.scan.completed
        else if lg ≥ m.scan.total then m.scan.total - 1 else lg) = want
    have hw0 : 0 ≤ want := by
      rw [← hw]; split
      · exact h0
      · split <;> omega
    have hwt : want < m.scan.total ∨ (want ≤ m.scan.configured ∧ ∃ last, m.phase = .running last) := by
      rw [← hw]; split
      · rcases hlg with h | h | h
        · omega
        · exact Or.inl h
        · exact Or.inr ⟨hle, h⟩
      · left; split <;> omega
    cases hph : m.phase with
    | armed =>
      refine ⟨want, rfl, hw0, ?_, Or.inl rfl⟩
      rcases hwt with h | ⟨-, l, h⟩
      · exact h
      · rw [hph] at h; cases h
    | finished =>
      refine ⟨want, rfl, hw0, ?_, Or.inl rfl⟩
      rcases hwt with h | ⟨-, l, h⟩
      · exact h
      · rw [hph] at h; cases h
    | fault => exact absurd hph hf
    | running l =>
      by_cases hc : want = m.scan.configured
      · exact ⟨want - 1, by simp [hc], by omega, by omega, Or.inr ⟨rfl, hc, by simp, by simp⟩⟩
      · refine ⟨want, by simp [hc], hw0, ?_, Or.inl rfl⟩
        rcases hwt with h | ⟨h, -⟩ <;> omega
    | paused l =>
      by_cases hc : want = m.scan.configured
      · exact ⟨want - 1, by simp [hc], by omega, by omega, Or.inr ⟨rfl, hc, by simp, by simp⟩⟩
      · refine ⟨want, by simp [hc], hw0, ?_, Or.inl rfl⟩
        rcases hwt with h | ⟨h, -⟩ <;> omega
  obtain ⟨e, s', j, hd, hseg, -, hc, hcm, -⟩ := doPause_spec hwf hp0 hp1
  refine ⟨p, e, hp0, hp1, hseg, ?_⟩
  cases hph : m.phase with
  | fault => exact absurd hph hf
  | armed => rw [hph] at hp hpw; simp only [Machine.step, hph, hp, hd]; exact ⟨trivial, hcm, hc, trivial, hpw⟩
  | finished => rw [hph] at hp hpw; simp only [Machine.step, hph, hp, hd]; exact ⟨trivial, hcm, hc, trivial, hpw⟩
  | running l => rw [hph] at hp hpw; simp only [Machine.step, hph, hp, hd]; exact ⟨trivial, hcm, hc, trivial, hpw⟩
  | paused l => rw [hph] at hp hpw; simp only [Machine.step, hph, hp, hd]; exact ⟨trivial, hcm, hc, trivial, hpw⟩

/-! ### C09 -/

/-- The step lies in the segment that ends at `cfg`, or is `cfg` itself, or is past the end of the
scan when that segment is the last. -/
def InCurrentRun (parts : List Int) (cfg lg : Int) : Prop :=
  ∃ before size after, parts = before ++ size :: after ∧ cfg = before.sum + size ∧
    before.sum ≤ lg ∧ (lg ≤ cfg ∨ cfg = parts.sum)

/-- Events that the C09 theorem allows in a given situation: parts report progress while running
and never more than the steps configured; `run()` in progress is only paused at the steps completed,
or at a step of that run. -/
def Allowed (parts : List Int) (m : Machine P) : Ev P → Prop
  | .progress _ n => (∃ last, m.phase = .running last) ∧ n ≤ m.scan.configured
  | .pause lg =>
    (∃ last, m.phase = .running last ∨ m.phase = .paused last) →
      lg < 0 ∨ InCurrentRun parts m.scan.configured lg
  | _ => True

/-- Every event of the history is allowed where it happens. -/
def AllowedHistory (parts : List Int) : Machine P → List (Ev P) → Prop
  | _, [] => True
  | m, ev :: evs => Allowed parts m ev ∧ AllowedHistory parts (m.step ev) evs

structure Good (parts : List Int) (m : Machine P) (i : Nat) : Prop where
  wf : WFAt m.scan parts i
  c0 : (parts.take i).sum ≤ m.scan.completed
  nofault : m.phase ≠ .fault
  fin : m.phase = .finished → m.scan.completed = m.scan.total ∧ m.scan.configured = m.scan.total ∧
    Contiguous m.start m.ran m.scan.total
  notfin : m.phase ≠ .finished → m.window.1 + m.window.2 = m.scan.configured ∧ 0 < m.window.2 ∧
    Contiguous m.start m.ran m.window.1 ∧ m.scan.completed ≤ m.scan.configured
  strict : (m.phase = .armed ∨ ∃ last, m.phase = .paused last) →
    m.scan.completed < m.scan.configured
  last : ∀ last, (m.phase = .running last ∨ m.phase = .paused last) →
    (last = true ↔ m.scan.configured = m.scan.total)

theorem sum_take_nonneg {parts : List Int} (h : ∀ x ∈ parts, 0 < x) (i : Nat) :
    0 ≤ (parts.take i).sum := sum_nonneg (fun x hx => h x (List.mem_of_mem_take hx))

theorem index_unique {parts : List Int} (h : ∀ x ∈ parts, 0 < x) {i j : Nat} (hi : i ≤ parts.length)
    (hj : j ≤ parts.length) (he : (parts.take i).sum = (parts.take j).sum) : i = j := by
  rcases Nat.lt_trichotomy i j with hlt | rfl | hlt
  · have := sum_take_lt_lt h hlt hj; omega
  · rfl
  · have := sum_take_lt_lt h hlt hi; omega

theorem good_pause {parts : List Int} {m : Machine P} {i : Nat} (h : Good parts m i) (lg : Int)
    (ha : Allowed parts m (.pause lg)) : ∃ j, Good parts (m.step (.pause lg)) j := by
  have hc0 := sum_take_nonneg h.wf.pos i
  have hcp := h.wf.cfg_pos
  have hcl := h.wf.cfg_le
  have h00 := h.c0
  by_cases hnoop : lg < 0 ∧ m.phase = .finished
  · refine ⟨i, ?_⟩
    have : m.step (.pause lg) = m := by
      simp [Machine.step, hnoop.2, pauseTarget, hnoop.1]
    rw [this]; exact h
  -- the pause goes to a step inside the scan
  have hcomp : m.phase ≠ .finished → m.scan.completed ≤ m.scan.configured := fun hn => (h.notfin hn).2.2.2
  obtain ⟨p, hp, hp0, hp1, hin⟩ : ∃ p, pauseTarget m.scan m.phase lg = some p ∧ 0 ≤ p ∧
      p < m.scan.total ∧ ((∃ last, m.phase = .running last ∨ m.phase = .paused last) →
        (parts.take i).sum ≤ p ∧ p < m.scan.configured) := by
    unfold pauseTarget
    rw [if_neg hnoop]
    generalize hw : (if lg < 0 then m.scan.completed
        else if lg ≥ m.scan.total then m.scan.total - 1 else lg) = want
    have hw0 : 0 ≤ want := by
      rw [← hw]; split
      · omega
      · split <;> omega
    have hrun : (∃ last, m.phase = .running last ∨ m.phase = .paused last) →
        (parts.take i).sum ≤ (if want = m.scan.configured then want - 1 else want) ∧
        (if want = m.scan.configured then want - 1 else want) < m.scan.configured := by
      intro hr
      have hnf : m.phase ≠ .finished := by
        obtain ⟨l, h | h⟩ := hr <;> rw [h] <;> simp
      have hcmp := hcomp hnf
      have hsize : (parts.take i).sum < m.scan.configured := by
        rw [h.wf.cfg]; exact sum_take_lt_lt h.wf.pos (by omega) (by have := h.wf.lt; omega)
      rcases ha hr with hlg | ⟨before, size, after, hpe, hce, hb1, hb2⟩
      · rw [if_pos hlg] at hw
        split <;> omega
      · have hlg : ¬ lg < 0 := by
          have := sum_nonneg (l := before) (fun x hx => h.wf.pos x (by rw [hpe]; simp [hx]))
          omega
        rw [if_neg hlg] at hw
        have hbt : (parts.take i).sum = before.sum := by
          have e1 : (parts.take (before.length + 1)).sum = m.scan.configured := by
            rw [hce, hpe, List.take_append]
            have : before.length + 1 - before.length = 1 := by omega
            simp [this, List.take_of_length_le (Nat.le_succ before.length)]
          have hlen : before.length + 1 ≤ parts.length := by rw [hpe]; simp
          have := index_unique h.wf.pos (i := i + 1) (j := before.length + 1)
            (by have := h.wf.lt; omega) hlen (by rw [e1, h.wf.cfg])
          have e : i = before.length := by omega
          rw [e, hpe]; simp
        have hbt' : m.scan.total = parts.sum := h.wf.total
        split at hw <;> split <;> omega
    have hstr : (m.phase = .armed ∨ ∃ last, m.phase = .paused last) → want < m.scan.total := by
      intro hs
      have := h.strict hs
      rw [← hw]; split
      · omega
      · split <;> omega
    have hfin : m.phase = .finished → want < m.scan.total := by
      intro hs
      rw [← hw]; split
      · rename_i hl; exact absurd ⟨hl, hs⟩ hnoop
      · split <;> omega
    cases hph : m.phase with
    | fault => exact absurd hph h.nofault
    | armed =>
      refine ⟨want, rfl, hw0, hstr (Or.inl hph), ?_⟩
      rintro ⟨l, h | h⟩ <;> cases h
    | finished =>
      refine ⟨want, rfl, hw0, hfin hph, ?_⟩
      rintro ⟨l, h | h⟩ <;> cases h
    | running l =>
      have := hrun ⟨l, Or.inl hph⟩
      exact ⟨_, rfl, by omega, by omega, fun _ => this⟩
    | paused l =>
      have := hrun ⟨l, Or.inr hph⟩
      exact ⟨_, rfl, by omega, by omega, fun _ => this⟩
  obtain ⟨e, s', j, hd, hseg, hwf', hcfg, hcmp, -, hj0, hj1⟩ := doPause_spec h.wf hp0 hp1
  have hstep : m.step (.pause lg) = {
      scan := s', window := (p, e - p), ran := [], start := p,
      phase := match m.phase with
        | .running last => .paused last
        | .paused last => .paused last
        | _ => .armed } := by
    cases hph : m.phase with
    | fault => exact absurd hph h.nofault
    | armed => rw [hph] at hp; simp [Machine.step, hph, hp, hd]
    | finished => rw [hph] at hp; simp [Machine.step, hph, hp, hd]
    | running l => rw [hph] at hp; simp [Machine.step, hph, hp, hd]
    | paused l => rw [hph] at hp; simp [Machine.step, hph, hp, hd]
  have hpe : p < e := by rw [← hcfg, hwf'.cfg]; exact hj1
  refine ⟨j, ?_⟩
  rw [hstep]
  refine ⟨hwf', by simp only; omega, ?_, ?_, ?_, ?_, ?_⟩
  · simp only; split <;> simp
  · simp only; split <;> simp
  · intro _
    simp only
    refine ⟨by omega, by omega, rfl, by omega⟩
  · intro _; simp only; omega
  · intro last hl
    simp only at hl ⊢
    have hr : m.phase = .running last ∨ m.phase = .paused last := by
      cases hph : m.phase with
      | running l => rw [hph] at hl; simp at hl; left; rw [hl]
      | paused l => rw [hph] at hl; simp at hl; right; rw [hl]
      | armed => rw [hph] at hl; simp at hl
      | finished => rw [hph] at hl; simp at hl
      | fault => rw [hph] at hl; simp at hl
    have hold := h.last last hr
    obtain ⟨hr1, hr2⟩ := hin ⟨last, hr⟩
    rw [hold]
    -- same segment
    have hij : i = j := by
      rw [h.wf.cfg] at hr2
      rcases Nat.lt_trichotomy i j with hlt | rfl | hlt
      · have := sum_take_mono h.wf.pos (i := i + 1) (j := j) (by omega); omega
      · rfl
      · have := sum_take_mono h.wf.pos (i := j + 1) (j := i) (by omega); omega
    rw [hwf'.cfg, h.wf.cfg, hwf'.total, h.wf.total, hij]

theorem good_step {parts : List Int} {m : Machine P} {i : Nat} (h : Good parts m i) (ev : Ev P)
    (ha : Allowed parts m ev) : ∃ j, Good parts (m.step ev) j := by
  have hcl := h.wf.cfg_le
  cases ev with
  | pause lg => exact good_pause h lg ha
  | run =>
    cases hph : m.phase with
    | armed =>
      refine ⟨i, ?_⟩
      have hs : m.step .run = { m with phase := .running (!decide (m.scan.configured < m.scan.total)) } := by
        simp [Machine.step, hph]
      rw [hs]
      have hn := h.notfin (by rw [hph]; simp)
      refine ⟨h.wf, h.c0, by simp, by simp, fun _ => hn, by simp, ?_⟩
      intro last hl
      simp only [Phase.running.injEq, reduceCtorEq, or_false] at hl
      subst hl
      simp only [Bool.not_eq_true', decide_eq_false_iff_not]
      omega
    | _ => exact ⟨i, by simp only [Machine.step, hph]; exact h⟩
  | resume =>
    cases hph : m.phase with
    | paused l =>
      refine ⟨i, ?_⟩
      have hs : m.step .resume = { m with phase := .running l } := by
        simp [Machine.step, hph]
      rw [hs]
      have hn := h.notfin (by rw [hph]; simp)
      refine ⟨h.wf, h.c0, by simp, by simp, fun _ => hn, by simp, ?_⟩
      intro last hl
      simp only [Phase.running.injEq, reduceCtorEq, or_false] at hl
      subst hl
      exact h.last l (Or.inr hph)
    | _ => exact ⟨i, by simp only [Machine.step, hph]; exact h⟩
  | progress q n =>
    obtain ⟨⟨l, hph⟩, hn⟩ := ha
    obtain ⟨h1, h2, -, -, -, -, h7, h8⟩ := updateCompleted_frame m.scan q n
    have hnf := h.notfin (by rw [hph]; simp)
    refine ⟨i, h.wf.updateCompleted q n, ?_, h.nofault, ?_, ?_, ?_, ?_⟩
    · have := h.c0; simp only [Machine.step]; omega
    · simp [Machine.step, hph]
    · intro _
      simp only [Machine.step]
      rw [h2]
      exact ⟨hnf.1, hnf.2.1, hnf.2.2.1, by omega⟩
    · simp [Machine.step, hph]
    · intro last hl
      simp only [Machine.step] at hl ⊢
      rw [h1, h2]
      exact h.last last hl
  | runHooksDone =>
    cases hph : m.phase with
    | running l =>
      have hlast := h.last l (Or.inl hph)
      have hnf := h.notfin (by rw [hph]; simp)
      by_cases hlt : m.scan.configured < m.scan.total
      · have hl : l = false := by
          cases l with
          | false => rfl
          | true => have := hlast.1 rfl; omega
        subst hl
        obtain ⟨hi, s', hp, hwf', hcmp, hcfg, -⟩ := postRun_more h.wf hlt
        have hpos := h.wf.pos _ (List.getElem_mem hi)
        refine ⟨i + 1, ?_⟩
        have hs : m.step .runHooksDone = {
            scan := s', phase := .armed,
            window := (m.scan.configured, parts[i + 1]), ran := m.ran ++ [m.window],
            start := m.start } := by
          simp [Machine.step, hph, hp]
        rw [hs]
        refine ⟨hwf', ?_, by simp, by simp, ?_, ?_, by simp⟩
        · simp only; rw [hcmp, h.wf.cfg]; exact Int.le_refl _
        · intro _
          simp only
          refine ⟨hcfg.symm, hpos, ?_, by omega⟩
          exact contiguous_append hnf.2.2.1 rfl hnf.2.1 hnf.1.symm
        · intro _; simp only; omega
      · have hl : l = true := hlast.2 (by omega)
        subst hl
        refine ⟨i, ?_⟩
        have hs : m.step .runHooksDone = {
            scan := { m.scan with completed := m.scan.configured },
            phase := .finished, window := (m.scan.configured, 0), ran := m.ran ++ [m.window],
            start := m.start } := by
          simp [Machine.step, hph, postRun_last hlt]
        rw [hs]
        refine ⟨⟨h.wf.total, h.wf.pos, h.wf.mode, h.wf.lt, h.wf.cfg⟩, ?_, by simp, ?_, by simp, by simp, by simp⟩
        · simp only; rw [h.wf.cfg]; exact sum_take_mono h.wf.pos (by omega)
        · intro _
          simp only
          refine ⟨by omega, by omega, ?_⟩
          exact contiguous_append hnf.2.2.1 rfl hnf.2.1 (by omega)
    | _ => exact ⟨i, by simp only [Machine.step, hph]; exact h⟩

theorem good_run {parts : List Int} (evs : List (Ev P)) {m : Machine P} {i : Nat}
    (h : Good parts m i) (ha : AllowedHistory parts m evs) : ∃ j, Good parts (m.run evs) j := by
  induction evs generalizing m i with
  | nil => exact ⟨i, h⟩
  | cons ev evs ih =>
    obtain ⟨j, hj⟩ := good_step h ev ha.1
    exact ih hj ha.2

theorem good_configured {dims : List (Dim A)} (hg : AxedGenerator dims) {axesToMove : List A}
    {bps : List Int} (hpos : ∀ b ∈ bps, 0 < b) {s0 : Scan P} {m : Machine P}
    (h : configured s0 dims axesToMove bps = .ok m) :
    ∃ parts, Segments (genSize dims) bps parts ∧ Good parts m 0 ∧ m.scan.total = genSize dims := by
  obtain ⟨parts, first, rest, hseg, hcons, hwf, hc, htot, hw, hph, hran, hst⟩ := configured_spec hg hpos h
  have hfirst : 0 < first := hwf.pos first (by rw [hcons]; simp)
  have hcfg : m.scan.configured = first := by rw [hwf.cfg, hcons]; simp
  refine ⟨parts, hseg, ⟨hwf, by simp [hc], by rw [hph]; simp, by rw [hph]; simp, ?_, ?_, ?_⟩, htot⟩
  · intro _
    rw [hw, hran, hst, hcfg, hc]
    exact ⟨by simp, hfirst, rfl, by omega⟩
  · intro _; omega
  · intro last hl; rw [hph] at hl; simp at hl

/-- C09, for histories in which a run in progress is only paused within that run (see `Allowed`;
pauses of an Armed, or Finished block may go anywhere).  After any such history of run, pause,
resume and progress reports the block is never in Fault, and whenever it is Finished the windows run
since the last configure or seek follow each other without gap or overlap from where that put the
scan to the end of the scan.  What is missing for the full C09: a run in progress paused at a step
of another run; `rewind_loses_steps` shows that C09 is then false of the code. -/
theorem no_step_skipped_partial {dims : List (Dim A)} (hg : AxedGenerator dims)
    {axesToMove : List A} {bps : List Int} (hpos : ∀ b ∈ bps, 0 < b) {s0 : Scan P} {m : Machine P}
    (h : configured s0 dims axesToMove bps = .ok m) :
    ∃ parts, Segments (genSize dims) bps parts ∧
      ∀ evs, AllowedHistory parts m evs →
        (m.run evs).phase ≠ .fault ∧
        ((m.run evs).phase = .finished →
          Contiguous (m.run evs).start (m.run evs).ran (genSize dims) ∧
          (m.run evs).scan.completed = genSize dims) ∧
        ((m.run evs).phase = .armed → (m.run evs).scan.completed < genSize dims ∧
          Contiguous (m.run evs).start (m.run evs).ran (m.run evs).window.1) := by
  obtain ⟨parts, hseg, hgood, htot⟩ := good_configured hg hpos h
  refine ⟨parts, hseg, ?_⟩
  intro evs ha
  obtain ⟨j, hj⟩ := good_run evs hgood ha
  have ht : (m.run evs).scan.total = genSize dims := by
    rw [hj.wf.total, ← htot, hgood.wf.total]
  refine ⟨hj.nofault, ?_, ?_⟩
  · intro hf
    obtain ⟨h1, h2, h3⟩ := hj.fin hf
    rw [ht] at h1 h3
    exact ⟨h3, h1⟩
  · intro hf
    have h1 := hj.strict (Or.inl hf)
    have h2 := hj.wf.cfg_le
    have h3 := hj.notfin (by rw [hf]; simp)
    exact ⟨by omega, h3.2.2.1⟩

/-- C09 is false of the code in general: two runs of 5 steps; the second is paused at step 2 (of the
first) and resumed. The block goes to Finished with steps 5..9 not done again: the windows run since
the seek end at step 5, not 10. -/
theorem rewind_loses_steps :
    ∃ (m : Machine Nat) (evs : List (Ev Nat)),
      configured ({} : Scan Nat) [⟨["y"], 2⟩, ⟨["x"], 5⟩] ["x"] [] = .ok m ∧
      (m.run evs).phase = .finished ∧ (m.run evs).ran = [(2, 3)] ∧
      (m.run evs).scan.completed = 5 ∧ (m.run evs).scan.total = 10 :=
  ⟨_, [.run, .runHooksDone, .run, .pause 2, .resume, .runHooksDone], rfl,
    by decide, by decide, by decide, by decide⟩

/-- C08 and C09 are false of the code in the other direction too: the first run is paused at a step
of the second and resumed; the block ends Armed with nothing left to do, and pausing it then seeks
past the end of the scan. -/
theorem forward_pause_arms_past_the_end :
    ∃ (m : Machine Nat) (evs : List (Ev Nat)),
      configured ({} : Scan Nat) [⟨["y"], 2⟩, ⟨["x"], 5⟩] ["x"] [] = .ok m ∧
      (m.run evs).phase = .armed ∧ (m.run evs).scan.completed = 10 ∧
      ((m.run evs).step (.pause (-1))).window = (10, 5) ∧ (m.run evs).scan.total = 10 :=
  ⟨_, [.run, .pause 7, .resume, .runHooksDone], rfl, by decide, by decide, by decide, by decide⟩

/-! ### Non-vacuity -/

-- a grid scan with breakpoints meets the hypotheses of C06
example : AxedGenerator [(⟨["y"], 2⟩ : Dim String), ⟨["x"], 5⟩] := by
  constructor
  · intro d hd; simp at hd; rcases hd with rfl | rfl <;> simp
  · simp
  · intro d hd; simp at hd; rcases hd with rfl | rfl <;> simp
example : ∃ m, configured ({} : Scan Nat) [⟨["y"], 2⟩, ⟨["x"], 5⟩] ["x"] [1, 2] = .ok m ∧
    m.scan.spr = [1, 2, 2, 1, 2, 2] ∧
    (m.run (runs 6)).ran = [(0, 1), (1, 2), (3, 2), (5, 1), (6, 2), (8, 2)] :=
  ⟨_, rfl, by decide, by decide⟩
-- a history with progress, a pause and a seek meets the hypotheses of C09
example : ∃ m, configured ({} : Scan Nat) [⟨["y"], 2⟩, ⟨["x"], 5⟩] ["x"] [] = .ok m ∧
    AllowedHistory [5, 5] m
      [.run, .progress 1 3, .pause (-1), .resume, .runHooksDone, .run, .pause 7, .resume, .runHooksDone,
       .pause 4, .run, .runHooksDone, .run, .runHooksDone] ∧
    (m.run [.run, .progress 1 3, .pause (-1), .resume, .runHooksDone, .run, .pause 7, .resume,
       .runHooksDone, .pause 4, .run, .runHooksDone, .run, .runHooksDone]).phase = .finished ∧
    (m.run [.run, .progress 1 3, .pause (-1), .resume, .runHooksDone, .run, .pause 7, .resume,
       .runHooksDone, .pause 4, .run, .runHooksDone, .run, .runHooksDone]).ran = [(4, 1), (5, 5)] := by
  refine ⟨_, rfl, ?_, by decide, by decide⟩
  refine ⟨trivial, ⟨⟨_, rfl⟩, by decide⟩, fun _ => Or.inl (by decide), trivial, trivial, trivial,
    fun _ => Or.inr ⟨[5], 5, [], rfl, by decide, by decide, Or.inl (by decide)⟩, trivial, trivial,
    ?_, trivial, trivial, trivial, trivial, trivial⟩
  rintro ⟨l, h⟩
  exact absurd h (by cases l <;> decide)

end Verif.Props.Steps
