import Verif.Proofs.Stateful
import Verif.Props.States
/-!
C03 (writeability follows the state), C04 (health is the worst outstanding fault) and the
single-thread part of C01 (a refused transition changes nothing).
-/
set_option linter.unusedSectionVars false
namespace Verif.Props.Stateful
open Verif Verif.Ctl
variable {F R : Type} [DecidableEq F] [DecidableEq R]

/-- One of the three state sets a stateful block can have. -/
def KnownStateSet (ss : StateSet) : Prop :=
  ss = statefulStates ∨ ss = managerStates ∨ ss = runnableStates

/-- A controller as built by its constructor, followed by any history. -/
def Reachable (ss : StateSet) (reset : F) (c : Ctl F R) : Prop :=
  ∃ ops, c = Ctl.run (Ctl.init ss reset) ops

/-- The history does not itself change the writeability of `f`: no declaration, no (re-)adding of
the field to the block, no removal. -/
def LeavesAlone (f : F) (ops : List (Op F R)) : Prop := ∀ op ∈ ops, ¬ touches f op

theorem init_nodup {ss : StateSet} (reset : F) : (Ctl.init ss reset : Ctl F R).NodupInv := by
  have h0 : ({ ss := ss, state := .disabling } : Ctl F R).NodupInv := by
    intro s d hd; simp at hd
  have := nodupInv_run _ [.setWriteableIn reset [.disabled, .fault], .transition .disabled ""] h0
  exact this

theorem init_ss {ss : StateSet} (reset : F) : (Ctl.init ss reset : Ctl F R).ss = ss := by
  have := run_ss ({ ss := ss, state := .disabling } : Ctl F R)
    [.setWriteableIn reset [.disabled, .fault], .transition .disabled ""]
  exact this

/-- C03.  In any reachable controller, once a field has declared its states (`set_writeable_in`)
and the block has since made one successful transition, then after *any* further history that does
not re-declare, re-add or remove that field, the field is marked writeable exactly when the current
state is one of the declared ones. -/
theorem declared_field_writeable_iff
    {ss : StateSet} (hss : KnownStateSet ss) (reset : F) (c : Ctl F R) (hc : Reachable ss reset c)
    (f : F) (states : List St) (hvalid : ∀ s ∈ states, s ∈ ss.possible)
    (between after : List (Op F R))
    (hb : ∀ op ∈ between, ¬ touchesMarks f op) (ha : LeavesAlone f after)
    (t : St) (msg : String)
    (hok : (((c.setWriteableIn f states).1.run between).transition t msg).2 = .ok) :
    let c' := ((((c.setWriteableIn f states).1.run between).transition t msg).1).run after
    c'.writeable f = decide (c'.state ∈ states) := by
  obtain ⟨ops, rfl⟩ := hc
  dsimp only
  have hcss : (Ctl.run (Ctl.init ss reset : Ctl F R) ops).ss = ss := by
    rw [run_ss, init_ss]
  have hcn : (Ctl.run (Ctl.init ss reset : Ctl F R) ops).NodupInv := nodupInv_run _ ops (init_nodup reset)
  generalize hcdef : Ctl.run (Ctl.init ss reset : Ctl F R) ops = c at *
  have hne : c.ss.possible ≠ [] := by
    rw [hcss]
    rcases hss with e | e | e <;> rw [e]
    · rw [statefulStates_eq]; decide
    · rw [managerStates_eq]; decide
    · rw [runnableStates_eq]; decide
  have hall : states.all (fun s => decide (s ∈ c.ss.possible)) = true := by
    rw [List.all_eq_true]; intro s hs; rw [hcss]; simpa using hvalid s hs
  have hm1 : (c.setWriteableIn f states).1.Marked f states := by
    intro s hs
    have hs' : s ∈ c.ss.possible := by rw [setWriteableIn_ss] at hs; exact hs
    simp only [setWriteableIn, hall, if_true, mark_markStates]
    rw [if_pos ⟨hs', trivial⟩]
  have hn1 : (c.setWriteableIn f states).1.NodupInv := nodupInv_step c (.setWriteableIn f states) hcn
  have hm2 := marked_run hm1 (by rw [setWriteableIn_ss]; exact hne) between hb
  have hn2 := nodupInv_run _ between hn1
  have hss2 : ((c.setWriteableIn f states).1.run between).ss = ss := by
    rw [run_ss, setWriteableIn_ss, hcss]
  generalize (c.setWriteableIn f states).1.run between = d at *
  have hp : t ∈ d.ss.possible :=
    target_possible (by rw [hss2]; exact hss) (transition_ok_allowed hok)
  have hw := transition_ok_writeable hn2 hm2 hp hok
  have hset : (d.transition t msg).1.Settled f states := by
    refine ⟨?_, ?_⟩
    · exact marked_step hm2 (by intro h0; rw [h0] at hp; simp at hp) (.transition t msg)
        (by simp [touchesMarks])
    · rw [hw.1, hw.2]
  exact (settled_run (by rw [step_ss, hss2]; exact hss)
    (nodupInv_step d (.transition t msg) hn2) hset after ha).2

/-- C03, fields that do not declare their states: adding a field that has a write function and was
never declared makes it behave as if it had declared every state but Disabling and Disabled. -/
theorem undeclared_field_writeable_iff
    {ss : StateSet} (hss : KnownStateSet ss) (reset : F) (c : Ctl F R) (hc : Reachable ss reset c)
    (f : F) (hnew : c.declared f = false)
    (between after : List (Op F R))
    (hb : ∀ op ∈ between, ¬ touchesMarks f op) (ha : LeavesAlone f after)
    (t : St) (msg : String)
    (hok : (((c.addBlockField f true).run between).transition t msg).2 = .ok) :
    let c' := ((((c.addBlockField f true).run between).transition t msg).1).run after
    c'.writeable f = decide (c'.state ≠ .disabling ∧ c'.state ≠ .disabled) := by
  obtain ⟨ops, rfl⟩ := hc
  dsimp only
  have hcss : (Ctl.run (Ctl.init ss reset : Ctl F R) ops).ss = ss := by
    rw [run_ss, init_ss]
  have hcn : (Ctl.run (Ctl.init ss reset : Ctl F R) ops).NodupInv := nodupInv_run _ ops (init_nodup reset)
  generalize hcdef : Ctl.run (Ctl.init ss reset : Ctl F R) ops = c at *
  have hne : c.ss.possible ≠ [] := by
    rw [hcss]
    rcases hss with e | e | e <;> rw [e]
    · rw [statefulStates_eq]; decide
    · rw [managerStates_eq]; decide
    · rw [runnableStates_eq]; decide
  have hm1 : (c.addBlockField f true).Marked f (defaultStates c.ss.possible) := by
    intro s hs
    have hs' : s ∈ c.ss.possible := by rw [addBlockField_ss] at hs; exact hs
    have hd' : ({ c with writeable := fun g => if g = f then true else c.writeable g } : Ctl F R).declared f
      = false := hnew
    simp only [addBlockField, if_true, hd', Bool.false_eq_true, if_false, mark_markStates]
    rw [if_pos ⟨hs', trivial⟩]
  have hn1 : (c.addBlockField f true).NodupInv := nodupInv_step c (.addBlockField f true) hcn
  have hm2 := marked_run hm1 (by rw [addBlockField_ss]; exact hne) between hb
  have hn2 := nodupInv_run _ between hn1
  have hss2 : ((c.addBlockField f true).run between).ss = ss := by
    rw [run_ss, addBlockField_ss, hcss]
  generalize (c.addBlockField f true).run between = d at *
  have hp : t ∈ d.ss.possible :=
    target_possible (by rw [hss2]; exact hss) (transition_ok_allowed hok)
  have hw := transition_ok_writeable hn2 hm2 hp hok
  have hset : (d.transition t msg).1.Settled f (defaultStates c.ss.possible) := by
    refine ⟨?_, ?_⟩
    · exact marked_step hm2 (by intro h0; rw [h0] at hp; simp at hp) (.transition t msg)
        (by simp [touchesMarks])
    · rw [hw.1, hw.2]
  have hfin := (settled_run (by rw [step_ss, hss2]; exact hss)
    (nodupInv_step d (.transition t msg) hn2) hset after ha).2
  -- the current state is always one of the possible ones
  have hposs : (((d.transition t msg).1).run after).state ∈ c.ss.possible := by
    have key : ∀ (e : Ctl F R), e.ss = ss → e.state ∈ ss.possible →
        ∀ ops : List (Op F R), (e.run ops).state ∈ ss.possible := by
      intro e he hes ops
      induction ops generalizing e with
      | nil => exact hes
      | cons op ops ih =>
        refine ih (e.step op) (by rw [step_ss, he]) ?_
        cases op with
        | setWriteableIn g s => simp only [step, setWriteableIn]; split <;> exact hes
        | addBlockField g h => simp only [step, addBlockField]; split <;> (try split) <;> exact hes
        | removeField g => exact hes
        | report r a => exact hes
        | transition s m =>
          simp only [step, transition]
          split
          · exact hes
          · exact hes
          · rename_i hal
            rw [he] at hal
            split <;> exact target_possible hss hal
    rw [hcss]
    apply key _ (by rw [transition_ss, hss2])
    rw [hw.2, ← hss2]; exact hp
  change (Ctl.run (d.transition t msg).1 after).writeable f = _ at hfin
  rw [hfin]
  change decide ((Ctl.run (d.transition t msg).1 after).state ∈ _) = _
  simp only [defaultStates, List.mem_filter, hposs, true_and, Bool.and_eq_true, decide_eq_true_eq]
  

/-- C03: a field added without a write function and never declared is never writeable. -/
theorem read_only_field_never_writeable
    {ss : StateSet} (reset : F) (f : F) (hr : f ≠ reset) (ops : List (Op F R))
    (h1 : ∀ sts, Op.setWriteableIn f sts ∉ ops) (h2 : Op.addBlockField f true ∉ ops) :
    ((Ctl.init ss reset : Ctl F R).run ops).writeable f = false := by
  have h0 : ({ ss := ss, state := .disabling } : Ctl F R).NodupInv := by
    intro s d hd; simp at hd
  have key : ∀ (ops : List (Op F R)) (c : Ctl F R), c.NodupInv → (∀ s, mark c.children s f = none) →
      c.writeable f = false → (∀ sts, Op.setWriteableIn f sts ∉ ops) →
      Op.addBlockField f true ∉ ops → (c.run ops).writeable f = false := by
    intro ops
    induction ops with
    | nil => intro c _ _ hw _ _; exact hw
    | cons op ops ih =>
      intro c hn hm hw h1 h2
      refine ih (c.step op) (nodupInv_step c op hn)
        (mark_step_none hm op (fun sts e => h1 sts (by simp [e])) (fun e => h2 (by simp [e]))) ?_
        (fun sts hm => h1 sts (by simp [hm])) (fun hm => h2 (by simp [hm]))
      cases op with
      | setWriteableIn g s => simp only [step, setWriteableIn]; split <;> exact hw
      | addBlockField g h =>
        simp only [step, addBlockField]
        split
        · rename_i hh
          have hg : ¬ f = g := fun e => h2 (by simp [e, hh])
          split <;> simp [hg, hw]
        · exact hw
      | removeField g => exact hw
      | report r a => exact hw
      | transition s m => simp only [step]; rw [transition_unmarked hn hm]; exact hw
  have e : (Ctl.init ss reset : Ctl F R).run ops = Ctl.run ({ ss := ss, state := .disabling } : Ctl F R)
      (.setWriteableIn reset [.disabled, .fault] :: .transition .disabled "" :: ops) := rfl
  rw [e]
  apply key _ _ h0 (by intro s; rfl) rfl
  · intro sts hm
    simp only [List.mem_cons, Op.setWriteableIn.injEq, reduceCtorEq, false_or] at hm
    rcases hm with hm | hm
    · exact hr hm.1
    · exact h1 sts hm
  · intro hm
    simp only [List.mem_cons, reduceCtorEq, false_or] at hm
    exact h2 hm

/-- C03, the gap: `add_block_field` marks a field writeable at once, whatever the current state.
A field that declared only Ready is writeable in Disabled from `setup` until the first transition. -/
theorem added_field_writeable_too_early :
    ∃ (ops : List (Op Nat Nat)),
      let c := (Ctl.init runnableStates 0).run ops
      Op.setWriteableIn 1 [.ready] ∈ ops ∧
      c.state = .disabled ∧ c.writeable 1 = true := by
  refine ⟨[.setWriteableIn 1 [.ready], .addBlockField 1 true], ?_⟩
  refine ⟨by simp, by decide +kernel, by decide +kernel⟩

/-- C01 (single thread): a transition either follows a published edge and lands there, or changes
nothing at all. -/
theorem transition_follows_edges (c : Ctl F R) (hss : c.ss = runnableStates) (s : St) (msg : String) :
    (s ∈ States.edges c.state ∧ (c.transition s msg).1.state = s) ∨
    (s ∉ States.edges c.state ∧ c.transition s msg = (c, .typeError)) := by
  have := States.runnable_transition_iff c.state s
  unfold transition
  rw [hss, this]
  by_cases h : s ∈ States.edges c.state
  · left
    refine ⟨h, ?_⟩
    simp only [h, decide_true]
    split <;> rfl
  · right
    exact ⟨h, by simp [h]⟩

/-! ### C04 -/

/-- Specification: the outstanding alarm of a reporter is the last alarm it reported, if that was
not an all-clear. -/
def outstanding (reports : List (R × Alarm)) (r : R) : Option Alarm :=
  match reports.reverse.find? (fun ra => ra.1 = r) with
  | some (_, a) => if a.severity = .noAlarm then none else some a
  | none => none

/-- The faults dictionary and health after a list of reports (`update_health` repeatedly). -/
def afterReports (reports : List (R × Alarm)) : Dict R Alarm × Health :=
  reports.foldl (fun s ra => let d := updateFaults s.1 ra.1 ra.2; (d, healthOf d)) ([], {})

theorem afterReports_append (reports : List (R × Alarm)) (ra : R × Alarm) :
    afterReports (reports ++ [ra]) =
      (updateFaults (afterReports reports).1 ra.1 ra.2,
       healthOf (updateFaults (afterReports reports).1 ra.1 ra.2)) := by
  simp [afterReports]

theorem outstanding_append (reports : List (R × Alarm)) (r : R) (a : Alarm) (r2 : R) :
    outstanding (reports ++ [(r, a)]) r2 =
      if r = r2 then (if a.isOk then none else some a) else outstanding reports r2 := by
  unfold outstanding
  by_cases h : r = r2
  · simp [h, Alarm.isOk]
  · simp [h]

theorem afterReports_inv (reports : List (R × Alarm)) :
    (Dict.keys (afterReports reports).1).Nodup ∧
    (∀ r, Dict.get? (afterReports reports).1 r = outstanding reports r) ∧
    (afterReports reports).2 = healthOf (afterReports reports).1 := by
  have key : ∀ n, ∀ reports : List (R × Alarm), reports.length = n →
    (Dict.keys (afterReports reports).1).Nodup ∧
    (∀ r, Dict.get? (afterReports reports).1 r = outstanding reports r) ∧
    (afterReports reports).2 = healthOf (afterReports reports).1 := by
    intro n
    induction n with
    | zero =>
      intro reports h
      rw [List.length_eq_zero_iff] at h
      subst h
      exact ⟨by simp [afterReports, Dict.keys], by intro r; rfl, rfl⟩
    | succ n ih =>
      intro reports h
      have hne : reports ≠ [] := by rintro rfl; simp at h
      obtain ⟨init, ra, rfl⟩ : ∃ init ra, reports = init ++ [ra] :=
        ⟨reports.dropLast, reports.getLast hne, (List.dropLast_concat_getLast hne).symm⟩
      have hi := ih init (by simpa using h)
      rw [afterReports_append]
      refine ⟨nodup_updateFaults hi.1 _ _, ?_, rfl⟩
      intro r
      rw [get?_updateFaults hi.1, show ra = (ra.1, ra.2) from rfl, outstanding_append, hi.2.1]
  exact key _ reports rfl

/-- The severities, from the least to the worst -/
def severities : List Severity := [.noAlarm, .minor, .major, .invalid, .undefined]

/-- One severity is no worse than another -/
def NoWorse (a b : Severity) : Prop := severities.idxOf a ≤ severities.idxOf b

theorem noWorse_iff (a b : Severity) : NoWorse a b ↔ a.toNat ≤ b.toNat := by
  unfold NoWorse; cases a <;> cases b <;> decide

/-- C04: after any history of reports from any number of reporters, `health` is OK if nothing is
outstanding; otherwise it shows the message and alarm of some outstanding alarm, and no outstanding
alarm is more severe than it. -/
theorem health_is_worst_outstanding (reports : List (R × Alarm)) :
    let h := (afterReports reports).2
    ((∀ r, outstanding reports r = none) → h = ⟨"OK", ⟨.noAlarm, ""⟩⟩) ∧
    ((∃ r a, outstanding reports r = some a) →
      ∃ r a, outstanding reports r = some a ∧ h = ⟨a.message, a⟩ ∧
        ∀ r' a', outstanding reports r' = some a' → NoWorse a'.severity a.severity) := by
  obtain ⟨hn, hg, hh⟩ := afterReports_inv reports
  intro h
  have hspec := healthOf_spec (afterReports reports).1
  constructor
  · intro hno
    have : (afterReports reports).1 = [] := by
      cases hd : (afterReports reports).1 with
      | nil => rfl
      | cons kv t =>
        exfalso
        have := hg kv.1
        rw [hno, hd, show kv = (kv.1, kv.2) from rfl] at this
        simp [Dict.get?] at this
    rw [show h = (afterReports reports).2 from rfl, hh, hspec.1 this]
    rfl
  · rintro ⟨r, a, hra⟩
    have hne : (afterReports reports).1 ≠ [] := by
      intro h0
      have := hg r
      rw [h0, hra] at this
      simp [Dict.get?] at this
    obtain ⟨a, ha, hha, hmax⟩ := hspec.2 hne
    obtain ⟨kv, hkv, rfl⟩ := List.mem_map.1 ha
    refine ⟨kv.1, kv.2, ?_, ?_, ?_⟩
    · rw [← hg]; exact Dict.get?_of_mem_nodup hn hkv
    · rw [show h = (afterReports reports).2 from rfl, hh]; exact hha
    · intro r' a' h'
      rw [← hg] at h'
      exact (noWorse_iff _ _).2 (hmax a' (List.mem_map.2 ⟨_, Dict.get?_mem h', rfl⟩))

/-- The reports made to `update_health` by a history of controller operations, the controller
itself reporting (as `none`) the alarm of every state it moves to. -/
def reportsOf : Ctl F R → List (Op F R) → List (Option R × Alarm)
  | _, [] => []
  | c, op :: ops =>
    (match op with
     | .report r a => [(some r, a)]
     | .transition s m =>
       if c.ss.transitionAllowed c.state s = some true then [(none, alarmFor s m)] else []
     | _ => []) ++ reportsOf (c.step op) ops

theorem reportsOf_run (c : Ctl F R) (ops : List (Op F R)) (rs : List (Option R × Alarm))
    (hf : c.faults = (afterReports rs).1) (hh : c.health = (afterReports rs).2) :
    (c.run ops).faults = (afterReports (rs ++ reportsOf c ops)).1 ∧
    (c.run ops).health = (afterReports (rs ++ reportsOf c ops)).2 := by
  induction ops generalizing c rs with
  | nil => simp [run, reportsOf, hf, hh]
  | cons op ops ih =>
    have e : c.run (op :: ops) = (c.step op).run ops := rfl
    rw [e]
    unfold reportsOf
    rw [← List.append_assoc]
    apply ih
    · cases op with
      | setWriteableIn f s => simp only [step, setWriteableIn]; split <;> simp [hf]
      | addBlockField f h => simp only [step, addBlockField]; split <;> (try split) <;> simp [hf]
      | removeField f => simp [step, removeField, hf]
      | report r a => rw [afterReports_append]; simp [step, updateHealth, hf]
      | transition s m =>
        simp only [step, transition]
        cases hal : c.ss.transitionAllowed c.state s with
        | none => simp [hf]
        | some b =>
          cases b with
          | false => simp [hf]
          | true =>
            simp only [if_true]
            rw [afterReports_append]
            split <;> simp [updateHealth, hf]
    · cases op with
      | setWriteableIn f s => simp only [step, setWriteableIn]; split <;> simp [hh]
      | addBlockField f h => simp only [step, addBlockField]; split <;> (try split) <;> simp [hh]
      | removeField f => simp [step, removeField, hh]
      | report r a => rw [afterReports_append]; simp [step, updateHealth, hf]
      | transition s m =>
        simp only [step, transition]
        cases hal : c.ss.transitionAllowed c.state s with
        | none => simp [hh]
        | some b =>
          cases b with
          | false => simp [hh]
          | true =>
            simp only [if_true]
            rw [afterReports_append]
            split <;> simp [updateHealth, hf]

/-- C04 on whole controllers: for every history of declarations, transitions and part reports, the
health attribute of the controller is the one `health_is_worst_outstanding` speaks about, for the
reports made by the parts and by the controller's own state changes. -/
theorem controller_health (ss : StateSet) (ops : List (Op F R)) :
    let c0 : Ctl F R := { ss := ss, state := .disabling }
    (c0.run ops).health = (afterReports (reportsOf c0 ops)).2 := by
  intro c0
  have := (reportsOf_run c0 ops [] rfl rfl).2
  simpa using this

/-- C04: whenever the block is in Fault its health is at least a major alarm; whenever Disabled, at
least invalid. -/
theorem fault_shows_in_health (ss : StateSet) (ops : List (Op F R)) :
    let c := ({ ss := ss, state := .disabling } : Ctl F R).run ops
    (c.state = .fault → 2 ≤ c.health.alarm.severity.toNat) ∧
    (c.state = .disabled → 3 ≤ c.health.alarm.severity.toNat) := by
  -- invariant: the controller's own fault entry is the alarm of its state
  have key : ∀ (ops : List (Op F R)) (c : Ctl F R), (Dict.keys c.faults).Nodup →
      c.health = healthOf c.faults →
      (c.state = .fault → ∃ m, Dict.get? c.faults none = some (Alarm.majorOf m)) →
      (c.state = .disabled → Dict.get? c.faults none = some (Alarm.invalidOf "Disabled")) →
      let c' := c.run ops
      (Dict.keys c'.faults).Nodup ∧ c'.health = healthOf c'.faults ∧
      (c'.state = .fault → ∃ m, Dict.get? c'.faults none = some (Alarm.majorOf m)) ∧
      (c'.state = .disabled → Dict.get? c'.faults none = some (Alarm.invalidOf "Disabled")) := by
    intro ops
    induction ops with
    | nil => intro c h1 h2 h3 h4; exact ⟨h1, h2, h3, h4⟩
    | cons op ops ih =>
      intro c h1 h2 h3 h4
      have e : c.run (op :: ops) = (c.step op).run ops := rfl
      rw [e]
      cases op with
      | setWriteableIn f s =>
        apply ih <;> simp only [step, setWriteableIn] <;> split <;> assumption
      | addBlockField f h =>
        apply ih <;> simp only [step, addBlockField] <;> split <;> (try split) <;> assumption
      | removeField f => exact ih _ h1 h2 h3 h4
      | report r a =>
        apply ih
        · exact nodup_updateFaults h1 _ _
        · rfl
        · intro hs
          simp only [step, updateHealth]
          rw [get?_updateFaults h1]
          simp only [reduceCtorEq, if_false]
          exact h3 hs
        · intro hs
          simp only [step, updateHealth]
          rw [get?_updateFaults h1]
          simp only [reduceCtorEq, if_false]
          exact h4 hs
      | transition s m =>
        cases hal : c.ss.transitionAllowed c.state s with
        | none => apply ih <;> simp only [step, transition, hal] <;> assumption
        | some b =>
          cases b with
          | false => apply ih <;> simp only [step, transition, hal] <;> assumption
          | true =>
            have hst : (c.transition s m).1.state = s ∧
                (c.transition s m).1.faults = updateFaults c.faults none (alarmFor s m) ∧
                (c.transition s m).1.health = healthOf (c.transition s m).1.faults := by
              unfold transition
              rw [hal]
              dsimp only
              split <;> exact ⟨rfl, rfl, rfl⟩
            have e2 : c.step (.transition s m) = (c.transition s m).1 := rfl
            apply ih
            · rw [e2, hst.2.1]; exact nodup_updateFaults h1 _ _
            · rw [e2, hst.2.2]
            · rw [e2, hst.1, hst.2.1]
              rintro rfl
              refine ⟨m, ?_⟩
              rw [get?_updateFaults h1]; rfl
            · rw [e2, hst.1, hst.2.1]
              rintro rfl
              rw [get?_updateFaults h1]; rfl
  intro c
  obtain ⟨hn, hh, hf, hd⟩ := key ops ({ ss := ss, state := .disabling } : Ctl F R)
    (by simp [Dict.keys]) rfl (by intro h; cases h) (by intro h; cases h)
  have spec := healthOf_spec (c.faults)
  have worst : ∀ a, Dict.get? c.faults none = some a →
      a.severity.toNat ≤ c.health.alarm.severity.toNat := by
    intro a ha
    have hne : c.faults ≠ [] := by intro h0; rw [h0] at ha; simp [Dict.get?] at ha
    obtain ⟨b, _, hb, hmax⟩ := spec.2 hne
    have := hmax a (List.mem_map.2 ⟨_, Dict.get?_mem ha, rfl⟩)
    rw [show c.health = healthOf c.faults from hh, hb]
    exact this
  constructor
  · intro hs
    obtain ⟨m, hm⟩ := hf hs
    exact worst _ hm
  · intro hs
    exact worst _ (hd hs)

/-! ### Non-vacuity -/

-- C03 applies to a real history: `run` declared writeable in Armed, block initialised and configured.
example : let c : Ctl Nat Nat := (Ctl.init runnableStates 0).run []
    Reachable runnableStates 0 c ∧
    (((c.setWriteableIn 1 [.armed]).1.run [.addBlockField 1 true]).transition .resetting "").2 = .ok ∧
    (let c' := ((((c.setWriteableIn 1 [.armed]).1.run [.addBlockField 1 true]).transition .resetting "").1).run
        [.transition .ready "", .transition .configuring "", .transition .armed ""]
     c'.state = .armed ∧ c'.writeable 1 = true) := by
  refine ⟨⟨[], rfl⟩, by decide +kernel, by decide +kernel, by decide +kernel⟩

-- C04: two faults outstanding, one cleared.
example : outstanding [((1 : Nat), (⟨.minor, "a"⟩ : Alarm)), (2, ⟨.major, "b"⟩), (1, ⟨.noAlarm, ""⟩)] 2
    = some ⟨.major, "b"⟩ := by decide
example : (afterReports [((1 : Nat), (⟨.minor, "a"⟩ : Alarm)), (2, ⟨.major, "b"⟩)]).2.text = "b" := by decide

end Verif.Props.Stateful
