import Verif.Proofs.CallLog
/-!
C120: what a client reads of a method (`took` and `returned`) is the record of one call, the last to end; time stamps tell when.

Proved for every description of the method, every number of calls that overlap in any way and every result: the record is that of one call
that is over, as long as no call had its outcome replaced. It is false otherwise: a call whose result does not fit the
description leaves its own `took` beside the `returned` of an earlier call, and describing a method anew during a call
turns its success into an error.
-/
namespace Verif.Props.CallLog
open Verif Verif.CallLog Verif.Spec.CallLog Verif.Proofs.CallLog

variable {M V : Type} {e : Ext M V}

/-! ### the record -/

/-- **C120** `took` and `returned` are of one and the same call that is over and was answered with its outcome, or say that there
was no call. Missing: if the record of a call could not be made (see `mixed_record`) -/
theorem one_call_partial (hd : Defaults e) {takes returns : MapMeta M} (ht : WF takes) (hr : WF returns) (u b : Bool)
    {w : World M V} (hw : start e takes returns u b = some w) (es : List (Ev M V)) (hp : ∀ ev ∈ es, Proper ev)
    (ha : AllRecorded (run e w es)) :
    Uncalled e (run e w es).method ∨ ∃ (i : Nat) (c : Call V), (run e w es).calls[i]? = some c ∧ Of e (run e w es).method c := by
  obtain ⟨w', h1, h2, _⟩ := start_inv (V := V) hd ht hr u b
  rw [h1] at hw; cases hw
  exact (run_inv hd es h2 hp).good ha

/-- a new method says that nobody has called it, and can always be made -/
theorem new_method (hd : Defaults e) {takes returns : MapMeta M} (ht : WF takes) (hr : WF returns) (u b : Bool) :
    ∃ w : World M V, start e takes returns u b = some w ∧ w.calls = [] ∧ Uncalled e w.method := by
  obtain ⟨w, h1, _, h2, h3⟩ := start_inv (V := V) hd ht hr u b
  exact ⟨w, h1, h2, h3⟩

/-- **C120** from the Post to the reply: a call that is accepted is recorded when it ends, whatever other calls come, end or run on
meanwhile, with what it was given, when it came, what it gave and when it ended, and the caller is told the outcome; if
the method is not described anew meanwhile and the result fits its description -/
theorem call_recorded (hs : Stable e) (hd : Defaults e) {w : World M V} (ht : WF w.method.takes) (hr : WF w.method.returns)
    {params args : Dict String V} {now0 now1 : ℚ} (hwr : w.method.writeable = true) (hacc : w.method.takes.validate e params false = some args)
    (es : List (Ev M V)) (hl : ∀ ev ∈ es, Leaves w.calls.length ev) {res : Result V} {d : Dict String V}
    (hg : Gave e w.method.unpacked res d) (hf : Fits e w.method.returns d) {w2 : World M V}
    (h2 : w2 = run e w (.post params now0 :: es ++ [.finish w.calls.length res now1])) :
    Shows e w.method.takes args w2.method.took ∧ (∀ k, k ∈ w2.method.took.present ↔ k ∈ Dict.keys params)
    ∧ (∀ k v, Dict.get? args k = some v → Dict.get? w2.method.took.value k = some v)
    ∧ w2.method.took.stamp = Stamp.ofTime now0
    ∧ Shows e w.method.returns d w2.method.returned ∧ AlarmOf res w2.method.returned.alarm
    ∧ w2.method.returned.stamp = Stamp.ofTime now1
    ∧ ∃ c rep, w2.calls[w.calls.length]? = some c ∧ c.args = args ∧ c.over = some (res, rep) ∧ Told res rep := by
  have hst : step e w (.post params now0) =
      { w with calls := w.calls ++ [{ args := args, start := Stamp.ofTime now0, over := none }] } := by
    simp only [step, hwr, hacc, if_true]
  have hc : (step e w (.post params now0)).calls[w.calls.length]? = some { args := args, start := Stamp.ofTime now0, over := none } := by
    rw [hst]; simp
  obtain ⟨g1, g2, g3, g4⟩ := leaves_run (e := e) es hc hl
  have hm : (step e w (.post params now0)).method = w.method := by rw [hst]
  rw [hm] at g2 g3 g4
  have hrun : w2 = step e (run e (step e w (.post params now0)) es) (.finish w.calls.length res now1) := by
    rw [h2]; simp [run, List.foldl_append]
  generalize run e (step e w (.post params now0)) es = w1 at g1 g2 g3 g4 hrun
  obtain ⟨fa, fk⟩ := fits_of_accepted hs hacc
  obtain ⟨m', hu⟩ := updateLogs_fits hd (m := w1.method) (by rw [g2]; exact ht) (by rw [g3]; exact hr) (Stamp.ofTime now0) (res := res) now1
    (by rw [g2]; exact fa) (by rw [g4]; exact hg) (by rw [g3]; exact hf)
  obtain ⟨d', t1, t2, _, t4, t5, t6, t7, _⟩ := updateLogs_true hu
  have hdd : d' = d := by
    rw [g4] at t1
    have a := gave_of (e := e) (m := w.method) (res := res) |>.mpr t1
    have b := gave_of (e := e) (m := w.method) (res := res) |>.mpr hg
    rw [a] at b; cases b; rfl
  subst hdd
  have hl1 := (List.getElem?_eq_some_iff.mp g1).1
  have hw2 : w2 = { method := m', calls := w1.calls.set w.calls.length { args := args, start := Stamp.ofTime now0, over := some (res, reply res true) } } := by
    rw [hrun]; simp only [step, g1, hu]
  rw [g2] at t2; rw [g3] at t5
  rw [hw2]
  refine ⟨t2, fun k => ?_, fun k v hv => ?_, t4, t5, t6, t7, _, _, by simp [hl1]; rfl, rfl, rfl, told_reply res⟩
  · rw [t2.2.2.2 k, fk]
    simp only [List.mem_filter, decide_eq_true_eq]
    exact ⟨fun h => h.2, fun h => ⟨(validate_parts hacc).1 k h, h⟩⟩
  · obtain ⟨x, y, hx, hy⟩ := fa k v hv
    have hold := loop_get e params false _ _ (validate_parts hacc).2.1 k
    rw [hv, hx] at hold
    simp only [Option.bind_some, Bool.false_eq_true, if_false] at hold
    rw [t2.2.1 k x v hx hv]
    cases hp : Dict.get? params k with
    | none => rw [hp] at hold; cases hold
    | some p => rw [hp] at hold; exact hs _ _ _ hold.symm

/-- a call that fails is recorded in any case, with the message of its failure and nothing returned -/
theorem failure_recorded (hs : Stable e) (hd : Defaults e) {w : World M V} (ht : WF w.method.takes) (hr : WF w.method.returns)
    {params args : Dict String V} {now0 now1 : ℚ} (hwr : w.method.writeable = true) (hacc : w.method.takes.validate e params false = some args)
    (es : List (Ev M V)) (hl : ∀ ev ∈ es, Leaves w.calls.length ev) (message : String) {w2 : World M V}
    (h2 : w2 = run e w (.post params now0 :: es ++ [.finish w.calls.length (.raised message) now1])) :
    w2.method.returned.alarm = some message ∧ w2.method.returned.present = [] ∧ w2.method.took.stamp = Stamp.ofTime now0
    ∧ ∃ c, w2.calls[w.calls.length]? = some c ∧ c.over = some (.raised message, .error message) := by
  obtain ⟨_, _, _, h4, h5, h6, _, c, rep, c1, _, c3, c4⟩ := call_recorded hs hd ht hr hwr hacc es hl (res := .raised message) (d := [])
    rfl (fun k v h => by simp at h) h2
  refine ⟨h6, ?_, h4, c, c1, by rw [c3, show rep = .error message from c4]⟩
  apply List.eq_nil_iff_forall_not_mem.mpr
  intro k hk
  simpa [Dict.keys] using (h5.2.2.2 k).mp hk

/-- **C120** the caller is told the outcome of the function exactly if what it was given and what it gave fit the description of the
method at its end; otherwise it gets an error about the record -/
theorem told_iff (hd : Defaults e) {w : World M V} (ht : WF w.method.takes) (hr : WF w.method.returns) {i : Nat} {c : Call V}
    (hc : w.calls[i]? = some c) (hrun : c.over = none) (res : Result V) (now : ℚ) :
    ∃ c' rep, (step e w (.finish i res now)).calls[i]? = some c' ∧ c'.over = some (res, rep)
      ∧ (Told res rep ↔ Fits e w.method.takes c.args ∧ ∃ d, Gave e w.method.unpacked res d ∧ Fits e w.method.returns d)
      ∧ (rep = .badRecord ↔ ¬ Told res rep) := by
  have hl := (List.getElem?_eq_some_iff.mp hc).1
  refine ⟨{ c with over := some (res, reply res (updateLogs e w.method c.args c.start res now).2) },
    reply res (updateLogs e w.method c.args c.start res now).2, by simp only [step, hc, hrun]; simp [hl], rfl, ?_, ?_⟩
  · rw [← updateLogs_true_iff hd ht hr c.args c.start res now]
    cases (updateLogs e w.method c.args c.start res now).2 <;> cases res <;> simp [reply, Told]
  · cases (updateLogs e w.method c.args c.start res now).2 <;> cases res <;> simp [reply, Told]

/-- a call is answered once: what has been told stays, whatever happens -/
theorem answered_once {i : Nat} {c : Call V} : ∀ (es : List (Ev M V)) {w : World M V}, w.calls[i]? = some c → c.over.isSome = true →
    (run e w es).calls[i]? = some c
  | [], _, h, _ => h
  | ev :: es, w, h, ho => by
    refine answered_once es ?_ ho
    have hl := (List.getElem?_eq_some_iff.mp h).1
    cases ev with
    | post params now =>
      simp only [step]
      split
      · split
        · exact h
        · simp only; rw [List.getElem?_append_left hl]; exact h
      · exact h
    | finish j res now =>
      simp only [step]
      cases hj : w.calls[j]? with
      | none => exact h
      | some x =>
        dsimp only
        cases hx : x.over with
        | some _ => exact h
        | none =>
          dsimp only
          have : j ≠ i := by
            rintro rfl
            rw [h] at hj; cases hj; rw [hx] at ho; cases ho
          rw [List.getElem?_set_ne this]; exact h
    | redescribe t r => exact h
    | writeable b => exact h

/-- describing a method anew makes its record that of no call -/
theorem described_anew (hd : Defaults e) (w : World M V) {t r : MapMeta M} (ht : WF t) (hr : WF r) :
    Uncalled e (step e w (.redescribe t r)).method ∧ (step e w (.redescribe t r)).method.takes = t
    ∧ (step e w (.redescribe t r)).method.returns = r ∧ (step e w (.redescribe t r)).calls = w.calls := by
  obtain ⟨h1, h2, h3, _⟩ := redescribe_uncalled hd (m := w.method) ht hr
  exact ⟨h1, h2, h3, rfl⟩

/-- **C120** the record never says that a call ended before it came, if the clock does not go back. Missing: as `one_call_partial` -/
theorem ends_after_start_partial (hd : Defaults e) {takes returns : MapMeta M} (ht : WF takes) (hr : WF returns) (u b : Bool)
    {w : World M V} (hw : start e takes returns u b = some w) {t : ℚ} (h0 : 0 ≤ t) (es : List (Ev M V)) (hc : Clocked t es)
    (hp : ∀ ev ∈ es, Proper ev) (ha : AllRecorded (run e w es)) :
    Le (run e w es).method.took.stamp (run e w es).method.returned.stamp := by
  obtain ⟨w', h1, _, h2, h3⟩ := start_inv (V := V) hd ht hr u b
  rw [h1] at hw; cases hw
  refine run_timed hd es h0 ⟨fun i c hi => by rw [h2] at hi; simp at hi, fun _ => ?_⟩ hc hp ha
  rw [h3.2.2.1, h3.2.2.2.2.2]; exact le_refl _

/-! ### time stamps -/

/-- **C120** a time stamp is that of the time, to the nanosecond below it -/
theorem stamp_near (t : ℚ) (h : 0 ≤ t) : (Stamp.ofTime t).toTime ≤ t ∧ t < (Stamp.ofTime t).toTime + 1 / 1000000000
    ∧ 0 ≤ (Stamp.ofTime t).sec ∧ 0 ≤ (Stamp.ofTime t).nano ∧ (Stamp.ofTime t).nano < 1000000000 := by
  have h1 := Int.floor_le ((t - ⌊t⌋) * 1000000000)
  have h2 := Int.lt_floor_add_one ((t - ⌊t⌋) * 1000000000)
  refine ⟨?_, ?_, ?_, nano_range t⟩
  · simp only [Stamp.ofTime, Stamp.toTime, h, if_true]; linarith
  · simp only [Stamp.ofTime, Stamp.toTime, h, if_true]; linarith
  · simp only [Stamp.ofTime, h, if_true]; exact Int.floor_nonneg.mpr h

/-- later times have no earlier stamps -/
theorem stamp_order {a b : ℚ} (h0 : 0 ≤ a) (h : a ≤ b) : Le (Stamp.ofTime a) (Stamp.ofTime b) := ofTime_mono h0 h

/-- the stamp of the time of a stamp is that stamp -/
theorem stamp_again (s : Stamp) (h : 0 ≤ s.sec) (h1 : 0 ≤ s.nano) (h2 : s.nano < 1000000000) : Stamp.ofTime s.toTime = s := by
  have q1 : (0 : ℚ) ≤ s.sec := by exact_mod_cast h
  have q2 : (0 : ℚ) ≤ s.nano := by exact_mod_cast h1
  have q3 : (s.nano : ℚ) < 1000000000 := by exact_mod_cast h2
  have f : ⌊s.toTime⌋ = s.sec := by
    rw [Int.floor_eq_iff]; unfold Stamp.toTime
    constructor
    · linarith [div_nonneg q2 (by norm_num : (0 : ℚ) ≤ 1000000000)]
    · have : (s.nano : ℚ) / 1000000000 < 1 := by rw [div_lt_one (by norm_num)]; exact q3
      linarith
  have n : 0 ≤ s.toTime := by unfold Stamp.toTime; positivity
  have g : (s.toTime - s.sec) * 1000000000 = s.nano := by unfold Stamp.toTime; ring
  unfold Stamp.ofTime
  simp only [n, if_true, f, g, Int.floor_intCast]

/-- before 1970 the stamp is of a time a second later -/
theorem before_1970 : (Stamp.ofTime (-1 / 4)) = ⟨0, 750000000⟩ ∧ (Stamp.ofTime (-1 / 4)).toTime = 3 / 4 := by
  have a : ⌊(-1 / 4 : ℚ)⌋ = -1 := by rw [Int.floor_eq_iff]; norm_num
  have b : ⌊(1 / 4 : ℚ)⌋ = 0 := by rw [Int.floor_eq_iff]; norm_num
  have h : Stamp.ofTime (-1 / 4) = ⟨0, 750000000⟩ := by
    unfold Stamp.ofTime
    have c : -(-1 / 4 : ℚ) = 1 / 4 := by norm_num
    have d : ¬ (0 : ℚ) ≤ -1 / 4 := by norm_num
    have f : ((-1 / 4 : ℚ) - ((-1 : Int) : ℚ)) * 1000000000 = ((750000000 : Int) : ℚ) := by norm_num
    rw [if_neg d, a, c, b, f, Int.floor_intCast]; rfl
  refine ⟨h, ?_⟩
  rw [h]; norm_num [Stamp.toTime]

/-! ### attributes -/

theorem changes_append {V : Type} (valid : V → Option V) (a : Attr V) (cs ds : List (Change V)) :
    a.changes valid (cs ++ ds) = (a.changes valid cs).changes valid ds := List.foldl_append ..

theorem stamp_kept {V : Type} (valid : V → Option V) : ∀ (cs : List (Change V)) (a : Attr V), (∀ c ∈ cs, ¬ Sets valid c) →
    (a.changes valid cs).stamp = a.stamp
  | [], _, _ => rfl
  | c :: cs, a, h => by
    have h1 := stamp_kept valid cs (a.change valid c) (fun x hx => h x (List.mem_cons_of_mem _ hx))
    have h2 := h c (List.mem_cons_self ..)
    change ((a.change valid c).changes valid cs).stamp = a.stamp
    rw [h1]
    cases c with
    | setValue v al s now =>
      cases hv : valid v with
      | none => simp only [Attr.change, hv]
      | some w => exact absurd ⟨w, hv⟩ h2
    | setAlarm al => rfl
    | applyValue v => unfold Attr.change; dsimp only; cases valid v <;> rfl

/-- **C120** whatever was done to an attribute, its time stamp is the one given when its value was last set, or else that of the
time it was set -/
theorem stamp_of_last_set {V : Type} (valid : V → Option V) (a : Attr V) (before after : List (Change V)) {v w : V} (hv : valid v = some w)
    (alarm : Option (Option String)) (stamp : Option Stamp) (now : ℚ) (ha : ∀ c ∈ after, ¬ Sets valid c) :
    (stamp = none → (a.changes valid (before ++ .setValue v alarm stamp now :: after)).stamp = Stamp.ofTime now)
    ∧ ∀ s, stamp = some s → (a.changes valid (before ++ .setValue v alarm stamp now :: after)).stamp = s := by
  rw [changes_append]
  have h := stamp_kept valid after ((a.changes valid before).change valid (.setValue v alarm stamp now)) ha
  change ((((a.changes valid before).change valid (.setValue v alarm stamp now)).changes valid after).stamp = _) at h
  constructor
  · rintro rfl
    change (((a.changes valid before).change valid _).changes valid after).stamp = _
    rw [h]; simp [Attr.change, hv]
  · rintro s rfl
    change (((a.changes valid before).change valid _).changes valid after).stamp = _
    rw [h]; simp [Attr.change, hv]

/-- setting a value clears an alarm, unless one is given; and a value that is refused changes nothing -/
theorem set_clears_alarm {V : Type} (valid : V → Option V) (a : Attr V) (v : V) (alarm : Option (Option String)) (stamp : Option Stamp) (now : ℚ) :
    (∀ w, valid v = some w → (a.change valid (.setValue v alarm stamp now)).value = w
      ∧ (alarm = none → (a.change valid (.setValue v alarm stamp now)).alarm = none)
      ∧ ∀ x, alarm = some x → (a.change valid (.setValue v alarm stamp now)).alarm = x)
    ∧ (valid v = none → a.change valid (.setValue v alarm stamp now) = a) := by
  refine ⟨fun w hw => ?_, fun hn => by simp [Attr.change, hn]⟩
  simp only [Attr.change, hw]
  exact ⟨trivial, fun h => by rw [h], fun x h => by rw [h]⟩

/-! ### examples and disagreements -/

/-- numbers up to a limit, 0 if not given -/
def ex : Ext Nat Nat := { validate := fun m v => if v ≤ m then some v else none, missing := fun _ => some 0, asMap := fun _ => none, isNone := fun _ => false }

theorem ex_stable : Stable ex := by
  intro m v w h
  simp only [ex] at h ⊢
  split at h
  · cases h; simp_all
  · cases h

theorem ex_defaults : Defaults ex := fun _ => ⟨0, rfl⟩

/-- a method taking `a` and optionally `b`, giving one number -/
def exTakes : MapMeta Nat := { elements := [("a", 10), ("b", 5)], required := ["a"] }

/-- one number -/
def exReturns : MapMeta Nat := { elements := [("return", 7)], required := ["return"] }

theorem ex_wf : WF exTakes ∧ WF exReturns := by
  unfold WF exTakes exReturns; decide

/-- a call is put between another that is still running and one that ends before it, and is recorded -/
example : ∃ w, start ex exTakes exReturns true true = some w ∧
    (let w2 := run ex w [.post [("a", 1)] 5, .post [("b", 2), ("a", 3)] 6, .post [("a", 4)] 7, .finish 2 (.raised "no") 8, .finish 1 (.value 6) 9]
     w2.method.took.value = [("a", 3), ("b", 2)] ∧ w2.method.took.present = ["a", "b"] ∧ w2.method.returned.value = [("return", 6)]
     ∧ w2.method.returned.alarm = none ∧ w2.method.took.stamp = Stamp.ofTime 6 ∧ w2.method.returned.stamp = Stamp.ofTime 9) :=
  ⟨_, rfl, rfl, rfl, rfl, rfl, rfl, rfl⟩

example : ∀ ev ∈ ([.post [("a", 4)] 7, .finish 2 (.raised "no") 8] : List (Ev Nat Nat)), Leaves 1 ev := by
  simp [Leaves]

example : Clocked (M := Nat) (V := Nat) 1 [.post [("a", 1)] 5, .writeable false, .finish 0 (.value 2) 5] := by
  simp [Clocked]
  try norm_num

/-- the record can be of two calls: what the second was given, and what the first gave, at a time before the second came -/
theorem mixed_record : ∃ w, start ex exTakes exReturns true true = some w ∧
    (let w2 := run ex w [.post [("a", 1)] 5, .finish 0 (.value 6) 6, .post [("a", 3)] 7, .finish 1 (.value 99) 8]
     w2.method.took.value = [("a", 3), ("b", 0)] ∧ w2.method.took.stamp = Stamp.ofTime 7
     ∧ w2.method.returned.value = [("return", 6)] ∧ w2.method.returned.alarm = none ∧ w2.method.returned.stamp = Stamp.ofTime 6
     ∧ (w2.calls.map (fun c => c.over)) = [some (.value 6, .result 6), some (.value 99, .badRecord)]) :=
  ⟨_, rfl, rfl, rfl, rfl, rfl, rfl, rfl⟩

/-- a call that succeeds with a result as described is answered with an error, and leaves no record, if the method is described anew while it runs -/
theorem success_as_error : ∃ w, start ex exTakes exReturns true true = some w ∧
    (let w2 := run ex w [.post [("b", 2), ("a", 1)] 5, .redescribe { elements := [("a", 10)], required := ["a"] } exReturns, .finish 0 (.value 6) 6]
     w2.calls.map (fun c => c.over) = [some (.value 6, .badRecord)] ∧ w2.method.took.stamp = Stamp.zero ∧ w2.method.returned.stamp = Stamp.zero) :=
  ⟨_, rfl, rfl, rfl, rfl⟩

/-- the reason of a failure is lost in the same way -/
theorem failure_hidden : ∃ w, start ex exTakes exReturns true true = some w ∧
    (let w2 := run ex w [.post [("b", 2), ("a", 1)] 5, .redescribe { elements := [("a", 10)], required := ["a"] } exReturns, .finish 0 (.raised "no") 6]
     w2.calls.map (fun c => c.over) = [some (.raised "no", .badRecord)] ∧ w2.method.returned.alarm = none) :=
  ⟨_, rfl, rfl, rfl⟩

/-- the record is of the last call to end, which need not be the last that came -/
theorem last_to_end : ∃ w, start ex exTakes exReturns true true = some w ∧
    (let w2 := run ex w [.post [("a", 1)] 5, .post [("a", 2)] 6, .finish 1 (.value 4) 7, .finish 0 (.value 3) 8]
     w2.method.took.value = [("a", 1), ("b", 0)] ∧ w2.method.returned.value = [("return", 3)]) :=
  ⟨_, rfl, rfl, rfl⟩

/-- an alarm, or a value that comes without a time, leaves the time stamp of the value before -/
theorem change_without_stamp : ((⟨1, none, Stamp.zero⟩ : Attr Nat).changes some [.setAlarm (some "bad"), .applyValue 2]) = ⟨2, some "bad", Stamp.zero⟩ := rfl

example : ((⟨1, some "bad", Stamp.zero⟩ : Attr Nat).changes some [.setValue 2 none (some ⟨3, 4⟩) 9, .setAlarm (some "off")]) = ⟨2, some "off", ⟨3, 4⟩⟩ := rfl

/-- A call is taken exactly if the method may be called now and what is given fits its description; a call that is refused leaves no trace, and
one that is taken none either before it ends. -/
theorem taken_iff (e : Ext M V) (w : World M V) (params : List (String × V)) (now : ℚ) :
    ((step e w (.post params now)).calls.length = w.calls.length + 1 ↔
      w.method.writeable = true ∧ ∃ args, w.method.takes.validate e params false = some args)
    ∧ ((step e w (.post params now)).calls.length ≠ w.calls.length + 1 → step e w (.post params now) = w)
    ∧ (step e w (.post params now)).method = w.method := by
  simp only [step]
  cases hw : w.method.writeable <;> cases hv : w.method.takes.validate e params false <;> simp

end Verif.Props.CallLog
