import Verif.Spec.CallLog
import Verif.Proofs.PyDict
/-! Lemmas for C120. -/
namespace Verif.Proofs.CallLog
open Verif Verif.CallLog Verif.Spec.CallLog

variable {M V : Type}

theorem loop_get (e : Ext M V) (given : Dict String V) (am : Bool) : ∀ (el : Dict String M) (r : Dict String V),
    validateLoop e given am el = some r → ∀ k, Dict.get? r k = (Dict.get? el k).bind (fun x => match Dict.get? given k with
      | some v => e.validate x v
      | none => if am then e.missing x else none)
  | [], r, h, k => by simp only [validateLoop, Option.some.injEq] at h; subst h; rfl
  | (k', x) :: rest, r, h, k => by
    unfold validateLoop at h
    rw [Dict.get?_cons]
    cases hg : Dict.get? given k' with
    | some v =>
      rw [hg] at h; dsimp only at h
      cases hv : e.validate x v with
      | none => rw [hv] at h; simp at h
      | some y =>
        cases hl : validateLoop e given am rest with
        | none => rw [hv, hl] at h; simp at h
        | some r' =>
          rw [hv, hl] at h; simp only [Option.some.injEq] at h; subst h
          rw [Dict.get?_cons]
          by_cases hk : k' = k
          · subst hk; simp [hg, hv]
          · simp only [hk, if_false]; exact loop_get e given am rest r' hl k
    | none =>
      rw [hg] at h; dsimp only at h
      cases am with
      | true =>
        simp only [if_true] at h
        cases hv : e.missing x with
        | none => rw [hv] at h; simp at h
        | some y =>
          cases hl : validateLoop e given true rest with
          | none => rw [hv, hl] at h; simp at h
          | some r' =>
            rw [hv, hl] at h; simp only [Option.some.injEq] at h; subst h
            rw [Dict.get?_cons]
            by_cases hk : k' = k
            · subst hk; simp [hg, hv]
            · simp only [hk, if_false]; exact loop_get e given true rest r' hl k
      | false =>
        simp only [Bool.false_eq_true, if_false] at h
        have := loop_get e given false rest r h k
        rw [this]
        by_cases hk : k' = k
        · subst hk
          simp only [hg, if_true]
          cases Dict.get? rest k' <;> simp
        · simp [hk]

theorem loop_keys (e : Ext M V) (given : Dict String V) : ∀ (el : Dict String M) (r : Dict String V),
    validateLoop e given true el = some r → Dict.keys r = Dict.keys el
  | [], r, h => by simp only [validateLoop, Option.some.injEq] at h; subst h; rfl
  | (k', x) :: rest, r, h => by
    unfold validateLoop at h
    cases hg : Dict.get? given k' with
    | some v =>
      rw [hg] at h; dsimp only at h
      cases hv : e.validate x v with
      | none => rw [hv] at h; simp at h
      | some y =>
        cases hl : validateLoop e given true rest with
        | none => rw [hv, hl] at h; simp at h
        | some r' =>
          rw [hv, hl] at h; simp only [Option.some.injEq] at h; subst h
          have := loop_keys e given rest r' hl
          simp only [Dict.keys, List.map_cons] at this ⊢; rw [this]
    | none =>
      rw [hg] at h; simp only [if_true] at h
      cases hv : e.missing x with
      | none => rw [hv] at h; simp at h
      | some y =>
        cases hl : validateLoop e given true rest with
        | none => rw [hv, hl] at h; simp at h
        | some r' =>
          rw [hv, hl] at h; simp only [Option.some.injEq] at h; subst h
          have := loop_keys e given rest r' hl
          simp only [Dict.keys, List.map_cons] at this ⊢; rw [this]

theorem loop_total (e : Ext M V) (hd : Defaults e) (given : Dict String V) : ∀ (el : Dict String M),
    (∀ k x v, (k, x) ∈ el → Dict.get? given k = some v → ∃ w, e.validate x v = some w) →
    ∃ r, validateLoop e given true el = some r
  | [], _ => ⟨[], rfl⟩
  | (k, x) :: rest, h => by
    obtain ⟨r, hr⟩ := loop_total e hd given rest (fun k' x' v hm hg => h k' x' v (List.mem_cons_of_mem _ hm) hg)
    unfold validateLoop
    cases hg : Dict.get? given k with
    | some v =>
      obtain ⟨w, hw⟩ := h k x v (List.mem_cons_self ..) hg
      exact ⟨(k, w) :: r, by simp [hw, hr]⟩
    | none =>
      obtain ⟨w, hw⟩ := hd x
      exact ⟨(k, w) :: r, by simp [hw, hr]⟩

theorem keys_iff {W : Type} (d : Dict String W) (k : String) : k ∈ Dict.keys d ↔ ∃ v, Dict.get? d k = some v := by
  have h := Dict.get?_none_iff (d := d) (k := k)
  cases hg : Dict.get? d k with
  | none => simp [h.mp hg]
  | some v =>
    constructor
    · intro _; exact ⟨v, rfl⟩
    · intro _; by_cases hk : k ∈ Dict.keys d
      · exact hk
      · rw [h.mpr hk] at hg; cases hg

theorem validate_parts {e : Ext M V} {m : MapMeta M} {given args : Dict String V} {am : Bool} (h : m.validate e given am = some args) :
    (∀ k ∈ Dict.keys given, k ∈ Dict.keys m.elements) ∧ validateLoop e given am m.elements = some args
    ∧ ∀ k ∈ m.required, k ∈ Dict.keys args := by
  unfold MapMeta.validate at h
  split at h
  · rename_i h1
    cases hl : validateLoop e given am m.elements with
    | none => rw [hl] at h; cases h
    | some r =>
      rw [hl] at h; dsimp only at h
      split at h
      · rename_i h2
        cases h
        exact ⟨by simpa using h1, rfl, by simpa using h2⟩
      · cases h
  · cases h

/-- a validated map, with what is missing added, is what a log shows -/
theorem shows_of {e : Ext M V} {m : MapMeta M} {given args : Dict String V} (h : m.validate e given true = some args)
    (alarm : Option String) (s : Stamp) :
    Shows e m given { value := args, present := presentOf m.elements given, alarm := alarm, stamp := s } := by
  obtain ⟨h1, h2, _⟩ := validate_parts h
  have hg := loop_get e given true m.elements args h2
  refine ⟨loop_keys e given _ _ h2, fun k x v hx hv => ?_, fun k x hx hv => ?_, fun k => ?_⟩
  · have := hg k; simpa [hx, hv] using this
  · have := hg k; simpa [hx, hv] using this
  · simp only [presentOf, List.mem_filter, decide_eq_true_eq]
    exact ⟨fun h => h.2, fun h => ⟨h1 k h, h⟩⟩

theorem validate_total {e : Ext M V} (hd : Defaults e) {m : MapMeta M} (hw : WF m) {d : Dict String V} (hf : Fits e m d) :
    ∃ r, m.validate e d true = some r := by
  obtain ⟨r, hr⟩ := loop_total e hd d m.elements (fun k x v hm hg => by
    obtain ⟨x', w, h1, h2⟩ := hf k v hg
    have := Dict.get?_of_mem_nodup hw.1 hm
    rw [this] at h1; cases h1; exact ⟨w, h2⟩)
  refine ⟨r, ?_⟩
  unfold MapMeta.validate
  have h1 : (Dict.keys d).all (fun k => decide (k ∈ Dict.keys m.elements)) = true := by
    simp only [List.all_eq_true, decide_eq_true_eq]
    intro k hk
    obtain ⟨v, hv⟩ := (keys_iff _ _).mp hk
    obtain ⟨x, _, hx, _⟩ := hf k v hv
    exact (keys_iff _ _).mpr ⟨x, hx⟩
  have h2 : m.required.all (fun k => decide (k ∈ Dict.keys r)) = true := by
    simp only [List.all_eq_true, decide_eq_true_eq]
    intro k hk
    rw [loop_keys e d _ _ hr]; exact hw.2 k hk
  simp [h1, hr, h2]

/-- what can be validated fits -/
theorem fits_of_validate {e : Ext M V} {m : MapMeta M} {d r : Dict String V} (h : m.validate e d true = some r) : Fits e m d := by
  obtain ⟨h1, h2, _⟩ := validate_parts h
  intro k v hv
  have hk := h1 k ((keys_iff _ _).mpr ⟨v, hv⟩)
  obtain ⟨x, hx⟩ := (keys_iff _ _).mp hk
  rw [← loop_keys e d _ _ h2] at hk
  obtain ⟨w, hw⟩ := (keys_iff _ _).mp hk
  have := loop_get e d true _ _ h2 k
  simp only [hx, hv, hw, Option.bind_some] at this
  exact ⟨x, w, hx, this.symm⟩

/-- arguments that have been accepted fit -/
theorem fits_of_accepted {e : Ext M V} (hs : Stable e) {m : MapMeta M} {params args : Dict String V}
    (h : m.validate e params false = some args) : Fits e m args ∧ Dict.keys args = (Dict.keys m.elements).filter (fun k => decide (k ∈ Dict.keys params))
    := by
  obtain ⟨_, h2, _⟩ := validate_parts h
  have hk : ∀ (el : Dict String M) (r : Dict String V), validateLoop e params false el = some r →
      Dict.keys r = (Dict.keys el).filter (fun k => decide (k ∈ Dict.keys params)) := by
    intro el
    induction el with
    | nil => intro r hr; simp only [validateLoop, Option.some.injEq] at hr; subst hr; rfl
    | cons a rest ih =>
      obtain ⟨k, x⟩ := a
      intro r hr
      unfold validateLoop at hr
      cases hg : Dict.get? params k with
      | some v =>
        rw [hg] at hr; dsimp only at hr
        have hin : k ∈ Dict.keys params := (keys_iff _ _).mpr ⟨v, hg⟩
        cases hv : e.validate x v with
        | none => rw [hv] at hr; simp at hr
        | some y =>
          cases hl : validateLoop e params false rest with
          | none => rw [hv, hl] at hr; simp at hr
          | some r' =>
            rw [hv, hl] at hr; simp only [Option.some.injEq] at hr; subst hr
            have := ih r' hl
            change k :: Dict.keys r' = List.filter _ (k :: Dict.keys rest)
            rw [List.filter_cons, if_pos (decide_eq_true hin), this]
      | none =>
        rw [hg] at hr; simp only [Bool.false_eq_true, if_false] at hr
        have hin : k ∉ Dict.keys params := Dict.get?_none_iff.mp hg
        have := ih r hr
        rw [this]
        change _ = List.filter _ (k :: Dict.keys rest)
        rw [List.filter_cons, if_neg (fun h => hin (of_decide_eq_true h))]
  have hkeys := hk _ _ h2
  refine ⟨?_, hkeys⟩
  intro k v hg
  rw [loop_get e params false _ _ h2 k] at hg
  cases hx : Dict.get? m.elements k with
  | none => rw [hx] at hg; cases hg
  | some x =>
    rw [hx] at hg; simp only [Option.bind_some, Bool.false_eq_true, if_false] at hg
    cases hp : Dict.get? params k with
    | none => rw [hp] at hg; cases hg
    | some p => rw [hp] at hg; exact ⟨x, v, rfl, hs _ _ _ hg⟩

/-! ### the record -/

theorem gave_of {e : Ext M V} {m : Method M V} {res : Result V} {d : Dict String V} :
    returnedValue e m res = some d ↔ Gave e m.unpacked res d := by
  cases res with
  | raised s => simp only [returnedValue, Gave, Option.some.injEq]; exact eq_comm
  | value v =>
    unfold returnedValue Gave
    cases m.unpacked with
    | true => simp; exact eq_comm
    | false =>
      by_cases hn : e.isNone v = true
      · simp [hn, eq_comm]
      · simp [hn]

theorem updateLogs_true {e : Ext M V} {m m' : Method M V} {args : Dict String V} {start : Stamp} {res : Result V} {now : ℚ}
    (h : updateLogs e m args start res now = (m', true)) :
    ∃ d, Gave e m.unpacked res d
      ∧ Shows e m.takes args m'.took ∧ m'.took.alarm = none ∧ m'.took.stamp = start
      ∧ Shows e m.returns d m'.returned ∧ AlarmOf res m'.returned.alarm ∧ m'.returned.stamp = Stamp.ofTime now
      ∧ m'.takes = m.takes ∧ m'.returns = m.returns ∧ m'.unpacked = m.unpacked ∧ m'.writeable = m.writeable := by
  unfold updateLogs at h
  cases h1 : logTook e m args start with
  | none => rw [h1] at h; simp at h
  | some m1 =>
    rw [h1] at h; dsimp only at h
    cases h2 : logReturned e m1 (returnedValue e m res) (returnedAlarm res) now with
    | none => rw [h2] at h; simp at h
    | some m2 =>
      rw [h2] at h; simp only [Prod.mk.injEq, and_true] at h; subst h
      unfold logTook at h1
      cases ht : m.takes.validate e args true with
      | none => rw [ht] at h1; cases h1
      | some t =>
        rw [ht] at h1; simp only [Option.some.injEq] at h1; subst h1
        cases hv : returnedValue e m res with
        | none => rw [hv] at h2; simp [logReturned] at h2
        | some d =>
          rw [hv] at h2
          unfold logReturned at h2
          dsimp only at h2
          cases hr : m.returns.validate e d true with
          | none => rw [hr] at h2; cases h2
          | some r =>
            rw [hr] at h2; simp only [Option.some.injEq] at h2; subst h2
            refine ⟨d, gave_of.mp hv, shows_of ht none start, rfl, rfl, shows_of hr _ _, ?_, rfl, rfl, rfl, rfl, rfl⟩
            cases res <;> rfl

theorem updateLogs_kept (e : Ext M V) (m : Method M V) (args : Dict String V) (start : Stamp) (res : Result V) (now : ℚ) :
    (updateLogs e m args start res now).1.takes = m.takes ∧ (updateLogs e m args start res now).1.returns = m.returns
    ∧ (updateLogs e m args start res now).1.unpacked = m.unpacked ∧ (updateLogs e m args start res now).1.writeable = m.writeable := by
  unfold updateLogs logTook
  cases m.takes.validate e args true with
  | none => exact ⟨rfl, rfl, rfl, rfl⟩
  | some t =>
    dsimp only
    unfold logReturned
    cases returnedValue e m res with
    | none => exact ⟨rfl, rfl, rfl, rfl⟩
    | some d =>
      dsimp only
      cases m.returns.validate e d true <;> exact ⟨rfl, rfl, rfl, rfl⟩

theorem updateLogs_fits {e : Ext M V} (hd : Defaults e) {m : Method M V} (ht : WF m.takes) (hr : WF m.returns) {args d : Dict String V}
    (start : Stamp) {res : Result V} (now : ℚ) (ha : Fits e m.takes args) (hg : Gave e m.unpacked res d) (hf : Fits e m.returns d) :
    ∃ m', updateLogs e m args start res now = (m', true) := by
  obtain ⟨t, h1⟩ := validate_total hd ht ha
  obtain ⟨r, h2⟩ := validate_total hd hr hf
  have h3 := gave_of.mpr hg
  unfold updateLogs logTook
  rw [h1]
  simp only [h3, logReturned, h2]
  exact ⟨_, rfl⟩

theorem blank_wf {e : Ext M V} (hd : Defaults e) {m : MapMeta M} (hw : WF m) :
    ∃ l, blank e m = some l ∧ Shows e m [] l ∧ l.alarm = none ∧ l.stamp = Stamp.zero := by
  obtain ⟨r, hr⟩ := validate_total hd hw (d := []) (fun k v h => by simp at h)
  refine ⟨_, by unfold blank; rw [hr], ?_, rfl, rfl⟩
  have := shows_of hr none Stamp.zero
  have e1 : presentOf m.elements ([] : Dict String V) = [] := by simp [presentOf, Dict.keys]
  rw [e1] at this; exact this

theorem told_reply (res : Result V) : Told res (reply res true) := by cases res <;> rfl

theorem updateLogs_true_iff {e : Ext M V} (hd : Defaults e) {m : Method M V} (ht : WF m.takes) (hr : WF m.returns) (args : Dict String V)
    (start : Stamp) (res : Result V) (now : ℚ) : (updateLogs e m args start res now).2 = true ↔
      Fits e m.takes args ∧ ∃ d, Gave e m.unpacked res d ∧ Fits e m.returns d := by
  constructor
  · intro h
    unfold updateLogs logTook at h
    cases h1 : m.takes.validate e args true with
    | none => rw [h1] at h; cases h
    | some t =>
      rw [h1] at h; dsimp only at h
      cases hv : returnedValue e m res with
      | none => rw [hv] at h; simp [logReturned] at h
      | some d =>
        rw [hv] at h
        cases h2 : m.returns.validate e d true with
        | none => simp [logReturned, h2] at h
        | some r => exact ⟨fits_of_validate h1, d, gave_of.mp hv, fits_of_validate h2⟩
  · rintro ⟨ha, d, hg, hf⟩
    obtain ⟨m', h⟩ := updateLogs_fits hd ht hr start now ha hg hf
    rw [h]

/-- the record is of nobody, or of one call -/
def Good (e : Ext M V) (w : World M V) : Prop :=
  Uncalled e w.method ∨ ∃ (i : Nat) (c : Call V), w.calls[i]? = some c ∧ Of e w.method c

structure Inv (e : Ext M V) (w : World M V) : Prop where
  takes : WF w.method.takes
  returns : WF w.method.returns
  good : AllRecorded w → Good e w

theorem redescribe_uncalled {e : Ext M V} (hd : Defaults e) {m : Method M V} {t r : MapMeta M} (ht : WF t) (hr : WF r) :
    Uncalled e (redescribe e m t r) ∧ (redescribe e m t r).takes = t ∧ (redescribe e m t r).returns = r
    ∧ (redescribe e m t r).unpacked = m.unpacked := by
  obtain ⟨a, ha, a1, a2, a3⟩ := blank_wf hd ht
  obtain ⟨b, hb, b1, b2, b3⟩ := blank_wf hd hr
  unfold redescribe
  simp only [ha, hb]
  exact ⟨⟨a1, a2, a3, b1, b2, b3⟩, trivial, trivial, trivial⟩

theorem step_inv {e : Ext M V} (hd : Defaults e) {w : World M V} (h : Inv e w) (ev : Ev M V) (hp : Proper ev) : Inv e (step e w ev) := by
  cases ev with
  | post params now =>
    simp only [step]
    split
    · split
      · exact h
      · rename_i args _
        refine ⟨h.takes, h.returns, fun ha => ?_⟩
        have hw : AllRecorded w := fun i c res hc => ha i c res (by
          have hl := (List.getElem?_eq_some_iff.mp hc).1
          rw [List.getElem?_append_left hl]; exact hc)
        rcases h.good hw with hg | ⟨i, c, hc, ho⟩
        · exact Or.inl hg
        · refine Or.inr ⟨i, c, ?_, ho⟩
          have hl := (List.getElem?_eq_some_iff.mp hc).1
          rw [List.getElem?_append_left hl]; exact hc
    · exact h
  | finish i res now =>
    simp only [step]
    cases hc : w.calls[i]? with
    | none => exact h
    | some c =>
      dsimp only
      cases hov : c.over with
      | some _ => exact h
      | none =>
        dsimp only
        have hl := (List.getElem?_eq_some_iff.mp hc).1
        have hk := updateLogs_kept e w.method c.args c.start res now
        refine ⟨by rw [hk.1]; exact h.takes, by rw [hk.2.1]; exact h.returns, fun ha => ?_⟩
        cases hu : updateLogs e w.method c.args c.start res now with
        | mk m' b =>
          rw [hu] at ha
          cases b with
          | false =>
            exfalso
            refine ha i { c with over := some (res, reply res false) } res ?_ rfl
            simp [hl]
          | true =>
            obtain ⟨d, g1, g2, g3, g4, g5, g6, _, k1, k2, k3, _⟩ := updateLogs_true hu
            refine Or.inr ⟨i, { c with over := some (res, reply res true) }, by simp [hl], res, _, d, rfl, told_reply res, ?_⟩
            dsimp only
            rw [k1, k2, k3]
            exact ⟨g2, g3, g4, g1, g5, g6⟩
  | redescribe t r =>
    obtain ⟨h1, h2, h3, _⟩ := redescribe_uncalled hd (m := w.method) hp.1 hp.2
    exact ⟨by simp only [step]; rw [h2]; exact hp.1, by simp only [step]; rw [h3]; exact hp.2, fun _ => Or.inl h1⟩
  | writeable b =>
    refine ⟨h.takes, h.returns, fun ha => ?_⟩
    rcases h.good ha with hg | hg
    · exact Or.inl hg
    · exact Or.inr hg

theorem run_inv {e : Ext M V} (hd : Defaults e) : ∀ (es : List (Ev M V)) {w : World M V}, Inv e w → (∀ ev ∈ es, Proper ev) → Inv e (run e w es)
  | [], _, h, _ => h
  | ev :: es, _, h, hp => run_inv hd es (step_inv hd h ev (hp ev (List.mem_cons_self ..))) (fun x hx => hp x (List.mem_cons_of_mem _ hx))

theorem start_inv {e : Ext M V} (hd : Defaults e) {takes returns : MapMeta M} (ht : WF takes) (hr : WF returns) (u b : Bool) :
    ∃ w, start e takes returns u b = some w ∧ Inv e w ∧ w.calls = [] ∧ Uncalled e w.method := by
  obtain ⟨a, ha, a1, a2, a3⟩ := blank_wf hd ht
  obtain ⟨c, hc, c1, c2, c3⟩ := blank_wf hd hr
  refine ⟨_, by unfold start; rw [ha, hc], ⟨ht, hr, fun _ => Or.inl ⟨a1, a2, a3, c1, c2, c3⟩⟩, rfl, ⟨a1, a2, a3, c1, c2, c3⟩⟩

/-! ### a call -/

theorem leaves_step {e : Ext M V} {w : World M V} {i : Nat} {c : Call V} (hc : w.calls[i]? = some c) {ev : Ev M V} (hl : Leaves i ev) :
    (step e w ev).calls[i]? = some c ∧ (step e w ev).method.takes = w.method.takes ∧ (step e w ev).method.returns = w.method.returns
    ∧ (step e w ev).method.unpacked = w.method.unpacked := by
  cases ev with
  | post params now =>
    simp only [step]
    split
    · split
      · exact ⟨hc, rfl, rfl, rfl⟩
      · refine ⟨?_, rfl, rfl, rfl⟩
        rw [List.getElem?_append_left (List.getElem?_eq_some_iff.mp hc).1]; exact hc
    · exact ⟨hc, rfl, rfl, rfl⟩
  | finish j res now =>
    simp only [step]
    cases hj : w.calls[j]? with
    | none => exact ⟨hc, rfl, rfl, rfl⟩
    | some x =>
      dsimp only
      cases x.over with
      | some _ => exact ⟨hc, rfl, rfl, rfl⟩
      | none =>
        dsimp only
        have hk := updateLogs_kept e w.method x.args x.start res now
        refine ⟨?_, hk.1, hk.2.1, hk.2.2.1⟩
        rw [List.getElem?_set_ne hl]; exact hc
  | redescribe t r => exact absurd hl id
  | writeable b => exact ⟨hc, rfl, rfl, rfl⟩

theorem leaves_run {e : Ext M V} {i : Nat} {c : Call V} : ∀ (es : List (Ev M V)) {w : World M V}, w.calls[i]? = some c →
    (∀ ev ∈ es, Leaves i ev) →
    (run e w es).calls[i]? = some c ∧ (run e w es).method.takes = w.method.takes ∧ (run e w es).method.returns = w.method.returns
    ∧ (run e w es).method.unpacked = w.method.unpacked
  | [], _, hc, _ => ⟨hc, rfl, rfl, rfl⟩
  | ev :: es, _, hc, hl => by
    obtain ⟨h1, h2, h3, h4⟩ := leaves_step (e := e) hc (hl ev (List.mem_cons_self ..))
    obtain ⟨g1, g2, g3, g4⟩ := leaves_run es h1 (fun x hx => hl x (List.mem_cons_of_mem _ hx))
    exact ⟨g1, g2.trans h2, g3.trans h3, g4.trans h4⟩

/-! ### time -/

theorem le_refl (a : Stamp) : Le a a := Or.inr ⟨rfl, Int.le_refl _⟩

theorem le_trans' {a b c : Stamp} (h1 : Le a b) (h2 : Le b c) : Le a c := by
  unfold Le at *; omega

theorem nano_range (t : ℚ) : 0 ≤ (Stamp.ofTime t).nano ∧ (Stamp.ofTime t).nano < 1000000000 := by
  have h1 := Int.floor_le t
  have h2 := Int.lt_floor_add_one t
  constructor
  · apply Int.floor_nonneg.mpr; nlinarith
  · apply Int.floor_lt.mpr; push_cast; nlinarith

theorem ofTime_mono {a b : ℚ} (h0 : 0 ≤ a) (h : a ≤ b) : Le (Stamp.ofTime a) (Stamp.ofTime b) := by
  have hb : 0 ≤ b := h0.trans h
  have hf := Int.floor_le_floor h
  unfold Le Stamp.ofTime
  simp only [h0, hb, if_true]
  rcases lt_or_eq_of_le hf with hlt | heq
  · exact Or.inl hlt
  · refine Or.inr ⟨heq, ?_⟩
    rw [heq]
    apply Int.floor_le_floor
    nlinarith

/-- with the clock at `t`: no call has begun later, and the record ends after it began -/
structure Timed (t : ℚ) (w : World M V) : Prop where
  calls : ∀ (i : Nat) (c : Call V), w.calls[i]? = some c → Le c.start (Stamp.ofTime t)
  record : AllRecorded w → Le w.method.took.stamp w.method.returned.stamp

theorem redescribe_stamps {e : Ext M V} (hd : Defaults e) {m : Method M V} {t r : MapMeta M} (ht : WF t) (hr : WF r) :
    Le (redescribe e m t r).took.stamp (redescribe e m t r).returned.stamp := by
  obtain ⟨⟨_, _, h1, _, _, h2⟩, _⟩ := redescribe_uncalled hd (m := m) ht hr
  rw [h1, h2]; exact le_refl _

theorem run_timed {e : Ext M V} (hd : Defaults e) : ∀ (es : List (Ev M V)) {t : ℚ} {w : World M V}, 0 ≤ t → Timed t w → Clocked t es →
    (∀ ev ∈ es, Proper ev) → AllRecorded (run e w es) → Le (run e w es).method.took.stamp (run e w es).method.returned.stamp
  | [], t, w, _, h, _, _, ha => h.record ha
  | ev :: es, t, w, h0, h, hc, hp, ha => by
    have hp' := fun x hx => hp x (List.mem_cons_of_mem ev hx)
    have hpe := hp ev (List.mem_cons_self ..)
    change Le (run e (step e w ev) es).method.took.stamp (run e (step e w ev) es).method.returned.stamp
    cases ev with
    | post params now =>
      obtain ⟨hle, hc'⟩ := hc
      refine run_timed hd es (h0.trans hle) ⟨?_, ?_⟩ hc' hp' ha
      · intro i c hi
        simp only [step] at hi
        split at hi
        · split at hi
          · exact le_trans' (h.calls i c hi) (ofTime_mono h0 hle)
          · rw [List.getElem?_append] at hi
            split at hi
            · exact le_trans' (h.calls i c hi) (ofTime_mono h0 hle)
            · rw [List.getElem?_singleton] at hi
              split at hi
              · cases hi; exact le_refl _
              · cases hi
        · exact le_trans' (h.calls i c hi) (ofTime_mono h0 hle)
      · intro hr
        have hr' : AllRecorded w := fun i c res hi => hr i c res (by
          simp only [step]
          split
          · split
            · exact hi
            · rw [List.getElem?_append_left (List.getElem?_eq_some_iff.mp hi).1]; exact hi
          · exact hi)
        have := h.record hr'
        simp only [step]
        split
        · split <;> exact this
        · exact this
    | finish i res now =>
      obtain ⟨hle, hc'⟩ := hc
      refine run_timed hd es (h0.trans hle) ?_ hc' hp' ha
      have hw : Timed now w := ⟨fun j c hj => le_trans' (h.calls j c hj) (ofTime_mono h0 hle), h.record⟩
      simp only [step]
      cases hi : w.calls[i]? with
      | none => exact hw
      | some c =>
        dsimp only
        cases hov : c.over with
        | some _ => exact hw
        | none =>
          dsimp only
          have hl := (List.getElem?_eq_some_iff.mp hi).1
          refine ⟨fun j x hj => ?_, fun hr => ?_⟩
          · dsimp only at hj
            rw [List.getElem?_set] at hj
            split at hj
            · simp only [hl, if_true, Option.some.injEq] at hj
              subst hj; exact hw.calls i c hi
            · exact hw.calls j x hj
          · cases hu : updateLogs e w.method c.args c.start res now with
            | mk m' b =>
              rw [hu] at hr
              cases b with
              | false =>
                exfalso
                exact hr i { c with over := some (res, reply res false) } res (by simp [hl]) rfl
              | true =>
                obtain ⟨d, _, _, _, g4, _, _, g7, _⟩ := updateLogs_true hu
                dsimp only
                rw [g4, g7]; exact hw.calls i c hi
    | redescribe tk rt =>
      exact run_timed hd es h0 ⟨h.calls, fun _ => redescribe_stamps hd hpe.1 hpe.2⟩ hc hp' ha
    | writeable b =>
      exact run_timed hd es h0 ⟨h.calls, h.record⟩ hc hp' ha

end Verif.Proofs.CallLog
