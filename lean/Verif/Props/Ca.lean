import Verif.Spec.Ca
import Verif.Proofs.PyDict
/-!
C66, C67, C68: attributes and methods on PVs.
-/
namespace Verif.Props.Ca
open Verif.Ca Verif.Spec.Ca

variable {M V : Type}

/-! ### what is shown -/

theorem updateValue_some {validate : V → Option V} {now : Int} {a b : Attr V} {r : Reading V}
    (h : updateValue validate now a r = some b) : Says b.alarm r ∧
      (∀ x sev st, r = .got x sev st → validate x = some b.value ∧ b.stamp = st.getD now) ∧
      (r = .gone → validate a.value = some b.value) := by
  cases r with
  | gone =>
    unfold updateValue at h
    rw [Option.map_eq_some_iff] at h
    obtain ⟨v, hv, rfl⟩ := h
    exact ⟨rfl, (by intro x sev st h; cases h), fun _ => hv⟩
  | got x sev st =>
    unfold updateValue at h
    rw [Option.map_eq_some_iff] at h
    obtain ⟨v, hv, rfl⟩ := h
    refine ⟨?_, ?_, by intro h; cases h⟩
    · cases sev <;> rfl
    · intro x sev st h; cases h; exact ⟨hv, rfl⟩

/-- What a step does to the attribute -/
theorem step_attr (c : Conf M V) (s : Caa M V) (e : Ev V) :
    (match reading s e with
      | some r => if (step c s e).2 then ∃ now, updateValue (c.validate (step c s e).1.vmeta) now s.attr r = some (step c s e).1.attr
          else (step c s e).1.attr = s.attr
      | none => (step c s e).1.attr = s.attr) := by
  cases e with
  | disable => rfl
  | monitor now r =>
    unfold reading step
    by_cases hm : s.monitor
    · simp only [hm, if_true]
      generalize hu : updateValue (c.validate s.vmeta) now s.attr r = u
      cases u with
      | none => rfl
      | some a => exact ⟨now, hu⟩
    · simp only [hm]
      rfl
  | put now done =>
    unfold reading step
    match done with
    | none => rfl
    | some none => rfl
    | some (some r) =>
      simp only
      generalize hu : updateValue (c.validate s.vmeta) now s.attr r = u
      cases u with
      | none => rfl
      | some a => exact ⟨now, hu⟩
  | reconnect now readings =>
    unfold reading step
    match readings with
    | none => rfl
    | some (r, rs) =>
      simp only
      split
      · rfl
      · generalize c.onConnect s.vmeta r = o
        cases o with
        | none => rfl
        | some m =>
          simp only
          generalize hu : updateValue (c.validate m) now s.attr r = u
          cases u with
          | none => rfl
          | some a => exact ⟨now, hu⟩

theorem taken_cons (c : Conf M V) (s : Caa M V) (e : Ev V) (es : List (Ev V)) : taken c s (e :: es) =
    taken c s [e] ++ taken c (step c s e).1 es := by
  simp [taken]

theorem taken_one (c : Conf M V) (s : Caa M V) (e : Ev V) :
    (taken c s [e] = [] ∧ (step c s e).1.attr = s.attr) ∨
    ∃ r now, taken c s [e] = [((step c s e).1.vmeta, r)] ∧
      updateValue (c.validate (step c s e).1.vmeta) now s.attr r = some (step c s e).1.attr := by
  have h := step_attr c s e
  unfold taken
  cases hr : reading s e with
  | none => rw [hr] at h; exact .inl ⟨rfl, h⟩
  | some r =>
    rw [hr] at h
    simp only at h ⊢
    by_cases hb : (step c s e).2
    · rw [if_pos hb] at h ⊢
      obtain ⟨now, h⟩ := h
      exact .inr ⟨r, now, rfl, h⟩
    · rw [if_neg hb] at h ⊢
      exact .inl ⟨rfl, h⟩

/-- **C66**: whatever happens, the alarm of the attribute says what the last reading said: no alarm, the severity of
the PV, or that the PV is disconnected. -/
theorem alarm_says (c : Conf M V) : ∀ (evs : List (Ev V)) (s : Caa M V) (l : List (M × Reading V)) (m : M) (r : Reading V),
    taken c s evs = l ++ [(m, r)] → Says (run c s evs).attr.alarm r := by
  intro evs
  induction evs with
  | nil => intro s l m r h; simp [taken] at h
  | cons e es ih =>
    intro s l m r h
    rw [taken_cons] at h
    show Says (run c (step c s e).1 es).attr.alarm r
    rcases List.eq_nil_or_concat (taken c (step c s e).1 es) with h0 | ⟨l', x, h1⟩
    · rw [h0, List.append_nil] at h
      have keep : ∀ (es : List (Ev V)) (s : Caa M V), taken c s es = [] → (run c s es).attr = s.attr := by
        intro es
        induction es with
        | nil => intro s _; rfl
        | cons e es ih2 =>
          intro s h
          rw [taken_cons, List.append_eq_nil_iff] at h
          show (run c (step c s e).1 es).attr = s.attr
          rw [ih2 _ h.2]
          rcases taken_one c s e with ⟨_, h2⟩ | ⟨r, now, h2, _⟩
          · exact h2
          · rw [h2] at h; cases h.1
      rw [keep _ _ h0]
      rcases taken_one c s e with ⟨h2, _⟩ | ⟨r', now, h2, h3⟩
      · rw [h2] at h; simp at h
      · rw [h2] at h
        have h' : l = [] ∧ r' = r := by
          cases l with
          | nil => simp at h; exact ⟨rfl, h.2⟩
          | cons y l => simp at h
        obtain ⟨_, rfl⟩ := h'
        exact (updateValue_some h3).1
    · obtain ⟨m', r'⟩ := x
      rw [List.concat_eq_append] at h1
      rw [h1, ← List.append_assoc] at h
      have := List.append_inj_right' h rfl
      simp only [List.cons.injEq, Prod.mk.injEq, and_true] at this
      obtain ⟨rfl, rfl⟩ := this
      exact ih _ _ _ _ h1

theorem lastValue_append (l l' : List (M × Reading V)) : lastValue (l ++ l') =
    match lastValue l' with | some x => some x | none => lastValue l := by
  induction l with
  | nil => simp only [List.nil_append, lastValue]; cases lastValue l' <;> rfl
  | cons x l ih =>
    obtain ⟨m, r⟩ := x
    simp only [List.cons_append, lastValue, ih]
    cases lastValue l' <;> rfl

/-- **C66**: whatever happens, the value of the attribute is the last value read, as the meta of that time makes it,
also while the PV is disconnected and after updates that the meta refused; and it is the value that it had at first if
none was read. -/
theorem value_shown (c : Conf M V) (hc : Canonical c.validate) : ∀ (evs : List (Ev V)) (s : Caa M V),
    (∀ m x, lastValue (taken c s evs) = some (m, x) → c.validate m x = some (run c s evs).attr.value) ∧
    (lastValue (taken c s evs) = none → (∃ m v, c.validate m v = some s.attr.value) →
      (run c s evs).attr.value = s.attr.value) := by
  intro evs
  induction evs with
  | nil => intro s; exact ⟨(by intro m x h; cases h), fun _ _ => rfl⟩
  | cons e es ih =>
    intro s
    obtain ⟨ih1, ih2⟩ := ih (step c s e).1
    rw [taken_cons, lastValue_append]
    show (∀ m x, _ → c.validate m x = some (run c (step c s e).1 es).attr.value) ∧ (_ → _ → (run c (step c s e).1 es).attr.value = _)
    cases hl : lastValue (taken c (step c s e).1 es) with
    | some y =>
      obtain ⟨m', x'⟩ := y
      simp only
      refine ⟨?_, by intro h; cases h⟩
      intro m x h
      cases h
      exact ih1 _ _ hl
    | none =>
      simp only
      rcases taken_one c s e with ⟨h2, h3⟩ | ⟨r, now, h2, h3⟩
      · rw [h2]
        refine ⟨(by intro m x h; cases h), fun _ hs => ?_⟩
        rw [ih2 hl (by rw [h3]; exact hs), h3]
      · obtain ⟨_, h4, h5⟩ := updateValue_some h3
        rw [h2]
        cases r with
        | gone =>
          refine ⟨(by intro m x h; cases h), fun _ hs => ?_⟩
          have h6 := h5 rfl
          obtain ⟨m, v, hs'⟩ := hs
          have h7 := hc _ _ _ _ _ hs' h6
          rw [ih2 hl ⟨_, _, h6⟩, h7]
        | got v sev st =>
          have h6 := (h4 v sev st rfl).1
          refine ⟨?_, by intro h; cases h⟩
          intro m x h
          cases h
          rw [ih2 hl ⟨_, _, h6⟩]
          exact h6

/-- **C66**: a part that has been initialised or reset without an exception and was not disabled since is monitoring its
PV, so that what the PV does next is shown; if the init or reset failed (and the block is in Fault), or since it was
disabled, it is not, and nothing but a put changes the attribute. -/
theorem monitored (c : Conf M V) (s : Caa M V) (e : Ev V) : (step c s e).1.monitor =
    match e with
    | .reconnect _ _ => (step c s e).2
    | .disable => false
    | _ => s.monitor := by
  cases e with
  | disable => rfl
  | monitor now r =>
    unfold step
    by_cases hm : s.monitor
    · simp only [hm, if_true]
      cases updateValue (c.validate s.vmeta) now s.attr r <;> simp [hm]
    · simp [hm]
  | put now done =>
    unfold step
    match done with
    | none => rfl
    | some none => rfl
    | some (some r) =>
      simp only
      cases updateValue (c.validate s.vmeta) now s.attr r <;> rfl
  | reconnect now readings =>
    unfold step
    match readings with
    | none => rfl
    | some (r, rs) =>
      simp only
      split
      · rfl
      · cases c.onConnect s.vmeta r with
        | none => rfl
        | some m =>
          simp only
          cases updateValue (c.validate m) now s.attr r <;> rfl

/-- **C66**: while there is no monitor, and no put or reset, nothing changes what is shown. -/
theorem quiet_when_disabled (c : Conf M V) (evs : List (Ev V)) (h : ∀ e ∈ evs, ∃ now r, e = .monitor now r) :
    ∀ s : Caa M V, s.monitor = false → run c s evs = s := by
  induction evs with
  | nil => intro s _; rfl
  | cons e es ih =>
    intro s hs
    obtain ⟨now, r, rfl⟩ := h _ List.mem_cons_self
    have h1 : (step c s (.monitor now r)).1 = s := by
      simp [step, hs]
    show run c (step c s (.monitor now r)).1 es = s
    rw [h1]
    exact ih (fun e he => h e (List.mem_cons_of_mem _ he)) s hs

/-- **C66**: with `throw`, a part whose PV is not connected fails to initialise. -/
theorem not_connected_fails (c : Conf M V) (s : Caa M V) (now : Int) (r : Reading V) (rs : List (Reading V))
    (ht : c.throw = true) (hg : Reading.gone ∈ r :: rs) : (step c s (.reconnect now (some (r, rs)))).2 = false := by
  unfold step
  simp only
  rw [if_pos]
  rw [ht, Bool.true_and, List.any_eq_true]
  exact ⟨_, hg, rfl⟩

/-- **C66**: a put returns without an exception exactly if the PV took it and its readback could be read and is shown now. -/
theorem put_returns_iff (c : Conf M V) (s : Caa M V) (now : Int) (done : Option (Option (Reading V))) :
    (step c s (.put now done)).2 = true ↔
      ∃ r a, done = some (some r) ∧ updateValue (c.validate s.vmeta) now s.attr r = some a ∧ (step c s (.put now done)).1.attr = a := by
  constructor
  · intro h
    match done with
    | none => cases h
    | some none => cases h
    | some (some r) =>
      cases hu : updateValue (c.validate s.vmeta) now s.attr r with
      | none => simp [step, hu] at h
      | some a => exact ⟨r, a, rfl, hu, by simp [step, hu]⟩
  · rintro ⟨r, a, rfl, hu, -⟩
    simp [step, hu]

/-- **C66**: without `throw`, and with values the meta takes, initialising works even if the PV is not connected. -/
theorem connects (c : Conf M V) (s : Caa M V) (now : Int) (r : Reading V) (rs : List (Reading V)) (m : M) (a : Attr V)
    (ht : c.throw = false ∨ Reading.gone ∉ r :: rs) (hm : c.onConnect s.vmeta r = some m)
    (ha : updateValue (c.validate m) now s.attr r = some a) :
    step c s (.reconnect now (some (r, rs))) = ({ vmeta := m, attr := a, monitor := true }, true) := by
  have hno : (c.throw && (r :: rs).any isGone) = false := by
    rcases ht with ht | ht
    · rw [ht, Bool.false_and]
    · rw [Bool.and_eq_false_iff]
      right
      rw [List.any_eq_false]
      intro x hx
      cases x with
      | gone => exact absurd hx ht
      | got _ _ _ => simp [isGone]
  unfold step
  simp only [hno, hm, ha, Bool.false_eq_true, if_false]

/-- **C66**: the choice that is put is the one at the index written to the PV. -/
theorem choice_put (choices : List String) (v : String) :
    (∀ i, choicePut choices v = some i → choices[i]? = some v) ∧ (choicePut choices v = none ↔ v ∉ choices) := by
  unfold choicePut
  by_cases h : v ∈ choices
  · rw [if_pos h]
    refine ⟨?_, by simp [h]⟩
    intro i hi
    cases hi
    have hl : choices.findIdx (· == v) < choices.length := List.findIdx_lt_length_of_exists ⟨v, h, by simp⟩
    rw [List.getElem?_eq_getElem hl]
    have := List.findIdx_getElem (p := (· == v)) (w := hl)
    simpa using this
  · rw [if_neg h]
    exact ⟨(by intro i hi; cases hi), by simp [h]⟩

/-! ### how often -/

theorem pace_bounds {md after now : Int} (hmd : 0 ≤ md) (ha : after ≤ now + md) : 
    now ≤ (pace md after now).1 ∧ (pace md after now).1 ≤ now + md ∧ after ≤ (pace md after now).1 ∧
    0 ≤ (pace md after now).2 ∧ (now < after → (pace md after now).1 = after ∧ now + (pace md after now).2 = after) ∧
    (¬ now < after → after + md ≤ (pace md after now).1) := by
  unfold pace
  simp only
  split
  · refine ⟨by omega, by omega, by omega, by omega, by omega, by omega⟩
  · split
    · refine ⟨by omega, by omega, by omega, by omega, fun _ => ⟨rfl, by omega⟩, by omega⟩
    · refine ⟨by omega, by omega, by omega, by omega, by omega, by omega⟩

/-- the potential: while callbacks run from `after`, at times up to `last` -/
theorem pace_count {md : Int} (hmd : 0 < md) : ∀ (ts : List Int) (after free last : Int), after ≤ free + md →
    Serial md after free ts → (∀ t ∈ ts, t ≤ last) → free ≤ last →
    (ts.length : Int) * md ≤ 2 * (last + md - after) + md ∧
    (after ≤ free → (ts.length : Int) * md ≤ 2 * (last + md - after)) := by
  intro ts
  induction ts with
  | nil =>
    intro after free last ha _ _ hf
    simp only [List.length_nil, Int.natCast_zero, Int.zero_mul]
    omega
  | cons t ts ih =>
    intro after free last ha hs hl hf
    unfold Serial at hs
    rw [paceAll] at hs
    by_cases hft : free ≤ t
    · rw [if_pos hft] at hs
      simp only at hs
      obtain ⟨b1, b2, b3, b4, b5, b6⟩ := pace_bounds (after := after) (now := t) (Int.le_of_lt hmd) (by omega)
      have htl : t ≤ last := hl t List.mem_cons_self
      have hl' : ∀ t' ∈ ts, t' ≤ last := fun t' h => hl t' (List.mem_cons_of_mem _ h)
      have hlen : ((t :: ts).length : Int) * md = (ts.length : Int) * md + md := by
        simp [List.length_cons, Int.add_mul]
      rw [hlen]
      by_cases hta : t < after
      · obtain ⟨e1, e2⟩ := b5 hta
        rw [e1, e2] at hs
        by_cases hal : after ≤ last
        · have h := ih after after last (by omega) hs hl' hal
          refine ⟨by have := h.2 (Int.le_refl _); omega, by omega⟩
        · have h0 : ts = [] := by
            cases ts with
            | nil => rfl
            | cons t' ts =>
              rw [paceAll] at hs
              by_cases h : after ≤ t'
              · have := hl' t' List.mem_cons_self; omega
              · rw [if_neg h] at hs; cases hs
          subst h0
          simp only [List.length_nil, Int.natCast_zero, Int.zero_mul]
          omega
      · have h6 := b6 hta
        have hz : (pace md after t).2 = 0 := by
          unfold pace
          simp only
          split
          · rfl
          · split
            · omega
            · rfl
        rw [hz] at hs
        have h := ih (pace md after t).1 (t + 0) last (by omega) hs hl' (by omega)
        have := h.1
        omega
    · rw [if_neg hft] at hs; cases hs

/-- **C67** part: whatever the times at which the PV changes, in a period of length `T` the attribute is updated by its
monitor at most `2 T / min_delta + 4` times. What is missing: the comment in the code says that there is at most one
update in each `min_delta`, and that is false, see `three_at_once`. -/
theorem paced_partial (md after free first last : Int) (mid : List Int) (hmd : 0 < md) (ha : after ≤ free + md)
    (hs : Serial md after free (first :: mid)) (hl : ∀ t ∈ first :: mid, t ≤ last) :
    ((first :: mid).length : Int) * md ≤ 2 * (last - first) + 4 * md := by
  unfold Serial at hs
  rw [paceAll] at hs
  by_cases hft : free ≤ first
  · rw [if_pos hft] at hs
    simp only at hs
    obtain ⟨b1, b2, b3, b4, b5, b6⟩ := pace_bounds (after := after) (now := first) (Int.le_of_lt hmd) (by omega)
    have htl : first ≤ last := hl first List.mem_cons_self
    have hl' : ∀ t' ∈ mid, t' ≤ last := fun t' h => hl t' (List.mem_cons_of_mem _ h)
    have hlen : ((first :: mid).length : Int) * md = (mid.length : Int) * md + md := by
      simp [List.length_cons, Int.add_mul]
    rw [hlen]
    by_cases hz : first + (pace md after first).2 ≤ last
    · have := (pace_count hmd mid _ _ last (by omega) hs hl' hz).1
      omega
    · have h0 : mid = [] := by
        cases mid with
        | nil => rfl
        | cons t' ts =>
          rw [paceAll] at hs
          by_cases h : first + (pace md after first).2 ≤ t'
          · have := hl' t' List.mem_cons_self; omega
          · rw [if_neg h] at hs; cases hs
      subst h0
      simp only [List.length_nil, Int.natCast_zero, Int.zero_mul]
      omega
  · rw [if_neg hft] at hs; cases hs

/-- **C67**: a callback is held up for no longer than `min_delta`, so that no update is. -/
theorem held_up (md after free : Int) (ts : List Int) (t : Int) (hmd : 0 < md) (ha : after ≤ free + md) (rest : List Int)
    (hs : Serial md after free (ts ++ t :: rest)) :
    ∃ after', paceAll md after free ts = some after' ∧ (pace md after' t).2 ≤ md := by
  induction ts generalizing after free with
  | nil =>
    refine ⟨after, rfl, ?_⟩
    unfold Serial at hs
    rw [List.nil_append, paceAll] at hs
    by_cases hft : free ≤ t
    · unfold pace
      simp only
      split
      · simp only; omega
      · split
        · simp only; omega
        · simp only; omega
    · rw [if_neg hft] at hs; cases hs
  | cons x ts ih =>
    unfold Serial at hs
    rw [List.cons_append, paceAll] at hs
    by_cases hft : free ≤ x
    · rw [if_pos hft] at hs
      simp only at hs
      obtain ⟨b1, b2, b3, b4, b5, b6⟩ := pace_bounds (after := after) (now := x) (Int.le_of_lt hmd) (by omega)
      obtain ⟨a', h1, h2⟩ := ih (pace md after x).1 (x + (pace md after x).2) (by omega) hs
      refine ⟨a', ?_, h2⟩
      rw [paceAll, if_pos hft]
      exact h1
    · rw [if_neg hft] at hs; cases hs

/-- **C67** part: after a time of quiet (more than `min_delta` after the time to which updates were held up) there are at
most `2 T / min_delta + 2` updates in the next time `T`. -/
theorem paced_after_quiet_partial (md after free first last : Int) (mid : List Int) (hmd : 0 < md) (hq : after + md < first)
    (hf : free ≤ first) (hs : Serial md after free (first :: mid)) (hl : ∀ t ∈ first :: mid, t ≤ last) :
    ((first :: mid).length : Int) * md ≤ 2 * (last - first) + 2 * md := by
  unfold Serial at hs
  rw [paceAll, if_pos hf] at hs
  simp only at hs
  have hp : pace md after first = (first + md, 0) := by unfold pace; simp only; rw [if_pos (by omega)]
  rw [hp] at hs
  have htl : first ≤ last := hl first List.mem_cons_self
  have hlen : ((first :: mid).length : Int) * md = (mid.length : Int) * md + md := by
    simp [List.length_cons, Int.add_mul]
  have := (pace_count hmd mid (first + md) (first + 0) last (by omega) hs (fun t' h => hl t' (List.mem_cons_of_mem _ h)) (by omega)).1
  rw [hlen]
  omega

example : Serial 50 0 0 [1000, 1000, 1050, 1050, 1100] ∧ ((5 : Int) * 50 ≤ 2 * (1100 - 1000) + 2 * 50) := by
  unfold Serial; decide

/-- The bound of `paced_partial` cannot be lowered: four updates in 1 ms -/
theorem four_at_once : Serial 50 0 0 [1000, 1099, 1099, 1100, 1100] := by unfold Serial; decide

/-- The negation of the full C67: three updates in 2 ms with a `min_delta` of 50 ms -/
theorem three_at_once : Serial 50 0 0 [1000, 1049, 1050, 1051] := by unfold Serial; decide

example : (50 : Int) * 4 ≤ 2 * (1051 - 1000) + 4 * 50 := by decide

/-! ### tables of waveforms -/

/-- the history of a table -/
def waveRun (w : Wave) (evs : List (Int × String × Reading (List Int))) : Wave :=
  evs.foldl (fun w e => waveMonitor e.1 w e.2.1 e.2.2) w

theorem waveMonitor_cols (now : Int) (w : Wave) (n : String) (r : Reading (List Int)) :
    (waveMonitor now w n r).cols = Dict.set w.cols n (match r with | .got v _ _ => some v | .gone => none) := by
  cases r with
  | gone => rfl
  | got v sev st =>
    unfold waveMonitor
    simp only
    cases waveTable (Dict.set w.cols n (some v)) <;> rfl

theorem waveRun_cols : ∀ (evs : List (Int × String × Reading (List Int))) (w : Wave) (name : String),
    Dict.get? (waveRun w evs).cols name =
      match latest name (evs.map (·.2)) with
      | some (.got v _ _) => some (some v)
      | some .gone => some none
      | none => Dict.get? w.cols name := by
  intro evs
  induction evs with
  | nil => intro w name; rfl
  | cons e es ih =>
    intro w name
    show Dict.get? (waveRun (waveMonitor e.1 w e.2.1 e.2.2) es).cols name = _
    rw [ih, List.map_cons, latest]
    cases latest name (es.map (·.2)) with
    | some x => cases x <;> rfl
    | none =>
      simp only
      rw [waveMonitor_cols, Dict.get?_set]
      by_cases h : e.2.1 = name
      · rw [if_pos h, if_pos h]
        cases e.2.2 <;> rfl
      · rw [if_neg h, if_neg h]

theorem waveTable_get {cols : Dict String (Option (List Int))} {t : Dict String (List Int)} (h : waveTable cols = some t)
    (name : String) : (Dict.get? cols name) = (Dict.get? t name).map some := by
  unfold waveTable at h
  simp only at h
  split at h
  · rename_i ha
    have e : t = cols.filterMap (fun c => c.2.map (fun v => (c.1, v))) := by
      split at h
      · rename_i h0; cases h; exact h0.symm
      · rename_i h0
        split at h
        · cases h; rfl
        · cases h
    rw [e]
    clear h e
    induction cols with
    | nil => rfl
    | cons c cols ih =>
      obtain ⟨n, o⟩ := c
      rw [List.all_cons, Bool.and_eq_true] at ha
      cases o with
      | none => cases ha.1
      | some v =>
        rw [List.filterMap_cons]
        simp only [Option.map_some]
        rw [Dict.get?_cons, Dict.get?_cons]
        by_cases h : n = name
        · simp [h]
        · simp only [h, if_false]
          exact ih ha.2
  · cases h

theorem waveTable_some (cols : Dict String (Option (List Int))) (L : Nat) (h : ∀ c ∈ cols, ∃ v, c.2 = some v ∧ v.length = L) :
    ∃ t, waveTable cols = some t := by
  unfold waveTable
  simp only
  rw [if_pos]
  · have hall : ∀ c ∈ cols.filterMap (fun c => c.2.map (fun v => (c.1, v))), c.2.length = L := by
      intro c hc
      rw [List.mem_filterMap] at hc
      obtain ⟨d, hd, he⟩ := hc
      obtain ⟨v, hv, hl⟩ := h d hd
      rw [hv] at he
      cases he
      exact hl
    generalize cols.filterMap (fun c => c.2.map (fun v => (c.1, v))) = full at hall
    cases full with
    | nil => exact ⟨_, rfl⟩
    | cons c rest =>
      obtain ⟨n, v⟩ := c
      simp only
      rw [if_pos]
      · exact ⟨_, rfl⟩
      · rw [List.all_eq_true]
        intro c hc
        rw [hall c (List.mem_cons_of_mem _ hc), show v.length = L from hall (n, v) List.mem_cons_self]
        simp
  · rw [List.all_eq_true]
    intro c hc
    obtain ⟨v, hv, _⟩ := h c hc
    rw [hv]
    rfl

theorem waveRun_keys : ∀ (evs : List (Int × String × Reading (List Int))) (w : Wave), (Dict.keys w.cols).Nodup →
    (∀ e ∈ evs, e.2.1 ∈ Dict.keys w.cols) → Dict.keys (waveRun w evs).cols = Dict.keys w.cols := by
  intro evs
  induction evs with
  | nil => intro w _ _; rfl
  | cons e es ih =>
    intro w hn hk
    have h1 : Dict.keys (waveMonitor e.1 w e.2.1 e.2.2).cols = Dict.keys w.cols := by
      rw [waveMonitor_cols, Dict.keys_set, if_pos (hk e List.mem_cons_self)]
    show Dict.keys (waveRun (waveMonitor e.1 w e.2.1 e.2.2) es).cols = _
    rw [ih _ (by rw [h1]; exact hn) (by rw [h1]; exact fun e he => hk e (List.mem_cons_of_mem _ he)), h1]

/-- The value that is now in a column: the one last read, or the one before these events -/
def current (w : Wave) (evs : List (Int × String × Reading (List Int))) (name : String) : Option (List Int) :=
  match latest name (evs.map (·.2)) with
  | some (.got v _ _) => some v
  | some .gone => none
  | none => (Dict.get? w.cols name).bind id

/-- **C66** part: whatever was read before, after an update of a table of waveforms the table shows in each column what
was last read of it, if all PVs are connected and the columns are of one length. What is missing: an update which makes
the columns of different lengths is not shown; and the severity of an alarm is kept for ever (`severity_sticks`), that
of a PV that disconnects is never shown and freezes the table (`gone_unseen`). -/
theorem columns_shown_partial (w : Wave) (evs : List (Int × String × Reading (List Int))) (now : Int) (n : String)
    (v : List Int) (sev : Nat) (st : Option Int) (L : Nat) (hn : (Dict.keys w.cols).Nodup)
    (hk : ∀ e ∈ evs ++ [(now, n, .got v sev st)], e.2.1 ∈ Dict.keys w.cols)
    (hL : ∀ name ∈ Dict.keys w.cols, ∃ x, current w (evs ++ [(now, n, .got v sev st)]) name = some x ∧ x.length = L) :
    ∀ name ∈ Dict.keys w.cols, Dict.get? (waveRun w (evs ++ [(now, n, .got v sev st)])).attr.value name =
      current w (evs ++ [(now, n, .got v sev st)]) name := by
  have hkeys := waveRun_keys _ w hn hk
  have hcur : ∀ name ∈ Dict.keys w.cols, ∃ x, Dict.get? (waveRun w (evs ++ [(now, n, .got v sev st)])).cols name = some (some x) ∧
      x.length = L ∧ current w (evs ++ [(now, n, .got v sev st)]) name = some x := by
    intro name hname
    obtain ⟨x, hx, hl⟩ := hL name hname
    refine ⟨x, ?_, hl, hx⟩
    have h1 := waveRun_cols (evs ++ [(now, n, .got v sev st)]) w name
    unfold current at hx
    cases hla : latest name ((evs ++ [(now, n, Reading.got v sev st)]).map (fun e => e.2)) with
    | none =>
      rw [hla] at hx h1
      simp only at hx h1
      rw [h1]
      cases hg : Dict.get? w.cols name with
      | none => rw [hg] at hx; cases hx
      | some o => rw [hg] at hx; simp only [Option.bind_some, id] at hx; rw [hx]
    | some r =>
      rw [hla] at hx h1
      cases r with
      | gone => cases hx
      | got y _ _ => cases hx; exact h1
  obtain ⟨t, ht⟩ := waveTable_some (waveRun w (evs ++ [(now, n, .got v sev st)])).cols L (by
    intro c hc
    have hm : c.1 ∈ Dict.keys w.cols := by rw [← hkeys]; exact List.mem_map.2 ⟨c, hc, rfl⟩
    obtain ⟨x, h1, h2, _⟩ := hcur c.1 hm
    have h3 := Dict.get?_of_mem_nodup (d := (waveRun w (evs ++ [(now, n, .got v sev st)])).cols) (k := c.1) (v := c.2) (by rw [hkeys]; exact hn) hc
    rw [h1] at h3
    exact ⟨x, (Option.some.inj h3).symm, h2⟩)
  have hval : (waveRun w (evs ++ [(now, n, .got v sev st)])).attr.value = t := by
    have e : waveRun w (evs ++ [(now, n, .got v sev st)]) = waveMonitor now (waveRun w evs) n (.got v sev st) := by
      unfold waveRun
      rw [List.foldl_append]
      rfl
    rw [e] at ht ⊢
    generalize waveRun w evs = w' at ht
    rw [waveMonitor_cols] at ht
    unfold waveMonitor
    simp only at ht ⊢
    rw [ht]
  intro name hname
  obtain ⟨x, h1, _, h2⟩ := hcur name hname
  rw [hval, h2]
  rw [waveTable_get ht] at h1
  cases hg : Dict.get? t name with
  | none => rw [hg] at h1; cases h1
  | some y => rw [hg] at h1; cases h1; rfl

def wave0 : Wave := { cols := [("a", some [0]), ("b", some [0])], severity := 0, attr := ⟨[("a", [0]), ("b", [0])], .ok, 0⟩ }

/-- A PV was in alarm for one update: the table stays in alarm although no PV is. -/
theorem severity_sticks : (waveRun wave0 [(1, "a", .got [1] 2 none), (2, "a", .got [2] 0 none), (3, "b", .got [3] 0 none)]).attr =
    ⟨[("a", [2]), ("b", [3])], .record 2, 3⟩ := by decide +kernel

/-- A PV disconnects: nothing is shown of it, and the updates of the other column are not shown any more. -/
theorem gone_unseen : (waveRun wave0 [(1, "a", .gone), (2, "b", .got [5] 0 none)]).attr = wave0.attr := by decide +kernel

/-- Two columns that both become longer are shown when the second has -/
theorem both_longer : (waveRun wave0 [(1, "a", .got [1, 2] 0 none), (2, "b", .got [3, 4] 0 none)]).attr.value =
    [("a", [1, 2]), ("b", [3, 4])] := by decide +kernel

example : ∀ name ∈ Dict.keys wave0.cols, ∃ x, current wave0 [(1, "a", .got [1, 2] 0 none), (2, "b", .got [3, 4] 0 none)] name = some x ∧
    x.length = 2 := by
  intro name h
  simp only [wave0, Dict.keys, List.map_cons, List.map_nil, List.mem_cons, List.not_mem_nil, or_false] at h
  rcases h with rfl | rfl
  · exact ⟨[1, 2], by decide, rfl⟩
  · exact ⟨[3, 4], by decide, rfl⟩

/-! ### actions -/

/-- the updates come in order of time -/
def InOrder : List (Int × String) → Prop
  | [] => True
  | (t, _) :: l => (∀ e ∈ l, t ≤ e.1) ∧ InOrder l

theorem waitGood_iff (good : String) (deadline : Int) : ∀ (updates : List (Int × String)) (status : Option String),
    InOrder updates → (waitGood good deadline status updates = some good ↔
      (∃ t, t ≤ deadline ∧ (t, good) ∈ updates) ∨ (status = some good ∧ ∀ e ∈ updates, ¬ e.1 ≤ deadline)) := by
  intro updates
  induction updates with
  | nil => intro status _; simp [waitGood]
  | cons e l ih =>
    obtain ⟨t, v⟩ := e
    intro status ho
    rw [waitGood]
    by_cases ht : t ≤ deadline
    · rw [if_pos ht]
      by_cases hv : v = good
      · subst hv
        rw [if_pos rfl]
        simp only [true_iff]
        exact .inl ⟨t, ht, List.mem_cons_self⟩
      · rw [if_neg hv, ih _ ho.2]
        constructor
        · rintro (⟨t', h1, h2⟩ | ⟨h1, h2⟩)
          · exact .inl ⟨t', h1, List.mem_cons_of_mem _ h2⟩
          · simp only [Option.some.injEq] at h1; exact absurd h1 hv
        · rintro (⟨t', h1, h2⟩ | ⟨h1, h2⟩)
          · rw [List.mem_cons] at h2
            rcases h2 with h2 | h2
            · cases h2; exact absurd rfl hv
            · exact .inl ⟨t', h1, h2⟩
          · exact absurd ht (h2 _ List.mem_cons_self)
    · rw [if_neg ht]
      constructor
      · intro h
        refine .inr ⟨h, ?_⟩
        intro e he
        rw [List.mem_cons] at he
        rcases he with rfl | he
        · exact ht
        · have := ho.1 e he
          omega
      · rintro (⟨t', h1, h2⟩ | ⟨h1, _⟩)
        · rw [List.mem_cons] at h2
          rcases h2 with h2 | h2
          · cases h2; exact absurd h1 ht
          · have := ho.1 _ h2
            simp only at this
            omega
        · exact h1

/-- **C68**: a method on a PV with a status PV returns if and only if the good status is seen by the deadline, whatever
statuses come before it and when; without a status PV it returns. -/
theorem action_iff (statusPv : Option (String × Int)) (now : Int) (updates : List (Int × String)) (ho : InOrder updates) :
    action statusPv now updates = true ↔ ∀ good timeout, statusPv = some (good, timeout) →
      ∃ t, t ≤ now + timeout ∧ (t, good) ∈ updates := by
  unfold action
  cases statusPv with
  | none => simp
  | some p =>
    obtain ⟨good, timeout⟩ := p
    simp only [decide_eq_true_eq]
    rw [waitGood_iff good _ updates none ho]
    constructor
    · rintro (h | ⟨h, _⟩)
      · intro g t he; cases he; exact h
      · cases h
    · intro h; exact .inl (h _ _ rfl)

example : action (some ("Done", 1)) 10 [(10, "Busy"), (11, "Done")] = true := by decide
example : action (some ("Done", 1)) 10 [(10, "Busy"), (12, "Done")] = false := by decide
example : InOrder [(10, "Busy"), (11, "Done")] := ⟨by simp, by simp, trivial⟩

/-! ### the hypotheses are met -/

/-- a choice on a PV: the meta is the list of choices, a value is a string -/
def choiceConf : Conf (List String) String :=
  { validate := fun m v => if v ∈ m then some v else none, onConnect := fun m _ => some m, throw := true }

theorem choice_canonical : Canonical choiceConf.validate := by
  intro m m' v w u h1 h2
  unfold choiceConf at h1 h2
  simp only at h1 h2
  split at h2
  · cases h2; rfl
  · cases h2

def choice0 : Caa (List String) String := ⟨["Off", "On"], ⟨"Off", .ok, 0⟩, false⟩

example : (run choiceConf choice0 [.reconnect 1 (some (.got "On" 0 none, [.got "On" 0 none])), .monitor 2 (.got "Off" 1 (some 2)),
    .monitor 3 .gone]).attr = ⟨"Off", .disconnected, 3⟩ := by decide
example : taken choiceConf choice0 [.reconnect 1 (some (.got "On" 0 none, [])), .monitor 2 (.got "Off" 1 (some 2)), .monitor 3 .gone,
    .monitor 4 (.got "Broken" 0 none)] = [(["Off", "On"], .got "On" 0 none), (["Off", "On"], .got "Off" 1 (some 2)), (["Off", "On"], .gone)] := by
  decide

end Verif.Props.Ca
