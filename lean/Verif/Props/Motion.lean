import Verif.Model.Motion
import Verif.Spec.Motion
import Mathlib.Tactic.Linarith
import Mathlib.Tactic.FieldSimp
import Mathlib.Tactic.Ring
/-!
C85 (motion in a scan of the tutorial).
-/
namespace Verif.Props.Motion
open Verif.Motion Verif.Spec.Motion

/-- The calls of one axis are served in the order in which they were made, and the scan is configured when none is left. -/
def InOrder (a : Axis) : Ev → Prop
  | .step k _ => ∀ (j : Nat) (t : Thread), j < k → a.threads[j]? = some t → t.prog = .ended
  | .point _ _ _ => True
  | .configure _ => ∀ t ∈ a.threads, t.prog = .ended

def InOrderHistory : Axis → List Ev → Prop
  | _, [] => True
  | a, e :: es => InOrder a e ∧ InOrderHistory (a.apply e) es

/-- The stages of a point: what is left to be served. `d` is the time for the point and `t0` when it began. -/
inductive Stage (lo hi d t0 : ℚ) : ℚ → ℚ → List ℚ → List Thread → Prop
  | first (time counter : ℚ) (rest : List Thread) (hr : rest = [⟨hi, d, .waiting⟩] ∨ rest = [] ∧ lo = hi) (ht : t0 ≤ time) :
    Stage lo hi d t0 time counter [] (⟨lo, 0, .waiting⟩ :: rest)
  | going (time counter s dist : ℚ) (rest : List Thread) (hr : rest = [⟨hi, d, .waiting⟩] ∨ rest = [] ∧ lo = hi) (ht : t0 ≤ time) :
    Stage lo hi d t0 time counter [] (⟨lo, 0, .going s dist 0⟩ :: rest)
  | second (time : ℚ) (path : List ℚ) (hp : path = [] ∨ path = [lo]) (ht : t0 ≤ time) :
    Stage lo hi d t0 time lo path [⟨hi, d, .waiting⟩]
  | moving (time counter s r : ℚ) (fs : List ℚ) (hs : fs.Pairwise (· ≤ ·)) (hf : ∀ f ∈ fs, 0 ≤ f ∧ f ≤ 1) (hl : 0 < r → ∀ f ∈ fs, f ≤ 1 - r / d)
    (hr : s + d - time ≤ r) (hd : r ≤ d) (ht : t0 ≤ s) :
    Stage lo hi d t0 time counter (fs.map fun f => lo + (hi - lo) * f) [⟨hi, d, .going s (hi - lo) r⟩]
  | done (time : ℚ) (path : List ℚ) (hp : OnTheWay lo hi path) (hn : path = [] → lo = hi) (ht : lo = hi ∨ t0 + d ≤ time) :
    Stage lo hi d t0 time hi path []

/-- What one step of the call that is served does -/
theorem stage_step {lo hi d t0 time counter : ℚ} {path : List ℚ} {t : Thread} {rest : List Thread}
    (h : Stage lo hi d t0 time counter path (t :: rest)) (now : ℚ) (hn : time ≤ now) :
    let r := t.step now counter
    (r.1.prog = .ended ∧ Stage lo hi d t0 now (r.2.getD counter) (path ++ r.2.toList) rest) ∨
    Stage lo hi d t0 now (r.2.getD counter) (path ++ r.2.toList) (r.1 :: rest) := by
  cases h with
  | first _ _ hr ht => exact Or.inr (Stage.going _ _ _ _ _ hr (le_trans ht hn))
  | going _ s dist _ hr ht =>
    left
    simp only [Thread.step, gt_iff_lt, lt_self_iff_false, if_false, Option.getD_some, Option.toList_some, List.nil_append, true_and]
    rcases hr with rfl | ⟨rfl, rfl⟩
    · exact Stage.second _ _ (Or.inr rfl) (le_trans ht hn)
    · exact Stage.done _ _ ⟨[0], by simp, by simp, by simp⟩ (by simp) (Or.inl rfl)
  | second _ hp ht =>
    right
    simp only [Thread.step, Option.getD_none, Option.toList_none, List.append_nil]
    rcases hp with rfl | rfl
    · exact Stage.moving _ _ _ _ [] (by simp) (by simp) (by simp) (by linarith) (le_refl _) (le_trans ht hn)
    · have := Stage.moving (lo := lo) (hi := hi) (d := d) (t0 := t0) now lo now d [0] (by simp) (by simp)
        (fun hd f hf => by rw [List.mem_singleton.1 hf, div_self (ne_of_gt hd)]; norm_num) (by linarith) (le_refl _) (le_trans ht hn)
      simpa using this
  | moving _ s r fs hs hf hl hr hd ht =>
    by_cases hpos : 0 < r
    · right
      simp only [Thread.step, gt_iff_lt, hpos, if_true, Option.getD_some, Option.toList_some]
      have hd0 : 0 < d := lt_of_lt_of_le hpos hd
      have e : hi - (hi - lo) * r / d = lo + (hi - lo) * (1 - r / d) := by ring
      rw [e]
      have hmap : (fs.map fun f => lo + (hi - lo) * f) ++ [lo + (hi - lo) * (1 - r / d)] = (fs ++ [1 - r / d]).map fun f => lo + (hi - lo) * f := by simp
      rw [hmap]
      have hq : r / d ≤ 1 := by have := div_le_div_of_nonneg_right hd hd0.le; rwa [div_self (ne_of_gt hd0)] at this
      have hq0 : 0 < r / d := div_pos hpos hd0
      refine Stage.moving _ _ _ _ _ ?_ ?_ ?_ (le_refl _) (by linarith) ht
      · rw [List.pairwise_append]
        refine ⟨hs, by simp, ?_⟩
        intro f hfm f' hf'
        rw [List.mem_singleton.1 hf']
        exact hl hpos f hfm
      · intro f hfm
        rcases List.mem_append.1 hfm with hfm | hfm
        · exact hf f hfm
        · rw [List.mem_singleton.1 hfm]; exact ⟨by linarith, by linarith⟩
      · intro hp' f hfm
        have hle : (s + d - now) / d ≤ r / d := div_le_div_of_nonneg_right (by linarith) hd0.le
        rcases List.mem_append.1 hfm with hfm | hfm
        · have := hl hpos f hfm; linarith
        · rw [List.mem_singleton.1 hfm]; linarith
    · left
      simp only [Thread.step, gt_iff_lt, hpos, if_false, Option.getD_some, Option.toList_some, true_and]
      refine Stage.done _ _ ⟨fs ++ [1], ?_, ?_, ?_⟩ (by simp) (Or.inr (by linarith))
      · rw [List.pairwise_append]
        refine ⟨hs, by simp, ?_⟩
        intro f hfm f' hf'
        rw [List.mem_singleton.1 hf']
        exact (hf f hfm).2
      · intro f hfm
        rcases List.mem_append.1 hfm with hfm | hfm
        · exact hf f hfm
        · rw [List.mem_singleton.1 hfm]; norm_num
      · simp

theorem stage_later {lo hi d t0 time now c : ℚ} {path : List ℚ} {pending : List Thread} (st : Stage lo hi d t0 time c path pending)
    (hn : time ≤ now) : Stage lo hi d t0 now c path pending := by
  cases st with
  | first _ _ hr ht => exact Stage.first _ _ _ hr (le_trans ht hn)
  | going _ s dist _ hr ht => exact Stage.going _ _ _ _ _ hr (le_trans ht hn)
  | second _ hp ht => exact Stage.second _ _ hp (le_trans ht hn)
  | moving _ s r fs hs hf hl hr hd ht => exact Stage.moving _ _ _ _ _ hs hf hl (by linarith) hd ht
  | done _ hp hn' ht => exact Stage.done _ _ hp hn' (ht.imp id fun hx => le_trans hx hn)

/-- Nothing that is being served has ended. -/
theorem stage_head {lo hi d t0 time counter : ℚ} {path : List ℚ} {t : Thread} {rest : List Thread}
    (h : Stage lo hi d t0 time counter path (t :: rest)) : t.prog ≠ .ended := by
  cases h <;> simp

/-- The invariant: the calls have been served up to a stage of the point. -/
structure Served (lo hi d t0 : ℚ) (a : Axis) : Prop where
  split : ∃ done pending, a.threads = done ++ pending ∧ (∀ t ∈ done, t.prog = .ended) ∧ a.before ≤ done.length ∧
    Stage lo hi d t0 a.time a.counter a.path pending
  last : a.last = some hi

theorem served_settled {lo hi d t0 : ℚ} {a : Axis} (h : Served lo hi d t0 a) (hs : a.settled = true) :
    (∀ t ∈ a.threads, t.prog = .ended) ∧ a.counter = hi ∧ OnTheWay lo hi a.path ∧ (a.path = [] → lo = hi) ∧ (lo = hi ∨ t0 + d ≤ a.time) := by
  obtain ⟨done, pending, ht, hd, hb, st⟩ := h.split
  have hp : pending = [] := by
    cases pending with
    | nil => rfl
    | cons t rest =>
      exfalso
      apply stage_head st
      unfold Axis.settled at hs
      rw [ht, List.drop_append_of_le_length hb, List.all_append, Bool.and_eq_true, List.all_cons, Bool.and_eq_true] at hs
      simpa using hs.2.1
  subst hp
  rw [List.append_nil] at ht
  refine ⟨by rw [ht]; exact hd, ?_⟩
  revert st
  generalize a.time = time
  generalize a.counter = c
  generalize a.path = path
  intro st
  cases st with
  | done _ hp hn ht => exact ⟨rfl, hp, hn, ht⟩

theorem served_step {lo hi d t0 : ℚ} {a : Axis} (h : Served lo hi d t0 a) (k : Nat) (now : ℚ) (ho : InOrder a (.step k now)) :
    Served lo hi d t0 (a.apply (.step k now)) := by
  obtain ⟨done, pending, ht, hd, hb, st⟩ := h.split
  simp only [Axis.apply]
  cases hk : a.threads[k]? with
  | none => exact h
  | some t =>
    simp only
    have hn : a.time ≤ max a.time now := le_max_left _ _
    by_cases hlt : k < done.length
    · -- a call that has returned
      have hte : t.prog = .ended := by
        rw [ht, List.getElem?_append_left hlt] at hk
        exact hd t (List.mem_of_getElem? hk)
      have hset : a.threads.set k t = a.threads := by
        obtain ⟨hk', rfl⟩ := List.getElem?_eq_some_iff.1 hk
        exact List.set_getElem_self hk'
      have hst : t.step (max a.time now) a.counter = (t, none) := by simp [Thread.step, hte]
      rw [hst]
      simp only [hset, Option.getD_none, Option.toList_none, List.append_nil]
      refine ⟨⟨done, pending, ht, hd, hb, ?_⟩, h.last⟩
      exact stage_later st hn
    · cases pending with
      | nil => rw [ht, List.append_nil, List.getElem?_eq_none (by omega)] at hk; cases hk
      | cons t0' rest =>
        have hkd : k = done.length := by
          by_contra hne
          have := ho done.length t0' (by omega) (by rw [ht]; simp)
          exact stage_head st this
        subst hkd
        have : t = t0' := by rw [ht] at hk; simpa using hk.symm
        subst this
        have hset : ∀ t', a.threads.set done.length t' = done ++ t' :: rest := by intro t'; rw [ht]; simp
        rcases stage_step st _ hn with ⟨h1, h2⟩ | h2
        · refine ⟨⟨done ++ [(t.step (max a.time now) a.counter).1], rest, ?_, ?_, ?_, h2⟩, h.last⟩
          · simp only [hset, List.append_assoc, List.singleton_append]
          · intro x hx
            rcases List.mem_append.1 hx with hx | hx
            · exact hd x hx
            · rw [List.mem_singleton.1 hx]; exact h1
          · show a.before ≤ _
            simp only [List.length_append, List.length_singleton]; omega
        · exact ⟨⟨done, _ :: rest, hset _, hd, hb, h2⟩, h.last⟩

theorem served_steps {lo hi d t0 : ℚ} : ∀ (evs : List Ev) {a : Axis}, Served lo hi d t0 a → (∀ e ∈ evs, ∃ k now, e = .step k now) → InOrderHistory a evs →
    Served lo hi d t0 (a.run evs)
  | [], _, h, _, _ => h
  | e :: es, a, h, hs, ho => by
    obtain ⟨k, now, rfl⟩ := hs e List.mem_cons_self
    exact served_steps es (served_step h k now ho.1) (fun e he => hs e (List.mem_cons_of_mem _ he)) ho.2

theorem served_configure {a : Axis} (lo : ℚ) (ha : ∀ t ∈ a.threads, t.prog = .ended) : Served lo lo 0 a.time (a.apply (.configure lo)) := by
  refine ⟨⟨a.threads, [⟨lo, 0, .waiting⟩], by simp [Axis.apply, maybeMove], ha, by simp [Axis.apply, maybeMove], ?_⟩, by simp [Axis.apply, maybeMove]⟩
  exact Stage.first _ _ _ (Or.inr ⟨rfl, rfl⟩) (le_refl _)

theorem served_point {lo' hi' d' t0' : ℚ} {a : Axis} (h : Served lo' hi' d' t0' a) (hs : a.settled = true) (lo hi d : ℚ) :
    Served lo hi d a.time (a.apply (.point lo hi d)) := by
  obtain ⟨ha, hc, -⟩ := served_settled h hs
  have hl := h.last
  simp only [Axis.apply, hs, if_true]
  by_cases h1 : a.last = some lo
  · obtain rfl : lo = hi' := (Option.some.inj (hl.symm.trans h1)).symm
    rw [hl]
    by_cases h2 : lo = hi
    · subst h2
      refine ⟨⟨a.threads, [], by simp [maybeMove], ha, by simp, ?_⟩, by simp [maybeMove]⟩
      show Stage lo lo d a.time a.time a.counter [] []
      rw [hc]
      exact Stage.done _ _ ⟨[], by simp, by simp, rfl⟩ (fun _ => rfl) (Or.inl rfl)
    · refine ⟨⟨a.threads, [⟨hi, d, .waiting⟩], by simp [maybeMove, h2], ha, by simp, ?_⟩, by simp [maybeMove, h2]⟩
      show Stage lo hi d a.time a.time a.counter [] _
      rw [hc]
      exact Stage.second _ _ (Or.inl rfl) (le_refl _)
  · by_cases h2 : lo = hi
    · subst h2
      refine ⟨⟨a.threads, [⟨lo, 0, .waiting⟩], by simp [maybeMove, h1], ha, by simp, ?_⟩, by simp [maybeMove, h1]⟩
      exact Stage.first _ _ _ (Or.inr ⟨rfl, rfl⟩) (le_refl _)
    · refine ⟨⟨a.threads, [⟨lo, 0, .waiting⟩, ⟨hi, d, .waiting⟩], by simp [maybeMove, h1, h2], ha, by simp, ?_⟩, by simp [maybeMove, h1, h2]⟩
      exact Stage.first _ _ _ (Or.inl rfl) (le_refl _)

theorem served_run : ∀ (evs : List Ev) {a : Axis}, (∃ lo hi d t0, Served lo hi d t0 a) → InOrderHistory a evs → ∃ lo hi d t0, Served lo hi d t0 (a.run evs)
  | [], _, h, _ => h
  | e :: es, a, h, ho => by
    refine served_run es ?_ ho.2
    obtain ⟨lo, hi, d, t0, h⟩ := h
    cases e with
    | step k now => exact ⟨_, _, _, _, served_step h k now ho.1⟩
    | configure l => exact ⟨_, _, _, _, served_configure l ho.1⟩
    | point l u d' =>
      by_cases hs : a.settled = true
      · exact ⟨_, _, _, _, served_point h hs l u d'⟩
      · simp only [Axis.apply, hs]; exact ⟨_, _, _, _, h⟩

/-- C85: in any scan that was configured while the axis was at rest, when a point is reported the axis is at its upper bound,
having gone there from its lower bound without a step back, in not less than the time for it; or the point has no width and
the axis is there. For calls that are served in the order in which they were made and scans that are configured again when no
call is left; `served_late` and `paused_move_goes_on` show what happens otherwise. -/
theorem points_travelled_partial (a : Axis) (ha : ∀ t ∈ a.threads, t.prog = .ended) (start : ℚ) (evs : List Ev)
    (ho : InOrderHistory (a.apply (.configure start)) evs) (lo hi d : ℚ) (steps : List Ev) (hst : ∀ e ∈ steps, ∃ k now, e = .step k now) :
    let b := (a.apply (.configure start)).run evs
    let c := (b.apply (.point lo hi d)).run steps
    b.settled = true → InOrderHistory (b.apply (.point lo hi d)) steps → c.settled = true →
    c.counter = hi ∧ OnTheWay lo hi c.path ∧ (c.path = [] → lo = hi) ∧ (lo = hi ∨ b.time + d ≤ c.time) := by
  intro b c hb ho' hc
  obtain ⟨lo', hi', d', t0', h⟩ := served_run evs ⟨_, _, _, _, served_configure start ha⟩ ho
  exact (served_settled (served_steps steps (served_point h hb lo hi d) hst ho') hc).2

/-- C85: and when the scan has been configured the axis is at the lower bound of the first point. -/
theorem configured_at_start_partial (a : Axis) (ha : ∀ t ∈ a.threads, t.prog = .ended) (lo : ℚ) (steps : List Ev)
    (hst : ∀ e ∈ steps, ∃ k now, e = .step k now) :
    let c := (a.apply (.configure lo)).run steps
    InOrderHistory (a.apply (.configure lo)) steps → c.settled = true → c.counter = lo := by
  intro c ho hc
  exact (served_settled (served_steps steps (served_configure lo ha) hst ho) hc).2.1

/-- A call that is alone ends, whatever the counter shows, as soon as it is served at a time after its duration. -/
theorem move_ends (t : Thread) (s dist r now c c' : ℚ) (hp : t.prog = .going s dist r) (hn : s + t.duration ≤ now) :
    ((t.step now c).1.step now c').1.prog = .ended := by
  by_cases hr : 0 < r
  · have : ¬ 0 < s + t.duration - now := by linarith
    simp [Thread.step, hp, hr, this]
  · simp [Thread.step, hp, hr]

/-! ### Cases -/

/-- The scan is configured to begin at 0, with the counter at 5. -/
def atRest : Axis := { counter := 5 }

def toStart : List Ev := [.step 0 1, .step 0 1]

/-- Half way through the point and to its end -/
def through : List Ev := [.step 1 2, .step 1 3, .step 1 4, .step 1 4]

-- the hypotheses hold: the counter goes 1, 3/2, 2 in the first point
example : InOrderHistory (atRest.apply (.configure 1)) toStart ∧
    (let b := (atRest.apply (.configure 1)).run toStart
     b.settled = true ∧ b.counter = 1 ∧ InOrderHistory (b.apply (.point 1 2 2)) through ∧
     ((b.apply (.point 1 2 2)).run through).settled = true ∧ ((b.apply (.point 1 2 2)).run through).path = [1, 3 / 2, 2]) := by
  refine ⟨⟨?_, ?_, trivial⟩, by decide +kernel, by decide +kernel, ⟨?_, ?_, ?_, ?_, trivial⟩, by decide +kernel, by decide +kernel⟩
  · intro j t hj; omega
  · intro j t hj; omega
  all_goals
    intro j t hj ht
    obtain rfl : j = 0 := by omega
    have := Option.some.inj ht
    rw [← this]

/-- C85 is false of the code in general: the two calls for a point run at the same time. If the one for the upper bound gets
to the counter first the axis ends at the lower bound, and the point is reported. -/
theorem served_late : ∃ steps : List Ev, (∀ e ∈ steps, ∃ k now, e = .step k now) ∧
    let b := (atRest.apply (.configure 0)).run toStart
    let c := (b.apply (.point 3 4 2)).run steps
    b.settled = true ∧ c.settled = true ∧ c.counter = 3 ∧ c.path = [0, 4, 3] :=
  ⟨[.step 2 1, .step 2 3, .step 2 3, .step 1 3, .step 1 3], by
    intro e he
    simp only [List.mem_cons, List.not_mem_nil, or_false] at he
    rcases he with rfl | rfl | rfl | rfl | rfl <;> exact ⟨_, _, rfl⟩, by decide +kernel⟩

/-- And a scan that is paused in the middle of a point goes back to the lower bound of the point while the call to its upper
bound goes on: the axis is not where the scan is to begin again. -/
theorem paused_move_goes_on : ∃ evs : List Ev,
    let b := (atRest.apply (.configure 0)).run toStart
    let c := (b.apply (.point 0 1 10)).run evs
    b.settled = true ∧ c.settled = true ∧ c.last = some 0 ∧ c.counter = 1 / 2 :=
  ⟨[.step 1 2, .step 1 7, .configure 0, .step 2 7, .step 2 7, .step 1 8], by decide +kernel⟩

end Verif.Props.Motion
