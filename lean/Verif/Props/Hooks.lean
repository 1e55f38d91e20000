import Verif.Model.Hooks
import Verif.Proofs.PyDict
/-! C21: running a hook on all parts. -/
set_option linter.unusedSectionVars false
namespace Verif.Props.Hooks
open Verif Verif.Hooks
variable {H N V : Type} [DecidableEq H] [DecidableEq N]

/-- What has been put on the queue for hook `h`. -/
def resultOf (s : Sys H N V) (h : H) : Option (Result V) := (s.done.find? (fun d => d.1 = h)).map (·.2)

/-- The first thing put on the queue that is a failure. -/
def firstFailure (done : List (H × Result V)) : Option (Result V) :=
  (done.find? (fun d => d.2.isOk = false)).map (·.2)

structure Inv (name : H → N) (s : Sys H N V) : Prop where
  nd : (s.done.map (·.1)).Nodup
  sub : ∀ d ∈ s.done, d.1 ∈ s.spawned
  le : s.taken ≤ s.done.length
  /-- everything taken but possibly the last was a success -/
  oks : match s.waiter with
    | .looping | .returned =>
      (∀ d ∈ s.done.take s.taken, d.2.isOk = true) ∧
      (∀ h, h ∈ s.remaining ↔ h ∈ s.spawned ∧ h ∉ (s.done.take s.taken).map (·.1)) ∧
      Dict.keys s.acc = s.spawned.map name ∧
      (∀ d ∈ s.done.take s.taken, ∀ v, d.2 = .ok v → Dict.get? s.acc (name d.1) = some (some v)) ∧
      s.stopped = false
    | .draining r toWait =>
      r.isOk = false ∧ firstFailure (s.done.take s.taken) = some r ∧
      (s.stopped = true ↔ r ≠ .aborted) ∧ (∀ h ∈ s.spawned, h ∈ toWait ∨ s.isDone h = true)
    | .raised r =>
      r.isOk = false ∧ firstFailure (s.done.take s.taken) = some r ∧
      (s.stopped = true ↔ r ≠ .aborted) ∧ (∀ h ∈ s.spawned, s.isDone h = true)
    | .timedOut => ∃ r, r.isOk = false ∧ firstFailure (s.done.take s.taken) = some r ∧
      (s.stopped = true ↔ r ≠ .aborted)
  fin : s.waiter = .returned → s.remaining = []
  loop : s.waiter = .looping → s.remaining ≠ []

theorem isDone_iff (s : Sys H N V) (h : H) : s.isDone h = true ↔ h ∈ s.done.map (·.1) := by
  simp [Sys.isDone]

theorem isDone_append (s : Sys H N V) (x : H × Result V) (h : H) (hd : s.isDone h = true) :
    ({ s with done := s.done ++ [x] } : Sys H N V).isDone h = true := by
  rw [isDone_iff] at *; simp at *; exact Or.inl hd

theorem inv_start (hooks : List H) (registered : H → Bool) (name : H → N)
    (hname : ((hooks.filter registered).map name).Nodup) :
    Inv name (start hooks registered name : Sys H N V) := by
  have hkeys : ∀ (l : List H) (d : Dict N (Option V)), (Dict.keys d ++ l.map name).Nodup →
      Dict.keys (l.foldl (fun d h => Dict.set d (name h) none) d) = Dict.keys d ++ l.map name := by
    intro l
    induction l with
    | nil => intro d _; simp
    | cons h t ih =>
      intro d hd
      rw [List.foldl_cons]
      have hnm : name h ∉ Dict.keys d := by
        intro hm
        rw [List.nodup_append] at hd
        exact hd.2.2 _ hm (name h) (by simp) rfl
      have hk : Dict.keys (Dict.set d (name h) (none : Option V)) = Dict.keys d ++ [name h] := by
        rw [Dict.keys_set, if_neg hnm]
      rw [ih _ (by rw [hk]; simpa using hd), hk]
      simp
  unfold start
  generalize hsp : hooks.filter registered = sp at *
  have hk := hkeys sp [] (by simpa [Dict.keys] using hname)
  by_cases h0 : sp = []
  · subst h0
    exact ⟨by simp, by simp, by simp, by simp [Dict.keys], by simp, by simp⟩
  · refine ⟨by simp, by simp, by simp, ?_, by simp [h0], by simp [h0]⟩
    simp only [h0, if_false]
    refine ⟨by simp, by simp, ?_, by simp, trivial⟩
    rw [hk]; simp [Dict.keys]

theorem take_append_le {α : Type} (l : List α) (x : α) {n : Nat} (h : n ≤ l.length) :
    (l ++ [x]).take n = l.take n := by
  rw [List.take_append_of_le_length h]

theorem inv_step (name : H → N) (s : Sys H N V) (hname : (s.spawned.map name).Nodup)
    (h : Inv name s) (ev : Ev H V) : Inv name (s.step name ev) := by
  cases ev with
  | finish g r =>
    simp only [Sys.step]
    split
    · rename_i hg
      have hne : g ∉ s.done.map (·.1) := by
        intro hm
        have := (isDone_iff s g).2 hm
        rw [hg.2] at this; cases this
      refine ⟨?_, ?_, by have := h.le; simp; omega, ?_, h.fin, h.loop⟩
      · simp only [List.map_append, List.map_cons, List.map_nil]
        rw [List.nodup_append]
        exact ⟨h.nd, by simp, by intro a ha b hb; simp at hb; subst hb; rintro rfl; exact hne ha⟩
      · intro d hd
        simp only [List.mem_append, List.mem_singleton] at hd
        rcases hd with hd | rfl
        · exact h.sub d hd
        · exact hg.1
      · have ho := h.oks
        have ht : (s.done ++ [(g, r)]).take s.taken = s.done.take s.taken := take_append_le _ _ h.le
        cases hw : s.waiter with
        | looping => simp only [hw, ht] at ho ⊢; exact ho
        | returned => simp only [hw, ht] at ho ⊢; exact ho
        | timedOut => simp only [hw, ht] at ho ⊢; exact ho
        | draining r' tw =>
          simp only [hw, ht] at ho ⊢
          refine ⟨ho.1, ho.2.1, ho.2.2.1, fun x hx => ?_⟩
          rcases ho.2.2.2 x hx with h1 | h1
          · exact Or.inl h1
          · exact Or.inr (by have := isDone_append s (g, r) x h1; simpa only [hw] using this)
        | raised r' =>
          simp only [hw, ht] at ho ⊢
          refine ⟨ho.1, ho.2.1, ho.2.2.1, fun x hx => ?_⟩
          have := isDone_append s (g, r) x (ho.2.2.2 x hx)
          simpa only [hw] using this
    · exact h
  | take =>
    cases hw : s.waiter with
    | looping =>
      simp only [Sys.step, hw]
      cases hd : s.done[s.taken]? with
      | none => exact h
      | some x =>
        obtain ⟨g, r⟩ := x
        have hlt : s.taken < s.done.length := by
          by_cases hh : s.taken < s.done.length
          · exact hh
          · rw [List.getElem?_eq_none (by omega)] at hd; cases hd
        have hget : s.done[s.taken] = (g, r) := by
          rw [List.getElem?_eq_getElem hlt] at hd; simpa using hd
        have htk : s.done.take (s.taken + 1) = s.done.take s.taken ++ [(g, r)] := by
          rw [List.take_succ_eq_append_getElem hlt, hget]
        have hmem : (g, r) ∈ s.done := by rw [← hget]; exact List.getElem_mem hlt
        have ho := h.oks
        rw [hw] at ho
        dsimp only at ho
        obtain ⟨ho1, ho2, ho3, ho4, ho5⟩ := ho
        have hff : ∀ r', r'.isOk = false → r = r' →
            firstFailure (s.done.take (s.taken + 1)) = some r' := by
          intro r' hr' e
          subst e
          unfold firstFailure
          rw [htk, List.find?_append]
          have : (s.done.take s.taken).find? (fun d => d.2.isOk = false) = none := by
            rw [List.find?_eq_none]; intro d hd; simp [ho1 d hd]
          rw [this]
          simp [hr']
        cases r with
        | ok v =>
          dsimp only
          have hrem : ∀ x, x ∈ s.remaining.filter (fun x => decide (x ≠ g)) ↔
              x ∈ s.spawned ∧ x ∉ (s.done.take (s.taken + 1)).map (·.1) := by
            intro x
            simp only [List.mem_filter, ho2, htk, List.map_append, List.mem_append, decide_eq_true_eq]
            simp only [List.map_cons, List.map_nil, List.mem_singleton, not_or]
            exact ⟨fun ⟨⟨a, b⟩, c⟩ => ⟨a, b, c⟩, fun ⟨a, b, c⟩ => ⟨⟨a, b⟩, c⟩⟩
          have hbase : (∀ d ∈ s.done.take (s.taken + 1), d.2.isOk = true) ∧
              Dict.keys (Dict.set s.acc (name g) (some v)) = s.spawned.map name ∧
              (∀ d ∈ s.done.take (s.taken + 1), ∀ w, d.2 = .ok w →
                Dict.get? (Dict.set s.acc (name g) (some v)) (name d.1) = some (some w)) := by
            refine ⟨?_, ?_, ?_⟩
            · rw [htk]; intro d hd
              simp only [List.mem_append, List.mem_singleton] at hd
              rcases hd with hd | rfl
              · exact ho1 d hd
              · rfl
            · rw [Dict.keys_set, if_pos, ho3]
              rw [ho3]; exact List.mem_map.2 ⟨g, h.sub _ hmem, rfl⟩
            · rw [htk]; intro d hd w hwv
              simp only [List.mem_append, List.mem_singleton] at hd
              rcases hd with hd | rfl
              · have hdm : d ∈ s.done := List.mem_of_mem_take hd
                by_cases hdg : d.1 = g
                · -- the same hook cannot be on the queue twice
                  exfalso
                  have hnd := h.nd
                  have hsplit : s.done.map (·.1) = (s.done.take (s.taken + 1)).map (·.1) ++
                      (s.done.drop (s.taken + 1)).map (·.1) := by
                    rw [← List.map_append, List.take_append_drop]
                  rw [hsplit, htk, List.map_append, List.nodup_append, List.nodup_append] at hnd
                  exact hnd.1.2.2 d.1 (List.mem_map.2 ⟨d, hd, rfl⟩) g (by simp) hdg
                · have : name g ≠ name d.1 := by
                    intro e
                    have := (List.pairwise_map.1 hname)
                    exact hdg (by
                      have hinj : ∀ a ∈ s.spawned, ∀ b ∈ s.spawned, name a = name b → a = b := by
                        intro a ha b hb hab
                        by_cases hne : a = b
                        · exact hne
                        · exact absurd hab (by
                            intro hab
                            obtain ⟨i, hi, rfl⟩ := List.getElem_of_mem ha
                            obtain ⟨j, hj, rfl⟩ := List.getElem_of_mem hb
                            have hij : i ≠ j := by rintro rfl; exact hne rfl
                            rw [List.pairwise_iff_getElem] at this
                            rcases Nat.lt_or_gt_of_ne hij with h1 | h1
                            · exact this i j hi hj h1 hab
                            · exact this j i hj hi h1 hab.symm)
                      exact (hinj g (h.sub _ hmem) d.1 (h.sub _ hdm) e).symm)
                  rw [Dict.get?_set_ne _ _ this]
                  exact ho4 d hd w hwv
              · simp only [Result.ok.injEq] at hwv
                subst hwv
                exact Dict.get?_set_self ..
          by_cases hr0 : s.remaining.filter (fun x => decide (x ≠ g)) = []
          · refine ⟨h.nd, h.sub, by simp; omega, ?_, ?_, ?_⟩
            · simp only [hr0, if_true]
              refine ⟨hbase.1, ?_, hbase.2.1, hbase.2.2, ho5⟩
              rw [← hr0]; exact hrem
            · intro _; exact hr0
            · simp [hr0]
          · refine ⟨h.nd, h.sub, by simp; omega, ?_, ?_, ?_⟩
            · simp only [hr0, if_false]
              exact ⟨hbase.1, hrem, hbase.2.1, hbase.2.2, ho5⟩
            · simp [hr0]
            · intro _; exact hr0
        | aborted =>
          dsimp only
          refine ⟨h.nd, h.sub, by simp; omega, ?_, by simp, by simp⟩
          exact ⟨rfl, hff _ rfl rfl, by simp [ho5], fun x hx => Or.inl hx⟩
        | error m =>
          dsimp only
          refine ⟨h.nd, h.sub, by simp; omega, ?_, by simp, by simp⟩
          exact ⟨rfl, hff _ rfl rfl, by simp, fun x hx => Or.inl hx⟩
    | _ => simp only [Sys.step, hw]; exact h
  | join =>
    cases hw : s.waiter with
    | draining r tw =>
      have ho := h.oks
      rw [hw] at ho
      dsimp only at ho
      cases tw with
      | nil =>
        simp only [Sys.step, hw]
        refine ⟨h.nd, h.sub, h.le, ?_, by simp, by simp⟩
        refine ⟨ho.1, ho.2.1, ho.2.2.1, fun x hx => ?_⟩
        rcases ho.2.2.2 x hx with h1 | h1
        · simp at h1
        · exact h1
      | cons g gs =>
        simp only [Sys.step, hw]
        by_cases hg : s.isDone g = true
        · rw [if_pos hg]
          refine ⟨h.nd, h.sub, h.le, ?_, by simp, by simp⟩
          refine ⟨ho.1, ho.2.1, ho.2.2.1, fun x hx => ?_⟩
          rcases ho.2.2.2 x hx with h1 | h1
          · simp only [List.mem_cons] at h1
            rcases h1 with rfl | h1
            · exact Or.inr hg
            · exact Or.inl h1
          · exact Or.inr h1
        · rw [if_neg hg]; exact h
    | _ => simp only [Sys.step, hw]; exact h
  | timeout =>
    cases hw : s.waiter with
    | draining r tw =>
      have ho := h.oks
      rw [hw] at ho
      dsimp only at ho
      cases tw with
      | nil => simp only [Sys.step, hw]; exact h
      | cons g gs =>
        simp only [Sys.step, hw]
        by_cases hg : s.isDone g = true
        · rw [if_pos hg]; exact h
        · rw [if_neg hg]
          refine ⟨h.nd, h.sub, h.le, ?_, by simp, by simp⟩
          exact ⟨r, ho.1, ho.2.1, ho.2.2.1⟩
    | _ => simp only [Sys.step, hw]; exact h

theorem step_spawned (name : H → N) (s : Sys H N V) (ev : Ev H V) :
    (s.step name ev).spawned = s.spawned := by
  cases ev with
  | finish g r => simp only [Sys.step]; split <;> rfl
  | take =>
    simp only [Sys.step]
    split
    · split
      · rfl
      · split <;> rfl
    · rfl
  | join => simp only [Sys.step]; split <;> (try rfl) ; split <;> rfl
  | timeout => simp only [Sys.step]; split <;> (try rfl) ; split <;> rfl

theorem inv_run (name : H → N) (evs : List (Ev H V)) (s : Sys H N V)
    (hname : (s.spawned.map name).Nodup) (h : Inv name s) :
    Inv name (s.run name evs) ∧ (s.run name evs).spawned = s.spawned := by
  induction evs generalizing s with
  | nil => exact ⟨h, rfl⟩
  | cons ev evs ih =>
    have h1 := step_spawned name s ev
    obtain ⟨h2, h3⟩ := ih (s.step name ev) (by rw [h1]; exact hname) (inv_step name s hname h ev)
    exact ⟨h2, h3.trans h1⟩

/-- C21, success: whatever the order in which the hooked functions finish, if `run_hooks` returns
then every one of them has finished and succeeded, and the result has exactly one entry per part
with a hooked function, in the order the hooks were given, holding what that part returned. -/
theorem hooks_returned (hooks : List H) (registered : H → Bool) (name : H → N)
    (hname : ((hooks.filter registered).map name).Nodup) (evs : List (Ev H V)) :
    let s := (start hooks registered name : Sys H N V).run name evs
    s.waiter = .returned →
    Dict.keys s.acc = (hooks.filter registered).map name ∧
    ∀ h ∈ hooks.filter registered, ∃ v, (h, .ok v) ∈ s.done ∧
      Dict.get? s.acc (name h) = some (some v) ∧ s.stopped = false := by
  intro s hret
  obtain ⟨hi, hsp⟩ := inv_run name evs (start hooks registered name : Sys H N V) hname
    (inv_start hooks registered name hname)
  have hsp' : s.spawned = hooks.filter registered := hsp
  have hi' : Inv name s := hi
  have ho := hi'.oks
  rw [hret] at ho
  dsimp only at ho
  obtain ⟨h1, h2, h3, h4, h5⟩ := ho
  refine ⟨by rw [h3, hsp'], ?_⟩
  intro h hh
  have hrem := hi'.fin hret
  have hd : h ∈ (s.done.take s.taken).map (·.1) := by
    by_cases hm : h ∈ (s.done.take s.taken).map (·.1)
    · exact hm
    · have := (h2 h).2 ⟨by rw [hsp']; exact hh, hm⟩
      rw [hrem] at this; simp at this
  obtain ⟨⟨g, r⟩, hd', rfl⟩ := List.mem_map.1 hd
  have hok := h1 _ hd'
  cases r with
  | ok v => exact ⟨v, List.mem_of_mem_take hd', h4 _ hd' v rfl, h5⟩
  | aborted => cases hok
  | error m => cases hok

/-- C21, failure: if `run_hooks` raises the failure of a part then it is the first failure in order
of completion, every hooked function has finished, and unless the failure was an abort every hooked
function was told to stop. -/
theorem hooks_raised (hooks : List H) (registered : H → Bool) (name : H → N)
    (hname : ((hooks.filter registered).map name).Nodup) (evs : List (Ev H V)) (r : Result V) :
    let s := (start hooks registered name : Sys H N V).run name evs
    s.waiter = .raised r →
    r.isOk = false ∧ firstFailure s.done = some r ∧
    (∀ h ∈ hooks.filter registered, ∃ r', (h, r') ∈ s.done) ∧
    (s.stopped = true ↔ r ≠ .aborted) := by
  intro s hret
  obtain ⟨hi, hsp⟩ := inv_run name evs (start hooks registered name : Sys H N V) hname
    (inv_start hooks registered name hname)
  have hsp' : s.spawned = hooks.filter registered := hsp
  have hi' : Inv name s := hi
  have ho := hi'.oks
  rw [hret] at ho
  dsimp only at ho
  refine ⟨ho.1, ?_, ?_, ho.2.2.1⟩
  · have h1 := ho.2.1
    unfold firstFailure at h1 ⊢
    rw [← List.take_append_drop s.taken s.done, List.find?_append]
    cases hf : (s.done.take s.taken).find? (fun d => d.2.isOk = false) with
    | none => rw [hf] at h1; simp at h1
    | some x => rw [hf] at h1; simpa using h1
  · intro h hh
    have := ho.2.2.2 h (by rw [hsp']; exact hh)
    rw [isDone_iff] at this
    obtain ⟨⟨g, r'⟩, hd, rfl⟩ := List.mem_map.1 this
    exact ⟨r', hd⟩

/-- C21, the only other way to end: a function that was told to stop (or a child of which was
aborted) does not finish in time after another one failed. -/
theorem hooks_timedOut (hooks : List H) (registered : H → Bool) (name : H → N)
    (hname : ((hooks.filter registered).map name).Nodup) (evs : List (Ev H V)) :
    let s := (start hooks registered name : Sys H N V).run name evs
    s.waiter = .timedOut → ∃ r, r.isOk = false ∧ firstFailure s.done = some r ∧
      (s.stopped = true ↔ r ≠ .aborted) := by
  intro s hret
  obtain ⟨hi, hsp⟩ := inv_run name evs (start hooks registered name : Sys H N V) hname
    (inv_start hooks registered name hname)
  have hi' : Inv name s := hi
  have ho := hi'.oks
  rw [hret] at ho
  dsimp only at ho
  obtain ⟨r, h0, h1, h2⟩ := ho
  refine ⟨r, h0, ?_, h2⟩
  unfold firstFailure at h1 ⊢
  rw [← List.take_append_drop s.taken s.done, List.find?_append]
  cases hf : (s.done.take s.taken).find? (fun d => d.2.isOk = false) with
  | none => rw [hf] at h1; simp at h1
  | some x => rw [hf] at h1; simpa using h1

/-- C21: no deadlock.  When all hooked functions have finished the waiter can always make progress:
as long as it has neither returned nor raised, taking from the queue or joining changes the state. -/
theorem hooks_progress (hooks : List H) (registered : H → Bool) (name : H → N)
    (hname : ((hooks.filter registered).map name).Nodup) (evs : List (Ev H V)) :
    let s := (start hooks registered name : Sys H N V).run name evs
    (∀ h ∈ hooks.filter registered, s.isDone h = true) →
    (s.waiter = .looping → (s.step name .take).taken = s.taken + 1) ∧
    (∀ r tw, s.waiter = .draining r tw → (s.step name .join).waiter ≠ s.waiter) := by
  intro s hall
  obtain ⟨hi, hsp⟩ := inv_run name evs (start hooks registered name : Sys H N V) hname
    (inv_start hooks registered name hname)
  have hsp' : s.spawned = hooks.filter registered := hsp
  have hi' : Inv name s := hi
  refine ⟨?_, ?_⟩
  · intro hl
    have ho := hi'.oks
    rw [hl] at ho
    dsimp only at ho
    obtain ⟨g, hg⟩ := List.exists_mem_of_ne_nil _ (hi'.loop hl)
    obtain ⟨hg1, hg2⟩ := (ho.2.1 g).1 hg
    have hgd := (isDone_iff s g).1 (hall g (by rw [← hsp']; exact hg1))
    have hlt : s.taken < s.done.length := by
      by_cases hlt : s.taken < s.done.length
      · exact hlt
      · rw [List.take_of_length_le (by omega)] at hg2
        exact absurd hgd hg2
    simp only [Sys.step, hl, List.getElem?_eq_getElem hlt]
    split <;> rfl
  · intro r tw hd
    have ho := hi'.oks
    cases tw with
    | nil => simp [Sys.step, hd]
    | cons g gs =>
      have hgs : ∀ (evs : List (Ev H V)) (s : Sys H N V),
          (∀ r tw, s.waiter = .draining r tw → ∀ x ∈ tw, x ∈ s.spawned) →
          ∀ r tw, (s.run name evs).waiter = .draining r tw → ∀ x ∈ tw, x ∈ (s.run name evs).spawned := by
        intro evs
        induction evs with
        | nil => intro s h; exact h
        | cons ev evs ih =>
          intro s h
          refine ih (s.step name ev) ?_
          intro r tw hw x hx
          rw [step_spawned]
          cases ev with
          | finish g' r' => simp only [Sys.step] at hw; split at hw <;> exact h r tw hw x hx
          | take =>
            simp only [Sys.step] at hw
            split at hw
            · rename_i hwl
              split at hw
              · exact h r tw hw x hx
              · split at hw
                · split at hw <;> cases hw
                · simp only [Waiter.draining.injEq] at hw; rw [hw.2]; exact hx
                · simp only [Waiter.draining.injEq] at hw; rw [hw.2]; exact hx
            · exact h r tw hw x hx
          | join =>
            simp only [Sys.step] at hw
            split at hw
            · cases hw
            · rename_i r2 g2 gs2 hw2
              split at hw
              · simp only [Waiter.draining.injEq] at hw
                exact h _ _ hw2 x (by rw [hw.2]; simp [hx])
              · exact h _ _ hw x hx
            · exact h r tw hw x hx
          | timeout =>
            simp only [Sys.step] at hw
            split at hw
            · split at hw
              · exact h _ _ hw x hx
              · cases hw
            · exact h r tw hw x hx
      have hmem := hgs evs (start hooks registered name : Sys H N V) (by
        intro r tw hw
        unfold start at hw
        dsimp only at hw
        split at hw <;> cases hw) r (g :: gs) hd g (by simp)
      have hdone := hall g (by rw [← hsp']; exact hmem)
      simp [Sys.step, hd, hdone]

/-! ### Non-vacuity -/

def ex1 : Sys Nat Nat Nat := (start [1, 2, 3] (fun h => h ≠ 2) (fun h => h * 10)).run (fun h => h * 10)
  [.finish 3 (.ok 33), .take, .take, .finish 1 (.ok 11), .take]
example : ex1.waiter = .returned ∧ ex1.acc = [(10, some 11), (30, some 33)] := by decide
def ex2 : Sys Nat Nat Nat := (start [1, 2, 3] (fun _ => true) (fun h => h * 10)).run (fun h => h * 10)
  [.finish 3 (.ok 33), .finish 2 (.error 5), .take, .take, .finish 1 .aborted, .join, .join, .join, .join]
example : ex2.waiter = .raised (.error 5) ∧ ex2.stopped = true := by decide

end Verif.Props.Hooks
