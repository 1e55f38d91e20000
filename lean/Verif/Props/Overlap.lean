import Verif.Spec.Overlap
import Verif.Props.PandALife
/-!
C110: calls of a block that overlap.
-/
namespace Verif.Props.Overlap
open Verif Verif.Overlap Verif.Spec.Overlap

theorem goError_settled {s : St} (h : Settled s ∨ s = .resetting ∨ s = .disabling ∨ s = .saving ∨ s = .loading) :
    Settled (goError s) := by
  rcases h with (rfl | rfl | rfl) | rfl | rfl | rfl | rfl <;> simp [Settled] <;> decide

/-- What holds at any time -/
structure Inv (b : Blk) : Prop where
  states : Settled b.st ∨ b.st = .resetting ∨ b.st = .disabling ∨ b.st = .saving ∨ b.st = .loading
  owner : Settled b.st ∨ ∃ p ∈ b.jobs, p.2.start = b.st ∧ ∀ q ∈ b.jobs, q.1 ≤ p.1
  below : ∀ p ∈ b.jobs, p.1 < b.next
  once : (b.jobs.map (·.1) ++ b.ended.map (·.1)).Perm (List.range b.next)

theorem final_settled (k : Kind) : Settled k.final := by cases k <;> simp [Kind.final, Settled]

theorem start_states (k : Kind) : k.start = .resetting ∨ k.start = .disabling ∨ k.start = .saving ∨ k.start = .loading := by
  cases k <;> simp [Kind.start]

theorem nodup_ids {b : Blk} (v : Inv b) : (b.jobs.map (·.1)).Nodup := by
  have := v.once.nodup_iff.mpr List.nodup_range
  exact (List.nodup_append.mp this).1

theorem filter_ne_perm : ∀ (l : List (Nat × Kind)) (id : Nat), (l.map (·.1)).Nodup → (∃ k, (id, k) ∈ l) →
    (l.map (·.1)).Perm ((l.filter (·.1 ≠ id)).map (·.1) ++ [id])
  | [], _, _, h => by obtain ⟨k, hk⟩ := h; cases hk
  | x :: l, id, n, h => by
    rw [List.map_cons, List.nodup_cons] at n
    by_cases e : x.1 = id
    · subst e
      have : l.filter (·.1 ≠ x.1) = l := by
        rw [List.filter_eq_self]
        intro y hy
        simp only [ne_eq, decide_not, Bool.not_eq_true', decide_eq_false_iff_not]
        intro c
        exact n.1 (List.mem_map.mpr ⟨y, hy, c⟩)
      simp only [List.filter_cons, ne_eq, not_true_eq_false, decide_false, Bool.false_eq_true, if_false, List.map_cons]
      rw [show (l.filter fun y => decide ¬ y.1 = x.1) = l from this]
      exact (List.perm_append_comm (l₁ := [x.1]))
    · have h' : ∃ k, (id, k) ∈ l := by
        obtain ⟨k, hk⟩ := h
        rcases List.mem_cons.mp hk with rfl | hk
        · exact absurd rfl e
        · exact ⟨k, hk⟩
      have ih := filter_ne_perm l id n.2 h'
      have : (x :: l).filter (·.1 ≠ id) = x :: l.filter (·.1 ≠ id) := by simp [List.filter_cons, e]
      rw [this]
      exact ih.cons _

theorem kindOf_mem {b : Blk} {id : Nat} {k : Kind} (h : kindOf b id = some k) : (id, k) ∈ b.jobs := by
  unfold kindOf at h
  cases e : b.jobs.find? (·.1 = id) with
  | none => rw [e] at h; cases h
  | some x =>
    rw [e] at h
    have m := List.mem_of_find?_eq_some e
    have q := List.find?_some e
    simp at q h
    rw [← q, ← h]; exact m

theorem kindOf_of_mem {b : Blk} (v : Inv b) {id : Nat} {k : Kind} (h : (id, k) ∈ b.jobs) : kindOf b id = some k := by
  have n := nodup_ids v
  have go : ∀ l : List (Nat × Kind), (l.map (·.1)).Nodup → (id, k) ∈ l → l.find? (·.1 = id) = some (id, k) := by
    intro l
    induction l with
    | nil => intro _ h; cases h
    | cons x l ih =>
      intro n h
      rw [List.map_cons, List.nodup_cons] at n
      rcases List.mem_cons.mp h with rfl | h
      · simp [List.find?_cons]
      · have : x.1 ≠ id := by
          intro c
          exact n.1 (List.mem_map.mpr ⟨(id, k), h, c.symm⟩)
        rw [List.find?_cons_of_neg (by simpa using this)]
        exact ih n.2 h
  rw [kindOf, go _ n h]; rfl

theorem once_leave {b : Blk} (v : Inv b) {id : Nat} {k : Kind} (h : (id, k) ∈ b.jobs) (ok : Bool) :
    ((leave b id ok).jobs.map (·.1) ++ (leave b id ok).ended.map (·.1)).Perm (List.range b.next) := by
  refine List.Perm.trans ?_ v.once
  have p := filter_ne_perm b.jobs id (nodup_ids v) ⟨k, h⟩
  refine List.Perm.trans ?_ (p.append_right _).symm
  show (_ ++ (b.ended ++ [(id, ok)]).map (·.1)).Perm _
  rw [List.map_append, List.append_assoc]
  exact List.Perm.append_left _ List.perm_append_comm

theorem inv_call {b : Blk} (v : Inv b) (k : Kind) : Inv (call b k) := by
  have refused : ∀ s : St, (Settled s ∨ s = .resetting ∨ s = .disabling ∨ s = .saving ∨ s = .loading) →
      (Settled s ∨ ∃ p ∈ b.jobs, p.2.start = s ∧ ∀ q ∈ b.jobs, q.1 ≤ p.1) →
      Inv { b with st := s, next := b.next + 1, ended := b.ended ++ [(b.next, false)] } := by
    intro s a o
    refine ⟨a, o, fun p hp => Nat.lt_succ_of_lt (v.below p hp), ?_⟩
    show (b.jobs.map (·.1) ++ (b.ended ++ [(b.next, false)]).map (·.1)).Perm (List.range (b.next + 1))
    rw [List.map_append, ← List.append_assoc, List.range_succ]
    exact v.once.append_right _
  unfold call
  split
  · split
    · refine ⟨Or.inr (start_states k), Or.inr ⟨(b.next, k), by simp, rfl, ?_⟩, ?_, ?_⟩
      · intro q hq
        rcases List.mem_append.mp hq with hq | hq
        · exact Nat.le_of_lt (v.below q hq)
        · simp at hq; subst hq; exact Nat.le_refl _
      · intro q hq
        rcases List.mem_append.mp hq with hq | hq
        · exact Nat.lt_succ_of_lt (v.below q hq)
        · simp at hq; subst hq; exact Nat.lt_succ_self _
      · show ((b.jobs ++ [(b.next, k)]).map (·.1) ++ b.ended.map (·.1)).Perm (List.range (b.next + 1))
        rw [List.map_append, List.append_assoc, List.range_succ]
        refine List.Perm.trans ?_ (v.once.append_right _)
        rw [List.append_assoc]
        exact List.Perm.append_left _ List.perm_append_comm
    · exact refused _ (Or.inl (goError_settled v.states)) (Or.inl (goError_settled v.states))
  · exact refused _ v.states v.owner

theorem inv_step {b : Blk} (v : Inv b) (e : Ev) : Inv (step b e) := by
  cases e with
  | call k => exact inv_call v k
  | done id =>
    rw [step]
    split
    · exact v
    · rename_i k hk
      have m := kindOf_mem hk
      split
      · exact ⟨Or.inl (final_settled k), Or.inl (final_settled k),
          fun p hp => v.below p (List.mem_filter.mp hp).1, once_leave v m true⟩
      · exact ⟨Or.inl (goError_settled v.states), Or.inl (goError_settled v.states),
          fun p hp => v.below p (List.mem_filter.mp hp).1, once_leave v m false⟩
  | fails id =>
    rw [step]
    split
    · exact v
    · rename_i k hk
      exact ⟨Or.inl (goError_settled v.states), Or.inl (goError_settled v.states),
          fun p hp => v.below p (List.mem_filter.mp hp).1, once_leave v (kindOf_mem hk) false⟩
  | error => exact ⟨Or.inl (goError_settled v.states), Or.inl (goError_settled v.states), v.below, v.once⟩

theorem inv_run : ∀ (es : List Ev) (b : Blk), Inv b → Inv (run b es)
  | [], _, v => v
  | e :: es, _, v => inv_run es _ (inv_step v e)

theorem reach (es : List Ev) : Inv (run {} es) :=
  inv_run es _ ⟨Or.inl (Or.inr (Or.inl rfl)), Or.inl (Or.inr (Or.inl rfl)), by simp, by simp⟩

/-- **C110**: a block with no call under way is Ready, Disabled or in Fault: it is never left half way -/
theorem settles (es : List Ev) (h : (run {} es).jobs = []) : Settled (run {} es).st := by
  rcases (reach es).owner with o | ⟨p, hp, -⟩
  · exact o
  · rw [h] at hp; cases hp

/-- **C110**: a state that says that something is under way is that of the call that was begun last -/
theorem says_what (es : List Ev) (h : ¬ Settled (run {} es).st) :
    ∃ p ∈ (run {} es).jobs, p.2.start = (run {} es).st ∧ ∀ q ∈ (run {} es).jobs, q.1 ≤ p.1 := by
  rcases (reach es).owner with o | o
  · exact absurd o h
  · exact o

/-- **C110**: every call is either under way or has ended once -/
theorem once (es : List Ev) :
    ((run {} es).jobs.map (·.1) ++ (run {} es).ended.map (·.1)).Perm (List.range (run {} es).next) := (reach es).once

/-- **C110**: a call is taken or it raises at once; one of a client that is not taken leaves the block as it is, one of the process
puts it in Fault unless it is Disabled -/
theorem begins (es : List Ev) (k : Kind) :
    (Taken k (run {} es).st → (step (run {} es) (.call k)).st = shown k ∧
      (step (run {} es) (.call k)).jobs = (run {} es).jobs ++ [((run {} es).next, k)] ∧
      (step (run {} es) (.call k)).ended = (run {} es).ended) ∧
    (¬ Taken k (run {} es).st → (step (run {} es) (.call k)).jobs = (run {} es).jobs ∧
      (step (run {} es) (.call k)).ended = (run {} es).ended ++ [((run {} es).next, false)] ∧
      (step (run {} es) (.call k)).st = if k = .init ∨ k = .halt then (if (run {} es).st = .disabled then .disabled else .fault)
        else (run {} es).st) := by
  have v := (reach es).states
  revert v
  generalize run {} es = b
  obtain ⟨st, jobs, next, ended⟩ := b
  simp only [Settled]
  rintro ((rfl | rfl | rfl) | rfl | rfl | rfl | rfl) <;> cases k <;>
    exact ⟨fun h => by first | exact absurd h (by decide) | exact ⟨rfl, rfl, rfl⟩,
      fun h => by first | exact absurd (by decide) h | exact ⟨rfl, rfl, rfl⟩⟩

/-- **C110**: a call that raises, or something that fails in the background, puts the block in Fault unless it is Disabled; the call has
not returned -/
theorem raised (es : List Ev) (id : Nat) (k : Kind) (h : (id, k) ∈ (run {} es).jobs) :
    (step (run {} es) (.fails id)).st = (if (run {} es).st = .disabled then .disabled else .fault) ∧
    (step (run {} es) (.fails id)).ended = (run {} es).ended ++ [(id, false)] ∧
    (step (run {} es) .error).st = (if (run {} es).st = .disabled then .disabled else .fault) := by
  have v := reach es
  have kk := kindOf_of_mem v h
  have v := v.states
  have e : goError (run {} es).st = if (run {} es).st = .disabled then .disabled else .fault := by
    revert v
    generalize (run {} es).st = st
    simp only [Settled]
    rintro ((rfl | rfl | rfl) | rfl | rfl | rfl | rfl) <;> rfl
  simp only [step, kk]
  exact ⟨e, rfl, e⟩

/-- **C110**: a call whose work is done returns just if the block may go to its last state from where it is, and then it does; if not
it raises and leaves the block in Fault or Disabled -/
theorem returns_iff (es : List Ev) (id : Nat) (k : Kind) (h : (id, k) ∈ (run {} es).jobs) :
    ((id, true) ∈ (step (run {} es) (.done id)).ended ↔ allowed (run {} es).st k.final = true) ∧
    (allowed (run {} es).st k.final = true → (step (run {} es) (.done id)).st = k.final) ∧
    (allowed (run {} es).st k.final ≠ true →
      (step (run {} es) (.done id)).st = .fault ∨ (step (run {} es) (.done id)).st = .disabled) := by
  have v := reach es
  have kk := kindOf_of_mem v h
  have notEnded : (id, true) ∉ (run {} es).ended := by
    intro c
    have n := v.once.nodup_iff.mpr List.nodup_range
    have d := (List.nodup_append.mp n).2.2
    exact d id (List.mem_map.mpr ⟨_, h, rfl⟩) id (List.mem_map.mpr ⟨_, c, rfl⟩) rfl
  rw [step, kk]
  dsimp only
  by_cases a : allowed (run {} es).st k.final = true
  · rw [if_pos a]
    exact ⟨by simp [leave, a], fun _ => rfl, fun n => absurd a n⟩
  · rw [if_neg a]
    refine ⟨?_, fun n => absurd n a, fun _ => ?_⟩
    · simp [leave, a, notEnded]
    · have s := v.states
      revert a s
      generalize (run {} es).st = t
      intro a s
      show goError t = _ ∨ goError t = _
      rcases s with (rfl | rfl | rfl) | rfl | rfl | rfl | rfl
      all_goals first | (left; decide) | (right; decide)

/-- **C110**: in other words, disable() returns just if the block is still Disabling when its work is done, and the others just if
the block is Resetting, Saving or Loading, be it for another call -/
theorem returns_when (es : List Ev) (id : Nat) (k : Kind) (h : (id, k) ∈ (run {} es).jobs) :
    (id, true) ∈ (step (run {} es) (.done id)).ended ↔
      if k = .disable ∨ k = .halt then (run {} es).st = .disabling
      else (run {} es).st = .resetting ∨ (run {} es).st = .saving ∨ (run {} es).st = .loading := by
  rw [(returns_iff es id k h).1]
  generalize (run {} es).st = s
  cases k <;> cases s <;> decide

/-- **C110**: a block that is Disabled stays so until it is reset, whatever else is called or ends -/
theorem stays_disabled (es fs : List Ev) (h : (run {} es).st = .disabled) (n : ∀ e ∈ fs, ¬ Wakes e) :
    (run {} (es ++ fs)).st = .disabled := by
  have go : ∀ (fs : List Ev) (b : Blk), b.st = .disabled → (∀ e ∈ fs, ¬ Wakes e) → (run b fs).st = .disabled := by
    intro fs
    induction fs with
    | nil => intro b h _; exact h
    | cons e fs ih =>
      intro b h n
      refine ih (step b e) ?_ (fun x hx => n x (List.mem_cons_of_mem _ hx))
      have ne := n e List.mem_cons_self
      cases e with
      | call k =>
        rw [step, call, h]
        cases k <;> first | exact absurd trivial ne | skip
        all_goals (repeat' split) <;> first | rfl | (rename_i a; exact absurd a (by decide)) | skip
        all_goals simp_all
        all_goals decide
      | done id =>
        rw [step]
        split
        · exact h
        · rename_i k _
          rw [h]
          cases k <;> rfl
      | fails id =>
        rw [step]
        split
        · exact h
        · rw [h]; rfl
      | error => rw [step, h]; rfl
  rw [show run {} (es ++ fs) = run (run {} es) fs by simp [run]]
  exact go fs _ h n

/-- **C110**: a block with no call under way stays as it is until something is called or fails -/
theorem stays (es fs : List Ev) (h : (run {} es).jobs = []) (n : ∀ e ∈ fs, Untouched e) : run {} (es ++ fs) = run {} es := by
  have go : ∀ (fs : List Ev) (b : Blk), b.jobs = [] → (∀ e ∈ fs, Untouched e) → run b fs = b := by
    intro fs
    induction fs with
    | nil => intro b _ _; rfl
    | cons e fs ih =>
      intro b h n
      have : step b e = b := by
        cases e with
        | call k => exact absurd (n _ List.mem_cons_self) (by simp [Untouched])
        | error => exact absurd (n _ List.mem_cons_self) (by simp [Untouched])
        | done id => simp [step, kindOf, h]
        | fails id => simp [step, kindOf, h]
      show run (step b e) fs = b
      rw [this]
      exact ih b h (fun x hx => n x (List.mem_cons_of_mem _ hx))
  rw [show run {} (es ++ fs) = run (run {} es) fs by simp [run]]
  exact go fs _ h n

/-- One call at a time -/
def One (b : Blk) : Prop := (b.jobs = [] ∧ Settled b.st) ∨ ∃ p, b.jobs = [p] ∧ b.st = p.2.start

theorem one_step {b : Blk} (o : One b) (e : Ev) (c : ∀ k, e = .call k → b.jobs = []) (n : e ≠ .error) : One (step b e) := by
  cases e with
  | error => exact absurd rfl n
  | call k =>
    have hj := c k rfl
    rcases o with ⟨_, s⟩ | ⟨p, h, _⟩
    · rw [step, call]
      split
      · split
        · exact Or.inr ⟨(b.next, k), by simp [hj], rfl⟩
        · exact Or.inl ⟨hj, goError_settled (Or.inl s)⟩
      · exact Or.inl ⟨hj, s⟩
    · rw [h] at hj; cases hj
  | done id =>
    rcases o with ⟨h, s⟩ | ⟨p, h, s⟩
    · left; simp [step, kindOf, h, s]
    · by_cases e : p.1 = id
      · left
        have kk : kindOf b id = some p.2 := by simp [kindOf, h, e]
        have l : b.jobs.filter (·.1 ≠ id) = [] := by simp [h, e]
        rw [step, kk]
        dsimp only
        split
        · exact ⟨l, final_settled _⟩
        · refine ⟨l, goError_settled (Or.inr ?_)⟩
          rw [s]; exact start_states _
      · right
        have kk : kindOf b id = none := by simp [kindOf, h, e]
        rw [step, kk]; exact ⟨p, h, s⟩
  | fails id =>
    rcases o with ⟨h, s⟩ | ⟨p, h, s⟩
    · left; simp [step, kindOf, h, s]
    · by_cases e : p.1 = id
      · left
        have kk : kindOf b id = some p.2 := by simp [kindOf, h, e]
        have l : b.jobs.filter (·.1 ≠ id) = [] := by simp [h, e]
        rw [step, kk]
        dsimp only
        refine ⟨l, goError_settled (Or.inr ?_)⟩
        rw [s]; exact start_states _
      · right
        have kk : kindOf b id = none := by simp [kindOf, h, e]
        rw [step, kk]; exact ⟨p, h, s⟩

theorem one_run : ∀ (es : List Ev) (b : Blk), One b → Alone b es → One (run b es)
  | [], _, o, _ => o
  | e :: es, _, o, a => one_run es _ (one_step o e a.1 a.2.1) a.2.2

/-- **C110** in part: one call at a time, a block that is Ready, Disabled or in Fault has no call under way -/
theorem settled_is_quiet_partial (es : List Ev) (a : Alone {} es) (h : Settled (run {} es).st) : (run {} es).jobs = [] := by
  rcases one_run es {} (Or.inl ⟨rfl, Or.inr (Or.inl rfl)⟩) a with ⟨o, _⟩ | ⟨p, _, s⟩
  · exact o
  · rw [s] at h
    cases k : p.2 <;> rw [k] at h <;> simp [Kind.start, Settled] at h

/-- **C110** in part: one call at a time, a call whose work is done returns -/
theorem returns_partial (es : List Ev) (a : Alone {} es) (id : Nat) (k : Kind) (h : (id, k) ∈ (run {} es).jobs) :
    (id, true) ∈ (step (run {} es) (.done id)).ended ∧ (step (run {} es) (.done id)).st = k.final := by
  have s : allowed (run {} es).st k.final = true := by
    rcases one_run es {} (Or.inl ⟨rfl, Or.inr (Or.inl rfl)⟩) a with ⟨o, _⟩ | ⟨p, o, s⟩
    · rw [o] at h; cases h
    · rw [o] at h
      simp at h; subst h
      rw [s]; show allowed k.start k.final = true; cases k <;> decide
  obtain ⟨x, y, _⟩ := returns_iff es id k h
  exact ⟨x.mpr s, y s⟩

/-! ### A PandA, one call at a time -/

/-- The manager with its one call -/
def Same (p : Pan) (m : PandALife.Mgr) : Prop := p.m = { m with job := none } ∧ p.jobs = m.job.toList

theorem same_step {p : Pan} {m : PandALife.Mgr} (h : Same p m) (e : PEv) (c : ∀ j, e = .call j → p.jobs = []) :
    ∃ es, Same (pstep p e) (PandALife.run m es) := by
  obtain ⟨h1, h2⟩ := h
  cases e with
  | call j =>
    have hj : m.job = none := by
      have := c j rfl
      rw [h2] at this
      cases hm : m.job with
      | none => rfl
      | some x => rw [hm] at this; cases this
    have hm : { p.m with job := none } = m := by rw [h1]; cases m; simp at hj; subst hj; rfl
    have hm' : p.m = m := by rw [h1]; cases m; simp at hj; subst hj; rfl
    unfold pstep
    dsimp only
    split
    · refine ⟨[.call j], ?_, ?_⟩
      · show _ = { PandALife.call m j with job := none }
        rw [hm]
      · show _ = (PandALife.call m j).job.toList
        rw [hm, h2, hj]; rfl
    · exact ⟨[], h1, h2⟩
  | go i r =>
    unfold pstep
    dsimp only
    cases hj : m.job with
    | none =>
      rw [hj] at h2
      refine ⟨[], ?_⟩
      rw [h2]
      exact ⟨h1, by rw [show PandALife.run m [] = m from rfl, hj]; exact h2⟩
    | some x =>
      rw [hj] at h2
      cases i with
      | succ i =>
        refine ⟨[], ?_⟩
        rw [h2]
        exact ⟨h1, by rw [show PandALife.run m [] = m from rfl, hj]; exact h2⟩
      | zero =>
        refine ⟨[.go r], ?_⟩
        have hm : { p.m with job := some x } = m := by rw [h1]; cases m; simp at hj; subst hj; rfl
        rw [h2]
        dsimp only [Option.toList, List.getElem?_cons_zero]
        rw [hm]
        refine ⟨rfl, ?_⟩
        show _ = (PandALife.go m r).job.toList
        cases (PandALife.go m r).job <;> rfl
  | poll i =>
    refine ⟨[.poll i], ?_, ?_⟩
    · show PandALife.step p.m (.poll i) = { PandALife.step m (.poll i) with job := none }
      rw [h1]; simp only [PandALife.step]; split <;> rfl
    · show p.jobs = (PandALife.step m (.poll i)).job.toList
      rw [h2]; simp only [PandALife.step]; split <;> rfl
  | pollFail i =>
    refine ⟨[.pollFail i], ?_, ?_⟩
    · show PandALife.step p.m (.pollFail i) = { PandALife.step m (.pollFail i) with job := none }
      rw [h1]; simp only [PandALife.step, PandALife.goError]
      repeat' split
      all_goals rfl
    · show p.jobs = (PandALife.step m (.pollFail i)).job.toList
      rw [h2]; simp only [PandALife.step, PandALife.goError]
      repeat' split
      all_goals rfl
  | take i =>
    refine ⟨[.take i], ?_, ?_⟩
    · show PandALife.step p.m (.take i) = { PandALife.step m (.take i) with job := none }
      rw [h1]; simp only [PandALife.step]; split <;> rfl
    · show p.jobs = (PandALife.step m (.take i)).job.toList
      rw [h2]; simp only [PandALife.step]; split <;> rfl

theorem same_run : ∀ (es : List PEv) (p : Pan) (m : PandALife.Mgr), Same p m → PAlone p es →
    ∃ fs, Same (prun p es) (PandALife.run m fs)
  | [], _, _, h, _ => ⟨[], h⟩
  | e :: es, p, m, h, a => by
    obtain ⟨f1, h1⟩ := same_step h e a.1
    obtain ⟨f2, h2⟩ := same_run es _ _ h1 a.2
    refine ⟨f1 ++ f2, ?_⟩
    have : PandALife.run m (f1 ++ f2) = PandALife.run (PandALife.run m f1) f2 := by simp [PandALife.run, List.foldl_append]
    rw [this]; exact h2

/-- **C110** in part: one call at a time, a PandA whose manager is Disabled is not connected to and not polled -/
theorem panda_quiet_partial (es : List PEv) (a : PAlone {} es) (h : (prun {} es).m.st = .disabled) :
    (prun {} es).m.client = false ∧ ∀ i, (pstep (prun {} es) (.poll i)).m.polls = (prun {} es).m.polls := by
  obtain ⟨fs, s1, s2⟩ := same_run es {} PandALife.start ⟨rfl, rfl⟩ a
  rw [s1] at h
  obtain ⟨q1, q2⟩ := PandALife.disabled_is_quiet fs h
  refine ⟨by rw [s1]; exact q2, fun i => ?_⟩
  have l : (PandALife.run PandALife.start fs).live = [] := by
    have := (Decidable.not_not.mp (fun c => q1 ((PandALife.polled_iff _).2 c)))
    exact this
  rw [s1]
  simp only [pstep, PandALife.step, s1, l]
  rfl

/-! ### Against the property -/

/-- Disabled while the parts are still being reset -/
theorem disabled_but_busy : (run {} [.call .reset, .call .disable, .done 1]).st = .disabled ∧
    (run {} [.call .reset, .call .disable, .done 1]).jobs = [(0, .reset)] ∧
    (run {} [.call .reset, .call .disable, .done 1]).ended = [(1, true)] := by decide +kernel

/-- Ready while the parts are still being reset: the first reset() makes the block Ready when the second has only begun, which then
raises and leaves the block in Fault although everything worked -/
theorem ready_but_busy :
    (run {} [.call .reset, .call .disable, .done 1, .call .reset, .done 0]).st = .ready ∧
    (run {} [.call .reset, .call .disable, .done 1, .call .reset, .done 0]).jobs = [(2, .reset)] ∧
    (run {} [.call .reset, .call .disable, .done 1, .call .reset, .done 0, .done 2]).st = .fault ∧
    (run {} [.call .reset, .call .disable, .done 1, .call .reset, .done 0, .done 2]).ended
      = [(1, true), (0, true), (2, false)] := by decide +kernel

/-- disable() raises and leaves the block in Fault, as a reset() that was under way ends before it -/
theorem disable_raises : (run {} [.call .reset, .call .disable, .done 0, .done 1]).st = .fault ∧
    (run {} [.call .reset, .call .disable, .done 0, .done 1]).ended = [(0, false), (1, false)] := by decide +kernel

/-- When the process stops while disable() is under way, the block is left in Fault -/
theorem halt_faults : (run {} [.call .init, .done 0, .call .disable, .call .halt, .done 1]).st = .fault ∧
    (run {} [.call .init, .done 0, .call .disable, .call .halt, .done 1]).ended = [(0, true), (2, false), (1, false)] := by
  decide +kernel

/-- A manager that is Ready is disabled, reset, and disabled again while it is being connected -/
def connecting : List PEv :=
  [.call .init] ++ List.replicate 6 (.go 0 .ok) ++ [.call .disable, .go 0 .ok, .go 0 .ok, .take 0, .go 0 .ok, .go 0 .ok, .go 0 .ok,
    .call .reset, .call .disable, .go 1 .ok, .go 1 .ok, .go 1 .ok, .go 1 .ok]

/-- A PandA whose manager is Disabled is connected to and polled, and all calls have ended, after a disable() during a reset() -/
theorem polled_while_disabled : (prun {} connecting).m.st = .disabled ∧ (prun {} connecting).m.live = [] ∧
    (prun {} (connecting ++ List.replicate 5 (.go 0 .ok))).m.st = .disabled ∧
    (prun {} (connecting ++ List.replicate 5 (.go 0 .ok))).m.client = true ∧
    (prun {} (connecting ++ List.replicate 5 (.go 0 .ok))).jobs = [] ∧
    (prun {} (connecting ++ List.replicate 5 (.go 0 .ok) ++ [.poll 1])).m.polls = 1 := by decide +kernel

example : (run {} [.call .init, .done 0, .call .save, .done 1, .call .disable, .fails 2, .call .reset, .done 3]).st = .ready ∧
    (run {} [.call .init, .done 0, .call .save, .done 1, .call .disable, .fails 2, .call .reset, .done 3]).ended
      = [(0, true), (1, true), (2, false), (3, true)] := by decide +kernel

example : Alone {} [.call .init, .done 0, .call .save, .done 1, .call .disable, .fails 2, .call .reset] ∧
    (run {} [.call .init, .done 0, .call .save, .done 1, .call .disable, .fails 2, .call .reset]).jobs = [(3, .reset)] := by
  refine ⟨?_, by decide +kernel⟩
  simp only [Alone]
  refine ⟨?_, ?_, ?_, ?_, ?_, ?_, ?_, ?_, ?_, ?_, ?_, ?_, ?_, ?_, trivial⟩
  all_goals first | (intro k h; decide +kernel) | (intro k h; cases h) | (intro h; cases h)

end Verif.Props.Overlap
