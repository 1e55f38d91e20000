import Verif.Proofs.Stopping
/-!
C116: a scan that is stopped stops its detectors.
-/
namespace Verif.Props.Stopping
open Verif Verif.Stopping Verif.Spec.Stopping Verif.Proofs.Stopping

/-! ### what has become of the detectors -/

/-- When a scan becomes Aborted, its detectors are. -/
theorem aborted {s0 : Scan} (h0 : Resting s0) (evs : List Ev) (e : Ev) (hb : Becomes (s0.run evs) e .aborted) :
    ∀ d ∈ ((s0.run evs).step e).dets, d.st = .aborted := by
  have hi := run_inv (resting_inv h0) evs
  obtain ⟨-, hd, hidle, hc⟩ := call_ends hi (e := e) (by rw [hb.2]; exact fun h => hb.1 h.symm) (by simp [hb.2])
  simp only [hb.2, reduceCtorEq, and_false, false_or, or_false, and_true] at hc
  intro d hm
  rw [hd] at hm
  have := hi.2 _ _ hc.1 d hm
  simp only [Okd, Stage, hidle d hm] at this
  simpa using this

/-- When it becomes Disabled, none of them takes frames or is going to: they are Disabled, unless somebody else had begun to
disable them. -/
theorem disabled {s0 : Scan} (h0 : Resting s0) (evs : List Ev) (e : Ev) (hb : Becomes (s0.run evs) e .disabled) :
    ∀ d ∈ ((s0.run evs).step e).dets, d.st = .disabled ∨ d.st = .disabling ∨ d.st = .fault := by
  have hi := run_inv (resting_inv h0) evs
  obtain ⟨-, hd, hidle, hc⟩ := call_ends hi (e := e) (by rw [hb.2]; exact fun h => hb.1 h.symm) (by simp [hb.2])
  simp only [hb.2, reduceCtorEq, and_false, false_or, or_false, and_true] at hc
  intro d hm
  rw [hd] at hm
  have := hi.2 _ _ hc.1 d hm
  simp only [Okd, Stage, hidle d hm] at this
  simpa using this

/-- When it becomes Ready, none of those that were not faulty at the start takes frames or is going to. -/
theorem ready {s0 : Scan} (h0 : Resting s0) (evs : List Ev) (e : Ev) (hb : Becomes (s0.run evs) e .ready) :
    ∀ d ∈ ((s0.run evs).step e).dets, d.faulty = false → ¬ Active d.st := by
  have hi := run_inv (resting_inv h0) evs
  obtain ⟨-, hd, hidle, hc⟩ := call_ends hi (e := e) (by rw [hb.2]; exact fun h => hb.1 h.symm) (by simp [hb.2])
  simp only [hb.2, reduceCtorEq, and_false, false_or, or_false, and_true] at hc
  intro d hm hf
  rw [hd] at hm
  have := hi.2 _ _ hc.1 d hm hf
  simp only [hidle d hm] at this
  simp [quiet] at this
  unfold Active
  rcases this with h | h | h | h | h | h | h | h | h <;> simp [h]

/-- When a configure() makes it Armed, all that take part are Armed. -/
theorem armed {s0 : Scan} (h0 : Resting s0) (evs : List Ev) (e : Ev) (hs : (s0.run evs).st = .configuring)
    (hb : ((s0.run evs).step e).st = .armed) : ∀ d ∈ ((s0.run evs).step e).dets, d.taking → d.st = .armed := by
  have hi := run_inv (resting_inv h0) evs
  obtain ⟨-, hd, hidle, hc⟩ := call_ends hi (e := e) (by rw [hb, hs]; decide) (by simp [hb])
  simp only [hb, hs, reduceCtorEq, and_false, false_and, false_or, or_false, and_true] at hc
  intro d hm ht
  rw [hd] at hm
  have := hi.2 _ _ hc d hm ht
  simp only [Stage, hidle d hm] at this
  simpa using this

/-- When a run() has ended well, the runs of all that took part have. -/
theorem run_over {s0 : Scan} (h0 : Resting s0) (evs : List Ev) (e : Ev) (hs : (s0.run evs).st = .postrun)
    (hb : ((s0.run evs).step e).st = .armed ∨ ((s0.run evs).step e).st = .finished) :
    ∀ d ∈ ((s0.run evs).step e).dets, d.taking → d.st = .armed ∨ d.st = .finished := by
  have hi := run_inv (resting_inv h0) evs
  obtain ⟨-, hd, hidle, hc⟩ := call_ends hi (e := e) (by rw [hs]; rcases hb with h | h <;> rw [h] <;> decide)
    (by rcases hb with h | h <;> simp [h])
  simp only [hs, reduceCtorEq, and_false, false_and, false_or, or_false, true_and] at hc
  intro d hm ht
  rw [hd] at hm
  have := hi.2 _ _ hc.1 d hm ht
  simp only [Stage, hidle d hm] at this
  simpa using this

/-- When a pause() has ended well, all that take part stand still. -/
theorem held {s0 : Scan} (h0 : Resting s0) (evs : List Ev) (e : Ev) (hs : (s0.run evs).st = .seeking)
    (hb : ((s0.run evs).step e).st = .armed ∨ ((s0.run evs).step e).st = .paused) :
    ∀ d ∈ ((s0.run evs).step e).dets, d.taking → d.st = .armed ∨ d.st = .paused := by
  have hi := run_inv (resting_inv h0) evs
  obtain ⟨-, hd, hidle, hc⟩ := call_ends hi (e := e) (by rw [hs]; rcases hb with h | h <;> rw [h] <;> decide)
    (by rcases hb with h | h <;> simp [h])
  simp only [hs, reduceCtorEq, and_false, false_and, false_or, or_false, true_and] at hc
  intro d hm ht
  rw [hd] at hm
  have := hi.2 _ _ hc.1 d hm ht
  simp only [Stage, hidle d hm] at this
  simpa using this

/-! ### one call and nothing else -/

theorem at_dets {s : Scan} {i : Nat} {f : Det → Res} {Q : Det → Prop} (hq : ∀ d ∈ s.dets, Q d)
    (hf : ∀ d ∈ s.dets, Q d → (f d).raised = false ∧ Q (f d).det) :
    (s.at i f).st = s.st ∧ (s.at i f).hooks = s.hooks ∧ (s.at i f).final = s.final ∧ ∀ d ∈ (s.at i f).dets, Q d := by
  unfold Scan.at
  split
  · exact ⟨rfl, rfl, rfl, hq⟩
  · rename_i d hd
    have hm := List.mem_of_getElem? hd
    have h1 := hf d hm (hq d hm)
    rw [if_neg (by simp [h1.1])]
    refine ⟨rfl, rfl, rfl, fun x hx => ?_⟩
    rcases List.mem_or_eq_of_mem_set hx with h2 | rfl
    · exact hq x h2
    · exact h1.2

/-- What the part of a detector that can be aborted has done in an abort() -/
def AbortOk (d : Det) : Prop :=
  (d.todo = [.call .abort] ∧ d.waiting = none ∧ d.st ∈ Call.abort.writeable) ∨
  (d.todo = [] ∧ d.waiting = some .call ∧ d.st = .aborting) ∨ (d.todo = [] ∧ d.waiting = none ∧ d.st = .aborted)

theorem abortOk_go {d : Det} (h : AbortOk d) : d.go.raised = false ∧ AbortOk d.go.det := by
  rcases d with ⟨faulty, design, taking, st, todo, waiting⟩
  simp only [AbortOk] at h ⊢
  rcases h with ⟨rfl, rfl, hs⟩ | ⟨rfl, rfl, rfl⟩ | ⟨rfl, rfl, rfl⟩
  · simp [Det.go, Det.exec, Det.make, hs, Call.start]
  · simp [Det.go]
  · simp [Det.go]

theorem abortOk_ended {d : Det} (h : AbortOk d) {st : St} (hs : st ≠ .fault) (he : st ∈ ends d.st) :
    (d.ended st).raised = false ∧ AbortOk (d.ended st).det := by
  rcases d with ⟨faulty, design, taking, st0, todo, waiting⟩
  simp only [AbortOk] at h ⊢
  rcases h with ⟨rfl, rfl, h1⟩ | ⟨rfl, rfl, rfl⟩ | ⟨rfl, rfl, rfl⟩
  · cases st0 <;> simp [Call.writeable] at h1 <;> simp [ends] at he <;> simp only [Det.ended] <;>
      first | (subst he; simp_all [Call.writeable]) | (rcases he with rfl | rfl <;> simp_all [Call.writeable]) |
        (rcases he with rfl | rfl | rfl <;> simp_all [Call.writeable])
  · simp [ends] at he
    rcases he with rfl | rfl
    · simp [Det.ended]
    · exact absurd rfl hs
  · simp [ends] at he

/-- An abort() that goes on, or that has ended well -/
def Aborting (s : Scan) : Prop :=
  (s.hooks = [.abort] ∧ s.st = .aborting ∧ s.final = .aborted ∧ ∀ d ∈ s.dets, AbortOk d) ∨
  (s.hooks = [] ∧ s.st = .aborted ∧ ∀ d ∈ s.dets, d.todo = [] ∧ d.waiting = none ∧ d.st = .aborted)

theorem aborting_step {s : Scan} (hs : Aborting s) {e : Ev} (hi : Inside e) (hw : Well e) : Aborting (s.step e) := by
  have rest : ∀ d : Det, (d.todo = [] ∧ d.waiting = none ∧ d.st = .aborted) → d.go = ⟨d, false⟩ := by
    rintro ⟨faulty, design, taking, st, todo, waiting⟩ ⟨rfl, rfl, rfl⟩; rfl
  cases e <;> simp only [Inside, Well] at hi hw
  case part i =>
    rcases hs with ⟨h1, h2, h3, h4⟩ | ⟨h1, h2, h4⟩
    · obtain ⟨a, b, c, d⟩ := at_dets (i := i) (f := Det.go) h4 (fun d _ h => abortOk_go h)
      exact .inl ⟨b.trans h1, a.trans h2, c.trans h3, d⟩
    · obtain ⟨a, b, c, d⟩ := at_dets (i := i) (f := Det.go) h4 (fun d _ h => by rw [rest d h]; exact ⟨rfl, h⟩)
      exact .inr ⟨b.trans h1, a.trans h2, d⟩
  case det i st =>
    rcases hs with ⟨h1, h2, h3, h4⟩ | ⟨h1, h2, h4⟩
    · obtain ⟨a, b, c, d⟩ := at_dets (i := i) (f := fun d => if st ∈ ends d.st then d.ended st else ⟨d, false⟩) h4 (fun d _ h => by
        by_cases hm : st ∈ ends d.st
        · simp only [if_pos hm]; exact abortOk_ended h hw hm
        · simp only [if_neg hm]; exact ⟨trivial, h⟩)
      exact .inl ⟨b.trans h1, a.trans h2, c.trans h3, d⟩
    · obtain ⟨a, b, c, d⟩ := at_dets (i := i) (f := fun d => if st ∈ ends d.st then d.ended st else ⟨d, false⟩) h4 (fun d _ h => by
        have : st ∉ ends d.st := by rw [h.2.2]; simp [ends]
        simp only [if_neg this]; exact ⟨trivial, h⟩)
      exact .inr ⟨b.trans h1, a.trans h2, d⟩
  case next last =>
    simp only [Scan.step]
    split
    · rename_i hc
      rcases hs with ⟨h1, h2, h3, h4⟩ | ⟨h1, h2, h4⟩
      · right
        simp only [h1, List.tail_cons, Scan.spawn]
        refine ⟨trivial, by simp [h3], fun d hd => ?_⟩
        obtain ⟨t1, t2⟩ := (idle_iff d).1 (List.all_eq_true.1 hc.2 d hd)
        have := h4 d hd
        simp only [AbortOk, t1, t2] at this
        exact ⟨t1, t2, by simpa using this⟩
      · exact absurd h1 hc.1
    · exact hs

theorem aborting_run {s : Scan} (hs : Aborting s) (evs : List Ev) (h : ∀ e ∈ evs, Inside e ∧ Well e) : Aborting (s.run evs) := by
  induction evs generalizing s with
  | nil => exact hs
  | cons e evs ih =>
    exact ih (aborting_step hs (h e List.mem_cons_self).1 (h e List.mem_cons_self).2) (fun x hx => h x (List.mem_cons_of_mem _ hx))

theorem aborting_begin {s : Scan} (h1 : s.stoppable) (h2 : s.st ∈ Call.abort.writeable) (h3 : ∀ d ∈ s.dets, d.st ∈ Call.abort.writeable) :
    Aborting (s.step .abort) := by
  left
  simp only [Scan.step, if_pos (And.intro h1 h2), Scan.begin, Scan.spawn]
  refine ⟨trivial, by simp, trivial, fun d hd => ?_⟩
  obtain ⟨d0, hd0, rfl⟩ := List.mem_map.1 hd
  exact .inl ⟨rfl, rfl, h3 d0 hd0⟩

theorem sum_set (f : Det → Nat) : ∀ (l : List Det) (i : Nat) (d d' : Det), l[i]? = some d →
    ((l.set i d').map f).sum + f d = (l.map f).sum + f d' := by
  intro l
  induction l with
  | nil => intro i d d' h; simp at h
  | cons x l ih =>
    intro i d d' h
    cases i with
    | zero =>
      rw [List.getElem?_cons_zero] at h
      injection h with h
      subst h
      simp; omega
    | succ i =>
      rw [List.getElem?_cons_succ] at h
      have := ih i d d' h
      rw [List.set_cons_succ, List.map_cons, List.map_cons, List.sum_cons, List.sum_cons]; omega

/-- what is left with a detector -/
def work (d : Det) : Nat := 4 * d.todo.length + rank d.st

theorem at_left {s : Scan} {i : Nat} {f : Det → Res} (hf : ∀ d ∈ s.dets, (f d).raised = false ∧ ((f d).det = d ∨ work (f d).det < work d)) :
    s.at i f = s ∨ left (s.at i f) < left s := by
  unfold Scan.at
  split
  · exact .inl rfl
  · rename_i d hd
    have h1 := hf d (List.mem_of_getElem? hd)
    rw [if_neg (by simp [h1.1])]
    rcases h1.2 with h2 | h2
    · left
      obtain ⟨hlt, hg⟩ := List.getElem?_eq_some_iff.1 hd
      rw [h2, ← hg, List.set_getElem_self]
    · right
      have := sum_set work s.dets i d (f d).det hd
      unfold left
      simp only
      have e : ∀ l : List Det, l.map (fun d => 4 * d.todo.length + rank d.st) = l.map work := fun l => rfl
      rw [e, e]
      omega

/-- If all detectors are in states that can be aborted, and nothing fails, abort() ends with the scan and them Aborted: until then
something can go on, and whatever does brings it nearer. -/
theorem abort_ends_partial {s : Scan} (h1 : s.stoppable) (h2 : s.st ∈ Call.abort.writeable)
    (h3 : ∀ d ∈ s.dets, d.st ∈ Call.abort.writeable) (evs : List Ev) (hw : ∀ e ∈ evs, Inside e ∧ Well e) :
    let t := (s.step .abort).run evs
    (t.st = .aborted ∧ ∀ d ∈ t.dets, d.st = .aborted) ∨
    (t.st = .aborting ∧ (∃ e, Inside e ∧ Well e ∧ left (t.step e) < left t) ∧
      ∀ e, Inside e → Well e → t.step e = t ∨ left (t.step e) < left t) := by
  intro t
  have ht : Aborting t := aborting_run (aborting_begin h1 h2 h3) evs hw
  rcases ht with ⟨a1, a2, a3, a4⟩ | ⟨-, a2, a4⟩
  · right
    have hgo : ∀ d ∈ t.dets, d.go.raised = false ∧ (d.go.det = d ∨ work d.go.det < work d) := by
      intro d hd
      refine ⟨(abortOk_go (a4 d hd)).1, ?_⟩
      rcases d with ⟨faulty, design, taking, st, todo, waiting⟩
      have := a4 _ hd
      simp only [AbortOk] at this
      rcases this with ⟨rfl, rfl, hs⟩ | ⟨rfl, rfl, rfl⟩ | ⟨rfl, rfl, rfl⟩
      · right
        simp [Det.go, Det.exec, Det.make, hs, Call.start, work, rank]; omega
      · left; rfl
      · left; rfl
    have hended : ∀ st, st ≠ .fault → ∀ d ∈ t.dets, (if st ∈ ends d.st then d.ended st else ⟨d, false⟩ : Res).raised = false ∧
        ((if st ∈ ends d.st then d.ended st else ⟨d, false⟩ : Res).det = d ∨
          work (if st ∈ ends d.st then d.ended st else ⟨d, false⟩ : Res).det < work d) := by
      intro st hs d hd
      by_cases hm : st ∈ ends d.st
      · simp only [if_pos hm]
        refine ⟨(abortOk_ended (a4 d hd) hs hm).1, .inr ?_⟩
        have hrank : rank st < rank d.st := by
          generalize d.st = x at hm
          cases x <;> simp [ends] at hm <;> first | (rcases hm with rfl | rfl | rfl <;> simp_all [rank]) |
            (rcases hm with rfl | rfl <;> simp_all [rank])
        unfold work
        have : (d.ended st).det.todo = d.todo ∧ (d.ended st).det.st = st := by
          unfold Det.ended; split <;> simp
        rw [this.1, this.2]
        omega
      · simp only [if_neg hm]; exact ⟨trivial, .inl trivial⟩
    have hdown : ∀ e, Inside e → Well e → t.step e = t ∨ left (t.step e) < left t := by
      intro e hi hwe
      cases e <;> simp only [Inside, Well] at hi hwe
      case part i => exact at_left hgo
      case det i st => exact at_left (f := fun d => if st ∈ ends d.st then d.ended st else ⟨d, false⟩) (hended st hwe)
      case next last =>
        simp only [Scan.step]
        split
        · right
          simp [a1, Scan.spawn, left]
        · exact .inl rfl
    refine ⟨a2, ?_, hdown⟩
    by_cases hall : t.dets.all Det.idle = true
    · refine ⟨.next false, trivial, trivial, ?_⟩
      simp only [Scan.step]
      rw [if_pos ⟨by rw [a1]; simp, hall⟩]
      simp [a1, Scan.spawn, left]
    · have : ∃ d ∈ t.dets, d.idle = false := by
        simpa using hall
      obtain ⟨d, hd, hn⟩ := this
      obtain ⟨i, hi⟩ := List.getElem?_of_mem hd
      have hab := a4 d hd
      rcases hab with ⟨b1, b2, b3⟩ | ⟨b1, b2, b3⟩ | ⟨b1, b2, b3⟩
      · refine ⟨.part i, trivial, trivial, ?_⟩
        rcases hdown (.part i) trivial trivial with h | h
        · exfalso
          have h5 : (t.step (.part i)).dets[i]? = some d.go.det := by
            simp only [Scan.step, Scan.at, hi, (hgo d hd).1]
            simp [(List.getElem?_eq_some_iff.1 hi).1]
          rw [h, hi] at h5
          injection h5 with h5
          have h6 : d.go.det.todo = [] := by
            rcases d with ⟨faulty, design, taking, st, todo, waiting⟩
            simp only at b1 b2 b3
            subst b1; subst b2
            simp [Det.go, Det.exec, Det.make, b3]
          rw [← h5, b1] at h6
          cases h6
        · exact h
      · refine ⟨.det i .aborted, trivial, by simp [Well], ?_⟩
        rcases hdown (.det i .aborted) trivial (by simp [Well]) with h | h
        · exfalso
          have hm : St.aborted ∈ ends d.st := by rw [b3]; simp [ends]
          have h5 : (t.step (.det i .aborted)).dets[i]? = some (d.ended .aborted).det := by
            simp only [Scan.step, Scan.at, hi, if_pos hm, (abortOk_ended (a4 d hd) (by simp) hm).1]
            simp [(List.getElem?_eq_some_iff.1 hi).1]
          rw [h, hi] at h5
          injection h5 with h5
          have h6 : (d.ended .aborted).det.st = .aborted := by unfold Det.ended; split <;> rfl
          rw [← h5, b3] at h6
          cases h6
        · exact h
      · rw [(idle_iff d).2 ⟨b1, b2⟩] at hn; cases hn
  · exact .inl ⟨a2, fun d hd => (a4 d hd).2.2⟩

/-- A detector that is in Fault, Disabled or Aborted, be it one that takes no part or one that was faulty at the start, keeps abort()
from ever ending with the scan Aborted. -/
theorem abort_refused {s : Scan} (h1 : s.stoppable) (h2 : s.st ∈ Call.abort.writeable) {i : Nat} {d : Det} (hd : s.dets[i]? = some d)
    (hs : d.st = .fault ∨ d.st = .disabled ∨ d.st = .aborted) (evs : List Ev) (hi : ∀ e ∈ evs, Inside e) :
    ((s.step .abort).run evs).st = .aborting ∨ ((s.step .abort).run evs).st = .fault := by
  have key : ∀ (evs : List Ev) (t : Scan), (∀ e ∈ evs, Inside e) →
      ((t.hooks = [.abort] ∧ t.st = .aborting ∧ ∃ d, t.dets[i]? = some d ∧ d.todo = [.call .abort] ∧ d.waiting = none ∧
        (d.st = .fault ∨ d.st = .disabled ∨ d.st = .aborted)) ∨ (t.hooks = [] ∧ t.st = .fault)) →
      (t.run evs).st = .aborting ∨ (t.run evs).st = .fault := by
    intro evs
    induction evs with
    | nil => intro t _ h; rcases h with h | h
             · exact .inl h.2.1
             · exact .inr h.2
    | cons e evs ih =>
      intro t hi h
      refine ih (t.step e) (fun x hx => hi x (List.mem_cons_of_mem _ hx)) ?_
      have hie := hi e List.mem_cons_self
      have hfault : t.hooks = [] → t.st = .fault → ∀ j f, (t.at j f).hooks = [] ∧ (t.at j f).st = .fault := by
        intro g1 g2 j f
        unfold Scan.at
        split
        · exact ⟨g1, g2⟩
        · split
          · exact ⟨rfl, rfl⟩
          · exact ⟨g1, g2⟩
      have hat : ∀ j (f : Det → Res), t.hooks = [.abort] → t.st = .aborting →
          (∃ d, t.dets[i]? = some d ∧ d.todo = [.call .abort] ∧ d.waiting = none ∧ (d.st = .fault ∨ d.st = .disabled ∨ d.st = .aborted)) →
          (∀ d : Det, d.todo = [.call .abort] → d.waiting = none → (d.st = .fault ∨ d.st = .disabled ∨ d.st = .aborted) →
            (f d).raised = true ∨ (f d).det = d) →
          (((t.at j f).hooks = [.abort] ∧ (t.at j f).st = .aborting ∧ ∃ d, (t.at j f).dets[i]? = some d ∧ d.todo = [.call .abort] ∧
            d.waiting = none ∧ (d.st = .fault ∨ d.st = .disabled ∨ d.st = .aborted)) ∨ ((t.at j f).hooks = [] ∧ (t.at j f).st = .fault)) := by
        intro j f g1 g2 g3 hf
        unfold Scan.at
        split
        · exact .inl ⟨g1, g2, g3⟩
        · rename_i x hx
          split
          · exact .inr ⟨rfl, rfl⟩
          · rename_i hr
            left
            refine ⟨g1, g2, ?_⟩
            obtain ⟨d, k1, k2, k3, k4⟩ := g3
            by_cases hij : j = i
            · subst hij
              rw [hx] at k1
              injection k1 with k1
              subst k1
              rcases hf x k2 k3 k4 with h | h
              · exact absurd h hr
              · refine ⟨x, ?_, k2, k3, k4⟩
                rw [h]
                simp [(List.getElem?_eq_some_iff.1 hx).1]
            · exact ⟨d, by rw [List.getElem?_set_ne hij]; exact k1, k2, k3, k4⟩
      cases e <;> simp only [Inside] at hie
      case part j =>
        rcases h with ⟨g1, g2, g3⟩ | ⟨g1, g2⟩
        · refine hat j Det.go g1 g2 g3 (fun d k1 k2 k3 => .inl ?_)
          rcases d with ⟨faulty, design, taking, st, todo, waiting⟩
          simp only at k1 k2 k3
          subst k1; subst k2
          rcases k3 with rfl | rfl | rfl <;> simp [Det.go, Det.exec, Det.make, Call.writeable]
        · exact .inr (hfault g1 g2 j _)
      case det j st =>
        rcases h with ⟨g1, g2, g3⟩ | ⟨g1, g2⟩
        · refine hat j _ g1 g2 g3 (fun d k1 k2 k3 => .inr ?_)
          rcases k3 with h | h | h <;> simp [h, ends]
        · exact .inr (hfault g1 g2 j _)
      case next last =>
        simp only [Scan.step]
        split
        · rename_i hc
          rcases h with ⟨g1, g2, d, k1, k2, -⟩ | ⟨g1, g2⟩
          · have := List.all_eq_true.1 hc.2 d (List.mem_of_getElem? k1)
            rw [idle_iff, k2] at this
            cases this.1
          · exact absurd g1 hc.1
        · exact h
      case otherFails =>
        simp only [Scan.step]
        split
        · exact h
        · exact .inr ⟨rfl, rfl⟩
  refine key evs _ hi (.inl ?_)
  simp only [Scan.step, if_pos (And.intro h1 h2), Scan.begin, Scan.spawn]
  refine ⟨trivial, by simp, ⟨{ d with todo := d.program .abort, waiting := none }, by rw [List.getElem?_map, hd]; rfl, rfl, rfl, hs⟩⟩

/-- What the part of a detector has done in a reset() -/
def ResetOk (d : Det) : Prop :=
  (d.todo = [.callIf .abort, .callIf .reset] ∧ d.waiting = none ∧ ¬ Held d.st) ∨
  (d.todo = [.callIf .reset] ∧ d.waiting = some .call ∧ d.st = .aborting) ∨
  (d.todo = [.callIf .reset] ∧ d.waiting = none ∧ (d.st = .fault ∨ d.st = .disabled ∨ d.st = .aborted)) ∨
  (d.todo = [] ∧ d.waiting = some .call ∧ d.st = .resetting) ∨ (d.todo = [] ∧ d.waiting = none ∧ d.st = .ready)

theorem resetOk_go {d : Det} (h : ResetOk d) : d.go.raised = false ∧ ResetOk d.go.det := by
  rcases d with ⟨faulty, design, taking, st, todo, waiting⟩
  simp only [ResetOk] at h ⊢
  rcases h with ⟨rfl, rfl, hs⟩ | ⟨rfl, rfl, rfl⟩ | ⟨rfl, rfl, hs⟩ | ⟨rfl, rfl, rfl⟩ | ⟨rfl, rfl, rfl⟩
  · cases st <;> simp_all [Held, Det.go, Det.exec, Det.make, Call.writeable, Call.start]
  · simp [Det.go]
  · rcases hs with rfl | rfl | rfl <;> simp [Det.go, Det.exec, Det.make, Call.writeable, Call.start]
  · simp [Det.go]
  · simp [Det.go]

theorem resetOk_ended {d : Det} (h : ResetOk d) {st : St} (he : st ∈ ends d.st) :
    (d.ended st).raised = true ∨ ((d.ended st).raised = false ∧ ResetOk (d.ended st).det) := by
  rcases d with ⟨faulty, design, taking, st0, todo, waiting⟩
  simp only [ResetOk] at h ⊢
  rcases h with ⟨rfl, rfl, hs⟩ | ⟨rfl, rfl, rfl⟩ | ⟨rfl, rfl, hs⟩ | ⟨rfl, rfl, rfl⟩ | ⟨rfl, rfl, rfl⟩
  · right
    have : ¬ Held st := by
      cases st0 <;> simp [ends] at he <;> first | (rcases he with rfl | rfl | rfl <;> simp_all [Held]) |
        (rcases he with rfl | rfl <;> simp_all [Held])
    simp [Det.ended, this]
  · simp [ends] at he
    rcases he with rfl | rfl <;> simp [Det.ended]
  · rcases hs with rfl | rfl | rfl <;> simp [ends] at he
  · simp [ends] at he
    rcases he with rfl | rfl <;> simp [Det.ended]
  · simp [ends] at he

/-- A reset() of detectors of which nobody holds one up, that goes on, has failed or has ended well -/
def Resetting (s : Scan) : Prop :=
  (s.hooks = [.reset] ∧ s.st = .resetting ∧ s.final = .ready ∧ ∀ d ∈ s.dets, d.faulty = false → ResetOk d) ∨
  (s.hooks = [] ∧ s.st = .fault) ∨
  (s.hooks = [] ∧ s.st = .ready ∧ ∀ d ∈ s.dets, d.faulty = false → d.todo = [] ∧ d.waiting = none ∧ d.st = .ready)

theorem at_some {s : Scan} {i : Nat} {f : Det → Res} {Q : Det → Prop} (hq : ∀ d ∈ s.dets, Q d)
    (hf : ∀ d ∈ s.dets, Q d → (f d).raised = true ∨ Q (f d).det) :
    ((s.at i f).hooks = [] ∧ (s.at i f).st = .fault) ∨
    ((s.at i f).st = s.st ∧ (s.at i f).hooks = s.hooks ∧ (s.at i f).final = s.final ∧ ∀ d ∈ (s.at i f).dets, Q d) := by
  unfold Scan.at
  split
  · exact .inr ⟨rfl, rfl, rfl, hq⟩
  · rename_i d hd
    have hm := List.mem_of_getElem? hd
    split
    · exact .inl ⟨rfl, rfl⟩
    · rename_i hr
      refine .inr ⟨rfl, rfl, rfl, fun x hx => ?_⟩
      rcases List.mem_or_eq_of_mem_set hx with h2 | rfl
      · exact hq x h2
      · rcases hf d hm (hq d hm) with h | h
        · exact absurd h hr
        · exact h

theorem resetting_step {s : Scan} (hs : Resetting s) {e : Ev} (hi : Inside e) : Resetting (s.step e) := by
  have hfault : s.hooks = [] → s.st = .fault → ∀ j f, (s.at j f).hooks = [] ∧ (s.at j f).st = .fault := by
    intro g1 g2 j f
    unfold Scan.at
    split
    · exact ⟨g1, g2⟩
    · split
      · exact ⟨rfl, rfl⟩
      · exact ⟨g1, g2⟩
  cases e <;> simp only [Inside] at hi
  case part i =>
    rcases hs with ⟨h1, h2, h3, h4⟩ | ⟨h1, h2⟩ | ⟨h1, h2, h4⟩
    · rcases at_some (i := i) (f := Det.go) (Q := fun d => d.faulty = false → ResetOk d) h4 (fun d _ h => .inr (fun hf => by
        rw [(go_fixed d).2.1] at hf; exact (resetOk_go (h hf)).2)) with g | ⟨a, b, c, d⟩
      · exact .inr (.inl g)
      · exact .inl ⟨b.trans h1, a.trans h2, c.trans h3, d⟩
    · exact .inr (.inl (hfault h1 h2 i _))
    · rcases at_some (i := i) (f := Det.go) (Q := fun d => d.faulty = false → d.todo = [] ∧ d.waiting = none ∧ d.st = .ready) h4
        (fun d _ h => .inr (fun hf => by
          rw [(go_fixed d).2.1] at hf
          obtain ⟨a, b, c⟩ := h hf
          have : d.go.det = d := by
            rcases d with ⟨faulty, design, taking, st, todo, waiting⟩
            simp only at a b
            subst a; subst b; rfl
          rw [this]; exact ⟨a, b, c⟩)) with g | ⟨a, b, c, d⟩
      · exact .inr (.inl g)
      · exact .inr (.inr ⟨b.trans h1, a.trans h2, d⟩)
  case det i st =>
    have hfix : ∀ d : Det, (if st ∈ ends d.st then d.ended st else ⟨d, false⟩ : Res).det.faulty = d.faulty := by
      intro d
      split
      · exact (ended_fixed d st).2.1
      · rfl
    rcases hs with ⟨h1, h2, h3, h4⟩ | ⟨h1, h2⟩ | ⟨h1, h2, h4⟩
    · rcases at_some (i := i) (f := fun d => if st ∈ ends d.st then d.ended st else ⟨d, false⟩)
        (Q := fun d => d.faulty = false → ResetOk d) h4 (fun d _ h => by
          by_cases hf : d.faulty = false
          · by_cases hm : st ∈ ends d.st
            · simp only [if_pos hm]
              rcases resetOk_ended (h hf) hm with g | g
              · exact .inl g
              · exact .inr (fun _ => g.2)
            · simp only [if_neg hm]; exact .inr h
          · exact .inr (fun hf' => absurd ((hfix d).symm.trans hf') hf)) with g | ⟨a, b, c, d⟩
      · exact .inr (.inl g)
      · exact .inl ⟨b.trans h1, a.trans h2, c.trans h3, d⟩
    · exact .inr (.inl (hfault h1 h2 i _))
    · rcases at_some (i := i) (f := fun d => if st ∈ ends d.st then d.ended st else ⟨d, false⟩)
        (Q := fun d => d.faulty = false → d.todo = [] ∧ d.waiting = none ∧ d.st = .ready) h4 (fun d _ h => by
          by_cases hf : d.faulty = false
          · have hm : st ∉ ends d.st := by rw [(h hf).2.2]; simp [ends]
            simp only [if_neg hm]; exact .inr h
          · exact .inr (fun hf' => absurd ((hfix d).symm.trans hf') hf)) with g | ⟨a, b, c, d⟩
      · exact .inr (.inl g)
      · exact .inr (.inr ⟨b.trans h1, a.trans h2, d⟩)
  case next last =>
    simp only [Scan.step]
    split
    · rename_i hc
      rcases hs with ⟨h1, h2, h3, h4⟩ | ⟨h1, h2⟩ | ⟨h1, h2, h4⟩
      · right; right
        simp only [h1, List.tail_cons, Scan.spawn]
        refine ⟨trivial, by simp [h3], fun d hd hf => ?_⟩
        obtain ⟨t1, t2⟩ := (idle_iff d).1 (List.all_eq_true.1 hc.2 d hd)
        have := h4 d hd hf
        simp only [ResetOk, t1, t2] at this
        exact ⟨t1, t2, by simpa using this⟩
      · exact absurd h1 hc.1
      · exact absurd h1 hc.1
    · exact hs
  case otherFails =>
    simp only [Scan.step]
    split
    · exact hs
    · exact .inr (.inl ⟨rfl, rfl⟩)

/-- A scan that a reset() made Ready has all its detectors Ready, unless they were faulty at the start or somebody was resetting,
loading, saving, aborting or disabling one; those that were taking frames too. -/
theorem reset_ready_partial {s : Scan} (h1 : Resting s) (h2 : s.st ∈ Call.reset.writeable)
    (h3 : ∀ d ∈ s.dets, d.faulty = false → ¬ Held d.st) (evs : List Ev) (hi : ∀ e ∈ evs, Inside e)
    (hr : ((s.step .reset).run evs).st = .ready) : ∀ d ∈ ((s.step .reset).run evs).dets, d.faulty = false → d.st = .ready := by
  have key : ∀ (evs : List Ev) (t : Scan), (∀ e ∈ evs, Inside e) → Resetting t → Resetting (t.run evs) := by
    intro evs
    induction evs with
    | nil => intro t _ h; exact h
    | cons e evs ih =>
      intro t hi h
      exact ih _ (fun x hx => hi x (List.mem_cons_of_mem _ hx)) (resetting_step h (hi e List.mem_cons_self))
  have hb : Resetting (s.step .reset) := by
    left
    have h1 : s.hooks = [] := h1
    simp only [Scan.step, if_pos (And.intro h1 h2), Scan.begin, Scan.spawn]
    refine ⟨trivial, by simp, trivial, fun d hd hf => ?_⟩
    obtain ⟨d0, hd0, rfl⟩ := List.mem_map.1 hd
    have hf : d0.faulty = false := hf
    exact .inl ⟨by simp [Det.program, hf], rfl, h3 d0 hd0 hf⟩
  intro d hd hf
  rcases key evs _ hi hb with ⟨-, g, -⟩ | ⟨-, g⟩ | ⟨-, -, g⟩
  · rw [hr] at g; cases g
  · rw [hr] at g; cases g
  · exact (g d hd hf).2.2

/-- A detector that takes no part in a scan is left alone by its runs and pauses. -/
theorem left_alone {s : Scan} (h1 : Resting s) {i : Nat} {d : Det} (hd : s.dets[i]? = some d) (ht : d.taking = false)
    (hw : d.waiting = none ∧ d.todo = []) (hs : ends d.st = []) (evs : List Ev) (hi : ∀ e ∈ evs, Scanning e) :
    ∃ d', (s.run evs).dets[i]? = some d' ∧ d'.st = d.st := by
  have key : ∀ (evs : List Ev) (t : Scan), (∀ e ∈ evs, Scanning e) →
      (∀ h ∈ t.hooks, h = .run ∨ h = .postRun ∨ h = .seek) → t.dets[i]? = some d → (t.run evs).dets[i]? = some d := by
    have hd0 : ∀ h, (h = .run ∨ h = .postRun ∨ h = .seek) → { d with todo := d.program h, waiting := none } = d := by
      rcases d with ⟨faulty, design, taking, st, todo, waiting⟩
      obtain ⟨w1, w2⟩ := hw
      simp only at ht w1 w2
      subst ht; subst w1; subst w2
      rintro h (rfl | rfl | rfl) <;> rfl
    have hfail : ∀ t : Scan, t.dets[i]? = some d → t.fail.dets[i]? = some d := by
      intro t h
      simp only [Scan.fail, List.getElem?_map, h, Option.map_some]
      rcases d with ⟨faulty, design, taking, st, todo, waiting⟩
      obtain ⟨w1, w2⟩ := hw
      simp only at w1 w2
      subst w1; subst w2
      rfl
    have hspawn : ∀ (t : Scan) (hooks : List Hook), (∀ h ∈ hooks, h = .run ∨ h = .postRun ∨ h = .seek) → t.dets[i]? = some d →
        (∀ h ∈ (t.spawn hooks).hooks, h = .run ∨ h = .postRun ∨ h = .seek) ∧ (t.spawn hooks).dets[i]? = some d := by
      intro t hooks hh h
      cases hooks with
      | nil => exact ⟨fun h hm => by simp [Scan.spawn] at hm, h⟩
      | cons x xs =>
        refine ⟨hh, ?_⟩
        simp only [Scan.spawn, List.getElem?_map, h, Option.map_some]
        rw [hd0 x (hh x List.mem_cons_self)]
    have hat : ∀ (t : Scan) j (f : Det → Res), (∀ h ∈ t.hooks, h = .run ∨ h = .postRun ∨ h = .seek) → t.dets[i]? = some d →
        f d = ⟨d, false⟩ → (∀ h ∈ (t.at j f).hooks, h = .run ∨ h = .postRun ∨ h = .seek) ∧ (t.at j f).dets[i]? = some d := by
      intro t j f hh h hf
      unfold Scan.at
      split
      · exact ⟨hh, h⟩
      · rename_i x hx
        have h5 : (t.dets.set j (f x).det)[i]? = some d := by
          by_cases hij : j = i
          · subst hij
            rw [h] at hx
            injection hx with hx
            subst hx
            rw [hf]
            simp [(List.getElem?_eq_some_iff.1 h).1]
          · rw [List.getElem?_set_ne hij]; exact h
        split
        · refine ⟨fun h hm => by simp [Scan.fail] at hm, hfail _ h5⟩
        · exact ⟨hh, h5⟩
    intro evs
    induction evs with
    | nil => intro t _ _ h; exact h
    | cons e evs ih =>
      intro t hi hh h
      have hie := hi e List.mem_cons_self
      suffices g : (∀ h ∈ (t.step e).hooks, h = .run ∨ h = .postRun ∨ h = .seek) ∧ (t.step e).dets[i]? = some d from
        ih _ (fun x hx => hi x (List.mem_cons_of_mem _ hx)) g.1 g.2
      cases e <;> simp only [Scanning, Inside] at hie
      case part j =>
        refine hat t j _ hh h ?_
        unfold Det.go
        rw [hw.1, hw.2]
      case det j st =>
        refine hat t j _ hh h ?_
        simp [hs]
      case next last =>
        simp only [Scan.step]
        split
        · exact hspawn _ _ (fun x hx => hh x (List.mem_of_mem_tail hx)) h
        · exact ⟨hh, h⟩
      case otherFails =>
        simp only [Scan.step]
        split
        · exact ⟨hh, h⟩
        · exact ⟨fun h hm => by simp [Scan.fail] at hm, hfail _ h⟩
      case run | resume =>
        simp only [Scan.step]
        split
        · exact hspawn _ _ (by simp) h
        · exact ⟨hh, h⟩
      case pause =>
        simp only [Scan.step]
        split
        · exact hspawn _ _ (by simp) h
        · exact ⟨hh, h⟩
  exact ⟨d, key evs s hi (fun h hm => by rw [show s.hooks = [] from h1] at hm; cases hm) hd, rfl⟩

/-- What the part of a detector has done in a run -/
def RunOk (d : Det) : Prop :=
  (d.taking = false ∧ d.todo = [] ∧ d.waiting = none) ∨
  (d.taking = true ∧ ((d.todo = [.run] ∧ d.waiting = none ∧ (d.st = .armed ∨ d.st = .paused)) ∨
    (d.todo = [] ∧ d.waiting = some .postRun ∧ d.st = .running) ∨
    (d.todo = [] ∧ d.waiting = none ∧ (d.st = .postrun ∨ d.st = .armed ∨ d.st = .finished))))

/-- ... and after it -/
def OverOk (d : Det) : Prop :=
  (d.taking = false ∧ d.todo = [] ∧ d.waiting = none) ∨
  (d.taking = true ∧ ((d.todo = [.runEnd] ∧ d.waiting = none ∧ (d.st = .postrun ∨ d.st = .armed ∨ d.st = .finished)) ∨
    (d.todo = [] ∧ d.waiting = some .runEnd ∧ d.st = .postrun) ∨
    (d.todo = [] ∧ d.waiting = none ∧ (d.st = .armed ∨ d.st = .finished))))

theorem runOk_go {d : Det} (h : RunOk d) : d.go.raised = false ∧ RunOk d.go.det := by
  rcases d with ⟨faulty, design, taking, st, todo, waiting⟩
  simp only [RunOk] at h ⊢
  rcases h with ⟨rfl, rfl, rfl⟩ | ⟨rfl, ⟨rfl, rfl, rfl | rfl⟩ | ⟨rfl, rfl, rfl⟩ | ⟨rfl, rfl, rfl | rfl | rfl⟩⟩ <;>
    simp [Det.go, Det.exec, Det.make, Call.writeable, Call.start]

theorem overOk_go {d : Det} (h : OverOk d) : d.go.raised = false ∧ OverOk d.go.det := by
  rcases d with ⟨faulty, design, taking, st, todo, waiting⟩
  simp only [OverOk] at h ⊢
  rcases h with ⟨rfl, rfl, rfl⟩ | ⟨rfl, ⟨rfl, rfl, rfl | rfl | rfl⟩ | ⟨rfl, rfl, rfl⟩ | ⟨rfl, rfl, rfl | rfl⟩⟩ <;>
    simp [Det.go, Det.exec]

theorem runOk_ended {d : Det} (h : RunOk d) {st : St} (hs : st ≠ .fault) (he : st ∈ ends d.st) :
    (d.ended st).raised = false ∧ RunOk (d.ended st).det := by
  rcases d with ⟨faulty, design, taking, st0, todo, waiting⟩
  simp only [RunOk] at h ⊢
  rcases h with ⟨rfl, rfl, rfl⟩ | ⟨rfl, ⟨rfl, rfl, rfl | rfl⟩ | ⟨rfl, rfl, rfl⟩ | ⟨rfl, rfl, rfl | rfl | rfl⟩⟩ <;>
    simp [ends] at he <;> simp [Det.ended]
  · rcases he with rfl | rfl
    · simp
    · exact absurd rfl hs
  · rcases he with rfl | rfl | rfl
    · simp
    · simp
    · exact absurd rfl hs

theorem overOk_ended {d : Det} (h : OverOk d) {st : St} (hs : st ≠ .fault) (he : st ∈ ends d.st) :
    (d.ended st).raised = false ∧ OverOk (d.ended st).det := by
  rcases d with ⟨faulty, design, taking, st0, todo, waiting⟩
  simp only [OverOk] at h ⊢
  rcases h with ⟨rfl, rfl, rfl⟩ | ⟨rfl, ⟨rfl, rfl, rfl | rfl | rfl⟩ | ⟨rfl, rfl, rfl⟩ | ⟨rfl, rfl, rfl | rfl⟩⟩ <;>
    simp [ends] at he <;> simp [Det.ended]
  · rcases he with rfl | rfl | rfl
    · simp
    · simp
    · exact absurd rfl hs
  · rcases he with rfl | rfl | rfl
    · simp
    · simp
    · exact absurd rfl hs

/-- A run of detectors that can be run, that goes on or has ended well -/
def Running (s : Scan) : Prop :=
  (s.hooks = [.run, .postRun] ∧ s.st = .running ∧ s.final = .armed ∧ ∀ d ∈ s.dets, RunOk d) ∨
  (s.hooks = [.postRun] ∧ s.st = .postrun ∧ s.final = .armed ∧ ∀ d ∈ s.dets, OverOk d) ∨
  (s.hooks = [] ∧ (s.st = .armed ∨ s.st = .finished) ∧ ∀ d ∈ s.dets, OverOk d)

theorem running_step {s : Scan} (hs : Running s) {e : Ev} (hi : Inside e) (hw : Well e) : Running (s.step e) := by
  cases e <;> simp only [Inside, Well] at hi hw
  case part i =>
    rcases hs with ⟨h1, h2, h3, h4⟩ | ⟨h1, h2, h3, h4⟩ | ⟨h1, h2, h4⟩
    · obtain ⟨a, b, c, d⟩ := at_dets (i := i) (f := Det.go) h4 (fun d _ h => runOk_go h)
      exact .inl ⟨b.trans h1, a.trans h2, c.trans h3, d⟩
    · obtain ⟨a, b, c, d⟩ := at_dets (i := i) (f := Det.go) h4 (fun d _ h => overOk_go h)
      exact .inr (.inl ⟨b.trans h1, a.trans h2, c.trans h3, d⟩)
    · obtain ⟨a, b, c, d⟩ := at_dets (i := i) (f := Det.go) h4 (fun d _ h => overOk_go h)
      exact .inr (.inr ⟨b.trans h1, h2.imp a.trans a.trans, d⟩)
  case det i st =>
    have k1 : ∀ d ∈ s.dets, RunOk d → (if st ∈ ends d.st then d.ended st else ⟨d, false⟩ : Res).raised = false ∧
        RunOk (if st ∈ ends d.st then d.ended st else ⟨d, false⟩ : Res).det := by
      intro d _ h
      by_cases hm : st ∈ ends d.st
      · simp only [if_pos hm]; exact runOk_ended h hw hm
      · simp only [if_neg hm]; exact ⟨trivial, h⟩
    have k2 : ∀ d ∈ s.dets, OverOk d → (if st ∈ ends d.st then d.ended st else ⟨d, false⟩ : Res).raised = false ∧
        OverOk (if st ∈ ends d.st then d.ended st else ⟨d, false⟩ : Res).det := by
      intro d _ h
      by_cases hm : st ∈ ends d.st
      · simp only [if_pos hm]; exact overOk_ended h hw hm
      · simp only [if_neg hm]; exact ⟨trivial, h⟩
    rcases hs with ⟨h1, h2, h3, h4⟩ | ⟨h1, h2, h3, h4⟩ | ⟨h1, h2, h4⟩
    · obtain ⟨a, b, c, d⟩ := at_dets (i := i) (f := fun d => if st ∈ ends d.st then d.ended st else ⟨d, false⟩) h4 k1
      exact .inl ⟨b.trans h1, a.trans h2, c.trans h3, d⟩
    · obtain ⟨a, b, c, d⟩ := at_dets (i := i) (f := fun d => if st ∈ ends d.st then d.ended st else ⟨d, false⟩) h4 k2
      exact .inr (.inl ⟨b.trans h1, a.trans h2, c.trans h3, d⟩)
    · obtain ⟨a, b, c, d⟩ := at_dets (i := i) (f := fun d => if st ∈ ends d.st then d.ended st else ⟨d, false⟩) h4 k2
      exact .inr (.inr ⟨b.trans h1, h2.imp a.trans a.trans, d⟩)
  case next last =>
    simp only [Scan.step]
    split
    · rename_i hc
      rcases hs with ⟨h1, h2, h3, h4⟩ | ⟨h1, h2, h3, h4⟩ | ⟨h1, h2, h4⟩
      · right; left
        simp only [h1, List.tail_cons, Scan.spawn]
        refine ⟨trivial, by simp, by simp [h3], fun d hd => ?_⟩
        obtain ⟨d0, hd0, rfl⟩ := List.mem_map.1 hd
        have hid := (idle_iff d0).1 (List.all_eq_true.1 hc.2 d0 hd0)
        rcases h4 d0 hd0 with ⟨g1, -, -⟩ | ⟨g1, ⟨g2, -, -⟩ | ⟨-, g2, -⟩ | ⟨-, -, g3⟩⟩
        · exact .inl ⟨g1, by simp [Det.program, g1], rfl⟩
        · rw [hid.1] at g2; cases g2
        · rw [hid.2] at g2; cases g2
        · exact .inr ⟨g1, .inl ⟨by simp [Det.program, g1], rfl, g3⟩⟩
      · right; right
        simp only [h1, List.tail_cons, Scan.spawn]
        refine ⟨trivial, ?_, h4⟩
        cases last <;> simp [h3]
      · exact absurd h1 hc.1
    · exact hs

/-- A run() of an Armed scan, or a resume() of a Paused one, all of whose detectors that take part are Armed or Paused is not refused by
any of them, and while nothing fails the scan does not. -/
theorem run_taken {s : Scan} (h1 : Resting s) {e : Ev} (h2 : (e = .run ∧ s.st = .armed) ∨ (e = .resume ∧ s.st = .paused))
    (h3 : ∀ d ∈ s.dets, d.taking → d.st = .armed ∨ d.st = .paused) (evs : List Ev) (hw : ∀ e ∈ evs, Inside e ∧ Well e) :
    let t := (s.step e).run evs
    t.st = .running ∨ t.st = .postrun ∨ t.st = .armed ∨ t.st = .finished := by
  have h1 : s.hooks = [] := h1
  have hb : Running (s.step e) := by
    have : s.step e = s.begin .running .armed [.run, .postRun] := by
      rcases h2 with ⟨rfl, h⟩ | ⟨rfl, h⟩ <;> simp [Scan.step, h1, h]
    rw [this]
    left
    simp only [Scan.begin, Scan.spawn]
    refine ⟨trivial, by simp, trivial, fun d hd => ?_⟩
    obtain ⟨d0, hd0, rfl⟩ := List.mem_map.1 hd
    cases ht : d0.taking with
    | false => exact .inl ⟨rfl, by simp [Det.program, ht], rfl⟩
    | true => exact .inr ⟨rfl, .inl ⟨by simp [Det.program, ht], rfl, h3 d0 hd0 ht⟩⟩
  have key : ∀ (evs : List Ev) (t : Scan), (∀ e ∈ evs, Inside e ∧ Well e) → Running t → Running (t.run evs) := by
    intro evs
    induction evs with
    | nil => intro t _ h; exact h
    | cons e evs ih =>
      intro t hi h
      exact ih _ (fun x hx => hi x (List.mem_cons_of_mem _ hx)) (running_step h (hi e List.mem_cons_self).1 (hi e List.mem_cons_self).2)
  rcases key evs _ hw hb with ⟨-, g, -⟩ | ⟨-, g, -⟩ | ⟨-, g, -⟩
  · exact .inl g
  · exact .inr (.inl g)
  · exact .inr (.inr g)

theorem taken_faulty (taking : Nat → Bool) : ∀ (ds : List Det) (i : Nat), refused taking i ds = false →
    ∀ d ∈ taken taking i ds, d.faulty = true → d.taking = false := by
  intro ds
  induction ds with
  | nil => intro i _ d hd; cases hd
  | cons x ds ih =>
    intro i h d hd hf
    simp only [refused, Bool.or_eq_false_iff] at h
    simp only [taken, List.mem_cons] at hd
    rcases hd with rfl | hd
    · simp only at hf ⊢
      simpa [hf] using h.1
    · exact ih (i + 1) h.2 d hd hf

/-- A configure() that is accepted has no detector take part that was faulty at the start, and those take part that are to. -/
theorem taken_partly (s : Scan) (taking : Nat → Bool) (h : (s.step (.configure taking)).hooks ≠ s.hooks) :
    (∀ d ∈ (s.step (.configure taking)).dets, d.faulty = true → d.taking = false) ∧
    ∀ (i : Nat) d, (s.step (.configure taking)).dets[i]? = some d → d.taking = taking i := by
  have hget : ∀ (ds : List Det) (j i : Nat) d, (taken taking j ds)[i]? = some d → d.taking = taking (j + i) := by
    intro ds
    induction ds with
    | nil => intro j i d h; simp [taken] at h
    | cons x ds ih =>
      intro j i d h
      cases i with
      | zero =>
        simp only [taken, List.getElem?_cons_zero] at h
        injection h with h
        subst h; rfl
      | succ i =>
        simp only [taken, List.getElem?_cons_succ] at h
        rw [ih (j + 1) i d h]
        congr 1; omega
  simp only [Scan.step] at h ⊢
  split at h
  · rename_i hc
    rw [if_pos hc]
    have hmap : ∃ hk : Hook, (({ s with dets := taken taking 0 s.dets } : Scan).begin .configuring .armed
        (if s.st = St.finished then [.reset, .preConfigure, .configure] else [.preConfigure, .configure])).dets =
        (taken taking 0 s.dets).map (fun d => { d with todo := d.program hk, waiting := none }) := by
      split
      · exact ⟨.reset, rfl⟩
      · exact ⟨.preConfigure, rfl⟩
    obtain ⟨hk, hmap⟩ := hmap
    rw [hmap]
    refine ⟨fun d hd hf => ?_, fun i d hd => ?_⟩
    · obtain ⟨d0, hd0, rfl⟩ := List.mem_map.1 hd
      exact taken_faulty taking _ 0 (by simpa using hc.2.2) d0 hd0 hf
    · rw [List.getElem?_map] at hd
      obtain ⟨d0, hd0, rfl⟩ := Option.map_eq_some_iff.1 hd
      have := hget s.dets 0 i d0 hd0
      rw [Nat.zero_add] at this
      exact this
  · exact absurd rfl h

/-! ### what happens -/

/-- a detector, one that was faulty at the start, and one with a saved design -/
def good : Det := ⟨false, false, true, .ready, [], none⟩
def bad : Det := ⟨true, false, false, .fault, [], none⟩
def kept : Det := ⟨false, true, true, .ready, [], none⟩

/-- a scan of two detectors up to when both run -/
def toRunning : List Ev :=
  [.configure (fun _ => true), .next false, .part 0, .part 1, .det 0 .armed, .det 1 .armed, .next false, .run, .part 0, .part 1]

def two : Scan := ⟨.ready, [], .ready, [good, good]⟩

/-- it is all there: both run and are aborted, disabled, paused, or end by themselves -/
example : ((two.run toRunning).st, (two.run toRunning).dets.map (·.st)) = (.running, [.running, .running]) ∧
    (let t := two.run (toRunning ++ [.abort, .part 0, .part 1, .det 1 .aborted, .det 0 .aborted, .next false])
     (t.st, t.dets.map (·.st)) = (.aborted, [.aborted, .aborted])) ∧
    (let t := two.run (toRunning ++ [.disable, .part 0, .part 1, .det 1 .disabled, .det 0 .disabled, .next false])
     (t.st, t.dets.map (·.st)) = (.disabled, [.disabled, .disabled])) ∧
    (let t := two.run (toRunning ++ [.pause, .part 0, .part 1, .det 1 .paused, .det 0 .paused, .next false])
     (t.st, t.dets.map (·.st)) = (.paused, [.paused, .paused])) ∧
    (let t := two.run (toRunning ++ [.det 0 .postrun, .det 1 .postrun, .next false, .part 0, .part 1, .det 0 .finished,
      .det 1 .finished, .next true])
     (t.st, t.dets.map (·.st)) = (.finished, [.finished, .finished])) ∧
    (let t := two.run (toRunning ++ [.otherFails, .reset, .part 0, .part 1, .det 0 .aborted, .det 1 .aborted, .part 0, .part 1,
      .det 0 .ready, .det 1 .ready, .next false])
     (t.st, t.dets.map (·.st)) = (.ready, [.ready, .ready])) := by
  refine ⟨rfl, rfl, rfl, rfl, rfl, rfl⟩

/-- what the theorems on one call ask for -/
example : let s := two.run toRunning
    s.stoppable = true ∧ s.st ∈ Call.abort.writeable ∧ (∀ d ∈ s.dets, d.st ∈ Call.abort.writeable) := by decide
example : let s := two.run (toRunning ++ [.otherFails])
    Resting s ∧ s.st ∈ Call.reset.writeable ∧ (∀ d ∈ s.dets, d.st = .running) := by refine ⟨rfl, ?_, ?_⟩ <;> decide
example : let s := two.run [.configure (· = 0), .next false, .part 0, .det 0 .armed, .next false]
    Resting s ∧ s.st = .armed ∧ s.dets[1]? = some { good with taking := false } := ⟨rfl, rfl, rfl⟩

/-- A scan that fails goes to Fault and its other detectors run on. -/
theorem runs_on : ∃ evs, (two.run evs).st = .fault ∧ (two.run evs).hooks = [] ∧ (two.run evs).dets.map (·.st) = [.fault, .running] :=
  ⟨toRunning ++ [.det 0 .fault], rfl, rfl, rfl⟩

/-- pause() while a detector is between its run and the end of it puts the scan into Fault. -/
theorem pause_refused : ∃ evs, (two.run evs).st = .fault ∧ (∀ e ∈ evs, Well e) ∧ (two.run evs).dets.map (·.st) = [.postrun, .running] :=
  ⟨toRunning ++ [.det 0 .postrun, .pause, .part 0], rfl, by simp [toRunning, Well], rfl⟩

/-- abort() of a scan with a detector that takes no part and was faulty at the start puts the scan into Fault, however well all else
goes. -/
theorem faulty_spoils_abort : ∃ evs, ((⟨.ready, [], .ready, [good, bad]⟩ : Scan).run evs).st = .fault ∧ (∀ e ∈ evs, Well e) ∧
    (.abort : Ev) ∈ evs ∧ ((⟨.ready, [], .ready, [good, bad]⟩ : Scan).run evs).dets.map (·.taking) = [true, false] :=
  ⟨[.configure (· = 0), .next false, .part 0, .det 0 .armed, .next false, .run, .part 0, .abort, .part 0, .part 1], rfl, by simp [Well],
    by simp, rfl⟩

/-- abort() while a detector loads its design puts the scan into Fault, and the detector is Ready in the end. -/
theorem abort_while_loading : ∃ evs, ((⟨.ready, [], .ready, [kept]⟩ : Scan).run evs).st = .fault ∧ (∀ e ∈ evs, Well e) ∧
    ((⟨.ready, [], .ready, [kept]⟩ : Scan).run evs).dets.map (·.st) = [.ready] :=
  ⟨[.configure (fun _ => true), .part 0, .abort, .part 0, .det 0 .ready], rfl, by simp [Well], rfl⟩

/-- A detector that is Disabled and takes no part keeps a scan from being configured, if there is a design for it. -/
theorem disabled_spoils_configure : ∃ evs, ((⟨.ready, [], .ready, [good, { kept with st := .disabled }]⟩ : Scan).run evs).st = .fault ∧
    (∀ e ∈ evs, Well e) ∧ ((⟨.ready, [], .ready, [good, { kept with st := .disabled }]⟩ : Scan).run evs).dets.map (·.taking) = [true, false] :=
  ⟨[.configure (· = 0), .part 1], rfl, by simp [Well], rfl⟩

/-- A scan that is Ready with a detector that is Aborted, and cannot be configured then: the reset() did not wait for an abort(). -/
theorem ready_not_reset : ∃ evs evs', (let t := (⟨.ready, [], .ready, [good, bad]⟩ : Scan).run evs
    (t.st, t.hooks, t.dets.map (·.st)) = (.ready, [], [.aborted, .fault])) ∧ (∀ e ∈ evs, Well e) ∧
    ((⟨.ready, [], .ready, [good, bad]⟩ : Scan).run (evs ++ evs')).st = .fault ∧ (∀ e ∈ evs', Well e) :=
  ⟨[.abort, .part 0, .part 1, .reset, .part 0, .part 0, .next false, .det 0 .aborted], [.configure (· = 0), .next false, .part 0], rfl,
    by simp [Well], rfl, by simp [Well]⟩

end Verif.Props.Stopping
