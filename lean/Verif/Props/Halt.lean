import Verif.Proofs.Halt
import Verif.Model.Overlap
/-!
C119: when a process is stopped every block that was not Disabled has the DisableHooks of its parts run, and ends Disabled.

Proved for every arrangement of the blocks, every order of the steps of the threads and every failure: the DisableHooks of each block are
started exactly if it was not Disabled, and it ends Disabled or in Fault (unless one of its HaltHooks raises); stopping is
never stuck, and takes a bounded number of steps if no block is a child of itself. The blocks end Disabled if no ChildPart
looks at its block before that has halted, or more generally if nobody is overtaken; otherwise it is false, since a block and its parent disable it at the same time.
-/
namespace Verif.Props.Halt
open Verif.Halt Verif.Spec.Halt Verif.Proofs.Halt

/-- the state of this model as one of the states of a manager -/
def toSt : Halt.St → Verif.St
  | .ready => .ready
  | .disabling => .disabling
  | .disabled => .disabled
  | .fault => .fault

/-- the transitions are those of the state set of the blocks (Model.States), and clients may call `disable` when Model.Overlap says so -/
theorem transitions (a b : Halt.St) : a.allowed b = Verif.Overlap.allowed (toSt a) (toSt b)
    ∧ a.writeable = Verif.Overlap.Kind.writeable .disable (toSt a) := by
  cases a <;> cases b <;> decide

variable {kids : Nat → List Nat} {n : Nat} {st0 : Nat → Halt.St}

private theorem inv (hs : ∀ b, Settled (st0 b)) (es : List Ev) : Verif.Proofs.Halt.Inv kids n st0 ((World.start st0 n).run kids es) :=
  run_inv es (start_inv kids n st0 hs)

private theorem not_past_start (b : Nat) : ¬ Past (World.start st0 n) b := by
  rintro ⟨ph, h, h1, -⟩
  simp only [World.start, List.getElem?_map, Option.map_eq_some_iff] at h
  obtain ⟨a, -, h⟩ := h
  simp only [Job.mk.injEq] at h
  exact h1 h.2.symm

/-- When all has ended, a block whose HaltHooks did not raise is Disabled or in Fault. -/
theorem at_end (hs : ∀ b, Settled (st0 b)) (es : List Ev) (hend : AllOver ((World.start st0 n).run kids es)) (b : Nat) (hb : b < n)
    (hh : Ev.halt b false ∉ es) :
    ((World.start st0 n).run kids es).st b = .disabled ∨ ((World.start st0 n).run kids es).st b = .fault := by
  have hI := inv (kids := kids) (n := n) hs es
  obtain ⟨ph, hph⟩ := hI.heads b hb
  obtain ⟨ok, hok⟩ := hend _ (List.mem_of_getElem? hph)
  simp only at hok
  have h1 := (past_run b hb es (start_inv kids n st0 hs) hh (fun h => absurd h (not_past_start b))
    ⟨ph, hph, by simp [hok], by simp [hok]⟩).1
  have h2 : ((World.start st0 n).run kids es).st b ≠ .disabling := by
    intro hd
    obtain ⟨j, own, ks, hj⟩ := hI.busy b hd
    obtain ⟨ok', hok'⟩ := hend _ (List.mem_of_getElem? hj)
    cases hok'
  revert h1 h2
  cases ((World.start st0 n).run kids es).st b <;> simp

/-- A block that was not Disabled has had its DisableHooks started by the time its call of `halt` has ended, unless its HaltHooks have
raised. -/
theorem hooks_run (hs : ∀ b, Settled (st0 b)) (es : List Ev) (b : Nat) (hb : b < n) (hend : HaltOver ((World.start st0 n).run kids es) b)
    (hh : Ev.halt b false ∉ es) (h0 : st0 b ≠ .disabled) : b ∈ ((World.start st0 n).run kids es).began := by
  have hI := inv (kids := kids) (n := n) hs es
  obtain ⟨ph, hph⟩ := hI.heads b hb
  obtain ⟨x, hx, ok, hok⟩ := hend
  rw [hph] at hx
  cases hx
  simp only at hok
  exact (past_run b hb es (start_inv kids n st0 hs) hh (fun h => absurd h (not_past_start b))
    ⟨ph, hph, by simp [hok], by simp [hok]⟩).2 h0

/-- A block that was Disabled stays so, and its DisableHooks are not run, at any time. -/
theorem disabled_left (hs : ∀ b, Settled (st0 b)) (es : List Ev) (b : Nat) (h0 : st0 b = .disabled) :
    ((World.start st0 n).run kids es).st b = .disabled ∧ b ∉ ((World.start st0 n).run kids es).began :=
  (inv (kids := kids) (n := n) hs es).dis b h0

/-- As long as something has not ended there is a step to take. -/
theorem never_stuck (hs : ∀ b, Settled (st0 b)) (es : List Ev) (h : ¬ AllOver ((World.start st0 n).run kids es)) :
    ∃ e, ((World.start st0 n).run kids es).step kids e ≠ (World.start st0 n).run kids es :=
  progress (inv (kids := kids) (n := n) hs es) h

/-- The number of steps is bounded, whatever their order and whatever raises, if no block is a child of itself. -/
theorem stop_ends (ha : Acyclic kids) (hs : ∀ b, Settled (st0 b)) (n : Nat) :
    ∃ m, ∀ es, Effective kids (World.start st0 n) es → es.length ≤ m := by
  obtain ⟨W, hW⟩ := exists_cost ha
  exact ⟨_, fun es he => run_left hW es (start_inv kids n st0 hs) he⟩

/-- If nothing raises and no ChildPart looks at its block before that has halted, every block ends Disabled, the DisableHooks of those that
were not are started once, and just their `halt` returns without an exception. -/
theorem all_disabled_partial (hs : ∀ b, Settled (st0 b)) (es : List Ev) (hf : NoFailure es)
    (hfirst : ChildrenFirst kids (World.start st0 n) es) (hend : AllOver ((World.start st0 n).run kids es)) (b : Nat) (hb : b < n) :
    ((World.start st0 n).run kids es).st b = .disabled
    ∧ ((World.start st0 n).run kids es).began.count b = (if st0 b = .disabled then 0 else 1)
    ∧ ∃ ok, ((World.start st0 n).run kids es).jobs[b]? = some ⟨b, .over ok⟩ ∧ (ok = true ↔ st0 b ≠ .disabled) := by
  obtain ⟨ph, h1, h2⟩ := (run_turn hs es (start_turn st0 n) hf hfirst).good b hb
  obtain ⟨ok, hok⟩ := hend _ (List.mem_of_getElem? h1)
  simp only at hok
  subst hok
  exact ⟨h2.1, h2.2.2, ok, h1, h2.2.1⟩

/-- If nothing raises and nobody is overtaken, in whatever order parents and children come, every block ends Disabled, the DisableHooks of
those that were not are started once, and every call a ChildPart has made returns without an exception. -/
theorem apart_disabled_partial (hs : ∀ b, Settled (st0 b)) (es : List Ev) (hf : NoFailure es) (ha : Apart kids n (World.start st0 n) es)
    (hend : AllOver ((World.start st0 n).run kids es)) :
    (∀ b, b < n → ((World.start st0 n).run kids es).st b = .disabled
      ∧ ((World.start st0 n).run kids es).began.count b = (if st0 b = .disabled then 0 else 1))
    ∧ ∀ j x, n ≤ j → ((World.start st0 n).run kids es).jobs[j]? = some x → x.ph = .over true := by
  have hI := inv (kids := kids) (n := n) hs es
  have hS := run_sep hs es (start_inv kids n st0 hs) (start_sep st0 n) hf ha
  refine ⟨?_, ?_⟩
  · intro b hb
    by_cases h0 : st0 b = .disabled
    · have := disabled_left (kids := kids) (n := n) hs es b h0
      refine ⟨this.1, ?_⟩
      simp [h0, List.count_eq_zero, this.2]
    · have hover : HaltOver ((World.start st0 n).run kids es) b := by
        obtain ⟨ph, hph⟩ := hI.heads b hb
        exact ⟨_, hph, hend _ (List.mem_of_getElem? hph)⟩
      have hbeg := hooks_run hs es b hb hover (hf b).1 h0
      rcases hS.st b with h1 | h1
      · exact absurd hbeg (List.count_eq_zero.mp h1.2)
      · refine ⟨?_, by simp [h0, h1.2]⟩
        rcases at_end hs es hend b hb (hf b).1 with h2 | h2
        · exact h2
        · rw [h2] at h1
          simp at h1
  · intro j x hj hx
    obtain ⟨ok, hok⟩ := hend _ (List.mem_of_getElem? hx)
    obtain ⟨d, ph⟩ := x
    simp only at hok ⊢
    subst hok
    rw [hS.over j d ok hj hx]

/-- A block gets Disabled only when everything its DisableHooks do has been done, in one of its calls, without an exception: what its own
parts do, and what its ChildParts do. -/
theorem disabled_when (w : World) (e : Ev) (b : Nat) (h0 : w.st b ≠ .disabled) (h1 : (w.step kids e).st b = .disabled) :
    ∃ (j : Nat) (ks : List KidSt), e = .finish j ∧ w.jobs[j]? = some ⟨b, .running (some true) ks⟩ ∧ (∀ x ∈ ks, x = .over true)
      ∧ (w.step kids e).jobs[j]? = some ⟨b, .over true⟩ := by
  have hc := step_change kids w e
  generalize w.step kids e = w' at hc h1
  have put : ∀ c s ph (j : Nat), s ≠ .disabled → ((w.put c s).setJob j c ph).st b ≠ .disabled := by
    intro c s ph j hs
    simp only [World.setJob, World.put]
    split <;> assumption
  have err : ∀ c ph (j : Nat), ((w.put c (w.st c).error).setJob j c ph).st b ≠ .disabled := by
    intro c ph j
    simp only [World.setJob, World.put]
    split
    · next h =>
      subst h
      exact fun h => h0 (error_disabled.mp h)
    · exact h0
  cases hc with
  | none => exact absurd h1 h0
  | halt => exact absurd h1 h0
  | own => exact absurd h1 h0
  | look => exact absurd h1 h0
  | late => exact absurd h1 h0
  | got => exact absurd h1 h0
  | gave => exact absurd h1 h0
  | post => exact absurd h1 h0
  | begin j c => exact absurd h1 (put c .disabling .due j (by simp))
  | refused j c => exact absurd h1 (err _ _ _)
  | failed j c => exact absurd h1 (err _ _ _)
  | done j c own ks h ho hk hb ha =>
    have hcb : b = c := by
      simp only [World.setJob, World.put] at h1
      split at h1
      · assumption
      · exact absurd h1 h0
    subst hcb
    simp only [bad, Bool.or_eq_false_iff, beq_eq_false_iff_ne] at hb
    refine ⟨j, ks, rfl, ?_, ?_, ?_⟩
    · rw [h]
      cases own with
      | none => simp at ho
      | some o =>
        cases o
        · exact absurd rfl hb.1
        · rfl
    · intro x hx
      have := List.all_eq_true.mp hk x hx
      cases x with
      | over ok =>
        cases ok
        · have h2 := hb.2
          simp [hx] at h2
        · rfl
      | _ => simp [KidSt.isOver] at this
    · rw [get_setJob (w.put b .disabled) j b _ _ h j]
      simp

/-! ### A block 1 with the child 0 -/

/-- block 1 has the child 0, block 2 too if it is there -/
def family : Nat → List Nat
  | 0 => []
  | 1 => [0]
  | 2 => [0]
  | _ => []

/-- the parent disables its child, and then the child halts -/
def parentFirst : List Ev :=
  [.halt 1 true, .begin 1, .kid 1 0, .kid 1 0, .begin 2, .own 2 true, .finish 2, .halt 0 true, .begin 0, .kid 1 0, .own 1 true, .finish 1]

/-- the parent finds its child Disabling, and does not wait for it -/
def notWaited : List Ev := [.halt 0 true, .begin 0, .halt 1 true, .begin 1, .kid 1 0, .own 1 true, .finish 1]

/-- all are Ready -/
def allReady : Nat → Halt.St := fun _ => .ready

/-- the child halts, then its parent -/
def inOrder : List Ev :=
  [.halt 0 true, .halt 1 true, .begin 0, .begin 1, .own 1 true, .own 0 true, .finish 0, .kid 1 0, .finish 1]

/-- the parent finds `disable` of the child writeable and calls it, and the child halts meanwhile -/
def atOnce : List Ev :=
  [.halt 0 true, .halt 1 true, .begin 1, .kid 1 0, .kid 1 0, .begin 2, .begin 0, .own 2 true, .finish 2, .kid 1 0, .own 1 true, .finish 1]

/-- the same with two parents, the second of which calls the child again -/
def twoParents : List Ev :=
  [.halt 0 true, .halt 1 true, .halt 2 true, .begin 1, .begin 2, .kid 1 0, .kid 1 0, .begin 3, .begin 0, .kid 2 0, .kid 2 0, .begin 4]

theorem family_acyclic : Acyclic family := by
  refine ⟨fun b => b, ?_⟩
  intro b c hc
  match b with
  | 0 => simp [family] at hc
  | 1 => simp [family] at hc; simp [hc]
  | 2 => simp [family] at hc; simp [hc]
  | b + 3 => simp [family] at hc

example : ∀ b, Settled (allReady b) := by intro b; simp [Settled, allReady]

/-- the hypotheses of `all_disabled_partial` are met -/
example : NoFailure inOrder ∧ ChildrenFirst family (World.start allReady 2) inOrder
    ∧ AllOver ((World.start allReady 2).run family inOrder) := by
  refine ⟨?_, ?_, ?_⟩
  · intro j
    simp [inOrder]
  · refine ⟨?_, ?_, ?_, ?_, ?_, ?_, ?_, ?_, ?_, trivial⟩ <;> intro j i x c he
    all_goals first
      | (exfalso; simp at he; done)
      | skip
    simp only [Ev.kid.injEq] at he
    obtain ⟨rfl, rfl⟩ := he
    intro hx hc
    have hx' : x.blk = 1 := by
      have h1 : (((World.start allReady 2).run family [.halt 0 true, .halt 1 true, .begin 0, .begin 1, .own 1 true, .own 0 true, .finish 0]).jobs[1]?).map Job.blk
        = some 1 := by decide
      have h2 := congrArg (Option.map Job.blk) hx
      simp only [World.run, List.foldl] at h1
      rw [h1] at h2
      simpa using h2.symm
    rw [hx'] at hc
    simp [family] at hc
    subst hc
    exact ⟨⟨0, .over true⟩, by decide, true, rfl⟩
  · unfold AllOver
    intro x hx
    have : ((World.start allReady 2).run family inOrder).jobs = [⟨0, .over true⟩, ⟨1, .over true⟩] := by decide
    rw [this] at hx
    simp at hx
    rcases hx with rfl | rfl <;> exact ⟨true, rfl⟩

/-- the hypotheses of `apart_disabled_partial` are met, with the parent coming first -/
example : NoFailure parentFirst ∧ Apart family 2 (World.start allReady 2) parentFirst
    ∧ AllOver ((World.start allReady 2).run family parentFirst) := by
  refine ⟨by intro j; simp [parentFirst], ?_, ?_⟩
  · refine ⟨?_, ?_, ?_, ?_, ?_, ?_, ?_, ?_, ?_, ?_, ?_, ?_, ?_, ?_, ?_, ?_, ?_, ?_, ?_, ?_, ?_, ?_, ?_, ?_, trivial⟩
    all_goals first
      | (intro j x he; exfalso; simp at he; done)
      | (intro j i b c own ks he; exfalso; simp at he; done)
      | skip
    · intro j x he hx _
      simp only [Ev.begin.injEq] at he
      subst he
      have : x = ⟨1, .due⟩ := by
        have h : ((World.start allReady 2).run family (parentFirst.take 1)).jobs[1]? = some ⟨1, .due⟩ := by decide
        exact Option.some.inj (hx.symm.trans h)
      subst this
      decide
    · intro j i b c own ks he hx hi hc
      simp only [Ev.kid.injEq] at he
      obtain ⟨rfl, rfl⟩ := he
      have h : ((World.start allReady 2).run family (parentFirst.take 2)).jobs[1]? = some ⟨1, .running none [.idle]⟩ := by decide
      have := Option.some.inj (hx.symm.trans h)
      simp only [Job.mk.injEq, Phase.running.injEq] at this
      rw [this.2.2] at hi
      simp at hi
    · intro j i b c own ks he hx hi hc
      simp only [Ev.kid.injEq] at he
      obtain ⟨rfl, rfl⟩ := he
      have h : ((World.start allReady 2).run family (parentFirst.take 3)).jobs[1]? = some ⟨1, .running none [.seen]⟩ := by decide
      have := Option.some.inj (hx.symm.trans h)
      simp only [Job.mk.injEq, Phase.running.injEq] at this
      rw [this.1] at hc
      simp [family] at hc
      subst hc
      decide
    · intro j x he hx _
      simp only [Ev.begin.injEq] at he
      subst he
      have : x = ⟨0, .due⟩ := by
        have h : ((World.start allReady 2).run family (parentFirst.take 4)).jobs[2]? = some ⟨0, .due⟩ := by decide
        exact Option.some.inj (hx.symm.trans h)
      subst this
      decide
    · intro j x he hx _
      simp only [Ev.begin.injEq] at he
      subst he
      have : x = ⟨0, .due⟩ := by
        have h : ((World.start allReady 2).run family (parentFirst.take 8)).jobs[0]? = some ⟨0, .due⟩ := by decide
        exact Option.some.inj (hx.symm.trans h)
      subst this
      decide
    · intro j i b c own ks he hx hi hc
      simp only [Ev.kid.injEq] at he
      obtain ⟨rfl, rfl⟩ := he
      have h : ((World.start allReady 2).run family (parentFirst.take 9)).jobs[1]? = some ⟨1, .running none [.waiting 2]⟩ := by decide
      have := Option.some.inj (hx.symm.trans h)
      simp only [Job.mk.injEq, Phase.running.injEq] at this
      rw [this.2.2] at hi
      simp at hi
  · intro x hx
    have : ((World.start allReady 2).run family parentFirst).jobs = [⟨0, .over false⟩, ⟨1, .over true⟩, ⟨0, .over true⟩] := by decide
    rw [this] at hx
    simp at hx
    rcases hx with rfl | rfl | rfl <;> exact ⟨_, rfl⟩

/-- the hypotheses of `disabled_when` are met -/
example : ((World.start allReady 2).run family (inOrder.take 8)).st 1 = .disabling ∧ ((World.start allReady 2).run family inOrder).st 1 = .disabled := by
  decide

/-- False as stated: both are Ready and nothing raises of itself, but the child is told to disable by its parent while it halts: both are
in Fault at the end. -/
theorem both_fault : NoFailure atOnce
    ∧ ((World.start allReady 2).run family atOnce).jobs.map Job.ph = [.over false, .over false, .over false]
    ∧ ((World.start allReady 2).run family atOnce).st 0 = .fault ∧ ((World.start allReady 2).run family atOnce).st 1 = .fault := by
  refine ⟨?_, by decide, by decide, by decide⟩
  intro j
  simp [atOnce]

/-- False as stated: with two parents the DisableHooks of a block may be run twice at the same time. -/
theorem twice_at_once : NoFailure twoParents ∧ ((World.start allReady 3).run family twoParents).began.count 0 = 2
    ∧ ((World.start allReady 3).run family twoParents).jobs[3]? = some ⟨0, .running none []⟩
    ∧ ((World.start allReady 3).run family twoParents).jobs[4]? = some ⟨0, .running none []⟩ := by
  refine ⟨?_, by decide, by decide, by decide⟩
  intro j
  simp [twoParents]

/-- False as stated: a block one of whose HaltHooks raises is not disabled. -/
theorem not_disabled : AllOver ((World.start allReady 1).run family [.halt 0 false])
    ∧ ((World.start allReady 1).run family [.halt 0 false]).st 0 = .ready
    ∧ ((World.start allReady 1).run family [.halt 0 false]).began = [] := by
  refine ⟨?_, by decide, by decide⟩
  unfold AllOver
  decide

/-- A block may be Disabled, its `halt` having returned, while the DisableHooks of its child are still being run. -/
theorem before_child : NoFailure notWaited ∧ ((World.start allReady 2).run family notWaited).st 1 = .disabled
    ∧ ((World.start allReady 2).run family notWaited).jobs = [⟨0, .running none []⟩, ⟨1, .over true⟩] := by
  refine ⟨?_, by decide, by decide⟩
  intro j
  simp [notWaited]

/-- the hypotheses of `at_end` and `hooks_run` are met in a run in which things go wrong -/
example : AllOver ((World.start allReady 2).run family atOnce) ∧ Ev.halt 0 false ∉ atOnce
    ∧ ((World.start allReady 2).run family atOnce).began = [1, 0] := by
  refine ⟨?_, by decide, by decide⟩
  intro x hx
  have : ((World.start allReady 2).run family atOnce).jobs = [⟨0, .over false⟩, ⟨1, .over false⟩, ⟨0, .over false⟩] := by decide
  rw [this] at hx
  simp at hx
  rcases hx with rfl | rfl | rfl <;> exact ⟨false, rfl⟩

end Verif.Props.Halt
