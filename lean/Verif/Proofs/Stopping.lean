import Verif.Spec.Stopping
/-!
What the parts of the detectors have done, whatever happens in a scan.
-/
namespace Verif.Proofs.Stopping
open Verif Verif.Stopping Verif.Spec.Stopping

/-! ### what a part has done in a hook so far -/

/-- Nothing is called, or it goes on, or it has ended -/
def Stage (d : Det) (ins : Instr) (w : Wait) (going ended : List St) : Prop :=
  (d.todo = [ins] ∧ d.waiting = none) ∨ (d.todo = [] ∧ d.waiting = some w ∧ d.st ∈ going) ∨
    (d.todo = [] ∧ d.waiting = none ∧ d.st ∈ ended)

/-- the states of a detector that neither takes frames nor is going to -/
def quiet : List St := [.resetting, .disabled, .disabling, .fault, .ready, .saving, .loading, .aborting, .aborted]

def Okd : Hook → Det → Prop
  | .abort, d => Stage d (.call .abort) .call [.aborting] [.aborted]
  | .disable, d => Stage d (.callIf .disable) .call [.disabling] [.disabled, .disabling, .fault]
  | .configure, d => d.taking → Stage d (.call .configure) .call [.configuring] [.armed]
  | .postRun, d => d.taking → Stage d .runEnd .runEnd [.running, .postrun] [.armed, .finished]
  | .seek, d => d.taking → Stage d (.call .pause) .call [.seeking] [.armed, .paused]
  | .reset, d => d.faulty = false →
      (d.todo = [.callIf .abort, .callIf .reset] ∧ d.waiting = none) ∨
      (d.todo = [.callIf .reset] ∧ d.waiting = some .call ∧ d.st = .aborting) ∨
      (d.todo = [.callIf .reset] ∧ d.waiting = none ∧ d.st ∈ quiet) ∨
      (d.todo = [] ∧ d.waiting = some .call ∧ d.st = .resetting) ∨
      (d.todo = [] ∧ d.waiting = none ∧ d.st ∈ quiet)
  | .preConfigure, _ | .run, _ => True

theorem program_ok (h : Hook) (d : Det) : Okd h { d with todo := d.program h, waiting := none } := by
  rcases d with ⟨faulty, design, taking, st, todo, waiting⟩
  cases h <;> simp only [Okd, Stage, Det.program] <;> (try cases taking) <;> (try cases faulty) <;> simp

theorem go_fixed (d : Det) : d.go.det.taking = d.taking ∧ d.go.det.faulty = d.faulty ∧ d.go.det.design = d.design := by
  rcases d with ⟨faulty, design, taking, st, todo, waiting⟩
  cases waiting with
  | some w => simp [Det.go]
  | none =>
    cases todo with
    | nil => simp [Det.go]
    | cons ins rest =>
      cases ins <;> simp only [Det.go, Det.exec, Det.make] <;> repeat' split
      all_goals simp

theorem ended_fixed (d : Det) (st : St) :
    (d.ended st).det.taking = d.taking ∧ (d.ended st).det.faulty = d.faulty ∧ (d.ended st).det.design = d.design := by
  unfold Det.ended; split <;> simp

theorem go_ok {h : Hook} {d : Det} (hd : Okd h d) (hr : d.go.raised = false) : Okd h d.go.det := by
  rcases d with ⟨faulty, design, taking, st, todo, waiting⟩
  cases h <;> simp only [Okd, Stage, quiet] at hd ⊢
  case abort =>
    rcases hd with ⟨rfl, rfl⟩ | ⟨rfl, rfl, hs⟩ | ⟨rfl, rfl, hs⟩ <;> revert hr <;> cases st <;>
      simp_all [Det.go, Det.exec, Det.make, Call.writeable, Call.start]
  case disable =>
    rcases hd with ⟨rfl, rfl⟩ | ⟨rfl, rfl, hs⟩ | ⟨rfl, rfl, hs⟩ <;> revert hr <;> cases st <;>
      simp_all [Det.go, Det.exec, Det.make, Call.writeable, Call.start]
  case configure =>
    intro ht
    rw [(go_fixed _).1] at ht
    rcases hd ht with ⟨rfl, rfl⟩ | ⟨rfl, rfl, hs⟩ | ⟨rfl, rfl, hs⟩ <;> revert hr <;> cases st <;>
      simp_all [Det.go, Det.exec, Det.make, Call.writeable, Call.start]
  case seek =>
    intro ht
    rw [(go_fixed _).1] at ht
    rcases hd ht with ⟨rfl, rfl⟩ | ⟨rfl, rfl, hs⟩ | ⟨rfl, rfl, hs⟩ <;> revert hr <;> cases st <;>
      simp_all [Det.go, Det.exec, Det.make, Call.writeable, Call.start]
  case postRun =>
    intro ht
    rw [(go_fixed _).1] at ht
    rcases hd ht with ⟨rfl, rfl⟩ | ⟨rfl, rfl, hs⟩ | ⟨rfl, rfl, hs⟩ <;> revert hr <;> cases st <;>
      simp_all [Det.go, Det.exec, Det.make, Call.writeable, Call.start]
  case reset =>
    intro ht
    rw [(go_fixed _).2.1] at ht
    rcases hd ht with ⟨rfl, rfl⟩ | ⟨rfl, rfl, hs⟩ | ⟨rfl, rfl, hs⟩ | ⟨rfl, rfl, hs⟩ | ⟨rfl, rfl, hs⟩ <;> revert hr <;> cases st <;>
      simp_all [Det.go, Det.exec, Det.make, Call.writeable, Call.start]

set_option maxHeartbeats 1600000 in
theorem ended_ok {h : Hook} {d : Det} {st : St} (hd : Okd h d) (hs' : st ∈ ends d.st) (hr : (d.ended st).raised = false) :
    Okd h (d.ended st).det := by
  rcases d with ⟨faulty, design, taking, st0, todo, waiting⟩
  cases h <;> simp only [Okd, Stage, quiet] at hd ⊢
  case abort =>
    rcases hd with ⟨rfl, rfl⟩ | ⟨rfl, rfl, hs⟩ | ⟨rfl, rfl, hs⟩ <;> revert hr <;> cases st0 <;> cases st <;>
      simp_all [Det.ended, ends]
  case disable =>
    rcases hd with ⟨rfl, rfl⟩ | ⟨rfl, rfl, hs⟩ | ⟨rfl, rfl, hs⟩ <;> revert hr <;> cases st0 <;> cases st <;>
      simp_all [Det.ended, ends]
  case configure =>
    intro ht
    rw [(ended_fixed _ _).1] at ht
    rcases hd ht with ⟨rfl, rfl⟩ | ⟨rfl, rfl, hs⟩ | ⟨rfl, rfl, hs⟩ <;> revert hr <;> cases st0 <;> cases st <;>
      simp_all [Det.ended, ends]
  case seek =>
    intro ht
    rw [(ended_fixed _ _).1] at ht
    rcases hd ht with ⟨rfl, rfl⟩ | ⟨rfl, rfl, hs⟩ | ⟨rfl, rfl, hs⟩ <;> revert hr <;> cases st0 <;> cases st <;>
      simp_all [Det.ended, ends]
  case postRun =>
    intro ht
    rw [(ended_fixed _ _).1] at ht
    rcases hd ht with ⟨rfl, rfl⟩ | ⟨rfl, rfl, hs⟩ | ⟨rfl, rfl, hs⟩ <;> revert hr <;> cases st0 <;> cases st <;>
      simp_all [Det.ended, ends]
  case reset =>
    intro ht
    rw [(ended_fixed _ _).2.1] at ht
    rcases hd ht with ⟨rfl, rfl⟩ | ⟨rfl, rfl, hs⟩ | ⟨rfl, rfl, hs⟩ | ⟨rfl, rfl, hs⟩ | ⟨rfl, rfl, hs⟩ <;> revert hr <;> cases st0 <;>
      cases st <;> simp_all [Det.ended, ends]

/-! ### the calls of the scan -/

/-- The hooks that go on, the state and where it ends -/
def Shape (s : Scan) : Prop :=
  s.hooks = [] ∨ (s.hooks, s.st, s.final) ∈
    [([.reset], .resetting, .ready), ([.reset, .preConfigure, .configure], .configuring, .armed),
     ([.preConfigure, .configure], .configuring, .armed), ([.configure], .configuring, .armed),
     ([.run, .postRun], .running, .armed), ([.postRun], .postrun, .armed), ([.seek], .seeking, .armed), ([.seek], .seeking, .paused),
     ([.abort], .aborting, .aborted), (([.disable] : List Hook), St.disabling, St.disabled)]

def Inv (s : Scan) : Prop := Shape s ∧ ∀ h hs, s.hooks = h :: hs → ∀ d ∈ s.dets, Okd h d

theorem spawn_okd (s : Scan) (hooks : List Hook) : ∀ h hs, (s.spawn hooks).hooks = h :: hs → ∀ d ∈ (s.spawn hooks).dets, Okd h d := by
  intro h hs he d hd
  cases hooks with
  | nil => simp [Scan.spawn] at he
  | cons h' hs' =>
    simp only [Scan.spawn, List.cons.injEq] at he
    obtain ⟨rfl, rfl⟩ := he
    simp only [Scan.spawn, List.mem_map] at hd
    obtain ⟨d0, -, rfl⟩ := hd
    exact program_ok _ _

theorem fail_inv (s : Scan) : Inv s.fail := ⟨.inl rfl, fun h hs he => by simp [Scan.fail] at he⟩

theorem at_inv {s : Scan} {i : Nat} {f : Det → Res} (hi : Inv s)
    (hf : ∀ h hs, s.hooks = h :: hs → ∀ d ∈ s.dets, (f d).raised = false → Okd h (f d).det) : Inv (s.at i f) := by
  unfold Scan.at
  split
  · exact hi
  · rename_i d hd
    split
    · exact fail_inv _
    · rename_i hr
      refine ⟨hi.1, fun h hs he x hx => ?_⟩
      rcases List.mem_or_eq_of_mem_set hx with h1 | rfl
      · exact hi.2 h hs he x h1
      · exact hf h hs he d (List.mem_of_getElem? hd) (by simpa using hr)

theorem step_inv {s : Scan} (hi : Inv s) (e : Ev) : Inv (s.step e) := by
  cases e with
  | part i => exact at_inv hi (fun h hs he d hd hr => go_ok (hi.2 h hs he d hd) hr)
  | det i st =>
    refine at_inv hi (fun h hs he d hd hr => ?_)
    by_cases hm : st ∈ ends d.st
    · rw [if_pos hm] at hr ⊢; exact ended_ok (hi.2 h hs he d hd) hm hr
    · rw [if_neg hm]; exact hi.2 h hs he d hd
  | other i c =>
    simp only [Scan.step]
    split
    · rename_i hh
      exact at_inv hi (fun h hs he => by rw [hh] at he; cases he)
    · exact hi
  | otherFails =>
    simp only [Scan.step]
    split
    · exact hi
    · exact fail_inv _
  | next last =>
    simp only [Scan.step]
    split
    · rename_i hc
      refine ⟨?_, spawn_okd _ _⟩
      rcases hi.1 with h0 | hm
      · exact absurd h0 hc.1
      · simp only [List.mem_cons, Prod.mk.injEq, List.not_mem_nil, or_false] at hm
        rcases hm with ⟨h1, h2, h3⟩ | ⟨h1, h2, h3⟩ | ⟨h1, h2, h3⟩ | ⟨h1, h2, h3⟩ | ⟨h1, h2, h3⟩ | ⟨h1, h2, h3⟩ | ⟨h1, h2, h3⟩ |
          ⟨h1, h2, h3⟩ | ⟨h1, h2, h3⟩ | ⟨h1, h2, h3⟩ <;> simp [h1, h2, h3, Shape, Scan.spawn]
    · exact hi
  | reset | run | resume | abort | disable =>
    simp only [Scan.step]
    split
    · exact ⟨.inr (by simp [Scan.begin, Scan.spawn]), spawn_okd _ _⟩
    · exact hi
  | pause =>
    simp only [Scan.step]
    split
    · refine ⟨.inr ?_, spawn_okd _ _⟩
      by_cases hc : s.st = .armed ∨ s.st = .finished
      · simp [Scan.begin, Scan.spawn, if_pos hc]
      · simp [Scan.begin, Scan.spawn, if_neg hc]
    · exact hi
  | configure taking =>
    simp only [Scan.step]
    split
    · refine ⟨.inr ?_, spawn_okd _ _⟩
      simp only [Scan.begin]
      split <;> simp [Scan.spawn]
    · exact hi

theorem run_inv {s : Scan} (hi : Inv s) (evs : List Ev) : Inv (s.run evs) := by
  induction evs generalizing s with
  | nil => exact hi
  | cons e evs ih => exact ih (step_inv hi e)

theorem resting_inv {s : Scan} (h : Resting s) : Inv s := ⟨.inl h, fun _ _ he => by rw [h] at he; cases he⟩

theorem idle_iff (d : Det) : d.idle = true ↔ d.todo = [] ∧ d.waiting = none := by simp [Det.idle]

/-- A call ends well when the functions of its last hook have all returned -/
theorem call_ends {s : Scan} (hi : Inv s) {e : Ev} (hne : (s.step e).st ≠ s.st) (hr : (s.step e).st ∈
    [St.ready, .armed, .finished, .paused, .aborted, .disabled]) :
    (∃ last, e = .next last) ∧ (s.step e).dets = s.dets ∧ (∀ d ∈ s.dets, d.todo = [] ∧ d.waiting = none) ∧
    ((s.hooks = [.reset] ∧ s.st = .resetting ∧ (s.step e).st = .ready) ∨
     (s.hooks = [.configure] ∧ s.st = .configuring ∧ (s.step e).st = .armed) ∨
     (s.hooks = [.postRun] ∧ s.st = .postrun ∧ ((s.step e).st = .armed ∨ (s.step e).st = .finished)) ∨
     (s.hooks = [.seek] ∧ s.st = .seeking ∧ ((s.step e).st = .armed ∨ (s.step e).st = .paused)) ∨
     (s.hooks = [.abort] ∧ s.st = .aborting ∧ (s.step e).st = .aborted) ∨
     (s.hooks = [.disable] ∧ s.st = .disabling ∧ (s.step e).st = .disabled)) := by
  have hat : ∀ i f, (s.at i f).st = s.st ∨ (s.at i f).st = .fault := by
    intro i f
    unfold Scan.at
    split
    · exact .inl rfl
    · split
      · exact .inr rfl
      · exact .inl rfl
  cases e with
  | part i =>
    rcases hat i Det.go with h | h
    · exact absurd h hne
    · simp only [Scan.step, h] at hr; simp at hr
  | det i st =>
    simp only [Scan.step] at hne hr
    rcases hat i (fun d => if st ∈ ends d.st then d.ended st else ⟨d, false⟩) with h | h
    · exact absurd h hne
    · rw [h] at hr; simp at hr
  | other i c =>
    simp only [Scan.step] at hne hr
    split at hne
    · rename_i hc
      rw [if_pos hc] at hr
      rcases hat i (fun d => if d.st ∈ c.writeable then ⟨{ d with st := c.start }, false⟩ else ⟨d, false⟩) with h | h
      · exact absurd h hne
      · rw [h] at hr; simp at hr
    · exact absurd rfl hne
  | otherFails =>
    simp only [Scan.step] at hne hr
    split at hne
    · exact absurd rfl hne
    · rename_i hc
      rw [if_neg hc] at hr
      simp [Scan.fail] at hr
  | reset | run | resume | abort | disable =>
    simp only [Scan.step] at hne hr
    split at hne
    · rename_i hc
      rw [if_pos hc] at hr
      simp [Scan.begin, Scan.spawn] at hr
    · exact absurd rfl hne
  | pause =>
    simp only [Scan.step] at hne hr
    split at hne
    · rename_i hc
      rw [if_pos hc] at hr
      simp [Scan.begin, Scan.spawn] at hr
    · exact absurd rfl hne
  | configure taking =>
    simp only [Scan.step] at hne hr
    split at hne
    · rename_i hc
      rw [if_pos hc] at hr
      simp only [Scan.begin] at hr
      split at hr <;> simp [Scan.spawn] at hr
    · exact absurd rfl hne
  | next last =>
    simp only [Scan.step] at hne hr ⊢
    split at hne
    · rename_i hc
      rw [if_pos hc] at hr ⊢
      have hidle : ∀ d ∈ s.dets, d.todo = [] ∧ d.waiting = none := fun d hd => (idle_iff d).1 (List.all_eq_true.1 hc.2 d hd)
      rcases hi.1 with h0 | hm
      · exact absurd h0 hc.1
      · simp only [List.mem_cons, Prod.mk.injEq, List.not_mem_nil, or_false] at hm
        rcases hm with ⟨h1, h2, h3⟩ | ⟨h1, h2, h3⟩ | ⟨h1, h2, h3⟩ | ⟨h1, h2, h3⟩ | ⟨h1, h2, h3⟩ | ⟨h1, h2, h3⟩ | ⟨h1, h2, h3⟩ |
          ⟨h1, h2, h3⟩ | ⟨h1, h2, h3⟩ | ⟨h1, h2, h3⟩ <;> cases last <;> simp [h1, h2, h3, Scan.spawn] at hne hr ⊢ <;> exact hidle
    · exact absurd rfl hne

end Verif.Proofs.Stopping
