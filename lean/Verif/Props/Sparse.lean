import Verif.Model.Sparse
import Mathlib.Tactic.Linarith
import Mathlib.Tactic.Ring
/-!
C33: "Skipping collinear points in a sparse trajectory never changes when a retained point is reached:
total time up to each retained point equals the sum of the durations of the scan points up to it."
-/
set_option linter.unusedVariables false
namespace Verif.Props.Sparse
open Verif.Sparse

/-- the time scan point `p` takes with the turnaround after it -/
def span (p : Pt) : ℚ := p.dur + if p.joined then 0 else p.gap

/-- when the scan, with no points left out, starts scan point `i` -/
def startsAt (pts : List Pt) (i : Nat) : ℚ := ((pts.take i).map span).sum

/-- when the scan, with no points left out, reaches the middle of a point, its upper bound, or the lower
bound of the next one after a turnaround -/
def due (pts : List Pt) : Kind → Nat → Option ℚ
  | .mid, i => pts[i]?.map (fun p => startsAt pts i + p.dur / 2)
  | .upper, i => pts[i]?.map (fun p => startsAt pts i + p.dur)
  | .gap, i => pts[i]?.map (fun p => startsAt pts i + p.dur + p.gap)

/-- when the trajectory reaches its `k`th point -/
def reachedAt (evs : List Ev) (k : Nat) : ℚ := ((evs.take (k + 1)).map Ev.time).sum

theorem addSparse_cases (tsp : ℚ) (i : Nat) (p : Pt) :
    (p.joined = true ∧ p.same = true ∧ addSparsePoint tsp i p = ([], tsp + p.dur, false)) ∨
    (addSparsePoint tsp i p = ([⟨.upper, i, tsp + p.dur⟩], 0, true) ∧ p.joined = false) ∨
    (addSparsePoint tsp i p = ([⟨.mid, i, tsp + p.dur / 2⟩, ⟨.upper, i, p.dur / 2⟩], 0, true) ∧
      ¬ (p.joined = true ∧ p.same = true)) := by
  unfold addSparsePoint doSkip
  cases hj : p.joined <;> cases hs : p.same <;> by_cases ht : tsp > 0 <;> simp [ht]

/-- sums of prefixes, with an offset -/
def Ok (base : ℚ) (evs : List Ev) (d : Kind → Nat → Option ℚ) : Prop :=
  ∀ k e, evs[k]? = some e → d e.kind e.step = some (base + reachedAt evs k)

theorem ok_nil (base : ℚ) (d) : Ok base [] d := by intro k e h; cases h

theorem ok_cons {base : ℚ} {e : Ev} {evs : List Ev} {d} (h1 : d e.kind e.step = some (base + e.time))
    (h2 : Ok (base + e.time) evs d) : Ok base (e :: evs) d := by
  intro k e' hk
  cases k with
  | zero =>
    simp only [List.getElem?_cons_zero, Option.some.injEq] at hk; subst hk
    rw [h1]; simp [reachedAt]
  | succ k =>
    simp only [List.getElem?_cons_succ] at hk
    rw [h2 k e' hk]
    congr 1
    simp only [reachedAt, List.take_succ_cons, List.map_cons, List.sum_cons]
    ring

theorem startsAt_append (pre : List Pt) (p : Pt) (rest : List Pt) :
    startsAt (pre ++ p :: rest) pre.length = (pre.map span).sum := by
  unfold startsAt; rw [List.take_left']; rfl

theorem due_append (pre : List Pt) (p : Pt) (rest : List Pt) (k : Kind) :
    due (pre ++ p :: rest) k pre.length = some ((pre.map span).sum +
      match k with
      | .mid => p.dur / 2
      | .upper => p.dur
      | .gap => p.dur + p.gap) := by
  have h : (pre ++ p :: rest)[pre.length]? = some p := by simp
  cases k <;> simp only [due, h, Option.map_some, startsAt_append]
  rw [add_assoc]

theorem loop_ok (full : Nat → Bool) (rest : List Pt) : ∀ (pre : List Pt) (tsp base : ℚ),
    base + tsp = (pre.map span).sum → Ok base (loop full tsp pre.length rest) (due (pre ++ rest)) := by
  induction rest with
  | nil => intro pre tsp base h; exact ok_nil _ _
  | cons p rest ih =>
    intro pre tsp base hb
    have hrec := fun tsp' base' hb' => ih (pre ++ [p]) tsp' base' hb'
    simp only [List.append_assoc, List.singleton_append, List.length_append, List.length_singleton, List.map_append,
      List.map_cons, List.map_nil, List.sum_append, List.sum_cons, List.sum_nil, add_zero] at hrec
    have hz : (if true && full pre.length then (0 : ℚ) else 0) = 0 := by split <;> rfl
    simp only [loop]
    rcases addSparse_cases tsp pre.length p with ⟨hj, hs, e⟩ | ⟨e, hj⟩ | ⟨e, hj⟩
    · simp only [e, hj, if_true, List.nil_append, Bool.false_and, Bool.false_eq_true, if_false]
      apply hrec
      have hsp : span p = p.dur + if p.joined then 0 else p.gap := rfl; simp only [hj, if_true] at hsp; linarith
    · simp only [e, hj, hz, Bool.false_eq_true, if_false]
      refine ok_cons ?_ (ok_cons ?_ (hrec _ _ ?_))
      · dsimp only; rw [due_append]; congr 1; dsimp only; linarith
      · dsimp only; rw [due_append]; congr 1; dsimp only; linarith
      · dsimp only; have hsp : span p = p.dur + if p.joined then 0 else p.gap := rfl; simp only [hj, Bool.false_eq_true, if_false] at hsp; linarith
    · simp only [e, hz]
      cases hjj : p.joined with
      | true =>
        simp only [if_true, List.append_nil]
        refine ok_cons ?_ (ok_cons ?_ (hrec _ _ ?_))
        · dsimp only; rw [due_append]; congr 1; dsimp only; linarith
        · dsimp only; rw [due_append]; congr 1; dsimp only; linarith
        · dsimp only; have hsp : span p = p.dur + if p.joined then 0 else p.gap := rfl; simp only [hjj, if_true] at hsp; linarith
      | false =>
        simp only [Bool.false_eq_true, if_false]
        refine ok_cons ?_ (ok_cons ?_ (ok_cons ?_ (hrec _ _ ?_)))
        · dsimp only; rw [due_append]; congr 1; dsimp only; linarith
        · dsimp only; rw [due_append]; congr 1; dsimp only; linarith
        · dsimp only; rw [due_append]; congr 1; dsimp only; linarith
        · dsimp only; have hsp : span p = p.dur + if p.joined then 0 else p.gap := rfl; simp only [hjj, Bool.false_eq_true, if_false] at hsp; linarith

/-- **C33**: for every list of scan points, whenever the profile gets full and production stops and goes
on: the trajectory reaches each point it keeps (a middle, an upper bound, or the end of a turnaround) at
the time at which the scan with no points left out reaches it. -/
theorem retained_on_time (full : Nat → Bool) (pts : List Pt) (k : Nat) (e : Ev)
    (h : (loop full 0 0 pts)[k]? = some e) : due pts e.kind e.step = some (reachedAt (loop full 0 0 pts) k) := by
  have := loop_ok full pts [] 0 0 (by simp)
  have := this k e h
  simpa using this

/-- **C33**, that stopping changes nothing -/
theorem stops_harmless (full : Nat → Bool) (pts : List Pt) : ∀ tsp i,
    loop full tsp i pts = loop (fun _ => false) tsp i pts := by
  induction pts with
  | nil => intro tsp i; rfl
  | cons p pts ih =>
    intro tsp i
    simp only [loop]
    rw [ih]
    rcases addSparse_cases tsp i p with ⟨_, _, e⟩ | ⟨e, _⟩ | ⟨e, _⟩ <;> simp only [e] <;> simp

/-- **C33**, what may be left out: the upper bound of a point is kept unless it is joined to the next one
which has the same velocity. -/
theorem upper_kept (full : Nat → Bool) (pts : List Pt) (i : Nat) (p : Pt) (h : pts[i]? = some p) :
    (∃ e ∈ loop full 0 0 pts, e.kind = .upper ∧ e.step = i) ↔ ¬ (p.joined = true ∧ p.same = true) := by
  have key : ∀ (pts : List Pt) (tsp : ℚ) (n : Nat) (i : Nat) (p : Pt), pts[i]? = some p →
      ((∃ e ∈ loop full tsp n pts, e.kind = .upper ∧ e.step = n + i) ↔ ¬ (p.joined = true ∧ p.same = true)) := by
    intro pts
    induction pts with
    | nil => intro tsp n i p h; cases h
    | cons q pts ih =>
      intro tsp n i p h
      simp only [loop]
      have hlater : ∀ (pts : List Pt) (tsp : ℚ) (m : Nat), ∀ e ∈ loop full tsp m pts, m ≤ e.step := by
        intro pts
        induction pts with
        | nil => intro tsp m e he; cases he
        | cons q pts ih =>
          intro tsp m e he
          simp only [loop, List.mem_append] at he
          rcases he with (he | he) | he
          · rcases addSparse_cases tsp m q with ⟨_, _, e1⟩ | ⟨e1, _⟩ | ⟨e1, _⟩ <;> simp only [e1] at he
            · cases he
            · rw [List.mem_singleton.1 he]
            · simp only [List.mem_cons, List.not_mem_nil, or_false] at he
              rcases he with he | he <;> rw [he]
          · split at he
            · cases he
            · rw [List.mem_singleton.1 he]
          · have := ih _ _ e he; omega
      cases i with
      | zero =>
        simp only [List.getElem?_cons_zero, Option.some.injEq] at h; subst h
        constructor
        · rintro ⟨e, he, hk, hst⟩ hjs
          simp only [List.mem_append] at he
          rcases he with (he | he) | he
          · rcases addSparse_cases tsp n q with ⟨_, _, e1⟩ | ⟨e1, hj⟩ | ⟨e1, hj⟩
            · simp only [e1] at he; cases he
            · rw [hj] at hjs; cases hjs.1
            · exact hj hjs
          · rw [hjs.1] at he; cases he
          · have := hlater _ _ _ e he; omega
        · intro hn
          rcases addSparse_cases tsp n q with ⟨hj, hs, _⟩ | ⟨e1, _⟩ | ⟨e1, _⟩
          · exact absurd ⟨hj, hs⟩ hn
          · exact ⟨⟨.upper, n, tsp + q.dur⟩, by simp [e1], rfl, rfl⟩
          · exact ⟨⟨.upper, n, q.dur / 2⟩, by simp [e1], rfl, rfl⟩
      | succ i =>
        simp only [List.getElem?_cons_succ] at h
        have := ih (if (addSparsePoint tsp n q).2.2 && full n then 0 else (addSparsePoint tsp n q).2.1) (n + 1) i p h
        rw [← this]
        constructor
        · rintro ⟨e, he, hk, hst⟩
          refine ⟨e, ?_, hk, by omega⟩
          simp only [List.mem_append] at he
          rcases he with (he | he) | he
          · exfalso
            rcases addSparse_cases tsp n q with ⟨_, _, e1⟩ | ⟨e1, _⟩ | ⟨e1, _⟩ <;> simp only [e1] at he
            · cases he
            · rw [List.mem_singleton.1 he] at hst; simp only at hst; omega
            · simp only [List.mem_cons, List.not_mem_nil, or_false] at he
              rcases he with he | he <;> rw [he] at hst <;> simp only at hst <;> omega
          · exfalso
            split at he
            · cases he
            · rw [List.mem_singleton.1 he] at hst; simp only at hst; omega
          · exact he
        · rintro ⟨e, he, hk, hst⟩
          exact ⟨e, by simp only [List.mem_append]; exact .inr he, hk, by omega⟩
  have := key pts 0 0 i p h
  simpa using this

/-- **C33**, what may be left out: the middle of a point is left out only if the next point is joined to
it with the same velocity, or it ends a row and the point before is joined to it with the same
velocity. -/
theorem mid_left_out (full : Nat → Bool) (pts : List Pt) (i : Nat) (p : Pt) (h : pts[i]? = some p)
    (hno : ¬ ∃ e ∈ loop full 0 0 pts, e.kind = .mid ∧ e.step = i) :
    (p.joined = true ∧ p.same = true) ∨
    (p.joined = false ∧ ∃ j q, i = j + 1 ∧ pts[j]? = some q ∧ q.joined = true ∧ q.same = true) := by
  have key : ∀ (pts : List Pt) (tsp : ℚ) (n : Nat) (i : Nat) (p : Pt), pts[i]? = some p →
      (¬ ∃ e ∈ loop full tsp n pts, e.kind = .mid ∧ e.step = n + i) →
      (p.joined = true ∧ p.same = true) ∨
      (p.joined = false ∧ ((i = 0 ∧ tsp > 0) ∨ ∃ j q, i = j + 1 ∧ pts[j]? = some q ∧ q.joined = true ∧ q.same = true)) := by
    intro pts
    induction pts with
    | nil => intro tsp n i p h; cases h
    | cons q pts ih =>
      intro tsp n i p h hno
      simp only [loop] at hno
      cases i with
      | zero =>
        simp only [List.getElem?_cons_zero, Option.some.injEq] at h; subst h
        rcases addSparse_cases tsp n q with ⟨hj, hs, _⟩ | ⟨e1, hj⟩ | ⟨e1, _⟩
        · exact .inl ⟨hj, hs⟩
        · refine .inr ⟨hj, .inl ⟨rfl, ?_⟩⟩
          by_contra ht
          have hsk : doSkip tsp q = false := by
            unfold doSkip; rw [if_neg (by rintro ⟨h, _⟩; exact ht h), hj]; rfl
          unfold addSparsePoint at e1
          simp [hj, hsk] at e1
        · exact absurd ⟨⟨.mid, n, tsp + q.dur / 2⟩, by rw [e1]; simp, rfl, rfl⟩ hno
      | succ i =>
        simp only [List.getElem?_cons_succ] at h
        have := ih (if (addSparsePoint tsp n q).2.2 && full n then 0 else (addSparsePoint tsp n q).2.1) (n + 1) i p h (by
          rintro ⟨e, he, hk, hst⟩
          exact hno ⟨e, by simp only [List.mem_append]; exact .inr he, hk, by omega⟩)
        rcases this with h1 | ⟨h1, ⟨h2, h3⟩ | ⟨j, r, h2, h3, h4⟩⟩
        · exact .inl h1
        · refine .inr ⟨h1, .inr ⟨0, q, by omega, rfl, ?_⟩⟩
          rcases addSparse_cases tsp n q with ⟨hj, hs, _⟩ | ⟨e1, hj⟩ | ⟨e1, _⟩
          · exact ⟨hj, hs⟩
          · simp only [e1] at h3; simp at h3
          · simp only [e1] at h3; simp at h3
        · exact .inr ⟨h1, .inr ⟨j + 1, r, by omega, h3, h4⟩⟩
  rcases key pts 0 0 i p h (by simpa using hno) with h1 | ⟨h1, ⟨_, h2⟩ | h2⟩
  · exact .inl h1
  · exact absurd h2 (lt_irrefl _)
  · exact .inr ⟨h1, h2⟩

/-- Five points in two rows with one, then two, left out: the hypotheses are met. -/
example : (loop (fun i => i == 2) 0 0 [⟨1, true, true, 0⟩, ⟨1, true, true, 0⟩, ⟨1, false, true, 3⟩, ⟨2, true, false, 0⟩,
    ⟨1, false, false, 1⟩]).map (fun e => (e.kind, e.step)) =
    [(.upper, 2), (.gap, 2), (.mid, 3), (.upper, 3), (.mid, 4), (.upper, 4), (.gap, 4)] ∧
    due [⟨1, true, true, 0⟩, ⟨1, true, true, 0⟩, ⟨1, false, true, 3⟩, ⟨2, true, false, 0⟩, ⟨1, false, false, 1⟩] .mid 3 =
      some 7 := by decide +kernel

end Verif.Props.Sparse
