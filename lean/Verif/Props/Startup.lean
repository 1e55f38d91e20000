import Verif.Proofs.Startup
/-!
C117: the blocks of a process get going together.
-/
namespace Verif.Props.Startup
open Verif Verif.Startup Verif.Spec.Startup Verif.Proofs.Startup

variable {blocks : Nat → Option Block} {news : List Nat}

/-! ### what is Ready -/

/-- A block that has become Ready at the start ought to be: its own parts and the rest of its init have succeeded, and so
have its children, their children, and so on, whatever the order in which things happen and however long they take. -/
theorem ready_good (hf : Fresh blocks news) (es : List Ev) {i : Nat} (hi : i ∈ news)
    (hr : stOf ((World.start blocks news).run es) i = some .ready) : Good blocks news i := by
  have hI := run_inv hf es (start_inv hf)
  obtain ⟨b, hb, hst⟩ := Option.map_eq_some_iff.1 hr
  exact (hI.ready i b hi hb hst).2.1

/-- When a block sets its layout and loads its initial design, all its children are in the process, and Ready if they are
waited for; and so they are whenever it is Ready. -/
theorem children_ready (hf : Fresh blocks news) (es : List Ev) {i : Nat} {b : Block} (hi : i ∈ news)
    (hb : ((World.start blocks news).run es).blocks i = some b) (hr : b.laid = true ∨ b.st = .ready) :
    ∀ kid ∈ b.kids, ∃ c, ((World.start blocks news).run es).blocks kid.id = some c ∧ (kid.stateful = true → c.st = .ready) := by
  have hI := run_inv hf es (start_inv hf)
  have hr : b.st = .ready := hr.elim (hI.laid i b hi hb) id
  intro kid hm
  obtain ⟨-, -, hall⟩ := hI.ready i b hi hb hr
  have hlen := hI.len i b hi hb (by simp [hr])
  obtain ⟨k, hlt, hke⟩ := List.mem_iff_getElem.1 hm
  have hp : b.parts[k]? = some .done := by
    rw [List.getElem?_eq_getElem (by omega)]
    simpa using List.all_eq_true.1 hall _ (List.getElem_mem (by omega))
  exact hI.done i b hi hb k kid hp (by rw [List.getElem?_eq_getElem hlt, hke])

/-- At the start a block is Ready exactly if it has come to the end of its init: no part is forgotten. -/
theorem ready_laid (hf : Fresh blocks news) (es : List Ev) {i : Nat} {b : Block} (hi : i ∈ news)
    (hb : ((World.start blocks news).run es).blocks i = some b) : b.st = .ready ↔ b.laid = true := by
  have hI := run_inv hf es (start_inv hf)
  exact ⟨fun h => (hI.ready i b hi hb h).1, hI.laid i b hi hb⟩

/-- Blocks that are children of each other in a circle never become Ready: of a set of blocks each of which waits for one of
the set, none does. -/
theorem circle (hf : Fresh blocks news) (es : List Ev) (S : Nat → Prop) (hS : ∀ i, S i → i ∈ news)
    (hc : ∀ i b, S i → blocks i = some b → ∃ kid ∈ b.kids, kid.stateful = true ∧ S kid.id) {i : Nat} (hi : S i) :
    stOf ((World.start blocks news).run es) i ≠ some .ready := by
  intro hr
  have hg := ready_good hf es (hS i hi) hr
  clear hr
  induction hg with
  | old h => exact h (hS _ hi)
  | new _ hb _ _ _ _ ih =>
    obtain ⟨kid, hm, hs, hk⟩ := hc _ _ hi hb
    exact ih kid hm hs hk

/-- The blocks that are not to be started are left alone. -/
theorem others_left_alone (hf : Fresh blocks news) (es : List Ev) {i : Nat} (hi : i ∉ news) :
    ((World.start blocks news).run es).blocks i = blocks i :=
  (run_inv hf es (start_inv hf)).old i hi

/-! ### what becomes Ready -/

/-- No block takes a child that has not begun to start for one that is Disabled: when the first part looks at its child, all
the blocks have begun, in whatever order they are started. -/
theorem all_begun (hf : Fresh blocks news) (es : List Ev) {i k : Nat} {b : Block} {p : PSt} (hi : i ∈ news)
    (hb : ((World.start blocks news).run es).blocks i = some b) (hk : b.parts[k]? = some p) (hp : p ≠ .idle) :
    ∀ j ∈ news, stOf ((World.start blocks news).run es) j ≠ some .disabled := by
  have hI := run_inv hf es (start_inv hf)
  intro j hj hst
  obtain ⟨c, hc, hcs⟩ := Option.map_eq_some_iff.1 hst
  exact hp (hI.front j ((hI.unbegun j c hj hc).1 hcs) i b hi hb k p hk)

/-- **If no part has to wait for too long, then in the end the blocks that ought to be Ready are Ready and all others are in
Fault**, whatever the order in which things happen. What is missing for the whole claim: see `slow_child`. -/
theorem outcome_partial (hf : Fresh blocks news) (hc : ChildrenFirst blocks) (es : List Ev) (ht : InTime es)
    (hs : Still ((World.start blocks news).run es)) {i : Nat} (hi : i ∈ news) :
    (Good blocks news i ∧ stOf ((World.start blocks news).run es) i = some .ready) ∨
    (¬Good blocks news i ∧ stOf ((World.start blocks news).run es) i = some .fault) := by
  have hI := run_inv hf es (start_inv hf)
  have hF := run_finv hf es ht (start_inv hf) (start_finv hf)
  obtain ⟨b, hb⟩ := there' hf hI hi
  rcases settled hf hI hs hc hi hb with h | h
  · exact .inl ⟨(hI.ready i b hi hb h).2.1, by simp [stOf, hb, h]⟩
  · exact .inr ⟨hF i b hi hb h, by simp [stOf, hb, h]⟩

/-- However long parts wait, in the end each block is Ready or in Fault. -/
theorem no_block_left (hf : Fresh blocks news) (hc : ChildrenFirst blocks) (es : List Ev)
    (hs : Still ((World.start blocks news).run es)) {i : Nat} (hi : i ∈ news) :
    stOf ((World.start blocks news).run es) i = some .ready ∨ stOf ((World.start blocks news).run es) i = some .fault := by
  have hI := run_inv hf es (start_inv hf)
  obtain ⟨b, hb⟩ := there' hf hI hi
  rcases settled hf hI hs hc hi hb with h | h
  · exact .inl (by simp [stOf, hb, h])
  · exact .inr (by simp [stOf, hb, h])

/-- The start comes to an end: there is a bound, given by the blocks and their children alone, to how many things can happen
that change anything. -/
theorem start_ends (hf : Fresh blocks news) {es : List Ev} (he : Effective (World.start blocks news) es) :
    es.length ≤ work blocks news := by
  rw [← start_left hf]
  exact effective_left hf es (start_inv hf) he

/-! ### afterwards -/

/-- Neither reset() nor disable(), of whatever block and however often, makes up for an init that has failed: the parts that
had not found their child have not, and no layout is set nor design loaded. -/
theorem never_made_up (w : World) (cs : List Call) {i : Nat} {b : Block} (hb : w.blocks i = some b) :
    ∃ b', (w.calls cs).blocks i = some b' ∧ b'.laid = b.laid ∧ b'.parts = b.parts := by
  induction cs generalizing w b with
  | nil => exact ⟨b, hb, rfl, rfl⟩
  | cons c cs ih =>
    have : ∃ b', (w.call c).blocks i = some b' ∧ b'.laid = b.laid ∧ b'.parts = b.parts := by
      cases c with
      | disable j ok =>
        simp only [World.call]
        split
        · exact ⟨b, hb, rfl, rfl⟩
        · rename_i c hc
          split
          · exact ⟨b, hb, rfl, rfl⟩
          · by_cases hij : i = j
            · subst hij
              rw [hb] at hc
              cases hc
              exact ⟨{ b with st := if ok then .disabled else .fault }, by simp [World.put], rfl, rfl⟩
            · exact ⟨b, by simp [World.put, hij, hb], rfl, rfl⟩
      | reset j ok =>
        simp only [World.call]
        split
        · exact ⟨b, hb, rfl, rfl⟩
        · rename_i c hc
          split
          · exact ⟨b, hb, rfl, rfl⟩
          · by_cases hij : i = j
            · subst hij
              rw [hb] at hc
              cases hc
              exact ⟨{ b with st := if ok then .ready else .fault }, by simp [World.put], rfl, rfl⟩
            · exact ⟨b, by simp [World.put, hij, hb], rfl, rfl⟩
    obtain ⟨b', h1, h2, h3⟩ := this
    obtain ⟨b'', h4, h5, h6⟩ := ih _ h1
    exact ⟨b'', h4, h5.trans h2, h6.trans h3⟩

/-! ### a process -/

/-- A scan (0) with a detector (1) that has a driver (2), a writer (3) and a block without states (4); the detector's IOC (5)
was started before -/
def beamline : Nat → Option Block
  | 0 => some { kids := [⟨1, true⟩] }
  | 1 => some { kids := [⟨2, true⟩, ⟨3, true⟩, ⟨4, false⟩, ⟨5, true⟩] }
  | 2 => some { kids := [] }
  | 3 => some { kids := [] }
  | 4 => some { kids := [], st := .disabled }
  | 5 => some { kids := [], st := .ready, laid := true, own := true }
  | _ => none

theorem beamline_fresh (news : List Nat) (hn : news = [0, 1, 2, 3] ∨ news = [3, 2, 1, 0]) : Fresh beamline news := by
  refine ⟨by rcases hn with rfl | rfl <;> decide, ?_, ?_⟩
  · intro i b hi hb
    unfold beamline at hb
    split at hb <;> (first | cases hb | skip) <;> first | decide | (exfalso; apply hi; rcases hn with rfl | rfl <;> simp)
  · intro i hi
    have : i = 0 ∨ i = 1 ∨ i = 2 ∨ i = 3 := by
      rcases hn with rfl | rfl <;> simp at hi <;> omega
    rcases this with rfl | rfl | rfl | rfl <;> exact ⟨_, rfl, rfl, rfl, rfl⟩

/-- Everything that is spawned begins; then the leaves come to their end, and then what waits for them -/
def goesWell : List Ev :=
  List.replicate 9 .next ++ [.own 2, .rest 2, .own 3, .own 0, .rest 3, .told 1 0, .told 1 1, .own 1, .rest 1, .told 0 0, .rest 0]

example : ((List.range 4).map (stOf ((World.start beamline [0, 1, 2, 3]).run goesWell)) = List.replicate 4 (some .ready)) ∧
    ((List.range 4).map (stOf ((World.start beamline [3, 2, 1, 0]).run goesWell)) = List.replicate 4 (some .ready)) ∧
    work beamline [0, 1, 2, 3] = 27 := by
  refine ⟨by decide +kernel, by decide +kernel, by decide +kernel⟩

example : ChildrenFirst beamline := by
  refine ⟨fun i => if i = 0 then 2 else if i = 1 then 1 else 0, ?_⟩
  intro i b hb kid hm _
  unfold beamline at hb
  split at hb <;> cases hb <;> simp at hm
  · subst hm; decide
  · rcases hm with rfl | rfl | rfl | rfl <;> decide

example : Still ((World.start beamline [0, 1, 2, 3]).run goesWell) := by
  have hf := beamline_fresh [0, 1, 2, 3] (.inl rfl)
  have hI := run_inv hf goesWell (start_inv hf)
  have hz : left beamline [0, 1, 2, 3] ((World.start beamline [0, 1, 2, 3]).run goesWell) = 0 := by decide +kernel
  intro e _
  rcases step_left hf hI e with h | h
  · exact h
  · omega

/-- Finding: a child that takes longer to start than its parent waits (10 s) is Ready in the end, but the parent is in
Fault, and so are those who wait for it, though nothing has failed: each ought to be Ready. -/
theorem slow_child :
    let w := (World.start beamline [0, 1, 2, 3]).run
      (List.replicate 9 .next ++ [.own 0, .own 1, .late 1 0, .told 0 0, .own 2, .rest 2, .own 3, .rest 3])
    stOf w 2 = some .ready ∧ stOf w 3 = some .ready ∧ stOf w 1 = some .fault ∧ stOf w 0 = some .fault ∧
    Good beamline [0, 1, 2, 3] 0 := by
  refine ⟨by decide +kernel, by decide +kernel, by decide +kernel, by decide +kernel, ?_⟩
  exact ready_good (beamline_fresh _ (.inl rfl)) goesWell (by simp) (by decide +kernel)

/-- Finding: after that reset() makes the detector and the scan Ready, but the detector's part for the driver has never seen
its child, and no layout has been set. -/
theorem ready_without_layout :
    let w := ((World.start beamline [0, 1, 2, 3]).run
      (List.replicate 9 .next ++ [.own 0, .own 1, .late 1 0, .told 0 0, .own 2, .rest 2, .own 3, .rest 3])).calls
        [.reset 1 true, .reset 0 true]
    stOf w 1 = some .ready ∧ stOf w 0 = some .ready ∧ (w.blocks 1).map (·.laid) = some false ∧
    (w.blocks 0).map (·.laid) = some false ∧
    (w.blocks 1).map (·.parts) = some [.waiting, .waiting, .done, .done] := by
  refine ⟨by decide +kernel, by decide +kernel, by decide +kernel, by decide +kernel, by decide +kernel⟩

/-- A child that fails, or is not there, puts those above it in Fault, and no others. -/
example : let bad : Nat → Option Block := fun i => if i = 3 then some { kids := [], ownGood := false } else beamline i
    (List.range 4).map (stOf ((World.start bad [0, 1, 2, 3]).run
      (List.replicate 9 .next ++ [.own 2, .rest 2, .own 3, .told 1 1, .own 0, .told 0 0]))) =
    [some .fault, some .fault, some .ready, some .fault] := by decide +kernel

/-- Two blocks that are children of each other -/
example : let loop : Nat → Option Block := fun i => if i < 2 then some { kids := [⟨1 - i, true⟩] } else none
    (List.range 2).map (stOf ((World.start loop [0, 1]).run [.next, .next, .next, .next, .own 0, .own 1, .told 0 0, .told 1 0])) =
    [some .resetting, some .resetting] := by decide +kernel

end Verif.Props.Startup
