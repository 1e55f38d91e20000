import Verif.Proofs.When
/-! C90: waiting for a value. -/
set_option linter.unusedVariables false
namespace Verif.Props.When
open Verif Verif.Context Verif.When
variable {V : Type}

/-- C90. A condition made from values: good exactly for the wanted value unless it is one of the bad
ones, bad exactly for the bad ones. -/
theorem equals_iff [DecidableEq V] (good : V) (bads : List V) (v : V) :
    (equals good bads v = .good ↔ v = good ∧ v ∉ bads) ∧ (equals good bads v = .bad ↔ v ∈ bads) ∧
    (equals good bads v = .wait ↔ v ≠ good ∧ v ∉ bads) := by
  unfold equals
  by_cases h1 : v ∈ bads
  · simp [h1]
  · by_cases h2 : v = good
    · subst h2; simp [h1]
    · simp [h1, h2]

theorem facts (ops : List (When.Op V)) (hl : LegalFrom ({} : Sys V) ops) : Good (Sys.run {} ops) :=
  good_run good_init ops hl

/-- C90, in part: when a wait for the future of a When returns, the first value delivered that the
condition did not wait past is good, or it is bad and the exception has been raised by a wait (maybe
another one). Missing: that it is good. That is false (`bad_value_raised_elsewhere`), except when the
future is waited for at once (`when_matches`). -/
theorem wait_for_value_partial (ops : List (When.Op V)) (hl : LegalFrom ({} : Sys V) ops) (id : Nat)
    (w : When V) (hw : Dict.get? (Sys.run {} ops).whens id = some w) (fs : List Nat)
    (hm : (fs, End.returned) ∈ (Sys.run {} ops).log) (hf : id ∈ fs) :
    ∃ v, first w.cond (delivered (Sys.run {} ops).ctx id) = some v ∧
      (w.cond v = .good ∨ w.cond v = .bad ∧ ∃ fs', (fs', End.badValue id) ∈ (Sys.run {} ops).log) := by
  have h := facts ops hl
  have hk := h.k id w hw
  obtain ⟨r, hr⟩ := h.ret fs hm id hf
  cases ha : w.active with
  | true => exact absurd hr ((hk.act ha).2.2.2.1 r)
  | false =>
    obtain ⟨_, v, hv, hb⟩ := hk.done ha
    refine ⟨v, hv, ?_⟩
    cases hc : w.cond v with
    | good => exact .inl rfl
    | wait =>
      have := List.find?_some hv
      simp [hc] at this
    | bad =>
      refine .inr ⟨rfl, ?_⟩
      rw [if_pos hc] at hb
      unfold bads at hb
      cases hfl : (Sys.run {} ops).log.filter (fun p => decide (p.2 = .badValue id)) with
      | nil => rw [hfl] at hb; simp at hb
      | cons p l =>
        have hp : p ∈ (Sys.run {} ops).log.filter (fun p => decide (p.2 = .badValue id)) := by
          rw [hfl]; exact List.mem_cons_self
        obtain ⟨h1, h2⟩ := List.mem_filter.1 hp
        have h3 : p.2 = .badValue id := by simpa using h2
        exact ⟨p.1, by rw [← h3]; exact h1⟩

/-- C90. The exception of a condition is raised by exactly one wait if the first value that the
condition did not wait past is bad, and by none otherwise. -/
theorem bad_value_raised_once (ops : List (When.Op V)) (hl : LegalFrom ({} : Sys V) ops) (id : Nat)
    (w : When V) (hw : Dict.get? (Sys.run {} ops).whens id = some w) :
    ((Sys.run {} ops).log.filter (fun p => decide (p.2 = .badValue id))).length =
      match first w.cond (delivered (Sys.run {} ops).ctx id) with
      | some v => if w.cond v = .bad then 1 else 0
      | none => 0 := by
  have hk := (facts ops hl).k id w hw
  cases ha : w.active with
  | true =>
    obtain ⟨_, _, _, _, h1, h2⟩ := hk.act ha
    rw [h1]; exact h2
  | false =>
    obtain ⟨_, v, h1, h2⟩ := hk.done ha
    rw [h1]; exact h2

theorem first_stable {cond : V → Verdict} {a : List V} (b : List V) {v : V} (h : first cond a = some v) :
    first cond (a ++ b) = some v := by
  rw [first_append, h]; rfl

theorem step_delivered (s : Sys V) (op : When.Op V) (h : Good s) (hl : op.Legal s) (id : Nat) :
    ∃ b, delivered (s.step op).ctx id = delivered s.ctx id ++ b := by
  have after_ctx : ∀ (t : Sys V) fs c w, (t.after fs c w).ctx = t.ctx := by
    intro t fs c w; unfold Sys.after; split <;> rfl
  cases op with
  | «when» cond => exact ⟨[], by simp [Sys.step, delivered, Ctx.step]⟩
  | wait fs =>
    refine ⟨[], ?_⟩
    unfold Sys.step
    cases hw : s.wait with
    | some p => simp
    | none => dsimp only; rw [after_ctx]; simp
  | turn alive =>
    unfold Sys.step
    cases hw : s.wait with
    | none => exact ⟨[], by simp⟩
    | some p =>
      obtain ⟨fs, w⟩ := p
      dsimp only
      rw [after_ctx]
      dsimp only
      rw [turn_ctx (h.wait fs w hw).1 alive]
      have hp : ∃ b, delivered s.ctx.pop.1 id = delivered s.ctx id ++ b := by
        cases hq : s.ctx.q with
        | nil =>
          have : s.ctx.pop.1 = s.ctx := by unfold Ctx.pop; rw [hq]
          exact ⟨[], by rw [this]; simp⟩
        | cons x q => exact ⟨_, delivered_pop hq id⟩
      by_cases hc : calls (V := V) alive s.called = []
      · rw [hc]; exact hp
      · obtain ⟨i, vd, _, _, h3⟩ := calls_nil alive hc
        rw [h3]
        have hu := (unsubscribe_same s.ctx.pop.1 i alive).2.1
        obtain ⟨b, hb⟩ := hp
        refine ⟨b, ?_⟩
        rw [← hb]
        show (s.ctx.pop.1.unsubscribe i alive).popped.filterMap _ = _
        rw [hu]; rfl
  | other op =>
    refine ⟨[], ?_⟩
    show (s.ctx.step op).popped.filterMap _ = _
    cases op with
    | pop => exact absurd hl (fun x => x)
    | unsubscribe i al => rw [show s.ctx.step (.unsubscribe i al) = s.ctx.unsubscribe i al from rfl,
        (unsubscribe_same s.ctx i al).2.1]; simp [delivered]
    | unsubscribeAll al => exact absurd hl (fun x => x)
    | _ => simp [delivered, Ctx.step]

/-- what is known of a wait for one When, from its start on -/
def Tracked (n id : Nat) (cond : V → Verdict) (s : Sys V) : Prop :=
  (∃ a, Dict.get? s.whens id = some { cond := cond, active := a }) ∧
  ((s.log.length = n ∧ bads s.log id = 0 ∧ ∃ u, s.wait = some ([id], u)) ∨
   ∃ e, s.log[n]? = some ([id], e) ∧
    (e = .returned → ∃ v, first cond (delivered s.ctx id) = some v ∧ cond v = .good) ∧
    (e = .badValue id → ∃ v, first cond (delivered s.ctx id) = some v ∧ cond v = .bad))

theorem first_ne_wait {cond : V → Verdict} {l : List V} {v : V} (h : first cond l = some v) :
    cond v ≠ .wait := by
  have := List.find?_some h
  simpa using this

/-- the entry that ends the wait says what was delivered -/
theorem entry_true {s : Sys V} (h : Good s) {id : Nat} {cond : V → Verdict} {a : Bool}
    (hw : Dict.get? s.whens id = some { cond := cond, active := a }) (log : List (List Nat × End)) (e : End)
    (hlog : s.log = log ++ [([id], e)]) (h0 : bads log id = 0) :
    (e = .returned → ∃ v, first cond (delivered s.ctx id) = some v ∧ cond v = .good) ∧
    (e = .badValue id → ∃ v, first cond (delivered s.ctx id) = some v ∧ cond v = .bad) := by
  have hk := h.k id _ hw
  have hn : bads s.log id = if e = .badValue id then 1 else 0 := by
    rw [hlog, bads_append, h0]; simp
  constructor
  · intro he
    obtain ⟨r, hr⟩ := h.ret [id] (by rw [hlog, he]; simp) id (by simp)
    cases a with
    | true => exact absurd hr ((hk.act rfl).2.2.2.1 r)
    | false =>
      obtain ⟨_, v, hv, hb⟩ := hk.done rfl
      refine ⟨v, hv, ?_⟩
      rw [hn, he] at hb
      simp only [reduceCtorEq, if_false] at hb
      cases hc : cond v with
      | good => rfl
      | wait => exact absurd hc (first_ne_wait hv)
      | bad => simp [hc] at hb
  · intro he
    rw [he] at hn
    simp only [if_true] at hn
    cases a with
    | true => have := (hk.act rfl).2.2.2.2.2; omega
    | false =>
      obtain ⟨_, v, hv, hb⟩ := hk.done rfl
      refine ⟨v, hv, ?_⟩
      rw [hn] at hb
      cases hc : cond v with
      | bad => rfl
      | good => simp [hc] at hb
      | wait => simp [hc] at hb

theorem whens_step (s : Sys V) (op : When.Op V) (h : Good s) {id : Nat} {cond : V → Verdict}
    (hw : ∃ a, Dict.get? s.whens id = some { cond := cond, active := a }) :
    ∃ a, Dict.get? (s.step op).whens id = some { cond := cond, active := a } := by
  have after_w : ∀ (t : Sys V) fs c w, (t.after fs c w).whens = t.whens := by
    intro t fs c w; unfold Sys.after; split <;> rfl
  obtain ⟨a, ha⟩ := hw
  have hmem : id ∈ s.whens.keys := Dict.mem_iff.1 (by unfold Dict.mem; rw [ha]; rfl)
  cases op with
  | «when» c =>
    refine ⟨a, ?_⟩
    show Dict.get? (Dict.set s.whens s.ctx.nextId _) id = _
    have hne : id ≠ s.ctx.nextId := Nat.ne_of_lt (h.keysLt id hmem)
    rw [Dict.get?_set_ne _ _ (by first | exact hne | exact hne.symm)]
    exact ha
  | wait fs =>
    refine ⟨a, ?_⟩
    unfold Sys.step
    cases hwt : s.wait with
    | some p => exact ha
    | none => dsimp only; rw [after_w]; exact ha
  | turn alive =>
    unfold Sys.step
    cases hwt : s.wait with
    | none => exact ⟨a, ha⟩
    | some p =>
      obtain ⟨fs, w⟩ := p
      dsimp only
      rw [after_w]
      dsimp only
      rw [get?_settle, ha]
      by_cases hc : s.called = some (id, .good) ∨ s.called = some (id, .bad)
      · exact ⟨false, by simp [hc]⟩
      · exact ⟨a, by simp [hc]⟩
  | other op => exact ⟨a, ha⟩

theorem tracked_step {n id : Nat} {cond : V → Verdict} {s : Sys V} (hg : Good s)
    (h : Tracked n id cond s) (op : When.Op V) (hl : op.Legal s) : Tracked n id cond (s.step op) := by
  obtain ⟨hw, h⟩ := h
  have hw' := whens_step s op hg hw
  have hg' := good_step hg op hl
  refine ⟨hw', ?_⟩
  rcases h with ⟨h1, h2, u, h3⟩ | ⟨e, h1, h2, h3⟩
  · cases op with
    | «when» c => exact .inl ⟨h1, h2, u, h3⟩
    | other op => exact .inl ⟨h1, h2, u, h3⟩
    | wait fs =>
      have : s.step (.wait fs) = s := by unfold Sys.step; rw [h3]
      rw [this]; exact .inl ⟨h1, h2, u, h3⟩
    | turn alive =>
      obtain ⟨a, ha⟩ := hw'
      cases he : (u.turn s.ctx (calls alive s.called) (raises s.called)).2.ended with
      | none =>
        left
        have hst : (s.step (.turn alive)).log = s.log ∧ ∃ u, (s.step (.turn alive)).wait = some ([id], u) := by
          unfold Sys.step
          rw [h3]
          dsimp only
          unfold Sys.after
          rw [he]
          exact ⟨rfl, _, rfl⟩
        rw [hst.1]; exact ⟨h1, h2, hst.2⟩
      | some e =>
        right
        have hst : (s.step (.turn alive)).log = s.log ++ [([id], endOf s.called e)] := by
          unfold Sys.step
          rw [h3]
          dsimp only
          unfold Sys.after
          rw [he]
        refine ⟨endOf s.called e, ?_, entry_true hg' ha s.log _ hst h2⟩
        rw [hst, ← h1]; simp
  · right
    refine ⟨e, ?_, ?_, ?_⟩
    · have : ∃ b, (s.step op).log = s.log ++ b := by
        have after_l : ∀ (t : Sys V) fs c w, ∃ b, (t.after fs c w).log = t.log ++ b := by
          intro t fs c w
          unfold Sys.after
          split
          · exact ⟨[], by simp⟩
          · exact ⟨_, rfl⟩
        cases op with
        | «when» c => exact ⟨[], by simp [Sys.step]⟩
        | other op => exact ⟨[], by simp [Sys.step]⟩
        | wait fs =>
          unfold Sys.step
          cases hwt : s.wait with
          | some p => exact ⟨[], by simp⟩
          | none => exact after_l s fs none _
        | turn alive =>
          unfold Sys.step
          cases hwt : s.wait with
          | none => exact ⟨[], by simp⟩
          | some p =>
            dsimp only
            exact after_l { s with ctx := _, whens := _ } _ _ _
      obtain ⟨b, hb⟩ := this
      rw [hb, List.getElem?_append_left]
      · exact h1
      · exact (List.getElem?_eq_some_iff.1 h1).1
    · intro he
      obtain ⟨v, hv, hc⟩ := h2 he
      obtain ⟨b, hb⟩ := step_delivered s op hg hl id
      exact ⟨v, by rw [hb]; exact first_stable b hv, hc⟩
    · intro he
      obtain ⟨v, hv, hc⟩ := h3 he
      obtain ⟨b, hb⟩ := step_delivered s op hg hl id
      exact ⟨v, by rw [hb]; exact first_stable b hv, hc⟩

theorem legalFrom_append (s : Sys V) (a b : List (When.Op V)) :
    LegalFrom s (a ++ b) ↔ LegalFrom s a ∧ LegalFrom (s.run a) b := by
  induction a generalizing s with
  | nil => simp [When.LegalFrom, Sys.run]
  | cons op a ih =>
    simp only [List.cons_append, When.LegalFrom]
    rw [ih, and_assoc]
    rfl

/-- C90. `when_matches` (and `when_value_matches`), called by a thread that is not waiting for
something: whatever happened before and happens meanwhile and after, this call is still waiting, or it
ended; if it returned then the first value delivered to it that the condition did not wait past is
good; if it raised the exception of its condition then that value is bad. -/
theorem when_matches (before after : List (When.Op V)) (cond : V → Verdict)
    (hidle : (Sys.run ({} : Sys V) before).wait = none)
    (hl : LegalFrom ({} : Sys V)
      (before ++ [.when cond, .wait [(Sys.run ({} : Sys V) before).ctx.nextId]] ++ after)) :
    let s0 := Sys.run ({} : Sys V) before
    let id := s0.ctx.nextId
    let s := (s0.run [.when cond, .wait [id]]).run after
    (s.log.length = s0.log.length ∧ ∃ u, s.wait = some ([id], u)) ∨
    ∃ e, s.log[s0.log.length]? = some ([id], e) ∧
      (e = .returned → ∃ v, first cond (delivered s.ctx id) = some v ∧ cond v = .good) ∧
      (e = .badValue id → ∃ v, first cond (delivered s.ctx id) = some v ∧ cond v = .bad) := by
  dsimp only
  rw [legalFrom_append, legalFrom_append] at hl
  obtain ⟨⟨hl1, hl2⟩, hl3⟩ := hl
  have hg0 := facts before hl1
  generalize hs0 : Sys.run ({} : Sys V) before = s0 at *
  have hrun : Sys.run ({} : Sys V) (before ++ [.when cond, .wait [s0.ctx.nextId]]) =
      s0.run [.when cond, .wait [s0.ctx.nextId]] := by
    rw [← hs0]; simp [Sys.run, List.foldl_append]
  rw [hrun] at hl3
  have hg1 := good_step hg0 (.when cond) trivial
  have hg2 := good_step hg1 (.wait [s0.ctx.nextId]) hl2.2.1
  have hfresh : s0.ctx.nextId ∉ s0.whens.keys := fun hc => Nat.lt_irrefl _ (hg0.keysLt _ hc)
  have hb0 := bads_zero hg0 hfresh
  have hw1 : ∃ a, Dict.get? (s0.step (.when cond)).whens s0.ctx.nextId = some { cond := cond, active := a } :=
    ⟨true, by show Dict.get? (Dict.set s0.whens s0.ctx.nextId _) _ = _; rw [Dict.get?_set_self]⟩
  have hw2 := whens_step _ (.wait [s0.ctx.nextId]) hg1 hw1
  have ht : Tracked s0.log.length s0.ctx.nextId cond (s0.run [.when cond, .wait [s0.ctx.nextId]]) := by
    show Tracked _ _ _ ((s0.step (.when cond)).step (.wait [s0.ctx.nextId]))
    refine ⟨hw2, ?_⟩
    obtain ⟨a, ha⟩ := hw2
    have hwt : (s0.step (.when cond)).wait = none := hidle
    have hst : (s0.step (.when cond)).step (.wait [s0.ctx.nextId]) =
        (s0.step (.when cond)).after [s0.ctx.nextId] none
          (Wait.start (s0.step (.when cond)).ctx [s0.ctx.nextId]) := by
      generalize s0.step (.when cond) = t at hwt
      unfold Sys.step
      rw [hwt]
    rw [hst] at hg2 ha ⊢
    unfold Sys.after at hg2 ha ⊢
    cases he : (Wait.start (s0.step (.when cond)).ctx [s0.ctx.nextId]).ended with
    | none => exact .inl ⟨rfl, hb0, _, rfl⟩
    | some e =>
      rw [he] at hg2 ha
      right
      refine ⟨endOf none e, ?_, entry_true hg2 ha s0.log _ rfl hb0⟩
      show (s0.log ++ [([s0.ctx.nextId], endOf none e)])[s0.log.length]? = _
      simp
  have hfin : ∀ (l : List (When.Op V)) (t : Sys V), Good t → Tracked s0.log.length s0.ctx.nextId cond t →
      LegalFrom t l → Tracked s0.log.length s0.ctx.nextId cond (t.run l) := by
    intro l
    induction l with
    | nil => intro t _ h _; exact h
    | cons op l ih =>
      intro t hg h hl
      exact ih _ (good_step hg op hl.1) (tracked_step hg h op hl.1) hl.2
  have hgr : Good (s0.run [.when cond, .wait [s0.ctx.nextId]]) := hg2
  obtain ⟨_, h⟩ := hfin after _ hgr ht hl3
  rcases h with ⟨a, b, c⟩ | h
  · exact .inl ⟨a, c⟩
  · exact .inr h

/-- C90. A call that is still waiting has not been delivered a value that its condition did not wait
past, or it has unsubscribed and has not been answered. -/
theorem waits_while_undecided (ops : List (When.Op V)) (hl : LegalFrom ({} : Sys V) ops) (id : Nat)
    (w : When V) (hw : Dict.get? (Sys.run {} ops).whens id = some w) (u : Wait)
    (hu : (Sys.run {} ops).wait = some ([id], u)) :
    Dict.get? (Sys.run {} ops).ctx.results id = none ∧
    (first w.cond (delivered (Sys.run {} ops).ctx id) = none ∨
      id ∈ (Sys.run {} ops).ctx.unsubs.map (·.1)) := by
  have h := facts ops hl
  obtain ⟨hn, hwi, hal⟩ := h.wait [id] u hu
  constructor
  · have h1 := (hal.opens (by simp) hn).2
    have h2 := hal.waiting hn
    cases hf : u.futures with
    | nil => exact absurd hf h2
    | cons f l =>
      have hf' : f ∈ u.futures := by rw [hf]; exact List.mem_cons_self
      have : f = id := by simpa using hwi.sub f hf'
      rw [Dict.get?_none_iff]
      intro hc
      exact h.quiet.inv.resReq id hc (this ▸ h1 f hf')
  · cases ha : w.active with
    | true => exact .inl ((h.k id w hw).act ha).2.2.2.2.1
    | false => exact .inr ((h.k id w hw).done ha).1

-- a call that sees 3 and then 5, which it waits for; and the one that sees 7, which is bad
example :
    let s := Sys.run ({} : Sys Nat) [.when (equals 5 [7]), .wait [1], .other (.update 1 3), .turn true,
      .other (.update 1 5), .turn true, .other (.ret 1 0), .turn true]
    s.log = [([1], .returned)] ∧ delivered s.ctx 1 = [3, 5] ∧ s.ctx.unsubs = [(1, true)] := by decide +kernel
example :
    let s := Sys.run ({} : Sys Nat) [.when (equals 5 [7]), .wait [1], .other (.update 1 7), .turn true]
    s.log = [([1], .badValue 1)] ∧ delivered s.ctx 1 = [7] := by decide +kernel
example : LegalFrom ({} : Sys Nat) [.when (equals 5 [7]), .wait [1], .other (.update 1 3), .turn true,
      .other (.update 1 5), .turn true, .other (.ret 1 0), .turn true] := by
  refine ⟨trivial, ?_, ⟨by decide, ?_⟩, trivial, ⟨by decide, ?_⟩, trivial, ⟨by decide, fun _ => by decide⟩, trivial, trivial⟩
  · intro f hf; simp only [List.mem_singleton] at hf; subst hf; left; decide
  · show firstSettled 1 _ = none; decide
  · show firstSettled 1 _ = none; decide

/-- Disagreement with C90: a bad value delivered while the thread waits for something else raises the
exception there; the future of the When then ends normally, and a wait for it returns although the
value was never the wanted one. -/
theorem bad_value_raised_elsewhere :
    let ops : List (When.Op Nat) := [.when (equals 5 [7]), .other (.request false), .wait [2],
      .other (.update 1 7), .turn true, .other (.ret 1 0), .wait [1], .turn true]
    let s := Sys.run ({} : Sys Nat) ops
    LegalFrom {} ops ∧ s.log = [([2], .badValue 1), ([1], .returned)] ∧ delivered s.ctx 1 = [7] := by
  refine ⟨?_, by decide +kernel, by decide +kernel⟩
  refine ⟨trivial, trivial, ?_, ⟨by decide, ?_⟩, trivial, ⟨by decide, fun _ => by decide⟩, ?_, trivial, trivial⟩
  · intro f hf; simp only [List.mem_singleton] at hf; subst hf; left; decide
  · show firstSettled 1 _ = none; decide
  · intro f hf; simp only [List.mem_singleton] at hf; subst hf; left; decide

/-- Disagreement with C90: if the wanted value is delivered when the controller has gone then the
Unsubscribe is not sent, so nothing will answer it, and the call goes on waiting. -/
theorem wanted_value_not_noticed :
    let ops : List (When.Op Nat) := [.when (equals 5 []), .wait [1], .other (.update 1 5), .turn false]
    let s := Sys.run ({} : Sys Nat) ops
    LegalFrom {} ops ∧ delivered s.ctx 1 = [5] ∧ s.wait.isSome ∧ s.log = [] ∧ s.ctx.q = [] ∧
    ∀ v, ¬ Op.Legal s (.other (.ret 1 v)) := by
  refine ⟨?_, by decide +kernel, by decide +kernel, by decide +kernel, by decide +kernel, ?_⟩
  · refine ⟨trivial, ?_, ⟨by decide, ?_⟩, trivial, trivial⟩
    · intro f hf; simp only [List.mem_singleton] at hf; subst hf; left; decide
    · show firstSettled 1 _ = none; decide
  · intro v h
    have := h.2 (by decide)
    revert this
    decide

end Verif.Props.When
