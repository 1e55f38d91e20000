import Verif.Proofs.PandALayout
/-!
C121. The layout of a PandA is kept on the PandA: after every poll the layout attribute shows the blocks that the PandA's
`*METADATA.LAYOUT` table has, each in its place, and no others; what one Malcolm writes, the next one shows.
-/
namespace Verif.Props.PandALayout
open Verif Verif.PandALayout Verif.Spec.PandALayout Verif.Proofs.PandALayout

variable {P : Type}

theorem reached_inv {e : Ext P} (hl : Lawful e) {g : String → Bool} {w : World P} (h : Reached e g w) : Verif.Proofs.PandALayout.Inv w := by
  obtain ⟨w0, es, h1, h2, h3, h4, rfl⟩ := h
  exact run_inv hl g es (restart_inv hl g h1 h2 h3) h4

/-- What is written can be read, however it has been cut into lines. -/
theorem text_round_trip (j : Json P) (hn : (Dict.keys j).Nodup) : loads (lines j) = some j ∧ lines j ≠ [] :=
  ⟨loads_lines j hn, lines_ne j⟩

/-- There is a line for each block, as long as no block is called `y`. -/
theorem line_for_each (j : Json P) (h : j ≠ []) (hy : "y" ∉ Dict.keys j) : (lines j).length = j.length := by
  unfold lines dump
  rw [List.append_assoc]
  exact split_length j false [.opening] h hy

/-- non-vacuity, and what happens to a block called `y` -/
example : (lines [("A", (1, 2)), ("B", (3, 4)), ("C", (5, 6))]).length = 3 ∧ (lines [("A", (1, 2)), ("y", (3, 4))]).length = 1 := by decide +kernel

/-- A poll writes nothing, and leaves nothing unread. -/
theorem poll_settles {e : Ext P} (hl : Lawful e) {g : String → Bool} {w : World P} (h : Reached e g w) :
    (w.step e g .poll).unread = false ∧ (w.step e g .poll).table = w.table ∧ (w.step e g .poll).writes = w.writes
    ∧ ((w.step e g .poll).step e g .poll).parts = (w.step e g .poll).parts := by
  have hi := reached_inv hl h
  have key : (w.poll e g).unread = false ∧ (w.poll e g).table = w.table ∧ (w.poll e g).writes = w.writes := by
    cases hu : w.unread with
    | false => unfold World.poll; rw [hu]; exact ⟨hu, rfl, rfl⟩
    | true =>
      rcases hi.readable with ⟨ht, _⟩ | ⟨j, hj⟩
      · unfold World.poll World.heard; simp [hu, ht]
      · rw [poll_eq e g hi.up.2.1 hi.up.2.2.1 hu hj]
        have hp' : (Dict.keys (World.place e g ({ w with unread := false, json := j } : World P) []).parts).Nodup := by
          rw [place_keys]; exact hi.up.2.2.2
        obtain ⟨_, _, _, _, _, _, h7⟩ := store_spec hl (w := World.place e g ({ w with unread := false, json := j } : World P) []) hp'
          (loads_nodup hj) (place_visible e g _ []) (fun _ => Or.inr ⟨j, hj, loads_nodup hj, fun _ => rfl⟩)
        have hs := h7 (by
          rw [store_json]
          exact blank_record g (w := { w with unread := false, json := j }) hi.up.2.2.2 (loads_nodup hj)
            (fun _ _ _ _ hc => by rw [show ({ w with unread := false, json := j } : World P).laidOut = true from hi.up.2.1] at hc; cases hc))
        exact ⟨hs.2.1, hs.1, hs.2.2⟩
  have hs : w.step e g .poll = w.poll e g := by simp only [World.step, hi.up.1, Bool.false_eq_true, if_false]
  rw [hs]
  refine ⟨key.1, key.2.1, key.2.2, ?_⟩
  simp only [World.step, (poll_inv hl g hi).up.1, Bool.false_eq_true, if_false]
  have : ∀ v : World P, v.unread = false → v.poll e g = v := by
    intro v hv; unfold World.poll; rw [hv]; rfl
  rw [this _ key.1]

/-- **Kept on the PandA.** However clients have put layouts, others have written the table, and Malcolm has been started again: whenever there
is nothing unread, so after every poll, the layout shows what the PandA has. `_partial`: the tables of others can be read and are not empty
(`unreadable_ends_in_fault`, `cleared_not_seen`), no put runs while a poll does (`put_lost`), and positions are not NaN (`nan_written_forever`). -/
theorem kept_partial {e : Ext P} (hl : Lawful e) {g : String → Bool} {w : World P} (h : Reached e g w) :
    w.fault = false
    ∧ (w.unread = false → ∃ j, Has w j ∧ Shows w j)
    ∧ ∃ j, Has (w.step e g .poll) j ∧ Shows (w.step e g .poll) j := by
  have hi := reached_inv hl h
  refine ⟨hi.up.1, fun hu => ⟨w.json, hi.has hu, hi.shows⟩, (w.step e g .poll).json, ?_, ?_⟩
  · exact (step_inv hl g hi (ev := .poll) trivial).has (poll_settles hl h).1
  · exact (step_inv hl g hi (ev := .poll) trivial).shows

/-- What others write is shown at the next poll, and left as it is. -/
theorem foreign_shown {e : Ext P} (hl : Lawful e) {g : String → Bool} {w : World P} (h : Reached e g w) (t : List (List (Tok P))) (j : Json P)
    (hj : loads t = some j) :
    Shows ((w.step e g (.foreign t)).step e g .poll) j ∧ ((w.step e g (.foreign t)).step e g .poll).table = t
    ∧ ((w.step e g (.foreign t)).step e g .poll).writes = w.writes := by
  have hr : Reached e g (w.step e g (.foreign t)) := by
    obtain ⟨w0, es, h1, h2, h3, h4, h5⟩ := h
    refine ⟨w0, es ++ [.foreign t], h1, h2, h3, ?_, ?_⟩
    · intro ev hev
      rcases List.mem_append.mp hev with hev | hev
      · exact h4 ev hev
      · rw [List.mem_singleton.mp hev]; exact ⟨j, hj⟩
    · unfold World.run; rw [List.foldl_append, h5]; rfl
  obtain ⟨a, b, c, _⟩ := poll_settles hl hr
  refine ⟨?_, b, c⟩
  obtain ⟨_, _, j', hh, hs⟩ := kept_partial hl hr
  have hsame : Same j' j := by
    rcases hh with ⟨h0, _⟩ | ⟨j'', h1, _, h3⟩
    · rw [b] at h0; exact absurd h0 (loads_ne hj)
    · rw [b] at h1
      have h1 : loads t = some j'' := h1
      rw [hj] at h1; cases h1
      exact fun k => (h3 k).symm
  intro n p hn
  rw [← hsame n]
  exact hs n p hn

/-- **What a put shows.** The blocks of the rows are as their last rows say, the others as they were. -/
theorem put_shows {e : Ext P} (hl : Lawful e) {g : String → Bool} {w : World P} (h : Reached e g w) (rows : List (Row P)) (hrows : rows ≠ [])
    (n : String) (p : Place P) (hn : Dict.get? w.parts n = some p) :
    (∀ r, lastRow rows n = some r → Dict.get? (w.step e g (.put rows)).parts n = some { x := r.x, y := r.y, visible := some r.visible })
    ∧ (lastRow rows n = none → Dict.get? (w.step e g (.put rows)).parts n = some p) := by
  have hi := reached_inv hl h
  have hs : w.step e g (.put rows) = (w.place e g rows).store e := by
    simp only [World.step, hi.up.1, Bool.false_eq_true, if_false]; rfl
  have hp' : (Dict.keys (w.place e g rows).parts).Nodup := by rw [place_keys]; exact hi.up.2.2.2
  have h4 := (store_spec hl (w := w.place e g rows) hp' hi.nodup (place_visible e g w rows) hi.has).2.2.2.1
  rw [hs, h4, place_get, hn]
  have hro : rowsOf e w rows = rows := by
    unfold rowsOf
    cases rows with
    | nil => exact absurd rfl hrows
    | cons _ _ => rfl
  rw [hro]
  constructor
  · intro r hr; rw [hr]; rfl
  · intro hr
    rw [hr]
    have hv : p.visible ≠ none := by
      have := hi.shows n p hn
      cases hg : Dict.get? w.json n with
      | none => rw [this.2 hg]; simp
      | some q => rw [this.1 q.1 q.2 hg]; simp
    cases hpv : p.visible with
    | none => exact absurd hpv hv
    | some b => cases p; simp only at hpv; subst hpv; rfl

/-- **Started again.** The next Malcolm shows the blocks that were shown, where they were. `_partial`: those that were hidden come back if
`guess` says so (`hidden_comes_back`), and where they were is lost; if none of them come back, the table is left as it is. -/
theorem restart_shows_partial {e : Ext P} (hl : Lawful e) {g : String → Bool} {w : World P} (h : Reached e g w) (hu : w.unread = false)
    (n : String) (p : Place P) (hn : Dict.get? w.parts n = some p) :
    (p.visible = some true → Dict.get? (w.step e g .restart).parts n = some p)
    ∧ (p.visible = some false → Dict.get? (w.step e g .restart).parts n = some { x := e.zero, y := e.zero, visible := some (g n) })
    ∧ ((∀ m q, Dict.get? w.parts m = some q → q.visible = some false → g m = false) →
        (w.step e g .restart).table = w.table ∧ (w.step e g .restart).writes = w.writes) := by
  have hi := reached_inv hl h
  have hh := hi.has hu
  -- what the new Malcolm has heard
  obtain ⟨f1, f2, _⟩ := fresh_poll e g w
  obtain ⟨j, hjn, hjs, hw1⟩ : ∃ j : Json P, (Dict.keys j).Nodup ∧ Same j w.json ∧ (w.fresh e).poll e g = { w.fresh e with unread := false, json := j } := by
    rcases hh with ⟨ht, hs⟩ | ⟨j, hj, hjn, hs⟩
    · exact ⟨[], List.nodup_nil, fun k => (hs k).symm, f1 ht⟩
    · exact ⟨j, hjn, hs, f2 j hj⟩
  have hst : w.step e g .restart = (World.place e g ({ w.fresh e with unread := false, json := j } : World P) []).store e := by
    simp only [World.step]
    unfold World.restart
    rw [hw1]
    rfl
  have hk : Dict.keys (w.fresh e).parts = Dict.keys w.parts := keys_map (fun _ _ => (⟨e.zero, e.zero, none⟩ : Place P)) w.parts
  have hp0 : (Dict.keys (w.fresh e).parts).Nodup := by rw [hk]; exact hi.up.2.2.2
  have hp' : (Dict.keys (World.place e g ({ w.fresh e with unread := false, json := j } : World P) []).parts).Nodup := by
    rw [place_keys]; exact hp0
  have hhas : Has ({ w.fresh e with unread := false, json := j } : World P) j := by
    rcases hh with ⟨ht, hs⟩ | ⟨j', hj, hjn', hs⟩
    · exact Or.inl ⟨ht, fun k => (hjs k).trans (hs k)⟩
    · exact Or.inr ⟨j', hj, hjn', fun k => (hs k).trans (hjs k).symm⟩
  obtain ⟨_, _, _, h4, _, _, h7⟩ := store_spec hl (w := World.place e g ({ w.fresh e with unread := false, json := j } : World P) []) hp' hjn
    (place_visible e g _ []) (fun _ => hhas)
  have hget : ∀ m q, Dict.get? w.parts m = some q → Dict.get? (w.fresh e).parts m = some ⟨e.zero, e.zero, none⟩ := by
    intro m q hm
    have := get?_map (fun _ _ => (⟨e.zero, e.zero, none⟩ : Place P)) w.parts m
    rw [hm] at this
    exact this
  obtain ⟨b1, _, b3⟩ := blank_place e g (w := ({ w.fresh e with unread := false, json := j } : World P)) n _ (hget n p hn)
  have hsh := hi.shows n p hn
  rw [hst]
  refine ⟨fun hv => ?_, fun hv => ?_, fun hg => ?_⟩
  · rw [h4]
    cases hc : Dict.get? w.json n with
    | none => rw [hsh.2 hc] at hv; cases hv
    | some q => rw [hsh.1 q.1 q.2 hc]; exact b1 q.1 q.2 ((hjs n).trans hc)
  · rw [h4]
    cases hc : Dict.get? w.json n with
    | none => exact b3 ((hjs n).trans hc) rfl
    | some q => rw [hsh.1 q.1 q.2 hc] at hv; cases hv
  · have := h7 (by
      rw [store_json]
      refine blank_record g (w := ({ w.fresh e with unread := false, json := j } : World P)) hp0 hjn ?_
      intro m q hm hjm _
      have hm' := get?_map (fun _ _ => (⟨e.zero, e.zero, none⟩ : Place P)) w.parts m
      have hm2 : Dict.get? (w.fresh e).parts m = some q := hm
      rw [show Dict.get? (w.fresh e).parts m = _ from hm'] at hm2
      cases hq : Dict.get? w.parts m with
      | none => rw [hq] at hm2; cases hm2
      | some q0 =>
        rw [hq] at hm2
        cases hm2
        exact hg m q0 hq ((hi.shows m q0 hq).2 ((hjs m).symm.trans hjm)))
    exact ⟨this.1, this.2.2⟩

/-! Non-vacuity, and what is not kept. Positions are natural numbers here. -/

def ex : Ext Nat := ⟨0, fun a b => a == b⟩

theorem ex_lawful : Lawful ex := fun a b => by simp [ex]

def two : World Nat := ⟨[("A", ⟨0, 0, none⟩), ("B", ⟨0, 0, none⟩)], false, [], [], false, false, 0⟩
def guessNo : String → Bool := fun _ => false

theorem two_reached (g : String → Bool) (es : List (Ev Nat)) (h : ∀ ev ∈ es, Readable ev) : Reached ex g ((two.restart ex g).run ex g es) :=
  ⟨two, es, by decide, by decide, Or.inl rfl, h, rfl⟩

/-- non-vacuity: both blocks are put, one is hidden, polled, started again -/
example : ((two.restart ex guessNo).run ex guessNo [.put [⟨"A", 1, 2, true⟩, ⟨"B", 3, 4, true⟩], .poll, .put [⟨"B", 3, 4, false⟩], .poll, .restart]).parts
      = [("A", ⟨1, 2, some true⟩), ("B", ⟨0, 0, some false⟩)] := by decide +kernel

/-- non-vacuity: another program's table is shown -/
example : ((two.restart ex guessNo).run ex guessNo [.put [⟨"A", 1, 2, true⟩], .foreign (lines [("B", (7, 8))]), .poll]).parts
      = [("A", ⟨0, 0, some false⟩), ("B", ⟨7, 8, some true⟩)] := by decide +kernel

/-- **Where a hidden block is, is lost**: a client hides B at (3, 4), and after the next poll it is at (0, 0). -/
theorem hidden_position_lost :
    ((two.restart ex guessNo).run ex guessNo [.put [⟨"B", 3, 4, true⟩], .poll, .put [⟨"B", 3, 4, false⟩]]).parts
        = [("A", ⟨0, 0, some false⟩), ("B", ⟨3, 4, some false⟩)]
    ∧ ((two.restart ex guessNo).run ex guessNo [.put [⟨"B", 3, 4, true⟩], .poll, .put [⟨"B", 3, 4, false⟩], .poll]).parts
        = [("A", ⟨0, 0, some false⟩), ("B", ⟨0, 0, some false⟩)] := by
  constructor <;> decide +kernel

/-- **A table that has been cleared is not seen**: the layout goes on showing what the PandA has no longer. -/
theorem cleared_not_seen :
    let w := (two.restart ex guessNo).run ex guessNo [.put [⟨"B", 3, 4, true⟩], .poll, .foreign [], .poll]
    w.table = [] ∧ w.unread = false ∧ Dict.get? w.parts "B" = some ⟨3, 4, some true⟩ ∧ ¬ ∃ j, Has w j ∧ Shows w j := by
  intro w
  have h1 : w.table = [] := by decide +kernel
  have h3 : Dict.get? w.parts "B" = some ⟨3, 4, some true⟩ := by decide +kernel
  refine ⟨h1, by decide +kernel, h3, ?_⟩
  rintro ⟨j, hh, hs⟩
  have hj : Same j [] := by
    rcases hh with ⟨_, h⟩ | ⟨j', h, _⟩
    · exact h
    · exact absurd h1 (loads_ne h)
  have := (hs "B" _ h3).2 (hj "B")
  cases this

/-- **A hidden block comes back** at the next start, if `guess` says so, and is then on the PandA too. -/
theorem hidden_comes_back :
    let g := fun n => n == "B"
    let w := (two.restart ex g).run ex g [.put [⟨"A", 1, 2, true⟩, ⟨"B", 3, 4, false⟩], .poll]
    Dict.get? w.parts "B" = some ⟨0, 0, some false⟩
    ∧ Dict.get? (w.step ex g .restart).parts "B" = some ⟨0, 0, some true⟩
    ∧ (w.step ex g .restart).table = lines [("A", (1, 2)), ("B", (0, 0))] := by
  refine ⟨by decide +kernel, by decide +kernel, by decide +kernel⟩

/-- **What others have written is overwritten unseen** by a put before the next poll. -/
theorem foreign_overwritten :
    let w := (two.restart ex guessNo).run ex guessNo [.put [⟨"A", 1, 2, true⟩], .poll, .foreign (lines [("B", (7, 8))]), .put [⟨"A", 5, 6, true⟩], .poll]
    w.parts = [("A", ⟨5, 6, some true⟩), ("B", ⟨0, 0, some false⟩)] ∧ w.table = lines [("A", (5, 6))] := by
  refine ⟨by decide +kernel, by decide +kernel⟩

/-- **An unreadable table ends in Fault**, and so does every start until the table has been changed. -/
theorem unreadable_ends_in_fault (e : Ext P) (g : String → Bool) (w : World P) (t : List (List (Tok P))) (ht : t ≠ []) (hn : loads t = none) :
    (w.fault = false → ((w.step e g (.foreign t)).step e g .poll).fault = true)
    ∧ ((w.step e g (.foreign t)).step e g .restart).fault = true := by
  have hte : t.isEmpty = false := by
    cases t with
    | nil => exact absurd rfl ht
    | cons _ _ => rfl
  constructor
  · intro hf
    simp only [World.step, hf, Bool.false_eq_true, if_false]
    unfold World.poll World.heard
    simp [hte, hn]
  · simp only [World.step]
    unfold World.restart
    have := (fresh_poll e g ({ w with table := t, unread := true } : World P)).2.2 ht hn
    rw [if_pos this]
    exact this

/-- **A position that is not equal to itself**, as NaN is, is written at every poll for ever. -/
theorem nan_written_forever (k : Nat) :
    let e : Ext Nat := ⟨0, fun a b => a == b && a != 9⟩
    let w := two.restart e guessNo
    ((w.step e guessNo (.put [⟨"A", 9, 0, true⟩])).run e guessNo (List.replicate k .poll)).writes = k + 1 := by
  intro e w
  have key : ∀ (k m : Nat) (v : World Nat), v = { two with
        parts := [("A", ⟨9, 0, some true⟩), ("B", ⟨0, 0, some false⟩)], laidOut := true, json := [("A", (9, 0))], table := lines [("A", (9, 0))],
        unread := true, writes := m } →
      (v.run e guessNo (List.replicate k .poll)).writes = m + k := by
    intro k
    induction k with
    | zero => intro m v hv; rw [hv]; rfl
    | succ k ih =>
      intro m v hv
      have := ih (m + 1) (v.step e guessNo .poll) (by subst hv; rfl)
      rw [List.replicate_succ]
      show ((v.step e guessNo .poll).run e guessNo (List.replicate k .poll)).writes = _
      rw [this]; omega
  have := key k 1 (w.step e guessNo (.put [⟨"A", 9, 0, true⟩])) rfl
  rw [this]; omega

/-- **A put that is lost**: a client's layout has been given to the blocks, and before it has been recorded a poll brings the table, hides what
it does not have, and records that; the client's put then finds nothing to record. It returns without an error, and its block is not shown. -/
theorem put_lost :
    let w := (two.restart ex guessNo).run ex guessNo [.put [⟨"A", 1, 2, true⟩]]
    let v := ((w.place ex guessNo [⟨"B", 3, 4, true⟩]).poll ex guessNo).store ex
    w.unread = true
    ∧ v.parts = [("A", ⟨1, 2, some true⟩), ("B", ⟨0, 0, some false⟩)] ∧ v.table = lines [("A", (1, 2))] ∧ v.fault = false := by
  refine ⟨by decide +kernel, by decide +kernel, by decide +kernel, by decide +kernel⟩

end Verif.Props.PandALayout
