import Verif.Model.Seq
/-!
C36 and C37: the rows fit into the sequencer: none is repeated more often than it can count, and every table
that is loaded keeps to that.
-/
namespace Verif.Props.SeqFit
open Verif.Seq

/-- The sequencer counts repeats up to 4096 -/
def Fits (rows : List Row) : Prop := ∀ r ∈ rows, r.repeats ≤ 4096

theorem fits_nil : Fits [] := by intro r h; cases h

theorem fits_append {a b : List Row} (ha : Fits a) (hb : Fits b) : Fits (a ++ b) := by
  intro r h
  rcases List.mem_append.1 h with h | h
  · exact ha r h
  · exact hb r h

theorem fits_left {a b : List Row} (h : Fits (a ++ b)) : Fits a := fun r hr => h r (List.mem_append_left _ hr)

theorem fits_single {r : Row} (h : r.repeats ≤ 4096) : Fits [r] := by
  intro q hq
  rw [List.mem_singleton.1 hq]
  exact h

theorem fits_add {r : Rows} (e : Entry) (h : Fits r.rows) : Fits (addSeqEntry r e).rows := by
  intro q hq
  simp only [addSeqEntry, List.mem_append, List.mem_replicate, List.mem_singleton] at hq
  rcases hq with (hq | ⟨_, rfl⟩) | rfl
  · exact h q hq
  · simp [seqRow, maxRepeats]
  · simp only [seqRow, maxRepeats]
    exact Nat.le_of_lt (Nat.mod_lt _ (by decide))

theorem fits_immediate (ds : List ℚ) : Fits (immediateRows ds).rows := by
  have : ∀ (l : List (ℚ × Nat)) (r : Rows), Fits r.rows →
      Fits (l.foldl (fun r dn => addSeqEntry r { count := dn.2, half := halfOf dn.1, live := 1 }) r).rows := by
    intro l
    induction l with
    | nil => intro r h; exact h
    | cons p l ih => intro r h; exact ih _ (fits_add _ h)
  exact this _ {} fits_nil

theorem fits_triggered (s : Scan) (last start stop : Nat) (addBlind : Bool) (r : Rows)
    (h : triggeredRows s last start stop addBlind = .ok r) : Fits r.rows := by
  simp only [triggeredRows] at h
  split at h
  · split at h
    · cases h
    · split at h
      · split at h
        · cases h
        · simp only [Except.ok.injEq] at h
          subst h
          exact fits_append (fits_add _ (fits_add _ fits_nil)) (fits_immediate _)
      · simp only [Except.ok.injEq] at h
        subst h
        exact fits_append (fits_add _ fits_nil) (fits_immediate _)
  · split at h
    · simp only [Except.ok.injEq] at h
      subst h
      exact fits_append (fits_add _ (fits_add _ fits_nil)) (fits_immediate _)
    · simp only [Except.ok.injEq] at h
      subst h
      exact fits_append (fits_add _ fits_nil) (fits_immediate _)

theorem fits_later (s : Scan) (high : Nat) (starts : List Nat) : ∀ (last : Nat) (rs : List Rows) (last' : Nat),
    laterRows s high last starts = .ok (rs, last') → ∀ r ∈ rs, Fits r.rows := by
  induction starts with
  | nil =>
    intro last rs last' h
    simp only [laterRows, Except.ok.injEq, Prod.mk.injEq] at h
    obtain ⟨rfl, _⟩ := h
    simp
  | cons i is ih =>
    intro last rs last' h
    simp only [laterRows] at h
    split at h
    · cases h
    · rename_i r ht
      split at h
      · cases h
      · rename_i rs' l' hr
        simp only [Except.ok.injEq, Prod.mk.injEq] at h
        obtain ⟨rfl, _⟩ := h
        intro q hq
        rcases List.mem_cons.1 hq with rfl | hq
        · exact fits_triggered _ _ _ _ _ _ ht
        · exact ih _ _ _ hr q hq

theorem fits_batch (s : Scan) (last : Option Nat) (low high : Nat) (rs : List Rows) (last' : Option Nat)
    (h : batchRows s last low high = .ok (rs, last')) : ∀ r ∈ rs, Fits r.rows := by
  simp only [batchRows] at h
  split at h
  · simp only [Except.ok.injEq, Prod.mk.injEq] at h
    obtain ⟨rfl, _⟩ := h
    intro q hq
    rw [List.mem_singleton.1 hq]
    exact fits_immediate _
  · split at h
    · cases h
    · rename_i r l hh
      have hr : Fits r.rows := by
        split at hh
        · split at hh
          · cases hh
          · rename_i r' ht
            simp only [Except.ok.injEq, Prod.mk.injEq] at hh
            obtain ⟨rfl, _⟩ := hh
            exact fits_triggered _ _ _ _ _ _ ht
        · simp only [Except.ok.injEq, Prod.mk.injEq] at hh
          obtain ⟨rfl, _⟩ := hh
          exact fits_immediate _
      split at h
      · cases h
      · rename_i rs' l' hl
        simp only [Except.ok.injEq, Prod.mk.injEq] at h
        obtain ⟨rfl, _⟩ := h
        intro q hq
        rcases List.mem_cons.1 hq with rfl | hq
        · exact hr
        · exact fits_later _ _ _ _ _ _ hl q hq

theorem fits_scan (s : Scan) (bs : List (Nat × Nat)) : ∀ (last : Option Nat) (rs : List Rows),
    scanRows s last bs = .ok rs → ∀ r ∈ rs, Fits r.rows := by
  induction bs with
  | nil =>
    intro last rs h
    simp only [scanRows, Except.ok.injEq] at h
    subst h
    simp
  | cons b bs ih =>
    intro last rs h
    simp only [scanRows] at h
    split at h
    · cases h
    · rename_i r1 last' hb
      split at h
      · cases h
      · rename_i r2 hs
        simp only [Except.ok.injEq] at h
        subst h
        intro q hq
        rcases List.mem_append.1 hq with hq | hq
        · exact fits_batch _ _ _ _ _ _ hb q hq
        · exact ih _ _ hs q hq

/-- C36: no row that is made for any scan is to be repeated more than 4096 times. -/
theorem repeats_fit (s : Scan) (size a b : Nat) (rs : List Rows) (h : getRows s size a b = .ok rs) :
    ∀ r ∈ rs.flatMap (·.rows), r.repeats ≤ 4096 := by
  unfold getRows at h
  split at h
  · cases h
  · rename_i r1 hs
    simp only [Except.ok.injEq] at h
    subst h
    intro r hr
    simp only [List.mem_flatMap, List.mem_append, List.mem_singleton] at hr
    obtain ⟨q, hq, hr⟩ := hr
    rcases hq with hq | rfl
    · exact fits_scan _ _ _ _ hs q hq r hr
    · exact (fits_add _ (fits_add _ fits_nil) : Fits finalRows.rows) r hr

theorem fits_cutLast {l : List Row} (h : Fits l) : Fits (cutLast l) := by
  induction l with
  | nil => exact h
  | cons r l ih =>
    cases l with
    | nil => intro q hq; rw [cutLast, List.mem_singleton] at hq; subst hq; exact h r (by simp)
    | cons r' l =>
      rw [cutLast]
      intro q hq
      rcases List.mem_cons.1 hq with rfl | hq
      · exact h q (by simp)
      · exact ih (fun x hx => h x (List.mem_cons_of_mem _ hx)) q hq
      · simp

theorem fits_split (r : Rows) (n : Nat) (t rem : Rows) (h : split r n = .ok (t, rem)) (hf : Fits r.rows) :
    Fits t.rows ∧ Fits rem.rows := by
  have htake : ∀ k, Fits (r.rows.take k) := fun k q hq => hf q (List.mem_of_mem_take hq)
  have hdrop : ∀ k, Fits (r.rows.drop k) := fun k q hq => hf q (List.mem_of_mem_drop hq)
  unfold split at h
  split at h
  · cases h
  · rename_i last hl
    have hlast : last.repeats ≤ 4096 := hf _ (List.mem_of_getLast? hl)
    split at h
    · split at h
      · cases h
      · rename_i fin hfin
        have hfr : fin.repeats ≤ 4096 := hf _ (List.mem_iff_getElem?.2 ⟨_, hfin⟩)
        split at h
        · split at h
          · simp only [Except.ok.injEq, Prod.mk.injEq] at h
            obtain ⟨rfl, rfl⟩ := h
            exact ⟨hf, fits_nil⟩
          · cases h
        · split at h
          · simp only [Except.ok.injEq, finishSplit, Prod.mk.injEq] at h
            obtain ⟨rfl, rfl⟩ := h
            exact ⟨fits_cutLast (htake _), hdrop _⟩
          · simp only [Except.ok.injEq, finishSplit, Prod.mk.injEq] at h
            obtain ⟨rfl, rfl⟩ := h
            refine ⟨fits_cutLast (fits_append (htake _) (fits_single (by simp))), ?_⟩
            simp only [extend, Rows.mk']
            exact fits_append (fits_single (by simp; omega)) (hdrop _)
    · split at h
      · simp only [Except.ok.injEq, Prod.mk.injEq] at h
        obtain ⟨rfl, rfl⟩ := h
        exact ⟨hf, fits_nil⟩
      · split at h
        · simp only [Except.ok.injEq, finishSplit, Prod.mk.injEq] at h
          obtain ⟨rfl, rfl⟩ := h
          refine ⟨fits_cutLast (fits_append (fits_append ?_ (fits_single (by simp; omega))) (fits_single (by simp))), fits_nil⟩
          exact fun q hq => hf q (List.dropLast_subset _ hq)
        · simp only [Except.ok.injEq, finishSplit, Prod.mk.injEq] at h
          obtain ⟨rfl, rfl⟩ := h
          exact ⟨fits_cutLast hf, fits_nil⟩

theorem fits_cut (size fuel : Nat) : ∀ (r : Rows) (ts : List (List Row)) (rem : Rows), cutLoop size fuel r = .ok (ts, rem) →
    Fits r.rows → (∀ t ∈ ts, Fits t) ∧ Fits rem.rows := by
  induction fuel with
  | zero => intro r ts rem h; cases h
  | succ fuel ih =>
    intro r ts rem h hf
    simp only [cutLoop] at h
    split at h
    · cases h
    · rename_i t rm hs
      obtain ⟨g1, g2⟩ := fits_split _ _ _ _ hs hf
      split at h
      · simp only [Except.ok.injEq, Prod.mk.injEq] at h
        obtain ⟨rfl, rfl⟩ := h
        refine ⟨fun x hx => ?_, g2⟩
        rw [List.mem_singleton.1 hx]
        exact g1
      · split at h
        · cases h
        · rename_i ts' rm' hc
          simp only [Except.ok.injEq, Prod.mk.injEq] at h
          obtain ⟨rfl, rfl⟩ := h
          obtain ⟨k1, k2⟩ := ih _ _ _ hc g2
          refine ⟨fun x hx => ?_, k2⟩
          rcases List.mem_cons.1 hx with rfl | hx
          · exact g1
          · exact k1 x hx

theorem fits_tables (size : Nat) (d : ℚ) (bs : List Rows) : ∀ (r : Rows) (ts : List (List Row)),
    getTablesFrom size d r bs = .ok ts → Fits r.rows → (∀ b ∈ bs, Fits b.rows) → ∀ t ∈ ts, Fits t := by
  induction bs with
  | nil =>
    intro r ts h hf _
    simp only [getTablesFrom] at h
    split at h
    · simp only [Except.ok.injEq] at h; subst h; simp
    · simp only [Except.ok.injEq] at h; subst h
      intro t ht
      rw [List.mem_singleton.1 ht]
      exact hf
  | cons b bs ih =>
    intro r ts h hf hbs
    have hb : Fits (extend r b).rows := fits_append hf (hbs b (by simp))
    have hbs' : ∀ b ∈ bs, Fits b.rows := fun x hx => hbs x (List.mem_cons_of_mem _ hx)
    simp only [getTablesFrom] at h
    split at h
    · split at h
      · cases h
      · rename_i ts1 rem hc
        obtain ⟨g1, g2⟩ := fits_cut _ _ _ _ _ hc hb
        split at h
        · cases h
        · rename_i ts2 hg
          simp only [Except.ok.injEq] at h
          subst h
          intro t ht
          rcases List.mem_append.1 ht with ht | ht
          · exact g1 t ht
          · exact ih _ _ hg g2 hbs' t ht
    · exact ih _ _ h hb hbs'

/-- C37: nor does one in any table that is loaded, whatever its size and duration. -/
theorem table_repeats_fit (s : Scan) (batch a b size : Nat) (d : ℚ) (rs : List Rows) (tables : List (List Row))
    (h : getRows s batch a b = .ok rs) (ht : getTables size d rs = .ok tables) :
    ∀ t ∈ tables, ∀ r ∈ t, r.repeats ≤ 4096 :=
  fits_tables size d rs {} tables ht fits_nil
    (fun x hx r hr => repeats_fit s batch a b rs h r (List.mem_flatMap.2 ⟨x, hx, hr⟩))

/-- 10000 points of the same duration: three rows -/
example : (addSeqEntry {} { count := 10000, live := 1 }).rows.map (·.repeats) = [4096, 4096, 1808] := by decide +kernel

end Verif.Props.SeqFit
