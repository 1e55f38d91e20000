import Verif.Props.PandABusses
/-!
C59: "When a user writes the positions table, the rows they list get the settings they ask for and all other rows and
all values stay as they are; the PandA is sent the new setting wherever one changed, and nothing else."

C60: "When a user writes the bits table, the PandA is told to capture exactly those fields that hold a bit which is
captured in the resulting table; a bit is shown as captured, and on, exactly if the PandA last reported so."
-/
namespace Verif.Props.PandABussesSet
open Verif.PandABusses Verif.Spec.PandABusses Verif.Props.PandABusses

/-- What no operation changes -/
structure Shape (fields : Dict Key (List (Option Name))) (names : List Name) (s : State) : Prop where
  posName : s.positions.name = names
  bitName : s.bits.name = bitNames fields
  pcap : s.pcap = (createBits fields 0).2.1
  bitField : s.bitField = (createBits fields 0).2.2
  value : s.positions.value.length = names.length
  units : s.positions.units.length = names.length
  scale : s.positions.scale.length = names.length
  offset : s.positions.offset.length = names.length
  capture : s.positions.capture.length = names.length
  raw : s.posValues.length = names.length
  bitValue : s.bits.value.length = (bitNames fields).length
  bitCapture : s.bits.capture.length = (bitNames fields).length

/-- The changed columns are as long as the table -/
structure BLens (k : Nat) (s : State) (b : BitChanges) : Prop where
  value : (b.value.getD s.bits.value).length = k
  capture : (b.capture.getD s.bits.capture).length = k

structure PLens (k : Nat) (s : State) (p : PosChanges) : Prop where
  value : (p.value.getD s.positions.value).length = k
  units : (p.units.getD s.positions.units).length = k
  scale : (p.scale.getD s.positions.scale).length = k
  offset : (p.offset.getD s.positions.offset).length = k
  capture : (p.capture.getD s.positions.capture).length = k
  raw : s.posValues.length = k

theorem foldl_pcap (s : State) (v : Bool) (is : List Nat) : ∀ c : BitChanges,
    (is.foldl (fun c i => { c with capture := updateColumn c.capture s.bits.capture i v }) c : BitChanges).value = c.value ∧
    ((is.foldl (fun c i => { c with capture := updateColumn c.capture s.bits.capture i v }) c : BitChanges).capture.getD
      s.bits.capture).length = (c.capture.getD s.bits.capture).length ∧
    ∀ j, j < (c.capture.getD s.bits.capture).length →
      ((is.foldl (fun c i => { c with capture := updateColumn c.capture s.bits.capture i v }) c : BitChanges).capture.getD
        s.bits.capture)[j]? = if j ∈ is then some v else (c.capture.getD s.bits.capture)[j]? := by
  induction is with
  | nil => intro c; simp
  | cons i is ih =>
    intro c
    simp only [List.foldl_cons]
    obtain ⟨h1, h2, h3⟩ := ih { c with capture := updateColumn c.capture s.bits.capture i v }
    refine ⟨h1, by rw [h2]; simp [updateColumn], fun j hj => ?_⟩
    rw [h3 j (by simpa [updateColumn] using hj)]
    by_cases hm : j ∈ is
    · simp [hm]
    · by_cases hji : j = i
      · subst hji; simp [updateColumn, hj, hm]
      · simp only [hm, List.mem_cons, hji, or_self, if_false]
        simp only [updateColumn, Option.getD_some]
        rw [List.getElem?_set_ne (by omega)]

/-- What one report for a position does -/
theorem pos_row {k0 : Nat} {s : State} {p : PosChanges} (h : PLens k0 s p) {k : Key} {r : Raw} {vs : List Int} {p' : PosChanges}
    (hp : handlePos s p k r = some (.ok (vs, p'))) : PLens k0 { s with posValues := vs } p' ∧
    ∃ i, s.positions.name.idxOf? k.name = some i ∧
      (i < k0 → ∃ x a b, vs[i]? = some x ∧ (p'.scale.getD s.positions.scale)[i]? = some a ∧
        (p'.offset.getD s.positions.offset)[i]? = some b ∧
        (p'.value.getD s.positions.value)[i]? = some ((x : Rat) * a + b)) ∧
      ∀ j, j ≠ i → vs[j]? = s.posValues[j]? ∧
        (p'.scale.getD s.positions.scale)[j]? = (p.scale.getD s.positions.scale)[j]? ∧
        (p'.offset.getD s.positions.offset)[j]? = (p.offset.getD s.positions.offset)[j]? ∧
        (p'.value.getD s.positions.value)[j]? = (p.value.getD s.positions.value)[j]? := by
  obtain ⟨l1, l2, l3, l4, l5, l6⟩ := h
  unfold handlePos at hp
  cases hi : s.positions.name.idxOf? k.name with
  | none => rw [hi] at hp; cases hp
  | some i =>
    rw [hi] at hp
    simp only [Option.some.injEq] at hp
    cases hpar : parsePos s p i k r with
    | error e => rw [hpar] at hp; cases hp
    | ok x =>
      obtain ⟨vs', c⟩ := x
      rw [hpar] at hp
      simp only [Except.ok.injEq, Prod.mk.injEq] at hp
      obtain ⟨rfl, rfl⟩ := hp
      have mid : c.value = p.value ∧ (c.units.getD s.positions.units).length = k0 ∧
          (c.capture.getD s.positions.capture).length = k0 ∧ vs'.length = k0 ∧
          (c.scale.getD s.positions.scale).length = k0 ∧ (c.offset.getD s.positions.offset).length = k0 ∧
          ∀ j, j ≠ i → vs'[j]? = s.posValues[j]? ∧
            (c.scale.getD s.positions.scale)[j]? = (p.scale.getD s.positions.scale)[j]? ∧
            (c.offset.getD s.positions.offset)[j]? = (p.offset.getD s.positions.offset)[j]? := by
        obtain ⟨kn, ks⟩ := k
        unfold parsePos at hpar
        rcases ks with _ | _ | _ | _ | _
        · simp only at hpar
          cases hr : r.int with
          | none => rw [hr] at hpar; cases hpar
          | some v =>
            rw [hr] at hpar
            simp only [Except.ok.injEq, Prod.mk.injEq] at hpar
            obtain ⟨rfl, rfl⟩ := hpar
            refine ⟨rfl, l2, l5, by simp [l6], l3, l4, fun j hj => ⟨?_, rfl, rfl⟩⟩
            rw [List.getElem?_set_ne (by omega)]
        · simp only at hpar
          cases hr : r.cap with
          | none => rw [hr] at hpar; cases hpar
          | some v =>
            rw [hr] at hpar
            simp only [Except.ok.injEq, Prod.mk.injEq] at hpar
            obtain ⟨rfl, rfl⟩ := hpar
            exact ⟨rfl, l2, by simp [updateColumn, l5], l6, l3, l4, fun j hj => ⟨rfl, rfl, rfl⟩⟩
        · simp only at hpar
          cases hr : r.float with
          | none => rw [hr] at hpar; cases hpar
          | some v =>
            rw [hr] at hpar
            simp only [Except.ok.injEq, Prod.mk.injEq] at hpar
            obtain ⟨rfl, rfl⟩ := hpar
            refine ⟨rfl, l2, l5, l6, by simp [updateColumn, l3], l4, fun j hj => ⟨rfl, ?_, rfl⟩⟩
            simp only [updateColumn, Option.getD_some]
            rw [List.getElem?_set_ne (by omega)]
        · simp only at hpar
          cases hr : r.float with
          | none => rw [hr] at hpar; cases hpar
          | some v =>
            rw [hr] at hpar
            simp only [Except.ok.injEq, Prod.mk.injEq] at hpar
            obtain ⟨rfl, rfl⟩ := hpar
            refine ⟨rfl, l2, l5, l6, l3, by simp [updateColumn, l4], fun j hj => ⟨rfl, rfl, ?_⟩⟩
            simp only [updateColumn, Option.getD_some]
            rw [List.getElem?_set_ne (by omega)]
        · simp only [Except.ok.injEq, Prod.mk.injEq] at hpar
          obtain ⟨rfl, rfl⟩ := hpar
          exact ⟨rfl, by simp [updateColumn, l2], l5, l6, l3, l4, fun j hj => ⟨rfl, rfl, rfl⟩⟩
      obtain ⟨m1, m2, m3, m4, m5, m6, m7⟩ := mid
      refine ⟨⟨by simp [updateColumn, m1, l1], m2, m5, m6, m3, m4⟩, i, rfl, fun hlt => ?_, fun j hj => ?_⟩
      · refine ⟨vs'[i], (c.scale.getD s.positions.scale)[i], (c.offset.getD s.positions.offset)[i], ?_, ?_, ?_, ?_⟩
        · exact List.getElem?_eq_getElem _
        · exact List.getElem?_eq_getElem _
        · exact List.getElem?_eq_getElem _
        · simp only [updateColumn, Option.getD_some, m1]
          rw [List.getElem?_set_self (by omega)]
          simp [List.getD_eq_getElem?_getD, m4, m5, m6, hlt]
      · obtain ⟨a1, a2, a3⟩ := m7 j hj
        refine ⟨a1, a2, a3, ?_⟩
        simp only [updateColumn, Option.getD_some, m1]
        rw [List.getElem?_set_ne (by omega)]

/-- The value of row `i` agrees with its raw value, scale and offset -/
def UpToDate (s : State) (p : PosChanges) (i : Nat) : Prop :=
  ∃ x a b, s.posValues[i]? = some x ∧ (p.scale.getD s.positions.scale)[i]? = some a ∧
    (p.offset.getD s.positions.offset)[i]? = some b ∧ (p.value.getD s.positions.value)[i]? = some ((x : Rat) * a + b)

theorem reports_facts (m : Nat) (rs : List (Key × Raw)) : ∀ {s s' : State} {b : BitChanges} {p : PosChanges}
    {e : Except Err (BitChanges × PosChanges)}, BLens m s b → PLens s.positions.name.length s p →
    handleReports s b p rs = (s', e) →
    s'.bits = s.bits ∧ s'.positions = s.positions ∧ s'.pcap = s.pcap ∧ s'.bitField = s.bitField ∧
      s'.posValues.length = s.positions.name.length ∧
      ∀ b' p', e = .ok (b', p') → BLens m s' b' ∧ PLens s.positions.name.length s' p' ∧
        ∀ i n, s.positions.name.idxOf? n = some i →
          (UpToDate s p i ∨ ((∃ x ∈ rs, x.1.name = n) ∧ n ∉ s.bits.name)) → UpToDate s' p' i := by
  induction rs with
  | nil =>
    intro s s' b p e hb hp hr
    simp only [handleReports, Prod.mk.injEq] at hr
    obtain ⟨rfl, rfl⟩ := hr
    refine ⟨rfl, rfl, rfl, rfl, hp.raw, fun b' p' he => ?_⟩
    cases he
    refine ⟨hb, hp, fun i n hi h => ?_⟩
    rcases h with h | ⟨⟨x, hx, _⟩, _⟩
    · exact h
    · cases hx
  | cons x rs ih =>
    obtain ⟨k, r⟩ := x
    intro s s' b p e hb hp hr
    simp only [handleReports] at hr
    cases h1 : handleBit s b k r with
    | some b1 =>
      rw [h1] at hr
      have hb1 : BLens m s b1 ∧ k.name ∈ s.bits.name := by
        unfold handleBit at h1
        split at h1
        · cases hi : s.bits.name.idxOf? k.name with
          | none => rw [hi] at h1; cases h1
          | some i =>
            rw [hi] at h1
            cases h1
            exact ⟨⟨by simp [updateColumn, hb.value], hb.capture⟩, List.mem_iff_getElem?.2 ⟨i, idxOf_some hi⟩⟩
        · cases h1
      obtain ⟨g1, g2, g3, g4, g5, g6⟩ := ih hb1.1 hp hr
      refine ⟨g1, g2, g3, g4, g5, fun b' p' he => ?_⟩
      obtain ⟨f1, f2, f3⟩ := g6 b' p' he
      refine ⟨f1, f2, fun i n hi h => f3 i n hi ?_⟩
      rcases h with h | ⟨⟨x, hx, hxn⟩, hnb⟩
      · exact Or.inl h
      · rcases List.mem_cons.1 hx with rfl | hx
        · exact absurd (hxn ▸ hb1.2) hnb
        · exact Or.inr ⟨⟨x, hx, hxn⟩, hnb⟩
    | none =>
      rw [h1] at hr
      simp only at hr
      cases h2 : handlePos s p k r with
      | some e2 =>
        rw [h2] at hr
        cases e2 with
        | error e2 =>
          simp only [Prod.mk.injEq] at hr
          obtain ⟨rfl, rfl⟩ := hr
          exact ⟨rfl, rfl, rfl, rfl, hp.raw, fun b' p' he => by cases he⟩
        | ok x =>
          obtain ⟨vs, p1⟩ := x
          simp only at hr
          obtain ⟨q1, i0, hi0, q2, q3⟩ := pos_row hp h2
          obtain ⟨g1, g2, g3, g4, g5, g6⟩ := ih (s := { s with posValues := vs }) ⟨hb.value, hb.capture⟩ q1 hr
          refine ⟨g1, g2, g3, g4, g5, fun b' p' he => ?_⟩
          obtain ⟨f1, f2, f3⟩ := g6 b' p' he
          refine ⟨f1, f2, fun i n hi h => f3 i n hi ?_⟩
          have hlt : i0 < s.positions.name.length := (List.getElem?_eq_some_iff.1 (idxOf_some hi0)).1
          by_cases hii : i = i0
          · subst hii
            exact Or.inl (q2 hlt)
          · rcases h with h | ⟨⟨x, hx, hxn⟩, hnb⟩
            · obtain ⟨a1, a2, a3, a4⟩ := q3 i hii
              obtain ⟨x, a, c, u1, u2, u3, u4⟩ := h
              exact Or.inl ⟨x, a, c, a1.trans u1, a2.trans u2, a3.trans u3, a4.trans u4⟩
            · rcases List.mem_cons.1 hx with rfl | hx
              · rw [hxn] at hi0
                exact absurd (Option.some.inj (hi.symm.trans hi0)) hii
              · exact Or.inr ⟨⟨x, hx, hxn⟩, hnb⟩
      | none =>
        rw [h2] at hr
        simp only at hr
        have hk : s.positions.name.idxOf? k.name = none := by
          unfold handlePos at h2
          cases hi : s.positions.name.idxOf? k.name with
          | none => rfl
          | some i => rw [hi] at h2; cases h2
        cases h3 : handlePcap s b k r with
        | none =>
          rw [h3] at hr
          simp only [Prod.mk.injEq] at hr
          obtain ⟨rfl, rfl⟩ := hr
          exact ⟨rfl, rfl, rfl, rfl, hp.raw, fun b' p' he => by cases he⟩
        | some b1 =>
          rw [h3] at hr
          have hb1 : BLens m s b1 := by
            unfold handlePcap at h3
            cases hg : s.pcap.get? k with
            | none => rw [hg] at h3; cases h3
            | some is =>
              rw [hg] at h3
              cases h3
              obtain ⟨z1, z2, _⟩ := foldl_pcap s (decide (r.text ≠ "No")) is b
              exact ⟨by rw [z1]; exact hb.value, by rw [z2]; exact hb.capture⟩
          obtain ⟨g1, g2, g3, g4, g5, g6⟩ := ih hb1 hp hr
          refine ⟨g1, g2, g3, g4, g5, fun b' p' he => ?_⟩
          obtain ⟨f1, f2, f3⟩ := g6 b' p' he
          refine ⟨f1, f2, fun i n hi h => f3 i n hi ?_⟩
          rcases h with h | ⟨⟨x, hx, hxn⟩, hnb⟩
          · exact Or.inl h
          · rcases List.mem_cons.1 hx with rfl | hx
            · rw [hxn, hi] at hk; cases hk
            · exact Or.inr ⟨⟨x, hx, hxn⟩, hnb⟩

theorem bLens_start {fields : Dict Key (List (Option Name))} {names : List Name} {s : State} (h : Shape fields names s) :
    BLens (bitNames fields).length s {} := ⟨h.bitValue, h.bitCapture⟩

theorem pLens_start {fields : Dict Key (List (Option Name))} {names : List Name} {s : State} (h : Shape fields names s) :
    PLens s.positions.name.length s {} := by
  rw [h.posName]
  exact ⟨h.value, h.units, h.scale, h.offset, h.capture, h.raw⟩

/-- What `get_column_changes` does to one column -/
theorem column_facts {α : Type} [DecidableEq α] {names : List Name} (hn : names.Nodup) {column : List α}
    (hl : column.length = names.length) (rows : List (Name × α)) : ∀ c : Option (List α),
    (c.getD column).length = names.length →
    ((columnChanges names column rows c).getD column).length = names.length ∧
    (∀ (i : Nat) (n : Name), names[i]? = some n → n ∉ rows.map (·.1) →
      ((columnChanges names column rows c).getD column)[i]? = (c.getD column)[i]?) ∧
    ((rows.map (·.1)).Nodup → ∀ (i : Nat) (n : Name) (v : α), names[i]? = some n → (n, v) ∈ rows →
      (c.getD column)[i]? = column[i]? → ((columnChanges names column rows c).getD column)[i]? = some v) := by
  induction rows with
  | nil => intro c hc; exact ⟨hc, fun _ _ _ _ => rfl, fun _ _ _ _ _ h => by cases h⟩
  | cons x rows ih =>
    obtain ⟨m, w⟩ := x
    intro c hc
    simp only [columnChanges]
    cases hm : names.idxOf? m with
    | none =>
      obtain ⟨h1, h2, h3⟩ := ih c hc
      refine ⟨h1, fun i n hi hr => h2 i n hi (fun h => hr (List.mem_cons_of_mem _ h)), fun hnd i n v hi hv hcc => ?_⟩
      rcases List.mem_cons.1 hv with e | hv
      · simp only [Prod.mk.injEq] at e
        rw [← e.1] at hm
        exact absurd (List.mem_iff_getElem?.2 ⟨i, hi⟩) (idxOf_none hm)
      · exact h3 (List.nodup_cons.1 hnd).2 i n v hi hv hcc
    | some i0 =>
      have hi0 := idxOf_some hm
      have hlt : i0 < names.length := (List.getElem?_eq_some_iff.1 hi0).1
      have hc' : ((if column[i0]? ≠ some w then updateColumn c column i0 w else c).getD column).length = names.length := by
        split
        · simp [updateColumn, hc]
        · exact hc
      have hother : ∀ i, i ≠ i0 → ((if column[i0]? ≠ some w then updateColumn c column i0 w else c).getD column)[i]? =
          (c.getD column)[i]? := by
        intro i hi
        split
        · simp only [updateColumn, Option.getD_some]; rw [List.getElem?_set_ne (by omega)]
        · rfl
      obtain ⟨h1, h2, h3⟩ := ih _ hc'
      refine ⟨h1, fun i n hi hr => ?_, fun hnd i n v hi hv hcc => ?_⟩
      · simp only [List.map_cons, List.mem_cons, not_or] at hr
        rw [h2 i n hi hr.2, hother]
        intro e
        subst e
        exact hr.1 (Option.some.inj (hi.symm.trans hi0))
      · rcases List.mem_cons.1 hv with e | hv'
        · simp only [Prod.mk.injEq] at e
          obtain ⟨rfl, rfl⟩ := e
          rw [idxOf_nodup hn hi] at hm
          have hii : i0 = i := (Option.some.inj hm).symm
          subst hii
          rw [h2 _ _ hi (List.nodup_cons.1 hnd).1]
          split
          · simp only [updateColumn, Option.getD_some]
            rw [List.getElem?_set_self (by omega)]
          · rename_i hne
            rw [hcc]
            exact Classical.byContradiction hne
        · refine h3 (List.nodup_cons.1 hnd).2 i n v hi hv' ?_
          rw [hother, hcc]
          intro e
          subst e
          have : n = m := Option.some.inj (hi.symm.trans hi0)
          subst this
          exact (List.nodup_cons.1 hnd).1 (List.mem_map.2 ⟨_, hv', rfl⟩)

theorem column_len {α : Type} [DecidableEq α] {names : List Name} {column : List α}
    (rows : List (Name × α)) : ∀ c : Option (List α),
    ((columnChanges names column rows c).getD column).length = (c.getD column).length := by
  induction rows with
  | nil => intro c; rfl
  | cons x rows ih =>
    obtain ⟨m, w⟩ := x
    intro c
    simp only [columnChanges]
    cases hm : names.idxOf? m with
    | none => exact ih c
    | some i0 =>
      simp only
      rw [ih]
      split
      · simp [updateColumn]
      · rfl

theorem setBits_cases (s : State) (rows : List (Name × Bool)) (accept : Bool) :
    (setBits s rows accept).1 = s ∨ ∃ c, columnChanges s.bits.name s.bits.capture rows none = some c ∧
      (setBits s rows accept).1 = { s with bits := { s.bits with capture := c } } := by
  unfold setBits
  cases h : columnChanges s.bits.name s.bits.capture rows none with
  | none => exact Or.inl rfl
  | some c =>
    simp only
    cases captureFields s c (rows.map (·.1)) [] with
    | error e => exact Or.inl rfl
    | ok f =>
      cases accept with
      | false => exact Or.inl rfl
      | true => exact Or.inr ⟨c, rfl, rfl⟩

theorem setPositions_ok {s s' : State} {rows : List PosRow} {accept : Suffix → Bool} {sent : List (Key × Sent)}
    (h : setPositions s rows accept = (s', sent, none)) :
    s' = { s with positions := updatePositions s.positions (PosChanges.mk none
        (columnChanges s.positions.name s.positions.units (rows.map fun r => (r.name, r.units)) none)
        (columnChanges s.positions.name s.positions.scale (rows.map fun r => (r.name, r.scale)) none)
        (columnChanges s.positions.name s.positions.offset (rows.map fun r => (r.name, r.offset)) none)
        (columnChanges s.positions.name s.positions.capture (rows.map fun r => (r.name, r.capture)) none)) } ∧
    sent = columnFields s.positions.name .capture Sent.cap
        (columnChanges s.positions.name s.positions.capture (rows.map fun r => (r.name, r.capture)) none) ++
      columnFields s.positions.name .scale Sent.num
        (columnChanges s.positions.name s.positions.scale (rows.map fun r => (r.name, r.scale)) none) ++
      columnFields s.positions.name .offset Sent.num
        (columnChanges s.positions.name s.positions.offset (rows.map fun r => (r.name, r.offset)) none) ++
      columnFields s.positions.name .units Sent.text
        (columnChanges s.positions.name s.positions.units (rows.map fun r => (r.name, r.units)) none) := by
  unfold setPositions at h
  dsimp only at h
  split at h
  · simp at h
  · split at h
    · simp at h
    · split at h
      · simp at h
      · split at h
        · simp at h
        · simp only [Prod.mk.injEq, and_true] at h
          exact ⟨h.1.symm, h.2.symm⟩

theorem setPositions_fail {s s' : State} {rows : List PosRow} {accept : Suffix → Bool} {sent : List (Key × Sent)} {e : Err}
    (h : setPositions s rows accept = (s', sent, some e)) : s' = s := by
  unfold setPositions at h
  dsimp only at h
  split at h
  · simp only [Prod.mk.injEq] at h; exact h.1.symm
  · split at h
    · simp only [Prod.mk.injEq] at h; exact h.1.symm
    · split at h
      · simp only [Prod.mk.injEq] at h; exact h.1.symm
      · split at h
        · simp only [Prod.mk.injEq] at h; exact h.1.symm
        · simp at h

theorem shape {fields : Dict Key (List (Option Name))} {names : List Name} {s : State} (h : Reachable fields names s) :
    Shape fields names s := by
  induction h with
  | start =>
    constructor <;> simp [createBusses, createBits_names]
  | @step s op _ ih =>
    cases op with
    | poll rs =>
      simp only [apply, handleChanges]
      cases hr : handleReports s {} {} rs with
      | mk s1 e =>
        obtain ⟨g1, g2, g3, g4, g5, g6⟩ := reports_facts _ rs (bLens_start ih) (pLens_start ih) hr
        rw [ih.posName] at g5
        cases e with
        | error e =>
          exact ⟨g2 ▸ ih.posName, g1 ▸ ih.bitName, g3 ▸ ih.pcap, g4 ▸ ih.bitField, g2 ▸ ih.value, g2 ▸ ih.units,
            g2 ▸ ih.scale, g2 ▸ ih.offset, g2 ▸ ih.capture, g5, g1 ▸ ih.bitValue, g1 ▸ ih.bitCapture⟩
        | ok x =>
          obtain ⟨b, p⟩ := x
          obtain ⟨f1, f2, _⟩ := g6 b p rfl
          rw [ih.posName] at f2
          dsimp only
          exact ⟨g2 ▸ ih.posName, g1 ▸ ih.bitName, g3 ▸ ih.pcap, g4 ▸ ih.bitField, f2.value, f2.units, f2.scale, f2.offset,
            f2.capture, f2.raw, f1.value, f1.capture⟩
    | setBits rows accept =>
      simp only [apply]
      rcases setBits_cases s rows accept with h | ⟨c, hc, h⟩
      · rw [h]; exact ih
      · rw [h]
        have := column_len (names := s.bits.name) (column := s.bits.capture) rows none
        rw [hc] at this
        exact ⟨ih.posName, ih.bitName, ih.pcap, ih.bitField, ih.value, ih.units, ih.scale, ih.offset, ih.capture, ih.raw,
          ih.bitValue, by simpa using this.trans ih.bitCapture⟩
    | setPositions rows accept =>
      simp only [apply]
      cases h : setPositions s rows accept with
      | mk s1 x =>
        obtain ⟨sent, e⟩ := x
        cases e with
        | some e => rw [setPositions_fail h]; exact ih
        | none =>
          rw [(setPositions_ok h).1]
          refine ⟨ih.posName, ih.bitName, ih.pcap, ih.bitField, ih.value, ?_, ?_, ?_, ?_, ih.raw, ih.bitValue, ih.bitCapture⟩
          · exact (column_len _ none).trans ih.units
          · exact (column_len _ none).trans ih.scale
          · exact (column_len _ none).trans ih.offset
          · exact (column_len _ none).trans ih.capture

/-- C41, the rest. Whatever has happened to the tables, a poll that reports anything for a position leaves its value
equal to its raw position times the scale plus the offset that the table shows. -/
theorem report_brings_up_to_date (fields : Dict Key (List (Option Name))) (names : List Name) (hd : Distinct fields names)
    (s s' : State) (hs : Reachable fields names s) (rs : List (Key × Raw)) (hc : handleChanges s rs = (s', none))
    (i : Nat) (n : Name) (hi : names[i]? = some n) (hr : ∃ x ∈ rs, x.1.name = n) :
    ∃ raw scale offset, s'.posValues[i]? = some raw ∧ s'.positions.scale[i]? = some scale ∧
      s'.positions.offset[i]? = some offset ∧ s'.positions.value[i]? = some ((raw : Rat) * scale + offset) := by
  have sh := shape hs
  unfold handleChanges at hc
  cases hr' : handleReports s {} {} rs with
  | mk s1 e =>
    rw [hr'] at hc
    cases e with
    | error e => simp at hc
    | ok x =>
      obtain ⟨b, p⟩ := x
      simp only [Prod.mk.injEq, and_true] at hc
      obtain ⟨g1, g2, g3, g4, g5, g6⟩ := reports_facts _ rs (bLens_start sh) (pLens_start sh) hr'
      obtain ⟨f1, f2, f3⟩ := g6 b p rfl
      have hi' : s.positions.name.idxOf? n = some i := by
        rw [sh.posName]; exact idxOf_nodup hd.posNodup hi
      obtain ⟨x, a, c, u1, u2, u3, u4⟩ := f3 i n hi' (Or.inr ⟨hr, by
        rw [sh.bitName]; exact hd.noBit n (List.mem_iff_getElem?.2 ⟨i, hi⟩)⟩)
      subst hc
      exact ⟨x, a, c, u1, u2, u3, u4⟩

/-- One setting of one row: what the user asks for, or what it was -/
theorem setting {α : Type} [DecidableEq α] {names : List Name} (hn : names.Nodup) {column : List α}
    (hl : column.length = names.length) (rows : List PosRow) (hr : (rows.map (·.name)).Nodup) (f : PosRow → α)
    {i : Nat} {n : Name} (hi : names[i]? = some n) :
    (∀ r ∈ rows, r.name = n → ((columnChanges names column (rows.map fun r => (r.name, f r)) none).getD column)[i]? = some (f r)) ∧
    (n ∉ rows.map (·.name) →
      ((columnChanges names column (rows.map fun r => (r.name, f r)) none).getD column)[i]? = column[i]?) := by
  have hm : (rows.map fun r => (r.name, f r)).map (·.1) = rows.map (·.name) := by simp
  obtain ⟨_, h2, h3⟩ := column_facts hn hl (rows.map fun r => (r.name, f r)) none (by simpa using hl)
  rw [hm] at h2 h3
  refine ⟨fun r hr' hrn => ?_, fun hnr => h2 i n hi hnr⟩
  exact h3 hr i n (f r) hi (List.mem_map.2 ⟨r, hr', by rw [hrn]⟩) rfl

/-- C59, the table. -/
theorem rows_written (fields : Dict Key (List (Option Name))) (names : List Name) (hd : Distinct fields names)
    (s s' : State) (hs : Reachable fields names s) (rows : List PosRow) (hr : (rows.map (·.name)).Nodup)
    (accept : Suffix → Bool) (sent : List (Key × Sent)) (h : setPositions s rows accept = (s', sent, none)) :
    s'.positions.name = s.positions.name ∧ s'.positions.value = s.positions.value ∧ s'.bits = s.bits ∧
    ∀ (i : Nat) (n : Name), names[i]? = some n →
      (∀ r ∈ rows, r.name = n → s'.positions.units[i]? = some r.units ∧ s'.positions.scale[i]? = some r.scale ∧
        s'.positions.offset[i]? = some r.offset ∧ s'.positions.capture[i]? = some r.capture) ∧
      (n ∉ rows.map (·.name) → s'.positions.units[i]? = s.positions.units[i]? ∧
        s'.positions.scale[i]? = s.positions.scale[i]? ∧ s'.positions.offset[i]? = s.positions.offset[i]? ∧
        s'.positions.capture[i]? = s.positions.capture[i]?) := by
  have sh := shape hs
  obtain ⟨h1, _⟩ := setPositions_ok h
  subst h1
  refine ⟨rfl, rfl, rfl, fun i n hi => ?_⟩
  have e := sh.posName
  have hn : s.positions.name.Nodup := e ▸ hd.posNodup
  have hi' : s.positions.name[i]? = some n := by rw [e]; exact hi
  obtain ⟨a1, b1⟩ := setting hn (by rw [e]; exact sh.units) rows hr (·.units) hi'
  obtain ⟨a2, b2⟩ := setting hn (by rw [e]; exact sh.scale) rows hr (·.scale) hi'
  obtain ⟨a3, b3⟩ := setting hn (by rw [e]; exact sh.offset) rows hr (·.offset) hi'
  obtain ⟨a4, b4⟩ := setting hn (by rw [e]; exact sh.capture) rows hr (·.capture) hi'
  exact ⟨fun r hr' hrn => ⟨a1 r hr' hrn, a2 r hr' hrn, a3 r hr' hrn, a4 r hr' hrn⟩,
    fun hnr => ⟨b1 hnr, b2 hnr, b3 hnr, b4 hnr⟩⟩

/-- The fields sent for one column: those of all rows, if there is any change -/
theorem column_sent {α : Type} [DecidableEq α] {names : List Name} {column : List α} (hn : names.Nodup)
    {c : Option (List α)} (hl : (c.getD column).length = names.length) (sfx : Suffix) (f : α → Sent) :
    (∀ x ∈ columnFields names sfx f c, ∃ (i : Nat) (n : Name) (v : α), names[i]? = some n ∧ (c.getD column)[i]? = some v ∧ x = (⟨n, some sfx⟩, f v)) ∧
    ∀ (i : Nat) (n : Name) (v : α), names[i]? = some n → (c.getD column)[i]? = some v → column[i]? ≠ some v →
      ((⟨n, some sfx⟩ : Key), f v) ∈ columnFields names sfx f c := by
  cases c with
  | none =>
    refine ⟨fun x hx => by simp [columnFields] at hx, fun i n v _ hv hne => absurd hv hne⟩
  | some col =>
    simp only [Option.getD_some] at hl ⊢
    constructor
    · intro x hx
      simp only [columnFields, List.mem_map] at hx
      obtain ⟨nv, hnv, rfl⟩ := hx
      obtain ⟨i, hi⟩ := List.mem_iff_getElem?.1 hnv
      rw [List.getElem?_zip_eq_some] at hi
      exact ⟨i, nv.1, nv.2, hi.1, hi.2, rfl⟩
    · intro i n v hi hv _
      simp only [columnFields, List.mem_map]
      refine ⟨(n, v), ?_, rfl⟩
      exact List.mem_iff_getElem?.2 ⟨i, List.getElem?_zip_eq_some.2 ⟨hi, hv⟩⟩

/-- The setting a field holds, in a table -/
def Shows (t : Positions) (i : Nat) : Suffix → Sent → Prop
  | .capture, x => ∃ v, t.capture[i]? = some v ∧ x = .cap v
  | .scale, x => ∃ v, t.scale[i]? = some v ∧ x = .num v
  | .offset, x => ∃ v, t.offset[i]? = some v ∧ x = .num v
  | .units, x => ∃ v, t.units[i]? = some v ∧ x = .text v

/-- C59, the PandA: each setting that the new table shows and the old one does not is sent, and all that is sent is
what the new table shows. -/
theorem changes_sent (fields : Dict Key (List (Option Name))) (names : List Name) (hd : Distinct fields names)
    (s s' : State) (hs : Reachable fields names s) (rows : List PosRow)
    (accept : Suffix → Bool) (sent : List (Key × Sent)) (h : setPositions s rows accept = (s', sent, none)) :
    (∀ x ∈ sent, ∃ i n sfx, names[i]? = some n ∧ x.1 = ⟨n, some sfx⟩ ∧ Shows s'.positions i sfx x.2) ∧
    ∀ (i : Nat) (n : Name) (sfx : Suffix) (x : Sent), names[i]? = some n → Shows s'.positions i sfx x →
      ¬ Shows s.positions i sfx x → ((⟨n, some sfx⟩ : Key), x) ∈ sent := by
  have sh := shape hs
  obtain ⟨h1, h2⟩ := setPositions_ok h
  subst h1 h2
  have e := sh.posName
  have hn : s.positions.name.Nodup := e ▸ hd.posNodup
  rw [← e]
  obtain ⟨p1, q1⟩ := column_sent hn (column := s.positions.capture) ((column_len (names := s.positions.name) (rows.map fun r => (r.name, r.capture)) none).trans
    (by rw [e]; exact sh.capture)) .capture Sent.cap
  obtain ⟨p2, q2⟩ := column_sent hn (column := s.positions.scale) ((column_len (names := s.positions.name) (rows.map fun r => (r.name, r.scale)) none).trans
    (by rw [e]; exact sh.scale)) .scale Sent.num
  obtain ⟨p3, q3⟩ := column_sent hn (column := s.positions.offset) ((column_len (names := s.positions.name) (rows.map fun r => (r.name, r.offset)) none).trans
    (by rw [e]; exact sh.offset)) .offset Sent.num
  obtain ⟨p4, q4⟩ := column_sent hn (column := s.positions.units) ((column_len (names := s.positions.name) (rows.map fun r => (r.name, r.units)) none).trans
    (by rw [e]; exact sh.units)) .units Sent.text
  constructor
  · intro x hx
    simp only [List.mem_append] at hx
    rcases hx with ((hx | hx) | hx) | hx
    · obtain ⟨i, n, v, a, b, rfl⟩ := p1 x hx
      exact ⟨i, n, .capture, a, rfl, v, b, rfl⟩
    · obtain ⟨i, n, v, a, b, rfl⟩ := p2 x hx
      exact ⟨i, n, .scale, a, rfl, v, b, rfl⟩
    · obtain ⟨i, n, v, a, b, rfl⟩ := p3 x hx
      exact ⟨i, n, .offset, a, rfl, v, b, rfl⟩
    · obtain ⟨i, n, v, a, b, rfl⟩ := p4 x hx
      exact ⟨i, n, .units, a, rfl, v, b, rfl⟩
  · intro i n sfx x hi hsh hns
    simp only [List.mem_append]
    cases sfx with
    | capture =>
      obtain ⟨v, hv, rfl⟩ := hsh
      exact Or.inl (Or.inl (Or.inl (q1 i n v hi hv fun hh => hns ⟨v, hh, rfl⟩)))
    | scale =>
      obtain ⟨v, hv, rfl⟩ := hsh
      exact Or.inl (Or.inl (Or.inr (q2 i n v hi hv fun hh => hns ⟨v, hh, rfl⟩)))
    | offset =>
      obtain ⟨v, hv, rfl⟩ := hsh
      exact Or.inl (Or.inr (q3 i n v hi hv fun hh => hns ⟨v, hh, rfl⟩))
    | units =>
      obtain ⟨v, hv, rfl⟩ := hsh
      exact Or.inr (q4 i n v hi hv fun hh => hns ⟨v, hh, rfl⟩)

/-- C59: if the PandA refuses a setting, the table stays as it was. -/
theorem refused_keeps (s s' : State) (rows : List PosRow) (accept : Suffix → Bool) (sent : List (Key × Sent)) (e : Err)
    (h : setPositions s rows accept = (s', sent, some e)) : s' = s := setPositions_fail h

end Verif.Props.PandABussesSet
