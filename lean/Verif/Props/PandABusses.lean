import Verif.Spec.PandABusses
import Verif.Proofs.PyDict
/-!
C41: "In the positions table every row's value always equals the latest raw value times the latest scale plus the
latest offset, for any order of change reports."
-/
namespace Verif.Props.PandABusses
open Verif.PandABusses Verif.Spec.PandABusses

theorem last_snoc (k : Key) (flat : List (Key × Raw)) (x : Key × Raw) :
    last k (flat ++ [x]) = if x.1 = k then some x.2 else last k flat := by
  simp only [last, List.reverse_append, List.reverse_cons, List.reverse_nil, List.nil_append, List.singleton_append,
    List.find?_cons]
  by_cases h : x.1 = k
  · simp [h]
  · simp [h]

theorem idxOf_some {l : List Name} {n : Name} {i : Nat} (h : l.idxOf? n = some i) : l[i]? = some n := by
  rw [List.idxOf?, List.findIdx?_eq_some_iff_getElem] at h
  obtain ⟨h1, h2, _⟩ := h
  rw [List.getElem?_eq_getElem h1]
  simpa using h2

theorem idxOf_none {l : List Name} {n : Name} (h : l.idxOf? n = none) : n ∉ l := by
  have h' : ∀ x ∈ l, ¬ x = n := by simpa [List.idxOf?, List.findIdx?_eq_none_iff] using h
  exact fun hm => h' n hm rfl

theorem idxOf_nodup {l : List Name} (hn : l.Nodup) {n : Name} {i : Nat} (h : l[i]? = some n) : l.idxOf? n = some i := by
  cases hj : l.idxOf? n with
  | none => exact absurd (List.mem_iff_getElem?.2 ⟨i, h⟩) (idxOf_none hj)
  | some j =>
    have hj' := idxOf_some hj
    obtain ⟨hi1, hi2⟩ := List.getElem?_eq_some_iff.1 h
    rw [(List.getElem?_inj hi1 hn).1 (h.trans hj'.symm)]

/-- What holds in the middle of a poll, for all the rows: `reports` have come in, in all -/
structure Inv (names : List Name) (s : State) (p : PosChanges) (reports : List (Key × Raw)) : Prop where
  hnames : s.positions.name = names
  lens : (p.value.getD s.positions.value).length = names.length ∧ (p.scale.getD s.positions.scale).length = names.length ∧
    (p.offset.getD s.positions.offset).length = names.length ∧ s.posValues.length = names.length
  rows : ∀ (i : Nat) (n : Name), names[i]? = some n → s.posValues[i]? = some (rawOf n reports) ∧
    (p.scale.getD s.positions.scale)[i]? = some (scaleOf n reports) ∧
    (p.offset.getD s.positions.offset)[i]? = some (offsetOf n reports) ∧
    (p.value.getD s.positions.value)[i]? = some (rawOf n reports * scaleOf n reports + offsetOf n reports)

theorem pos_step {names : List Name} (hn : names.Nodup) {s : State} {p : PosChanges} {flat : List (Key × Raw)}
    (h : Inv names s p flat) {k : Key} {r : Raw} {vs : List Int} {p' : PosChanges}
    (hp : handlePos s p k r = some (.ok (vs, p'))) : Inv names { s with posValues := vs } p' (flat ++ [(k, r)]) := by
  unfold handlePos at hp
  cases hi : s.positions.name.idxOf? k.name with
  | none => rw [hi] at hp; cases hp
  | some i =>
    rw [hi] at hp
    simp only [Option.some.injEq] at hp
    rw [h.hnames] at hi
    have hni := idxOf_some hi
    have hilt : i < names.length := (List.getElem?_eq_some_iff.1 hni).1
    cases hpar : parsePos s p i k r with
    | error e => rw [hpar] at hp; cases hp
    | ok x =>
      obtain ⟨vs', c⟩ := x
      rw [hpar] at hp
      simp only [Except.ok.injEq, Prod.mk.injEq] at hp
      obtain ⟨rfl, rfl⟩ := hp
      have hother : ∀ j n, names[j]? = some n → j ≠ i → n ≠ k.name := by
        intro j n hj hji e
        apply hji
        have := idxOf_nodup hn hj
        rw [e, hi] at this
        exact (Option.some.inj this).symm
      -- after the value or the column has been taken in
      have mid : c.value = p.value ∧ vs'.length = names.length ∧
          (c.scale.getD s.positions.scale).length = names.length ∧ (c.offset.getD s.positions.offset).length = names.length ∧
          ∀ (j : Nat) (n : Name), names[j]? = some n → vs'[j]? = some (rawOf n (flat ++ [(k, r)])) ∧
            (c.scale.getD s.positions.scale)[j]? = some (scaleOf n (flat ++ [(k, r)])) ∧
            (c.offset.getD s.positions.offset)[j]? = some (offsetOf n (flat ++ [(k, r)])) := by
        obtain ⟨kn, ks⟩ := k
        obtain ⟨_, l1, l2, l3⟩ := h.lens
        simp only at hi hni hother
        unfold parsePos at hpar
        cases ks with
        | none =>
          simp only at hpar
          cases hr : r.int with
          | none => rw [hr] at hpar; cases hpar
          | some v =>
            rw [hr] at hpar
            simp only [Except.ok.injEq, Prod.mk.injEq] at hpar
            obtain ⟨rfl, rfl⟩ := hpar
            refine ⟨rfl, by simp [l3], l1, l2, fun j n hj => ?_⟩
            obtain ⟨g1, g2, g3, _⟩ := h.rows j n hj
            by_cases hji : j = i
            · subst hji
              have : n = kn := by rw [hni] at hj; exact (Option.some.inj hj).symm
              subst this
              refine ⟨?_, ?_, ?_⟩
              · rw [List.getElem?_set_self (by omega)]; simp [rawOf, last_snoc, hr]
              · rw [g2]; simp [scaleOf, last_snoc]
              · rw [g3]; simp [offsetOf, last_snoc]
            · have hne := hother j n hj hji
              refine ⟨?_, ?_, ?_⟩
              · rw [List.getElem?_set_ne (by omega), g1]; simp [rawOf, last_snoc, Ne.symm hne]
              · rw [g2]; simp [scaleOf, last_snoc]
              · rw [g3]; simp [offsetOf, last_snoc]
        | some sx =>
          cases sx with
          | capture =>
            simp only at hpar
            cases hr : r.cap with
            | none => rw [hr] at hpar; cases hpar
            | some v =>
              rw [hr] at hpar
              simp only [Except.ok.injEq, Prod.mk.injEq] at hpar
              obtain ⟨rfl, rfl⟩ := hpar
              refine ⟨rfl, l3, l1, l2, fun j n hj => ?_⟩
              obtain ⟨g1, g2, g3, _⟩ := h.rows j n hj
              exact ⟨by rw [g1]; simp [rawOf, last_snoc], by rw [g2]; simp [scaleOf, last_snoc],
                by rw [g3]; simp [offsetOf, last_snoc]⟩
          | units =>
            simp only [Except.ok.injEq, Prod.mk.injEq] at hpar
            obtain ⟨rfl, rfl⟩ := hpar
            refine ⟨rfl, l3, l1, l2, fun j n hj => ?_⟩
            obtain ⟨g1, g2, g3, _⟩ := h.rows j n hj
            exact ⟨by rw [g1]; simp [rawOf, last_snoc], by rw [g2]; simp [scaleOf, last_snoc],
              by rw [g3]; simp [offsetOf, last_snoc]⟩
          | scale =>
            simp only at hpar
            cases hr : r.float with
            | none => rw [hr] at hpar; cases hpar
            | some v =>
              rw [hr] at hpar
              simp only [Except.ok.injEq, Prod.mk.injEq] at hpar
              obtain ⟨rfl, rfl⟩ := hpar
              refine ⟨rfl, l3, by simp [updateColumn, l1], l2, fun j n hj => ?_⟩
              obtain ⟨g1, g2, g3, _⟩ := h.rows j n hj
              refine ⟨by rw [g1]; simp [rawOf, last_snoc], ?_, by rw [g3]; simp [offsetOf, last_snoc]⟩
              simp only [updateColumn, Option.getD_some]
              by_cases hji : j = i
              · subst hji
                have : n = kn := by rw [hni] at hj; exact (Option.some.inj hj).symm
                subst this
                rw [List.getElem?_set_self (by omega)]; simp [scaleOf, last_snoc, hr]
              · have hne := hother j n hj hji
                rw [List.getElem?_set_ne (by omega), g2]; simp [scaleOf, last_snoc, Ne.symm hne]
          | offset =>
            simp only at hpar
            cases hr : r.float with
            | none => rw [hr] at hpar; cases hpar
            | some v =>
              rw [hr] at hpar
              simp only [Except.ok.injEq, Prod.mk.injEq] at hpar
              obtain ⟨rfl, rfl⟩ := hpar
              refine ⟨rfl, l3, l1, by simp [updateColumn, l2], fun j n hj => ?_⟩
              obtain ⟨g1, g2, g3, _⟩ := h.rows j n hj
              refine ⟨by rw [g1]; simp [rawOf, last_snoc], by rw [g2]; simp [scaleOf, last_snoc], ?_⟩
              simp only [updateColumn, Option.getD_some]
              by_cases hji : j = i
              · subst hji
                have : n = kn := by rw [hni] at hj; exact (Option.some.inj hj).symm
                subst this
                rw [List.getElem?_set_self (by omega)]; simp [offsetOf, last_snoc, hr]
              · have hne := hother j n hj hji
                rw [List.getElem?_set_ne (by omega), g3]; simp [offsetOf, last_snoc, Ne.symm hne]
      obtain ⟨m1, m2, m3, m4, m5⟩ := mid
      have lv := h.lens.1
      refine ⟨h.hnames, ⟨by simp [updateColumn, m1, lv], m3, m4, m2⟩, fun j n hj => ?_⟩
      obtain ⟨a1, a2, a3⟩ := m5 j n hj
      refine ⟨a1, a2, a3, ?_⟩
      simp only [updateColumn, Option.getD_some, m1]
      by_cases hji : j = i
      · subst hji
        rw [List.getElem?_set_self (by omega)]
        simp only [List.getD_eq_getElem?_getD, a1, a2, a3, Option.getD_some]
      · rw [List.getElem?_set_ne (by omega), (h.rows j n hj).2.2.2]
        have hne := hother j n hj hji
        have hk : ∀ sx, ¬ k = ⟨n, sx⟩ := by intro sx e; apply hne; rw [e]
        simp [rawOf, scaleOf, offsetOf, last_snoc, hk]

theorem reports_inv {names : List Name} (hn : names.Nodup) (rs : List (Key × Raw)) : ∀ {s : State} {b : BitChanges}
    {p : PosChanges} {flat : List (Key × Raw)}, Inv names s p flat → (∀ n ∈ names, n ∉ s.bits.name) →
    ∀ {s' : State} {b' : BitChanges} {p' : PosChanges}, handleReports s b p rs = (s', .ok (b', p')) →
      Inv names s' p' (flat ++ rs) ∧ s'.bits = s.bits ∧ s'.positions = s.positions := by
  induction rs with
  | nil =>
    intro s b p flat h _ s' b' p' hr
    simp only [handleReports, Prod.mk.injEq, Except.ok.injEq] at hr
    obtain ⟨rfl, rfl, rfl⟩ := hr
    exact ⟨by simpa using h, rfl, rfl⟩
  | cons x rs ih =>
    obtain ⟨k, r⟩ := x
    intro s b p flat h hb s' b' p' hr
    have same : k.name ∉ names → Inv names s p (flat ++ [(k, r)]) := by
      intro hk
      refine ⟨h.hnames, h.lens, fun i n hi => ?_⟩
      have hne : ∀ sx, ¬ k = ⟨n, sx⟩ := by
        intro sx e
        apply hk
        rw [e]
        exact List.mem_iff_getElem?.2 ⟨i, hi⟩
      have := h.rows i n hi
      simpa [rawOf, scaleOf, offsetOf, last_snoc, hne] using this
    rw [show flat ++ (k, r) :: rs = (flat ++ [(k, r)]) ++ rs by simp]
    simp only [handleReports] at hr
    cases h1 : handleBit s b k r with
    | some b1 =>
      rw [h1] at hr
      refine ih (same ?_) hb hr
      unfold handleBit at h1
      split at h1
      · cases hi : s.bits.name.idxOf? k.name with
        | none => rw [hi] at h1; cases h1
        | some i =>
          intro hk
          exact hb _ hk (List.mem_iff_getElem?.2 ⟨i, idxOf_some hi⟩)
      · cases h1
    | none =>
      rw [h1] at hr
      simp only at hr
      cases h2 : handlePos s p k r with
      | some e =>
        rw [h2] at hr
        cases e with
        | error e => simp at hr
        | ok x =>
          obtain ⟨vs, p1⟩ := x
          simp only at hr
          exact ih (pos_step hn h h2) hb hr
      | none =>
        rw [h2] at hr
        simp only at hr
        have hk : k.name ∉ names := by
          unfold handlePos at h2
          cases hi : s.positions.name.idxOf? k.name with
          | none => rw [h.hnames] at hi; exact idxOf_none hi
          | some i => rw [hi] at h2; cases h2
        cases h3 : handlePcap s b k r with
        | none => rw [h3] at hr; simp at hr
        | some b1 =>
          rw [h3] at hr
          exact ih (same hk) hb hr

theorem changes_inv {names : List Name} (hn : names.Nodup) {s s' : State} {flat rs : List (Key × Raw)}
    (h : Inv names s {} flat) (hb : ∀ n ∈ names, n ∉ s.bits.name) (hc : handleChanges s rs = (s', none)) :
    Inv names s' {} (flat ++ rs) ∧ s'.bits.name = s.bits.name := by
  unfold handleChanges at hc
  cases hr : handleReports s {} {} rs with
  | mk s1 e =>
    rw [hr] at hc
    cases e with
    | error e => simp at hc
    | ok x =>
      obtain ⟨b, p⟩ := x
      simp only [Prod.mk.injEq, and_true] at hc
      obtain ⟨h1, h2, h3⟩ := reports_inv hn rs h hb hr
      subst hc
      refine ⟨⟨h1.hnames, h1.lens, h1.rows⟩, ?_⟩
      simp [updateBits, h2]

theorem after_inv {names : List Name} (hn : names.Nodup) (hist : List (List (Key × Raw))) : ∀ {s s' : State}
    {flat : List (Key × Raw)}, Inv names s {} flat → (∀ n ∈ names, n ∉ s.bits.name) → after s hist = some s' →
    Inv names s' {} (flat ++ hist.flatten) ∧ s'.bits.name = s.bits.name := by
  induction hist with
  | nil =>
    intro s s' flat h _ ha
    cases Option.some.inj ha
    exact ⟨by simpa using h, rfl⟩
  | cons p hist ih =>
    intro s s' flat h hb ha
    simp only [after] at ha
    cases hc : handleChanges s p with
    | mk s1 e =>
      rw [hc] at ha
      cases e with
      | some e => cases ha
      | none =>
        obtain ⟨h1, h2⟩ := changes_inv hn h hb hc
        obtain ⟨h3, h4⟩ := ih h1 (by rw [h2]; exact hb) ha
        exact ⟨by simpa using h3, by rw [h4, h2]⟩

theorem createBits_names (fields : Dict Key (List (Option Name))) : ∀ start, (createBits fields start).1 = bitNames fields := by
  induction fields with
  | nil => intro _; rfl
  | cons f fields ih =>
    obtain ⟨k, ns⟩ := f
    intro start
    simp only [createBits, bitNames, List.flatMap_cons]
    rw [ih]; rfl

/-- C41. After any number of polls, with reports in any order, the value of every position is the raw position last
reported for it times the scale last reported plus the offset last reported, and these are the scale and the offset the
table shows. Missing: tables that a user has written to, for which see `written_scale_stale` and
`report_brings_up_to_date`; and polls that raise, after which the PandA is in its fault state. -/
theorem scaled_partial (fields : Dict Key (List (Option Name))) (names : List Name) (hd : Distinct fields names)
    (hist : List (List (Key × Raw))) (s : State) (ha : after (createBusses fields names) hist = some s)
    (i : Nat) (n : Name) (hi : names[i]? = some n) :
    s.positions.value[i]? =
        some (rawOf n hist.flatten * scaleOf n hist.flatten + offsetOf n hist.flatten) ∧
      s.positions.scale[i]? = some (scaleOf n hist.flatten) ∧ s.positions.offset[i]? = some (offsetOf n hist.flatten) := by
  have h0 : Inv names (createBusses fields names) {} [] := by
    refine ⟨rfl, by simp [createBusses], fun j m hj => ?_⟩
    have hj' : j < names.length := (List.getElem?_eq_some_iff.1 hj).1
    simp [createBusses, rawOf, scaleOf, offsetOf, last, hj', hj]
    decide +kernel
  have hb : ∀ n ∈ names, n ∉ (createBusses fields names).bits.name := by
    intro n hn
    have : (createBusses fields names).bits.name = bitNames fields := createBits_names fields 0
    rw [this]
    exact hd.noBit n hn
  obtain ⟨h1, _⟩ := after_inv hd.posNodup hist h0 hb ha
  have := h1.rows i n hi
  simp only [List.nil_append, Option.getD_none] at this
  exact ⟨this.2.2.2, this.2.1, this.2.2.1⟩

end Verif.Props.PandABusses
