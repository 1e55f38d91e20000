import Verif.Spec.PandATable
/-!
C38: "Writing a table to the PandA as 32-bit words and reading it back gives the same table for all field layouts and
in-range values."
-/
namespace Verif.Props.PandATable
open Verif.PandATable Verif.Spec.PandATable

theorem nbits_le {f : Field} (h : InWord f) : 1 ≤ width f ∧ f.lo % 32 + width f ≤ 32 := by
  obtain ⟨h1, h2⟩ := h
  unfold width
  omega

theorem pow_le_32 {k n : Nat} (h : k + n ≤ 32) : 2 ^ (k + n) ≤ 4294967296 := by
  have := Nat.pow_le_pow_right (n := 2) (by omega) h
  simpa using this

/-- The value of a column, in place -/
theorem shifted_eq {f : Field} (hw : InWord f) (hf : FitsType f) (r : Int) (v : Nat) (hv : v < 2 ^ width f)
    (hr : r % ((2 ^ width f : Nat) : Int) = v) : shifted f r = v * 2 ^ (f.lo % 32) := by
  obtain ⟨hn1, hn2⟩ := nbits_le hw
  have hnb : nbits f = width f := rfl
  have hx : v * 2 ^ (f.lo % 32) < 2 ^ (f.lo % 32 + width f) := by
    rw [Nat.pow_add, Nat.mul_comm]
    exact Nat.mul_lt_mul_of_pos_left hv (Nat.pow_pos (by omega))
  have hx32 := Nat.lt_of_lt_of_le hx (pow_le_32 hn2)
  have hxm : ∀ m, f.lo % 32 + width f ≤ m → v * 2 ^ (f.lo % 32) < 2 ^ m := fun m hm =>
    Nat.lt_of_lt_of_le hx (Nat.pow_le_pow_right (by omega) hm)
  unfold shifted
  rw [hnb, hr]
  simp only [← Int.natCast_mul]
  generalize hX : v * 2 ^ (f.lo % 32) = x at *
  have hcase : arrayType f = (32, false) ∨ arrayType f = (64, true) ∨ arrayType f = (32, true) ∨
      (arrayType f = (8, false) ∧ f.lo % 32 + width f ≤ 8) ∨ (arrayType f = (16, false) ∧ f.lo % 32 + width f ≤ 16) ∨
      (arrayType f = (8, true) ∧ f.lo % 32 + width f ≤ 7) ∨ (arrayType f = (16, true) ∧ f.lo % 32 + width f ≤ 15) := by
    unfold arrayType dtypeBits
    rw [hnb]
    by_cases hl : f.labels ≠ []
    · simp [hl]
    · rw [if_neg hl]
      by_cases h1 : width f = 1
      · simp [h1]
      · rw [if_neg h1]
        have h1' : f.hi ≠ f.lo := by
          intro h
          apply h1; unfold width; omega
        rcases hf with h | h | h | ⟨hs, h⟩ | ⟨hs, h⟩
        · exact absurd h hl
        · exact absurd h h1'
        · have e8 : ¬ width f ≤ 8 := by omega
          have e16 : ¬ width f ≤ 16 := by omega
          have e32 : width f ≤ 32 := by omega
          simp only [e8, e16, e32, if_true, if_false]
          cases f.signed
          · simp
          · by_cases h32 : width f = 32
            · simp [h32]
            · simp [h32]
        · rw [hs]
          by_cases e8 : width f ≤ 8
          · rw [if_pos e8] at h
            simp [e8]; omega
          · rw [if_neg e8] at h
            have e16 : width f ≤ 16 := by omega
            simp [e8, e16]; omega
        · rw [hs]
          rcases h with h | ⟨h, h'⟩ | h
          · simp [h]
          · simp [h]; omega
          · by_cases e8 : width f ≤ 8
            · rw [if_pos e8] at h
              have : width f ≠ 8 := by omega
              simp [e8, this]; omega
            · rw [if_neg e8] at h
              have e16 : width f ≤ 16 := by omega
              have : width f ≠ 16 := by omega
              simp [e8, e16, this]; omega
  rcases hcase with h | h | h | ⟨h, h'⟩ | ⟨h, h'⟩ | ⟨h, h'⟩ | ⟨h, h'⟩ <;> rw [h] <;> simp only [wrap]
  · simp; omega
  · simp; omega
  · simp; split <;> omega
  · have := hxm 8 h'; simp at this ⊢; omega
  · have := hxm 16 h'; simp at this ⊢; omega
  · have := hxm 7 h'; simp at this ⊢; rw [if_neg (by omega)]; omega
  · have := hxm 15 h'; simp at this ⊢; rw [if_neg (by omega)]; omega

/-- The integer that is written for a cell -/
theorem raw_of_holds {f : Field} (hw : InWord f) (hlab : f.labels.length ≤ 2 ^ (f.hi + 1 - f.lo)) {c : Cell} {v : Nat}
    (h : Holds f c v) : v < 2 ^ width f ∧ ∃ r, rawOf f c = .ok r ∧ r % ((2 ^ width f : Nat) : Int) = v := by
  have hpos : 0 < 2 ^ width f := Nat.pow_pos (by omega)
  cases h with
  | choice _ l hi hfirst =>
    have hlt : v < f.labels.length := (List.getElem?_eq_some_iff.1 hi).1
    have hne : f.labels ≠ [] := by intro h; rw [h] at hlt; simp at hlt
    have hv : v < 2 ^ width f := Nat.lt_of_lt_of_le hlt hlab
    refine ⟨hv, v, ?_, by rw [← Int.natCast_emod, Nat.mod_eq_of_lt hv]⟩
    have : f.labels.idxOf? l = some v := by
      rw [List.idxOf?, List.findIdx?_eq_some_iff_getElem]
      refine ⟨hlt, ?_, ?_⟩
      · rw [List.getElem?_eq_getElem hlt] at hi
        simpa using Option.some.inj hi
      · intro j hj
        have := hfirst j hj
        rw [List.getElem?_eq_getElem (by omega)] at this
        simpa using this
    simp [rawOf, hne, this]
  | bool b hl h1 =>
    have hwd : width f = 1 := by unfold width; omega
    rw [hwd]
    refine ⟨by cases b <;> simp, if b then 1 else 0, by simp [rawOf, hl], by cases b <;> simp⟩
  | pos v hl h1 hv hs =>
    have hv : v < 2 ^ width f := hv
    exact ⟨hv, v, by simp [rawOf, hl], by rw [← Int.natCast_emod, Nat.mod_eq_of_lt hv]⟩
  | neg v hl h1 hs h0 hv =>
    have : 2 ^ width f = 2 * 2 ^ (f.hi - f.lo) := by
      unfold width
      rw [show f.hi + 1 - f.lo = (f.hi - f.lo) + 1 by omega, Nat.pow_succ]; omega
    have hle : v ≤ 2 ^ width f := by omega
    refine ⟨by change 2 ^ width f - v < _; omega, -v, by simp [rawOf, hl], ?_⟩
    change (-(v : Int)) % ((2 ^ width f : Nat) : Int) = ((2 ^ width f - v : Nat) : Int)
    generalize 2 ^ width f = m at *
    have e : (-(v : Int)) = ((m - v : Nat) : Int) - (m : Int) * 1 := by omega
    rw [e, Int.sub_mul_emod_self_left, ← Int.natCast_emod, Nat.mod_eq_of_lt (by omega)]

theorem rowBit_modify (row : List Nat) (i s p : Nat) (hi : i < row.length) :
    rowBit (row.modify i (· ||| s)) p = (rowBit row p || (decide (p / 32 = i) && s.testBit (p % 32))) := by
  unfold rowBit
  rw [List.getElem?_modify]
  by_cases h : i = p / 32
  · subst h
    rw [List.getElem?_eq_getElem hi]
    simp
  · have : ¬ p / 32 = i := fun e => h e.symm
    simp [h, this]

/-- A value put at the bits of its field -/
theorem bit_of_field {f : Field} (hw : InWord f) (v : Nat) (hv : v < 2 ^ width f) (p : Nat) :
    (decide (p / 32 = f.lo / 32) && (v * 2 ^ (f.lo % 32)).testBit (p % 32)) = true ↔
      f.lo ≤ p ∧ p ≤ f.hi ∧ v.testBit (p - f.lo) = true := by
  obtain ⟨h1, h2⟩ := hw
  rw [← Nat.shiftLeft_eq, Nat.testBit_shiftLeft]
  simp only [Bool.and_eq_true, decide_eq_true_eq, ge_iff_le]
  constructor
  · rintro ⟨h3, h4, h5⟩
    have h6 : p % 32 - f.lo % 32 < width f := by
      refine Classical.byContradiction fun hc => ?_
      have := Nat.testBit_lt_two_pow (x := v) (i := p % 32 - f.lo % 32)
        (Nat.lt_of_lt_of_le hv (Nat.pow_le_pow_right (by omega) (by omega)))
      rw [this] at h5; cases h5
    have e : p % 32 - f.lo % 32 = p - f.lo := by omega
    rw [e] at h5 h6
    unfold width at h6
    exact ⟨by omega, by omega, h5⟩
  · rintro ⟨h3, h4, h5⟩
    have e : p % 32 - f.lo % 32 = p - f.lo := by omega
    rw [e]
    exact ⟨by omega, by omega, h5⟩

theorem pack_spec (fs : List Field) : ∀ (cs : List Cell) (vs : List Nat) (row : List Nat),
    (∀ f ∈ fs, InWord f ∧ FitsType f ∧ f.labels.length ≤ 2 ^ (f.hi + 1 - f.lo) ∧ f.lo / 32 < row.length) →
    RowHolds fs cs vs → (∀ w ∈ row, w < 2 ^ 32) →
    ∃ words, packRow fs cs row = .ok words ∧ words.length = row.length ∧ (∀ w ∈ words, w < 2 ^ 32) ∧
      ∀ p, rowBit words p = true ↔ rowBit row p = true ∨
        ∃ q ∈ fs.zip vs, q.1.lo ≤ p ∧ p ≤ q.1.hi ∧ q.2.testBit (p - q.1.lo) = true := by
  induction fs with
  | nil =>
    intro cs vs row _ hr hb
    exact ⟨row, by simp [packRow], rfl, hb, by simp⟩
  | cons f fs ih =>
    intro cs vs row hfs hr hb
    match cs, vs, hr with
    | c :: cs, v :: vs, hr =>
      obtain ⟨hh, hr⟩ := hr
      obtain ⟨hw, hft, hlab, hlen⟩ := hfs f (by simp)
      obtain ⟨hv, r, hraw, hmod⟩ := raw_of_holds hw hlab hh
      have hsh := shifted_eq hw hft r v hv hmod
      have hor : orInto f c row = .ok (row.modify (f.lo / 32) (· ||| v * 2 ^ (f.lo % 32))) := by
        simp [orInto, hraw, columnIndex, hw.2, hlen, hsh]
      have hb' : ∀ w ∈ row.modify (f.lo / 32) (· ||| v * 2 ^ (f.lo % 32)), w < 2 ^ 32 := by
        intro w hw'
        obtain ⟨j, hj⟩ := List.mem_iff_getElem?.1 hw'
        rw [List.getElem?_modify] at hj
        cases hrow : row[j]? with
        | none => rw [hrow] at hj; simp at hj
        | some x =>
          have hxb := hb x (List.mem_iff_getElem?.2 ⟨j, hrow⟩)
          rw [hrow] at hj
          obtain ⟨_, hn2⟩ := nbits_le hw
          have hvb : v * 2 ^ (f.lo % 32) < 2 ^ 32 := by
            have : v * 2 ^ (f.lo % 32) < 2 ^ (f.lo % 32 + width f) := by
              rw [Nat.pow_add, Nat.mul_comm]
              exact Nat.mul_lt_mul_of_pos_left hv (Nat.pow_pos (by omega))
            exact Nat.lt_of_lt_of_le this (Nat.pow_le_pow_right (by omega) hn2)
          simp only [Option.map_eq_map, Option.map_some] at hj
          have hj := Option.some.inj hj
          split at hj
          · rw [← hj]; exact Nat.or_lt_two_pow hxb hvb
          · rw [← hj]; exact hxb
      obtain ⟨words, hp, hl, hbw, hbits⟩ := ih cs vs (row.modify (f.lo / 32) (· ||| v * 2 ^ (f.lo % 32)))
        (by intro g hg; simpa using hfs g (by simp [hg])) hr hb'
      refine ⟨words, by simp [packRow, hor, hp], by simpa using hl, hbw, fun p => ?_⟩
      rw [hbits, rowBit_modify _ _ _ _ hlen, Bool.or_eq_true, bit_of_field hw v hv]
      simp only [List.zip_cons_cons, List.mem_cons, exists_eq_or_imp]
      constructor
      · rintro ((h | h) | h)
        · exact Or.inl h
        · exact Or.inr (Or.inl h)
        · exact Or.inr (Or.inr h)
      · rintro (h | h | h)
        · exact Or.inl (Or.inl h)
        · exact Or.inl (Or.inr h)
        · exact Or.inr h

theorem foldl_max (l : List Nat) : ∀ a, (∀ x ∈ l, x ≤ l.foldl max a) ∧ a ≤ l.foldl max a ∧
    ∀ m, a ≤ m → (∀ x ∈ l, x ≤ m) → l.foldl max a ≤ m := by
  induction l with
  | nil => intro a; simp
  | cons y l ih =>
    intro a
    obtain ⟨h1, h2, h3⟩ := ih (max a y)
    refine ⟨?_, by simp only [List.foldl_cons]; omega, ?_⟩
    · intro x hx
      simp only [List.foldl_cons]
      rcases List.mem_cons.1 hx with rfl | hx
      · omega
      · exact h1 x hx
    · intro m ha hm
      simp only [List.foldl_cons]
      exact h3 m (by have := hm y (by simp); omega) fun x hx => hm x (by simp [hx])

theorem ints_enough {fs : List Field} (ht : TopOk fs) (f : Field) (hf : f ∈ fs) (hw : InWord f) : f.lo / 32 < intsPerRow fs := by
  obtain ⟨g, hg, hmax, hmod⟩ := ht
  obtain ⟨h1, _, h3⟩ := foldl_max (fs.map (·.hi)) 0
  have e : (fs.map (·.hi)).foldl max 0 = g.hi := Nat.le_antisymm
    (h3 g.hi (by omega) (by intro x hx; obtain ⟨y, hy, rfl⟩ := List.mem_map.1 hx; exact hmax y hy))
    (h1 g.hi (List.mem_map.2 ⟨g, hg, rfl⟩))
  have := hmax f hf
  have := hw.1
  unfold intsPerRow
  rw [e]
  omega

theorem zip_unique (fs : List Field) : ∀ (vs : List Nat), fs.Pairwise Apart → ∀ p q, p ∈ fs.zip vs → q ∈ fs.zip vs →
    ∀ b, p.1.lo ≤ b → b ≤ p.1.hi → q.1.lo ≤ b → b ≤ q.1.hi → p = q := by
  induction fs with
  | nil => intro vs _ p q hp; simp at hp
  | cons f fs ih =>
    intro vs hpw p q hp hq b h1 h2 h3 h4
    cases vs with
    | nil => simp at hp
    | cons v vs =>
      rw [List.pairwise_cons] at hpw
      simp only [List.zip_cons_cons, List.mem_cons] at hp hq
      rcases hp with rfl | hp <;> rcases hq with rfl | hq
      · rfl
      · have := hpw.1 q.1 (List.of_mem_zip hq).1
        rcases this with h | h <;> simp only at h1 h2 <;> omega
      · have := hpw.1 p.1 (List.of_mem_zip hp).1
        rcases this with h | h <;> simp only at h3 h4 <;> omega
      · exact ih vs hpw.2 p q hp hq b h1 h2 h3 h4

theorem wrap_pos (bits v : Nat) (s : Bool) (hv : v < 2 ^ bits) (hs : s = true → v < 2 ^ (bits - 1)) :
    wrap bits s v = v := by
  unfold wrap
  rw [← Int.natCast_emod, Nat.mod_eq_of_lt hv]
  simp only
  rw [if_neg]
  rintro ⟨h1, h2⟩
  have := hs h1
  omega

/-- What a field reads as, when its bits are those of a value of it -/
theorem unpack_spec {f : Field} (hw : InWord f) {c : Cell} {v : Nat}
    (hh : Holds f c v) (hv : v < 2 ^ width f) (hs : SignKept f c) (row : List Nat) (hlen : f.lo / 32 < row.length)
    (hbits : ∀ j, j < width f → rowBit row (f.lo + j) = v.testBit j) : unpackCell f row = .ok c := by
  have hnb : nbits f = width f := rfl
  obtain ⟨hn1, hn2⟩ := nbits_le hw
  have hval : row[f.lo / 32] / 2 ^ (f.lo % 32) % 2 ^ width f = v := by
    apply Nat.eq_of_testBit_eq
    intro j
    rw [Nat.testBit_mod_two_pow, Nat.testBit_div_two_pow]
    by_cases hj : j < width f
    · have := hbits j hj
      unfold rowBit at this
      have e1 : (f.lo + j) / 32 = f.lo / 32 := by omega
      have e2 : (f.lo + j) % 32 = j + f.lo % 32 := by omega
      rw [e1, e2, List.getElem?_eq_getElem hlen, Option.getD_some] at this
      simp [hj, this, Nat.add_comm]
    · simp only [hj, decide_false, Bool.false_and]
      exact (Nat.testBit_lt_two_pow (Nat.lt_of_lt_of_le hv (Nat.pow_le_pow_right (by omega) (by omega)))).symm
  simp only [unpackCell, columnIndex, hw.2, if_true, List.getElem?_eq_getElem hlen, hnb, hval]
  cases hh with
  | choice i l hi hfirst =>
    have hne : f.labels ≠ [] := by intro h; rw [h] at hi; simp at hi
    simp [hne, hi]
  | bool b hl h1 =>
    have hwd : width f = 1 := by unfold width; omega
    cases b <;> simp [hl, hwd]
  | pos v hl h1 hv' hsg =>
    have hwd : width f ≠ 1 := by unfold width; omega
    simp only [hl, ne_eq, not_true, if_false, hwd]
    congr 2
    apply wrap_pos
    · apply Nat.lt_of_lt_of_le hv
      apply Nat.pow_le_pow_right (by omega)
      unfold dtypeBits; split <;> (try split) <;> (try split) <;> omega
    · intro hsig
      apply Nat.lt_of_lt_of_le (hsg hsig)
      apply Nat.pow_le_pow_right (by omega)
      have : width f = f.hi - f.lo + 1 := by unfold width; omega
      unfold dtypeBits; split <;> (try split) <;> (try split) <;> omega
  | neg v hl h1 hsg h0 hv' =>
    have hwd : width f ≠ 1 := by unfold width; omega
    simp only [hl, ne_eq, not_true, if_false, hwd, hsg]
    congr 2
    have hd : dtypeBits (width f) = width f := by
      rcases hs with h | h | h | h
      · omega
      · rw [h]; rfl
      · rw [h]; rfl
      · rw [h]; rfl
    rw [hd]
    change wrap (width f) true ((2 ^ width f - v : Nat) : Int) = _
    have e2 : 2 ^ width f = 2 * 2 ^ (width f - 1) := by
      rw [show width f = (width f - 1) + 1 by omega, Nat.pow_succ]; simp; omega
    have e3 : width f - 1 = f.hi - f.lo := by unfold width; omega
    have hle : v ≤ 2 ^ (width f - 1) := by rw [e3]; exact hv'
    unfold wrap
    rw [← Int.natCast_emod, Nat.mod_eq_of_lt (by omega)]
    simp only
    generalize 2 ^ (width f - 1) = y at *
    rw [if_pos (by simp; omega), e2]
    omega

theorem unpackRow_spec (row : List Nat) (fs : List Field) : ∀ (cs : List Cell) (vs : List Nat), RowHolds fs cs vs →
    (∀ q ∈ (fs.zip cs).zip vs, unpackCell q.1.1 row = .ok q.1.2) → unpackRow row fs = .ok cs := by
  induction fs with
  | nil =>
    intro cs vs hr _
    match cs, vs, hr with
    | [], [], _ => rfl
  | cons f fs ih =>
    intro cs vs hr hq
    match cs, vs, hr with
    | c :: cs, v :: vs, hr =>
      have h1 := hq ((f, c), v) (by simp)
      have h2 := ih cs vs hr.2 (fun q h => hq q (by simp [h]))
      simp only at h1
      simp [unpackRow, h1, h2]

/-- Where every bit goes: in a row of words, the bits of a field are those of the value of its cell, and all other
bits are zero. Missing: layouts whose highest bit is the first of a word and columns that do not fit, for which see
`top_word_missing` and `shifted_out`. -/
theorem bits_placed_partial (fs : List Field) (hl : Layout fs) (ht : TopOk fs) (hf : ∀ f ∈ fs, FitsType f)
    (cs : List Cell) (vs : List Nat) (hr : RowHolds fs cs vs) :
    ∃ words, packRow fs cs (List.replicate (intsPerRow fs) 0) = .ok words ∧ words.length = intsPerRow fs ∧
      (∀ w ∈ words, w < 2 ^ 32) ∧
      ∀ p, rowBit words p = true ↔ ∃ q ∈ fs.zip vs, q.1.lo ≤ p ∧ p ≤ q.1.hi ∧ q.2.testBit (p - q.1.lo) = true := by
  obtain ⟨words, h1, h2, h3, h4⟩ := pack_spec fs cs vs (List.replicate (intsPerRow fs) 0)
    (fun f hm => ⟨hl.inWord f hm, hf f hm, hl.labels f hm, by simpa using ints_enough ht f hm (hl.inWord f hm)⟩) hr
    (by intro w hw; rw [(List.mem_replicate.1 hw).2]; decide)
  refine ⟨words, h1, by simpa using h2, h3, fun p => ?_⟩
  rw [h4]
  have : rowBit (List.replicate (intsPerRow fs) 0) p = false := by
    unfold rowBit
    rw [List.getElem?_replicate]
    split <;> simp
  simp [this]

theorem rowHolds_vals (fs : List Field) : ∀ (cs : List Cell) (vs : List Nat), RowHolds fs cs vs →
    ∀ f c v, ((f, c), v) ∈ (fs.zip cs).zip vs → Holds f c v ∧ (f, v) ∈ fs.zip vs ∧ (f, c) ∈ fs.zip cs := by
  induction fs with
  | nil => intro cs vs _ f c v h; simp at h
  | cons g fs ih =>
    intro cs vs hr f c v h
    match cs, vs, hr with
    | c' :: cs, v' :: vs, hr =>
      simp only [List.zip_cons_cons, List.mem_cons] at h
      rcases h with h | h
      · cases h
        exact ⟨hr.1, by simp, by simp⟩
      · obtain ⟨a, b, d⟩ := ih cs vs hr.2 f c v h
        exact ⟨a, by simp [b], by simp [d]⟩

theorem row_round_trip (fs : List Field) (hl : Layout fs) (ht : TopOk fs) (hf : ∀ f ∈ fs, FitsType f)
    (cs : List Cell) (vs : List Nat) (hr : RowHolds fs cs vs) (hs : ∀ q ∈ fs.zip cs, SignKept q.1 q.2) :
    ∃ words, packRow fs cs (List.replicate (intsPerRow fs) 0) = .ok words ∧ words.length = intsPerRow fs ∧
      unpackRow words fs = .ok cs := by
  obtain ⟨words, h1, h2, h3, h4⟩ := bits_placed_partial fs hl ht hf cs vs hr
  refine ⟨words, h1, h2, unpackRow_spec words fs cs vs hr ?_⟩
  rintro ⟨⟨f, c⟩, v⟩ hq
  obtain ⟨hh, hfv, hfc⟩ := rowHolds_vals fs cs vs hr f c v hq
  have hm : f ∈ fs := (List.of_mem_zip hfv).1
  have hw := hl.inWord f hm
  obtain ⟨hv, _⟩ := raw_of_holds hw (hl.labels f hm) hh
  refine unpack_spec hw hh hv (hs _ hfc) words (by rw [h2]; exact ints_enough ht f hm hw) ?_
  intro j hj
  have hjle : f.lo + j ≤ f.hi := by unfold width at hj; omega
  rw [Bool.eq_iff_iff, h4]
  constructor
  · rintro ⟨q, hq, ha, hb, hc⟩
    have := zip_unique fs vs hl.apart q (f, v) hq hfv (f.lo + j) ha hb (by simp) hjle
    rw [this] at hc
    simpa using hc
  · intro h
    exact ⟨(f, v), hfv, by simp, hjle, by simpa using h⟩

theorem chunks_append (n : Nat) (k : Nat) (ws rest : List Nat) (h : ws.length = n) :
    chunks n (k + 1) (ws ++ rest) = ws :: chunks n k rest := by
  simp [chunks, ← h]

/-- C38. For every layout and every table of values of its fields, writing gives words that read back as the table.
Missing: layouts whose highest bit is the first of a word (`top_word_missing`), columns shifted out of their numpy
type (`shifted_out`) and negative values of fields narrower than their type (`sign_lost`). -/
theorem round_trip_partial (fs : List Field) (hl : Layout fs) (ht : TopOk fs) (hf : ∀ f ∈ fs, FitsType f)
    (rows : List (List Cell)) (hr : ∀ cs ∈ rows, (∃ vs, RowHolds fs cs vs) ∧ ∀ q ∈ fs.zip cs, SignKept q.1 q.2) :
    ∃ ws, listFromTable fs rows = .ok ws ∧ ws.length = rows.length * intsPerRow fs ∧ tableFromList fs ws = .ok rows := by
  have hn : 0 < intsPerRow fs := by
    have ht' := ht
    obtain ⟨g, hg, _⟩ := ht'
    have := ints_enough ht g hg (hl.inWord g hg)
    omega
  have key : ∃ ws, listFromTable fs rows = .ok ws ∧ ws.length = rows.length * intsPerRow fs ∧
      unpackRows fs (chunks (intsPerRow fs) rows.length ws) = .ok rows := by
    induction rows with
    | nil => exact ⟨[], rfl, by simp, rfl⟩
    | cons cs rows ih =>
      obtain ⟨ws, h1, h2, h3⟩ := ih (fun c hc => hr c (by simp [hc]))
      obtain ⟨⟨vs, hvs⟩, hs⟩ := hr cs (by simp)
      obtain ⟨words, h4, h5, h6⟩ := row_round_trip fs hl ht hf cs vs hvs hs
      refine ⟨words ++ ws, by simp [listFromTable, h4, h1], by simp [h2, h5, Nat.add_mul]; omega, ?_⟩
      rw [List.length_cons, chunks_append _ _ _ _ h5]
      simp [unpackRows, h6, h3]
  obtain ⟨ws, h1, h2, h3⟩ := key
  refine ⟨ws, h1, h2, ?_⟩
  unfold tableFromList
  have hdiv : ws.length / intsPerRow fs = rows.length := by rw [h2, Nat.mul_div_cancel _ hn]
  simp only [hdiv, if_neg (show ¬ intsPerRow fs = 0 by omega)]
  rw [if_neg (by rw [h2]; simp), h3]

/-- The sequencer table of the PandA -/
def seqFields : List Field :=
  [{ hi := 15, lo := 0 }, { hi := 19, lo := 16, labels := ["Immediate", "bita=0", "posa>=position"] },
   { hi := 63, lo := 32, signed := true }, { hi := 95, lo := 64 }, { hi := 20, lo := 20 }, { hi := 127, lo := 96 },
   { hi := 26, lo := 26 }]

def seqRows : List (List Cell) :=
  [[.num 32, .choice "bita=0", .num (-1), .num 4096, .bool true, .num 4097, .bool false],
   [.num 0, .choice "posa>=position", .num 1, .num 0, .bool false, .num 200, .bool true]]

example : Layout seqFields ∧ TopOk seqFields ∧ (∀ f ∈ seqFields, FitsType f) ∧
    (∀ cs ∈ seqRows, (∃ vs, RowHolds seqFields cs vs) ∧ ∀ q ∈ seqFields.zip cs, SignKept q.1 q.2) ∧
    (listFromTable seqFields seqRows).toOption =
      some [0x00110020, 4294967295, 4096, 4097, 0x04020000, 1, 0, 200] := by
  refine ⟨⟨by simp [seqFields, InWord], ?_, by simp [seqFields]⟩, ⟨{ hi := 127, lo := 96 }, by simp [seqFields]⟩,
    by simp [seqFields, FitsType, width], ?_, by decide +kernel⟩
  · simp [seqFields, Apart]
  · intro cs hcs
    simp only [seqRows, List.mem_cons, List.not_mem_nil, or_false] at hcs
    rcases hcs with rfl | rfl
    · refine ⟨⟨[32, 1, 2 ^ 32 - 1, 4096, 1, 4097, 0], ?_⟩, by simp [seqFields, SignKept, width]⟩
      refine ⟨.pos 32 rfl (by decide) (by decide) (by simp), .choice 1 _ rfl (by decide),
        .neg 1 rfl (by decide) rfl (by decide) (by decide), .pos 4096 rfl (by decide) (by decide) (by simp),
        .bool true rfl rfl, .pos 4097 rfl (by decide) (by decide) (by simp), .bool false rfl rfl, trivial⟩
    · refine ⟨⟨[0, 2, 1, 0, 0, 200, 1], ?_⟩, by simp [seqFields, SignKept, width]⟩
      refine ⟨.pos 0 rfl (by decide) (by decide) (by simp), .choice 2 _ rfl (by decide),
        .pos 1 rfl (by decide) (by decide) (by decide), .pos 0 rfl (by decide) (by decide) (by simp),
        .bool false rfl rfl, .pos 200 rfl (by decide) (by decide) (by simp), .bool true rfl rfl, trivial⟩

/-- Not every layout can be written: if the highest bit of the fields is the first of a word, no room is made for
that word, and every row raises IndexError, whatever its values. -/
theorem top_word_missing (k : Nat) (b : Bool) :
    Layout [{ hi := 32 * k, lo := 32 * k }] ∧
    listFromTable [{ hi := 32 * k, lo := 32 * k }] [[.bool b]] = .error .index := by
  refine ⟨⟨by simp [InWord], by simp, by simp⟩, ?_⟩
  have : (32 * k + 31) / 32 = k := by omega
  simp [listFromTable, packRow, orInto, rawOf, columnIndex, intsPerRow, this]

/-- An unsigned column of 8 bits or less that lies above the first 8 bits of its word is written as zero, whatever
its value: it is shifted out of its uint8 array. -/
theorem shifted_out (v : Nat) (hv : v < 256) :
    Layout [{ hi := 15, lo := 8 }] ∧ Holds { hi := 15, lo := 8 } (.num v) v ∧
    listFromTable [{ hi := 15, lo := 8 }] [[.num v]] = .ok [0] := by
  refine ⟨⟨by simp [InWord], by simp, by simp⟩, .pos v rfl (by decide) (by simpa using hv) (by simp), ?_⟩
  have : shifted { hi := 15, lo := 8 } (v : Int) = 0 := by
    simp only [shifted, arrayType, nbits, dtypeBits, wrap]
    simp
  simp [listFromTable, packRow, orInto, rawOf, columnIndex, intsPerRow, this, List.modify]

/-- A negative value of a signed field that is narrower than its integer type is read back as another one -/
theorem sign_lost :
    Layout [{ hi := 23, lo := 0, signed := true }] ∧ Holds { hi := 23, lo := 0, signed := true } (.num (-1)) (2 ^ 24 - 1) ∧
    (listFromTable [{ hi := 23, lo := 0, signed := true }] [[.num (-1)]]).toOption = some [0xffffff] ∧
    (tableFromList [{ hi := 23, lo := 0, signed := true }] [0xffffff]).toOption = some [[.num 16777215]] := by
  refine ⟨⟨by simp [InWord], by simp, by simp⟩, .neg 1 rfl (by decide) rfl (by decide) (by decide), ?_, ?_⟩ <;> decide +kernel

end Verif.Props.PandATable
