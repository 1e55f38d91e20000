import Verif.Props.PandABussesSet
/-!
C60: "When a user writes the bits table, the PandA is told to capture exactly those fields that hold a bit which is
captured in the resulting table; a bit is shown as captured, and on, exactly if the PandA last reported so."
-/
namespace Verif.Props.PandABits
open Verif.PandABusses Verif.Spec.PandABusses Verif.Props.PandABusses Verif.Props.PandABussesSet

theorem bitNames_cons (k : Key) (ns : List (Option Name)) (rest : Dict Key (List (Option Name))) :
    bitNames ((k, ns) :: rest) = ns.filterMap id ++ bitNames rest := rfl

theorem mem_bitNames {fields : Dict Key (List (Option Name))} {f : Key} {ns : List (Option Name)} {n : Name}
    (h1 : (f, ns) ∈ fields) (h2 : some n ∈ ns) : n ∈ bitNames fields := by
  simp only [bitNames, List.mem_flatMap]
  exact ⟨(f, ns), h1, by simpa [List.mem_filterMap] using h2⟩

theorem pcap_ge (fields : Dict Key (List (Option Name))) : ∀ (start : Nat) (f : Key) (is : List Nat),
    (createBits fields start).2.1.get? f = some is → ∀ i ∈ is, start ≤ i := by
  induction fields with
  | nil => intro _ _ _ h; cases h
  | cons x rest ih =>
    obtain ⟨k, ns⟩ := x
    intro start f is h i hi
    simp only [createBits, Dict.get?_cons] at h
    split at h
    · cases h
      simp only [List.mem_range'_1] at hi
      exact hi.1
    · have := ih _ f is h i hi
      omega

/-- The rows of a PCAP field are those of its bits -/
theorem pcap_rows (fields : Dict Key (List (Option Name))) : ∀ (start : Nat), (bitNames fields).Nodup →
    (fields.map (·.1)).Nodup → ∀ (f : Key) (ns : List (Option Name)), (f, ns) ∈ fields →
    ∃ is, (createBits fields start).2.1.get? f = some is ∧
      ∀ (i : Nat) (n : Name), (bitNames fields)[i]? = some n → (start + i ∈ is ↔ some n ∈ ns) := by
  induction fields with
  | nil => intro _ _ _ _ _ h; cases h
  | cons x rest ih =>
    obtain ⟨k, ns0⟩ := x
    intro start hb hf f ns hm
    rw [bitNames_cons] at hb ⊢
    simp only [List.map_cons, List.nodup_cons] at hf
    obtain ⟨hb1, hb2, hb3⟩ := List.nodup_append.1 hb
    rcases List.mem_cons.1 hm with e | hm
    · simp only [Prod.mk.injEq] at e
      obtain ⟨rfl, rfl⟩ := e
      refine ⟨_, by simp only [createBits, Dict.get?_cons, if_true]; rfl, fun i n hi => ?_⟩
      simp only [List.mem_range'_1]
      rw [List.getElem?_append] at hi
      split at hi
      · have : n ∈ ns.filterMap id := List.mem_iff_getElem?.2 ⟨i, hi⟩
        constructor
        · intro _; simpa [List.mem_filterMap] using this
        · intro _; omega
      · have hn : n ∈ bitNames rest := List.mem_iff_getElem?.2 ⟨_, hi⟩
        constructor
        · intro h; omega
        · intro h
          exact absurd rfl (hb3 n (by simpa [List.mem_filterMap] using h) n hn)
    · have hne : ¬ k = f := by
        intro e; apply hf.1; rw [e]; exact List.mem_map.2 ⟨_, hm, rfl⟩
      obtain ⟨is, h1, h2⟩ := ih (start + (ns0.filterMap id).length) hb2 hf.2 f ns hm
      refine ⟨is, by simp only [createBits, Dict.get?_cons, hne, if_false]; exact h1, fun i n hi => ?_⟩
      rw [List.getElem?_append] at hi
      split at hi
      · rename_i hlt
        have hn : n ∈ ns0.filterMap id := List.mem_iff_getElem?.2 ⟨i, hi⟩
        constructor
        · intro h
          have := pcap_ge _ _ _ _ h1 _ h
          omega
        · intro h
          exact absurd rfl (hb3 n hn n (mem_bitNames hm h))
      · rw [← h2 _ n hi]
        rw [show start + (ns0.filterMap id).length + (i - (ns0.filterMap id).length) = start + i by omega]

theorem pcap_none (fields : Dict Key (List (Option Name))) : ∀ (start : Nat) (f : Key),
    (createBits fields start).2.1.get? f ≠ none → ∃ ns, (f, ns) ∈ fields := by
  induction fields with
  | nil => intro _ _ h; exact absurd rfl h
  | cons x rest ih =>
    obtain ⟨k, ns⟩ := x
    intro start f h
    simp only [createBits, Dict.get?_cons] at h
    split at h
    · rename_i e; subst e; exact ⟨ns, List.mem_cons_self ..⟩
    · obtain ⟨m, hm⟩ := ih _ f h
      exact ⟨m, List.mem_cons_of_mem _ hm⟩

/-- The PCAP field of a bit -/
theorem bit_field (fields : Dict Key (List (Option Name))) : ∀ (start : Nat), (bitNames fields).Nodup →
    ∀ (f : Key) (ns : List (Option Name)) (n : Name), (f, ns) ∈ fields → some n ∈ ns →
    (createBits fields start).2.2.get? n = some f := by
  have pre : ∀ (l : List Name) (k : Key) (d : Dict Name Key) (n : Name),
      Dict.get? (l.map (·, k) ++ d) n = if n ∈ l then some k else Dict.get? d n := by
    intro l k d n
    induction l with
    | nil => simp
    | cons m l ih =>
      simp only [List.map_cons, List.cons_append, Dict.get?_cons, ih, List.mem_cons]
      by_cases h : m = n
      · simp [h]
      · simp [h, Ne.symm h]
  induction fields with
  | nil => intro _ _ _ _ _ h; cases h
  | cons x rest ih =>
    obtain ⟨k, ns0⟩ := x
    intro start hb f ns n hm hn
    rw [bitNames_cons] at hb
    obtain ⟨hb1, hb2, hb3⟩ := List.nodup_append.1 hb
    simp only [createBits, pre]
    rcases List.mem_cons.1 hm with e | hm
    · simp only [Prod.mk.injEq] at e
      obtain ⟨rfl, rfl⟩ := e
      simp [List.mem_filterMap, hn]
    · have : n ∉ ns0.filterMap id := fun h => absurd rfl (hb3 n h n (mem_bitNames hm hn))
      rw [if_neg this]
      exact ih _ hb2 f ns n hm hn

/-- What holds of all bits in the middle of a poll -/
structure BInv (fields : Dict Key (List (Option Name))) (names : List Name) (s : State) (b : BitChanges)
    (flat : List (Key × Raw)) : Prop where
  bitName : s.bits.name = bitNames fields
  posName : s.positions.name = names
  pcap : s.pcap = (createBits fields 0).2.1
  lens : BLens (bitNames fields).length s b
  value : ∀ (i : Nat) (n : Name), (bitNames fields)[i]? = some n → (b.value.getD s.bits.value)[i]? = some (bitOf n flat)
  capture : ∀ (i : Nat) (n : Name) (f : Key) (ns : List (Option Name)), (bitNames fields)[i]? = some n → (f, ns) ∈ fields →
    some n ∈ ns → (b.capture.getD s.bits.capture)[i]? = some (capturedOf f flat)

theorem breports {fields : Dict Key (List (Option Name))} {names : List Name} (hd : Distinct fields names)
    (rs : List (Key × Raw)) : ∀ {s s' : State} {b b' : BitChanges} {p p' : PosChanges} {flat : List (Key × Raw)},
    BInv fields names s b flat → handleReports s b p rs = (s', .ok (b', p')) →
    BInv fields names s' b' (flat ++ rs) := by
  induction rs with
  | nil =>
    intro s s' b b' p p' flat h hr
    simp only [handleReports, Prod.mk.injEq, Except.ok.injEq] at hr
    obtain ⟨rfl, rfl, rfl⟩ := hr
    simpa using h
  | cons x rs ih =>
    obtain ⟨k, r⟩ := x
    intro s s' b b' p p' flat h hr
    rw [show flat ++ (k, r) :: rs = (flat ++ [(k, r)]) ++ rs by simp]
    simp only [handleReports] at hr
    have hcap : ∀ f ns, (f, ns) ∈ fields → f.suffix = some .capture := fun f ns hf => hd.capture _ hf
    cases h1 : handleBit s b k r with
    | some b1 =>
      rw [h1] at hr
      refine ih ?_ hr
      unfold handleBit at h1
      split at h1
      · rename_i hks
        cases hi : s.bits.name.idxOf? k.name with
        | none => rw [hi] at h1; cases h1
        | some i0 =>
          rw [hi] at h1
          cases h1
          rw [h.bitName] at hi
          have hi0 := idxOf_some hi
          have hlt : i0 < (bitNames fields).length := (List.getElem?_eq_some_iff.1 hi0).1
          have hl := h.lens.value
          refine ⟨h.bitName, h.posName, h.pcap, ⟨by simp [updateColumn, hl], h.lens.capture⟩, fun i n hn => ?_,
            fun i n f ns hn hf hns => ?_⟩
          · simp only [updateColumn, Option.getD_some]
            by_cases hii : i = i0
            · subst hii
              have : k = ⟨n, none⟩ := by
                obtain ⟨kn, ks⟩ := k
                simp only at hks hi0
                rw [hks, Option.some.inj (hn.symm.trans hi0)]
              rw [List.getElem?_set_self (by omega)]
              simp [bitOf, last_snoc, this]
            · have : ¬ k = ⟨n, none⟩ := by
                intro e
                rw [e] at hi0
                exact hii ((List.getElem?_inj (List.getElem?_eq_some_iff.1 hn).1 hd.bitNodup).1 (hn.trans hi0.symm))
              rw [List.getElem?_set_ne (by omega), h.value i n hn]
              simp [bitOf, last_snoc, this]
          · have : ¬ k = f := by
              intro e; rw [e, hcap f ns hf] at hks; cases hks
            rw [show capturedOf f (flat ++ [(k, r)]) = capturedOf f flat by simp [capturedOf, last_snoc, this]]
            exact h.capture i n f ns hn hf hns
      · cases h1
    | none =>
      rw [h1] at hr
      simp only at hr
      have nobit : ∀ n ∈ bitNames fields, ¬ k = ⟨n, none⟩ := by
        intro n hn e
        unfold handleBit at h1
        rw [if_pos (by rw [e])] at h1
        cases hi : s.bits.name.idxOf? k.name with
        | none =>
          rw [h.bitName, e] at hi
          exact idxOf_none hi hn
        | some i => rw [hi] at h1; cases h1
      have hval : ∀ (i : Nat) (n : Name), (bitNames fields)[i]? = some n → bitOf n (flat ++ [(k, r)]) = bitOf n flat := by
        intro i n hn
        simp [bitOf, last_snoc, nobit n (List.mem_iff_getElem?.2 ⟨i, hn⟩)]
      cases h2 : handlePos s p k r with
      | some e2 =>
        rw [h2] at hr
        cases e2 with
        | error e2 => simp at hr
        | ok x =>
          obtain ⟨vs, p1⟩ := x
          simp only at hr
          have hk : k.name ∈ names := by
            unfold handlePos at h2
            cases hi : s.positions.name.idxOf? k.name with
            | none => rw [hi] at h2; cases h2
            | some i => rw [h.posName] at hi; exact List.mem_iff_getElem?.2 ⟨i, idxOf_some hi⟩
          refine ih (s := { s with posValues := vs }) ⟨h.bitName, h.posName, h.pcap, ⟨h.lens.value, h.lens.capture⟩,
            fun i n hn => ?_, fun i n f ns hn hf hns => ?_⟩ hr
          · rw [hval i n hn]; exact h.value i n hn
          · have : ¬ k = f := by
              intro e; rw [e] at hk; exact hd.noField _ hk _ hf rfl
            rw [show capturedOf f (flat ++ [(k, r)]) = capturedOf f flat by simp [capturedOf, last_snoc, this]]
            exact h.capture i n f ns hn hf hns
      | none =>
        rw [h2] at hr
        simp only at hr
        cases h3 : handlePcap s b k r with
        | none => rw [h3] at hr; simp at hr
        | some b1 =>
          rw [h3] at hr
          refine ih ?_ hr
          unfold handlePcap at h3
          cases hg : s.pcap.get? k with
          | none => rw [hg] at h3; cases h3
          | some is =>
            rw [hg] at h3
            cases h3
            obtain ⟨z1, z2, z3⟩ := foldl_pcap s (decide (r.text ≠ "No")) is b
            rw [h.pcap] at hg
            obtain ⟨ns0, hk⟩ := pcap_none fields 0 k (by rw [hg]; simp)
            obtain ⟨is', hg', his⟩ := pcap_rows fields 0 hd.bitNodup hd.fieldNodup k ns0 hk
            rw [hg] at hg'
            cases Option.some.inj hg'
            refine ⟨h.bitName, h.posName, h.pcap, ⟨by rw [z1]; exact h.lens.value, by rw [z2]; exact h.lens.capture⟩,
              fun i n hn => ?_, fun i n f ns hn hf hns => ?_⟩
            · rw [z1, hval i n hn]; exact h.value i n hn
            · rw [z3 i (by rw [h.lens.capture]; exact (List.getElem?_eq_some_iff.1 hn).1)]
              have := his i n hn
              rw [Nat.zero_add] at this
              by_cases hkf : k = f
              · subst hkf
                have hnn : ns = ns0 := by
                  have hkeys := hd.fieldNodup
                  have e1 := Dict.get?_of_mem_nodup hkeys hf
                  have e2 := Dict.get?_of_mem_nodup hkeys hk
                  exact Option.some.inj (e1.symm.trans e2)
                rw [hnn] at hns
                rw [if_pos (this.2 hns)]
                simp [capturedOf, last_snoc]
              · have hnot : ¬ some n ∈ ns0 := by
                  intro hh
                  have e1 := bit_field fields 0 hd.bitNodup f ns n hf hns
                  have e2 := bit_field fields 0 hd.bitNodup k ns0 n hk hh
                  exact hkf (Option.some.inj (e2.symm.trans e1))
                rw [if_neg (fun hh => hnot (this.1 hh))]
                rw [show capturedOf f (flat ++ [(k, r)]) = capturedOf f flat by simp [capturedOf, last_snoc, hkf]]
                exact h.capture i n f ns hn hf hns

theorem bafter {fields : Dict Key (List (Option Name))} {names : List Name} (hd : Distinct fields names)
    (hist : List (List (Key × Raw))) : ∀ {s s' : State} {flat : List (Key × Raw)}, BInv fields names s {} flat →
    after s hist = some s' → BInv fields names s' {} (flat ++ hist.flatten) := by
  induction hist with
  | nil =>
    intro s s' flat h ha
    cases Option.some.inj ha
    simpa using h
  | cons p hist ih =>
    intro s s' flat h ha
    simp only [after] at ha
    cases hc : handleChanges s p with
    | mk s1 e =>
      rw [hc] at ha
      cases e with
      | some e => cases ha
      | none =>
        unfold handleChanges at hc
        cases hr : handleReports s {} {} p with
        | mk s2 e =>
          rw [hr] at hc
          cases e with
          | error e => simp at hc
          | ok x =>
            obtain ⟨b, q⟩ := x
            simp only [Prod.mk.injEq, and_true] at hc
            have h1 := breports hd p h hr
            subst hc
            have := ih (s := { s2 with bits := updateBits s2.bits b, positions := updatePositions s2.positions q })
              (flat := flat ++ p) ⟨h1.bitName, h1.posName, h1.pcap, ⟨h1.lens.value, h1.lens.capture⟩, h1.value,
              h1.capture⟩ ha
            simpa using this

/-- C60, reports. After any number of polls a bit shows the value last reported for it, and it shows as captured
exactly if the last report for the field that captures it was not "No". -/
theorem bits_follow (fields : Dict Key (List (Option Name))) (names : List Name) (hd : Distinct fields names)
    (hist : List (List (Key × Raw))) (s : State) (ha : after (createBusses fields names) hist = some s)
    (i : Nat) (n : Name) (f : Key) (ns : List (Option Name)) (hi : (bitNames fields)[i]? = some n) (hf : (f, ns) ∈ fields)
    (hn : some n ∈ ns) :
    s.bits.name[i]? = some n ∧ s.bits.value[i]? = some (bitOf n hist.flatten) ∧
      s.bits.capture[i]? = some (capturedOf f hist.flatten) := by
  have h0 : BInv fields names (createBusses fields names) {} [] := by
    have e : (createBusses fields names).bits.name = bitNames fields := createBits_names fields 0
    have sh := shape (Reachable.start (fields := fields) (positions := names))
    refine ⟨e, rfl, rfl, bLens_start sh, fun j m hj => ?_, fun j m f ns hj _ _ => ?_⟩
    · have hj' : j < (bitNames fields).length := (List.getElem?_eq_some_iff.1 hj).1
      simp [createBusses, createBits_names, bitOf, last, hj]
    · simp [createBusses, createBits_names, capturedOf, last, hj]
  have h1 := bafter hd hist h0 ha
  simp only [List.nil_append] at h1
  exact ⟨by rw [h1.bitName]; exact hi, h1.value i n hi, h1.capture i n f ns hi hf hn⟩

/-- What `set_bits` sends -/
theorem captureFields_facts {s : State} {cap : List Bool} (ns : List Name) : ∀ {d d' : Dict Key Bool},
    (Dict.keys d).Nodup → captureFields s cap ns d = .ok d' → (Dict.keys d').Nodup ∧
    (∀ n ∈ ns, ∃ i f, s.bits.name.idxOf? n = some i ∧ s.bitField.get? n = some f) ∧
    ∀ f, (d'.get? f = some true ↔ d.get? f = some true ∨
        ∃ n ∈ ns, ∃ i, s.bits.name.idxOf? n = some i ∧ s.bitField.get? n = some f ∧ cap.getD i false = true) ∧
      (d'.get? f = none ↔ d.get? f = none ∧ ∀ n ∈ ns, s.bitField.get? n ≠ some f) := by
  induction ns with
  | nil =>
    intro d d' hk h
    simp only [captureFields, Except.ok.injEq] at h
    subst h
    exact ⟨hk, by simp, by simp⟩
  | cons n ns ih =>
    intro d d' hk h
    simp only [captureFields] at h
    cases h1 : s.bits.name.idxOf? n with
    | none => rw [h1] at h; simp at h
    | some i =>
      cases h2 : s.bitField.get? n with
      | none => rw [h1, h2] at h; simp at h
      | some f0 =>
        rw [h1, h2] at h
        simp only at h
        have hk1 : (Dict.keys (if cap.getD i false then d.set f0 true else if d.mem f0 then d else d.set f0 false)).Nodup := by
          split
          · exact Dict.nodup_set hk _ _
          · split
            · exact hk
            · exact Dict.nodup_set hk _ _
        obtain ⟨g1, g2, g3⟩ := ih hk1 h
        refine ⟨g1, ?_, fun f => ?_⟩
        · intro m hm
          rcases List.mem_cons.1 hm with rfl | hm
          · exact ⟨i, f0, h1, h2⟩
          · exact g2 m hm
        · obtain ⟨a, b⟩ := g3 f
          have step1 : Dict.get? (if cap.getD i false then d.set f0 true else if d.mem f0 then d else d.set f0 false) f = some true ↔
              (d.get? f = some true ∨ (f0 = f ∧ cap.getD i false = true)) := by
            by_cases hf : f0 = f
            · subst hf
              split
              · rename_i hc; simp only [Dict.get?_set_self, hc, true_and, or_true]
              · rename_i hc
                split
                · simp only [hc]; simp
                · rename_i hm
                  rw [Dict.get?_set_self]
                  have : d.get? f0 = none := by
                    simpa [Dict.mem] using hm
                  simp only [this, hc]; simp
            · split
              · rw [Dict.get?_set_ne _ _ hf]; simp [hf]
              · split
                · simp [hf]
                · rw [Dict.get?_set_ne _ _ hf]; simp [hf]
          have step2 : Dict.get? (if cap.getD i false then d.set f0 true else if d.mem f0 then d else d.set f0 false) f = none ↔
              (d.get? f = none ∧ f0 ≠ f) := by
            by_cases hf : f0 = f
            · subst hf
              split
              · rw [Dict.get?_set_self]; simp
              · split
                · rename_i hm
                  simp only [Dict.mem, Option.isSome_iff_ne_none] at hm
                  simp [hm]
                · rw [Dict.get?_set_self]; simp
            · split
              · rw [Dict.get?_set_ne _ _ hf]; simp [hf]
              · split
                · simp [hf]
                · rw [Dict.get?_set_ne _ _ hf]; simp [hf]
          constructor
          · rw [a, step1]
            constructor
            · rintro ((h | ⟨rfl, hc⟩) | ⟨m, hm, j, x⟩)
              · exact Or.inl h
              · exact Or.inr ⟨n, List.mem_cons_self .., i, h1, h2, hc⟩
              · exact Or.inr ⟨m, List.mem_cons_of_mem _ hm, j, x⟩
            · rintro (h | ⟨m, hm, j, x1, x2, x3⟩)
              · exact Or.inl (Or.inl h)
              · rcases List.mem_cons.1 hm with rfl | hm
                · rw [h1] at x1; rw [h2] at x2
                  cases Option.some.inj x1
                  exact Or.inl (Or.inr ⟨Option.some.inj x2, x3⟩)
                · exact Or.inr ⟨m, hm, j, x1, x2, x3⟩
          · rw [b, step2]
            constructor
            · rintro ⟨⟨x, y⟩, z⟩
              refine ⟨x, fun m hm => ?_⟩
              rcases List.mem_cons.1 hm with rfl | hm
              · rw [h2]; simpa using y
              · exact z m hm
            · rintro ⟨x, z⟩
              refine ⟨⟨x, ?_⟩, fun m hm => z m (List.mem_cons_of_mem _ hm)⟩
              have := z n (List.mem_cons_self ..)
              rw [h2] at this
              simpa using this

/-- C60, writing the table. If the user lists every bit, once, and something changes, then the table shows the captures
they ask for, and each field that holds bits is sent to the PandA, as captured exactly if one of its bits is. Missing:
tables that leave out bits (`left_out_bit_lost`) or that hold other rows (`other_row_fails`). -/
theorem capture_written_partial (fields : Dict Key (List (Option Name))) (names : List Name) (hd : Distinct fields names)
    (s s' : State) (hs : Reachable fields names s) (rows : List (Name × Bool)) (hr : (rows.map (·.1)).Nodup)
    (hall : ∀ n ∈ bitNames fields, n ∈ rows.map (·.1)) (accept : Bool) (sent : Dict Key Bool)
    (h : setBits s rows accept = (s', sent, none)) :
    (∀ (i : Nat) (n : Name) (v : Bool), (bitNames fields)[i]? = some n → (n, v) ∈ rows → s'.bits.capture[i]? = some v) ∧
    (s' ≠ s → ∀ f ns, (f, ns) ∈ fields → (∃ n, some n ∈ ns) →
      ∃ v, sent.get? f = some v ∧ (v = true ↔ ∃ n, some n ∈ ns ∧ (n, true) ∈ rows)) ∧
    s'.bits.value = s.bits.value ∧ s'.positions = s.positions := by
  have sh := shape hs
  have hnd : s.bits.name.Nodup := sh.bitName ▸ hd.bitNodup
  have hlen : s.bits.capture.length = s.bits.name.length := by rw [sh.bitName]; exact sh.bitCapture
  obtain ⟨_, _, w⟩ := column_facts hnd hlen rows none (by simpa using hlen)
  unfold setBits at h
  cases hc : columnChanges s.bits.name s.bits.capture rows none with
  | none =>
    rw [hc] at h w
    simp only [Prod.mk.injEq, and_true] at h
    obtain ⟨rfl, rfl⟩ := h
    refine ⟨fun i n v hi hv => w hr i n v (by rw [sh.bitName]; exact hi) hv rfl, fun hne => absurd rfl hne, rfl, rfl⟩
  | some cap =>
    rw [hc] at h w
    simp only at h
    cases hf : captureFields s cap (rows.map (·.1)) [] with
    | error e => rw [hf] at h; simp at h
    | ok d =>
      rw [hf] at h
      cases accept with
      | false => simp at h
      | true =>
        simp only [if_true, Prod.mk.injEq, and_true] at h
        obtain ⟨rfl, rfl⟩ := h
        have w' : ∀ (i : Nat) (n : Name) (v : Bool), (bitNames fields)[i]? = some n → (n, v) ∈ rows → cap[i]? = some v :=
          fun i n v hi hv => w hr i n v (by rw [sh.bitName]; exact hi) hv rfl
        refine ⟨w', fun _ f ns hfn hne => ?_, rfl, rfl⟩
        obtain ⟨_, _, g⟩ := captureFields_facts (rows.map (·.1)) (by simp [Dict.keys]) hf
        obtain ⟨g1, g2⟩ := g f
        rw [sh.bitName, sh.bitField] at g1
        rw [sh.bitField] at g2
        have g2' : Dict.get? d f ≠ none := by
          intro h0
          obtain ⟨_, h1⟩ := g2.1 h0
          obtain ⟨n, hn⟩ := hne
          exact h1 n (hall n (mem_bitNames hfn hn)) (bit_field fields 0 hd.bitNodup f ns n hfn hn)
        have g1' : Dict.get? d f = some true ↔ ∃ n, some n ∈ ns ∧ (n, true) ∈ rows := by
          rw [g1]
          constructor
          · rintro (h | ⟨n, hn, i, x1, x2, x3⟩)
            · cases h
            · have hi := idxOf_some x1
              have hnb : n ∈ bitNames fields := List.mem_iff_getElem?.2 ⟨i, hi⟩
              obtain ⟨⟨f', ns'⟩, hf', hn'⟩ := List.mem_flatMap.1 hnb
              have hn'' : some n ∈ ns' := by simpa [List.mem_filterMap] using hn'
              have e := bit_field fields 0 hd.bitNodup f' ns' n hf' hn''
              rw [x2] at e
              cases Option.some.inj e
              have e1 := Dict.get?_of_mem_nodup hd.fieldNodup hf'
              have e2 := Dict.get?_of_mem_nodup hd.fieldNodup hfn
              cases Option.some.inj (e1.symm.trans e2)
              obtain ⟨⟨n', v⟩, hv, rfl⟩ := List.mem_map.1 hn
              have := w' i _ v hi hv
              simp only [List.getD_eq_getElem?_getD, this, Option.getD_some] at x3
              subst x3
              exact ⟨_, hn'', hv⟩
          · rintro ⟨n, hn, hv⟩
            obtain ⟨i, hi⟩ := List.mem_iff_getElem?.1 (mem_bitNames hfn hn)
            refine Or.inr ⟨n, List.mem_map.2 ⟨_, hv, rfl⟩, i, idxOf_nodup hd.bitNodup hi,
              bit_field fields 0 hd.bitNodup f ns n hfn hn, ?_⟩
            simp [List.getD_eq_getElem?_getD, w' i n true hi hv]
        cases hx : Dict.get? d f with
        | none => exact absurd hx g2'
        | some x =>
          refine ⟨x, rfl, ?_⟩
          rw [← g1', hx]
          simp

/-- A PandA with two bits and an unused one captured by one field, a third by another, and a position -/
def bits0 : Key := ⟨⟨"PCAP", "BITS0"⟩, some .capture⟩
def bits1 : Key := ⟨⟨"PCAP", "BITS1"⟩, some .capture⟩
def ttl1 : Name := ⟨"TTLIN1", "VAL"⟩
def ttl2 : Name := ⟨"TTLIN2", "VAL"⟩
def ttl3 : Name := ⟨"TTLIN3", "VAL"⟩
def enc : Name := ⟨"INENC1", "VAL"⟩
def fields : Dict Key (List (Option Name)) := [(bits0, [some ttl1, none, some ttl2]), (bits1, [some ttl3])]

theorem distinct : Distinct fields [enc] :=
  ⟨by decide +kernel, by decide +kernel, by decide +kernel, by decide +kernel, by decide +kernel, by decide +kernel⟩

/-- Reports in a strange order: the scale before the raw position -/
def history : List (List (Key × Raw)) :=
  [[(⟨enc, some .scale⟩, { float := some (1/2) }), (⟨ttl2, none⟩, { bool := true })],
   [(⟨enc, none⟩, { int := some 7 }), (bits0, { text := "Value" }), (⟨enc, some .offset⟩, { float := some 3 })]]

/-- The theorems for polls apply to a case with both tables changed -/
example : ∃ s, after (createBusses fields [enc]) history = some s ∧ s.positions.value = [13/2] ∧
    s.bits.value = [false, true, false] ∧ s.bits.capture = [true, true, false] ∧
    rawOf enc history.flatten = 7 ∧ scaleOf enc history.flatten = 1/2 ∧ offsetOf enc history.flatten = 3 := by
  refine ⟨_, rfl, ?_⟩
  decide +kernel

/-- C41, the negation of the full statement: when a user writes a scale, the value in the table stays as it was, until
the PandA reports something for that position. -/
theorem written_scale_stale : ∃ (s s' : State) (sent : List (Key × Sent)), Reachable fields [enc] s ∧
    setPositions s [⟨enc, "", 2, 0, .no⟩] (fun _ => true) = (s', sent, none) ∧
    s'.posValues = [7] ∧ s'.positions.scale = [2] ∧ s'.positions.offset = [0] ∧ s'.positions.value = [7] :=
  ⟨_, _, _, .step (.poll [(⟨enc, none⟩, { int := some 7 })]) .start, rfl, by decide +kernel⟩

/-- C59: a case that meets the hypotheses -/
example : Reachable fields [enc] (apply (createBusses fields [enc]) (.poll [(⟨enc, none⟩, { int := some 7 })])) ∧
    (setPositions (apply (createBusses fields [enc]) (.poll [(⟨enc, none⟩, { int := some 7 })]))
      [⟨enc, "mm", 2, 0, .mean⟩, ⟨ttl1, "", 1, 0, .no⟩] (fun _ => true)).2 =
      ([(⟨enc, some .capture⟩, .cap .mean), (⟨enc, some .scale⟩, .num 2), (⟨enc, some .units⟩, .text "mm")], none) :=
  ⟨.step _ .start, by decide +kernel⟩

/-- C60: a case that meets the hypotheses of `capture_written_partial` -/
example : ∃ s' sent, setBits (createBusses fields [enc]) [(ttl3, false), (ttl2, true), (ttl1, false)] true = (s', sent, none) ∧
    s'.bits.capture = [false, true, false] ∧ sent = [(bits1, false), (bits0, true)] := ⟨_, _, rfl, by decide +kernel⟩

/-- C60, the negation of the full statement: a table that leaves out a bit that is captured makes the PandA stop
capturing the field, while the table goes on to show the bit as captured. -/
theorem left_out_bit_lost : ∃ (s s' : State) (sent : Dict Key Bool), Reachable fields [enc] s ∧
    setBits s [(ttl1, false)] true = (s', sent, none) ∧ s'.bits.name = [ttl1, ttl2, ttl3] ∧
    s'.bits.capture = [false, true, false] ∧ sent = [(bits0, false)] :=
  ⟨_, _, _, .step (.poll [(bits0, { text := "Value" })]) .start, rfl, by decide +kernel⟩

/-- C60: a row with a name that is not a bit is ignored if nothing else changes, but makes the write fail if
something does. -/
theorem other_row_fails : (setBits (createBusses fields [enc]) [(enc, true)] true).2 = ([], none) ∧
    (setBits (createBusses fields [enc]) [(enc, true), (ttl1, true)] true).2 = ([], some .key) := by decide +kernel

end Verif.Props.PandABits
