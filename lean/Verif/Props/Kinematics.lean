import Verif.Spec.Kinematics
import Verif.Props.PmacUtil
/-!
C95: "The files made for working out where the compound motors were lead to the data of the right motors, announce
only what they hold, and apply no scaling twice."
-/
set_option linter.unusedVariables false
set_option synthInstance.maxSize 2000
set_option synthInstance.maxHeartbeats 200000
namespace Verif.Props.Kinematics
open Verif Verif.PmacUtil Verif.Kinematics Verif.Spec.Kinematics Verif.Props.PmacUtil

/-! ### the parts of configure -/

theorem onConfigure_ok {p p' : Part} {layout pos axes ann} (h : onConfigure p layout pos axes = .ok (p', ann)) :
    ∃ mapping c, csAxisMapping axes (layout.map (fun r => (r.name, r.motor))) = .ok mapping ∧
      (p.port = some c ∨ p.port = none ∧ ((Dict.values mapping).head?).map MotorInfo.csPort = some c) ∧ c ≠ [] ∧
      p'.port = some c ∧ p'.numbers = axisNumbers c layout [] ∧ p'.pos = pos ∧ p'.q = qLoop mapping [] ∧
      posLoop pos p'.numbers true = .ok p'.minMax ∧
      ann = (Dict.values p'.q).flatMap (fun a => (kinds p'.minMax).map (fun k => (a, k))) := by
  unfold onConfigure at h
  cases hm : csAxisMapping axes (layout.map (fun r => (r.name, r.motor))) with
  | error e => rw [hm] at h; cases h
  | ok mapping =>
    rw [hm] at h
    dsimp only at h
    cases hp : p.port with
    | some c =>
      rw [hp] at h
      dsimp only at h
      by_cases hc : c = []
      · rw [if_pos hc] at h; cases h
      · rw [if_neg hc] at h
        cases hl : posLoop pos (axisNumbers c layout []) true with
        | error e => rw [hl] at h; cases h
        | ok mm =>
          rw [hl] at h
          cases h
          exact ⟨mapping, c, rfl, .inl rfl, hc, rfl, rfl, rfl, rfl, hl, rfl⟩
    | none =>
      rw [hp] at h
      dsimp only at h
      cases hv : ((Dict.values mapping).head?).map MotorInfo.csPort with
      | none => rw [hv] at h; cases h
      | some c =>
        rw [hv] at h
        dsimp only at h
        by_cases hc : c = []
        · rw [if_pos hc] at h; cases h
        · rw [if_neg hc] at h
          cases hl : posLoop pos (axisNumbers c layout []) true with
          | error e => rw [hl] at h; cases h
          | ok mm =>
            rw [hl] at h
            cases h
            exact ⟨mapping, c, rfl, .inr ⟨rfl, hv⟩, hc, rfl, rfl, rfl, rfl, hl, rfl⟩

theorem onPostConfigure_ok {p : Part} {infos vars f} (h : onPostConfigure p infos vars = .ok f) :
    ∃ pvars, varLoop infos p.numbers p.minMax = .ok (pvars, f.minMax) ∧ parseVars p vars [] = .ok f.vars ∧
      linkVars pvars [] = .ok f.links ∧ vdsKinds p.q (kinds f.minMax) [] = .ok f.vds := by
  unfold onPostConfigure at h
  cases h1 : varLoop infos p.numbers p.minMax with
  | error e => rw [h1] at h; cases h
  | ok r =>
    obtain ⟨pvars, mm⟩ := r
    rw [h1] at h
    dsimp only at h
    cases h2 : parseVars p vars [] with
    | error e => rw [h2] at h; cases h
    | ok d =>
      rw [h2] at h
      dsimp only at h
      cases h3 : linkVars pvars [] with
      | error e => rw [h3] at h; cases h
      | ok links =>
        rw [h3] at h
        dsimp only at h
        cases h4 : vdsKinds p.q (kinds mm) [] with
        | error e => rw [h4] at h; cases h
        | ok v =>
          rw [h4] at h
          cases h
          exact ⟨pvars, rfl, rfl, h3, h4⟩

/-! ### the compound motors -/

theorem idx_letter {a : Text} {k : Nat} (h : csAxisNames.idxOf? a = some k) : ∃ c, a = [c] ∧ letters[k]? = some c := by
  have : csAxisNames[k]? = some a := by
    unfold List.idxOf? at h
    rw [List.findIdx?_eq_some_iff_getElem] at h
    obtain ⟨hk, h1, _⟩ := h
    rw [List.getElem?_eq_getElem hk]
    exact congrArg some (eq_of_beq h1)
  unfold csAxisNames at this
  rw [List.getElem?_map] at this
  obtain ⟨c, h1, h2⟩ := Option.map_eq_some_iff.1 this
  exact ⟨c, h2.symm, h1⟩

theorem idx_of_mem {a : Text} (h : a ∈ csAxisNames) : ∃ k, csAxisNames.idxOf? a = some k := by
  cases hi : csAxisNames.idxOf? a with
  | some k => exact ⟨k, rfl⟩
  | none => exact absurd h (List.idxOf?_eq_none_iff.1 hi)

theorem idx_inj {a b : Text} {k : Nat} (h : csAxisNames.idxOf? a = some k) (h' : csAxisNames.idxOf? b = some k) : a = b := by
  obtain ⟨c, e1, e2⟩ := idx_letter h
  obtain ⟨d, e3, e4⟩ := idx_letter h'
  rw [e2] at e4
  rw [e1, e3, Option.some.inj e4]

theorem qLoop_other (l : List (String × MotorInfo)) : ∀ (d : Dict Nat String) k,
    (∀ x ∈ l, csAxisNames.idxOf? x.2.csAxis ≠ some k) → Dict.get? (qLoop l d) (k + 1) = Dict.get? d (k + 1) := by
  induction l with
  | nil => intro d k _; rfl
  | cons x l ih =>
    intro d k h
    obtain ⟨n, i⟩ := x
    unfold qLoop
    cases hi : csAxisNames.idxOf? i.csAxis with
    | none => exact ih d k (fun x hx => h x (List.mem_cons_of_mem _ hx))
    | some j =>
      dsimp only
      rw [ih _ k (fun x hx => h x (List.mem_cons_of_mem _ hx)), Dict.get?_set_ne]
      intro e
      have : j = k := by omega
      exact h (n, i) (List.mem_cons_self ..) (by rw [← this]; exact hi)

theorem qLoop_get (l : List (String × MotorInfo)) : ∀ (d : Dict Nat String), (l.map (fun x => x.2.csAxis)).Nodup →
    ∀ x ∈ l, ∀ k, csAxisNames.idxOf? x.2.csAxis = some k → Dict.get? (qLoop l d) (k + 1) = some x.1 := by
  induction l with
  | nil => intro d _ x hx; cases hx
  | cons y l ih =>
    intro d hn x hx k hk
    obtain ⟨n, i⟩ := y
    rw [List.map_cons, List.nodup_cons] at hn
    rcases List.mem_cons.1 hx with e | hx
    · subst e
      unfold qLoop
      rw [hk]
      dsimp only
      rw [qLoop_other, Dict.get?_set_self]
      intro z hz e
      exact hn.1 (List.mem_map.2 ⟨z, hz, idx_inj e hk⟩)
    · unfold qLoop
      split
      · exact ih _ hn.2 x hx k hk
      · exact ih _ hn.2 x hx k hk

theorem qLoop_mem (l : List (String × MotorInfo)) : ∀ (d : Dict Nat String), (Dict.keys d).Nodup →
    (Dict.keys (qLoop l d)).Nodup ∧ ∀ k n, (k, n) ∈ qLoop l d → (k, n) ∈ d ∨ ∃ x ∈ l, x.1 = n ∧
      ∃ j, k = j + 1 ∧ csAxisNames.idxOf? x.2.csAxis = some j := by
  induction l with
  | nil => intro d hd; exact ⟨hd, fun k n h => .inl h⟩
  | cons y l ih =>
    intro d hd
    obtain ⟨n, i⟩ := y
    unfold qLoop
    cases hi : csAxisNames.idxOf? i.csAxis with
    | none =>
      obtain ⟨h1, h2⟩ := ih d hd
      refine ⟨h1, fun k m h => ?_⟩
      rcases h2 k m h with h | ⟨x, hx, h⟩
      · exact .inl h
      · exact .inr ⟨x, List.mem_cons_of_mem _ hx, h⟩
    | some j =>
      obtain ⟨h1, h2⟩ := ih (Dict.set d (j + 1) n) (Dict.nodup_set hd _ _)
      refine ⟨h1, fun k m h => ?_⟩
      rcases h2 k m h with h | ⟨x, hx, h⟩
      · rcases (Dict.mem_set_iff hd).1 h with h | h
        · cases h
          exact .inr ⟨(n, i), List.mem_cons_self .., rfl, j, rfl, hi⟩
        · exact .inl h.1
      · exact .inr ⟨x, List.mem_cons_of_mem _ hx, h⟩

theorem mapping_nodup {axes layout m} (h : csAxisMapping axes layout = .ok m) :
    (m.map (fun x => x.2.csAxis)).Nodup := by
  unfold csAxisMapping at h
  split at h
  · cases h
  · split at h
    · cases h
    · split at h
      · cases h
      · split at h
        · cases h
        · rename_i hn
          cases h
          have := (noRepeat_iff _).1 (Bool.eq_true_of_not_eq_false hn)
          unfold Dict.values at this
          rw [List.map_map] at this
          exact this

theorem vdsLoop_ok (q : Dict Nat String) (k : Kind) (n : Nat) : ∀ i f f', vdsLoop q k n i f = .ok f' →
    (∀ key v, Dict.get? f key = some v → Dict.get? f' key = some v) ∧
    ∀ j, i ≤ j → j < i + n → Dict.get? f' (qName q j, k) = some (k, j) := by
  induction n with
  | zero =>
    intro i f f' h
    cases h
    exact ⟨fun _ _ h => h, fun j h1 h2 => by omega⟩
  | succ n ih =>
    intro i f f' h
    unfold vdsLoop at h
    split at h
    · cases h
    · rename_i hm
      obtain ⟨h1, h2⟩ := ih _ _ _ h
      refine ⟨fun key v hk => h1 key v ?_, fun j hj1 hj2 => ?_⟩
      · rw [Dict.get?_set_ne]
        · exact hk
        · intro e
          subst e
          exact hm (by unfold Dict.mem; rw [hk]; rfl)
      · by_cases e : j = i
        · subst e
          exact h1 _ _ (Dict.get?_set_self _ _ _)
        · exact h2 j (by omega) (by omega)

theorem vdsKinds_ok (q : Dict Nat String) (ks : List Kind) : ∀ f f', vdsKinds q ks f = .ok f' →
    (∀ key v, Dict.get? f key = some v → Dict.get? f' key = some v) ∧
    ∀ k ∈ ks, ∀ j, j < 9 → Dict.get? f' (qName q j, k) = some (k, j) := by
  induction ks with
  | nil => intro f f' h; cases h; exact ⟨fun _ _ h => h, by simp⟩
  | cons k ks ih =>
    intro f f' h
    unfold vdsKinds at h
    cases h1 : vdsLoop q k 9 0 f with
    | error e => rw [h1] at h; cases h
    | ok g =>
      rw [h1] at h
      obtain ⟨a1, a2⟩ := vdsLoop_ok q k 9 0 f g h1
      obtain ⟨b1, b2⟩ := ih g f' h
      refine ⟨fun key v hk => b1 _ _ (a1 _ _ hk), fun k' hk' j hj => ?_⟩
      rcases List.mem_cons.1 hk' with e | e
      · subst e
        exact b1 _ _ (a2 j (Nat.zero_le _) (by omega))
      · exact b2 k' e j hj

theorem mem_kinds (mm : Bool) (k : Kind) : k ∈ kinds mm ↔ AKind mm k := by
  cases mm <;> cases k <;> simp [kinds, AKind]

theorem letters_lt {j : Nat} {c : Char} (h : letters[j]? = some c) : j < 9 := by
  have := (List.getElem?_eq_some_iff.1 h).1
  exact this

/-- **C95 (i)** For every motor of the scan the file leads, for each kind of data, to the row that belongs to the
letter of that motor's axis in the coordinate system. -/
theorem own_letter (p p' : Part) (layout : List Row) (pos : List Pos) (axes : List String) (ann infos vars f)
    (h : onConfigure p layout pos axes = .ok (p', ann)) (hf : onPostConfigure p' infos vars = .ok f) :
    ∀ n ∈ axes, ∃ r ∈ layout, r.name = n ∧ ∃ port c j, r.motor.cs = port ++ [',', c] ∧ ',' ∉ port ∧
      letters[j]? = some c ∧ ∀ k, AKind f.minMax k → Dict.get? f.vds (n, k) = some (k, j) := by
  intro n hn
  obtain ⟨mapping, c, hm, _, _, _, _, _, hq, _, _⟩ := onConfigure_ok h
  obtain ⟨pvars, _, _, _, hv⟩ := onPostConfigure_ok hf
  obtain ⟨a1, a2, a3, _, _⟩ := mapping_sound _ _ _ hm
  have hk := (a2 n).2 hn
  cases hg : Dict.get? mapping n with
  | none => exact absurd hk (Dict.get?_none_iff.1 hg)
  | some i =>
    obtain ⟨mo, hmo, ⟨u1, u2, u3, _⟩, _, _⟩ := a3 n i hg
    obtain ⟨r, hr, er⟩ := List.mem_map.1 hmo
    cases er
    obtain ⟨j, hj⟩ := idx_of_mem u3
    obtain ⟨ch, e1, e2⟩ := idx_letter hj
    refine ⟨r, hr, rfl, i.csPort, ch, j, by rw [u1, e1], u2, e2, fun k hk => ?_⟩
    have hq' := qLoop_get mapping [] (mapping_nodup hm) _ (Dict.get?_mem hg) j hj
    have := (vdsKinds_ok _ _ _ _ hv).2 k ((mem_kinds _ _).2 hk) j (letters_lt e2)
    unfold qName at this
    rw [hq, hq'] at this
    exact this

theorem values_q {axes layout m} (h : csAxisMapping axes layout = .ok m) (a : String) :
    a ∈ Dict.values (qLoop m []) ↔ a ∈ axes := by
  obtain ⟨a1, a2, a3, _, _⟩ := mapping_sound _ _ _ h
  rw [← a2]
  unfold Dict.values Dict.keys
  constructor
  · intro hm
    obtain ⟨⟨k, n⟩, hx, e⟩ := List.mem_map.1 hm
    rcases (qLoop_mem m [] List.nodup_nil).2 k n hx with h | ⟨x, hx, e', _⟩
    · cases h
    · exact List.mem_map.2 ⟨x, hx, by rw [e', ← e]⟩
  · intro hm
    obtain ⟨⟨n, i⟩, hx, e⟩ := List.mem_map.1 hm
    have hg := Dict.get?_of_mem_nodup a1 hx
    obtain ⟨mo, _, ⟨_, _, u3, _⟩, _, _⟩ := a3 n i hg
    obtain ⟨j, hj⟩ := idx_of_mem u3
    have := Dict.get?_mem (qLoop_get m [] (mapping_nodup h) _ hx j hj)
    exact List.mem_map.2 ⟨_, this, e⟩

/-- **C95 (ii)** Announced are the motors of the scan, each with its kinds of data. -/
theorem announced_iff (p p' : Part) (layout : List Row) (pos : List Pos) (axes : List String) (ann)
    (h : onConfigure p layout pos axes = .ok (p', ann)) (n : String) (k : Kind) :
    (n, k) ∈ ann ↔ n ∈ axes ∧ AKind p'.minMax k := by
  obtain ⟨mapping, c, hm, _, _, _, _, _, hq, _, ha⟩ := onConfigure_ok h
  rw [ha, hq, List.mem_flatMap]
  constructor
  · rintro ⟨a, h1, h2⟩
    obtain ⟨k', h3, e⟩ := List.mem_map.1 h2
    cases e
    exact ⟨(values_q hm n).1 h1, (mem_kinds _ _).1 h3⟩
  · rintro ⟨h1, h2⟩
    exact ⟨n, (values_q hm n).2 h1, List.mem_map.2 ⟨k, (mem_kinds _ _).2 h2, rfl⟩⟩

/-! ### least and greatest -/

theorem findPos_minMax (s : String) (pos : List Pos) : ∀ ind i mm,
    (findPos s ind pos i mm).2 = true ↔ mm = true ∧ ∀ p ∈ pos, p.name = s → p.capture ≠ .mean ∧ p.capture ≠ .value := by
  induction pos with
  | nil => intro ind i mm; unfold findPos; simp
  | cons p ps ih =>
    intro ind i mm
    unfold findPos
    by_cases hn : p.name = s
    · rw [if_pos hn]
      cases hc : p.capture <;> simp [ih, hc, hn]
    · rw [if_neg hn, ih]
      simp [hn]

theorem posLoop_minMax (pos : List Pos) (l : List (String × Nat)) : ∀ mm mm', posLoop pos l mm = .ok mm' →
    (mm' = true ↔ mm = true ∧ ∀ x ∈ l, ∀ p ∈ pos, p.name = x.1 → p.capture ≠ .mean ∧ p.capture ≠ .value) := by
  induction l with
  | nil => intro mm mm' h; cases h; simp
  | cons x l ih =>
    intro mm mm' h
    obtain ⟨n, k⟩ := x
    unfold posLoop at h
    split at h
    · rename_i j mm1 he
      rw [ih _ _ h]
      have := findPos_minMax n pos 0 none mm
      rw [he] at this
      dsimp only at this
      rw [this, List.forall_mem_cons, and_assoc]
    · cases h

theorem findInfo_some {s : String} {k : Kind} {infos : List Info} {i : Info} (h : findInfo s k infos = some i) :
    i ∈ infos ∧ Of s i ∧ i.kind = some k := by
  unfold findInfo at h
  have := List.mem_filter.1 (List.mem_of_getLast? h)
  obtain ⟨h1, h2⟩ := this
  rw [Bool.and_eq_true] at h2
  refine ⟨h1, ?_, of_decide_eq_true h2.2⟩
  obtain ⟨t, ht⟩ := List.isPrefixOf_iff_prefix.1 h2.1
  refine ⟨t, ?_⟩
  rw [← ht]
  simp

theorem findInfo_isSome (s : String) (k : Kind) (infos : List Info) :
    (∃ i, findInfo s k infos = some i) ↔ ∃ i ∈ infos, Of s i ∧ i.kind = some k := by
  constructor
  · rintro ⟨i, h⟩
    exact ⟨i, findInfo_some h⟩
  · rintro ⟨i, h1, ⟨t, ht⟩, h3⟩
    have : i ∈ infos.filter (fun i => (s ++ ".").toList.isPrefixOf i.name.toList && decide (i.kind = some k)) := by
      refine List.mem_filter.2 ⟨h1, ?_⟩
      rw [Bool.and_eq_true]
      refine ⟨List.isPrefixOf_iff_prefix.2 ⟨t, ?_⟩, decide_eq_true h3⟩
      rw [ht]; simp
    cases hl : (infos.filter (fun i => (s ++ ".").toList.isPrefixOf i.name.toList && decide (i.kind = some k))).getLast? with
    | none => rw [List.getLast?_eq_none_iff.1 hl] at this; cases this
    | some j => exact ⟨j, hl⟩

theorem varLoop_minMax (infos : List Info) (l : List (String × Nat)) : ∀ mm vs mm', varLoop infos l mm = .ok (vs, mm') →
    (mm' = true ↔ mm = true ∧ ∀ x ∈ l, ∀ k, ∃ i ∈ infos, Of x.1 i ∧ i.kind = some k) ∧
    ∀ x ∈ l, ∃ i, findInfo x.1 .mean infos = some i ∧ pvar x.2 .mean i ∈ vs := by
  induction l with
  | nil => intro mm vs mm' h; cases h; simp
  | cons x l ih =>
    intro mm vs mm' h
    obtain ⟨s, n⟩ := x
    unfold varLoop at h
    cases hv : findInfo s .mean infos with
    | none => rw [hv] at h; cases h
    | some v =>
      rw [hv] at h
      dsimp only at h
      split at h
      · rename_i a b ha hb
        cases hr : varLoop infos l mm with
        | error e => rw [hr] at h; cases h
        | ok r =>
          obtain ⟨vs', mm1⟩ := r
          rw [hr] at h
          cases h
          obtain ⟨h1, h2⟩ := ih _ _ _ hr
          refine ⟨?_, ?_⟩
          · rw [h1, List.forall_mem_cons]
            constructor
            · rintro ⟨e, h⟩
              refine ⟨e, fun k => ?_, h⟩
              cases k
              · exact (findInfo_isSome ..).1 ⟨_, hv⟩
              · exact (findInfo_isSome ..).1 ⟨_, ha⟩
              · exact (findInfo_isSome ..).1 ⟨_, hb⟩
            · rintro ⟨e, _, h⟩
              exact ⟨e, h⟩
          · intro x hx
            rcases List.mem_cons.1 hx with e | hx
            · subst e
              exact ⟨v, hv, List.mem_cons_self ..⟩
            · obtain ⟨i, h3, h4⟩ := h2 x hx
              exact ⟨i, h3, by simp [h4]⟩
      · rename_i hne
        cases hr : varLoop infos l false with
        | error e => rw [hr] at h; cases h
        | ok r =>
          obtain ⟨vs', mm1⟩ := r
          rw [hr] at h
          cases h
          obtain ⟨h1, h2⟩ := ih _ _ _ hr
          refine ⟨?_, ?_⟩
          · rw [h1, List.forall_mem_cons]
            constructor
            · rintro ⟨e, _⟩; cases e
            · rintro ⟨_, h, _⟩
              obtain ⟨a, ha⟩ := (findInfo_isSome s .min infos).2 (h .min)
              obtain ⟨b, hb⟩ := (findInfo_isSome s .max infos).2 (h .max)
              exact absurd hb (hne a b ha)
          · intro x hx
            rcases List.mem_cons.1 hx with e | hx
            · subst e
              exact ⟨v, hv, List.mem_cons_self ..⟩
            · obtain ⟨i, h3, h4⟩ := h2 x hx
              exact ⟨i, h3, List.mem_cons_of_mem _ h4⟩

/-- **C95 (iii)** What is announced is there, if for each raw motor the least and the greatest are there too. -/
theorem announced_there_partial (p p' : Part) (layout : List Row) (pos : List Pos) (axes : List String) (ann infos vars f)
    (h : onConfigure p layout pos axes = .ok (p', ann)) (hf : onPostConfigure p' infos vars = .ok f)
    (hi : ∀ x ∈ p'.numbers, ∀ k, ∃ i ∈ infos, Of x.1 i ∧ i.kind = some k) :
    ∀ x ∈ ann, ∃ j, Dict.get? f.vds x = some (x.2, j) := by
  rintro ⟨n, k⟩ hx
  obtain ⟨h1, h2⟩ := (announced_iff p p' layout pos axes ann h n k).1 hx
  obtain ⟨r, _, _, port, c, j, _, _, _, h3⟩ := own_letter p p' layout pos axes ann infos vars f h hf n h1
  refine ⟨j, h3 k ?_⟩
  rcases h2 with h2 | h2
  · exact .inl h2
  · obtain ⟨pvars, hv, _⟩ := onPostConfigure_ok hf
    exact .inr ((varLoop_minMax _ _ _ _ _ hv).1.2 ⟨h2, hi⟩)

/-- **C95 (iv)** Least and greatest are used exactly when no raw motor's position is captured as a mean or a single
value and all three kinds of data of each raw motor are produced. -/
theorem minMax_iff (p p' : Part) (layout : List Row) (pos : List Pos) (axes : List String) (ann infos vars f)
    (h : onConfigure p layout pos axes = .ok (p', ann)) (hf : onPostConfigure p' infos vars = .ok f) :
    f.minMax = true ↔
      (∀ x ∈ p'.numbers, ∀ r ∈ pos, r.name = x.1 → r.capture ≠ .mean ∧ r.capture ≠ .value) ∧
      ∀ x ∈ p'.numbers, ∀ k, ∃ i ∈ infos, Of x.1 i ∧ i.kind = some k := by
  obtain ⟨mapping, c, _, _, _, _, _, _, _, hl, _⟩ := onConfigure_ok h
  obtain ⟨pvars, hv, _⟩ := onPostConfigure_ok hf
  rw [(varLoop_minMax _ _ _ _ _ hv).1, posLoop_minMax _ _ _ _ hl]
  simp

/-! ### the raw motors -/

theorem linkVars_ok (vs : List PVar) : ∀ d d', linkVars vs d = .ok d' →
    (∀ key v, Dict.get? d key = some v → Dict.get? d' key = some v) ∧
    ∀ v ∈ vs, Dict.get? d' (v.number, v.kind) = some (v.file, v.path) := by
  induction vs with
  | nil => intro d d' h; cases h; exact ⟨fun _ _ h => h, by simp⟩
  | cons v vs ih =>
    intro d d' h
    unfold linkVars at h
    split at h
    · cases h
    · rename_i hm
      obtain ⟨h1, h2⟩ := ih _ _ h
      refine ⟨fun key w hk => h1 key w ?_, fun w hw => ?_⟩
      · rw [Dict.get?_set_ne]
        · exact hk
        · intro e
          subst e
          exact hm (by unfold Dict.mem; rw [hk]; rfl)
      · rcases List.mem_cons.1 hw with e | e
        · subst e
          exact h1 _ _ (Dict.get?_set_self _ _ _)
        · exact h2 w e

theorem varLoop_mem (infos : List Info) (l : List (String × Nat)) : ∀ mm vs mm', varLoop infos l mm = .ok (vs, mm') →
    ((∀ v ∈ vs, ∃ x ∈ l, v.number = x.2 ∧ ∃ i, findInfo x.1 v.kind infos = some i ∧ v = pvar x.2 v.kind i) ∧
    (mm' = true → ∀ x ∈ l, ∀ k, ∃ i, findInfo x.1 k infos = some i ∧ pvar x.2 k i ∈ vs)) := by
  induction l with
  | nil => intro mm vs mm' h; cases h; simp
  | cons x l ih =>
    intro mm vs mm' h
    have hmm := (varLoop_minMax _ _ _ _ _ h).1
    obtain ⟨s, n⟩ := x
    unfold varLoop at h
    cases hv : findInfo s .mean infos with
    | none => rw [hv] at h; cases h
    | some v =>
      rw [hv] at h
      dsimp only at h
      split at h
      · rename_i a b ha hb
        cases hr : varLoop infos l mm with
        | error e => rw [hr] at h; cases h
        | ok r =>
          obtain ⟨vs', mm1⟩ := r
          rw [hr] at h
          cases h
          obtain ⟨h1, h2⟩ := ih _ _ _ hr
          refine ⟨?_, ?_⟩
          · intro w hw
            simp only [List.mem_cons] at hw
            rcases hw with e | e | e | e
            · subst e; exact ⟨(s, n), List.mem_cons_self .., rfl, v, hv, rfl⟩
            · subst e; exact ⟨(s, n), List.mem_cons_self .., rfl, a, ha, rfl⟩
            · subst e; exact ⟨(s, n), List.mem_cons_self .., rfl, b, hb, rfl⟩
            · obtain ⟨x, hx, h⟩ := h1 w e
              exact ⟨x, List.mem_cons_of_mem _ hx, h⟩
          · intro e x hx k
            rcases List.mem_cons.1 hx with e' | hx
            · subst e'
              cases k
              · exact ⟨v, hv, by simp⟩
              · exact ⟨a, ha, by simp⟩
              · exact ⟨b, hb, by simp⟩
            · obtain ⟨i, h3, h4⟩ := h2 e x hx k
              exact ⟨i, h3, by simp [h4]⟩
      · rename_i hne
        cases hr : varLoop infos l false with
        | error e => rw [hr] at h; cases h
        | ok r =>
          obtain ⟨vs', mm1⟩ := r
          rw [hr] at h
          cases h
          obtain ⟨h1, h2⟩ := ih _ _ _ hr
          refine ⟨?_, ?_⟩
          · intro w hw
            rcases List.mem_cons.1 hw with e | e
            · subst e; exact ⟨(s, n), List.mem_cons_self .., rfl, v, hv, rfl⟩
            · obtain ⟨x, hx, h⟩ := h1 w e
              exact ⟨x, List.mem_cons_of_mem _ hx, h⟩
          · intro e
            have := ((varLoop_minMax _ _ _ _ _ hr).1.1 e).1
            cases this

/-- **C95 (v)** Each raw motor of the coordinate system is linked, under its number, to data produced for a position
of its name: always the mean or value, and least and greatest when they are used. -/
theorem own_data (p : Part) (infos vars f) (hf : onPostConfigure p infos vars = .ok f) :
    ∀ x ∈ p.numbers, ∀ k, AKind f.minMax k →
      ∃ i ∈ infos, Of x.1 i ∧ i.kind = some k ∧ Dict.get? f.links (x.2, k) = some (i.file, i.path) := by
  intro x hx k hk
  obtain ⟨pvars, hv, _, hl, _⟩ := onPostConfigure_ok hf
  have hlink := (linkVars_ok _ _ _ hl).2
  rcases hk with e | e
  · subst e
    obtain ⟨i, h1, h2⟩ := (varLoop_minMax _ _ _ _ _ hv).2 x hx
    obtain ⟨h3, h4, h5⟩ := findInfo_some h1
    exact ⟨i, h3, h4, h5, hlink _ h2⟩
  · obtain ⟨i, h1, h2⟩ := (varLoop_mem _ _ _ _ _ hv).2 e x hx k
    obtain ⟨h3, h4, h5⟩ := findInfo_some h1
    exact ⟨i, h3, h4, h5, hlink _ h2⟩

/-- names without a dot in them are told apart by what comes before the dot -/
theorem of_unique (s s' : String) (i : Info) (hs : '.' ∉ s.toList) (hs' : '.' ∉ s'.toList) (h : Of s i) (h' : Of s' i) :
    s = s' := by
  obtain ⟨t, e⟩ := h
  obtain ⟨t', e'⟩ := h'
  rw [e] at e'
  have key : ∀ (a b : List Char), '.' ∉ a → '.' ∉ b → a ++ '.' :: t = b ++ '.' :: t' → a = b := by
    intro a
    induction a with
    | nil =>
      intro b _ hb h
      cases b with
      | nil => rfl
      | cons c b => exact absurd (List.cons.inj h).1 (fun e => hb (by rw [e]; exact List.mem_cons_self ..))
    | cons c a ih =>
      intro b ha hb h
      cases b with
      | nil => exact absurd (List.cons.inj h).1 (fun e => ha (by rw [e]; exact List.mem_cons_self ..))
      | cons d b =>
        obtain ⟨e1, e2⟩ := List.cons.inj h
        rw [e1, ih b (fun h => ha (List.mem_cons_of_mem _ h)) (fun h => hb (List.mem_cons_of_mem _ h)) e2]
  have := key _ _ hs hs' e'
  exact String.toList_inj.1 this

theorem axisNumbers_keys (port : Text) (l : List Row) : ∀ d, (Dict.keys d).Nodup →
    (Dict.keys (axisNumbers port l d)).Nodup ∧ ∀ n k, (n, k) ∈ axisNumbers port l d → (n, k) ∈ d ∨
      ∃ r ∈ l, r.name = n ∧ r.number = some k ∧ r.motor.cs ≠ [] ∧ portOf r.motor.cs = port := by
  induction l with
  | nil => intro d h; exact ⟨h, fun n k h => .inl h⟩
  | cons r l ih =>
    intro d hd
    have up : ∀ n k (d : Dict String Nat), ((n, k) ∈ d ∨ ∃ r ∈ l, r.name = n ∧ r.number = some k ∧ r.motor.cs ≠ [] ∧ portOf r.motor.cs = port) →
        ((n, k) ∈ d ∨ ∃ r' ∈ r :: l, r'.name = n ∧ r'.number = some k ∧ r'.motor.cs ≠ [] ∧ portOf r'.motor.cs = port) := by
      rintro n k d (h | ⟨r', hr, h⟩)
      · exact .inl h
      · exact .inr ⟨r', List.mem_cons_of_mem _ hr, h⟩
    unfold axisNumbers
    cases hn : r.number with
    | none =>
      obtain ⟨h1, h2⟩ := ih d hd
      exact ⟨h1, fun n k h => up n k d (h2 n k h)⟩
    | some j =>
      dsimp only
      by_cases hc : r.motor.cs ≠ [] ∧ portOf r.motor.cs = port
      · rw [if_pos hc]
        obtain ⟨h1, h2⟩ := ih _ (Dict.nodup_set hd r.name j)
        refine ⟨h1, fun n k h => ?_⟩
        rcases up n k _ (h2 n k h) with h | h
        · rcases (Dict.mem_set_iff hd).1 h with h | h
          · cases h
            exact .inr ⟨r, List.mem_cons_self .., rfl, hn, hc.1, hc.2⟩
          · exact .inl h.1
        · exact .inr h
      · rw [if_neg hc]
        obtain ⟨h1, h2⟩ := ih d hd
        exact ⟨h1, fun n k h => up n k d (h2 n k h)⟩

theorem axisNumbers_has (port : Text) (l : List Row) : ∀ d n, (n ∈ Dict.keys d ∨
      ∃ r ∈ l, r.name = n ∧ (∃ k, r.number = some k) ∧ r.motor.cs ≠ [] ∧ portOf r.motor.cs = port) →
    n ∈ Dict.keys (axisNumbers port l d) := by
  induction l with
  | nil =>
    rintro d n (h | ⟨r, hr, _⟩)
    · exact h
    · cases hr
  | cons r l ih =>
    intro d n h
    unfold axisNumbers
    cases hn : r.number with
    | none =>
      refine ih d n ?_
      rcases h with h | ⟨r', hr, e, ⟨k, hk⟩, h⟩
      · exact .inl h
      · rcases List.mem_cons.1 hr with e' | hr
        · subst e'; rw [hn] at hk; cases hk
        · exact .inr ⟨r', hr, e, ⟨k, hk⟩, h⟩
    | some j =>
      dsimp only
      by_cases hc : r.motor.cs ≠ [] ∧ portOf r.motor.cs = port
      · rw [if_pos hc]
        refine ih _ n ?_
        have hset : ∀ m, m ∈ Dict.keys d ∨ m = r.name → m ∈ Dict.keys (Dict.set d r.name j) := by
          intro m hm
          rw [← Dict.mem_iff]
          unfold Dict.mem
          by_cases e : r.name = m
          · subst e; rw [Dict.get?_set_self]; rfl
          · rw [Dict.get?_set_ne _ _ e]
            rcases hm with hm | hm
            · exact Dict.mem_iff.2 hm
            · exact absurd hm.symm e
        rcases h with h | ⟨r', hr, e, h⟩
        · exact .inl (hset n (.inl h))
        · rcases List.mem_cons.1 hr with e' | hr
          · subst e'; exact .inl (hset n (.inr e.symm))
          · exact .inr ⟨r', hr, e, h⟩
      · rw [if_neg hc]
        refine ih d n ?_
        rcases h with h | ⟨r', hr, e, h1, h2⟩
        · exact .inl h
        · rcases List.mem_cons.1 hr with e' | hr
          · subst e'; exact absurd h2 hc
          · exact .inr ⟨r', hr, e, h1, h2⟩

theorem portOf_spec (port rest : Text) (h : ',' ∉ port) : portOf (port ++ ',' :: rest) = port := by
  unfold portOf
  induction port with
  | nil => rfl
  | cons c port ih =>
    have hc : c ≠ ',' := fun e => h (by rw [e]; exact List.mem_cons_self ..)
    rw [List.cons_append, List.takeWhile_cons, if_pos (decide_eq_true hc), ih (fun h' => h (List.mem_cons_of_mem _ h'))]

/-- **C95 (vi)** For a part that has not been told a coordinate system and has not been configured before, the raw
motors are those of the coordinate system all motors of the scan are in. -/
theorem raw_of_scan_partial (p p' : Part) (layout : List Row) (pos : List Pos) (axes : List String) (ann)
    (h : onConfigure p layout pos axes = .ok (p', ann)) (hp : p.port = none) :
    ∃ port, ',' ∉ port ∧ (∀ n ∈ axes, ∃ r ∈ layout, r.name = n ∧ ∃ c, r.motor.cs = port ++ [',', c]) ∧
      (∀ n k, (n, k) ∈ p'.numbers → ∃ r ∈ layout, r.name = n ∧ r.number = some k ∧ portOf r.motor.cs = port) ∧
      ∀ r ∈ layout, ∀ k, r.number = some k → portOf r.motor.cs = port → r.name ∈ Dict.keys p'.numbers := by
  obtain ⟨mapping, c, hm, hc, hne, _, hn, _, _, _, _⟩ := onConfigure_ok h
  obtain ⟨a1, a2, a3, a4, _⟩ := mapping_sound _ _ _ hm
  rcases hc with hc | ⟨_, hc⟩
  · rw [hp] at hc; cases hc
  · obtain ⟨i0, h0, e0⟩ := Option.map_eq_some_iff.1 hc
    obtain ⟨⟨n0, i0'⟩, hmem, e0'⟩ := List.mem_map.1 (List.mem_of_mem_head? h0)
    dsimp only at e0'
    subst e0'
    have hg0 := Dict.get?_of_mem_nodup a1 hmem
    obtain ⟨mo0, _, ⟨_, u0, _, _⟩, _, _⟩ := a3 n0 _ hg0
    refine ⟨c, by rw [← e0]; exact u0, fun n hn' => ?_, fun n k hnk => ?_, fun r hr k hk hport => ?_⟩
    · have hk := (a2 n).2 hn'
      cases hg : Dict.get? mapping n with
      | none => exact absurd hk (Dict.get?_none_iff.1 hg)
      | some i =>
        obtain ⟨mo, hmo, ⟨u1, u2, u3, _⟩, _, _⟩ := a3 n i hg
        obtain ⟨r, hr, er⟩ := List.mem_map.1 hmo
        cases er
        obtain ⟨j, hj⟩ := idx_of_mem u3
        obtain ⟨ch, e1, e2⟩ := idx_letter hj
        refine ⟨r, hr, rfl, ch, ?_⟩
        rw [u1, e1, ← e0, a4 _ _ _ _ hg hg0]
    · rw [hn] at hnk
      rcases (axisNumbers_keys c layout [] List.nodup_nil).2 n k hnk with h | ⟨r, hr, h1, h2, _, h3⟩
      · cases h
      · exact ⟨r, hr, h1, h2, h3⟩
    · rw [hn]
      refine axisNumbers_has c layout [] r.name (.inr ⟨r, hr, rfl, ⟨k, hk⟩, ?_, hport⟩)
      intro e
      rw [e] at hport
      exact hne hport.symm

/-! ### scaling -/

theorem mres_ne_offset (a b : Nat) : mresVar a ≠ offsetVar b := by
  intro h
  have := congrArg String.toList h
  unfold mresVar offsetVar at this
  simp at this

theorem find_scaled (pos : List Pos) (s : String) (p : Pos) (h : pos.find? (fun p => decide (p.name = s)) = some p) :
    (p.scale ≠ 1 ↔ Scaled pos s) ∧ (p.offset ≠ 0 ↔ Shifted pos s) := by
  obtain ⟨h1, l, r, e, hl⟩ := List.find?_eq_some_iff_append.1 h
  have h1 := of_decide_eq_true h1
  have hl' : ∀ x ∈ l, x.name ≠ s := fun x hx => by simpa using hl x hx
  have first : ∀ l' p' r', pos = l' ++ p' :: r' → (∀ x ∈ l', x.name ≠ s) → p'.name = s → p' = p := by
    intro l' p' r' e' hl'' hp'
    have : pos.find? (fun p => decide (p.name = s)) = some p' := by
      rw [List.find?_eq_some_iff_append]
      exact ⟨decide_eq_true hp', l', r', e', fun x hx => by simpa using hl'' x hx⟩
    rw [h] at this
    exact (Option.some.inj this).symm
  constructor
  · constructor
    · intro hs; exact ⟨l, p, r, e, hl', h1, hs⟩
    · rintro ⟨l', p', r', e', a, b, c⟩
      rw [← first l' p' r' e' a b]; exact c
  · constructor
    · intro hs; exact ⟨l, p, r, e, hl', h1, hs⟩
    · rintro ⟨l', p', r', e', a, b, c⟩
      rw [← first l' p' r' e' a b]; exact c

theorem checkMres_scale (pos : List Pos) (n : Nat) (l : List (String × Nat)) : ∀ v v', checkMres pos (mresVar n) l v = some v' →
    ((∃ x ∈ l, mresVar x.2 = mresVar n ∧ Scaled pos x.1) → v' = "1.0") ∧
    ((¬ ∃ x ∈ l, mresVar x.2 = mresVar n ∧ Scaled pos x.1) → v' = v) ∧ (v = "1.0" → v' = "1.0") := by
  induction l with
  | nil => intro v v' h; cases h; simp
  | cons x l ih =>
    intro v v' h
    obtain ⟨s, k⟩ := x
    unfold checkMres at h
    cases hf : pos.find? (fun p => decide (p.name = s)) with
    | none => rw [hf] at h; cases h
    | some p =>
      obtain ⟨hs, _⟩ := find_scaled pos s p hf
      rw [hf] at h
      dsimp only at h
      by_cases e : mresVar n = mresVar k
      · rw [if_pos e] at h
        obtain ⟨h1, h2, h3⟩ := ih _ _ h
        by_cases hsc : p.scale ≠ 1
        · rw [if_pos hsc] at h2 h3
          have : v' = "1.0" := h3 rfl
          exact ⟨fun _ => this, fun hno => absurd ⟨(s, k), List.mem_cons_self .., e.symm, hs.1 hsc⟩ hno, fun _ => this⟩
        · rw [if_neg hsc] at h2 h3
          refine ⟨?_, ?_, h3⟩
          · rintro ⟨x, hx, e1, e2⟩
            rcases List.mem_cons.1 hx with e' | hx
            · subst e'; exact absurd (hs.2 e2) hsc
            · exact h1 ⟨x, hx, e1, e2⟩
          · intro hno
            exact h2 (fun ⟨x, hx, h⟩ => hno ⟨x, List.mem_cons_of_mem _ hx, h⟩)
      · rw [if_neg e, if_neg (mres_ne_offset n k)] at h
        obtain ⟨h1, h2, h3⟩ := ih _ _ h
        refine ⟨?_, ?_, h3⟩
        · rintro ⟨x, hx, e1, e2⟩
          rcases List.mem_cons.1 hx with e' | hx
          · subst e'; exact absurd e1.symm e
          · exact h1 ⟨x, hx, e1, e2⟩
        · intro hno
          exact h2 (fun ⟨x, hx, h⟩ => hno ⟨x, List.mem_cons_of_mem _ hx, h⟩)

theorem checkMres_offset (pos : List Pos) (n : Nat) (l : List (String × Nat)) : ∀ v v', checkMres pos (offsetVar n) l v = some v' →
    ((∃ x ∈ l, offsetVar x.2 = offsetVar n ∧ Shifted pos x.1) → v' = "0.0") ∧
    ((¬ ∃ x ∈ l, offsetVar x.2 = offsetVar n ∧ Shifted pos x.1) → v' = v) ∧ (v = "0.0" → v' = "0.0") := by
  induction l with
  | nil => intro v v' h; cases h; simp
  | cons x l ih =>
    intro v v' h
    obtain ⟨s, k⟩ := x
    unfold checkMres at h
    cases hf : pos.find? (fun p => decide (p.name = s)) with
    | none => rw [hf] at h; cases h
    | some p =>
      obtain ⟨_, hs⟩ := find_scaled pos s p hf
      rw [hf] at h
      dsimp only at h
      rw [if_neg (fun e => mres_ne_offset k n e.symm)] at h
      by_cases e : offsetVar n = offsetVar k
      · rw [if_pos e] at h
        obtain ⟨h1, h2, h3⟩ := ih _ _ h
        by_cases hsc : p.offset ≠ 0
        · rw [if_pos hsc] at h2 h3
          have : v' = "0.0" := h3 rfl
          exact ⟨fun _ => this, fun hno => absurd ⟨(s, k), List.mem_cons_self .., e.symm, hs.1 hsc⟩ hno, fun _ => this⟩
        · rw [if_neg hsc] at h2 h3
          refine ⟨?_, ?_, h3⟩
          · rintro ⟨x, hx, e1, e2⟩
            rcases List.mem_cons.1 hx with e' | hx
            · subst e'; exact absurd (hs.2 e2) hsc
            · exact h1 ⟨x, hx, e1, e2⟩
          · intro hno
            exact h2 (fun ⟨x, hx, h⟩ => hno ⟨x, List.mem_cons_of_mem _ hx, h⟩)
      · rw [if_neg e] at h
        obtain ⟨h1, h2, h3⟩ := ih _ _ h
        refine ⟨?_, ?_, h3⟩
        · rintro ⟨x, hx, e1, e2⟩
          rcases List.mem_cons.1 hx with e' | hx
          · subst e'; exact absurd e1.symm e
          · exact h1 ⟨x, hx, e1, e2⟩
        · intro hno
          exact h2 (fun ⟨x, hx, h⟩ => hno ⟨x, List.mem_cons_of_mem _ hx, h⟩)

theorem checkMres_other (pos : List Pos) (var : String) (l : List (String × Nat)) : ∀ v v', checkMres pos var l v = some v' →
    (∀ x ∈ l, var ≠ mresVar x.2 ∧ var ≠ offsetVar x.2) → v' = v := by
  induction l with
  | nil => intro v v' h _; cases h; rfl
  | cons x l ih =>
    intro v v' h hx
    obtain ⟨s, k⟩ := x
    unfold checkMres at h
    cases hf : pos.find? (fun p => decide (p.name = s)) with
    | none => rw [hf] at h; cases h
    | some p =>
      rw [hf] at h
      dsimp only at h
      obtain ⟨h1, h2⟩ := hx (s, k) (List.mem_cons_self ..)
      rw [if_neg h1, if_neg h2] at h
      exact ih _ _ h (fun x hx' => hx x (List.mem_cons_of_mem _ hx'))

theorem given_cons_skip (var : String) (t : List String) (ts : List (List String))
    (h : ∀ a v r, t = a :: v :: r → ¬ (a = var ∧ v.toList.head? ≠ some '$')) : given var (t :: ts) = given var ts := by
  unfold given
  rw [List.filterMap_cons]
  cases t with
  | nil => rfl
  | cons a t =>
    cases t with
    | nil => rfl
    | cons v r =>
      dsimp only
      rw [if_neg (h a v r rfl)]

theorem given_cons_own (var v : String) (r : List String) (ts : List (List String)) (h : v.toList.head? ≠ some '$') :
    given var ((var :: v :: r) :: ts) = (given var ts).or (some v) := by
  unfold given
  rw [List.filterMap_cons]
  dsimp only
  rw [if_pos ⟨rfl, h⟩]
  rw [List.getLast?_cons]
  cases (List.filterMap _ ts).getLast? <;> rfl

/-- the variables after all: the value of each is what `check_mres_and_pos` makes of the last one given -/
theorem parseVars_get (p : Part) (ts : List (List String)) : ∀ d d', parseVars p ts d = .ok d' → ∀ var,
    (∃ v v', given var ts = some v ∧ checkMres p.pos var p.numbers v = some v' ∧ Dict.get? d' var = some v') ∨
    (given var ts = none ∧ Dict.get? d' var = Dict.get? d var) := by
  induction ts with
  | nil => intro d d' h var; cases h; exact .inr ⟨rfl, rfl⟩
  | cons t ts ih =>
    intro d d' h var
    unfold parseVars at h
    by_cases he : t = [""]
    · rw [if_pos he] at h
      rw [given_cons_skip var t ts (by intro a v r e; rw [he] at e; cases e)]
      exact ih _ _ h var
    · rw [if_neg he] at h
      cases t with
      | nil => cases h
      | cons a t =>
        cases t with
        | nil => cases h
        | cons v r =>
          dsimp only at h
          by_cases hh : v.toList.head? = some '$'
          · rw [if_pos hh] at h
            rw [given_cons_skip var _ ts (by rintro a' v' r' e ⟨_, e2⟩; cases e; exact e2 hh)]
            exact ih _ _ h var
          · rw [if_neg hh] at h
            cases hc : checkMres p.pos a p.numbers v with
            | none => rw [hc] at h; cases h
            | some v' =>
              rw [hc] at h
              dsimp only at h
              by_cases hv : a = var
              · subst hv
                rw [given_cons_own a v r ts hh]
                rcases ih _ _ h a with ⟨w, w', e1, e2, e3⟩ | ⟨e1, e2⟩
                · exact .inl ⟨w, w', by rw [e1]; rfl, e2, e3⟩
                · exact .inl ⟨v, v', by rw [e1]; rfl, hc, by rw [e2, Dict.get?_set_self]⟩
              · rw [given_cons_skip var _ ts (by rintro a' v' r' e ⟨e2, _⟩; cases e; exact hv e2)]
                rcases ih _ _ h var with h | ⟨e1, e2⟩
                · exact .inl h
                · exact .inr ⟨e1, by rw [e2, Dict.get?_set_ne _ _ hv]⟩

/-- **C95 (vii)** Where the PandA already scales the position of a raw motor, the resolution of the motor with that
number is not applied again; otherwise it is the one that was given. -/
theorem scaled_once (p : Part) (infos vars f) (hf : onPostConfigure p infos vars = .ok f) (n : Nat) :
    ((∃ x ∈ p.numbers, mresVar x.2 = mresVar n ∧ Scaled p.pos x.1) →
      Dict.get? f.vars (mresVar n) = (given (mresVar n) vars).map (fun _ => "1.0")) ∧
    ((¬ ∃ x ∈ p.numbers, mresVar x.2 = mresVar n ∧ Scaled p.pos x.1) →
      Dict.get? f.vars (mresVar n) = given (mresVar n) vars) := by
  obtain ⟨pvars, _, hp, _⟩ := onPostConfigure_ok hf
  rcases parseVars_get p vars _ _ hp (mresVar n) with ⟨v, v', e1, e2, e3⟩ | ⟨e1, e2⟩
  · obtain ⟨h1, h2, _⟩ := checkMres_scale _ _ _ _ _ e2
    rw [e3, e1]
    exact ⟨fun h => by rw [h1 h]; rfl, fun h => by rw [h2 h]⟩
  · rw [e2, e1]
    exact ⟨fun _ => rfl, fun _ => rfl⟩

/-- **C95 (viii)** Likewise for the offset. -/
theorem shifted_once (p : Part) (infos vars f) (hf : onPostConfigure p infos vars = .ok f) (n : Nat) :
    ((∃ x ∈ p.numbers, offsetVar x.2 = offsetVar n ∧ Shifted p.pos x.1) →
      Dict.get? f.vars (offsetVar n) = (given (offsetVar n) vars).map (fun _ => "0.0")) ∧
    ((¬ ∃ x ∈ p.numbers, offsetVar x.2 = offsetVar n ∧ Shifted p.pos x.1) →
      Dict.get? f.vars (offsetVar n) = given (offsetVar n) vars) := by
  obtain ⟨pvars, _, hp, _⟩ := onPostConfigure_ok hf
  rcases parseVars_get p vars _ _ hp (offsetVar n) with ⟨v, v', e1, e2, e3⟩ | ⟨e1, e2⟩
  · obtain ⟨h1, h2, _⟩ := checkMres_offset _ _ _ _ _ e2
    rw [e3, e1]
    exact ⟨fun h => by rw [h1 h]; rfl, fun h => by rw [h2 h]⟩
  · rw [e2, e1]
    exact ⟨fun _ => rfl, fun _ => rfl⟩

/-- **C95 (ix)** All other variables have the last value they were given. -/
theorem other_variables (p : Part) (infos vars f) (hf : onPostConfigure p infos vars = .ok f) (var : String)
    (hv : ∀ x ∈ p.numbers, var ≠ mresVar x.2 ∧ var ≠ offsetVar x.2) : Dict.get? f.vars var = given var vars := by
  obtain ⟨pvars, _, hp, _⟩ := onPostConfigure_ok hf
  rcases parseVars_get p vars _ _ hp var with ⟨v, v', e1, e2, e3⟩ | ⟨e1, e2⟩
  · rw [e3, e1, checkMres_other _ _ _ _ _ e2 hv]
  · rw [e2, e1]; rfl

/-! ### which scans are accepted -/

/-- a row that counts as a dataset -/
def Counts (s : String) (p : Pos) : Prop :=
  p.name = s ∧ (p.capture = .value ∨ p.capture = .mean ∨ p.capture = .minMaxMean)

theorem findPos_fst (s : String) (pos : List Pos) : ∀ ind i mm, (∀ j, i = some j → j < ind) → ∀ n, n ≤ ind →
    ((∃ j, (findPos s ind pos i mm).1 = some j ∧ n ≤ j) ↔ (∃ j, i = some j ∧ n ≤ j) ∨ ∃ p ∈ pos, Counts s p) := by
  induction pos with
  | nil => intro ind i mm _ n _; unfold findPos; simp
  | cons p ps ih =>
    intro ind i mm hi n hn
    have found : ∀ mm', Counts s p → ((∃ j, (findPos s (ind + 1) ps (some ind) mm').1 = some j ∧ n ≤ j) ↔
        (∃ j, i = some j ∧ n ≤ j) ∨ ∃ p' ∈ p :: ps, Counts s p') := by
      intro mm' hc
      rw [ih (ind + 1) (some ind) mm' (by intro j e; cases e; omega) n (by omega)]
      exact ⟨fun _ => .inr ⟨p, List.mem_cons_self .., hc⟩, fun _ => .inl ⟨ind, rfl, hn⟩⟩
    have skip : ¬ Counts s p → ((∃ j, (findPos s (ind + 1) ps i mm).1 = some j ∧ n ≤ j) ↔
        (∃ j, i = some j ∧ n ≤ j) ∨ ∃ p' ∈ p :: ps, Counts s p') := by
      intro hc
      rw [ih (ind + 1) i mm (fun j e => Nat.lt_succ_of_lt (hi j e)) n (by omega)]
      constructor
      · rintro (h | ⟨q, hq, h⟩)
        · exact .inl h
        · exact .inr ⟨q, List.mem_cons_of_mem _ hq, h⟩
      · rintro (h | ⟨q, hq, h⟩)
        · exact .inl h
        · rcases List.mem_cons.1 hq with e | hq
          · subst e; exact absurd h hc
          · exact .inr ⟨q, hq, h⟩
    unfold findPos
    by_cases he : p.name = s
    · rw [if_pos he]
      cases hc : p.capture with
      | no => exact skip (by rintro ⟨_, h⟩; rw [hc] at h; simp at h)
      | other => exact skip (by rintro ⟨_, h⟩; rw [hc] at h; simp at h)
      | value => exact found _ ⟨he, .inl hc⟩
      | mean => exact found _ ⟨he, .inr (.inl hc)⟩
      | minMaxMean => exact found _ ⟨he, .inr (.inr hc)⟩
    · rw [if_neg he]
      exact skip (fun h => he h.1)

theorem capturedLater_iff (s : String) (p : Pos) (ps : List Pos) :
    CapturedLater (p :: ps) s ↔ ∃ q ∈ ps, Counts s q := by
  unfold CapturedLater
  constructor
  · rintro ⟨i, q, h, h'⟩
    rw [List.getElem?_cons_succ] at h
    exact ⟨q, List.mem_of_getElem? h, h'⟩
  · rintro ⟨q, hq, h⟩
    obtain ⟨i, hi, e⟩ := List.mem_iff_getElem.1 hq
    exact ⟨i, q, by rw [List.getElem?_cons_succ, List.getElem?_eq_getElem hi, e], h⟩

theorem findPos_later (s : String) (pos : List Pos) (mm : Bool) :
    (∃ j, (findPos s 0 pos none mm).1 = some (j + 1)) ↔ CapturedLater pos s := by
  cases pos with
  | nil => unfold findPos CapturedLater; simp
  | cons p ps =>
    rw [capturedLater_iff]
    have conv : ∀ o : Option Nat, (∃ j, o = some (j + 1)) ↔ ∃ j, o = some j ∧ 1 ≤ j := by
      intro o
      constructor
      · rintro ⟨j, e⟩; exact ⟨j + 1, e, by omega⟩
      · rintro ⟨j, e, h⟩; exact ⟨j - 1, by rw [e]; congr 1; omega⟩
    rw [conv]
    have gen : ∀ i mm', (∀ j, i = some j → j < 1) →
        ((∃ j, (findPos s 1 ps i mm').1 = some j ∧ 1 ≤ j) ↔ ∃ q ∈ ps, Counts s q) := by
      intro i mm' hi
      rw [findPos_fst s ps 1 i mm' hi 1 (Nat.le_refl _)]
      constructor
      · rintro (⟨j, e, h⟩ | h)
        · have := hi j e; omega
        · exact h
      · exact .inr
    unfold findPos
    by_cases he : p.name = s
    · rw [if_pos he]
      cases hc : p.capture <;> exact gen _ _ (by intro j e; cases e <;> omega)
    · rw [if_neg he]
      exact gen _ _ (by intro j e; cases e)

theorem posLoop_ok_iff (pos : List Pos) (l : List (String × Nat)) : ∀ mm,
    (∃ mm', posLoop pos l mm = .ok mm') ↔ ∀ x ∈ l, CapturedLater pos x.1 := by
  induction l with
  | nil => intro mm; exact ⟨fun _ => by simp, fun _ => ⟨mm, rfl⟩⟩
  | cons x l ih =>
    intro mm
    obtain ⟨n, k⟩ := x
    rw [List.forall_mem_cons]
    have h := findPos_later n pos mm
    unfold posLoop
    rcases hf : findPos n 0 pos none mm with ⟨o, mm1⟩
    rw [hf] at h
    dsimp only at h
    cases o with
    | none =>
      dsimp only
      constructor
      · rintro ⟨_, e⟩; cases e
      · rintro ⟨e, _⟩
        obtain ⟨j, hj⟩ := h.2 e
        cases hj
    | some j =>
      cases j with
      | zero =>
        dsimp only
        constructor
        · rintro ⟨_, e⟩; cases e
        · rintro ⟨e, _⟩
          obtain ⟨j, hj⟩ := h.2 e
          cases hj
      | succ j =>
        dsimp only
        rw [ih mm1]
        exact ⟨fun h' => ⟨h.1 ⟨j, rfl⟩, h'⟩, fun h' => h'.2⟩

/-- **C95 (x)** A scan of motors that can be mapped is accepted exactly when a coordinate system is known and for each
raw motor of it a value, a mean or all three are captured at a place of the table that is not the first. -/
theorem accepted_iff (p : Part) (layout : List Row) (pos : List Pos) (axes : List String) (mapping)
    (hm : csAxisMapping axes (layout.map (fun r => (r.name, r.motor))) = .ok mapping) :
    (∃ r, onConfigure p layout pos axes = .ok r) ↔
      ∃ c, (p.port = some c ∨ p.port = none ∧ ((Dict.values mapping).head?).map MotorInfo.csPort = some c) ∧ c ≠ [] ∧
        ∀ x ∈ axisNumbers c layout [], CapturedLater pos x.1 := by
  constructor
  · rintro ⟨⟨p', ann⟩, h⟩
    obtain ⟨m, c, hm', h1, h2, _, h3, _, _, h4, _⟩ := onConfigure_ok h
    rw [hm] at hm'
    cases hm'
    rw [h3] at h4
    exact ⟨c, h1, h2, (posLoop_ok_iff _ _ _).1 ⟨_, h4⟩⟩
  · rintro ⟨c, h1, h2, h3⟩
    obtain ⟨mm, h4⟩ := (posLoop_ok_iff pos _ true).2 h3
    unfold onConfigure
    rw [hm]
    dsimp only
    rcases h1 with h1 | ⟨h1, h1'⟩
    · rw [h1]
      dsimp only
      rw [if_neg h2, h4]
      exact ⟨_, rfl⟩
    · rw [h1]
      dsimp only
      rw [h1']
      dsimp only
      rw [if_neg h2, h4]
      exact ⟨_, rfl⟩

/-! ### where the code does not keep the property -/

theorem findPos_index (s : String) (pos : List Pos) (hs : ∀ p ∈ pos, p.name ≠ s) : ∀ ind i mm,
    findPos s ind pos i mm = (i, mm) := by
  induction pos with
  | nil => intro ind i mm; rfl
  | cons p ps ih =>
    intro ind i mm
    unfold findPos
    rw [if_neg (hs p (List.mem_cons_self ..))]
    exact ih (fun p hp => hs p (List.mem_cons_of_mem _ hp)) _ _ _

/-- A raw motor whose position is the first in the table of the PandA is refused, whatever is captured of it. -/
theorem first_position_refused (first : Pos) (rest : List Pos) (hr : ∀ r ∈ rest, r.name ≠ first.name) (k : Nat)
    (l : List (String × Nat)) (mm : Bool) : posLoop (first :: rest) ((first.name, k) :: l) mm = .error .noDataset := by
  have : (findPos first.name 0 (first :: rest) none mm).1 = none ∨ (findPos first.name 0 (first :: rest) none mm).1 = some 0 := by
    unfold findPos
    rw [if_pos rfl]
    cases first.capture <;> (dsimp only; rw [findPos_index _ _ hr]; simp)
  unfold posLoop
  rcases hf : findPos first.name 0 (first :: rest) none mm with ⟨i, mm'⟩
  rw [hf] at this
  dsimp only at this
  rcases this with e | e <;> rw [e]

/-- a motor of port `port` with axis `axis` -/
def motor (port axis : String) : Motor := ⟨port.toList ++ ',' :: axis.toList, 1, 1⟩

/-- two coordinate systems, each with one compound motor and one raw motor -/
def layout2 : List Row :=
  [⟨"x", motor "CS1" "X", none⟩, ⟨"j1", motor "CS1" "I", some 1⟩, ⟨"y", motor "CS2" "Y", none⟩,
   ⟨"j2", motor "CS2" "I", some 2⟩]

def pos2 : List Pos := [⟨"other", .no, 1, 0⟩, ⟨"j1", .minMaxMean, 2, 3⟩, ⟨"j2", .minMaxMean, 1, 0⟩]

def infos2 : List Info :=
  [⟨"j1.mean", some .mean, "panda.h5", "/j1.mean"⟩, ⟨"j1.min", some .min, "panda.h5", "/j1.min"⟩,
   ⟨"j1.max", some .max, "panda.h5", "/j1.max"⟩]

def vars2 : List (List String) := [["P4801", "0.5"], [""], ["P4901", "7"], ["Q5", "2"], ["I9", "$F"], ["P4802", "0.25"]]

/-- what the examples look at -/
def conf : Except Exc (Part × List (String × Kind)) → Option (List Char × List (String × Nat) × List (Nat × String) × Bool × List (String × Kind))
  | .ok (p, a) => some (p.port.getD [], p.numbers, p.q, p.minMax, a)
  | .error _ => none

def run2 (infos : List Info) : Option Files :=
  match onConfigure {} layout2 pos2 ["x"] with
  | .ok (p, _) => (match onPostConfigure p infos vars2 with | .ok f => some f | .error _ => none)
  | .error _ => none

/-- the hypotheses hold of a concrete run -/
example : conf (onConfigure {} layout2 pos2 ["x"]) =
    some ("CS1".toList, [("j1", 1)], [(7, "x")], true, [("x", .mean), ("x", .min), ("x", .max)]) := by decide +kernel

example : (run2 infos2).map (fun f => (f.vars, f.minMax, Dict.get? f.vds ("x", .min), Dict.get? f.links (1, .max))) =
    some ([("P4801", "1.0"), ("P4901", "0.0"), ("Q5", "2"), ("P4802", "0.25")], true, some (.min, 6),
      some ("panda.h5", "/j1.max")) := by decide +kernel

/-- If the PandA announces no least for a raw motor, least and greatest of the compound motor are announced but not
made. -/
theorem announced_not_there :
    conf (onConfigure {} layout2 pos2 ["x"]) =
      some ("CS1".toList, [("j1", 1)], [(7, "x")], true, [("x", .mean), ("x", .min), ("x", .max)]) ∧
    (run2 (infos2.filter (fun i => i.kind ≠ some .min))).map (fun f => (Dict.get? f.vds ("x", .mean), Dict.get? f.vds ("x", .max))) =
      some (some (.mean, 6), none) := by decide +kernel

/-- The part keeps the coordinate system of its first scan: a scan of a motor in another one gets the raw motors of
the first. -/
theorem other_coordinate_system :
    (match onConfigure {} layout2 pos2 ["x"] with
      | .ok (p, _) => conf (onConfigure p layout2 pos2 ["y"])
      | .error _ => none) =
      some ("CS1".toList, [("j1", 1)], [(8, "y")], true, [("y", .mean), ("y", .min), ("y", .max)]) ∧
    conf (onConfigure {} layout2 pos2 ["y"]) =
      some ("CS2".toList, [("j2", 2)], [(8, "y")], true, [("y", .mean), ("y", .min), ("y", .max)]) := by decide +kernel

/-- A name with a dot: data of "j1.b" is linked as data of "j1". -/
theorem dotted_name : ∃ infos : List Info, (∃ i ∈ infos, i.name = "j1.mean" ∧ i.kind = some .mean) ∧
    (run2 infos).map (fun f => Dict.get? f.links (1, .mean)) = some (some ("panda.h5", "/j1.b.mean")) :=
  ⟨infos2 ++ [⟨"j1.b.mean", some .mean, "panda.h5", "/j1.b.mean"⟩], ⟨_, List.mem_cons_self .., rfl, rfl⟩, by decide +kernel⟩

/-- The block the default suffix leads to has two colons in its name. -/
theorem default_suffix (pmac : String) : csBlock pmac defaultCsSuffix = pmac ++ "::CS" := by
  unfold csBlock defaultCsSuffix
  rw [String.append_assoc]
  rfl

/-- The suffix of the block with the status is not used. -/
theorem status_suffix_unused (pmac s s' : String) : statusBlock pmac s = statusBlock pmac s' := rfl

end Verif.Props.Kinematics
