import Verif.Proofs.Layout
/-!
C30: hiding a child cuts its wires and nothing else.
-/
namespace Verif.Layout
open Verif.Tags (Port)

/-! ### One part -/

theorem onRow_frame {ports : Ports} {p p1 : Part} {r : Row} (h : onRow ports p r = some p1) :
    p1.name = p.name ∧ p1.mri = p.mri ∧
    (p1.x, p1.y, p1.visible) = (if r.name = p.name then (r.x, r.y, some r.visible) else (p.x, p.y, p.visible)) ∧
    p1.others = (if r.name = p.name then p.others else p.others.set r.name r.visible) := by
  have key : ∀ (c : Prop) [Decidable c] (w : Option Name) (g : Part → Part) (p1 : Part),
      (if c then sever ports w p else some p).map g = some p1 → ∃ ch, p1 = g { p with child := ch } := by
    intro c _ w g p1 h
    split at h
    · simp only [Option.map_eq_some_iff] at h
      obtain ⟨p2, hp2, rfl⟩ := h
      exact ⟨p2.child, by rw [← (sever_get hp2).2]⟩
    · simp only [Option.map_some, Option.some.injEq] at h
      exact ⟨p.child, h.symm⟩
  unfold onRow at h
  split at h
  · rename_i hn
    obtain ⟨ch, rfl⟩ := key _ _ _ _ h
    simp [hn]
  · rename_i hn
    obtain ⟨ch, rfl⟩ := key _ _ _ _ h
    simp [hn]

/-- Why a row cuts a wire of a part -/
def Cuts (ports : Ports) (p : Part) (a : Attr) (t : Port) (r : Row) : Prop :=
  r.visible = false ∧
  ((r.name = p.name ∧ p.visible = some true) ∨
   (r.name ≠ p.name ∧ p.others.get? r.name = some true ∧ hit ports (some r.name) a.value t = true))

theorem onRow_child {ports : Ports} {p p1 : Part} {r : Row} (h : onRow ports p r = some p1) (n : Name) :
    p1.child.get? n = p.child.get? n ∨
    ∃ a t off, p.child.get? n = some a ∧ (sinkPorts (ports.of p.name)).get? n = some (t, off) ∧ a.writeable = true ∧
      p1.child.get? n = some { a with value := off } ∧ Cuts ports p a t r := by
  unfold onRow at h
  split at h
  · rename_i hn
    split at h
    · rename_i hc
      simp only [Option.map_eq_some_iff] at h
      obtain ⟨p2, hp2, rfl⟩ := h
      have hg := (sever_get hp2).1 n
      show p2.child.get? n = _ ∨ ∃ a t off, _ ∧ _ ∧ _ ∧ p2.child.get? n = _ ∧ _
      rw [hg]
      unfold severed
      cases hs : (sinkPorts (ports.of p.name)).get? n with
      | none => exact Or.inl rfl
      | some to =>
        cases hch : p.child.get? n with
        | none => exact Or.inl rfl
        | some a =>
          dsimp only
          split
          · rename_i hh
            simp only [Bool.and_eq_true] at hh
            exact Or.inr ⟨a, to.1, to.2, rfl, rfl, hh.2, rfl, hc.2, Or.inl ⟨hn, hc.1⟩⟩
          · exact Or.inl rfl
    · simp only [Option.map_some, Option.some.injEq] at h
      subst h
      exact Or.inl rfl
  · rename_i hn
    split at h
    · rename_i hc
      simp only [Option.map_eq_some_iff] at h
      obtain ⟨p2, hp2, rfl⟩ := h
      have hg := (sever_get hp2).1 n
      show p2.child.get? n = _ ∨ ∃ a t off, _ ∧ _ ∧ _ ∧ p2.child.get? n = _ ∧ _
      rw [hg]
      unfold severed
      cases hs : (sinkPorts (ports.of p.name)).get? n with
      | none => exact Or.inl rfl
      | some to =>
        cases hch : p.child.get? n with
        | none => exact Or.inl rfl
        | some a =>
          dsimp only
          split
          · rename_i hh
            simp only [Bool.and_eq_true] at hh
            refine Or.inr ⟨a, to.1, to.2, rfl, rfl, hh.2, rfl, hc.2, Or.inr ⟨hn, ?_, hh.1⟩⟩
            cases ho : p.others.get? r.name with
            | none => simp [ho] at hc
            | some b => simp [ho] at hc; rw [hc.1]
          · exact Or.inl rfl
    · simp only [Option.map_some, Option.some.injEq] at h
      subst h
      exact Or.inl rfl

/-- A row that has a reason to cut does cut -/
theorem onRow_cuts {ports : Ports} {p p1 : Part} {r : Row} (h : onRow ports p r = some p1) {n : Name} {a : Attr} {t : Port}
    {off : String} (ha : p.child.get? n = some a) (hs : (sinkPorts (ports.of p.name)).get? n = some (t, off))
    (hw : a.writeable = true) (hc : Cuts ports p a t r) : p1.child.get? n = some { a with value := off } := by
  unfold onRow at h
  obtain ⟨hv, ⟨hn, hvis⟩ | ⟨hn, ho, hh⟩⟩ := hc
  · rw [if_pos hn, if_pos ⟨hvis, hv⟩] at h
    simp only [Option.map_eq_some_iff] at h
    obtain ⟨p2, hp2, rfl⟩ := h
    show p2.child.get? n = _
    rw [(sever_get hp2).1 n]
    unfold severed
    rw [hs, ha]
    simp [hit, hw]
  · rw [if_neg hn, if_pos ⟨by simp [ho], hv⟩] at h
    simp only [Option.map_eq_some_iff] at h
    obtain ⟨p2, hp2, rfl⟩ := h
    show p2.child.get? n = _
    rw [(sever_get hp2).1 n]
    unfold severed
    rw [hs, ha]
    simp [hh, hw]

theorem asked_cons (r : Row) (rs : List Row) (n : Name) :
    asked (r :: rs) n = (asked rs n).or (if r.name = n then some r else none) := by
  unfold asked
  rw [List.filter_cons]
  by_cases h : r.name = n
  · simp only [h, decide_true, if_true, List.getLast?_cons]
    cases (rs.filter fun r => decide (r.name = n)).getLast? <;> rfl
  · simp only [h, decide_false, if_false]
    simp

theorem asked_none {rows : List Row} {n : Name} (h : asked rows n = none) : ∀ r ∈ rows, r.name ≠ n := by
  unfold asked at h
  rw [List.getLast?_eq_none_iff, List.filter_eq_nil_iff] at h
  intro r hr
  simpa using h r hr

theorem asked_mem {rows : List Row} {n : Name} {r : Row} (h : asked rows n = some r) : r ∈ rows ∧ r.name = n := by
  unfold asked at h
  have := List.mem_of_getLast? h
  simpa using this

theorem asked_of_mem {rows : List Row} (hn : (rows.map Row.name).Nodup) {r : Row} (hr : r ∈ rows) :
    asked rows r.name = some r := by
  cases h : asked rows r.name with
  | none => exact absurd rfl (asked_none h r hr)
  | some r2 =>
    have := asked_mem h
    rw [nodup_map_eq hn r2 this.1 r hr this.2]

theorem onRows_frame {ports : Ports} : {rows : List Row} → {p p1 : Part} → onRows ports p rows = some p1 →
    p1.name = p.name ∧ p1.mri = p.mri ∧
    (p1.x, p1.y, p1.visible) = (match asked rows p.name with
      | some r => (r.x, r.y, some r.visible)
      | none => (p.x, p.y, p.visible)) ∧
    ∀ q, p1.others.get? q = if q = p.name then p.others.get? q else ((asked rows q).map Row.visible).or (p.others.get? q)
  | [], p, p1, h => by
    simp only [onRows, Option.some.injEq] at h
    subst h
    simp [asked]
  | r :: rs, p, p1, h => by
    unfold onRows at h
    cases h1 : onRow ports p r with
    | none => simp [h1] at h
    | some p2 =>
      simp only [h1] at h
      obtain ⟨a1, a2, a3, a4⟩ := onRow_frame h1
      obtain ⟨b1, b2, b3, b4⟩ := onRows_frame h
      refine ⟨by rw [b1, a1], by rw [b2, a2], ?_, ?_⟩
      · rw [b3, a1, asked_cons, a3]
        cases asked rs p.name with
        | some r2 => simp
        | none =>
          by_cases hn : r.name = p.name <;> simp [hn]
      · intro q
        rw [b4 q, a1, a4, asked_cons]
        by_cases hq : q = p.name
        · simp only [hq, if_true]
          split
          · rfl
          · rename_i hn
            rw [Dict.get?_set, if_neg hn]
        · simp only [hq, if_false]
          cases asked rs q with
          | some r2 => simp
          | none =>
            by_cases hn : r.name = p.name
            · simp [hn, Ne.symm hq]
            · by_cases hrq : r.name = q
              · simp [hn, hrq, hq, Dict.get?_set]
              · simp [hn, hrq, Dict.get?_set]

/-- What rows with different names do to an attribute of a part -/
theorem onRows_child {ports : Ports} : {rows : List Row} → {p p1 : Part} → (rows.map Row.name).Nodup →
    onRows ports p rows = some p1 → ∀ n,
    p1.child.get? n = p.child.get? n ∨
    ∃ a t off, p.child.get? n = some a ∧ (sinkPorts (ports.of p.name)).get? n = some (t, off) ∧ a.writeable = true ∧
      p1.child.get? n = some { a with value := off } ∧ ∃ r ∈ rows, Cuts ports p a t r
  | [], p, p1, _, h, n => by
    simp only [onRows, Option.some.injEq] at h
    subst h
    exact Or.inl rfl
  | r :: rs, p, p1, hn, h, n => by
    unfold onRows at h
    cases h1 : onRow ports p r with
    | none => simp [h1] at h
    | some p2 =>
      simp only [h1] at h
      simp only [List.map_cons, List.nodup_cons] at hn
      obtain ⟨a1, a2, a3, a4⟩ := onRow_frame h1
      have ih := onRows_child hn.2 h n
      rw [a1] at ih
      rcases onRow_child h1 n with hk | ⟨a, t, off, e1, e2, e3, e4, e5⟩
      · rcases ih with ih | ⟨a, t, off, f1, f2, f3, f4, r2, hr2, hc⟩
        · exact Or.inl (by rw [ih, hk])
        · refine Or.inr ⟨a, t, off, by rw [← hk, f1], f2, f3, f4, r2, List.mem_cons_of_mem _ hr2, hc.1, ?_⟩
          have hne : r.name ≠ r2.name := fun he => hn.1 (List.mem_map.mpr ⟨r2, hr2, he.symm⟩)
          rcases hc.2 with ⟨c1, c2⟩ | ⟨c1, c2, c3⟩
          · left
            refine ⟨by rw [c1, a1], ?_⟩
            rw [a1] at c1
            rw [if_neg (fun he => hne (he.trans c1.symm))] at a3
            simp only [Prod.mk.injEq] at a3
            rw [← a3.2.2, c2]
          · right
            rw [a1] at c1
            refine ⟨c1, ?_, c3⟩
            rw [a4] at c2
            split at c2
            · exact c2
            · rwa [Dict.get?_set_ne _ _ hne] at c2
      · right
        refine ⟨a, t, off, e1, e2, e3, ?_, r, List.mem_cons_self, e5⟩
        rcases ih with ih | ⟨a2, t2, off2, f1, f2, f3, f4, _⟩
        · rw [ih, e4]
        · rw [e4] at f1
          rw [e2] at f2
          cases f1
          cases f2
          exact f4

/-- Rows with different names cut every wire they have a reason to cut -/
theorem onRows_cuts {ports : Ports} : {rows : List Row} → {p p1 : Part} → (rows.map Row.name).Nodup →
    onRows ports p rows = some p1 → ∀ {n : Name} {a : Attr} {t : Port} {off : String} {r : Row},
    p.child.get? n = some a → (sinkPorts (ports.of p.name)).get? n = some (t, off) → a.writeable = true →
    r ∈ rows → Cuts ports p a t r → p1.child.get? n = some { a with value := off }
  | [], _, _, _, _, _, _, _, _, _, _, _, _, hr, _ => by simp at hr
  | r :: rs, p, p1, hn, h, n, a, t, off, r2, ha, hs, hw, hr, hc => by
    unfold onRows at h
    cases h1 : onRow ports p r with
    | none => simp [h1] at h
    | some p2 =>
      simp only [h1] at h
      simp only [List.map_cons, List.nodup_cons] at hn
      obtain ⟨a1, a2, a3, a4⟩ := onRow_frame h1
      have done : p2.child.get? n = some { a with value := off } → p1.child.get? n = some { a with value := off } := by
        intro he
        rcases onRows_child hn.2 h n with hk | ⟨b, t2, off2, f1, f2, f3, f4, _⟩
        · rw [hk, he]
        · rw [he] at f1
          rw [a1, hs] at f2
          cases f1
          cases f2
          exact f4
      rcases List.mem_cons.mp hr with heq | hr
      · subst heq
        exact done (onRow_cuts h1 ha hs hw hc)
      · rcases onRow_child h1 n with hk | ⟨b, t2, off2, e1, e2, e3, e4, e5⟩
        · refine onRows_cuts hn.2 h (by rw [hk, ha]) (by rw [a1, hs]) hw hr ⟨hc.1, ?_⟩
          have hne : r.name ≠ r2.name := fun he => hn.1 (List.mem_map.mpr ⟨r2, hr, he.symm⟩)
          rcases hc.2 with ⟨c1, c2⟩ | ⟨c1, c2, c3⟩
          · left
            refine ⟨by rw [c1, a1], ?_⟩
            rw [if_neg (fun he => hne (he.trans c1.symm))] at a3
            simp only [Prod.mk.injEq] at a3
            rw [a3.2.2, c2]
          · right
            refine ⟨by rw [a1]; exact c1, ?_, c3⟩
            rw [a4]
            split
            · exact c2
            · rw [Dict.get?_set_ne _ _ hne, c2]
        · rw [ha] at e1
          rw [hs] at e2
          cases e1
          cases e2
          exact done e4

/-! ### The first layout -/

/-- `d1` has what `d` has, and shows the names of `S` it does not have -/
def Ext (S : Name → Prop) (d d1 : Dict Name Bool) : Prop :=
  ∀ n, (∀ b, d.get? n = some b → d1.get? n = some b) ∧
    (d.get? n = none → (S n → d1.get? n = some true) ∧ (¬S n → d1.get? n = none))

theorem Ext.refl (d : Dict Name Bool) : Ext (fun _ => False) d d :=
  fun _ => ⟨fun _ h => h, fun h => ⟨fun hf => hf.elim, fun _ => h⟩⟩

theorem Ext.trans {S T : Name → Prop} {d d1 d2 : Dict Name Bool} (h1 : Ext S d d1) (h2 : Ext T d1 d2) :
    Ext (fun n => S n ∨ T n) d d2 := by
  intro n
  refine ⟨fun b hb => (h2 n).1 b ((h1 n).1 b hb), fun hn => ⟨fun hs => ?_, fun hs => ?_⟩⟩
  · by_cases hS : S n
    · exact (h2 n).1 _ (((h1 n).2 hn).1 hS)
    · exact ((h2 n).2 (((h1 n).2 hn).2 hS)).1 (hs.resolve_left hS)
  · exact ((h2 n).2 (((h1 n).2 hn).2 fun h => hs (Or.inl h))).2 fun h => hs (Or.inr h)

theorem Ext.congr {S T : Name → Prop} {d d1 : Dict Name Bool} (h1 : Ext S d d1) (h : ∀ n, S n ↔ T n) : Ext T d d1 := by
  have : S = T := funext fun n => propext (h n)
  rwa [this] at h1

theorem ext_show (d : Dict Name Bool) (k : Name) : Ext (fun n => n = k) d (show? d k) := by
  intro n
  unfold show?
  split
  · rename_i h
    refine ⟨fun _ h => h, fun hn => ⟨fun he => ?_, fun _ => hn⟩⟩
    subst he
    simp [Dict.mem, hn] at h
  · rename_i h
    refine ⟨fun b hb => ?_, fun hn => ⟨fun he => ?_, fun he => ?_⟩⟩
    · rw [Dict.get?_set]
      split
      · rename_i he
        subst he
        simp [Dict.mem, hb] at h
      · exact hb
    · rw [he, Dict.get?_set_self]
    · rw [Dict.get?_set_ne _ _ (Ne.symm he), hn]

theorem ext_foldl {I : Type} {f : Dict Name Bool → I → Dict Name Bool} {S : I → Name → Prop} :
    (l : List I) → (d : Dict Name Bool) → (∀ d, ∀ i ∈ l, Ext (S i) d (f d i)) →
    Ext (fun n => ∃ i ∈ l, S i n) d (l.foldl f d)
  | [], d, _ => (Ext.refl d).congr (by simp)
  | i :: l, d, h => by
    refine ((h d i List.mem_cons_self).trans
      (ext_foldl l (f d i) fun d j hj => h d j (List.mem_cons_of_mem _ hj))).congr fun n => ?_
    simp

theorem calculate_ext (ports : Ports) (o : Dict Name Bool) : Ext (WiredFirst ports) o (calculateVisibility ports o) := by
  unfold calculateVisibility
  refine (ext_foldl (S := fun pi n => ∃ i ∈ pi.2, ∃ s t off v q, i = PortInfo.sink s t off v ∧ v ≠ off ∧
      (sourceParts ports).get? v = some (q, t) ∧ q ≠ "" ∧ (n = q ∨ n = pi.1)) ports o fun d pi _ => ?_).congr fun n => ?_
  · refine (ext_foldl (S := fun i n => ∃ s t off v q, i = PortInfo.sink s t off v ∧ v ≠ off ∧
      (sourceParts ports).get? v = some (q, t) ∧ q ≠ "" ∧ (n = q ∨ n = pi.1)) pi.2 d fun d i _ => ?_)
    cases i with
    | source a b c => exact (Ext.refl d).congr (by simp)
    | sink s t off v =>
      dsimp only
      by_cases hv : v ≠ off
      · rw [if_pos hv]
        cases hg : (sourceParts ports).get? v with
        | none =>
          refine (Ext.refl d).congr fun n => ⟨False.elim, ?_⟩
          rintro ⟨s1, t1, off1, v1, q1, e, _, hg1, _⟩
          cases e
          rw [hg] at hg1
          cases hg1
        | some qt =>
          obtain ⟨q, t2⟩ := qt
          dsimp only
          by_cases hq : q ≠ "" ∧ t2 = t
          · rw [if_pos hq]
            refine ((ext_show d q).trans (ext_show _ pi.1)).congr fun n => ?_
            constructor
            · intro h
              exact ⟨s, t, off, v, q, rfl, hv, by rw [hg, hq.2], hq.1, h⟩
            · rintro ⟨s1, t1, off1, v1, q1, e, _, hg1, _, hn⟩
              cases e
              rw [hg] at hg1
              cases hg1
              exact hn
          · rw [if_neg hq]
            refine (Ext.refl d).congr fun n => ⟨False.elim, ?_⟩
            rintro ⟨s1, t1, off1, v1, q1, e, _, hg1, hq1, hn⟩
            cases e
            rw [hg] at hg1
            cases hg1
            exact hq ⟨hq1, rfl⟩
      · rw [if_neg hv]
        refine (Ext.refl d).congr fun n => ⟨False.elim, ?_⟩
        rintro ⟨s1, t1, off1, v1, q1, e, hv1, _⟩
        cases e
        exact hv hv1
  · constructor
    · rintro ⟨⟨p, infos⟩, hp, i, hi, s, t, off, v, q, rfl, h⟩
      exact ⟨p, infos, s, t, off, v, q, hp, hi, h⟩
    · rintro ⟨p, infos, s, t, off, v, q, hp, hi, h⟩
      exact ⟨⟨p, infos⟩, hp, _, hi, s, t, off, v, q, rfl, h⟩

/-- One part during a layout -/
theorem onLayout_facts {ports : Ports} {rows : List Row} {p p1 : Part} (h : onLayout ports rows p = some p1) :
    ∃ p2, onRows ports p rows = some p2 ∧ p1.name = p2.name ∧ p1.mri = p2.mri ∧ p1.x = p2.x ∧ p1.y = p2.y ∧
      p1.child = p2.child ∧
      (p1.others = p2.others ∧ p.others ≠ [] ∨ p1.others = calculateVisibility ports p2.others ∧ p.others = []) ∧
      p1.visible = some (p2.visible.getD ((p1.others.get? p2.name).getD false)) := by
  unfold onLayout at h
  simp only [Option.map_eq_some_iff] at h
  obtain ⟨p2, h2, h⟩ := h
  refine ⟨p2, h2, ?_⟩
  by_cases he : p.others = []
  · simp only [he, List.isEmpty_nil, if_true] at h
    cases hv : p2.visible with
    | some b => simp only [hv] at h; subst h; simp [he, hv]
    | none => simp only [hv] at h; subst h; simp [he]
  · have : p.others.isEmpty = false := by simp [he]
    simp only [this] at h
    cases hv : p2.visible with
    | some b => simp [hv] at h; subst h; simp [he, hv]
    | none => simp [hv] at h; subst h; simp [he]

/-! ### The manager -/

theorem layoutHooks_find {ports : Ports} {rows : List Row} (n : Name) : {ps ps1 : List Part} →
    layoutHooks ports rows ps = some ps1 →
    (ps1.find? fun p => p.name = n) = (ps.find? fun p => p.name = n).bind (onLayout ports rows)
  | [], ps1, h => by
    simp only [layoutHooks, Option.some.injEq] at h
    subst h
    rfl
  | p :: ps, ps1, h => by
    unfold layoutHooks at h
    cases h1 : onLayout ports rows p with
    | none => simp [h1] at h
    | some p1 =>
      cases h2 : layoutHooks ports rows ps with
      | none => simp [h1, h2] at h
      | some ps2 =>
        simp only [h1, h2, Option.some.injEq] at h
        subst h
        obtain ⟨p2, hr, e, _⟩ := onLayout_facts h1
        have hn : p1.name = p.name := by rw [e, (onRows_frame hr).1]
        rw [List.find?_cons, List.find?_cons]
        simp only [hn]
        by_cases hp : p.name = n
        · simp [hp, h1]
        · simp only [hp, decide_false]
          exact layoutHooks_find n h2

theorem layoutHooks_names {ports : Ports} {rows : List Row} : {ps ps1 : List Part} →
    layoutHooks ports rows ps = some ps1 → ps1.map Part.name = ps.map Part.name ∧ ∀ p1 ∈ ps1, ∃ p ∈ ps,
      onLayout ports rows p = some p1
  | [], ps1, h => by
    simp only [layoutHooks, Option.some.injEq] at h
    subst h
    simp
  | p :: ps, ps1, h => by
    unfold layoutHooks at h
    cases h1 : onLayout ports rows p with
    | none => simp [h1] at h
    | some p1 =>
      cases h2 : layoutHooks ports rows ps with
      | none => simp [h1, h2] at h
      | some ps2 =>
        simp only [h1, h2, Option.some.injEq] at h
        subst h
        obtain ⟨p2, hr, e, _⟩ := onLayout_facts h1
        have hn : p1.name = p.name := by rw [e, (onRows_frame hr).1]
        obtain ⟨i1, i2⟩ := layoutHooks_names h2
        refine ⟨by simp [hn, i1], ?_⟩
        intro q hq
        rcases List.mem_cons.mp hq with rfl | hq
        · exact ⟨p, List.mem_cons_self, h1⟩
        · obtain ⟨p3, hp3, h3⟩ := i2 q hq
          exact ⟨p3, List.mem_cons_of_mem _ hp3, h3⟩

theorem setLayout_part {m m1 : Manager} {rows : List Row} (h : m.setLayout rows = some m1) :
    (∀ n, m1.part? n = (m.part? n).bind (onLayout m.ports rows)) ∧ m1.ports = m.ports ∧
    m1.layout = m1.parts.map (fun p => (p.name, p.info)) ∧ m1.parts.map Part.name = m.parts.map Part.name ∧
    ∀ p1 ∈ m1.parts, ∃ p ∈ m.parts, onLayout m.ports rows p = some p1 := by
  unfold Manager.setLayout at h
  simp only [Option.map_eq_some_iff] at h
  obtain ⟨ps, hps, rfl⟩ := h
  obtain ⟨h1, h2⟩ := layoutHooks_names hps
  exact ⟨fun n => layoutHooks_find n hps, rfl, rfl, h1, h2⟩

theorem part_of_mem {m : Manager} (hn : (m.parts.map Part.name).Nodup) {p : Part} (hp : p ∈ m.parts) :
    m.part? p.name = some p := by
  unfold Manager.part?
  cases h : m.parts.find? fun q => q.name = p.name with
  | none => simpa using List.find?_eq_none.mp h p hp
  | some q =>
    have h1 := List.mem_of_find?_eq_some h
    have h2 := List.find?_some h
    simp only [decide_eq_true_eq] at h2
    rw [nodup_map_eq hn q h1 p hp h2]

theorem part_mem {m : Manager} {n : Name} {p : Part} (h : m.part? n = some p) : p ∈ m.parts ∧ p.name = n := by
  unfold Manager.part? at h
  exact ⟨List.mem_of_find?_eq_some h, by simpa using List.find?_some h⟩

/-- What holds after the first layout -/
structure Inv (m : Manager) : Prop where
  names : (m.parts.map Part.name).Nodup
  ports : ∀ n, GoodPorts (m.ports.of n)
  set : ∀ p ∈ m.parts, ∃ b, p.visible = some b
  table : ∀ n, m.row? n = (m.part? n).map Part.info
  known : ∀ p ∈ m.parts, ∀ q ∈ m.parts, p.name ≠ q.name → q.visible = some true → p.others.get? q.name = some true

theorem table_rows (n : Name) : (ps : List Part) →
    Dict.get? (ps.map fun p => (p.name, p.info)) n = (ps.find? fun p => p.name = n).map Part.info
  | [] => rfl
  | p :: ps => by
    rw [List.map_cons, Dict.get?_cons, List.find?_cons]
    by_cases h : p.name = n
    · simp [h]
    · simp only [h, if_false, decide_false]
      exact table_rows n ps

theorem first_inv {m m1 : Manager} {rows : List Row} (hf : Fresh m) (ha : Announced m rows)
    (h : m.setLayout rows = some m1) : Inv m1 := by
  obtain ⟨hp, hports, htab, hnames, hmem⟩ := setLayout_part h
  refine ⟨by rw [hnames]; exact hf.1, by rw [hports]; exact hf.2.2, ?_, ?_, ?_⟩
  · intro p1 hp1
    obtain ⟨p, _, hl⟩ := hmem p1 hp1
    obtain ⟨_, _, _, _, _, _, _, _, hv⟩ := onLayout_facts hl
    exact ⟨_, hv⟩
  · intro n
    show Dict.get? m1.layout n = _
    rw [htab]
    exact table_rows n m1.parts
  · intro p1 hp1 q1 hq1 hne hv
    obtain ⟨p, hpm, hpl⟩ := hmem p1 hp1
    obtain ⟨q, hqm, hql⟩ := hmem q1 hq1
    obtain ⟨p2, hpr, pn, -, -, -, -, po, pv⟩ := onLayout_facts hpl
    obtain ⟨q2, hqr, qn, -, -, -, -, qo, qv⟩ := onLayout_facts hql
    obtain ⟨pn2, -, -, po2⟩ := onRows_frame hpr
    obtain ⟨qn2, -, qv2, qo2⟩ := onRows_frame hqr
    have hpo := hf.2.1 p hpm
    have hqo := hf.2.1 q hqm
    have po : p1.others = calculateVisibility m.ports p2.others := by
      rcases po with h | h
      · exact absurd hpo h.2
      · exact h.1
    have qo : q1.others = calculateVisibility m.ports q2.others := by
      rcases qo with h | h
      · exact absurd hqo h.2
      · exact h.1
    rw [pn, pn2, qn, qn2] at hne
    rw [qn, qn2, po]
    have ep := calculate_ext m.ports p2.others q.name
    have gp := po2 q.name
    rw [if_neg (Ne.symm hne), hpo] at gp
    cases hask : asked rows q.name with
    | some r =>
      rw [hask] at gp qv2
      simp only [Option.map_some, Option.some_or] at gp
      simp only [Prod.mk.injEq] at qv2
      rw [qv, qv2.2.2] at hv
      simp only [Option.getD_some, Option.some.injEq] at hv
      rw [hv] at gp
      exact ep.1 _ gp
    | none =>
      rw [hask] at gp qv2
      simp only [Option.map_none, Option.none_or, Dict.get?] at gp
      simp only [Prod.mk.injEq] at qv2
      refine (ep.2 gp).1 ?_
      cases hqv : q.visible with
      | some b =>
        rw [qv, qv2.2.2, hqv] at hv
        simp only [Option.getD_some, Option.some.injEq] at hv
        rw [hv] at hqv
        rcases ha q hqm hqv with h1 | h1
        · rw [hask] at h1; simp at h1
        · exact h1
      | none =>
        rw [qv, qv2.2.2, hqv, qo, qn2] at hv
        simp only [Option.getD_none, Option.some.injEq] at hv
        have eq := calculate_ext m.ports q2.others q.name
        have gq := qo2 q.name
        rw [if_pos rfl, hqo] at gq
        simp only [Dict.get?] at gq
        refine Classical.byContradiction fun hc => ?_
        rw [(eq.2 gq).2 hc] at hv
        simp at hv

theorem next_inv {m m1 : Manager} {o : Op} (hi : Inv m) (hg : GoodOp o) (h : m.op o = some m1) : Inv m1 := by
  cases o with
  | layout rows =>
    have h : m.setLayout rows = some m1 := h
    obtain ⟨hp, hports, htab, hnames, hmem⟩ := setLayout_part h
    refine ⟨by rw [hnames]; exact hi.names, by rw [hports]; exact hi.ports, ?_, ?_, ?_⟩
    · intro p1 hp1
      obtain ⟨p, _, hl⟩ := hmem p1 hp1
      obtain ⟨_, _, _, _, _, _, _, _, hv⟩ := onLayout_facts hl
      exact ⟨_, hv⟩
    · intro n
      show Dict.get? m1.layout n = _
      rw [htab]
      exact table_rows n m1.parts
    · intro p1 hp1 q1 hq1 hne hv
      obtain ⟨p, hpm, hpl⟩ := hmem p1 hp1
      obtain ⟨q, hqm, hql⟩ := hmem q1 hq1
      obtain ⟨p2, hpr, pn, -, -, -, -, po, pv⟩ := onLayout_facts hpl
      obtain ⟨q2, hqr, qn, -, -, -, -, qo, qv⟩ := onLayout_facts hql
      obtain ⟨pn2, -, -, po2⟩ := onRows_frame hpr
      obtain ⟨qn2, -, qv2, qo2⟩ := onRows_frame hqr
      rw [pn, pn2, qn, qn2] at hne
      have keep : p2.others.get? q.name = some true → p1.others.get? q1.name = some true := by
        intro hk
        rw [qn, qn2]
        rcases po with h | h
        · rw [h.1, hk]
        · rw [h.1]
          exact (calculate_ext m.ports p2.others q.name).1 _ hk
      apply keep
      rw [po2 q.name, if_neg (Ne.symm hne)]
      cases hask : asked rows q.name with
      | some r =>
        rw [hask] at qv2
        simp only [Prod.mk.injEq] at qv2
        rw [qv, qv2.2.2] at hv
        simpa using hv
      | none =>
        rw [hask] at qv2
        simp only [Prod.mk.injEq] at qv2
        obtain ⟨b, hb⟩ := hi.set q hqm
        rw [qv, qv2.2.2, hb] at hv
        simp only [Option.getD_some, Option.some.injEq] at hv
        rw [hv] at hb
        simpa using hi.known p hpm q hqm hne hb
  | report part infos =>
    simp only [Manager.op, Option.some.injEq] at h
    subst h
    refine ⟨hi.names, fun n => ?_, hi.set, hi.table, hi.known⟩
    show GoodPorts (Ports.of (Dict.set m.ports part infos) n)
    unfold Ports.of
    rw [Dict.get?_set]
    split
    · exact hg
    · exact hi.ports n
  | rewire part n v =>
    simp only [Manager.op, Option.some.injEq] at h
    subst h
    let g : Part → Part := fun p => if p.name = part then
      { p with child := p.child.map fun na => if na.1 = n then (na.1, { na.2 with value := v }) else na } else p
    have hg1 : ∀ p, (g p).name = p.name ∧ (g p).visible = p.visible ∧ (g p).others = p.others ∧ (g p).info = p.info := by
      intro p
      simp only [g]
      split <;> simp [Part.info]
    have hparts : (m.rewire part n v).parts = m.parts.map g := rfl
    refine ⟨?_, hi.ports, ?_, ?_, ?_⟩
    · rw [hparts, List.map_map]
      have : Part.name ∘ g = Part.name := funext fun p => (hg1 p).1
      rw [this]
      exact hi.names
    · intro p hp
      rw [hparts] at hp
      obtain ⟨q, hq, rfl⟩ := List.mem_map.mp hp
      rw [(hg1 q).2.1]
      exact hi.set q hq
    · intro k
      have : (m.rewire part n v).row? k = m.row? k := rfl
      rw [this, hi.table k]
      unfold Manager.part?
      rw [hparts, List.find?_map]
      have : ((fun p : Part => decide (p.name = k)) ∘ g) = fun p => decide (p.name = k) := by
        funext p
        simp [(hg1 p).1]
      rw [this]
      cases (m.parts.find? fun p => decide (p.name = k)) with
      | none => rfl
      | some p => simp [(hg1 p).2.2.2]
    · intro p hp q hq
      rw [hparts] at hp hq
      obtain ⟨p0, hp0, rfl⟩ := List.mem_map.mp hp
      obtain ⟨q0, hq0, rfl⟩ := List.mem_map.mp hq
      rw [(hg1 p0).1, (hg1 q0).1, (hg1 q0).2.1, (hg1 p0).2.2.1]
      exact hi.known p0 hp0 q0 hq0

theorem ops_inv {m m1 : Manager} : {os : List Op} → Inv m → (∀ o ∈ os, GoodOp o) → m.ops os = some m1 → Inv m1
  | [], hi, _, h => by
    simp only [Manager.ops, Option.some.injEq] at h
    exact h ▸ hi
  | o :: os, hi, hg, h => by
    unfold Manager.ops at h
    cases h1 : m.op o with
    | none => simp [h1] at h
    | some m2 =>
      simp only [h1] at h
      exact ops_inv (next_inv hi (hg o List.mem_cons_self) h1) (fun o ho => hg o (List.mem_cons_of_mem _ ho)) h

/-- Every history of a manager from its first layout on -/
theorem history_inv {m m1 : Manager} {rows : List Row} {os : List Op} (hf : Fresh m) (ha : Announced m rows)
    (hg : ∀ o ∈ os, GoodOp o) (h : m.ops (.layout rows :: os) = some m1) : Inv m1 := by
  unfold Manager.ops at h
  cases h1 : m.op (.layout rows) with
  | none => simp [h1] at h
  | some m2 =>
    simp only [h1] at h
    exact ops_inv (first_inv hf ha h1) hg h

/-! ### The property -/

theorem hit_iff {m : Manager} (hg : GoodPorts (m.ports.of q)) {v : String} {t : Port} :
    hit m.ports (some q) v t = true ↔ q = "" ∨ Offers m q t v := by
  unfold hit Offers
  dsimp only
  split
  · rename_i h; simp [h]
  · rename_i h
    rw [decide_eq_true_eq, sourceLookup_get hg]
    simp [h]

theorem layoutHooks_all {ports : Ports} {rows : List Row} {p : Part} : {l ps : List Part} → p ∈ l →
    layoutHooks ports rows l = some ps → ∃ p1, onLayout ports rows p = some p1
  | [], _, hm, _ => by simp at hm
  | x :: l, ps, hm, h => by
    unfold layoutHooks at h
    cases h1 : onLayout ports rows x with
    | none => simp [h1] at h
    | some x1 =>
      cases h2 : layoutHooks ports rows l with
      | none => simp [h1, h2] at h
      | some l2 =>
        rcases List.mem_cons.mp hm with rfl | hm
        · exact ⟨x1, h1⟩
        · exact layoutHooks_all hm h2

/-- What a layout does to a part -/
theorem setLayout_one {m m1 : Manager} {rows : List Row} (h : m.setLayout rows = some m1) {n : Name} {p : Part}
    (hp : m.part? n = some p) : ∃ p1 p2, m1.part? n = some p1 ∧ onRows m.ports p rows = some p2 ∧ p1.child = p2.child ∧
      p1.mri = p2.mri ∧ p1.x = p2.x ∧ p1.y = p2.y ∧ ∃ b, p1.visible = some (p2.visible.getD b) := by
  have h0 := h
  unfold Manager.setLayout at h0
  simp only [Option.map_eq_some_iff] at h0
  obtain ⟨ps, hps, _⟩ := h0
  obtain ⟨p1, hl⟩ := layoutHooks_all (part_mem hp).1 hps
  obtain ⟨p2, hr, -, h1, h2, h3, h4, -, h5⟩ := onLayout_facts hl
  have := (setLayout_part h).1 n
  rw [hp] at this
  exact ⟨p1, p2, by rw [this]; exact hl, hr, h4, h1, h2, h3, _, h5⟩

/-- C30, the sources: after the first layout, whatever has happened, rows that hide a visible part set every
writeable sink of another part that is wired to one of its sources to its value without a wire.

Partial: the parts that are visible from the start are named by the first layout or wired (`Announced`, see
`hidden_wire_kept`), and a sink that is not writeable keeps its wire. -/
theorem hidden_source_cut_partial {m0 m m1 : Manager} {first rows : List Row} {os : List Op}
    (hf : Fresh m0) (ha : Announced m0 first) (hg : ∀ o ∈ os, GoodOp o) (hm : m0.ops (.layout first :: os) = some m)
    (hn : (rows.map Row.name).Nodup) (h : m.setLayout rows = some m1)
    {q : Name} {i : LayoutInfo} (hq : m.row? q = some i) (hv : i.visible = true) (hh : Hides rows q)
    {p s : Name} {off : String} (hw : Wired m p s off q) (hpq : p ≠ q) (hwr : ∀ a, m.attr? p s = some a → a.writeable = true) :
    ∃ a, m1.attr? p s = some a ∧ a.value = off := by
  have hi := history_inv hf ha hg hm
  obtain ⟨t, a, ⟨v, hs⟩, hat, hoff⟩ := hw
  obtain ⟨pp, hpp, hc⟩ := Option.bind_eq_some_iff.mp hat
  obtain ⟨hp1, hp2⟩ := part_mem hpp
  rw [hi.table q] at hq
  obtain ⟨qp, hqp, hqi⟩ := Option.map_eq_some_iff.mp hq
  obtain ⟨hq1, hq2⟩ := part_mem hqp
  have hqv : qp.visible = some true := by
    obtain ⟨b, hb⟩ := hi.set qp hq1
    rw [← hqi] at hv
    simp only [Part.info, hb, Option.getD_some] at hv
    rw [hb, hv]
  have hk := hi.known pp hp1 qp hq1 (by rw [hp2, hq2]; exact hpq) hqv
  obtain ⟨p1, p2, e1, hr, hch, -⟩ := setLayout_one h hpp
  obtain ⟨r, hrm, hrn, hrv⟩ := hh
  have hsp : (sinkPorts (m.ports.of pp.name)).get? s = some (t, off) := by
    rw [sinkPorts_get (hi.ports _), hp2]
    exact ⟨v, hs⟩
  have := onRows_cuts hn hr hc hsp (hwr a hat) hrm ⟨hrv, Or.inr ⟨by rw [hrn, hp2]; exact Ne.symm hpq,
    by rw [hrn, ← hq2]; exact hk, by rw [hrn, hit_iff (hi.ports q)]; exact Or.inr hoff⟩⟩
  refine ⟨{ a with value := off }, ?_, rfl⟩
  show (m1.part? p).bind _ = _
  rw [e1]
  simp only [Option.bind_some, hch]
  exact this

/-- C30, the sinks: rows that hide a visible part set every writeable sink of it to its value without a wire -/
theorem hidden_sink_cut {m0 m m1 : Manager} {first rows : List Row} {os : List Op}
    (hf : Fresh m0) (ha : Announced m0 first) (hg : ∀ o ∈ os, GoodOp o) (hm : m0.ops (.layout first :: os) = some m)
    (hn : (rows.map Row.name).Nodup) (h : m.setLayout rows = some m1)
    {p : Name} {i : LayoutInfo} (hp : m.row? p = some i) (hv : i.visible = true) (hh : Hides rows p)
    {s : Name} {t : Port} {off : String} (hs : HasSink m p s t off) {a : Attr} (hat : m.attr? p s = some a)
    (hwr : a.writeable = true) : m1.attr? p s = some { a with value := off } := by
  have hi := history_inv hf ha hg hm
  obtain ⟨v, hs⟩ := hs
  obtain ⟨pp, hpp, hc⟩ := Option.bind_eq_some_iff.mp hat
  obtain ⟨hp1, hp2⟩ := part_mem hpp
  rw [hi.table p, hpp] at hp
  have hpv : pp.visible = some true := by
    obtain ⟨b, hb⟩ := hi.set pp hp1
    simp only [Option.map_some, Option.some.injEq] at hp
    rw [← hp] at hv
    simp only [Part.info, hb, Option.getD_some] at hv
    rw [hb, hv]
  obtain ⟨p1, p2, e1, hr, hch, -⟩ := setLayout_one h hpp
  obtain ⟨r, hrm, hrn, hrv⟩ := hh
  have hsp : (sinkPorts (m.ports.of pp.name)).get? s = some (t, off) := by
    rw [sinkPorts_get (hi.ports _), hp2]
    exact ⟨v, hs⟩
  have := onRows_cuts hn hr hc hsp hwr hrm ⟨hrv, Or.inl ⟨by rw [hrn, hp2], hpv⟩⟩
  show (m1.part? p).bind _ = _
  rw [e1]
  simp only [Option.bind_some, hch]
  exact this

/-- C30, nothing else: an attribute of a child that a layout changes is a writeable sink, it gets its value without a wire,
and either the rows hide its own part, which was visible, or they hide a part whose source it was wired to -/
theorem nothing_else_cut {m0 m m1 : Manager} {first rows : List Row} {os : List Op}
    (hf : Fresh m0) (ha : Announced m0 first) (hg : ∀ o ∈ os, GoodOp o) (hm : m0.ops (.layout first :: os) = some m)
    (hn : (rows.map Row.name).Nodup) (he : ∀ r ∈ rows, r.name ≠ "") (h : m.setLayout rows = some m1)
    {p s : Name} (hc : m1.attr? p s ≠ m.attr? p s) :
    ∃ a t off, m.attr? p s = some a ∧ a.writeable = true ∧ HasSink m p s t off ∧ m1.attr? p s = some { a with value := off } ∧
      ((Hides rows p ∧ ∃ i, m.row? p = some i ∧ i.visible = true) ∨ ∃ q, q ≠ p ∧ Hides rows q ∧ Wired m p s off q) := by
  have hi := history_inv hf ha hg hm
  cases hpp : m.part? p with
  | none =>
    have := (setLayout_part h).1 p
    rw [hpp] at this
    simp [Manager.attr?, hpp, this] at hc
  | some pp =>
    obtain ⟨hp1, hp2⟩ := part_mem hpp
    obtain ⟨p1, p2, e1, hr, hch, -⟩ := setLayout_one h hpp
    have h0 : m.attr? p s = pp.child.get? s := by simp [Manager.attr?, hpp]
    have h1 : m1.attr? p s = p2.child.get? s := by simp [Manager.attr?, e1, hch]
    rw [h0, h1] at hc
    rw [h0, h1]
    rcases onRows_child hn hr s with hk | ⟨a, t, off, f1, f2, f3, f4, r, hrm, hrv, hreason⟩
    · exact absurd hk hc
    · have hsink : HasSink m p s t off := by
        obtain ⟨v, hv⟩ := (sinkPorts_get (hi.ports _)).mp f2
        exact ⟨v, hp2 ▸ hv⟩
      refine ⟨a, t, off, f1, f3, hsink, f4, ?_⟩
      rcases hreason with ⟨c1, c2⟩ | ⟨c1, c2, c3⟩
      · refine Or.inl ⟨⟨r, hrm, by rw [c1, hp2], hrv⟩, pp.info, by rw [hi.table p, hpp]; rfl, by simp [Part.info, c2]⟩
      · refine Or.inr ⟨r.name, by rw [← hp2]; exact c1, ⟨r, hrm, rfl, hrv⟩, t, a, hsink, by rw [h0, f1], ?_⟩
        exact ((hit_iff (hi.ports _)).mp c3).resolve_left (he r hrm)

/-- C30, the layout table: the parts named by the rows are where and as visible as the rows say, and the others are as they were -/
theorem table_as_asked {m0 m m1 : Manager} {first rows : List Row} {os : List Op}
    (hf : Fresh m0) (ha : Announced m0 first) (hg : ∀ o ∈ os, GoodOp o) (hm : m0.ops (.layout first :: os) = some m)
    (h : m.setLayout rows = some m1) (n : Name) :
    m1.row? n = (m.row? n).map fun i => match asked rows n with
      | some r => ⟨i.mri, r.x, r.y, r.visible⟩
      | none => i := by
  have hi := history_inv hf ha hg hm
  have hi1 : Inv m1 := next_inv (o := .layout rows) hi trivial h
  rw [hi.table n, hi1.table n]
  cases hpp : m.part? n with
  | none =>
    have := (setLayout_part h).1 n
    rw [hpp] at this
    simp [this]
  | some pp =>
    obtain ⟨hp1, hp2⟩ := part_mem hpp
    obtain ⟨p1, p2, e1, hr, -, f1, f2, f3, b0, f4⟩ := setLayout_one h hpp
    obtain ⟨-, g1, g2, -⟩ := onRows_frame hr
    obtain ⟨b, hb⟩ := hi.set pp hp1
    rw [e1]
    simp only [Option.map_some, Option.some.injEq]
    rw [hp2] at g2
    cases hask : asked rows n with
    | some r =>
      rw [hask] at g2
      simp only [Prod.mk.injEq] at g2
      simp [Part.info, f1, f2, f3, f4, g1, g2]
    | none =>
      rw [hask] at g2
      simp only [Prod.mk.injEq] at g2
      simp [Part.info, f1, f2, f3, f4, g1, g2, hb]

/-! ### A manager with two parts -/

/-- `PULSE` has a source, `PCAP` a sink, wired or not -/
def two (visible : Option Bool) (wire : String) : Manager :=
  { parts := [{ name := "PULSE", mri := "P:PULSE", visible := visible, child := [("out", ⟨"", false⟩)] },
              { name := "PCAP", mri := "P:PCAP", visible := visible, child := [("enable", ⟨wire, true⟩), ("other", ⟨"x", true⟩)] }],
    ports := [("PULSE", [.source "out" .bool "PULSE.OUT"]), ("PCAP", [.sink "enable" .bool "ZERO" wire])] }

theorem two_fresh (v : Option Bool) (w : String) : Fresh (two v w) := by
  refine ⟨by simp [two], by simp [two], fun n => ?_⟩
  have : (two v w).ports.of n = [.source "out" .bool "PULSE.OUT"] ∨ (two v w).ports.of n = [.sink "enable" .bool "ZERO" w] ∨
      (two v w).ports.of n = [] := by
    unfold Ports.of two
    dsimp only
    rw [Dict.get?_cons, Dict.get?_cons]
    split
    · simp
    · split
      · simp
      · simp [Dict.get?]
  rcases this with h | h | h <;> rw [h] <;> simp (config := { contextual := true }) [GoodPorts, PortInfo.name]

/-- The hypotheses are met: both parts are shown because they are wired; hiding the source cuts the wire -/
example :
    let m := ((two none "PULSE.OUT").ops [.layout []]).get!
    Announced (two none "PULSE.OUT") [] ∧ (two none "PULSE.OUT").ops [.layout []] = some m ∧
    m.row? "PULSE" = some ⟨"P:PULSE", 0, 0, true⟩ ∧ Hides [⟨"PULSE", 3, 4, false⟩] "PULSE" ∧
    Wired m "PCAP" "enable" "ZERO" "PULSE" ∧
    (m.setLayout [⟨"PULSE", 3, 4, false⟩]).map (fun m => (m.row? "PULSE", m.row? "PCAP", m.attr? "PCAP" "enable", m.attr? "PCAP" "other"))
      = some (some ⟨"P:PULSE", 3, 4, false⟩, some ⟨"P:PCAP", 0, 0, true⟩, some ⟨"ZERO", true⟩, some ⟨"x", true⟩) := by
  refine ⟨by simp [Announced, two], by decide +kernel, by decide +kernel, ⟨_, List.mem_cons_self, rfl, rfl⟩, ?_, by decide +kernel⟩
  exact ⟨.bool, ⟨"PULSE.OUT", true⟩, ⟨"PULSE.OUT", by decide +kernel⟩, by decide +kernel, "out", by decide +kernel⟩

/-- A part that is visible from the start, neither wired nor named by the first layout, and wired later: hiding it leaves
the wire -/
theorem hidden_wire_kept :
    ∃ m, (two (some true) "ZERO").ops [.layout [], .rewire "PCAP" "enable" "PULSE.OUT"] = some m ∧
      m.row? "PULSE" = some ⟨"P:PULSE", 0, 0, true⟩ ∧ Wired m "PCAP" "enable" "ZERO" "PULSE" ∧
      ∃ m1, m.setLayout [⟨"PULSE", 0, 0, false⟩] = some m1 ∧ m1.row? "PULSE" = some ⟨"P:PULSE", 0, 0, false⟩ ∧
        m1.attr? "PCAP" "enable" = some ⟨"PULSE.OUT", true⟩ := by
  refine ⟨((two (some true) "ZERO").ops [.layout [], .rewire "PCAP" "enable" "PULSE.OUT"]).get!, by decide +kernel,
    by decide +kernel, ?_, (((two (some true) "ZERO").ops [.layout [], .rewire "PCAP" "enable" "PULSE.OUT",
      .layout [⟨"PULSE", 0, 0, false⟩]]).get!), by decide +kernel, by decide +kernel, by decide +kernel⟩
  exact ⟨.bool, ⟨"PULSE.OUT", true⟩, ⟨"ZERO", by decide +kernel⟩, by decide +kernel, "out", by decide +kernel⟩

/-- A row without a name that is shown and then hidden cuts all wires, although nothing is hidden -/
theorem empty_name_cuts :
    ((two none "PULSE.OUT").ops [.layout [], .layout [⟨"", 0, 0, true⟩]]).map (·.attr? "PCAP" "enable")
      = some (some ⟨"PULSE.OUT", true⟩) ∧
    ((two none "PULSE.OUT").ops [.layout [], .layout [⟨"", 0, 0, true⟩], .layout [⟨"", 0, 0, false⟩]]).map
        (fun m => (m.attr? "PCAP" "enable", m.layout.map fun r => (r.1, r.2.visible)))
      = some (some ⟨"ZERO", true⟩, [("PULSE", true), ("PCAP", true)]) := by
  decide +kernel

end Verif.Layout
