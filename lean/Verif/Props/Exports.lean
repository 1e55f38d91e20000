import Verif.Spec.Exports
import Verif.Proofs.PyDict
/-!
C29: exports are exactly the export table.
-/
namespace Verif.Exports

/-! ### Removing and adding fields -/

theorem erase_append {K V : Type} [DecidableEq K] (a : Dict K V) (k : K) (v : V) (b : Dict K V)
    (h : k ∉ a.map (·.1)) : Dict.erase (a ++ (k, v) :: b) k = a ++ b := by
  induction a with
  | nil => simp [Dict.erase]
  | cons x a ih =>
    simp only [List.map_cons, List.mem_cons, not_or] at h
    simp only [List.cons_append, Dict.erase, if_neg (Ne.symm h.1), ih h.2]

theorem mem_append {K V : Type} [DecidableEq K] (a : Dict K V) (k : K) (v : V) (b : Dict K V) :
    Dict.mem (a ++ (k, v) :: b) k = true := by
  rw [Dict.mem_iff]
  simp [Dict.keys]

theorem set_append {K V : Type} [DecidableEq K] (a : Dict K V) (k : K) (v : V) (h : k ∉ a.map (·.1)) :
    Dict.set a k v = a ++ [(k, v)] := by
  induction a with
  | nil => rfl
  | cons x a ih =>
    simp only [List.map_cons, List.mem_cons, not_or] at h
    simp only [List.cons_append, Dict.set, if_neg (Ne.symm h.1), ih h.2]

theorem removeAll_append (a : Dict Name Src) : (c : List (Name × Src)) → ((a ++ c).map (·.1)).Nodup →
    removeAll (a ++ c) (c.map (·.1)) = (a, true)
  | [], _ => by simp [removeAll]
  | x :: c, h => by
    have hmem : Dict.mem (a ++ x :: c) x.1 = true := mem_append a x.1 x.2 c
    simp only [List.map_cons, removeAll, if_pos hmem]
    rw [List.map_append, List.map_cons, List.nodup_append] at h
    rw [erase_append _ _ _ _ (fun hm => h.2.2 _ hm _ List.mem_cons_self rfl)]
    apply removeAll_append
    rw [List.map_append, List.nodup_append]
    exact ⟨h.1, (List.nodup_cons.mp h.2.1).2, fun x hx y hy => h.2.2 x hx y (List.mem_cons_of_mem _ hy)⟩

theorem addAll_append : (c : List (Name × Src)) → (a : Dict Name Src) → ((a ++ c).map (·.1)).Nodup →
    "meta" ∉ c.map (·.1) → addAll a c = (a ++ c, true)
  | [], a, _, _ => by simp [addAll]
  | (n, s) :: c, a, h, hm => by
    simp only [List.map_cons, List.mem_cons, not_or] at hm
    simp only [addAll, if_neg (Ne.symm hm.1)]
    have h2 := h
    rw [List.map_append, List.map_cons, List.nodup_append] at h
    rw [set_append _ _ _ (fun hn => h.2.2 _ hn _ List.mem_cons_self rfl)]
    rw [addAll_append c (a ++ [(n, s)]) (by rw [List.append_assoc]; exact h2) hm.2]
    simp

/-! ### The fields a manager wants -/

theorem exportFields_names {m : Manager} : {rows : List Row} → {fs : List (Name × Src)} → m.exportFields rows = some fs →
    (fs.map (·.1)).Sublist (rows.map rowName)
  | [], fs, h => by simp only [Manager.exportFields, Option.some.injEq] at h; subst h; simp
  | r :: rs, fs, h => by
    unfold Manager.exportFields at h
    split at h
    · cases h1 : m.exportFields rs with
      | none => simp [h1] at h
      | some fs1 =>
        simp only [h1, Option.some.injEq] at h
        have ih := exportFields_names h1
        subst h
        split
        · split
          · exact List.Sublist.cons₂ _ ih
          · exact List.Sublist.cons _ ih
        · exact List.Sublist.cons _ ih
    · simp at h

theorem partFields_names (m : Manager) : (m.partFields.map (·.1)).Sublist (m.parts.flatMap (·.2)) := by
  unfold Manager.partFields
  generalize (fun p : Name × List Name => decide (p.1 ∉ m.invisible)) = f
  induction m.parts with
  | nil => simp
  | cons p ps ih =>
    rw [List.filter_cons]
    split
    · rw [List.flatMap_cons, List.flatMap_cons, List.map_append]
      apply List.Sublist.append _ ih
      simp [Function.comp_def]
    · rw [List.flatMap_cons]
      exact ih.trans (List.sublist_append_right _ _)

theorem getCurrent_names {m : Manager} {fs : List (Name × Src)} (h : m.getCurrent = some fs) :
    (fs.map (·.1)).Sublist (m.parts.flatMap (·.2) ++ m.rows.map rowName) := by
  unfold Manager.getCurrent at h
  cases h1 : m.exportFields m.rows with
  | none => simp [h1] at h
  | some es =>
    simp only [h1, Option.some.injEq] at h
    subst h
    rw [List.map_append]
    exact (partFields_names m).append (exportFields_names h1)

theorem exportFields_some {m : Manager} : {rows : List Row} → (∀ r ∈ rows, r.part ∈ m.parts.map (·.1)) →
    ∃ fs, m.exportFields rows = some fs
  | [], _ => ⟨[], rfl⟩
  | r :: rs, h => by
    obtain ⟨fs, hfs⟩ := exportFields_some (rows := rs) (fun r hr => h r (List.mem_cons_of_mem _ hr))
    have : m.parts.any (·.1 = r.part) = true := by
      have := h r List.mem_cons_self
      simpa using this
    unfold Manager.exportFields
    rw [if_pos this, hfs]
    exact ⟨_, rfl⟩

/-- What is always true: even inside a load -/
structure Weak (m : Manager) : Prop where
  block : m.block = m.own.map (fun n => (n, .own)) ++ m.current
  nodup : (m.own ++ m.current.map (·.1)).Nodup
  saved : m.saved = true
  choices : m.choices = m.names
  distinct : Distinct m.own m.parts m.rows
  parts : ∀ r ∈ m.rows, r.part ∈ m.parts.map (·.1)
  layout : ∃ vis : Name → Bool, m.layout = m.children.map fun c => (c.1, c.2, vis c.1)

/-- What is true between operations -/
structure Inv (m : Manager) : Prop extends Weak m where
  current : m.getCurrent = some m.current

theorem own_map (l : List Name) : (l.map fun n => (n, Src.own)).map (·.1) = l := by
  induction l with
  | nil => rfl
  | cons a l ih => simp [Function.comp_def]

theorem update_ok {m : Manager} (hb : m.block = m.own.map (fun n => (n, .own)) ++ m.current)
    (hn : (m.own ++ m.current.map (·.1)).Nodup) (hd : Distinct m.own m.parts m.rows)
    (hp : ∀ r ∈ m.rows, r.part ∈ m.parts.map (·.1)) :
    ∃ fs, m.getCurrent = some fs ∧ (m.own ++ fs.map (·.1)).Nodup ∧
      m.updateEndpoints = ({ m with block := m.own.map (fun n => (n, .own)) ++ fs, current := fs }, true) := by
  obtain ⟨es, hes⟩ := exportFields_some hp
  refine ⟨m.partFields ++ es, ?_, ?_, ?_⟩
  · unfold Manager.getCurrent
    rw [hes]
  all_goals
    have hg : m.getCurrent = some (m.partFields ++ es) := by
      unfold Manager.getCurrent
      rw [hes]
    have hsub := getCurrent_names hg
    have hnd : (m.own ++ (m.partFields ++ es).map (·.1)).Nodup := by
      have := hd.1
      rw [List.append_assoc] at this
      exact ((List.Sublist.refl m.own).append hsub).nodup this
  · exact hnd
  · have h1 : removeAll m.block (m.current.map (·.1)) = (m.own.map (fun n => (n, .own)), true) := by
      rw [hb]
      exact removeAll_append _ _ (by rw [List.map_append, own_map]; exact hn)
    have h2 : addAll (m.own.map fun n => (n, Src.own)) (m.partFields ++ es) =
        (m.own.map (fun n => (n, .own)) ++ (m.partFields ++ es), true) := by
      apply addAll_append
      · rw [List.map_append, own_map]; exact hnd
      · intro hm
        have := hd.2
        rw [List.append_assoc] at this
        exact this (List.mem_append_right _ (hsub.subset hm))
    unfold Manager.updateEndpoints
    rw [h1]
    dsimp only
    rw [hg]
    dsimp only
    rw [h2]

theorem getCurrent_congr {m m1 : Manager} (h1 : m1.parts = m.parts) (h2 : m1.layout = m.layout) (h3 : m1.rows = m.rows)
    (h4 : ∀ r ∈ m.rows, m1.canExport r.part r.attr = m.canExport r.part r.attr) : m1.getCurrent = m.getCurrent := by
  have hm : m1.mris = m.mris := by unfold Manager.mris; rw [h2]
  have hi : m1.invisible = m.invisible := by unfold Manager.invisible; rw [h2]
  have hp : m1.partFields = m.partFields := by unfold Manager.partFields; rw [h1, hi]
  have he : ∀ rows : List Row, (∀ r ∈ rows, m1.canExport r.part r.attr = m.canExport r.part r.attr) →
      m1.exportFields rows = m.exportFields rows := by
    intro rows
    induction rows with
    | nil => intro _; rfl
    | cons r rs ih =>
      intro h
      unfold Manager.exportFields
      rw [h1, ih fun r hr => h r (List.mem_cons_of_mem _ hr), hm, h r List.mem_cons_self]
  unfold Manager.getCurrent
  rw [h3, he m.rows h4, hp]

theorem weak_update {m : Manager} (h : Weak m) : Inv m.updateEndpoints.1 ∧ m.updateEndpoints.2 = true ∧
    m.updateEndpoints.1 = { m with block := m.updateEndpoints.1.block, current := m.updateEndpoints.1.current } := by
  obtain ⟨fs, hg, hn, hu⟩ := update_ok h.block h.nodup h.distinct h.parts
  rw [hu]
  refine ⟨⟨⟨rfl, hn, h.saved, h.choices, h.distinct, h.parts, h.layout⟩, ?_⟩, rfl, rfl⟩
  refine Eq.trans ?_ hg
  exact getCurrent_congr (m := m) rfl rfl rfl fun _ _ => rfl

theorem mem_names {m : Manager} {p a : Name} : (p, a) ∈ m.names ↔ Has m p a := by
  unfold Manager.names Has
  simp only [List.mem_flatMap, List.mem_map, Prod.mk.injEq]
  constructor
  · rintro ⟨q, hq, b, hb, rfl, rfl⟩
    exact ⟨⟨q, hq, rfl⟩, hb⟩
  · rintro ⟨⟨q, hq, rfl⟩, hb⟩
    exact ⟨q, hq, a, hb, rfl, rfl⟩

theorem names_congr {m m1 : Manager} (h1 : m1.parts = m.parts) (h2 : m1.exportable = m.exportable) : m1.names = m.names := by
  unfold Manager.names; rw [h1, h2]

/-- A report, which may change what can be exported -/
theorem report_weak {m : Manager} (h : Weak m) (part : Name) (ns : List Name) :
    Weak (m.report part ns).1 ∧ (m.report part ns).2 = true ∧ (Inv m → Inv (m.report part ns).1) ∧
    (m.report part ns).1.own = m.own ∧ (m.report part ns).1.parts = m.parts ∧ (m.report part ns).1.rows = m.rows ∧
    (m.report part ns).1.layout = m.layout := by
  let m0 : Manager := { m with exportable := m.exportable.set part ns }
  let m1 : Manager := { m0 with choices := m0.names }
  have hw : Weak m1 := ⟨h.block, h.nodup, h.saved, rfl, h.distinct, h.parts, h.layout⟩
  have hr : m.report part ns = if m.rows.any fun r => decide ((r.part, r.attr) ∈ m0.names) !=
      decide ((r.part, r.attr) ∈ m.choices) then m1.updateEndpoints else (m1, true) := by
    show m0.updateExportable = _
    unfold Manager.updateExportable
    rw [if_pos h.saved]
  rw [hr]
  split
  · obtain ⟨i1, i2, i3⟩ := weak_update hw
    refine ⟨i1.toWeak, i2, fun _ => i1, ?_, ?_, ?_, ?_⟩ <;> rw [i3]
  · rename_i hc
    refine ⟨hw, rfl, fun hi => ⟨hw, ?_⟩, rfl, rfl, rfl, rfl⟩
    refine (getCurrent_congr (m := m) (m1 := m1) rfl rfl rfl fun r hr => ?_).trans hi.current
    have hp := h.parts r hr
    have hsame : (r.part, r.attr) ∈ m0.names ↔ (r.part, r.attr) ∈ m.choices := by
      refine Classical.byContradiction fun hne => hc (List.any_eq_true.mpr ⟨r, hr, ?_⟩)
      by_cases h1 : (r.part, r.attr) ∈ m0.names <;> by_cases h2 : (r.part, r.attr) ∈ m.choices <;> simp_all
    rw [h.choices, mem_names, mem_names] at hsame
    unfold Has at hsame
    unfold Manager.canExport
    have : (r.part ∈ m0.parts.map (·.1)) := hp
    simp only [hp, this, true_and] at hsame
    exact decide_eq_decide.mpr hsame

theorem exportable_same {m : Manager} (hs : m.saved = true) (hc : m.choices = m.names) : m.updateExportable = (m, true) := by
  unfold Manager.updateExportable
  rw [if_pos hs, ← hc]
  have : (m.rows.any fun r => decide ((r.part, r.attr) ∈ m.choices) != decide ((r.part, r.attr) ∈ m.choices)) = false := by
    simp
  dsimp only
  rw [if_neg (by rw [this]; simp)]

theorem same_column {A : Type} {f g : A → Bool} : (l : List A) → (l.map f) = l.map g → ∀ a ∈ l, f a = g a
  | [], _, a, h => by simp at h
  | x :: l, h, a, ha => by
    simp only [List.map_cons, List.cons.injEq] at h
    rcases List.mem_cons.mp ha with rfl | ha
    · exact h.1
    · exact same_column l h.2 a ha

theorem layout_inv {m : Manager} (h : Inv m) (vis : Name → Bool) : Inv (m.setLayout vis).1 ∧ (m.setLayout vis).2 = true ∧
    (m.setLayout vis).1.own = m.own ∧ (m.setLayout vis).1.parts = m.parts ∧ (m.setLayout vis).1.rows = m.rows := by
  let m1 : Manager := { m with layout := m.children.map fun c => (c.1, c.2, vis c.1), saved := true }
  have hw : Weak m1 := ⟨h.block, h.nodup, rfl, h.choices.trans (names_congr rfl rfl), h.distinct, h.parts, vis, rfl⟩
  have hdef : m.setLayout vis =
      if (m.children.map fun c => (c.1, c.2, vis c.1)).map (·.2.2) ≠ m.layout.map (·.2.2) ∨ m.saved = false then
        m1.updateEndpoints else (m1, true) := by
    unfold Manager.setLayout
    dsimp only
    rw [show ({ m with layout := m.children.map fun c => (c.1, c.2, vis c.1), saved := true } : Manager) = m1 from rfl,
      exportable_same hw.saved hw.choices]
  rw [hdef]
  split
  · obtain ⟨i1, i2, i3⟩ := weak_update hw
    refine ⟨i1, i2, ?_, ?_, ?_⟩ <;> rw [i3]
  · rename_i hc
    simp only [not_or, ne_eq, Classical.not_not] at hc
    obtain ⟨vis0, hl⟩ := h.layout
    have hsame : m1.layout = m.layout := by
      rw [hl]
      apply List.map_congr_left
      intro c hcm
      have h1 := hc.1
      rw [hl, List.map_map, List.map_map] at h1
      have := same_column m.children h1 c hcm
      simp only [Function.comp] at this
      rw [this]
    exact ⟨⟨hw, (getCurrent_congr (m := m) (m1 := m1) rfl hsame rfl fun _ _ => rfl).trans h.current⟩, rfl, rfl, rfl, rfl⟩

/-- The first layout, which `do_init` makes -/
theorem first_inv {m : Manager} (hb : m.block = m.own.map fun n => (n, .own)) (hc : m.current = []) (hr : m.rows = [])
    (hs : m.saved = false) (hd : Distinct m.own m.parts []) (vis : Name → Bool) :
    Inv (m.setLayout vis).1 ∧ (m.setLayout vis).2 = true ∧ (m.setLayout vis).1.own = m.own ∧
    (m.setLayout vis).1.parts = m.parts := by
  let m1 : Manager := { m with layout := m.children.map fun c => (c.1, c.2, vis c.1), saved := true }
  let m2 : Manager := { m1 with choices := m1.names }
  have hw : Weak m2 := by
    refine ⟨by simp [m2, m1, hb, hc], ?_, rfl, rfl, by simp only [m2, m1, hr]; exact hd, by simp [m2, m1, hr], vis, rfl⟩
    have := hd.1
    simp only [List.map_nil, List.append_nil] at this
    simp only [m2, m1, hc, List.map_nil, List.append_nil]
    exact (List.nodup_append.mp this).1
  have hdef : m.setLayout vis = m2.updateEndpoints := by
    unfold Manager.setLayout
    dsimp only
    rw [if_pos (Or.inr hs)]
    have : m1.updateExportable = (m2, true) := by
      unfold Manager.updateExportable
      simp [m1, m2, hr]
    rw [show ({ m with layout := m.children.map fun c => (c.1, c.2, vis c.1), saved := true } : Manager) = m1 from rfl, this]
  rw [hdef]
  obtain ⟨i1, i2, i3⟩ := weak_update hw
  refine ⟨i1, i2, ?_, ?_⟩ <;> rw [i3]

theorem valid_parts {m : Manager} (h : m.choices = m.names) {rows : List Row} :
    m.valid rows = true ↔ ∀ r ∈ rows, Has m r.part r.attr := by
  unfold Manager.valid
  rw [List.all_eq_true, h]
  simp only [decide_eq_true_eq, mem_names]

theorem exports_inv {m : Manager} (h : Inv m) {rows : List Row} (hd : Distinct m.own m.parts rows) :
    Inv (m.putExports rows).1 ∧ (m.putExports rows).1.own = m.own ∧ (m.putExports rows).1.parts = m.parts ∧
    ((m.putExports rows).2 = true ↔ (∀ r ∈ rows, Has m r.part r.attr) ∧ ∀ r ∈ rows, Fields.camelRe r.name.toList = true) ∧
    ((m.putExports rows).2 = true → (m.putExports rows).1.rows = rows) ∧ ((m.putExports rows).2 = false → (m.putExports rows).1 = m) := by
  unfold Manager.putExports
  split
  · rename_i hc
    have hv := (valid_parts h.choices).mp hc.1
    have hw : Weak { m with rows := rows } := ⟨h.block, h.nodup, h.saved, h.choices, hd, fun r hr => (hv r hr).1, h.layout⟩
    obtain ⟨i1, i2, i3⟩ := weak_update hw
    refine ⟨i1, ?_, ?_, ?_, ?_, ?_⟩
    · rw [i3]
    · rw [i3]
    · simp only [i2, true_iff]
      exact ⟨hv, fun r hr => List.all_eq_true.mp hc.2 r hr⟩
    · intro _; rw [i3]
    · rw [i2]; simp
  · rename_i hc
    refine ⟨h, rfl, rfl, ?_, by simp, fun _ => rfl⟩
    simp only [Bool.false_eq_true, false_iff]
    intro hh
    exact hc ⟨(valid_parts h.choices).mpr hh.1, List.all_eq_true.mpr fun r hr => hh.2 r hr⟩

theorem reports_weak : {m : Manager} → (rs : List (Name × List Name)) → Weak m →
    Weak (m.reports rs).1 ∧ (m.reports rs).2 = true ∧ (m.reports rs).1.own = m.own ∧ (m.reports rs).1.parts = m.parts ∧
    (m.reports rs).1.rows = m.rows
  | m, [], h => ⟨h, rfl, rfl, rfl, rfl⟩
  | m, r :: rs, h => by
    obtain ⟨a1, a2, -, a3, a4, a5, -⟩ := report_weak h r.1 r.2
    have hdef : m.reports (r :: rs) = (m.report r.1 r.2).1.reports rs := by
      rw [Manager.reports]
      generalize hg : m.report r.1 r.2 = x at a2 ⊢
      obtain ⟨y, b⟩ := x
      cases (show b = true from a2)
      rfl
    rw [hdef]
    obtain ⟨b1, b2, b3, b4, b5⟩ := reports_weak rs a1
    exact ⟨b1, b2, by rw [b3, a3], by rw [b4, a4], by rw [b5, a5]⟩

theorem load_inv {m : Manager} (h : Inv m) (vis : Name → Bool) {rows : List Row} (hd : Distinct m.own m.parts rows)
    (rs : List (Name × List Name)) : Inv (m.load vis rows rs).1 ∧ (m.load vis rows rs).1.own = m.own ∧
    (m.load vis rows rs).1.parts = m.parts := by
  obtain ⟨a1, a2, a3, a4, a5⟩ := layout_inv h vis
  have hdef : m.load vis rows rs = if (m.setLayout vis).1.valid rows then
      match ({ (m.setLayout vis).1 with rows := rows } : Manager).reports rs with
      | (m, false) => (m, false)
      | (m, true) => m.updateEndpoints
      else ((m.setLayout vis).1, false) := by
    unfold Manager.load
    generalize hg : m.setLayout vis = x at a2 ⊢
    obtain ⟨y, b⟩ := x
    cases (show b = true from a2)
    rfl
  rw [hdef]
  split
  · rename_i hv
    have hv := (valid_parts a1.choices).mp hv
    have hw : Weak { (m.setLayout vis).1 with rows := rows } :=
      ⟨a1.block, a1.nodup, a1.saved, a1.choices, by rw [a3, a4]; exact hd, fun r hr => (hv r hr).1, a1.layout⟩
    obtain ⟨b1, b2, b3, b4, b5⟩ := reports_weak rs hw
    generalize hg : ({ (m.setLayout vis).1 with rows := rows } : Manager).reports rs = x at b1 b2 b3 b4 b5 ⊢
    obtain ⟨y, b⟩ := x
    cases (show b = true from b2)
    dsimp only at b1 b3 b4 b5 ⊢
    obtain ⟨i1, i2, i3⟩ := weak_update b1
    refine ⟨i1, ?_, ?_⟩ <;> rw [i3]
    · rw [← a3, ← b3]
    · rw [← a4, ← b4]
  · exact ⟨a1, a3, a4⟩

theorem op_inv {m : Manager} (h : Inv m) (o : Op) (hd : DistinctOp m.own m.parts o) :
    Inv (m.op o).1 ∧ (m.op o).1.own = m.own ∧ (m.op o).1.parts = m.parts := by
  cases o with
  | layout vis =>
    obtain ⟨a1, _, a3, a4, _⟩ := layout_inv h vis
    exact ⟨a1, a3, a4⟩
  | exports rows =>
    obtain ⟨a1, a2, a3, _⟩ := exports_inv h hd
    exact ⟨a1, a2, a3⟩
  | report p ns =>
    obtain ⟨_, _, a1, a2, a3, _⟩ := report_weak h.toWeak p ns
    exact ⟨a1 h, a2, a3⟩
  | load vis rows rs => exact load_inv h vis hd rs

theorem ops_inv : {os : List Op} → {m : Manager} → Inv m → (∀ o ∈ os, DistinctOp m.own m.parts o) →
    Inv (m.ops os) ∧ (m.ops os).own = m.own ∧ (m.ops os).parts = m.parts
  | [], m, h, _ => ⟨h, rfl, rfl⟩
  | o :: os, m, h, hd => by
    obtain ⟨a1, a2, a3⟩ := op_inv h o (hd o List.mem_cons_self)
    obtain ⟨b1, b2, b3⟩ := ops_inv (os := os) a1 (fun o ho => by rw [a2, a3]; exact hd o (List.mem_cons_of_mem _ ho))
    exact ⟨b1, b2.trans a2, b3.trans a3⟩

/-! ### The property -/

theorem mris_get (p : Name) : (l : List (Name × String × Bool)) → (d : Dict Name String) → (l.map (·.1)).Nodup →
    d.get? p = none →
    (l.foldl (fun d r => if r.2.2 then d.set r.1 r.2.1 else d) d).get? p =
      match l.find? fun r => r.1 = p with
      | some (_, mri, true) => some mri
      | _ => none
  | [], d, _, h => by simp [h]
  | (n, mri, v) :: l, d, hn, h => by
    simp only [List.map_cons, List.nodup_cons] at hn
    rw [List.foldl_cons, List.find?_cons]
    by_cases hp : n = p
    · subst hp
      have keep : ∀ (l : List (Name × String × Bool)) (d : Dict Name String), n ∉ l.map (·.1) →
          (l.foldl (fun d r => if r.2.2 then d.set r.1 r.2.1 else d) d).get? n = d.get? n := by
        intro l
        induction l with
        | nil => intro d _; rfl
        | cons x l ih =>
          intro d hx
          simp only [List.map_cons, List.mem_cons, not_or] at hx
          rw [List.foldl_cons, ih _ hx.2]
          split
          · rw [Dict.get?_set_ne _ _ (Ne.symm hx.1)]
          · rfl
      rw [keep l _ hn.1]
      simp only [decide_true]
      cases v <;> simp [h, Dict.get?_set_self]
    · simp only [hp, decide_false]
      apply mris_get p l _ hn.2
      split
      · rw [Dict.get?_set_ne _ _ hp, h]
      · exact h

theorem exportFields_eq {m : Manager} (hn : (m.layout.map (·.1)).Nodup) (hm : ∀ r ∈ m.layout, r.2.1 ≠ "") :
    {rows : List Row} → {fs : List (Name × Src)} → m.exportFields rows = some fs → fs = rows.filterMap (fieldOf m)
  | [], fs, h => by simp only [Manager.exportFields, Option.some.injEq] at h; subst h; rfl
  | r :: rs, fs, h => by
    unfold Manager.exportFields at h
    split at h
    · rename_i hp
      cases h1 : m.exportFields rs with
      | none => simp [h1] at h
      | some fs1 =>
        simp only [h1, Option.some.injEq] at h
        have ih := exportFields_eq hn hm h1
        subst ih
        have hg := mris_get r.part m.layout [] hn rfl
        have hp2 : r.part ∈ m.parts.map (·.1) := by simpa using hp
        have hhas : Has m r.part r.attr ↔ m.canExport r.part r.attr = true := by
          unfold Has Manager.canExport
          simp [hp2]
        rw [List.filterMap_cons, ← h]
        unfold Manager.mris
        rw [hg]
        unfold fieldOf rowName
        cases hf : m.layout.find? fun l => decide (l.1 = r.part) with
        | none => rfl
        | some x =>
          obtain ⟨n, mri, v⟩ := x
          have hmri := hm _ (List.mem_of_find?_eq_some hf)
          cases v with
          | false => rfl
          | true =>
            dsimp only at hmri ⊢
            by_cases hc : m.canExport r.part r.attr = true
            · rw [if_pos ⟨hmri, hc⟩, if_pos (hhas.mpr hc)]
            · rw [if_neg (fun h => hc h.2), if_neg (fun h => hc (hhas.mp h))]
    · simp at h

theorem fields_eq {m : Manager} (h : Inv m) (hn : (m.layout.map (·.1)).Nodup) (hm : ∀ r ∈ m.layout, r.2.1 ≠ "") :
    m.block = fields m := by
  have hc := h.current
  unfold Manager.getCurrent at hc
  cases h1 : m.exportFields m.rows with
  | none => simp [h1] at hc
  | some es =>
    simp only [h1, Option.some.injEq] at hc
    rw [h.block, ← hc, exportFields_eq hn hm h1]
    unfold fields Manager.partFields
    have : (fun p : Name × List Name => decide (p.1 ∉ m.invisible)) = fun p => decide ¬Hidden m p.1 := by
      funext p
      apply decide_eq_decide.mpr
      unfold Manager.invisible Hidden
      simp only [List.mem_map, List.mem_filter]
      constructor
      · rintro hh ⟨r, hr, he, hv⟩
        exact hh ⟨r, ⟨hr, by simp [hv]⟩, he⟩
      · rintro hh ⟨r, ⟨hr, hv⟩, he⟩
        exact hh ⟨r, hr, he, by simpa using hv⟩
    rw [this, List.append_assoc]

theorem updateEndpoints_children (m : Manager) : m.updateEndpoints.1.children = m.children := by
  unfold Manager.updateEndpoints
  split
  · rfl
  · split <;> rfl

theorem updateExportable_children (m : Manager) : m.updateExportable.1.children = m.children := by
  unfold Manager.updateExportable
  split
  · dsimp only
    split
    · rw [updateEndpoints_children]
    · rfl
  · rfl

theorem setLayout_children (m : Manager) (vis : Name → Bool) : (m.setLayout vis).1.children = m.children := by
  unfold Manager.setLayout
  dsimp only
  split
  · have := updateExportable_children { m with layout := m.children.map fun c => (c.1, c.2, vis c.1), saved := true }
    split <;> rename_i hx <;> rw [hx] at this
    · exact this
    · rw [updateEndpoints_children]; exact this
  · rfl

theorem reports_children : (rs : List (Name × List Name)) → (m : Manager) → (m.reports rs).1.children = m.children
  | [], _ => rfl
  | r :: rs, m => by
    rw [Manager.reports]
    have : (m.report r.1 r.2).1.children = m.children := updateExportable_children _
    split <;> rename_i hx <;> rw [hx] at this
    · exact this
    · rw [reports_children rs]; exact this

theorem op_children (m : Manager) (o : Op) : (m.op o).1.children = m.children := by
  cases o with
  | layout vis => exact setLayout_children m vis
  | exports rows =>
    show (m.putExports rows).1.children = _
    unfold Manager.putExports
    split
    · rw [updateEndpoints_children]
    · rfl
  | report p ns => exact updateExportable_children _
  | load vis rows rs =>
    show (m.load vis rows rs).1.children = _
    unfold Manager.load
    have h1 := setLayout_children m vis
    split <;> rename_i hx <;> rw [hx] at h1
    · exact h1
    · rename_i m1
      split
      · have h2 := reports_children rs { m1 with rows := rows }
        split <;> rename_i hy <;> rw [hy] at h2
        · exact h2.trans h1
        · rw [updateEndpoints_children]; exact h2.trans h1
      · exact h1

theorem ops_children : (os : List Op) → (m : Manager) → (m.ops os).children = m.children
  | [], _ => rfl
  | o :: os, m => by
    show ((m.op o).1.ops os).children = _
    rw [ops_children os, op_children]

theorem own_block (own : List Name) (hn : own.Nodup) :
    own.foldl (fun (b : Dict Name Src) n => b.set n .own) [] = own.map fun n => (n, .own) := by
  have : ∀ (l : List Name) (a : Dict Name Src), (a.map (·.1) ++ l).Nodup →
      l.foldl (fun (b : Dict Name Src) n => b.set n .own) a = a ++ l.map fun n => (n, .own) := by
    intro l
    induction l with
    | nil => intro a _; simp
    | cons x l ih =>
      intro a ha
      rw [List.foldl_cons, set_append, ih]
      · simp
      · simpa using ha
      · intro hx
        rw [List.nodup_append] at ha
        exact ha.2.2 x hx x List.mem_cons_self rfl
  simpa using this own [] (by simpa using hn)

/-- A manager after its parts have reported, a first layout and any history -/
def Manager.life (own : List Name) (parts : List (Name × List Name)) (children : List (Name × String))
    (first : List (Name × List Name)) (vis : Name → Bool) (os : List Op) : Manager :=
  ((((Manager.new own parts children).reports first).1.setLayout vis).1).ops os

theorem reports_new (own : List Name) (parts : List (Name × List Name)) (children : List (Name × String)) :
    (rs : List (Name × List Name)) → (m : Manager) → m.saved = false →
    (m.reports rs).1.saved = false ∧ (m.reports rs).1.own = m.own ∧ (m.reports rs).1.parts = m.parts ∧
    (m.reports rs).1.rows = m.rows ∧ (m.reports rs).1.block = m.block ∧ (m.reports rs).1.current = m.current
  | [], m, h => ⟨h, rfl, rfl, rfl, rfl, rfl⟩
  | r :: rs, m, h => by
    have hr : m.report r.1 r.2 = ({ m with exportable := m.exportable.set r.1 r.2 }, true) := by
      unfold Manager.report Manager.updateExportable
      rw [if_neg (by simp [h])]
    rw [Manager.reports, hr]
    exact reports_new own parts children rs _ h

theorem life_inv {own : List Name} {parts : List (Name × List Name)} {children : List (Name × String)}
    (hd : Distinct own parts []) (first : List (Name × List Name)) (vis : Name → Bool) {os : List Op}
    (ho : ∀ o ∈ os, DistinctOp own parts o) :
    Inv (Manager.life own parts children first vis os) ∧ (Manager.life own parts children first vis os).own = own ∧
    (Manager.life own parts children first vis os).parts = parts ∧
    (Manager.life own parts children first vis os).children = children := by
  have hown : own.Nodup := by
    have := hd.1
    simp only [List.map_nil, List.append_nil] at this
    exact (List.nodup_append.mp this).1
  obtain ⟨r1, r2, r3, r4, r5, r6⟩ := reports_new own parts children first (Manager.new own parts children) rfl
  obtain ⟨a1, a2, a3, a4⟩ := first_inv (m := ((Manager.new own parts children).reports first).1)
    (by rw [r5, r2]; exact own_block own hown) r6 r4 r1 (by rw [r2, r3]; exact hd) vis
  rw [r2] at a3
  rw [r3] at a4
  obtain ⟨b1, b2, b3⟩ := ops_inv (os := os) a1 (fun o h => by rw [a3, a4]; exact ho o h)
  refine ⟨b1, b2.trans a3, b3.trans a4, ?_⟩
  unfold Manager.life
  rw [ops_children, setLayout_children, reports_children]
  rfl

/-- C29: after any history of layouts, puts to exports, reports and loads, also those that fail, the fields of
the block are, in order, its own, those of the parts that are not hidden and one for each row of the export table whose part
is visible and has the field, under the name of the row, or that of the field if the row has none.

Partial: the names a table asks for are different, also from those of the other fields, and none is "meta". Without that it
is false: `own_field_lost`, `same_name_stuck`, `meta_stuck`. -/
theorem fields_are_exports_partial {own : List Name} {parts : List (Name × List Name)} {children : List (Name × String)}
    (hd : Distinct own parts []) (hc : (children.map (·.1)).Nodup) (hm : ∀ c ∈ children, c.2 ≠ "")
    (first : List (Name × List Name)) (vis : Name → Bool) {os : List Op} (ho : ∀ o ∈ os, DistinctOp own parts o) :
    (Manager.life own parts children first vis os).block = fields (Manager.life own parts children first vis os) := by
  obtain ⟨hi, _, _, h4⟩ := life_inv hd first vis ho (children := children)
  obtain ⟨v, hl⟩ := hi.layout
  rw [h4] at hl
  apply fields_eq hi
  · rw [hl, List.map_map]
    exact hc
  · intro r hr
    rw [hl] at hr
    obtain ⟨c, hcm, rfl⟩ := List.mem_map.mp hr
    exact hm c hcm

/-- C29: a put to exports is accepted exactly if every row names a field that its part has and a camelCase
name; then it is the table, and otherwise nothing changes -/
theorem exports_accepted_partial {own : List Name} {parts : List (Name × List Name)} {children : List (Name × String)}
    (hd : Distinct own parts []) (first : List (Name × List Name)) (vis : Name → Bool) {os : List Op}
    (ho : ∀ o ∈ os, DistinctOp own parts o) {rows : List Row} (hr : Distinct own parts rows) :
    let m := Manager.life own parts children first vis os
    ((m.putExports rows).2 = true ↔ ∀ r ∈ rows, Has m r.part r.attr ∧ Fields.camelRe r.name.toList = true) ∧
    ((m.putExports rows).2 = true → (m.putExports rows).1.rows = rows) ∧
    ((m.putExports rows).2 = false → (m.putExports rows).1 = m) := by
  intro m
  obtain ⟨hi, h2, h3, _⟩ := life_inv hd first vis ho (children := children)
  obtain ⟨_, _, _, a, b, c⟩ := exports_inv (m := m) hi (rows := rows) (by rw [h2, h3]; exact hr)
  refine ⟨?_, b, c⟩
  rw [a]
  exact ⟨fun h r hr => ⟨h.1 r hr, h.2 r hr⟩, fun h => ⟨fun r hr => (h r hr).1, fun r hr => (h r hr).2⟩⟩

/-! ### Histories -/

/-- A manager with two children and a part with a field of its own -/
def demo (os : List Op) : Manager :=
  Manager.life ["layout", "exports"] [("A", []), ("B", []), ("C", ["mode"])] [("A", "M:A"), ("B", "M:B")]
    [("A", ["x", "y"]), ("B", ["z"])] (fun _ => true) os

/-- The hypotheses are met: three rows, one part hidden, one field that goes away -/
example :
    Distinct ["layout", "exports"] [("A", []), ("B", []), ("C", ["mode"])] [⟨"A", "y", "height"⟩, ⟨"B", "z", "depth"⟩, ⟨"A", "x", "width"⟩] ∧
    (demo [.exports [⟨"A", "y", "height"⟩, ⟨"B", "z", "depth"⟩, ⟨"A", "x", "width"⟩]]).block =
      [("layout", .own), ("exports", .own), ("mode", .part "C"), ("height", .child "M:A" "y"), ("depth", .child "M:B" "z"),
       ("width", .child "M:A" "x")] ∧
    (demo [.exports [⟨"A", "y", "height"⟩, ⟨"B", "z", "depth"⟩, ⟨"A", "x", "width"⟩], .layout (fun n => n = "A"),
        .report "A" ["x", "w"]]).block =
      [("layout", .own), ("exports", .own), ("mode", .part "C"), ("width", .child "M:A" "x")] ∧
    (demo [.load (fun _ => true) [⟨"A", "y", ""⟩] []]).block =
      [("layout", .own), ("exports", .own), ("mode", .part "C"), ("y", .child "M:A" "y")] := by
  decide +kernel

/-- A row may take the name of a field of the block itself. The field is replaced, and when the row is taken away it is gone
for ever -/
theorem own_field_lost :
    (demo [.exports [⟨"A", "x", "layout"⟩]]).block =
      [("layout", .child "M:A" "x"), ("exports", .own), ("mode", .part "C")] ∧
    (demo [.exports [⟨"A", "x", "layout"⟩], .exports []]).block = [("exports", .own), ("mode", .part "C")] := by
  decide +kernel

/-- Two rows of one name: the put succeeds with one field for both, and no later table is shown -/
theorem same_name_stuck :
    (demo []).putExports [⟨"A", "x", "width"⟩, ⟨"B", "z", "width"⟩] =
      (demo [.exports [⟨"A", "x", "width"⟩, ⟨"B", "z", "width"⟩]], true) ∧
    (demo [.exports [⟨"A", "x", "width"⟩, ⟨"B", "z", "width"⟩]]).block =
      [("layout", .own), ("exports", .own), ("mode", .part "C"), ("width", .child "M:B" "z")] ∧
    ((demo [.exports [⟨"A", "x", "width"⟩, ⟨"B", "z", "width"⟩]]).putExports [⟨"A", "x", "width"⟩]).2 = false ∧
    (demo [.exports [⟨"A", "x", "width"⟩, ⟨"B", "z", "width"⟩], .exports [⟨"A", "x", "width"⟩]]).block =
      [("layout", .own), ("exports", .own)] ∧
    ((demo [.exports [⟨"A", "x", "width"⟩, ⟨"B", "z", "width"⟩], .exports [⟨"A", "x", "width"⟩]]).putExports []).2 = false := by
  decide +kernel

/-- After two rows of one name no put to exports ever succeeds again, whatever its table, and nothing is shown but the
fields of the block itself -/
theorem same_name_stuck_for_ever (rows : List Row) :
    let m := demo [.exports [⟨"A", "x", "width"⟩, ⟨"B", "z", "width"⟩], .exports []]
    (m.putExports rows).2 = false ∧ (m.putExports rows).1.block = [("layout", .own), ("exports", .own)] := by
  intro m
  have h1 : m.current.map (·.1) = ["mode", "width", "width"] := by decide +kernel
  have h2 : m.block = [("layout", .own), ("exports", .own)] := by decide +kernel
  unfold Manager.putExports
  split
  · unfold Manager.updateEndpoints
    have : removeAll ({ m with rows := rows } : Manager).block (({ m with rows := rows } : Manager).current.map (·.1)) =
        ([("layout", .own), ("exports", .own)], false) := by
      show removeAll m.block (m.current.map (·.1)) = _
      rw [h1, h2]
      decide +kernel
    rw [this]
    exact ⟨rfl, rfl⟩
  · exact ⟨rfl, h2⟩

/-- A row called "meta" is accepted as a name, but cannot be a field; the fields after it are lost and no later table is shown -/
theorem meta_stuck :
    ((demo []).putExports [⟨"A", "x", "meta"⟩, ⟨"A", "y", "height"⟩]).2 = false ∧
    (demo [.exports [⟨"A", "x", "meta"⟩, ⟨"A", "y", "height"⟩]]).rows = [⟨"A", "x", "meta"⟩, ⟨"A", "y", "height"⟩] ∧
    (demo [.exports [⟨"A", "x", "meta"⟩, ⟨"A", "y", "height"⟩]]).block = [("layout", .own), ("exports", .own), ("mode", .part "C")] ∧
    ((demo [.exports [⟨"A", "x", "meta"⟩, ⟨"A", "y", "height"⟩]]).putExports []).2 = false := by
  decide +kernel

/-- A put with a row without a name is rejected, although a design with that row loads and shows the field under its own
name -/
theorem blank_rejected :
    (demo []).putExports [⟨"A", "y", ""⟩] = (demo [], false) ∧
    ((demo []).load (fun _ => true) [⟨"A", "y", ""⟩] []).2 = true := by
  decide +kernel

/-- A design that exports a field that its child only gets while the design loads does not load -/
theorem export_too_early :
    ((demo []).load (fun _ => true) [⟨"B", "w", "w"⟩] [("B", ["z", "w"])]).2 = false ∧
    ((demo [.report "B" ["z", "w"]]).load (fun _ => true) [⟨"B", "w", "w"⟩] [("B", ["z", "w"])]).2 = true := by
  decide +kernel

end Verif.Exports
