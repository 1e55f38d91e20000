import Verif.Spec.FieldNames
/-!
C126. Exports with any camelCase names can be put, and put back.
-/
namespace Verif.Props.FieldNames
open Verif Verif.FieldNames Verif.Spec.FieldNames

variable {mri : String} {own : List String}

/-- all but what the controller thinks the exports are -/
structure Sound (mri : String) (own names : List String) (b : Block) : Prop where
  path : b.path = .list [mri]
  notifier : b.notifier = true
  types : b.types = own ++ names
  attrs : b.attrs = own ++ names
  shown : b.shown = own ++ names
  told : ∀ p ∈ b.told, ∃ n, p = [mri, n]

theorem remove_one {n : String} {ns : List String} {b : Block} (h : Sound mri own (n :: ns) b) (hf : Fine own (n :: ns)) :
    (b.removeEndpoint n).2 = true ∧ Sound mri own ns (b.removeEndpoint n).1 ∧ (b.removeEndpoint n).1.exports = b.exports := by
  obtain ⟨h1, h2, h3, h4⟩ := hf
  have hn : n ∉ ns := (List.nodup_cons.mp h1).1
  have ho : n ∉ own := h2 n (List.mem_cons_self ..)
  have hp : n ≠ "path" := fun e => h3 (by rw [e]; exact List.mem_cons_self ..)
  have hfil : (own ++ n :: ns).filter (· ≠ n) = own ++ ns := by
    rw [List.filter_append, List.filter_cons]
    simp only [ne_eq, not_true_eq_false, decide_false]
    rw [List.filter_eq_self.mpr (fun x hx => by simp only [decide_not, Bool.not_eq_true', decide_eq_false_iff_not]; rintro rfl; exact ho hx), List.filter_eq_self.mpr (fun x hx => by simp only [decide_not, Bool.not_eq_true', decide_eq_false_iff_not]; rintro rfl; exact hn hx)]
    simp
  obtain ⟨path, notifier, types, attrs, shown, current, exports, told⟩ := b
  obtain ⟨p1, p2, p3, p4, p5, p6⟩ := h
  simp only at p1 p2 p3 p4 p5 p6
  subst p1 p2 p3 p4
  have hm : n ∈ own ++ n :: ns := List.mem_append_right _ (List.mem_cons_self ..)
  simp only [Block.removeEndpoint, Block.delattr, Block.updateFields, Block.tell, hfil, if_neg hp, Bool.true_eq_false, if_false, hm, not_true_eq_false]
  refine ⟨trivial, ⟨rfl, rfl, rfl, rfl, rfl, ?_⟩, trivial⟩
  intro p hp
  rcases List.mem_append.mp hp with hp | hp
  · exact p6 p hp
  · rw [List.mem_singleton] at hp; exact ⟨n, hp⟩

theorem set_one {n : String} {ns : List String} {b : Block} (h : Sound mri own ns b) (hn : n ∉ ns) (ho : n ∉ own) (hp : n ≠ "path") (hq : n ≠ "notifier") :
    (b.setEndpoint n).2 = true ∧ Sound mri own (ns ++ [n]) (b.setEndpoint n).1 ∧ (b.setEndpoint n).1.current = b.current
    ∧ (b.setEndpoint n).1.exports = b.exports := by
  obtain ⟨path, notifier, types, attrs, shown, current, exports, told⟩ := b
  obtain ⟨p1, p2, p3, p4, p5, p6⟩ := h
  simp only at p1 p2 p3 p4 p5 p6
  subst p1 p2 p3 p4
  have hm : n ∉ own ++ ns := by simp [hn, ho]
  simp only [Block.setEndpoint, Block.setattr, Block.tell, Block.updateFields, if_neg hm, if_neg hp, if_neg hq, Bool.true_eq_false, if_false]
  refine ⟨trivial, ⟨rfl, rfl, by simp, by simp, by simp, ?_⟩, trivial, trivial⟩
  intro p hp
  rcases List.mem_append.mp hp with hp | hp
  · exact p6 p hp
  · rw [List.mem_singleton] at hp; exact ⟨n, hp⟩

theorem remove_all : ∀ (ns : List String) (b : Block), Sound mri own ns b → Fine own ns →
    (each Block.removeEndpoint b ns).2 = true ∧ Sound mri own [] (each Block.removeEndpoint b ns).1
    ∧ (each Block.removeEndpoint b ns).1.exports = b.exports := by
  intro ns
  induction ns with
  | nil => intro b h _; exact ⟨rfl, h, rfl⟩
  | cons n ns ih =>
    intro b h hf
    obtain ⟨k1, k2, k3⟩ := remove_one h hf
    have hf' : Fine own ns := ⟨(List.nodup_cons.mp hf.1).2, fun x hx => hf.2.1 x (List.mem_cons_of_mem _ hx), fun hx => hf.2.2.1 (List.mem_cons_of_mem _ hx),
      fun hx => hf.2.2.2 (List.mem_cons_of_mem _ hx)⟩
    obtain ⟨i1, i2, i3⟩ := ih _ k2 hf'
    have e : each Block.removeEndpoint b (n :: ns) = each Block.removeEndpoint (b.removeEndpoint n).1 ns := by
      rw [each]
      rcases hr : b.removeEndpoint n with ⟨b', r⟩
      rw [hr] at k1; simp only at k1; subst k1; rfl
    rw [e]
    exact ⟨i1, i2, i3.trans k3⟩

theorem set_all : ∀ (ns pre : List String) (b : Block), Sound mri own pre b → Fine own (pre ++ ns) →
    (each Block.setEndpoint b ns).2 = true ∧ Sound mri own (pre ++ ns) (each Block.setEndpoint b ns).1
    ∧ (each Block.setEndpoint b ns).1.current = b.current ∧ (each Block.setEndpoint b ns).1.exports = b.exports := by
  intro ns
  induction ns with
  | nil => intro pre b h _; rw [List.append_nil]; exact ⟨rfl, h, rfl, rfl⟩
  | cons n ns ih =>
    intro pre b h hf
    have hmem : n ∈ pre ++ n :: ns := List.mem_append_right _ (List.mem_cons_self ..)
    have hn : n ∉ pre := fun hx => (List.nodup_append.mp hf.1).2.2 n hx n (List.mem_cons_self ..) rfl
    obtain ⟨k1, k2, k3, k4⟩ := set_one h hn (hf.2.1 n hmem) (fun e => hf.2.2.1 (e ▸ hmem)) (fun e => hf.2.2.2 (e ▸ hmem))
    have eq : pre ++ n :: ns = (pre ++ [n]) ++ ns := by simp
    rw [eq] at hf ⊢
    obtain ⟨i1, i2, i3, i4⟩ := ih (pre ++ [n]) _ k2 hf
    have e : each Block.setEndpoint b (n :: ns) = each Block.setEndpoint (b.setEndpoint n).1 ns := by
      rw [each]
      rcases hr : b.setEndpoint n with ⟨b', r⟩
      rw [hr] at k1; simp only at k1; subst k1; rfl
    rw [e]
    exact ⟨i1, i2, i3.trans k3, i4.trans k4⟩

/-- the first half of a put, for a block as it should be -/
theorem cleared {old : List String} {b : Block} (h : Good mri own old b) (hf : Fine own old) (names : List String) :
    ∃ c : Block, Sound mri own [] c ∧ c.exports = names ∧ b.putExports names = each Block.setEndpoint { c with current := names } names := by
  obtain ⟨k1, k2, k3⟩ := remove_all old { b with exports := names } ⟨h.path, h.notifier, h.types, h.attrs, h.shown, h.told⟩ hf
  rcases hr : each Block.removeEndpoint { b with exports := names } old with ⟨c, r⟩
  rw [hr] at k1 k2 k3
  simp only at k1
  subst k1
  refine ⟨c, k2, k3, ?_⟩
  have hr' : each Block.removeEndpoint { b with exports := names } b.current = (c, true) := by
    have hr2 := hr
    rw [← h.current] at hr2
    exact hr2
  show (match each Block.removeEndpoint { b with exports := names } b.current with
    | (b, false) => (b, false)
    | (b, true) => each Block.setEndpoint { b with current := names } names) = _
  rw [hr']

theorem snoc_ind {α : Type} {P : List α → Prop} (h0 : P []) (h1 : ∀ l a, P l → P (l ++ [a])) (l : List α) : P l := by
  rw [← List.reverse_reverse l]
  induction l.reverse with
  | nil => exact h0
  | cons a l ih => rw [List.reverse_cons]; exact h1 _ _ ih

/-- One put. -/
theorem put_fine {old names : List String} {b : Block} (h : Good mri own old b) (ho : Fine own old) (hf : Fine own names) :
    (b.putExports names).2 = true ∧ Good mri own names (b.putExports names).1 ∧ (b.putExports names).1.exports = names := by
  obtain ⟨c, hc, he, e⟩ := cleared h ho names
  rw [e]
  obtain ⟨i1, i2, i3, i4⟩ := set_all names [] { c with current := names } ⟨hc.path, hc.notifier, hc.types, hc.attrs, hc.shown, hc.told⟩ hf
  rw [List.nil_append] at i2
  exact ⟨i1, ⟨i2.path, i2.notifier, i2.types, i2.attrs, i2.shown, i3, i2.told⟩, i4.trans he⟩

theorem run_snoc (b : Block) (ps : List (List String)) (p : List String) :
    b.run (ps ++ [p]) = (((b.run ps).1.putExports p).1, (b.run ps).2 ++ [((b.run ps).1.putExports p).2]) := by
  unfold Block.run; rw [List.foldl_append]; rfl

/-- **Any exports can be put, and put back**: after any history of puts of fine names each of them went well, the block has its own fields and those of
the last put, and everything was told under the name of the block. `_partial`: false for the names `path` and `notifier`, which are camelCase too
(`path_breaks`, `notifier_breaks`). -/
theorem exports_put_partial (ps : List (List String)) (names : List String) (hf : ∀ p ∈ ps, Fine own p) (hn : Fine own names) :
    (∀ r ∈ ((Block.new mri own).run (ps ++ [names])).2, r = true) ∧ Good mri own names ((Block.new mri own).run (ps ++ [names])).1
    ∧ ((Block.new mri own).run (ps ++ [names])).1.exports = names := by
  have key : ∀ ps : List (List String), (∀ p ∈ ps, Fine own p) →
      (∀ r ∈ ((Block.new mri own).run ps).2, r = true) ∧ ∃ old, Fine own old ∧ Good mri own old ((Block.new mri own).run ps).1 := by
    intro ps
    induction ps using snoc_ind with
    | h0 =>
      intro _
      refine ⟨(fun r hr => by cases hr), [], ⟨List.nodup_nil, (fun _ h => by cases h), (fun h => by cases h), (fun h => by cases h)⟩, ?_⟩
      exact ⟨rfl, rfl, by simp [Block.run, Block.new], by simp [Block.run, Block.new], by simp [Block.run, Block.new], rfl, (fun p hp => by cases hp)⟩
    | h1 ps p ih =>
      intro hf
      obtain ⟨i1, old, i2, i3⟩ := ih (fun x hx => hf x (List.mem_append_left _ hx))
      have hp := hf p (List.mem_append_right _ (List.mem_singleton.mpr rfl))
      obtain ⟨k1, k2, _⟩ := put_fine i3 i2 hp
      rw [run_snoc]
      refine ⟨fun r hr => ?_, p, hp, k2⟩
      rcases List.mem_append.mp hr with hr | hr
      · exact i1 r hr
      · rw [List.mem_singleton] at hr; rw [hr, k1]
  obtain ⟨i1, old, i2, i3⟩ := key ps hf
  obtain ⟨k1, k2, k3⟩ := put_fine i3 i2 hn
  rw [run_snoc]
  refine ⟨fun r hr => ?_, k2, k3⟩
  rcases List.mem_append.mp hr with hr | hr
  · exact i1 r hr
  · rw [List.mem_singleton] at hr; rw [hr, k1]

/-- a block that cannot be mended -/
def Broken (b : Block) : Prop := (b.notifier = false ∧ b.current ≠ []) ∨ (b.path = .model ∧ ∃ n ns, b.current = n :: ns ∧ n ≠ "path")

theorem broken_put {b : Block} (h : Broken b) (names : List String) : (b.putExports names).2 = false ∧ Broken (b.putExports names).1 := by
  unfold Block.putExports Block.update
  rcases h with ⟨h1, h2⟩ | ⟨h1, n, ns, h2, h3⟩
  · obtain ⟨n, ns, hc⟩ := List.exists_cons_of_ne_nil h2
    have e : each Block.removeEndpoint { b with exports := names } ({ b with exports := names } : Block).current = ({ b with exports := names }, false) := by
      show each Block.removeEndpoint { b with exports := names } b.current = _
      rw [hc, each]
      simp [Block.removeEndpoint, h1]
    rw [e]
    exact ⟨rfl, .inl ⟨h1, h2⟩⟩
  · have e : (each Block.removeEndpoint { b with exports := names } ({ b with exports := names } : Block).current).2 = false
        ∧ Broken (each Block.removeEndpoint { b with exports := names } ({ b with exports := names } : Block).current).1 := by
      show (each Block.removeEndpoint { b with exports := names } b.current).2 = false ∧ _
      rw [h2, each]
      obtain ⟨path, notifier, types, attrs, shown, current, exports, told⟩ := b
      simp only at h1 h2
      subst h1 h2
      cases notifier
      · simp [Block.removeEndpoint, Broken]
      · by_cases ha : n ∈ attrs
        · simp [Block.removeEndpoint, Block.delattr, Block.updateFields, Block.tell, ha, h3, Broken]
        · simp [Block.removeEndpoint, ha, h3, Broken]
    rcases hr : each Block.removeEndpoint { b with exports := names } ({ b with exports := names } : Block).current with ⟨c, r⟩
    rw [hr] at e
    obtain ⟨e1, e2⟩ := e
    simp only at e1; subst e1
    exact ⟨rfl, e2⟩

/-- **Broken for good**: whatever exports are put later, all of these puts fail. -/
theorem broken_for_good {b : Block} (h : Broken b) (ps : List (List String)) : (∀ r ∈ (b.run ps).2, r = false) ∧ Broken (b.run ps).1 := by
  induction ps using snoc_ind with
  | h0 => exact ⟨(fun r hr => by cases hr), h⟩
  | h1 ps p ih =>
    rw [run_snoc]
    obtain ⟨k1, k2⟩ := broken_put ih.2 p
    refine ⟨fun r hr => ?_, k2⟩
    rcases List.mem_append.mp hr with hr | hr
    · exact ih.1 r hr
    · rw [List.mem_singleton] at hr; rw [hr, k1]

/-- **An export called `path` breaks the block**, if it is not the first: the put fails, shows the exports that it did not make and no export can be put
any more. -/
theorem path_breaks :
    let b := ((Block.new "M" ["state"]).putExports ["a", "path", "b"])
    b.2 = false ∧ b.1.exports = ["a", "path", "b"] ∧ b.1.shown = ["state", "a"] ∧ Broken b.1 := by
  refine ⟨by decide, by decide, by decide, .inr ⟨by decide, "a", ["path", "b"], by decide, by decide⟩⟩

/-- **An export called `notifier` breaks the block**, wherever it is. -/
theorem notifier_breaks :
    let b := ((Block.new "M" ["state"]).putExports ["notifier"])
    b.2 = false ∧ b.1.shown = ["state"] ∧ Broken b.1 := by
  refine ⟨by decide, by decide, .inl ⟨by decide, by decide⟩⟩

/-- **If `path` is the first the exports can be put again, but nobody hears of them**: the block has lost its path, so that what is told does not begin
with its name. -/
theorem path_deafens :
    let b := (Block.new "M" ["state"]).run [["path"], [], ["a"]]
    b.2 = [false, true, true] ∧ b.1.shown = ["state", "a"] ∧ b.1.told = [["path"], ["a"]] := by decide

/-- non-vacuity: three puts of fine names -/
example : ((Block.new "M" ["state"]).run [["a", "b"], ["b"], ["c", "a"]]).1.shown = ["state", "c", "a"]
    ∧ ((Block.new "M" ["state"]).run [["a", "b"], ["b"], ["c", "a"]]).2 = [true, true, true] := by decide

end Verif.Props.FieldNames
