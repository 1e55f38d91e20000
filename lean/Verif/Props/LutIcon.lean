import Verif.Spec.LutIcon
import Verif.Proofs.PyDict
/-!
C80: the icon of a LUT says what the LUT computes.
-/
namespace Verif.Props.LutIcon
open Verif Verif.LutIcon Verif.Spec.LutIcon

set_option maxRecDepth 100000

/-! ### what is removed -/

/-- what is left of the picture -/
def base (invis : List El) : List Drawn := svg.filter (fun d => d.el ∉ invis)

theorem removed {es : List El} : ∀ {icon : List Drawn}, (icon.map (·.el)).Nodup → es.Nodup → (∀ e ∈ es, e ∈ icon.map (·.el)) →
    removeElements es icon = some (icon.filter (fun d => d.el ∉ es)) := by
  induction es with
  | nil => intro icon _ _ _; rw [removeElements, List.filter_eq_self.2 (by simp)]
  | cons e es ih =>
    intro icon hn he hm
    rw [List.nodup_cons] at he
    have h1 : icon.any (fun d => d.el = e) = true := by
      obtain ⟨d, hd, hde⟩ := List.mem_map.1 (hm e List.mem_cons_self)
      exact List.any_eq_true.2 ⟨d, hd, by simp [hde]⟩
    have hE : icon.eraseP (fun d => d.el = e) = icon.filter (fun d => d.el ≠ e) := by
      clear h1 hm ih
      induction icon with
      | nil => rfl
      | cons d icon ih =>
        rw [List.map_cons, List.nodup_cons] at hn
        by_cases hd : d.el = e
        · rw [List.eraseP_cons_of_pos (by simpa using hd), List.filter_cons, if_neg (by simpa using hd)]
          symm
          rw [List.filter_eq_self]
          intro x hx
          simp only [ne_eq, decide_not, Bool.not_eq_eq_eq_not, Bool.not_true, decide_eq_false_iff_not]
          intro hxe
          exact hn.1 (List.mem_map.2 ⟨x, hx, hxe.trans hd.symm⟩)
        · rw [List.eraseP_cons_of_neg (by simpa using hd), List.filter_cons, if_pos (by simpa using hd), ih hn.2]
    rw [removeElements, if_pos h1, hE, ih, List.filter_filter]
    · congr 1
      apply List.filter_congr
      intro d _
      rw [Bool.eq_iff_iff]
      simp
      constructor
      · rintro ⟨a, b⟩; exact ⟨b, a⟩
      · rintro ⟨a, b⟩; exact ⟨b, a⟩
    · exact List.Sublist.nodup (List.Sublist.map _ List.filter_sublist) hn
    · exact he.2
    · intro x hx
      obtain ⟨d, hd, hde⟩ := List.mem_map.1 (hm x (List.mem_cons_of_mem _ hx))
      refine List.mem_map.2 ⟨d, List.mem_filter.2 ⟨hd, ?_⟩, hde⟩
      simp only [ne_eq, decide_not, Bool.not_eq_eq_eq_not, Bool.not_true, decide_eq_false_iff_not]
      intro hc
      exact he.1 (by rw [← hc, hde]; exact hx)

theorem svg_nodup : (svg.map (·.el)).Nodup := by decide

/-- the values of the table -/
theorem table_ok : lutElements.all (fun p => decide p.2.Nodup && p.2.all (fun e => svg.any (fun d => d.el = e))) = true := by
  decide +kernel

theorem lutInvis_ok : (decide lutInvis.Nodup && lutInvis.all (fun e => svg.any (fun d => d.el = e))) = true := by decide +kernel

/-- What is invisible comes from the table, or it is the default -/
theorem invisible_cases (fnum : Nat) : (fnum, invisible fnum) ∈ lutElements ∨
    (Dict.get? lutElements fnum = none ∧ invisible fnum = lutInvis) := by
  unfold invisible
  cases h : Dict.get? lutElements fnum with
  | none => exact .inr ⟨rfl, rfl⟩
  | some x => exact .inl (Dict.get?_mem h)

theorem invisible_ok (fnum : Nat) : (invisible fnum).Nodup ∧ ∀ e ∈ invisible fnum, e ∈ svg.map (·.el) := by
  have key : ∀ l : List El, (decide l.Nodup && l.all (fun e => svg.any (fun d => d.el = e))) = true →
      l.Nodup ∧ ∀ e ∈ l, e ∈ svg.map (·.el) := by
    intro l h
    rw [Bool.and_eq_true, decide_eq_true_eq, List.all_eq_true] at h
    refine ⟨h.1, fun e he => ?_⟩
    obtain ⟨d, hd, hde⟩ := List.any_eq_true.1 (h.2 e he)
    exact List.mem_map.2 ⟨d, hd, by simpa using hde⟩
  rcases invisible_cases fnum with h | ⟨-, h⟩
  · exact key _ (List.all_eq_true.1 table_ok _ h)
  · rw [h]; exact key _ lutInvis_ok

theorem removed_invisible (fnum : Nat) : removeElements (invisible fnum) svg = some (base (invisible fnum)) :=
  removed svg_nodup (invisible_ok fnum).1 (invisible_ok fnum).2

/-! ### arrows -/

/-- the edges that an arrow is for -/
def edgesOf (text : List Char) : Edges :=
  let t := text.map Char.toLower
  if contains "level".toList t then .level
  else if contains "rising".toList t then .rising
  else if contains "falling".toList t then .falling
  else .both

theorem contains_iff (word : List Char) : ∀ text, contains word text = true ↔ Within word text := by
  intro text
  induction text with
  | nil =>
    unfold contains Within
    constructor
    · intro h
      rw [List.isEmpty_iff] at h
      exact ⟨[], [], by simp [h]⟩
    · rintro ⟨a, b, h⟩
      cases word with
      | nil => rfl
      | cons x w => simp at h
  | cons c cs ih =>
    rw [contains, Bool.or_eq_true, ih]
    constructor
    · rintro (h | ⟨a, b, h⟩)
      · obtain ⟨b, h⟩ := List.isPrefixOf_iff_prefix.1 h
        exact ⟨[], b, by simpa using h.symm⟩
      · exact ⟨c :: a, b, by rw [h]; rfl⟩
    · rintro ⟨a, b, h⟩
      cases a with
      | nil => exact .inl (List.isPrefixOf_iff_prefix.2 ⟨b, by simpa using h.symm⟩)
      | cons x a =>
        rw [List.cons_append, List.cons_append] at h
        injection h with h1 h2
        exact .inr ⟨a, b, h2⟩

/-- what an update of an arrow does to each element -/
def arrowed (e : El) (k : Edges) (d : Drawn) : Option Drawn :=
  if d.el ≠ e then some d
  else match k with
    | .level => none
    | .rising => some { d with stop := false }
    | .falling => some { d with start := false }
    | .both => some d

theorem find_unique {icon : List Drawn} (hn : (icon.map (·.el)).Nodup) {e : El} {d : Drawn} (hd : d ∈ icon) (hde : d.el = e) :
    icon.find? (fun d => d.el = e) = some d := by
  induction icon with
  | nil => cases hd
  | cons x icon ih =>
    rw [List.map_cons, List.nodup_cons] at hn
    rcases List.mem_cons.1 hd with rfl | hd
    · rw [List.find?_cons_of_pos (by simpa using hde)]
    · rw [List.find?_cons_of_neg, ih hn.2 hd]
      intro hx
      exact hn.1 (List.mem_map.2 ⟨d, hd, by simpa [hde] using (of_decide_eq_true hx).symm⟩)

theorem filterMap_arrowed_absent {icon : List Drawn} {e : El} (k : Edges) (h : ∀ d ∈ icon, d.el ≠ e) :
    icon.filterMap (arrowed e k) = icon := by
  induction icon with
  | nil => rfl
  | cons d icon ih =>
    rw [List.filterMap_cons]
    have h1 : arrowed e k d = some d := by unfold arrowed; rw [if_pos (h d List.mem_cons_self)]
    rw [h1, ih (fun x hx => h x (List.mem_cons_of_mem _ hx))]

theorem updateEdgeArrow_eq {icon : List Drawn} (hn : (icon.map (·.el)).Nodup) (e : El) (text : List Char)
    (hm : ∀ d ∈ icon, d.el = e → d.start = true ∧ d.stop = true) :
    updateEdgeArrow e text icon = some (icon.filterMap (arrowed e (edgesOf text))) := by
  unfold updateEdgeArrow
  simp only
  by_cases hex : ∃ d ∈ icon, d.el = e
  · obtain ⟨d, hd, hde⟩ := hex
    rw [find_unique hn hd hde]
    obtain ⟨hs, ht⟩ := hm d hd hde
    simp only [hs, ht, if_true]
    unfold edgesOf
    simp only
    by_cases c1 : contains "level".toList (text.map Char.toLower) = true
    · rw [if_pos c1, if_pos c1]
      congr 1
      clear hm hs ht
      induction icon with
      | nil => rfl
      | cons x icon ih =>
        rw [List.map_cons, List.nodup_cons] at hn
        by_cases hx : x.el = e
        · rw [List.eraseP_cons_of_pos (by simpa using hx), List.filterMap_cons]
          have : arrowed e .level x = none := by unfold arrowed; rw [if_neg (by simpa using hx)]
          rw [this, filterMap_arrowed_absent]
          intro y hy hye
          exact hn.1 (List.mem_map.2 ⟨y, hy, hye.trans hx.symm⟩)
        · rw [List.eraseP_cons_of_neg (by simpa using hx), List.filterMap_cons]
          have : arrowed e .level x = some x := by unfold arrowed; rw [if_pos hx]
          rw [this]
          rcases List.mem_cons.1 hd with rfl | hd
          · exact absurd hde hx
          · rw [ih hn.2 hd]
    · rw [if_neg c1, if_neg c1]
      by_cases c2 : contains "rising".toList (text.map Char.toLower) = true
      · rw [if_pos c2, if_pos c2, ← List.filterMap_eq_map]
        congr 2
        funext x
        unfold arrowed
        by_cases hx : x.el = e <;> simp [hx]
      · rw [if_neg c2, if_neg c2]
        by_cases c3 : contains "falling".toList (text.map Char.toLower) = true
        · rw [if_pos c3, if_pos c3, ← List.filterMap_eq_map]
          congr 2
          funext x
          unfold arrowed
          by_cases hx : x.el = e <;> simp [hx]
        · rw [if_neg c3, if_neg c3]
          have : arrowed e .both = some := by
            funext x
            unfold arrowed
            by_cases hx : x.el = e <;> simp [hx]
          rw [this, List.filterMap_some]
  · have h1 : icon.find? (fun d => d.el = e) = none := by
      rw [List.find?_eq_none]
      intro d hd hc
      exact hex ⟨d, hd, by simpa using hc⟩
    rw [h1, filterMap_arrowed_absent _ (fun d hd hc => hex ⟨d, hd, hc⟩)]

/-- What becomes of an element of the picture, when the arrows of the inputs `is` are updated -/
def redrawn (is : List Inp) (types : Inp → Option (List Char)) (d : Drawn) : Option Drawn :=
  match d.el with
  | .edge i => if i ∈ is then arrowed (.edge i) (edgesOf ((types i).getD "level".toList)) d else some d
  | _ => some d

theorem arrowed_el {e : El} {k : Edges} {d d' : Drawn} (h : arrowed e k d = some d') : d'.el = d.el := by
  unfold arrowed at h
  split at h
  · cases h; rfl
  · split at h <;> cases h <;> rfl

theorem arrowed_other {e : El} {k : Edges} {d : Drawn} (h : d.el ≠ e) : arrowed e k d = some d := by
  unfold arrowed; rw [if_pos h]

theorem filterMap_nodup {f : Drawn → Option Drawn} (hf : ∀ d d', f d = some d' → d'.el = d.el) {icon : List Drawn}
    (hn : (icon.map (·.el)).Nodup) : ((icon.filterMap f).map (·.el)).Nodup := by
  have : ((icon.filterMap f).map (·.el)).Sublist (icon.map (·.el)) := by
    clear hn
    induction icon with
    | nil => exact .slnil
    | cons d icon ih =>
      rw [List.filterMap_cons]
      cases h : f d with
      | none => exact .cons _ ih
      | some d' =>
        simp only [List.map_cons, hf d d' h]
        exact .cons_cons _ ih
  exact this.nodup hn

theorem arrows_eq (types : Inp → Option (List Char)) : ∀ (is : List Inp), is.Nodup → ∀ icon : List Drawn, (icon.map (·.el)).Nodup →
    (∀ i ∈ is, ∀ d ∈ icon, d.el = .edge i → d.start = true ∧ d.stop = true) →
    is.foldlM (fun icon inp => updateEdgeArrow (.edge inp) ((types inp).getD "level".toList) icon) icon =
      some (icon.filterMap (redrawn is types)) := by
  intro is
  induction is with
  | nil =>
    intro _ icon _ _
    have : redrawn [] types = some := by
      funext d
      unfold redrawn
      split <;> simp
    rw [this, List.filterMap_some]
    rfl
  | cons i is ih =>
    intro his icon hn hm
    rw [List.nodup_cons] at his
    rw [List.foldlM_cons, updateEdgeArrow_eq hn _ _ (hm i List.mem_cons_self)]
    simp only [Option.bind_eq_bind, Option.bind_some]
    rw [ih his.2, List.filterMap_filterMap]
    · congr 2
      funext d
      by_cases hd : d.el = .edge i
      · cases h : arrowed (.edge i) (edgesOf ((types i).getD "level".toList)) d with
        | none =>
          unfold redrawn
          rw [hd]
          simp only [List.mem_cons, true_or, if_true, h, Option.bind_none]
        | some d' =>
          have h2 := arrowed_el h
          simp only [Option.bind_some]
          unfold redrawn
          rw [h2, hd]
          simp only [List.mem_cons, true_or, if_true, h, if_neg his.1]
      · rw [arrowed_other hd]
        simp only [Option.bind_some]
        unfold redrawn
        cases hel : d.el with
        | edge j =>
          simp only [List.mem_cons]
          have : j ≠ i := by rintro rfl; exact hd hel
          simp [this]
        | _ => rfl
    · exact filterMap_nodup (fun d d' h => arrowed_el h) hn
    · intro j hj d hd hde
      obtain ⟨d0, hd0, hda⟩ := List.mem_filterMap.1 hd
      have hel := arrowed_el hda
      have hne : d0.el ≠ .edge i := by
        rw [← hel, hde]
        intro hc
        cases hc
        exact his.1 hj
      rw [arrowed_other hne] at hda
      cases hda
      exact hm j (List.mem_cons_of_mem _ hj) d hd0 hde

theorem svg_marks : ∀ i, ∀ d ∈ svg, d.el = .edge i → d.start = true ∧ d.stop = true := by
  intro i d hd hde
  have : svg.all (fun d => match d.el with | .edge _ => d.start && d.stop | _ => true) = true := by decide
  have h := List.all_eq_true.1 this d hd
  rw [hde] at h
  simpa using h

theorem base_nodup (invis : List El) : ((base invis).map (·.el)).Nodup :=
  (List.Sublist.map _ List.filter_sublist).nodup svg_nodup

theorem updateIcon_eq (fnum : Nat) (types : Inp → Option (List Char)) :
    updateIcon fnum types = some ((base (invisible fnum)).filterMap (redrawn inputs types)) := by
  unfold updateIcon
  rw [removed_invisible]
  exact arrows_eq types inputs (by decide) _ (base_nodup _) (fun i _ d hd hde => svg_marks i d (List.mem_filter.1 hd).1 hde)

theorem redrawn_el {is : List Inp} {types : Inp → Option (List Char)} {d d' : Drawn} (h : redrawn is types d = some d') :
    d'.el = d.el := by
  unfold redrawn at h
  split at h
  · split at h
    · exact arrowed_el h
    · cases h; rfl
  · cases h; rfl

/-- Whatever the types, all but the arrows is as the function has it. -/
theorem seen_eq {fnum : Nat} {types : Inp → Option (List Char)} {icon : List Drawn} (h : updateIcon fnum types = some icon)
    {e : El} (he : ∀ i, e ≠ .edge i) : seen icon e = seen (base (invisible fnum)) e := by
  rw [updateIcon_eq] at h
  cases h
  unfold seen
  rw [Bool.eq_iff_iff, List.any_eq_true, List.any_eq_true]
  constructor
  · rintro ⟨d, hd, hde⟩
    obtain ⟨d0, hd0, h0⟩ := List.mem_filterMap.1 hd
    exact ⟨d0, hd0, by rw [← redrawn_el h0]; exact hde⟩
  · rintro ⟨d, hd, hde⟩
    refine ⟨d, List.mem_filterMap.2 ⟨d, hd, ?_⟩, hde⟩
    unfold redrawn
    split
    · rename_i i hi
      exact absurd ((of_decide_eq_true hde).symm.trans hi) (he i)
    · rfl

theorem drawn_eq {fnum : Nat} {types : Inp → Option (List Char)} {icon : List Drawn} (h : updateIcon fnum types = some icon) :
    drawn icon = drawn (base (invisible fnum)) := by
  unfold drawn
  apply List.filter_congr
  intro i _
  exact seen_eq h (by intro j hj; cases hj)

theorem arrives_eq {fnum : Nat} {types : Inp → Option (List Char)} {icon : List Drawn} (h : updateIcon fnum types = some icon)
    (v : Levels) : arrives icon v = arrives (base (invisible fnum)) v := by
  funext i
  unfold arrives
  rw [seen_eq h (by intro j hj; cases hj)]

theorem says_eq {fnum : Nat} {types : Inp → Option (List Char)} {icon : List Drawn} (h : updateIcon fnum types = some icon)
    (v : Levels) : says icon v = says (base (invisible fnum)) v := by
  unfold says
  rw [seen_eq h (by intro j hj; cases hj), seen_eq h (by intro j hj; cases hj), seen_eq h (by intro j hj; cases hj), drawn_eq h,
    arrives_eq h]

/-! ### the property -/

/-- **C80**: there is an icon for each function and all types of the inputs: nothing that is not there is removed. -/
theorem icon_drawn (fnum : Nat) (types : Inp → Option (List Char)) : ∃ icon, updateIcon fnum types = some icon :=
  ⟨_, updateIcon_eq fnum types⟩

def levels (a b c d e : Bool) : Levels := fun | .A => a | .B => b | .C => c | .D => d | .E => e

theorem levels_eq (v : Levels) : v = levels (v .A) (v .B) (v .C) (v .D) (v .E) := by
  funext i; cases i <;> rfl

def bools : List Bool := [false, true]

theorem mem_bools (b : Bool) : b ∈ bools := by cases b <;> simp [bools]

/-- an entry of the table says the truth -/
def entryAt (p : Nat × List El) (v : Levels) : Bool :=
  match says (base p.2) v with
  | none => true
  | some x => x == output p.1 v

def entryTrue (p : Nat × List El) : Bool :=
  bools.all fun a => bools.all fun b => bools.all fun c => bools.all fun d => bools.all fun e => entryAt p (levels a b c d e)

theorem table_true : lutElements.all entryTrue = true := by decide +kernel

theorem entryAt_of {p : Nat × List El} (h : entryTrue p = true) (v : Levels) : entryAt p v = true := by
  have h1 := List.all_eq_true.1 h (v .A) (mem_bools _)
  have h2 := List.all_eq_true.1 h1 (v .B) (mem_bools _)
  have h3 := List.all_eq_true.1 h2 (v .C) (mem_bools _)
  have h4 := List.all_eq_true.1 h3 (v .D) (mem_bools _)
  have h5 := List.all_eq_true.1 h4 (v .E) (mem_bools _)
  rw [levels_eq v]
  exact h5

theorem entryTrue_iff {p : Nat × List El} (h : entryTrue p = true) (v : Levels) (b : Bool) (hs : says (base p.2) v = some b) :
    output p.1 v = b := by
  have h2 := entryAt_of h v
  unfold entryAt at h2
  rw [hs] at h2
  exact (eq_of_beq h2).symm

theorem lut_silent (v : Levels) : says (base lutInvis) v = none := by
  have h1 : seen (base lutInvis) .and = false := by decide
  have h2 : seen (base lutInvis) .or = false := by decide
  have h3 : seen (base lutInvis) .not = false := by decide
  unfold says
  simp [h1, h2, h3]

/-- **C80**: if the icon says what the output is then that is the output, for each function of the LUT and all values at its inputs. -/
theorem icon_true (fnum : Nat) (types : Inp → Option (List Char)) (icon : List Drawn) (h : updateIcon fnum types = some icon)
    (v : Levels) (b : Bool) (hs : says icon v = some b) : output fnum v = b := by
  rw [says_eq h] at hs
  rcases invisible_cases fnum with hm | ⟨-, hd⟩
  · exact entryTrue_iff (List.all_eq_true.1 table_true _ hm) v b hs
  · rw [hd, lut_silent] at hs
    cases hs

def entryGate (invis : List El) : Bool :=
  ([El.and, .or, .not, .lut].filter (seen (base invis))).length == 1 && seen (base invis) .out

theorem table_gate : lutElements.all (fun p => entryGate p.2) = true := by decide +kernel
theorem lut_gate : entryGate lutInvis = true := by decide +kernel

/-- **C80**: an icon has exactly one of the gates, and the line of the output. -/
theorem one_gate (fnum : Nat) (types : Inp → Option (List Char)) (icon : List Drawn) (h : updateIcon fnum types = some icon) :
    ([El.and, .or, .not, .lut].filter (seen icon)).length = 1 ∧ seen icon .out = true := by
  have key : ∀ l : List El, entryGate l = true →
      ([El.and, .or, .not, .lut].filter (seen (base l))).length = 1 ∧ seen (base l) .out = true := by
    intro l hl
    unfold entryGate at hl
    simpa using hl
  have e : [El.and, .or, .not, .lut].filter (seen icon) = [El.and, .or, .not, .lut].filter (seen (base (invisible fnum))) := by
    apply List.filter_congr
    intro x hx
    refine seen_eq h (fun i hi => ?_)
    subst hi
    simp at hx
  rw [e, seen_eq h (by intro i hi; cases hi)]
  rcases invisible_cases fnum with hm | ⟨-, hd⟩
  · exact key _ (List.all_eq_true.1 table_gate _ hm)
  · rw [hd]; exact key _ lut_gate

/-! ### each gate is shown -/

/-- the bit of a permutation for an input -/
def pos : Inp → Nat
  | .A => 0 | .B => 1 | .C => 2 | .D => 3 | .E => 4

def entry (isAnd : Bool) (n permutation : Nat) : Nat × List El :=
  if isAnd then calcVisibility [.or, .lut, .not] (· &&& ·) n permutation else calcVisibility [.and, .lut, .not] (· ||| ·) n permutation

/-- the table before it is one -/
def source : List (Nat × List El) :=
  general [.or, .lut, .not] (· &&& ·) ++ general [.and, .lut, .not] (· ||| ·) ++
     inputs.map (fun ninp => (inv (const ninp), notInvis ninp)) ++ [(0, lutInvis)]

theorem source_nodup : (source.map (·.1)).Nodup := by decide +kernel
theorem source_small : source.all (fun p => p.1 < 2 ^ 32) = true := by decide +kernel

theorem get?_update {K V : Type} [DecidableEq K] : ∀ (l : List (K × V)) (d : Dict K V), (l.map (·.1)).Nodup → ∀ p ∈ l,
    Dict.get? (Dict.update d l) p.1 = some p.2 := by
  have absent : ∀ (l : List (K × V)) (d : Dict K V) (k : K), k ∉ l.map (·.1) → Dict.get? (Dict.update d l) k = Dict.get? d k := by
    intro l
    induction l with
    | nil => intro d k _; rfl
    | cons q l ih =>
      intro d k hk
      rw [List.map_cons, List.mem_cons, not_or] at hk
      show Dict.get? (Dict.update (Dict.set d q.1 q.2) l) k = _
      rw [ih _ _ hk.2, Dict.get?_set_ne _ _ (Ne.symm hk.1)]
  intro l
  induction l with
  | nil => intro d _ p hp; cases hp
  | cons q l ih =>
    intro d hn p hp
    rw [List.map_cons, List.nodup_cons] at hn
    show Dict.get? (Dict.update (Dict.set d q.1 q.2) l) p.1 = _
    rcases List.mem_cons.1 hp with rfl | hp
    · rw [absent _ _ _ hn.1, Dict.get?_set_self]
    · exact ih _ hn.2 p hp

theorem invisible_source {p : Nat × List El} (h : p ∈ source) : invisible p.1 = p.2 := by
  unfold invisible
  have : Dict.get? lutElements p.1 = some p.2 := get?_update source [] source_nodup p h
  rw [this]
  rfl

theorem entry_mem {k : Bool} {n perm : Nat} (hn : n ∈ [2, 3, 4, 5]) (hp : perm < 2 ^ n) : entry k n perm ∈ source := by
  unfold entry source
  simp only [List.mem_append]
  cases k
  · exact .inl (.inl (.inr (List.mem_flatMap.2 ⟨n, hn, List.mem_map.2 ⟨perm, List.mem_range.2 hp, rfl⟩⟩)))
  · exact .inl (.inl (.inl (List.mem_flatMap.2 ⟨n, hn, List.mem_map.2 ⟨perm, List.mem_range.2 hp, rfl⟩⟩)))

def entryShown (k : Bool) (n perm : Nat) : Bool :=
  let icon := base (entry k n perm).2
  (seen icon .and == k) && (seen icon .or == !k) && !seen icon .not && !seen icon .lut && (drawn icon == first n) &&
    inputs.all (fun i => seen icon (.circle i) == (decide (i ∈ first n) && perm.testBit (pos i)))

theorem entries_shown : bools.all (fun k => [2, 3, 4, 5].all (fun n => (List.range (2 ^ n)).all (fun perm => entryShown k n perm))) =
    true := by decide +kernel

theorem nots_shown : inputs.all (fun i => seen (base (notInvis i)) .not && !seen (base (notInvis i)) .and &&
    !seen (base (notInvis i)) .or && !seen (base (notInvis i)) .lut && (drawn (base (notInvis i)) == [i]) &&
    inputs.all (fun j => !seen (base (notInvis i)) (.circle j))) = true := by decide +kernel

theorem mem_inputs (i : Inp) : i ∈ inputs := by cases i <;> decide

/-- the permutation of the negated inputs -/
def permOf (n : Nat) (negated : Inp → Bool) : Nat :=
  ((negated .A).toNat + 2 * (negated .B).toNat + 4 * (negated .C).toNat + 8 * (negated .D).toNat + 16 * (negated .E).toNat) % 2 ^ n

theorem permOf_bits {n : Nat} (hn : n ∈ [2, 3, 4, 5]) (negated : Inp → Bool) (i : Inp) (hi : i ∈ first n) :
    (permOf n negated).testBit (pos i) = negated i := by
  have key : ∀ a b c d e : Bool, ∀ n ∈ [2, 3, 4, 5], ∀ i ∈ first n,
      (permOf n (levels a b c d e)).testBit (pos i) = levels a b c d e i := by decide +kernel
  have := key (negated .A) (negated .B) (negated .C) (negated .D) (negated .E) n hn i hi
  rwa [← levels_eq negated] at this

theorem says_shown {icon : List Drawn} {g : Gate} (h : g.Shown icon) (v : Levels) : says icon v = some (g.value v) := by
  unfold Gate.Shown at h
  unfold says Gate.value
  cases g with
  | and n negated =>
    obtain ⟨h1, h2, h3, h4, h5, h6⟩ := h
    simp only [h1, if_true, h5, Option.some.injEq]
    rw [Bool.eq_iff_iff, List.all_eq_true, List.all_eq_true]
    have e : ∀ i ∈ first n, arrives icon v i = (v i != negated i) := by
      intro i hi
      unfold arrives
      cases hn : negated i with
      | true => rw [if_pos ((h6 i).2 ⟨hi, hn⟩)]; cases v i <;> rfl
      | false => rw [if_neg (fun hc => by have := ((h6 i).1 hc).2; rw [hn] at this; cases this)]; cases v i <;> rfl
    exact ⟨fun h i hi => e i hi ▸ h i hi, fun h i hi => (e i hi).symm ▸ h i hi⟩
  | or n negated =>
    obtain ⟨h1, h2, h3, h4, h5, h6⟩ := h
    simp only [h1, h2, if_true, h5, Option.some.injEq, if_false, Bool.false_eq_true]
    rw [Bool.eq_iff_iff, List.any_eq_true, List.any_eq_true]
    have e : ∀ i ∈ first n, arrives icon v i = (v i != negated i) := by
      intro i hi
      unfold arrives
      cases hn : negated i with
      | true => rw [if_pos ((h6 i).2 ⟨hi, hn⟩)]; cases v i <;> rfl
      | false => rw [if_neg (fun hc => by have := ((h6 i).1 hc).2; rw [hn] at this; cases this)]; cases v i <;> rfl
    exact ⟨fun ⟨i, hi, h⟩ => ⟨i, hi, e i hi ▸ h⟩, fun ⟨i, hi, h⟩ => ⟨i, hi, (e i hi).symm ▸ h⟩⟩
  | not i =>
    obtain ⟨h1, h2, h3, h4, h5, h6⟩ := h
    simp only [h1, h2, h3, if_true, h5, Option.some.injEq, if_false, Bool.false_eq_true, List.any_cons, List.any_nil, Bool.or_false]
    unfold arrives
    rw [if_neg (h6 i)]

/-- each of the gates is in the table -/
theorem gate_source (g : Gate) (hg : g.Ok) : ∃ p ∈ source, g.Shown (base p.2) := by
  have hand : ∀ (k : Bool) (n : Nat) (negated : Inp → Bool), 2 ≤ n ∧ n ≤ 5 → ∃ p ∈ source,
      seen (base p.2) .and = k ∧ seen (base p.2) .or = !k ∧ seen (base p.2) .not = false ∧ seen (base p.2) .lut = false ∧
      drawn (base p.2) = first n ∧ ∀ i, seen (base p.2) (.circle i) = (decide (i ∈ first n) && negated i) := by
    intro k n negated hn
    have hn' : n ∈ [2, 3, 4, 5] := by
      have : n = 2 ∨ n = 3 ∨ n = 4 ∨ n = 5 := by omega
      simpa using this
    have hp : permOf n negated < 2 ^ n := Nat.mod_lt _ (Nat.two_pow_pos n)
    have h1 := List.all_eq_true.1 entries_shown k (mem_bools k)
    have h2 := List.all_eq_true.1 h1 n hn'
    have h3 := List.all_eq_true.1 h2 (permOf n negated) (List.mem_range.2 hp)
    refine ⟨entry k n (permOf n negated), entry_mem hn' hp, ?_⟩
    unfold entryShown at h3
    simp only [Bool.and_eq_true, beq_iff_eq, List.all_eq_true, Bool.not_eq_true'] at h3
    obtain ⟨⟨⟨⟨⟨a, b⟩, c⟩, d⟩, e⟩, f⟩ := h3
    refine ⟨a, b, c, d, e, fun i => ?_⟩
    rw [f i (mem_inputs i)]
    by_cases hi : i ∈ first n
    · rw [permOf_bits hn' negated i hi]
    · simp [hi]
  cases g with
  | and n negated =>
    obtain ⟨p, hp, a, b, c, d, e, f⟩ := hand true n negated hg
    exact ⟨p, hp, a, by rw [b]; decide, by rw [c]; decide, by rw [d]; decide, e, fun i => by rw [f i]; simp⟩
  | or n negated =>
    obtain ⟨p, hp, a, b, c, d, e, f⟩ := hand false n negated hg
    exact ⟨p, hp, b, by rw [a]; decide, by rw [c]; decide, by rw [d]; decide, e, fun i => by rw [f i]; simp⟩
  | not i =>
    refine ⟨(inv (const i), notInvis i), ?_, ?_⟩
    · unfold source
      rw [List.mem_append, List.mem_append]
      exact .inl (.inr (List.mem_map.2 ⟨i, mem_inputs i, rfl⟩))
    · have h := List.all_eq_true.1 nots_shown i (mem_inputs i)
      simp only [Bool.and_eq_true, beq_iff_eq, List.all_eq_true, Bool.not_eq_true'] at h
      obtain ⟨⟨⟨⟨⟨a, b⟩, c⟩, d⟩, e⟩, f⟩ := h
      exact ⟨a, by rw [b]; decide, by rw [c]; decide, by rw [d]; decide, e, fun j => by rw [f j (mem_inputs j)]; decide⟩

theorem index_surj {k : Nat} (hk : k < 32) : ∃ v, index v = k := by
  refine ⟨levels (k.testBit 4) (k.testBit 3) (k.testBit 2) (k.testBit 1) (k.testBit 0), ?_⟩
  have : ∀ k, k < 32 → index (levels (k.testBit 4) (k.testBit 3) (k.testBit 2) (k.testBit 1) (k.testBit 0)) = k := by decide +kernel
  exact this k hk

/-- **C80**: a LUT whose function is that of a gate that there is an icon for gets the icon of that gate: AND or OR of the first
inputs, any of them negated, or NOT of one. -/
theorem gate_shown (fnum : Nat) (hf : fnum < 2 ^ 32) (g : Gate) (hg : g.Ok) (h : ∀ v, output fnum v = g.value v)
    (types : Inp → Option (List Char)) (icon : List Drawn) (hi : updateIcon fnum types = some icon) : g.Shown icon := by
  obtain ⟨p, hp, hs⟩ := gate_source g hg
  have hinv := invisible_source hp
  obtain ⟨icon', h'⟩ := icon_drawn p.1 types
  have hout : ∀ v, output p.1 v = g.value v := by
    intro v
    refine icon_true p.1 types icon' h' v _ ?_
    rw [says_eq h', hinv]
    exact says_shown hs v
  have hsmall : p.1 < 2 ^ 32 := by simpa using List.all_eq_true.1 source_small p hp
  have heq : fnum = p.1 := by
    apply Nat.eq_of_testBit_eq
    intro k
    by_cases hk : k < 32
    · obtain ⟨v, rfl⟩ := index_surj hk
      exact (h v).trans (hout v).symm
    · rw [Nat.testBit_lt_two_pow (Nat.lt_of_lt_of_le hf (Nat.pow_le_pow_right (by omega) (by omega))),
        Nat.testBit_lt_two_pow (Nat.lt_of_lt_of_le hsmall (Nat.pow_le_pow_right (by omega) (by omega)))]
  subst heq
  rw [← hinv] at hs
  have e : ∀ {x : El}, (∀ i, x ≠ .edge i) → seen icon x = seen (base (invisible p.1)) x := fun hx => seen_eq hi hx
  have ed := drawn_eq hi
  cases g with
  | and n negated =>
    unfold Gate.Shown at hs ⊢
    simpa only [e (x := .and) (by intro i hi; cases hi), e (x := .or) (by intro i hi; cases hi), e (x := .not) (by intro i hi; cases hi),
      e (x := .lut) (by intro i hi; cases hi), ed, fun i => e (x := .circle i) (by intro i hi; cases hi)] using hs
  | or n negated =>
    unfold Gate.Shown at hs ⊢
    simpa only [e (x := .and) (by intro i hi; cases hi), e (x := .or) (by intro i hi; cases hi), e (x := .not) (by intro i hi; cases hi),
      e (x := .lut) (by intro i hi; cases hi), ed, fun i => e (x := .circle i) (by intro i hi; cases hi)] using hs
  | not i =>
    unfold Gate.Shown at hs ⊢
    simpa only [e (x := .and) (by intro i hi; cases hi), e (x := .or) (by intro i hi; cases hi), e (x := .not) (by intro i hi; cases hi),
      e (x := .lut) (by intro i hi; cases hi), ed, fun i => e (x := .circle i) (by intro i hi; cases hi)] using hs

/-! ### arrows -/

theorem speaks_edgesOf (text : Option (List Char)) (k : Edges) : Speaks text k ↔ edgesOf (text.getD "level".toList) = k := by
  cases text with
  | none =>
    have : edgesOf "level".toList = .level := by decide +kernel
    rw [Option.getD_none, this]
    cases k <;> simp [Speaks]
  | some t =>
    rw [Option.getD_some]
    unfold edgesOf
    simp only
    by_cases h1 : Within "level".toList (t.map Char.toLower)
    · rw [if_pos ((contains_iff _ _).2 h1)]
      cases k <;> simp only [Speaks, reduceCtorEq, false_or, Option.some.injEq, exists_eq_left', h1, not_true, false_and]
    · rw [if_neg (fun c => h1 ((contains_iff _ _).1 c))]
      by_cases h2 : Within "rising".toList (t.map Char.toLower)
      · rw [if_pos ((contains_iff _ _).2 h2)]
        cases k <;> simp only [Speaks, reduceCtorEq, false_or, Option.some.injEq, exists_eq_left', h1, h2, not_true, false_and,
          not_false_eq_true, true_and]
      · rw [if_neg (fun c => h2 ((contains_iff _ _).1 c))]
        by_cases h3 : Within "falling".toList (t.map Char.toLower)
        · rw [if_pos ((contains_iff _ _).2 h3)]
          cases k <;> simp only [Speaks, reduceCtorEq, false_or, Option.some.injEq, exists_eq_left', h1, h2, h3, not_true, false_and,
            not_false_eq_true, true_and]
        · rw [if_neg (fun c => h3 ((contains_iff _ _).1 c))]
          cases k <;> simp only [Speaks, reduceCtorEq, false_or, Option.some.injEq, exists_eq_left', h1, h2, h3, not_true, false_and,
            not_false_eq_true, true_and]

def entryEdges (invis : List El) : Bool := inputs.all (fun i => seen (base invis) (.edge i) == seen (base invis) (.line i))

theorem table_edges : lutElements.all (fun p => entryEdges p.2) = true := by decide +kernel
theorem lut_edges : entryEdges lutInvis = true := by decide +kernel

theorem base_edge (fnum : Nat) (i : Inp) : seen (base (invisible fnum)) (.edge i) = seen (base (invisible fnum)) (.line i) := by
  have key : ∀ l : List El, entryEdges l = true → seen (base l) (.edge i) = seen (base l) (.line i) := by
    intro l hl
    exact eq_of_beq (List.all_eq_true.1 hl i (mem_inputs i))
  rcases invisible_cases fnum with hm | ⟨-, hd⟩
  · exact key _ (List.all_eq_true.1 table_edges _ hm)
  · rw [hd]; exact key _ lut_edges

/-- **C80**: the arrow of an input is there if and only if the input is there and its type is not a level; and it points as the type
says: both ways, or with the mark of a rising or of a falling edge only. -/
theorem arrows (fnum : Nat) (types : Inp → Option (List Char)) (icon : List Drawn) (h : updateIcon fnum types = some icon) (i : Inp)
    (k : Edges) (hk : Speaks (types i) k) :
    (seen icon (.edge i) = true ↔ seen icon (.line i) = true ∧ k ≠ .level) ∧
    ∀ d ∈ icon, d.el = .edge i → d.start = decide (k ≠ .falling) ∧ d.stop = decide (k ≠ .rising) := by
  have hl : seen icon (.line i) = seen (base (invisible fnum)) (.line i) := seen_eq h (by intro j hj; cases hj)
  rw [hl, ← base_edge]
  rw [speaks_edgesOf] at hk
  rw [updateIcon_eq] at h
  cases h
  have hr : ∀ d : Drawn, d.el = .edge i → redrawn inputs types d = arrowed (.edge i) k d := by
    intro d hd
    unfold redrawn
    rw [hd]
    simp only [mem_inputs, if_true, hk]
  constructor
  · unfold seen
    simp only [List.any_eq_true, List.mem_filterMap, decide_eq_true_eq]
    constructor
    · rintro ⟨d, ⟨d0, hd0, h0⟩, hde⟩
      have h1 := redrawn_el h0
      have hd0e : d0.el = .edge i := h1.symm.trans hde
      refine ⟨⟨d0, hd0, hd0e⟩, ?_⟩
      rintro rfl
      rw [hr d0 hd0e] at h0
      unfold arrowed at h0
      rw [if_neg (by simpa using hd0e)] at h0
      cases h0
    · rintro ⟨⟨d, hd, hde⟩, hkl⟩
      cases ha : arrowed (.edge i) k d with
      | none =>
        unfold arrowed at ha
        rw [if_neg (by simpa using hde)] at ha
        cases k <;> simp at ha hkl
      | some d' => exact ⟨d', ⟨d, hd, by rw [hr d hde, ha]⟩, (arrowed_el ha).trans hde⟩
  · intro d hd hde
    obtain ⟨d0, hd0, h0⟩ := List.mem_filterMap.1 hd
    have hd0e : d0.el = .edge i := (redrawn_el h0).symm.trans hde
    rw [hr d0 hd0e] at h0
    obtain ⟨hs, ht⟩ := svg_marks i d0 (List.mem_filter.1 hd0).1 hd0e
    unfold arrowed at h0
    rw [if_neg (by simpa using hd0e)] at h0
    cases k <;> simp only [reduceCtorEq, Option.some.injEq] at h0 <;> subst h0 <;> simp [hs, ht]

/-! ### cases that meet the hypotheses -/

/-- `A & ~B` -/
example : ∀ v, output 0x00FF0000 v = (Gate.and 2 (fun i => i = .B)).value v := by
  intro v
  rw [levels_eq v]
  generalize v .A = a
  generalize v .B = b
  generalize v .C = c
  generalize v .D = d
  generalize v .E = e
  revert a b c d e
  decide +kernel

example : (updateIcon 0x00FF0000 (fun i => if i = .A then some "Pulse-On-Rising-Edge".toList else none)).map
      (fun icon => icon.map (fun d => (d.el, d.start, d.stop))) =
    some [(.line .A, false, false), (.line .B, false, false), (.out, false, false), (.and, false, false), (.edge .A, true, false),
      (.circle .B, false, false)] := by decide +kernel

example (icon : List Drawn) (h : updateIcon 0x00FF0000 (fun _ => none) = some icon) : says icon (fun i => i = .A) = some true := by
  rw [says_eq h]
  decide +kernel

/-- a function that is no gate is shown as a box -/
example : (updateIcon 0x12345678 (fun _ => none)).map (fun icon => icon.map (·.el)) =
    some [.line .A, .line .B, .line .C, .line .D, .line .E, .out, .lut] := by decide +kernel

end Verif.Props.LutIcon
