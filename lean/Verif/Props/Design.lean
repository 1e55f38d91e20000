import Verif.Proofs.Design
/-!
C27: a saved design restores the block.
-/
namespace Verif.Design
open Verif.Layout (Name Part Attr Row LayoutInfo)
open Verif.Dict

theorem rows_saved {K : Kind} {m : Manager} (hg : Good m) :
    rows (doSave K m) = m.base.parts.map fun p => ⟨p.name, p.x, p.y, p.visible.getD false⟩ := by
  have hn : (m.base.layout.map (·.1)).Nodup := by
    rw [hg.table, List.map_map]
    exact hg.names
  show ((m.base.layout.foldl (fun d r => Dict.set d r.1 (r.2.x, r.2.y, r.2.visible)) []).map _) = _
  rw [fill_nil (·.1) (fun r => (r.2.x, r.2.y, r.2.visible)) m.base.layout hn, hg.table, List.map_map, List.map_map]
  rfl

theorem children_saved {K : Kind} {m : Manager} (hg : Good m) {p : Part} (hp : p ∈ m.base.parts) :
    (doSave K m).children.get? p.name = some (onSave K p) := by
  show Dict.get? (m.base.parts.foldl (fun d p => Dict.set d p.name (onSave K p)) []) p.name = _
  rw [fill_nil Part.name (onSave K) m.base.parts hg.names]
  refine get?_of_mem_nodup ?_ (List.mem_map.2 ⟨p, hp, rfl⟩)
  unfold Dict.keys
  rw [List.map_map]
  exact hg.names

theorem part?_mem {m : Layout.Manager} {n : Name} {p : Part} (h : m.part? n = some p) : p ∈ m.parts ∧ p.name = n := by
  refine ⟨List.mem_of_find?_eq_some h, ?_⟩
  have := List.find?_some h
  simpa using this

/-- C27: a design of the manager as it is in `m` is loaded when it is as in `m'`.  Then the layout, the exports, the own config
attributes and every saved setting are as they were in `m`; the other settings are as the layout that is put first leaves
them; and a save writes the same design.

Missing: what must be assumed.  An exported field is exported once (`same_source_lost`) and can still be exported
(`lost_export_fails`), the own config attributes that were saved belong to parts that were visible (`hidden_own_fails`), the
layout can be put, and the children can be given what they had. -/
theorem design_restored_partial {K : Kind} {m m' : Manager} (hg : Good m) (hs : SameShape m m')
    (hexp : ∀ r ∈ m.exports, r.1 ∈ m'.choices)
    (hown : ∀ r ∈ m.own, ∀ i, m.base.row? r.2.1 = some i → i.visible = true)
    (ht : ∀ p ∈ m.base.parts, Tidy K p.name p.child.keys (onSave K p))
    {m1 : Layout.Manager} (hl : m'.base.setLayout (rows (doSave K m)) = some m1) :
    ∃ m'', doLoad K m' (doSave K m) = some m'' ∧
      m''.base.layout = m.base.layout ∧ m''.exports = m.exports ∧ (∀ k, m''.ownValue k = m.ownValue k) ∧
      (∀ n k, Kept K m n k → m''.value n k = m.value n k) ∧
      (∀ n k, ¬ Kept K m n k → m''.base.attr? n k = m1.attr? n k) ∧
      doSave K m'' = doSave K m := by
  obtain ⟨hs1, hs2⟩ := hs
  -- the layout
  have hl' := hl
  unfold Layout.Manager.setLayout at hl'
  obtain ⟨ps1, hl1, hl2⟩ := Option.map_eq_some_iff.1 hl'
  have hrows := rows_saved (K := K) hg
  have hrn : ((rows (doSave K m)).map Row.name).Nodup := by
    rw [hrows, List.map_map]
    exact hg.names
  have hall1 : All2 (fun p p1 => p1.name = p.name ∧ p1.info = p.info ∧ p1.child.keys = p.child.keys) m.base.parts ps1 := by
    refine ((All2.of_map hs1.symm).comp (layoutHooks_all2 hl1)).imp ?_
    rintro p hp p1 _ ⟨p', _, h1, h2⟩
    simp only [Prod.mk.injEq] at h1
    obtain ⟨e1, e2, e3⟩ := h1
    have hr : (⟨p.name, p.x, p.y, p.visible.getD false⟩ : Row) ∈ rows (doSave K m) := by
      rw [hrows]
      exact List.mem_map.2 ⟨p, hp, rfl⟩
    have ha := Layout.asked_of_mem hrn hr
    rw [show (⟨p.name, p.x, p.y, p.visible.getD false⟩ : Row).name = p'.name from e1] at ha
    obtain ⟨f1, f2, f3, f4, f5, f6⟩ := onLayout_named h2 ha
    refine ⟨f1.trans e1.symm, ?_, f6.trans e3.symm⟩
    unfold Part.info
    rw [f2, f3, f4, f5, e2]
    rfl
  have hlay : m1.layout = m.base.layout := by
    rw [← hl2, hg.table]
    show ps1.map _ = _
    exact ((hall1.imp fun p _ p1 _ h => show (p.name, p.info) = (p1.name, p1.info) by rw [h.1, h.2.1]).map).symm
  have hparts1 : m1.parts = ps1 := by rw [← hl2]
  -- the exports
  have hfe : (doSave K m).exports = m.exports := by
    show m.exports.foldl (fun d r => Dict.set d r.1 r.2) [] = _
    rw [fill_nil (·.1) (·.2) m.exports hg.exports]
    simp
  have hvalid : (doSave K m).exports.keys.all (· ∈ m'.choices) = true := by
    rw [List.all_eq_true, hfe]
    intro s hsrc
    obtain ⟨r, hr, rfl⟩ := List.mem_map.1 hsrc
    simpa using hexp r hr
  -- the own attributes
  have hfo : (doSave K m).own = m.own.map fun r => (r.1, r.2.2) := by
    show m.own.foldl (fun d r => Dict.set d r.1 r.2.2) [] = _
    rw [fill_nil (·.1) (fun r => r.2.2) m.own hg.own]
  have hon : (Dict.keys (m.own.map fun r => (r.1, r.2.2))).Nodup := by
    unfold Dict.keys
    rw [List.map_map]
    exact hg.own
  have hget : ∀ r ∈ m.own, (doSave K m).own.get? r.1 = some r.2.2 := by
    intro r hr
    rw [hfo]
    exact get?_of_mem_nodup hon (List.mem_map.2 ⟨r, hr, rfl⟩)
  have hall : All2 (fun r r' => (r.1, r.2.1) = (r'.1, r'.2.1)) m.own m'.own := All2.of_map hs2.symm
  have hshown : ∀ r' ∈ m'.own, ((doSave K m).own.get? r'.1).isSome → shown m1.layout r'.2.1 = true := by
    intro r' hr' _
    have : (r'.1, r'.2.1) ∈ m.own.map fun r => (r.1, r.2.1) := by
      rw [← hs2]
      exact List.mem_map.2 ⟨r', hr', rfl⟩
    obtain ⟨r, hr, he⟩ := List.mem_map.1 this
    injection he with he1 he2
    unfold shown
    rw [hlay]
    cases hany : m.base.layout.any fun x => decide (x.1 = r'.2.1) && !x.2.visible with
    | false => rfl
    | true =>
      obtain ⟨x, hx, hx2⟩ := List.any_eq_true.1 hany
      simp only [Bool.and_eq_true, decide_eq_true_eq, Bool.not_eq_eq_eq_not, Bool.not_true] at hx2
      have hln : (Dict.keys m.base.layout).Nodup := by
        unfold Dict.keys
        rw [hg.table, List.map_map]
        exact hg.names
      have := hown r hr x.2 (by
        unfold Layout.Manager.row?
        rw [he2, ← hx2.1]
        exact get?_of_mem_nodup hln hx)
      rw [this] at hx2
      cases hx2.2
  have hput := putOwn_facts m'.own hshown
  have hownEq : (m'.own.map fun r => (r.1, r.2.1, ((doSave K m).own.get? r.1).getD r.2.2)) = m.own := by
    have h1 := (hall.imp (S := fun (r r' : Name × Name × String) => r = (r'.1, r'.2.1, ((doSave K m).own.get? r'.1).getD r'.2.2)) fun r hr r' _ h => by
      simp only [Prod.mk.injEq] at h
      rw [← h.1, ← h.2, hget r hr]
      rfl)
    have := All2.map (f := id) (g := fun (r' : Name × Name × String) => (r'.1, r'.2.1, ((doSave K m).own.get? r'.1).getD r'.2.2)) h1
    rw [List.map_id] at this
    exact this.symm
  -- the children
  have hlsome : ∀ p1 ∈ ps1, ∃ q, onLoad K p1 (((doSave K m).children.get? p1.name).getD []) = some q := by
    have key : All2 (fun _ p1 => ∃ q, onLoad K p1 (((doSave K m).children.get? p1.name).getD []) = some q) m.base.parts ps1 := by
      refine hall1.imp fun p hp p1 _ h => ?_
      rw [h.1, children_saved hg hp]
      have ht' : Tidy K p1.name p1.child.keys (onSave K p) := by
        rw [h.1, h.2.2]
        exact ht p hp
      obtain ⟨c', h1, _⟩ := onLoad_facts ht' (onSave_nodup (hg.attrs p hp))
      exact ⟨_, h1⟩
    exact key.right
  obtain ⟨ps2, hps2, hall2⟩ := loadHooks_facts ps1 hlsome
  have hall12 : All2 (fun p q => ∃ p1 ∈ ps1, p1.name = p.name ∧ q.name = p.name ∧ q.child.keys = p.child.keys ∧
      (∀ k v, (onSave K p).get? k = some v → (q.child.get? k).map (·.value) = some v) ∧
      ∀ j, j ∉ (onSave K p).keys → q.child.get? j = p1.child.get? j) m.base.parts ps2 := by
    refine (hall1.comp hall2).imp ?_
    rintro p hp q _ ⟨p1, hp1, h, h2⟩
    rw [h.1, children_saved hg hp] at h2
    have ht' : Tidy K p1.name p1.child.keys (onSave K p) := by
      rw [h.1, h.2.2]
      exact ht p hp
    obtain ⟨c', h3, h4, h5, h6⟩ := onLoad_facts ht' (onSave_nodup (hg.attrs p hp))
    rw [show (some (onSave K p)).getD [] = onSave K p from rfl, h3] at h2
    injection h2 with h2
    subst h2
    refine ⟨p1, hp1, h.1, h.1, h4.trans h.2.2, fun k v hk => ?_, h6⟩
    have hsv := (onSave_get (hg.attrs p hp) k v).1 hk
    refine h5 k v hk ?_ (by rw [h.1]; exact hsv.2.2)
    rw [h.2.2]
    obtain ⟨a, ha, _⟩ := Option.map_eq_some_iff.1 hsv.1
    exact List.mem_map.2 ⟨_, get?_mem ha, rfl⟩
  have hload : doLoad K m' (doSave K m) =
      some { m' with base := { m1 with parts := ps2 }, exports := (doSave K m).exports, own := m.own } := by
    unfold doLoad
    rw [hl]
    simp only [hvalid, if_true, hput, hownEq, hparts1, hps2]
  have hnames1 : (ps1.map Part.name).Nodup := by
    rw [← (hall1.imp fun p _ p1 _ h => show Part.name p = Part.name p1 from h.1.symm).map]
    exact hg.names
  -- one part
  have hone : ∀ n, (m.base.part? n = none ∧ (({ m1 with parts := ps2 } : Layout.Manager).part? n = none) ∧ m1.part? n = none) ∨
      ∃ p q p1, m.base.part? n = some p ∧ ({ m1 with parts := ps2 } : Layout.Manager).part? n = some q ∧ m1.part? n = some p1 ∧
        q.child.keys = p.child.keys ∧
        (∀ k v, (onSave K p).get? k = some v → (q.child.get? k).map (·.value) = some v) ∧
        ∀ j, j ∉ (onSave K p).keys → q.child.get? j = p1.child.get? j := by
    intro n
    rcases hall12.find (f := fun p => decide (p.name = n)) (g := fun p => decide (p.name = n))
        (fun a b ⟨_, _, _, h, _⟩ => by rw [h]) with ⟨h1, h2⟩ | ⟨p, q, h1, h2, p1, hp1, h3, _, h5, h6, h7⟩
    · left
      refine ⟨h1, h2, ?_⟩
      rcases hall1.find (f := fun p => decide (p.name = n)) (g := fun p => decide (p.name = n))
          (fun a b h => by rw [h.1]) with ⟨_, h4⟩ | ⟨p, _, h4, _⟩
      · unfold Layout.Manager.part?
        rw [hparts1]
        exact h4
      · rw [h1] at h4
        cases h4
    · right
      refine ⟨p, q, p1, h1, h2, ?_, h5, h6, h7⟩
      have hpn : p.name = n := by simpa using List.find?_some h1
      unfold Layout.Manager.part?
      rw [hparts1]
      cases hf : ps1.find? fun p => decide (p.name = n) with
      | none =>
        have := List.find?_eq_none.1 hf p1 hp1
        exact absurd (h3.trans hpn) (by simpa using this)
      | some p1' =>
        have e1 : p1'.name = n := by simpa using List.find?_some hf
        rw [Layout.nodup_map_eq hnames1 p1' (List.mem_of_find?_eq_some hf) p1 hp1 (e1.trans (h3.trans hpn).symm)]
  refine ⟨_, hload, hlay, hfe, fun _ => rfl, ?_, ?_, ?_⟩
  · rintro n k ⟨hk1, hk2, hk3⟩
    rcases hone n with ⟨h1, _⟩ | ⟨p, q, p1, h1, h2, h3, _, h5, _⟩
    · unfold Manager.value Layout.Manager.attr? at hk1
      rw [h1] at hk1
      cases hk1
    · obtain ⟨hp, hpn⟩ := part?_mem h1
      have hv : m.value n k = (p.child.get? k).map (·.value) := by
        unfold Manager.value Layout.Manager.attr?
        rw [h1]
        rfl
      have hv2 : (p.child.get? k).map (·.value) = m.value n k := hv.symm
      obtain ⟨v, hv'⟩ := Option.isSome_iff_exists.1 hk1
      rw [hv']
      unfold Manager.value Layout.Manager.attr?
      dsimp only
      rw [h2]
      refine h5 k v ((onSave_get (hg.attrs p hp) k v).2 ⟨hv2.trans hv', ?_, ?_⟩)
      · rw [hpn]; exact hk3
      · rw [hpn]; exact hk2
  · intro n k hk
    rcases hone n with ⟨_, h1, h2⟩ | ⟨p, q, p1, h1, h2, h3, _, _, h6⟩
    · unfold Layout.Manager.attr?
      dsimp only
      rw [h1, h2]
    · obtain ⟨hp, hpn⟩ := part?_mem h1
      unfold Layout.Manager.attr?
      dsimp only
      rw [h2, h3]
      refine h6 k fun hc => hk ?_
      cases hg2 : (onSave K p).get? k with
      | none => exact absurd hc (get?_none_iff.1 hg2)
      | some v =>
        obtain ⟨e1, e2, e3⟩ := (onSave_get (hg.attrs p hp) k v).1 hg2
        rw [hpn] at e2 e3
        refine ⟨?_, e3, e2⟩
        unfold Manager.value Layout.Manager.attr?
        rw [h1]
        show ((p.child.get? k).map _).isSome = true
        rw [e1]
        rfl
  · have hchild : ps2.map (fun p => (p.name, onSave K p)) = m.base.parts.map fun p => (p.name, onSave K p) := by
      refine ((hall12.imp fun p hp q _ ⟨p1, _, _, h2, h3, h4, _⟩ => ?_).map).symm
      show (p.name, onSave K p) = (q.name, onSave K q)
      rw [h2, onSave_eq (hg.attrs p hp) h2 h3 fun k hk1 hk2 => ?_]
      cases hv : (p.child.get? k).map (·.value) with
      | none =>
        have : k ∉ p.child.keys := get?_none_iff.1 (by simpa using hv)
        rw [← h3] at this
        rw [get?_none_iff.2 this]
        rfl
      | some v => exact h4 k v ((onSave_get (hg.attrs p hp) k v).2 ⟨hv, hk1, hk2⟩)
    have hn2 : (ps2.map Part.name).Nodup := by
      rw [← (hall12.imp fun p _ q _ ⟨_, _, _, h, _⟩ => show Part.name p = Part.name q from h.symm).map]
      exact hg.names
    have hc : (ps2.foldl (fun d p => Dict.set d p.name (onSave K p)) []) = (doSave K m).children := by
      show _ = m.base.parts.foldl (fun d p => Dict.set d p.name (onSave K p)) []
      rw [fill_nil Part.name (onSave K) ps2 hn2, fill_nil Part.name (onSave K) m.base.parts hg.names, hchild]
    have h1 : (doSave K m).layout = m.base.layout.foldl (fun d r => Dict.set d r.1 (r.2.x, r.2.y, r.2.visible)) [] := rfl
    have h2 : (doSave K m).exports = m.exports.foldl (fun d r => Dict.set d r.1 r.2) [] := rfl
    have h3 : (doSave K m).own = m.own.foldl (fun d r => Dict.set d r.1 r.2.2) [] := rfl
    show File.mk _ _ _ _ = File.mk _ _ _ _
    congr 1
    · show m1.layout.foldl _ [] = _
      rw [hlay]
    · show (doSave K m).exports.foldl _ [] = _
      rw [hfe]

/-! ## The files of designs -/

/-- The name does not contain ".json" -/
def Plain (name : List Char) : Prop := ¬ ∃ a b, name = a ++ ['.', 'j', 's', 'o', 'n'] ++ b

theorem stem_plain {name : List Char} (h : Plain name) : stem name = name := by
  induction name with
  | nil => rfl
  | cons c cs ih =>
    unfold stem
    rw [if_neg, ih]
    · rintro ⟨a, b, h1⟩
      exact h ⟨c :: a, b, by rw [h1]; simp⟩
    · intro hp
      obtain ⟨t, ht⟩ := List.isPrefixOf_iff_prefix.1 hp
      exact h ⟨[], t, by rw [← ht]; simp⟩

/-- One save after another; those with a name that is not allowed do nothing -/
def Store.saves (st : Store) (fs : List (List Char × File)) : Store :=
  fs.foldl (fun st nf => (st.save nf.1 nf.2).getD st) st

/-- C27, the file: a design is read as it was last saved under its name, whatever is saved under other names, if no name
contains ".json" -/
theorem design_kept {st st1 : Store} {name : List Char} {f : File} (hn : Plain name) (h : st.save name f = some st1)
    {fs : List (List Char × File)} (hfs : ∀ nf ∈ fs, nf.1 ≠ name ∧ Plain nf.1) : (st1.saves fs).load name = some f := by
  have h0 : st1.load name = some f := by
    unfold Store.save at h
    split at h
    · cases h
    · injection h with h
      subst h
      exact get?_set_self _ _ _
  clear h
  induction fs generalizing st1 with
  | nil => exact h0
  | cons nf fs ih =>
    refine ih (st1 := (st1.save nf.1 nf.2).getD st1) (fun x hx => hfs x (List.mem_cons_of_mem _ hx)) ?_
    obtain ⟨h1, h2⟩ := hfs nf List.mem_cons_self
    unfold Store.save
    split
    · exact h0
    · show Dict.get? (Dict.set st1 (stem nf.1) nf.2) (stem name) = _
      rw [get?_set_ne]
      · exact h0
      · rw [stem_plain hn, stem_plain h2]
        exact h1

/-! ## Examples, and what goes wrong -/

/-- A child whose gain is reset when its mode is put, with a reading that is not saved -/
def kind : Kind where
  tag _ k := if k = "mode" then some 1 else if k = "gain" ∨ k = "reading" then some 2 else none
  noSave _ := ["reading"]
  put _ c k v :=
    match c.get? k with
    | none => none
    | some a =>
      let c := c.set k { a with value := v }
      if k = "mode" then
        match c.get? "gain" with
        | some g => some (c.set "gain" { g with value := "0" })
        | none => some c
      else some c

def child (mode gain reading : String) : Dict Name Attr :=
  [("gain", ⟨gain, true⟩), ("mode", ⟨mode, true⟩), ("reading", ⟨reading, true⟩), ("total", ⟨reading, false⟩)]

def here (mode gain reading : String) (x : Int) (visible : Bool) (exports : List (String × String)) (level : String) : Manager where
  base := {
    parts := [⟨"A", "mri:A", x, 0, some true, [], child mode gain reading⟩, ⟨"B", "mri:B", 0, x, some visible, [], child mode "2" reading⟩]
    layout := [("A", ⟨"mri:A", x, 0, true⟩), ("B", ⟨"mri:B", 0, x, visible⟩)] }
  exports
  choices := ["A.gain", "B.gain"]
  own := [("level", "A", level)]

def before : Manager := here "fast" "5" "17" 3 false [("A.gain", "gain")] "high"
def after : Manager := here "slow" "9" "18" 4 true [("B.gain", "other")] "low"

/-- The gain is restored although putting the mode resets it -/
example : ((doLoad kind after (doSave kind before)).map fun m => (m.value "A" "gain", m.value "A" "mode", m.value "A" "reading")) =
    some (some "5", some "fast", some "18") := by decide +kernel
example : ((doLoad kind after (doSave kind before)).map fun m => (m.exports, m.own)) = some (before.exports, before.own) := by
  decide +kernel
example : ((doLoad kind after (doSave kind before)).map fun m => m.base.layout.map fun r => (r.2.x, r.2.y, r.2.visible)) =
    some [(3, 0, true), (0, 3, false)] := by decide +kernel
example : Good before := ⟨by decide, by decide +kernel, by decide +kernel, by decide, by decide⟩
example : SameShape before after := ⟨by decide +kernel, by decide +kernel⟩
example : ∀ r ∈ before.own, ∀ i, before.base.row? r.2.1 = some i → i.visible = true := by
  intro r hr i hi
  simp only [before, here, List.mem_singleton] at hr
  subst hr
  injection hi with hi
  rw [← hi]

/-- The children of the examples can be given what they had -/
theorem kind_tidy (n : Name) (saved : Dict Name String) (hg : "gain" ∈ saved.keys) :
    Tidy kind n ["gain", "mode", "reading", "total"] saved := by
  intro c hc k v _ hk
  have hmem : ∀ j, j ∈ ["gain", "mode", "reading", "total"] → ∃ a, c.get? j = some a := by
    intro j hj
    cases h : c.get? j with
    | some a => exact ⟨a, rfl⟩
    | none => rw [← hc] at hj; exact absurd hj (get?_none_iff.1 h)
  have hkeys : ∀ (d : Dict Name Attr) j a, d.keys = ["gain", "mode", "reading", "total"] → j ∈ ["gain", "mode", "reading", "total"] →
      (d.set j a).keys = ["gain", "mode", "reading", "total"] := by
    intro d j a hd hj
    rw [keys_set, hd, if_pos hj]
  obtain ⟨a, ha⟩ := hmem k hk
  have h1 : (c.set k { a with value := v }).keys = ["gain", "mode", "reading", "total"] := hkeys c k _ hc hk
  by_cases hm : k = "mode"
  · subst hm
    obtain ⟨g, hgg⟩ := hmem "gain" (by simp)
    have h2 : (c.set "mode" { a with value := v }).get? "gain" = some g := by
      rw [get?_set_ne _ _ (by decide)]
      exact hgg
    refine ⟨_, by show (match c.get? "mode" with | none => none | some a => _) = _; rw [ha]; dsimp only; rw [if_pos rfl, h2],
      hkeys _ _ _ h1 (by simp), ?_, fun j hj => ?_⟩
    · rw [get?_set_ne _ _ (by decide), get?_set_self]
      rfl
    · by_cases hj2 : j = "gain"
      · subst hj2
        exact .inr ⟨hg, 1, 2, rfl, by simp [kind], by omega⟩
      · left
        rw [get?_set_ne _ _ (Ne.symm hj2), get?_set_ne _ _ (Ne.symm hj)]
  · refine ⟨_, by show (match c.get? k with | none => none | some a => _) = _; rw [ha]; dsimp only; rw [if_neg hm], h1, ?_,
      fun j hj => .inl ?_⟩
    · rw [get?_set_self]
      rfl
    · rw [get?_set_ne _ _ (Ne.symm hj)]

example : ∀ p ∈ before.base.parts, Tidy kind p.name p.child.keys (onSave kind p) := by
  intro p hp
  simp only [before, here, List.mem_cons, List.not_mem_nil, or_false] at hp
  rcases hp with rfl | rfl
  · exact kind_tidy _ _ (by decide +kernel)
  · exact kind_tidy _ _ (by decide +kernel)

/-- A config attribute of a part that is hidden is saved, and then the design cannot be loaded, not even into the block as it
was saved -/
theorem hidden_own_fails :
    let m := { before with own := [("level", "B", "high")] }
    (doSave kind m).own = [("level", "high")] ∧ doLoad kind m (doSave kind m) = none := by decide +kernel

/-- A field that is exported twice is exported once after a save and a load -/
theorem same_source_lost :
    let m := { before with exports := [("A.gain", "one"), ("B.gain", "two"), ("A.gain", "three")] }
    ((doLoad kind m (doSave kind m)).map fun m => m.exports) = some [("A.gain", "three"), ("B.gain", "two")] := by decide +kernel

/-- A field that was exported and cannot be exported any more: nothing is loaded -/
theorem lost_export_fails :
    doLoad kind { after with choices := ["B.gain"] } (doSave kind before) = none := by decide +kernel

/-- Saving a design whose name contains ".json" can overwrite another design -/
theorem json_name_overwrites :
    ((Store.save [] ['a'] (doSave kind before)).bind fun st => (st.save ['a', '.', 'j', 's', 'o', 'n', '2'] (doSave kind after)).bind
      fun st => st.load ['a']) = some (doSave kind after) ∧ doSave kind after ≠ doSave kind before := by decide +kernel

end Verif.Design
