import Verif.Spec.PandALayout
import Verif.Proofs.PyDict
/-! Lemmas for C121. -/
namespace Verif.Proofs.PandALayout
open Verif Verif.PandALayout Verif.Spec.PandALayout

variable {P : Type}

/-! ### the text -/

theorem split_flatten : ∀ (t : List (Tok P)) (after : Bool) (line : List (Tok P)),
    (splitFrom after line t).flatten.filter solid = (line ++ t).filter solid
  | [], _, line => by simp [splitFrom]
  | tok :: rest, after, line => by
    cases tok with
    | space =>
      unfold splitFrom
      split
      · simp [split_flatten rest, solid]
      · rw [split_flatten rest]; simp [solid]
    | comma => unfold splitFrom; rw [split_flatten rest]; simp
    | opening => unfold splitFrom; rw [split_flatten rest]; simp
    | closing => unfold splitFrom; rw [split_flatten rest]; simp
    | colon => unfold splitFrom; rw [split_flatten rest]; simp
    | str s => unfold splitFrom; rw [split_flatten rest]; simp
    | num x => unfold splitFrom; rw [split_flatten rest]; simp

theorem set_new {W : Type} : ∀ (d : Dict String W) (k : String) (v : W), k ∉ Dict.keys d → Dict.set d k v = d ++ [(k, v)]
  | [], _, _, _ => rfl
  | (k', v') :: d, k, v, h => by
    simp only [Dict.keys, List.map_cons, List.mem_cons, not_or] at h
    have := set_new d k v h.2
    simp only [Dict.set, Ne.symm h.1, if_false, this, List.cons_append]

theorem loadEntries_dump : ∀ (j acc : Json P), j ≠ [] → (Dict.keys (acc ++ j)).Nodup →
    loadEntries ((dumpEntries j).filter solid ++ [.closing]) acc = some (acc ++ j)
  | [], _, h, _ => absurd rfl h
  | [(k, p)], acc, _, hn => by
    have hk : k ∉ Dict.keys acc := by
      simp only [Dict.keys, List.map_append, List.map_cons, List.map_nil] at hn
      rw [List.nodup_append] at hn
      intro hm; exact hn.2.2 k hm k (by simp) rfl
    simp [dumpEntries, dumpEntry, solid, List.filter_cons, loadEntries, set_new acc k _ hk]
  | (k, p) :: c :: rest, acc, _, hn => by
    have hk : k ∉ Dict.keys acc := by
      simp only [Dict.keys, List.map_append, List.map_cons] at hn
      rw [List.nodup_append] at hn
      intro hm; exact hn.2.2 k hm k (by simp) rfl
    have ih := loadEntries_dump (c :: rest) (acc ++ [(k, p)]) (by simp) (by simpa using hn)
    have : dumpEntries ((k, p) :: c :: rest) = dumpEntry k p ++ [.comma, .space] ++ dumpEntries (c :: rest) := rfl
    rw [this]
    simp only [List.filter_append, dumpEntry, solid, List.filter_cons, List.filter_nil, if_true, Bool.false_eq_true, if_false,
      List.cons_append, List.nil_append, List.append_assoc, loadEntries, set_new acc k _ hk]
    simpa using ih

theorem loads_lines (j : Json P) (hn : (Dict.keys j).Nodup) : loads (lines j) = some j := by
  unfold loads lines
  rw [split_flatten]
  cases j with
  | nil => rfl
  | cons c rest =>
    have h := loadEntries_dump (c :: rest) [] (by simp) (by simpa using hn)
    have e1 : ([] ++ dump (c :: rest)).filter solid = .opening :: ((dumpEntries (c :: rest)).filter solid ++ [.closing]) := by
      simp [dump, solid, List.filter_cons]
    rw [e1]
    have e2 : ∃ s r, (dumpEntries (c :: rest)).filter solid ++ [.closing] = Tok.str s :: r := by
      obtain ⟨k, p⟩ := c
      cases rest with
      | nil => exact ⟨k, _, rfl⟩
      | cons c' r' => exact ⟨k, _, rfl⟩
    obtain ⟨s, r, hr⟩ := e2
    rw [hr] at h ⊢
    simpa using h

theorem lines_ne (j : Json P) : lines j ≠ [] := by
  intro h
  have := split_flatten (dump j) false []
  unfold lines at h
  rw [h] at this
  simp [dump, solid] at this

/-- what is read has no key twice -/
theorem loadEntries_nodup : ∀ (t : List (Tok P)) (acc r : Json P), (Dict.keys acc).Nodup → loadEntries t acc = some r → (Dict.keys r).Nodup := by
  intro t acc
  induction t, acc using loadEntries.induct with
  | case1 k x y rest j ih =>
    intro r hn h
    simp only [loadEntries] at h
    exact ih r (Dict.nodup_set hn _ _) h
  | case2 k x y j =>
    intro r hn h
    simp only [loadEntries, Option.some.injEq] at h
    subst h; exact Dict.nodup_set hn _ _
  | case3 t acc h1 h2 =>
    intro r hn h
    rw [loadEntries] at h
    · cases h
    · exact h1
    · exact h2

theorem loads_nodup {v : List (List (Tok P))} {j : Json P} (h : loads v = some j) : (Dict.keys j).Nodup := by
  unfold loads at h
  split at h
  · cases h; exact List.nodup_nil
  · exact loadEntries_nodup _ [] _ List.nodup_nil h
  · cases h

/-! ### rows -/

theorem foldl_onRow (n : String) : ∀ (rows : List (Row P)) (p : Place P), rows.foldl (onRow n) p =
    match lastRow rows n with
    | some r => { x := r.x, y := r.y, visible := some r.visible }
    | none => p
  | [], p => rfl
  | r :: rows, p => by
    rw [List.foldl_cons, foldl_onRow n rows]
    unfold lastRow
    rw [List.reverse_cons, List.find?_append]
    cases List.find? (fun r => decide (r.name = n)) rows.reverse with
    | some q => rfl
    | none =>
      simp only [Option.none_or, List.find?_singleton, onRow]
      by_cases h : r.name = n <;> simp [h]

theorem get?_map {W U : Type} (f : String → W → U) : ∀ (d : Dict String W) (n : String),
    Dict.get? (d.map (fun c => (c.1, f c.1 c.2))) n = (Dict.get? d n).map (f n)
  | [], _ => rfl
  | (k, v) :: d, n => by
    simp only [List.map_cons, Dict.get?_cons]
    by_cases h : k = n
    · subst h; simp
    · simp only [h, if_false]; exact get?_map f d n

theorem keys_map {W U : Type} (f : String → W → U) (d : Dict String W) :
    Dict.keys (d.map (fun c => (c.1, f c.1 c.2))) = Dict.keys d := by
  simp [Dict.keys, List.map_map, Function.comp_def]

theorem keys_iff {W : Type} (d : Dict String W) (k : String) : k ∈ Dict.keys d ↔ ∃ v, Dict.get? d k = some v := by
  have h := Dict.get?_none_iff (d := d) (k := k)
  cases hg : Dict.get? d k with
  | none => simp [h.mp hg]
  | some v =>
    constructor
    · intro _; exact ⟨v, rfl⟩
    · intro _; by_cases hk : k ∈ Dict.keys d
      · exact hk
      · rw [h.mpr hk] at hg; cases hg

/-- the row of a block if no layout is given -/
def rowOf (e : Ext P) (j : Json P) (n : String) : Row P :=
  match Dict.get? j n with
  | some p => { name := n, x := p.1, y := p.2, visible := true }
  | none => { name := n, x := e.zero, y := e.zero, visible := false }

theorem rowOf_name (e : Ext P) (j : Json P) (n : String) : (rowOf e j n).name = n := by
  unfold rowOf; split <;> rfl

theorem lastRow_map (f : String → Row P) (hf : ∀ n, (f n).name = n) (l : List String) (n : String) :
    lastRow (l.map f) n = if n ∈ l then some (f n) else none := by
  unfold lastRow
  split
  · rename_i h
    cases hc : List.find? (fun r => decide (r.name = n)) (l.map f).reverse with
    | none =>
      rw [List.find?_eq_none] at hc
      have := hc (f n) (by simpa using ⟨n, h, rfl⟩)
      simp [hf] at this
    | some r =>
      have h1 := List.find?_some hc
      have h2 := List.mem_of_find?_eq_some hc
      simp only [List.mem_reverse, List.mem_map] at h2
      obtain ⟨m, _, rfl⟩ := h2
      simp only [hf, decide_eq_true_eq] at h1
      rw [h1]
  · rename_i h
    rw [List.find?_eq_none]
    intro r hr
    simp only [List.mem_reverse, List.mem_map] at hr
    obtain ⟨m, hm, rfl⟩ := hr
    simp only [hf, decide_eq_true_eq]
    rintro rfl; exact h hm

theorem fromJson_last (e : Ext P) (names : List String) (j : Json P) (n : String) :
    lastRow (fromJson e names j) n = if n ∈ names ∨ n ∈ Dict.keys j then some (rowOf e j n) else none := by
  have : fromJson e names j = (names ++ (Dict.keys j).filter (fun k => decide (k ∉ names))).map (rowOf e j) := by
    unfold fromJson; rfl
  rw [this, lastRow_map _ (rowOf_name e j)]
  congr 1
  simp only [List.mem_append, List.mem_filter, decide_eq_true_eq, eq_iff_iff]
  constructor
  · rintro (h | ⟨h, _⟩)
    · exact Or.inl h
    · exact Or.inr h
  · rintro (h | h)
    · exact Or.inl h
    · by_cases hn : n ∈ names
      · exact Or.inl hn
      · exact Or.inr ⟨h, hn⟩

/-- the rows in force -/
def rowsOf (e : Ext P) (w : World P) (rows : List (Row P)) : List (Row P) := if rows.isEmpty then fromJson e w.names w.json else rows

theorem place_get (e : Ext P) (g : String → Bool) (w : World P) (rows : List (Row P)) (n : String) :
    Dict.get? (w.place e g rows).parts n = (Dict.get? w.parts n).map (fun p =>
      match lastRow (rowsOf e w rows) n with
      | some r => { x := r.x, y := r.y, visible := some r.visible }
      | none => { p with visible := some (p.visible.getD (g n)) }) := by
  have h : (w.place e g rows).parts = w.parts.map (fun c => (c.1, onLayout g (rowsOf e w rows) c.1 c.2)) := rfl
  rw [h, get?_map (fun n p => onLayout g (rowsOf e w rows) n p)]
  congr 1
  funext p
  unfold onLayout
  rw [foldl_onRow]
  cases lastRow (rowsOf e w rows) n <;> rfl

/-! ### the dictionary -/

theorem record_get : ∀ (parts : Dict String (Place P)) (j : Json P), (Dict.keys parts).Nodup → (Dict.keys j).Nodup →
    (Dict.keys (record parts j)).Nodup ∧ ∀ k, Dict.get? (record parts j) k = match Dict.get? parts k with
      | some p => if p.visible = some true then some (p.x, p.y) else none
      | none => Dict.get? j k
  | [], j, _, hj => ⟨hj, fun k => rfl⟩
  | (n, p) :: parts, j, hp, hj => by
    simp only [Dict.keys, List.map_cons, List.nodup_cons] at hp
    have hj' : (Dict.keys (if p.visible = some true then Dict.set j n (p.x, p.y) else Dict.erase j n)).Nodup := by
      split
      · exact Dict.nodup_set hj _ _
      · exact Dict.nodup_erase hj _
    obtain ⟨h1, h2⟩ := record_get parts _ hp.2 hj'
    refine ⟨h1, fun k => ?_⟩
    have := h2 k
    change Dict.get? (record parts _) k = _
    rw [this, Dict.get?_cons]
    by_cases hk : n = k
    · subst hk
      rw [Dict.get?_none_iff.mpr hp.1]
      simp only [if_true]
      by_cases hv : p.visible = some true
      · simp [hv]
      · simp [hv, Dict.get?_erase_self hj]
    · simp only [hk, if_false]
      cases Dict.get? parts k with
      | some q => rfl
      | none =>
        dsimp only
        split
        · exact Dict.get?_set_ne _ _ hk
        · exact Dict.get?_erase_ne _ hk

theorem sameJson_iff {e : Ext P} (hl : Lawful e) (a b : Json P) : sameJson e a b = true ↔ Same a b := by
  have key : ∀ a b : Json P, within e a b = true ↔ ∀ k p, Dict.get? a k = some p → Dict.get? b k = some p := by
    intro a b
    unfold within
    rw [List.all_eq_true]
    constructor
    · intro h k p hk
      have := h k ((keys_iff a k).mpr ⟨p, hk⟩)
      rw [hk] at this
      cases hb : Dict.get? b k with
      | none => rw [hb] at this; simp at this
      | some q =>
        rw [hb] at this
        simp only [Bool.and_eq_true] at this
        have h1 := (hl _ _).mp this.1
        have h2 := (hl _ _).mp this.2
        rw [Prod.ext h1 h2]
    · intro h k hk
      obtain ⟨p, hp⟩ := (keys_iff a k).mp hk
      rw [hp, h k p hp]
      simp [(hl p.1 p.1).mpr rfl, (hl p.2 p.2).mpr rfl]
  unfold sameJson
  rw [Bool.and_eq_true, key, key]
  constructor
  · rintro ⟨h1, h2⟩ k
    cases ha : Dict.get? a k with
    | some p => rw [h1 k p ha]
    | none =>
      cases hb : Dict.get? b k with
      | none => rfl
      | some q => rw [h2 k q hb] at ha; cases ha
  · intro h
    exact ⟨fun k p hk => by rw [← h k]; exact hk, fun k p hk => by rw [h k]; exact hk⟩

/-! ### the invariant -/

structure Inv (w : World P) : Prop where
  up : Up w
  nodup : (Dict.keys w.json).Nodup
  has : w.unread = false → Has w w.json
  shows : Shows w w.json
  readable : (w.table = [] ∧ (w.unread = true → Same w.json [])) ∨ ∃ j, loads w.table = some j

theorem has_congr {w : World P} {a b : Json P} (h : Has w a) (hs : Same a b) : Has w b := by
  rcases h with ⟨h1, h2⟩ | ⟨j, h1, h2, h3⟩
  · exact Or.inl ⟨h1, fun k => (hs k).symm.trans (h2 k)⟩
  · exact Or.inr ⟨j, h1, h2, fun k => (h3 k).trans (hs k)⟩

/-- after `store`: the table has what the layout shows, and it has been written only if it had something else -/
theorem store_spec {e : Ext P} (hl : Lawful e) {w : World P} (hp : (Dict.keys w.parts).Nodup) (hj : (Dict.keys w.json).Nodup)
    (hv : ∀ n p, Dict.get? w.parts n = some p → p.visible ≠ none) (hh : w.unread = false → Has w w.json) :
    (Dict.keys (w.store e).json).Nodup ∧ ((w.store e).unread = false → Has (w.store e) (w.store e).json) ∧ Shows (w.store e) (w.store e).json
    ∧ (w.store e).parts = w.parts ∧ (w.store e).laidOut = w.laidOut ∧ (w.store e).fault = w.fault
    ∧ (Same (w.store e).json w.json → (w.store e).table = w.table ∧ (w.store e).unread = w.unread ∧ (w.store e).writes = w.writes) := by
  obtain ⟨h1, h2⟩ := record_get w.parts w.json hp hj
  have hs : Shows w (record w.parts w.json) := by
    intro n p hn
    have := h2 n
    rw [hn] at this; dsimp only at this
    constructor
    · intro x y hxy
      rw [hxy] at this
      split at this
      · rename_i hvis
        cases this
        cases p; simp only at hvis; subst hvis; rfl
      · cases this
    · intro hxy
      rw [hxy] at this
      split at this
      · cases this
      · rename_i hvis
        have := hv n p hn
        cases hb : p.visible with
        | none => exact absurd hb this
        | some b => cases b with
          | false => rfl
          | true => exact absurd hb hvis
  unfold World.store
  dsimp only
  split
  · rename_i h
    have hsame := (sameJson_iff hl _ _).mp h
    exact ⟨h1, fun hu => has_congr (w := { w with json := record w.parts w.json }) (hh hu) (fun k => (hsame k).symm), hs, rfl, rfl, rfl, fun _ => ⟨rfl, rfl, rfl⟩⟩
  · rename_i h
    refine ⟨h1, fun _ => Or.inr ⟨_, loads_lines _ h1, h1, fun _ => rfl⟩, hs, rfl, rfl, rfl, fun hsame => ?_⟩
    exact absurd ((sameJson_iff hl _ _).mpr hsame) h

theorem store_readable {e : Ext P} (hl : Lawful e) {w : World P} (hp : (Dict.keys w.parts).Nodup) (hj : (Dict.keys w.json).Nodup)
    (hr : (w.table = [] ∧ (w.unread = true → Same w.json [])) ∨ ∃ j, loads w.table = some j) :
    ((w.store e).table = [] ∧ ((w.store e).unread = true → Same (w.store e).json [])) ∨ ∃ j, loads (w.store e).table = some j := by
  obtain ⟨h1, _⟩ := record_get w.parts w.json hp hj
  unfold World.store
  dsimp only
  split
  · rename_i h
    have hsame := (sameJson_iff hl _ _).mp h
    rcases hr with ⟨a, b⟩ | hr
    · exact Or.inl ⟨a, fun hu k => (hsame k).trans (b hu k)⟩
    · exact Or.inr hr
  · exact Or.inr ⟨_, loads_lines _ h1⟩

theorem place_visible (e : Ext P) (g : String → Bool) (w : World P) (rows : List (Row P)) :
    ∀ n p, Dict.get? (w.place e g rows).parts n = some p → p.visible ≠ none := by
  intro n p h
  rw [place_get] at h
  cases hp : Dict.get? w.parts n with
  | none => rw [hp] at h; cases h
  | some q =>
    rw [hp] at h
    simp only [Option.map_some, Option.some.injEq] at h
    subst h
    split <;> simp

theorem place_keys (e : Ext P) (g : String → Bool) (w : World P) (rows : List (Row P)) :
    Dict.keys (w.place e g rows).parts = Dict.keys w.parts :=
  keys_map (fun n p => onLayout g (rowsOf e w rows) n p) w.parts

theorem place_ne (e : Ext P) (g : String → Bool) {w : World P} (rows : List (Row P)) (h : w.parts ≠ []) : (w.place e g rows).parts ≠ [] := by
  intro hc
  have := place_keys e g w rows
  rw [hc] at this
  cases hw : w.parts with
  | nil => exact h hw
  | cons a l => rw [hw] at this; simp [Dict.keys] at this

theorem setLayout_inv {e : Ext P} (hl : Lawful e) (g : String → Bool) {w : World P} (hf : w.fault = false) (hne : w.parts ≠ [])
    (hp : (Dict.keys w.parts).Nodup) (hj : (Dict.keys w.json).Nodup) (hh : w.unread = false → Has w w.json)
    (hr : (w.table = [] ∧ (w.unread = true → Same w.json [])) ∨ ∃ j, loads w.table = some j) (rows : List (Row P)) :
    Inv (w.setLayout e g rows) := by
  have hp' : (Dict.keys (w.place e g rows).parts).Nodup := by rw [place_keys]; exact hp
  obtain ⟨h1, h2, h3, h4, h5, h6, _⟩ := store_spec hl (w := w.place e g rows) hp' hj (place_visible e g w rows) hh
  refine ⟨⟨?_, ?_, ?_, ?_⟩, h1, h2, h3, store_readable hl (w := w.place e g rows) hp' hj hr⟩
  · unfold World.setLayout; rw [h6]; exact hf
  · unfold World.setLayout; rw [h5]; rfl
  · unfold World.setLayout; rw [h4]; exact place_ne e g rows hne
  · unfold World.setLayout; rw [h4]; exact hp'

/-- a blank layout puts every block where the dictionary has it -/
theorem blank_place (e : Ext P) (g : String → Bool) {w : World P} (n : String) (p : Place P) (hn : Dict.get? w.parts n = some p) :
    (∀ x y, Dict.get? w.json n = some (x, y) → Dict.get? (w.place e g []).parts n = some { x := x, y := y, visible := some true })
    ∧ (Dict.get? w.json n = none → w.laidOut = true →
        Dict.get? (w.place e g []).parts n = some { x := e.zero, y := e.zero, visible := some false })
    ∧ (Dict.get? w.json n = none → w.laidOut = false →
        Dict.get? (w.place e g []).parts n = some { p with visible := some (p.visible.getD (g n)) }) := by
  rw [place_get, hn]
  have hr : rowsOf e w [] = fromJson e w.names w.json := rfl
  rw [hr, fromJson_last]
  refine ⟨fun x y h => ?_, fun h hlo => ?_, fun h hlo => ?_⟩
  · have : n ∈ Dict.keys w.json := (keys_iff _ _).mpr ⟨_, h⟩
    simp [this, rowOf, h]
  · have : n ∈ w.names := by unfold World.names; rw [hlo]; exact (keys_iff _ _).mpr ⟨_, hn⟩
    simp [this, rowOf, h]
  · have h1 : n ∉ Dict.keys w.json := Dict.get?_none_iff.mp h
    simp [World.names, hlo, h1]

/-- a blank layout leaves the dictionary as it is, once laid out -/
theorem blank_record {e : Ext P} (g : String → Bool) {w : World P} (hp : (Dict.keys w.parts).Nodup) (hj : (Dict.keys w.json).Nodup)
    (hv : ∀ n p, Dict.get? w.parts n = some p → Dict.get? w.json n = none → w.laidOut = false → p.visible.getD (g n) = false) :
    Same (record (w.place e g []).parts w.json) w.json := by
  intro k
  have hp' : (Dict.keys (w.place e g []).parts).Nodup := by rw [place_keys]; exact hp
  rw [(record_get _ _ hp' hj).2 k]
  cases hk : Dict.get? w.parts k with
  | none =>
    have : Dict.get? (w.place e g []).parts k = none := by rw [place_get, hk]; rfl
    rw [this]
  | some p =>
    obtain ⟨b1, b2, b3⟩ := blank_place e g k p hk
    cases hj' : Dict.get? w.json k with
    | some xy =>
      rw [b1 xy.1 xy.2 hj']; simp
    | none =>
      cases hlo : w.laidOut with
      | true => rw [b2 hj' hlo]; simp
      | false => rw [b3 hj' hlo]; simp [hv k p hk hj' hlo]

theorem store_json (e : Ext P) (w : World P) : (w.store e).json = record w.parts w.json := by
  unfold World.store; dsimp only; split <;> rfl

theorem loads_ne {t : List (List (Tok P))} {j : Json P} (h : loads t = some j) : t ≠ [] := by
  intro hc; rw [hc] at h; simp [loads] at h

theorem poll_eq (e : Ext P) (g : String → Bool) {w : World P} (hl : w.laidOut = true) (hne : w.parts ≠ []) (hu : w.unread = true) {j : Json P}
    (hj : loads w.table = some j) : w.poll e g = ({ w with unread := false, json := j } : World P).setLayout e g [] := by
  have ht : w.table.isEmpty = false := by
    cases h : w.table with
    | nil => exact absurd h (loads_ne hj)
    | cons _ _ => rfl
  have hn : ({ w with unread := false, json := j } : World P).names.isEmpty = false := by
    unfold World.names
    simp only [hl, if_true]
    cases hw : w.parts with
    | nil => exact absurd hw hne
    | cons x y => rfl
  unfold World.poll
  rw [hu, if_pos rfl]
  unfold World.heard
  simp only [ht, Bool.false_eq_true, if_false, hj]
  rw [if_neg (by rw [hn]; simp)]

theorem heard_inv {e : Ext P} (hl : Lawful e) (g : String → Bool) {w : World P} (h : Inv w) (hu : w.unread = true) :
    Inv (w.poll e g) := by
  rcases h.readable with ⟨ht, hs⟩ | ⟨j, hj⟩
  · have : w.poll e g = { w with unread := false } := by
      unfold World.poll World.heard
      simp [hu, ht]
    rw [this]
    exact ⟨h.up, h.nodup, fun _ => Or.inl ⟨ht, hs hu⟩, h.shows, Or.inl ⟨ht, fun hc => by cases hc⟩⟩
  · rw [poll_eq e g h.up.2.1 h.up.2.2.1 hu hj]
    exact setLayout_inv hl g (w := { w with unread := false, json := j }) h.up.1 h.up.2.2.1 h.up.2.2.2 (loads_nodup hj)
      (fun _ => Or.inr ⟨j, hj, loads_nodup hj, fun _ => rfl⟩) (Or.inr ⟨j, hj⟩) []

theorem poll_inv {e : Ext P} (hl : Lawful e) (g : String → Bool) {w : World P} (h : Inv w) : Inv (w.poll e g) := by
  cases hu : w.unread with
  | true => exact heard_inv hl g h hu
  | false => unfold World.poll; rw [hu]; simpa using h

/-- what has been heard at the start, if the table can be read -/
theorem fresh_poll (e : Ext P) (g : String → Bool) (w : World P) :
    (w.table = [] → (w.fresh e).poll e g = { w.fresh e with unread := false })
    ∧ (∀ j, loads w.table = some j → (w.fresh e).poll e g = { w.fresh e with unread := false, json := j })
    ∧ (w.table ≠ [] → loads w.table = none → ((w.fresh e).poll e g).fault = true) := by
  have h0 : (w.fresh e).poll e g = ({ w.fresh e with unread := false } : World P).heard e g w.table := rfl
  rw [h0]
  unfold World.heard
  refine ⟨fun ht => by simp [ht], fun j hj => ?_, fun ht hn => ?_⟩
  · have : w.table.isEmpty = false := by
      cases ht : w.table with
      | nil => rw [ht] at hj; simp [loads] at hj
      | cons _ _ => rfl
    simp only [this, Bool.false_eq_true, if_false, hj]
    rw [if_pos (by rfl)]
  · have : w.table.isEmpty = false := by
      cases ht' : w.table with
      | nil => exact absurd ht' ht
      | cons _ _ => rfl
    simp only [this, Bool.false_eq_true, if_false, hn]

theorem restart_inv {e : Ext P} (hl : Lawful e) (g : String → Bool) {w : World P} (hne : w.parts ≠ []) (hp : (Dict.keys w.parts).Nodup)
    (hr : w.table = [] ∨ ∃ j, loads w.table = some j) : Inv (w.restart e g) := by
  have hk : Dict.keys (w.fresh e).parts = Dict.keys w.parts := keys_map (fun _ _ => (⟨e.zero, e.zero, none⟩ : Place P)) w.parts
  have hne' : (w.fresh e).parts ≠ [] := by
    intro hc; rw [hc] at hk
    cases hw : w.parts with
    | nil => exact hne hw
    | cons a l => rw [hw] at hk; simp [Dict.keys] at hk
  obtain ⟨f1, f2, _⟩ := fresh_poll e g w
  unfold World.restart
  rcases hr with hr | ⟨j, hj⟩
  · rw [f1 hr]
    exact setLayout_inv hl g (w := { w.fresh e with unread := false }) rfl hne' (by rw [hk]; exact hp) List.nodup_nil
      (fun _ => Or.inl ⟨hr, fun _ => rfl⟩) (Or.inl ⟨hr, fun hc => by cases hc⟩) []
  · rw [f2 j hj]
    exact setLayout_inv hl g (w := { w.fresh e with unread := false, json := j }) rfl hne' (by rw [hk]; exact hp) (loads_nodup hj)
      (fun _ => Or.inr ⟨j, hj, loads_nodup hj, fun _ => rfl⟩) (Or.inr ⟨j, hj⟩) []

theorem step_inv {e : Ext P} (hl : Lawful e) (g : String → Bool) {w : World P} (h : Inv w) {ev : Ev P} (hr : Readable ev) :
    Inv (w.step e g ev) := by
  cases ev with
  | put rows =>
    simp only [World.step, h.up.1, Bool.false_eq_true, if_false]
    exact setLayout_inv hl g h.up.1 h.up.2.2.1 h.up.2.2.2 h.nodup h.has h.readable rows
  | poll =>
    simp only [World.step, h.up.1, Bool.false_eq_true, if_false]
    exact poll_inv hl g h
  | foreign t => exact ⟨h.up, h.nodup, fun hc => absurd hc (by simp [World.step]), h.shows, Or.inr hr⟩
  | restart =>
    refine restart_inv hl g h.up.2.2.1 h.up.2.2.2 ?_
    rcases h.readable with ⟨a, _⟩ | hj
    · exact Or.inl a
    · exact Or.inr hj

theorem run_inv {e : Ext P} (hl : Lawful e) (g : String → Bool) : ∀ (es : List (Ev P)) {w : World P}, Inv w → (∀ ev ∈ es, Readable ev) →
    Inv (w.run e g es)
  | [], _, h, _ => h
  | ev :: es, _, h, hr => run_inv hl g es (step_inv hl g h (hr ev (List.mem_cons_self ..))) (fun x hx => hr x (List.mem_cons_of_mem _ hx))

theorem split_entry (b : Bool) (line : List (Tok P)) (k : String) (p : P × P) (rest : List (Tok P)) :
    splitFrom b line (dumpEntry k p ++ rest) = splitFrom false (line ++ dumpEntry k p) rest := by
  simp [splitFrom, dumpEntry, startsY]

theorem split_length : ∀ (j : Json P) (b : Bool) (line : List (Tok P)), j ≠ [] → "y" ∉ Dict.keys j →
    (splitFrom b line (dumpEntries j ++ [.closing])).length = j.length
  | [], _, _, h, _ => absurd rfl h
  | [(k, p)], b, line, _, _ => by
    simp only [dumpEntries]
    rw [split_entry]
    simp [splitFrom]
  | (k, p) :: (k', p') :: rest, b, line, _, hy => by
    have hy' : "y" ∉ Dict.keys ((k', p') :: rest) := by
      intro hc; apply hy; simp only [Dict.keys, List.map_cons, List.mem_cons] at hc ⊢; exact Or.inr hc
    have ih := split_length ((k', p') :: rest) false [] (by simp) hy'
    have hk : k' ≠ "y" := by
      intro hc; apply hy; simp [Dict.keys, hc]
    have hst : startsY (dumpEntries ((k', p') :: rest) ++ [.closing]) = false := by
      cases rest <;> simp [dumpEntries, dumpEntry, startsY, hk]
    rw [show dumpEntries ((k, p) :: (k', p') :: rest) = dumpEntry k p ++ [.comma, .space] ++ dumpEntries ((k', p') :: rest) from rfl]
    rw [List.append_assoc, List.append_assoc, split_entry]
    have hgen : ∀ t : List (Tok P), startsY t = false → ∀ l : List (Tok P), splitFrom false l ([.comma, .space] ++ t) = (l ++ [.comma]) :: splitFrom false [] t := by
      intro t ht l; simp [splitFrom, ht]
    rw [hgen _ hst]
    simp only [List.length_cons] at ih ⊢
    rw [ih]

end Verif.Proofs.PandALayout
