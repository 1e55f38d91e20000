import Verif.Spec.Modified
import Verif.Proofs.PyDict
/-!
Lemmas about Model/Modified.lean: what a put, the hooks and the operations do to parts, messages and reports.
-/
namespace Verif.Modified
open Verif.Dict

/-- A message is about the value the setting has, and is not empty -/
def W (p : Part) : Prop :=
  p.messages.keys.Nodup ∧ ∀ k v o, p.messages.get? k = some (v, o) → p.settings.get? k = some v ∧ eq? o v = false

/-- The message a setting deserves -/
def due (p : Part) (k : Name) (v : Val) : Option Msg := if eq? (p.saved.get? k) v then none else some (v, p.saved.get? k)

theorem put_facts {p : Part} (h : p.messages.keys.Nodup) (k : Name) (v : Val) :
    (p.put k v).1.name = p.name ∧ (p.put k v).1.saved = p.saved ∧ (p.put k v).1.settings = p.settings.set k v ∧
    (p.put k v).1.messages.keys.Nodup ∧
    (∀ k2, (p.put k v).1.messages.get? k2 = if k = k2 then due p k v else p.messages.get? k2) ∧
    (∀ info, (p.put k v).2 = some info → info = (p.put k v).1.messages) ∧
    ((p.put k v).2 = none → (p.put k v).1.messages = p.messages) := by
  have hd : (if eq? (p.saved.get? k) v then none else some (v, p.saved.get? k)) = due p k v := rfl
  unfold Part.put Part.send
  dsimp only
  rw [hd]
  by_cases hm : due p k v = p.messages.get? k
  · rw [if_neg (by simpa using hm)]
    refine ⟨rfl, rfl, rfl, h, fun k2 => ?_, by simp, fun _ => rfl⟩
    split
    · subst_vars
      exact hm.symm
    · rfl
  · rw [if_pos hm]
    cases hdue : due p k v with
    | some msg =>
      refine ⟨rfl, rfl, rfl, nodup_set h k msg, fun k2 => get?_set _ _ _ _, ?_, by simp⟩
      intro info hi
      injection hi with hi
      exact hi.symm
    | none =>
      refine ⟨rfl, rfl, rfl, nodup_erase h k, fun k2 => ?_, ?_, by simp⟩
      · dsimp only
        split
        · subst_vars
          exact get?_erase_self h _
        · rename_i hk
          exact get?_erase_ne _ hk
      · intro info hi
        injection hi with hi
        exact hi.symm

theorem put_w {p : Part} (h : W p) (k : Name) (v : Val) : W (p.put k v).1 := by
  obtain ⟨_, _, hs, hn, hm, _, _⟩ := put_facts h.1 k v
  refine ⟨hn, fun k2 v2 o h2 => ?_⟩
  rw [hm] at h2
  rw [hs, get?_set]
  split at h2
  · rename_i hk
    rw [if_pos hk]
    unfold due at h2
    split at h2
    · cases h2
    · rename_i hne
      injection h2 with h2
      injection h2 with h3 h4
      subst h3
      subst h4
      exact ⟨rfl, by simpa using hne⟩
  · rename_i hk
    rw [if_neg hk]
    exact h.2 k2 v2 o h2

theorem get?_marked (file : Bool) (d : Dict Name Val) (k : Name) :
    (marked file d).get? k = (d.get? k).map fun v => ⟨v, file⟩ := by
  unfold marked
  induction d with
  | nil => rfl
  | cons kv d ih =>
    obtain ⟨k2, v⟩ := kv
    rw [List.map_cons, get?_cons, get?_cons]
    split
    · rfl
    · exact ih

/-! ## The parts of a manager -/

theorem part?_setPart {m : Manager} {p q : Part} (h : m.part? p.name = some q) (n : Name) :
    (m.setPart p).part? n = if n = p.name then some p else m.part? n := by
  unfold Manager.part? Manager.setPart at *
  dsimp only
  generalize m.parts = ps at *
  induction ps with
  | nil => simp at h
  | cons r ps ih =>
    rw [List.map_cons]
    simp only [List.find?_cons] at h ⊢
    by_cases hr : r.name = p.name
    · simp only [hr, if_true]
      by_cases hn : n = p.name
      · simp [hn]
      · simp only [show decide (p.name = n) = false from by simp [Ne.symm hn], if_neg hn]
        clear ih h
        induction ps with
        | nil => rfl
        | cons s ps ih2 =>
          rw [List.map_cons]
          simp only [List.find?_cons]
          by_cases hs : s.name = p.name
          · simp only [hs, if_true, show decide (p.name = n) = false from by simp [Ne.symm hn]]
            exact ih2
          · simp only [hs, if_false]
            rw [ih2]
    · simp only [hr, if_false, decide_false] at h ⊢
      by_cases hrn : r.name = n
      · have : n ≠ p.name := fun hc => hr (hrn.trans hc)
        simp [hrn, this]
      · simp only [hrn, decide_false]
        exact ih h

theorem part?_name {m : Manager} {n : Name} {p : Part} (h : m.part? n = some p) : p.name = n := by
  have := List.find?_some h
  simpa using this

/-- `modified` is what the lines say -/
def F (m : Manager) : Prop := m.modified = !m.lines.isEmpty

theorem f_update (m : Manager) : F m.updateModified := rfl

theorem lines_update (m : Manager) : m.updateModified.lines = m.lines := rfl

theorem told_facts {m : Manager} {p : Part} {n : Name} (hp : m.part? n = some p) (hn : p.messages.keys.Nodup) (k : Name) (v : Val) :
    (∀ n2, (m.told (p.put k v)).part? n2 = if n2 = n then some (p.put k v).1 else m.part? n2) ∧
    (∀ n2, (m.told (p.put k v)).reported.get? n2 =
      if n2 = n ∧ (p.put k v).2.isSome then some (p.put k v).1.messages else m.reported.get? n2) ∧
    (m.told (p.put k v)).layout = m.layout ∧ (m.told (p.put k v)).exports = m.exports ∧
    (m.told (p.put k v)).savedVisibility = m.savedVisibility ∧ (m.told (p.put k v)).savedExports = m.savedExports ∧
    (F m → F (m.told (p.put k v))) ∧ (m.told (p.put k v)).parts.map (·.name) = m.parts.map (·.name) := by
  obtain ⟨h1, _, _, _, _, h2, h3⟩ := put_facts hn k v
  have hname : (p.put k v).1.name = n := h1.trans (part?_name hp)
  generalize hr : p.put k v = r at *
  obtain ⟨q, rep⟩ := r
  dsimp only at *
  have hq : m.part? q.name = some p := by rw [hname]; exact hp
  have hnames : (m.setPart q).parts.map (·.name) = m.parts.map (·.name) := by
    unfold Manager.setPart
    simp only [List.map_map]
    apply List.map_congr_left
    intro r _
    simp only [Function.comp]
    split
    · rename_i h; exact h.symm
    · rfl
  cases rep with
  | none =>
    refine ⟨fun n2 => ?_, fun n2 => by simp [Manager.told, Manager.setPart], rfl, rfl, rfl, rfl, fun h => h, hnames⟩
    rw [show m.told (q, none) = m.setPart q from rfl, part?_setPart hq, hname]
  | some info =>
    have hi := h2 info rfl
    subst hi
    refine ⟨fun n2 => ?_, fun n2 => ?_, rfl, rfl, rfl, rfl, fun _ => rfl, hnames⟩
    · rw [show (m.told (q, some q.messages)).part? n2 = (m.setPart q).part? n2 from rfl, part?_setPart hq, hname]
    · show (m.reported.set q.name q.messages).get? n2 = _
      rw [get?_set, hname]
      by_cases h : n2 = n
      · simp [h]
      · simp [h, Ne.symm h]

theorem layout_same {l : List (Name × Bool)} {vis : Name → Bool}
    (h : (l.map fun nv => (nv.1, vis nv.1)).map (·.2) = l.map (·.2)) : (l.map fun nv => (nv.1, vis nv.1)) = l := by
  induction l with
  | nil => rfl
  | cons a l ih =>
    simp only [List.map_cons, List.cons.injEq] at h ⊢
    refine ⟨?_, ih h.2⟩
    obtain ⟨n, b⟩ := a
    simp only at h
    simp [h.1]

theorem setLayout_facts (m : Manager) (vis : Name → Bool) :
    (m.setLayout vis).parts = m.parts ∧ (m.setLayout vis).reported = m.reported ∧
    (m.setLayout vis).layout = m.layout.map (fun nv => (nv.1, vis nv.1)) ∧ (m.setLayout vis).exports = m.exports ∧
    (m.setLayout vis).savedVisibility = m.savedVisibility ∧ (m.setLayout vis).savedExports = m.savedExports ∧
    (F m → F (m.setLayout vis)) := by
  unfold Manager.setLayout
  dsimp only
  split
  · rename_i h
    refine ⟨rfl, rfl, rfl, rfl, rfl, rfl, fun hf => ?_⟩
    rw [layout_same h]
    exact hf
  · exact ⟨rfl, rfl, rfl, rfl, rfl, rfl, fun _ => rfl⟩

/-! ## Loading -/

/-- A setting of the part is as before with its message, or has no message, or it is a table the design names -/
def Rel (s : Dict Name Val) (p q : Part) : Prop :=
  ∀ k, (q.settings.get? k = p.settings.get? k ∧ q.messages.get? k = p.messages.get? k) ∨ q.messages.get? k = none ∨
    ∃ t, q.settings.get? k = some (.table t) ∧ s.get? k ≠ none

theorem Rel.rfl' (s : Dict Name Val) (p : Part) : Rel s p p := fun _ => .inl ⟨rfl, rfl⟩

theorem Rel.trans {s : Dict Name Val} {p q r : Part} (h1 : Rel s p q) (h2 : Rel s q r) : Rel s p r := by
  intro k
  rcases h2 k with ⟨a, b⟩ | h
  · rcases h1 k with ⟨c, d⟩ | h | ⟨t, h, h'⟩
    · exact .inl ⟨a.trans c, b.trans d⟩
    · exact .inr (.inl (b.trans h))
    · exact .inr (.inr ⟨t, a.trans h, h'⟩)
  · exact .inr h

/-- What the hooks of a load leave alone -/
structure Same (m m' : Manager) : Prop where
  layout : m'.layout = m.layout
  exports : m'.exports = m.exports
  names : m'.parts.map (·.name) = m.parts.map (·.name)

theorem Same.trans {a b c : Manager} (h1 : Same a b) (h2 : Same b c) : Same a c :=
  ⟨h2.layout.trans h1.layout, h2.exports.trans h1.exports, h2.names.trans h1.names⟩

theorem setPart_same (m : Manager) (p : Part) : Same m (m.setPart p) := by
  refine ⟨rfl, rfl, ?_⟩
  unfold Manager.setPart
  simp only [List.map_map]
  apply List.map_congr_left
  intro r _
  simp only [Function.comp]
  split
  · rename_i h; exact h.symm
  · rfl

theorem puts_facts {s : Dict Name Val} (kvs : Dict Name Val) : ∀ {m : Manager} {n : Name} {p : Part}, m.part? n = some p → W p →
    (Dict.keys kvs).Nodup → (∀ k v, (k, v) ∈ kvs → p.saved.get? k = some ⟨v, true⟩ ∧ s.get? k ≠ none) →
    ∃ q, (m.puts n kvs).part? n = some q ∧ q.saved = p.saved ∧ W q ∧ Rel s p q ∧
      (∀ k, k ∉ Dict.keys kvs → q.settings.get? k = p.settings.get? k) ∧
      (∀ k v w, (k, v) ∈ kvs → q.settings.get? k = some w → w = v) ∧
      (∀ n2, n2 ≠ n → (m.puts n kvs).part? n2 = m.part? n2) ∧ Same m (m.puts n kvs) := by
  induction kvs with
  | nil =>
    intro m n p hp hw _ _
    exact ⟨p, hp, rfl, hw, .rfl' s p, fun _ _ => rfl, by simp, fun _ _ => rfl, rfl, rfl, rfl⟩
  | cons kv kvs ih =>
    intro m n p hp hw hn hs
    obtain ⟨k, v⟩ := kv
    have hn' : k ∉ Dict.keys kvs ∧ (Dict.keys kvs).Nodup := by
      have : (k :: Dict.keys kvs).Nodup := hn
      exact List.nodup_cons.1 this
    unfold Manager.puts
    simp only [hp]
    split
    · obtain ⟨_, f2, f3, _, f5, _, _⟩ := put_facts hw.1 k v
      obtain ⟨t1, _, t3, t4, _, _, _, t8⟩ := told_facts hp hw.1 k v
      have hp' : (m.told (p.put k v)).part? n = some (p.put k v).1 := by rw [t1, if_pos rfl]
      obtain ⟨q, g1, g2, g3, g4, g5, g6, g7, g8⟩ := ih hp' (put_w hw k v) hn'.2
        (fun k2 v2 h2 => by rw [f2]; exact hs k2 v2 (List.mem_cons_of_mem _ h2))
      refine ⟨q, g1, g2.trans f2, g3, Rel.trans ?_ g4, ?_, ?_, ?_, Same.trans ⟨t3, t4, t8⟩ g8⟩
      · intro k2
        by_cases h2 : k = k2
        · subst h2
          right
          rw [f3, f5, if_pos rfl, get?_set, if_pos rfl]
          cases v with
          | plain t =>
            left
            unfold due
            rw [(hs k _ List.mem_cons_self).1]
            simp [eq?, Saved.eq, Val.isTable]
          | table t => exact .inr ⟨t, rfl, (hs k _ List.mem_cons_self).2⟩
        · left
          rw [f3, f5, if_neg h2, get?_set, if_neg h2]
          exact ⟨rfl, rfl⟩
      · intro k2 h2
        have h3 : k ≠ k2 ∧ k2 ∉ Dict.keys kvs := by
          have : k2 ∉ k :: Dict.keys kvs := h2
          simp only [List.mem_cons, not_or] at this
          exact ⟨Ne.symm this.1, this.2⟩
        rw [g5 k2 h3.2, f3, get?_set, if_neg h3.1]
      · intro k2 v2 w h2 hw2
        rcases List.mem_cons.1 h2 with h3 | h3
        · injection h3 with h4 h5
          subst h4
          subst h5
          rw [g5 k2 hn'.1, f3, get?_set, if_pos rfl] at hw2
          injection hw2 with hw2
          exact hw2.symm
        · exact g6 k2 v2 w h3 hw2
      · intro n2 h2
        rw [g7 n2 h2, t1, if_neg h2]
    · rename_i hc
      obtain ⟨q, g1, g2, g3, g4, g5, g6, g7, g8⟩ := ih hp hw hn'.2 (fun k2 v2 h2 => hs k2 v2 (List.mem_cons_of_mem _ h2))
      refine ⟨q, g1, g2, g3, g4, ?_, ?_, g7, g8⟩
      · intro k2 h2
        have h3 : k2 ∉ k :: Dict.keys kvs := h2
        simp only [List.mem_cons, not_or] at h3
        exact g5 k2 h3.2
      · intro k2 v2 w h2 hw2
        rcases List.mem_cons.1 h2 with h3 | h3
        · injection h3 with h4 h5
          subst h4
          subst h5
          rw [g5 k2 hn'.1] at hw2
          unfold Part.needs at hc
          rw [hw2] at hc
          simp only [Saved.eq, Bool.not_and, Bool.not_not, Bool.or_eq_true, Bool.not_eq_true, not_or] at hc
          have := hc.1
          simp only [Bool.not_eq_eq_eq_not, Bool.not_false, decide_eq_true_eq] at this
          exact this.symm
        · exact g6 k2 v2 w h3 hw2

/-- What the design says of a part -/
def told? (c : Dict Name (Dict Name Val)) (n : Name) : Dict Name Val := (c.get? n).getD []

/-- The settings the design says are as it says -/
def Settled (q : Part) : Prop := ∀ k s v, q.saved.get? k = some s → q.settings.get? k = some v → v = s.value

theorem loadHook_facts {m : Manager} {n : Name} {p : Part} (hp : m.part? n = some p) (hw : W p) {s : Dict Name Val} (hs : s.keys.Nodup) :
    ∃ q, (m.loadHook n s).part? n = some q ∧ q.saved = marked true s ∧ W q ∧ Rel s p q ∧ Settled q ∧
      (∀ n2, n2 ≠ n → (m.loadHook n s).part? n2 = m.part? n2) ∧ Same m (m.loadHook n s) := by
  unfold Manager.loadHook
  simp only [hp]
  have hname := part?_name hp
  have h0 : (m.setPart { p with saved := marked true s }).part? n = some { p with saved := marked true s } := by
    rw [part?_setPart (q := p) (by rw [← hname] at hp; exact hp)]
    simp [hname]
  obtain ⟨q, g1, g2, g3, g4, _, g6, g7, g8⟩ := puts_facts (s := s) s h0 hw hs (fun k v h => by
    have hk := get?_of_mem_nodup hs h
    constructor
    · show (marked true s).get? k = _
      rw [get?_marked, hk]
      rfl
    · rw [hk]
      simp)
  refine ⟨q, g1, g2, g3, g4, ?_, ?_, Same.trans (setPart_same m _) g8⟩
  · intro k s' v h1 h2
    rw [g2] at h1
    change (marked true s).get? k = _ at h1
    rw [get?_marked] at h1
    cases hk : s.get? k with
    | none => rw [hk] at h1; cases h1
    | some w =>
      rw [hk] at h1
      injection h1 with h1
      subst h1
      exact g6 k w v (get?_mem hk) h2
  · intro n2 h2
    rw [g7 n2 h2, part?_setPart (q := p) (by rw [← hname] at hp; exact hp), if_neg (by rw [show ({ p with saved := marked true s } : Part).name = n from hname]; exact h2)]

theorem loadHook_none {m : Manager} {n : Name} (hp : m.part? n = none) (s : Dict Name Val) : m.loadHook n s = m := by
  unfold Manager.loadHook
  simp only [hp]

theorem loadHooks_facts {c : Dict Name (Dict Name Val)} (hc : ∀ n, (told? c n).keys.Nodup) (ns : List Name) :
    ∀ {m : Manager}, (∀ n p, m.part? n = some p → W p) →
    Same m (m.loadHooks c ns) ∧
    (∀ n, m.part? n = none → (m.loadHooks c ns).part? n = none) ∧
    ∀ n p, m.part? n = some p → ∃ q, (m.loadHooks c ns).part? n = some q ∧ W q ∧ Rel (told? c n) p q ∧
      (n ∈ ns → q.saved = marked true (told? c n) ∧ Settled q) ∧ (n ∉ ns → q = p) := by
  induction ns with
  | nil =>
    intro m hw
    exact ⟨⟨rfl, rfl, rfl⟩, fun _ h => h, fun n p hp => ⟨p, hp, hw n p hp, .rfl' _ p, by simp, fun _ => rfl⟩⟩
  | cons a ns ih =>
    intro m hw
    unfold Manager.loadHooks
    rw [show (c.get? a).getD [] = told? c a from rfl]
    cases ha : m.part? a with
    | none =>
      rw [loadHook_none ha]
      obtain ⟨i1, i2, i3⟩ := ih hw
      refine ⟨i1, i2, fun n p hp => ?_⟩
      obtain ⟨q, q1, q2, q3, q4, q5⟩ := i3 n p hp
      have hna : n ≠ a := fun h => by subst h; rw [ha] at hp; cases hp
      exact ⟨q, q1, q2, q3, fun h => q4 ((List.mem_cons.1 h).resolve_left hna), fun h => q5 fun h2 => h (List.mem_cons_of_mem _ h2)⟩
    | some pa =>
      obtain ⟨qa, g1, g2, g3, g4, g5, g6, g7⟩ := loadHook_facts ha (hw a pa ha) (hc a)
      have hw' : ∀ n p, (m.loadHook a (told? c a)).part? n = some p → W p := by
        intro n p hp
        by_cases h : n = a
        · subst h
          rw [g1] at hp
          injection hp with hp
          subst hp
          exact g3
        · rw [g6 n h] at hp
          exact hw n p hp
      obtain ⟨i1, i2, i3⟩ := ih hw'
      refine ⟨g7.trans i1, fun n hn => ?_, fun n p hp => ?_⟩
      · have hna : n ≠ a := fun h => by subst h; rw [ha] at hn; cases hn
        exact i2 n (by rw [g6 n hna]; exact hn)
      · by_cases h : n = a
        · subst h
          rw [ha] at hp
          injection hp with hp
          subst hp
          obtain ⟨q, q1, q2, q3, q4, q5⟩ := i3 n qa g1
          refine ⟨q, q1, q2, g4.trans q3, fun _ => ?_, fun h => absurd List.mem_cons_self h⟩
          by_cases hm : n ∈ ns
          · exact q4 hm
          · rw [q5 hm]
            exact ⟨g2, g5⟩
        · obtain ⟨q, q1, q2, q3, q4, q5⟩ := i3 n p (by rw [g6 n h]; exact hp)
          exact ⟨q, q1, q2, q3, fun hm => q4 ((List.mem_cons.1 hm).resolve_left h),
            fun hm => q5 fun h2 => hm (List.mem_cons_of_mem _ h2)⟩

theorem part?_mem {m : Manager} {n : Name} {p : Part} (h : m.part? n = some p) : n ∈ m.parts.map (·.name) :=
  List.mem_map.2 ⟨p, List.mem_of_find?_eq_some h, part?_name h⟩

theorem load_facts {m : Manager} (hw : ∀ n p, m.part? n = some p → W p) (vis : Name → Bool) (e : List (String × Name))
    {c : Dict Name (Dict Name Val)} (hc : ∀ n, (told? c n).keys.Nodup) :
    (m.load vis e c).layout = m.layout.map (fun nv => (nv.1, vis nv.1)) ∧ (m.load vis e c).exports = e ∧
    (m.load vis e c).savedVisibility = m.layout.map (fun nv => vis nv.1) ∧ (m.load vis e c).savedExports = e ∧
    (m.load vis e c).reported = [] ∧ F (m.load vis e c) ∧
    (∀ n, m.part? n = none → (m.load vis e c).part? n = none) ∧
    ∀ n p, m.part? n = some p → ∃ q, (m.load vis e c).part? n = some q ∧ W q ∧ Rel (told? c n) p q ∧ q.saved = marked true (told? c n) ∧ Settled q := by
  obtain ⟨s1, _, s3, _, _, _, _⟩ := setLayout_facts m vis
  have hpart : ∀ n, ({ m.setLayout vis with exports := e } : Manager).part? n = m.part? n := by
    intro n
    unfold Manager.part?
    dsimp only
    rw [s1]
  obtain ⟨l1, l2, l3⟩ := loadHooks_facts hc (m.parts.map (·.name)) (m := { m.setLayout vis with exports := e })
    (fun n p hp => hw n p (by rw [← hpart]; exact hp))
  have hl : m.load vis e c = (({ m.setLayout vis with exports := e } : Manager).loadHooks c (m.parts.map (·.name))).markClean := by
    unfold Manager.load
    dsimp only
    rw [s1]
  rw [hl]
  generalize ({ m.setLayout vis with exports := e } : Manager).loadHooks c (m.parts.map (·.name)) = m1 at *
  have hl1 : m1.layout = m.layout.map (fun nv => (nv.1, vis nv.1)) := l1.layout.trans s3
  have he1 : m1.exports = e := l1.exports
  refine ⟨hl1, he1, ?_, he1, rfl, rfl, fun n hn => l2 n ((hpart n).trans hn), fun n p hp => ?_⟩
  · show m1.layout.map (·.2) = _
    rw [hl1, List.map_map]
    rfl
  · obtain ⟨q, q1, q2, q3, q4, _⟩ := l3 n p ((hpart n).trans hp)
    have hm := q4 (part?_mem hp)
    exact ⟨q, q1, q2, q3, hm.1, hm.2⟩

theorem save_part? (m : Manager) (n : Name) : m.save.part? n = (m.part? n).map fun p => { p with saved := marked false p.settings } := by
  show (m.parts.map fun p => ({ p with saved := marked false p.settings } : Part)).find? _ = _
  unfold Manager.part?
  generalize m.parts = ps
  induction ps with
  | nil => rfl
  | cons p ps ih =>
    rw [List.map_cons]
    simp only [List.find?_cons]
    by_cases h : p.name = n
    · simp [h]
    · simp only [h, decide_false]
      exact ih

end Verif.Modified
