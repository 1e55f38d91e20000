import Verif.Spec.Proxy
/-!
C43: the local copy of a remote block.
-/
namespace Verif.Props.Proxy
open Verif.Notifier hiding Change
open Verif.Proxy Verif.Spec.Proxy

theorem setAt_below (t : Tree) (p : Path) (v : Tree) (r : Path) : t.setAt p v (p ++ r) = v r := by
  have : ∀ p r : Path, stripPrefix p (p ++ r) = some r := by
    intro p r
    induction p with
    | nil => rfl
    | cons a p ih => simp [stripPrefix, ih]
  simp [Tree.setAt, this]

theorem stripPrefix_iff (p q r : Path) : stripPrefix p q = some r ↔ q = p ++ r := by
  induction p generalizing q with
  | nil => simp [stripPrefix, eq_comm]
  | cons a p ih =>
    cases q with
    | nil => simp [stripPrefix]
    | cons b q =>
      simp only [stripPrefix, List.cons_append, List.cons.injEq]
      split
      · rename_i h; rw [ih]; simp [h]
      · rename_i h; simp; intro h2; exact absurd h2.symm h

theorem setAt_other (t : Tree) (p : Path) (v : Tree) (q : Path) (h : ∀ r, q ≠ p ++ r) : t.setAt p v q = t q := by
  unfold Tree.setAt
  cases hs : stripPrefix p q with
  | none => rfl
  | some r => exact absurd ((stripPrefix_iff _ _ _).1 hs) (h r)

theorem applyChange_ok (t : Tree) (v : Tree) : ∀ (rest at_ : Path), rest ≠ [] → (at_ ++ rest).length ≥ 2 →
    (∀ q k r, at_ ++ rest = q ++ k :: r → t q = some .model) → t (at_ ++ rest) ≠ none →
    applyChange t at_ (some v) rest = some (t.setAt (at_ ++ rest) v) := by
  intro rest
  induction rest with
  | nil => intro at_ h; exact absurd rfl h
  | cons k rest ih =>
    intro at_ _ hl hm he
    cases rest with
    | nil =>
      simp only [applyChange]
      rw [if_pos]
      refine ⟨hm at_ k [] rfl, ?_, he⟩
      intro h; subst h; simp at hl
    | cons l rest =>
      simp only [applyChange]
      have e : at_ ++ k :: l :: rest = at_ ++ [k] ++ l :: rest := by simp
      rw [if_pos]
      · rw [ih (at_ ++ [k]) (by simp) (by rw [← e]; exact hl) (by rw [← e]; exact hm) (by rw [← e]; exact he), ← e]
      · refine ⟨hm at_ k (l :: rest) rfl, ?_⟩
        rw [hm (at_ ++ [k]) l rest e]
        simp

theorem handle_below (enc : Enc) (b : Block) (p : Path) (v : Tree) (h : Below b.tree p v) :
    handleChange enc b (.set p v) = some { b with tree := b.tree.setAt p v } := by
  obtain ⟨h1, h2, h3, _⟩ := h
  match p, h1 with
  | a :: c :: r, h1 =>
    simp only [handleChange]
    rw [applyChange_ok b.tree v (a :: c :: r) [] (by simp) (by simpa using h1) (by simpa using h2) (by simpa using h3)]
    simp

theorem handleDelta_below (enc : Enc) (cs : List Change) : ∀ b : Block, AllBelow b.tree cs →
    handleDelta enc b cs = ({ b with tree := remote b.tree cs }, true) := by
  induction cs with
  | nil => intro b _; rfl
  | cons c cs ih =>
    intro b h
    match c, h with
    | .set p v, h =>
      simp only [handleDelta, handle_below enc b p v h.1]
      rw [ih _ h.2]
      rfl

/-! ### the whole block -/

/-- A block with the fields `others` beside its settings and its health, with the description `h0` of the latter: what
the block of a proxy is before it is synced (basiccontroller.py 20-23, controller.py 49-54), with no others, and after
each `whole` change, see `regenerate_exact` -/
structure Base (h0 : Tree) (others : List String) (b : Block) : Prop where
  names : b.names = "meta" :: "health" :: others
  nodup : b.names.Nodup
  root : b.tree [] = some .model
  absent : ∀ f r, f ∉ b.names → b.tree (f :: r) = none
  settings : b.tree ["meta"] = some .model
  health : b.tree ["health"] = some .model
  healthMeta : ∀ r, b.tree ("health" :: "meta" :: r) = h0 r
  healthKeys : ∀ k r, b.tree ("health" :: k :: r) ≠ none → k ∈ ["value", "alarm", "timeStamp", "meta"]
  settingsKeys : ∀ k r, b.tree ("meta" :: k :: r) ≠ none → k ∈ ["description", "tags", "writeable", "label", "fields"]

theorem setAt1 (t : Tree) (a : String) (v : Tree) (q : Path) :
    t.setAt [a] v q = match q with | [] => t [] | f :: r => if f = a then v r else t (f :: r) := by
  match q with
  | [] => rfl
  | f :: r =>
    simp only [Tree.setAt, stripPrefix]
    by_cases h : a = f
    · simp [h]
    · simp [h, Ne.symm h]

theorem setAt2 (t : Tree) (a c : String) (v : Tree) (q : Path) :
    t.setAt [a, c] v q = match q with
      | f :: k :: r => if f = a ∧ k = c then v r else t (f :: k :: r)
      | _ => t q := by
  match q with
  | [] => rfl
  | [f] => simp only [Tree.setAt, stripPrefix]; split <;> rename_i h <;> simp at h ⊢
  | f :: k :: r =>
    simp only [Tree.setAt, stripPrefix]
    by_cases h : a = f
    · by_cases h2 : c = k
      · simp [h, h2]
      · simp [h, h2, Ne.symm h2]
    · simp [h, Ne.symm h]

theorem base_meta {h0 : Tree} {others : List String} {b : Block} (h : Base h0 others b) (k : String) (v : Tree)
    (hk : k ∈ ["description", "tags", "writeable", "label", "fields"]) :
    Base h0 others { b with tree := b.tree.setAt ["meta", k] v } := by
  have hmem : "meta" ∈ b.names := by rw [h.names]; simp
  refine ⟨h.names, h.nodup, ?_, ?_, ?_, ?_, ?_, ?_, ?_⟩
  · simp only [setAt2]; exact h.root
  · intro f r hf
    have hne : f ≠ "meta" := fun e => hf (e ▸ hmem)
    simp only [setAt2]
    cases r with
    | nil => exact h.absent f [] hf
    | cons k' r => simp only [hne, false_and, if_false]; exact h.absent f (k' :: r) hf
  · simp only [setAt2]; exact h.settings
  · simp only [setAt2]; exact h.health
  · intro r; simp only [setAt2]; simp [h.healthMeta]
  · intro k' r hkr
    simp only [setAt2] at hkr
    exact h.healthKeys k' r (by simpa using hkr)
  · intro k' r hkr
    simp only [setAt2] at hkr
    split at hkr
    · rename_i e; rw [e.2]; exact hk
    · exact h.settingsKeys k' r hkr

theorem base_health {h0 : Tree} {others : List String} {b : Block} (h : Base h0 others b) (k : String) (v : Tree)
    (hk : k ∈ ["value", "alarm", "timeStamp"]) :
    Base h0 others { b with tree := b.tree.setAt ["health", k] v } := by
  have hmem : "health" ∈ b.names := by rw [h.names]; simp
  refine ⟨h.names, h.nodup, ?_, ?_, ?_, ?_, ?_, ?_, ?_⟩
  · simp only [setAt2]; exact h.root
  · intro f r hf
    have hne : f ≠ "health" := fun e => hf (e ▸ hmem)
    simp only [setAt2]
    cases r with
    | nil => exact h.absent f [] hf
    | cons k' r => simp only [hne, false_and, if_false]; exact h.absent f (k' :: r) hf
  · simp only [setAt2]; exact h.settings
  · simp only [setAt2]; exact h.health
  · intro r
    simp only [setAt2]
    have : "meta" ≠ k := by rintro rfl; simp at hk
    simp [this, h.healthMeta]
  · intro k' r hkr
    simp only [setAt2] at hkr
    split at hkr
    · rename_i e; rw [e.2]; simp at hk ⊢; rcases hk with hk | hk | hk <;> simp [hk]
    · exact h.healthKeys k' r hkr
  · intro k' r hkr
    simp only [setAt2] at hkr
    exact h.settingsKeys k' r (by simpa using hkr)

theorem base_update (enc : Enc) {h0 : Tree} {others : List String} {b : Block} (h : Base h0 others b) :
    Base h0 others (updateFields enc b) := base_meta h "fields" _ (by simp)

theorem not_special {h0 : Tree} {others : List String} {b : Block} (h : Base h0 others b) {f : String} (hf : f ∈ others) :
    f ≠ "meta" ∧ f ≠ "health" := by
  have := h.nodup
  rw [h.names, List.nodup_cons, List.nodup_cons] at this
  exact ⟨fun e => this.1 (List.mem_cons_of_mem _ (e ▸ hf)), fun e => this.2.1 (e ▸ hf)⟩

theorem base_remove (enc : Enc) {h0 : Tree} {f : String} {others : List String} {b : Block} (h : Base h0 (f :: others) b) :
    Base h0 others (removeEndpoint enc b f) := by
  obtain ⟨n1, n2⟩ := not_special h (List.mem_cons_self ..)
  have hnd := h.nodup
  rw [h.names, List.nodup_cons, List.nodup_cons, List.nodup_cons] at hnd
  have hnames : b.names.filter (· ≠ f) = "meta" :: "health" :: others := by
    rw [h.names]
    simp only [List.filter_cons, ne_eq, decide_not, n1.symm, n2.symm, decide_false, decide_true, Bool.not_false, Bool.not_true,
      if_true, Bool.false_eq_true, if_false]
    congr 2
    apply List.filter_eq_self.2
    intro x hx
    simp only [Bool.not_eq_true', decide_eq_false_iff_not]
    intro e
    exact hnd.2.2.1 (e ▸ hx)
  apply base_update
  refine ⟨hnames, ?_, ?_, ?_, ?_, ?_, ?_, ?_, ?_⟩
  · show (b.names.filter (· ≠ f)).Nodup
    exact List.Pairwise.filter _ h.nodup
  · simp only [setAt1]; exact h.root
  · intro g r hg
    simp only [setAt1]
    split
    · rfl
    · rename_i hne
      refine h.absent g r (fun hm => hg ?_)
      simp [hm, hne]
  · simp only [setAt1, if_neg n1.symm]; exact h.settings
  · simp only [setAt1, if_neg n2.symm]; exact h.health
  · intro r; simp only [setAt1, if_neg n2.symm]; exact h.healthMeta r
  · intro k r hk; simp only [setAt1, if_neg n2.symm] at hk; exact h.healthKeys k r hk
  · intro k r hk; simp only [setAt1, if_neg n1.symm] at hk; exact h.settingsKeys k r hk

theorem base_removeAll (enc : Enc) {h0 : Tree} (others : List String) : ∀ {b : Block}, Base h0 others b →
    Base h0 [] (others.foldl (removeEndpoint enc) b) := by
  induction others with
  | nil => intro b h; exact h
  | cons f others ih => intro b h; exact ih (base_remove enc h)

theorem base_set (enc : Enc) {h0 : Tree} {f : String} {others : List String} {b : Block} (v : Tree) (h : Base h0 others b)
    (n1 : f ≠ "meta") (n2 : f ≠ "health") (n3 : f ∉ others) : Base h0 (others ++ [f]) (setEndpoint enc b f v) := by
  have hnew : f ∉ b.names := by rw [h.names]; simp [n1, n2, n3]
  apply base_update
  rw [if_neg hnew]
  refine ⟨?_, ?_, ?_, ?_, ?_, ?_, ?_, ?_, ?_⟩
  · show b.names ++ [f] = _
    rw [h.names]; rfl
  · show (b.names ++ [f]).Nodup
    rw [List.nodup_append]
    refine ⟨h.nodup, by simp, ?_⟩
    intro a ha c hc e
    rw [List.mem_singleton] at hc
    exact hnew (hc ▸ e ▸ ha)
  · simp only [setAt1]; exact h.root
  · intro g r hg
    simp only [List.mem_append, List.mem_singleton, not_or] at hg
    simp only [setAt1, if_neg hg.2]
    exact h.absent g r hg.1
  · simp only [setAt1, if_neg n1.symm]; exact h.settings
  · simp only [setAt1, if_neg n2.symm]; exact h.health
  · intro r; simp only [setAt1, if_neg n2.symm]; exact h.healthMeta r
  · intro k r hk; simp only [setAt1, if_neg n2.symm] at hk; exact h.healthKeys k r hk
  · intro k r hk; simp only [setAt1, if_neg n1.symm] at hk; exact h.settingsKeys k r hk

/-- While the fields of the block `d` are taken, with those in `done` taken so far -/
structure Mid (enc : Enc) (d h0 : Tree) (done : List String) (b : Block) : Prop where
  base : Base h0 done b
  fields : ∀ f ∈ done, ∀ r, b.tree (f :: r) = d (f :: r)
  settings : ∀ k ∈ ["description", "tags", "writeable", "label"], ∀ r, b.tree ("meta" :: k :: r) = d ("meta" :: k :: r)
  list : ∀ r, b.tree ("meta" :: "fields" :: r) = if done = [] then d ("meta" :: "fields" :: r) else leaf (enc ("health" :: done)) r
  health : ∀ k ∈ ["value", "alarm", "timeStamp"], ∀ r, b.tree ("health" :: k :: r) = d ("health" :: k :: r)

theorem mid_fold (enc : Enc) (d h0 : Tree) (others : List String) : ∀ (done : List String) (b : Block), Mid enc d h0 done b →
    (∀ f ∈ others, f ≠ "meta" ∧ f ≠ "health" ∧ f ∉ done) → others.Nodup →
    Mid enc d h0 (done ++ others) (others.foldl (takeField enc d) b) := by
  induction others with
  | nil => intro done b h _ _; simpa using h
  | cons f others ih =>
    intro done b h hn hnd
    obtain ⟨n1, n2, n3⟩ := hn f (List.mem_cons_self ..)
    rw [List.foldl_cons, show done ++ f :: others = (done ++ [f]) ++ others by simp]
    rw [List.nodup_cons] at hnd
    refine ih (done ++ [f]) _ ?_ ?_ hnd.2
    · have e : takeField enc d b f = setEndpoint enc b f (d.sub [f]) := by simp [takeField, n1, n2]
      have hb := base_set enc (d.sub [f]) h.base n1 n2 n3
      have hnew : f ∉ b.names := by rw [h.base.names]; simp [n1, n2, n3]
      rw [e]
      refine ⟨hb, ?_, ?_, ?_, ?_⟩
      · intro g hg r
        have hgm : g ≠ "meta" := by
          rcases List.mem_append.1 hg with hg | hg
          · exact (not_special h.base hg).1
          · rw [List.mem_singleton.1 hg]; exact n1
        simp only [setEndpoint, updateFields]
        have : ∀ t : Tree, ∀ v, t.setAt ["meta", "fields"] v (g :: r) = t (g :: r) := by
          intro t v
          rw [setAt2]
          cases r with
          | nil => rfl
          | cons k r => simp [hgm]
        rw [this, setAt1]
        by_cases hgf : g = f
        · simp only [hgf, if_true]; rfl
        · simp only [if_neg hgf]
          rcases List.mem_append.1 hg with hg | hg
          · exact h.fields g hg r
          · exact absurd (List.mem_singleton.1 hg) hgf
      · intro k hk r
        have hkf : k ≠ "fields" := by rintro rfl; simp at hk
        simp only [setEndpoint, updateFields, setAt2, hkf, and_false, if_false, setAt1, if_neg n1.symm]
        exact h.settings k hk r
      · intro r
        simp only [setEndpoint, updateFields, setAt2, and_self, if_true]
        rw [if_neg hnew, h.base.names]
        have : listed ("meta" :: "health" :: done ++ [f]) = "health" :: (done ++ [f]) := by
          simp only [listed, List.cons_append, List.filter_cons, ne_eq, decide_not, decide_true, Bool.not_true,
            Bool.false_eq_true, if_false]
          rw [if_pos (by decide)]
          congr 1
          apply List.filter_eq_self.2
          intro x hx
          simp only [Bool.not_eq_true', decide_eq_false_iff_not]
          rcases List.mem_append.1 hx with hx | hx
          · exact (not_special h.base hx).1
          · rw [List.mem_singleton.1 hx]; exact n1
        rw [this, if_neg (by simp)]
      · intro k hk r
        simp only [setEndpoint, updateFields, setAt2]
        simp only [setAt1, if_neg n2.symm]
        simp only [show ("health" = "meta") = False by decide, false_and, if_false]
        exact h.health k hk r
    · intro g hg
      obtain ⟨g1, g2, g3⟩ := hn g (List.mem_cons_of_mem _ hg)
      refine ⟨g1, g2, ?_⟩
      intro hm
      rcases List.mem_append.1 hm with hm | hm
      · exact g3 hm
      · rw [List.mem_singleton.1 hm] at hg
        exact hnd.1 hg

/-- Taking a whole block makes the block here the same as it -/
theorem regenerate_exact (enc : Enc) {h0 : Tree} {old : List String} {b : Block} (h : Base h0 old b) (names : List String) (d : Tree)
    (hw : Whole enc b names d) :
    (regenerate enc b names d).tree = d ∧ ∃ others, Base h0 others (regenerate enc b names d) := by
  obtain ⟨others, rfl, hnd⟩ := hw.order
  have hold : b.names.filter (fun f => f ≠ "health" ∧ f ≠ "meta") = old := by
    rw [h.names]
    simp only [List.filter_cons]
    rw [if_neg (by decide), if_neg (by decide)]
    apply List.filter_eq_self.2
    intro x hx
    simp [not_special h hx]
  have hb := base_removeAll enc old h
  have hh0 : ∀ r, d ("health" :: "meta" :: r) = h0 r := by
    intro r
    have := congrFun hw.healthMeta r
    simp only [Tree.sub, List.cons_append, List.nil_append] at this
    rw [this, h.healthMeta]
  unfold regenerate
  rw [hold]
  simp only [List.foldl_cons]
  generalize old.foldl (removeEndpoint enc) b = b1 at hb
  -- settings and health
  have e1 : takeField enc d b1 "meta" = { b1 with tree := setMeta b1.tree d } := by simp [takeField]
  have e2 : takeField enc d { b1 with tree := setMeta b1.tree d } "health" =
      { b1 with tree := setHealth (setMeta b1.tree d) d } := by simp [takeField]
  rw [e1, e2]
  have hm : Base h0 [] { b1 with tree := setMeta b1.tree d } := by
    have := base_meta (base_meta (base_meta (base_meta (base_meta hb "description" (d.sub ["meta", "description"]) (by simp)) "tags" (d.sub ["meta", "tags"]) (by simp)) "writeable" (d.sub ["meta", "writeable"]) (by simp)) "label" (d.sub ["meta", "label"]) (by simp)) "fields" (d.sub ["meta", "fields"]) (by simp)
    exact this
  have hh : Base h0 [] { b1 with tree := setHealth (setMeta b1.tree d) d } := by
    have := base_health (base_health (base_health hm "value" (d.sub ["health", "value"]) (by simp)) "alarm" (d.sub ["health", "alarm"]) (by simp)) "timeStamp" (d.sub ["health", "timeStamp"]) (by simp)
    exact this
  have hmid : Mid enc d h0 [] { b1 with tree := setHealth (setMeta b1.tree d) d } := by
    refine ⟨hh, by simp, ?_, ?_, ?_⟩
    · intro k hk r
      simp only [setHealth, setMeta, List.foldl_cons, List.foldl_nil, setAt2]
      simp only [List.mem_cons, List.not_mem_nil, or_false] at hk
      rcases hk with rfl | rfl | rfl | rfl <;> simp [Tree.sub]
    · intro r
      simp [setHealth, setMeta, setAt2, Tree.sub]
    · intro k hk r
      simp only [setHealth, List.foldl_cons, List.foldl_nil, setAt2]
      simp only [List.mem_cons, List.not_mem_nil, or_false] at hk
      rcases hk with rfl | rfl | rfl <;> simp [Tree.sub]
  have hnd2 := hnd
  rw [List.nodup_cons, List.nodup_cons] at hnd
  have fin := mid_fold enc d h0 others [] _ hmid (by
    intro f hf
    exact ⟨fun e => hnd.1 (List.mem_cons_of_mem _ (e ▸ hf)), fun e => hnd.2.1 (e ▸ hf), by simp⟩) hnd.2.2
  simp only [List.nil_append] at fin
  generalize others.foldl (takeField enc d) { b1 with tree := setHealth (setMeta b1.tree d) d } = b2 at fin
  refine ⟨?_, others, fin.base⟩
  have hl : listed ("meta" :: "health" :: others) = "health" :: others := by
    simp only [listed, List.filter_cons, ne_eq, decide_not, decide_true, Bool.not_true, Bool.false_eq_true, if_false]
    rw [if_pos (by decide)]
    congr 1
    apply List.filter_eq_self.2
    intro x hx
    simp only [Bool.not_eq_true', decide_eq_false_iff_not]
    exact fun e => hnd.1 (List.mem_cons_of_mem _ (e ▸ hx))
  funext q
  match q with
  | [] => rw [fin.base.root, hw.root]
  | f :: r =>
    by_cases hf : f ∈ others
    · exact fin.fields f hf r
    · by_cases h1 : f = "meta"
      · subst h1
        match r with
        | [] => rw [fin.base.settings, hw.settings.1]
        | k :: r =>
          by_cases hk : k ∈ ["description", "tags", "writeable", "label"]
          · exact fin.settings k hk r
          · by_cases hk2 : k = "fields"
            · subst hk2
              rw [fin.list]
              split
              · rfl
              · have := congrFun hw.list r
                simp only [Tree.sub, List.cons_append, List.nil_append] at this
                rw [this, hl]
            · have hk3 : k ∉ ["description", "tags", "writeable", "label", "fields"] := by
                simp only [List.mem_cons, List.not_mem_nil, or_false, not_or] at hk ⊢
                exact ⟨hk.1, hk.2.1, hk.2.2.1, hk.2.2.2, hk2⟩
              have a1 : b2.tree ("meta" :: k :: r) = none := Classical.byContradiction fun hc => hk3 (fin.base.settingsKeys k r hc)
              have a2 : d ("meta" :: k :: r) = none := Classical.byContradiction fun hc => hk3 (hw.settings.2 k r hc)
              rw [a1, a2]
      · by_cases h2 : f = "health"
        · subst h2
          match r with
          | [] => rw [fin.base.health, hw.health.1]
          | k :: r =>
            by_cases hk : k ∈ ["value", "alarm", "timeStamp"]
            · exact fin.health k hk r
            · by_cases hk2 : k = "meta"
              · subst hk2
                rw [fin.base.healthMeta, hh0]
              · have hk3 : k ∉ ["value", "alarm", "timeStamp", "meta"] := by
                  simp only [List.mem_cons, List.not_mem_nil, or_false, not_or] at hk ⊢
                  exact ⟨hk.1, hk.2.1, hk.2.2, hk2⟩
                have a1 : b2.tree ("health" :: k :: r) = none := Classical.byContradiction fun hc => hk3 (fin.base.healthKeys k r hc)
                have a2 : d ("health" :: k :: r) = none := Classical.byContradiction fun hc => hk3 (hw.health.2 k r hc)
                rw [a1, a2]
        · have hfn : f ∉ b2.names := by rw [fin.base.names]; simp [h1, h2, hf]
          have a2 : d (f :: r) = none := Classical.byContradiction fun hc => by
            have := hw.fields f r hc
            simp [h1, h2, hf] at this
          rw [fin.base.absent f r hfn, a2]

theorem handleDeltas_below (enc : Enc) (deltas : List (List Change)) : ∀ b : Block, AllBelow b.tree deltas.flatten →
    handleDeltas enc b deltas = { b with tree := remote b.tree deltas.flatten } := by
  induction deltas with
  | nil => intro b _; rfl
  | cons ch deltas ih =>
    intro b h
    have split : ∀ (a c : List Change) (t : Tree), AllBelow t (a ++ c) → AllBelow t a ∧ AllBelow (remote t a) c := by
      intro a
      induction a with
      | nil => intro c t h; exact ⟨trivial, h⟩
      | cons x a ih =>
        intro c t h
        match x, h with
        | .set p v, h =>
          obtain ⟨h1, h2⟩ := h
          obtain ⟨g1, g2⟩ := ih c _ h2
          exact ⟨⟨h1, g1⟩, g2⟩
    rw [List.flatten_cons] at h
    obtain ⟨h1, h2⟩ := split _ _ _ h
    simp only [handleDeltas, List.foldl_cons]
    rw [handleDelta_below enc ch b h1]
    have := ih { b with tree := remote b.tree ch } h2
    simp only [handleDeltas] at this
    rw [this]
    simp [remote, List.foldl_append]

/-- C43, partial. After the block as a whole, and any changes of what is below its fields, in any number of messages, the
local block is the same as the remote one, everywhere, whatever the local block was before.
Missing: fields added and removed, and single columns of tables (`added_field_missing`, `removed_field_stays`,
`column_lost` in Verif.Props.ProxyRemote; a case that meets the hypotheses is `later_follows` there). -/
theorem mirror_partial (enc : Enc) {h0 : Tree} {old : List String} {b : Block} (hb : Base h0 old b) (names : List String) (d : Tree)
    (hw : Whole enc b names d) (deltas : List (List Change)) (hs : AllBelow d deltas.flatten) :
    (handleDeltas enc b ([.whole names d] :: deltas)).tree = remote d deltas.flatten := by
  have h1 := (regenerate_exact enc hb names d hw).1
  simp only [handleDeltas, List.foldl_cons, handleDelta, handleChange]
  have := handleDeltas_below enc deltas (regenerate enc b names d) (by rw [h1]; exact hs)
  simp only [handleDeltas] at this
  rw [this, h1]

end Verif.Props.Proxy
