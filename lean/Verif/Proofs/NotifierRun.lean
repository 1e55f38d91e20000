import Verif.Proofs.NotifierInv
set_option linter.unusedSectionVars false
set_option linter.unusedVariables false
namespace Verif.Notifier
open Verif Spec

/-! ### unsubscribe -/

/-- What is found at `r` after unsubscribing `s` at `path`. -/
structure UnsubFound (s : Sub) (path r : Path) (n m' : Node) : Prop where
  ex : ∃ m, n.find r = some m ∧ m'.data = m.data ∧
    m'.updates = (if r = path then (if s ∈ m.updates then m.updates.erase s else m.updates) else m.updates) ∧
    m'.deltas = (if r = path then (if s ∈ m.updates then m.deltas else m.deltas.erase s) else m.deltas) ∧
    ((Dict.keys m.children).Nodup → (Dict.keys m'.children).Nodup)

theorem unsubscribe_spec (s : Sub) (path : Path) : ∀ (n n' : Node) (rs : List Resp), Named n →
    n.unsubscribe s path = some (n', rs) →
    rs = [(s, .ret)] ∧ (∀ r m', n'.find r = some m' → UnsubFound s path r n m') ∧
    (∀ r m x, n.find r = some m → x ≠ s → (x ∈ m.updates ∨ x ∈ m.deltas) →
      ∃ m', n'.find r = some m') := by
  induction path with
  | nil =>
    intro n n' rs hn h
    cases n with
    | mk ds us data cs =>
      simp only [Node.unsubscribe] at h
      split at h
      · rename_i hs
        simp only [Option.some.injEq, Prod.mk.injEq] at h
        obtain ⟨rfl, rfl⟩ := h
        refine ⟨rfl, fun r m' h => ?_, fun r m x hm _ _ => ?_⟩
        · cases r with
          | nil =>
            simp only [Node.find_nil, Option.some.injEq] at h; subst h
            exact ⟨⟨_, Node.find_nil _, rfl, by simp [Node.updates, hs], by simp [Node.updates, hs, Node.deltas], fun h => h⟩⟩
          | cons a r =>
            exact ⟨⟨m', by rw [Node.find_cons] at *; exact h, rfl, by simp, by simp, fun h => h⟩⟩
        · cases r with
          | nil => exact ⟨_, Node.find_nil _⟩
          | cons a r => exact ⟨m, by rw [Node.find_cons] at *; exact hm⟩
      · rename_i hs
        split at h
        · simp only [Option.some.injEq, Prod.mk.injEq] at h
          obtain ⟨rfl, rfl⟩ := h
          refine ⟨rfl, fun r m' h => ?_, fun r m x hm _ _ => ?_⟩
          · cases r with
            | nil =>
              simp only [Node.find_nil, Option.some.injEq] at h; subst h
              exact ⟨⟨_, Node.find_nil _, rfl, by simp [Node.updates, hs], by simp [Node.updates, hs, Node.deltas], fun h => h⟩⟩
            | cons a r =>
              exact ⟨⟨m', by rw [Node.find_cons] at *; exact h, rfl, by simp, by simp, fun h => h⟩⟩
          · cases r with
            | nil => exact ⟨_, Node.find_nil _⟩
            | cons a r => exact ⟨m, by rw [Node.find_cons] at *; exact hm⟩
        · cases h
  | cons a path ih =>
    intro n n' rs hn h
    cases n with
    | mk ds us data cs =>
      simp only [Node.unsubscribe] at h
      cases hg : Dict.get? cs a with
      | none => simp [hg] at h
      | some c =>
        simp only [hg] at h
        cases hu : c.unsubscribe s path with
        | none => simp [hu] at h
        | some cr =>
          obtain ⟨c', rs'⟩ := cr
          simp only [hu] at h
          have hkn : (Dict.keys cs).Nodup := hn [] _ (Node.find_nil _)
          obtain ⟨hrs, hfd, hkeep⟩ := ih c c' rs' (hn.child hg) hu
          have hself : ∀ cs' : List (String × Node), (Dict.keys cs').Nodup →
              UnsubFound s (a :: path) [] (.mk ds us data cs) (.mk ds us data cs') := by
            intro cs' hk
            exact ⟨⟨_, Node.find_nil _, rfl, by simp [Node.updates], by simp [Node.deltas], fun _ => hk⟩⟩
          have hother : ∀ (b : String) (r : Path) (m' : Node), a ≠ b →
              (Node.mk ds us data cs).find (b :: r) = some m' →
              UnsubFound s (a :: path) (b :: r) (.mk ds us data cs) m' := by
            intro b r m' hab hf
            exact ⟨⟨m', hf, rfl, by simp [Ne.symm hab], by simp [Ne.symm hab], fun h => h⟩⟩
          split at h
          · rename_i hemp
            simp only [Option.some.injEq, Prod.mk.injEq] at h
            obtain ⟨rfl, rfl⟩ := h
            refine ⟨hrs, fun r m' h => ?_, fun r m x hm hx hxm => ?_⟩
            · cases r with
              | nil =>
                simp only [Node.find_nil, Option.some.injEq] at h; subst h
                exact hself _ (Dict.nodup_erase hkn a)
              | cons b r =>
                rw [Node.find_cons] at h
                simp only [Node.children, Dict.get?_erase hkn] at h
                by_cases hab : a = b
                · simp [hab] at h
                · simp only [hab, if_false] at h
                  exact hother b r m' hab (by rw [Node.find_cons]; exact h)
            · cases r with
              | nil => exact ⟨_, Node.find_nil _⟩
              | cons b r =>
                rw [Node.find_cons] at hm
                simp only [Node.children] at hm
                by_cases hab : a = b
                · subst hab
                  rw [hg] at hm
                  simp only [Option.bind_some] at hm
                  obtain ⟨m', hm'⟩ := hkeep r m x hm hx hxm
                  -- the child is empty
                  exfalso
                  have hch : c'.children = [] := by simpa using hemp.1
                  cases r with
                  | cons d r => rw [Node.find_cons, hch] at hm'; simp at hm'
                  | nil =>
                    simp only [Node.find_nil, Option.some.injEq] at hm'
                    obtain ⟨m2, hm2, _, hup, hde, _⟩ := (hfd [] c' (by simp)).ex
                    simp only [Node.find_nil, Option.some.injEq] at hm2 hm
                    subst hm2; subst hm
                    rw [hemp.2.1] at hup; rw [hemp.2.2] at hde
                    by_cases hp : ([] : Path) = path
                    · simp only [hp, if_true] at hup hde
                      split at hup
                      · rename_i hsu
                        simp only [hsu, if_true] at hde
                        rcases hxm with hxm | hxm
                        · have : x ∈ c.updates.erase s := (List.mem_erase_of_ne hx).2 hxm
                          rw [← hup] at this; simp at this
                        · rw [← hde] at hxm; simp at hxm
                      · rename_i hsu
                        simp only [hsu, if_false] at hde
                        rcases hxm with hxm | hxm
                        · rw [← hup] at hxm; simp at hxm
                        · have : x ∈ c.deltas.erase s := (List.mem_erase_of_ne hx).2 hxm
                          rw [← hde] at this; simp at this
                    · simp only [hp, if_false] at hup hde
                      rw [← hup, ← hde] at hxm; simp at hxm
                · exact ⟨m, by rw [Node.find_cons]; simpa [Node.children, Dict.get?_erase hkn, hab] using hm⟩
          · simp only [Option.some.injEq, Prod.mk.injEq] at h
            obtain ⟨rfl, rfl⟩ := h
            refine ⟨hrs, fun r m' h => ?_, fun r m x hm hx hxm => ?_⟩
            · cases r with
              | nil =>
                simp only [Node.find_nil, Option.some.injEq] at h; subst h
                exact hself _ (Dict.nodup_set hkn _ _)
              | cons b r =>
                rw [Node.find_cons] at h
                simp only [Node.children, Dict.get?_set] at h
                by_cases hab : a = b
                · subst hab
                  simp only [if_true, Option.bind_some] at h
                  obtain ⟨m, hm, h1, h2, h3, h4⟩ := (hfd r m' h).ex
                  refine ⟨⟨m, by rw [Node.find_cons]; simp [Node.children, hg, hm], h1, ?_, ?_, h4⟩⟩
                  · simpa using h2
                  · simpa using h3
                · simp only [hab, if_false] at h
                  exact hother b r m' hab (by rw [Node.find_cons]; exact h)
            · cases r with
              | nil => exact ⟨_, Node.find_nil _⟩
              | cons b r =>
                rw [Node.find_cons] at hm
                simp only [Node.children] at hm
                by_cases hab : a = b
                · subst hab
                  rw [hg] at hm
                  simp only [Option.bind_some] at hm
                  obtain ⟨m', hm'⟩ := hkeep r m x hm hx hxm
                  exact ⟨m', by rw [Node.find_cons]; simpa [Node.children] using hm'⟩
                · exact ⟨m, by rw [Node.find_cons]; simpa [Node.children, Dict.get?_set, hab] using hm⟩

theorem unsubscribe_some (s : Sub) (path : Path) : ∀ (n m : Node),
    n.find path = some m → (s ∈ m.updates ∨ s ∈ m.deltas) → ∃ x, n.unsubscribe s path = some x := by
  induction path with
  | nil =>
    intro n m h hs
    simp only [Node.find_nil, Option.some.injEq] at h; subst h
    cases n with
    | mk ds us data cs =>
      simp only [Node.unsubscribe]
      split
      · exact ⟨_, rfl⟩
      · rename_i h1
        rcases hs with hs | hs
        · exact absurd hs h1
        · rw [if_pos (show s ∈ ds from hs)]; exact ⟨_, rfl⟩
  | cons a path ih =>
    intro n m h hs
    cases n with
    | mk ds us data cs =>
      rw [Node.find_cons] at h
      simp only [Node.children] at h
      cases hg : Dict.get? cs a with
      | none => rw [hg] at h; cases h
      | some c =>
        rw [hg] at h
        obtain ⟨⟨c', r⟩, hx⟩ := ih c m h hs
        simp only [Node.unsubscribe, hg, hx]
        split <;> exact ⟨_, rfl⟩

/-! ### the invariant -/

/-- What the notifier's tree and the requests it knows look like, in every state. -/
structure Struct (s : State) : Prop where
  named : Named s.root
  placed : Placed [] s.root
  reg : ∀ r m x, s.root.find r = some m → (x ∈ m.updates ∨ x ∈ m.deltas) → Dict.get? s.keys x.key = some x
  keys : ∀ k x, Dict.get? s.keys k = some x → x.key = k ∧
    ∃ m, s.root.find x.path = some m ∧ (x ∈ m.updates ∨ x ∈ m.deltas)
  nodup : (Dict.keys s.keys).Nodup
  idle : s.count = 0 → s.pending = []

/-- The block and the changes not yet sent. -/
structure Block (D : Path → Prop) (s : State) : Prop where
  wf : TreeWF s.cur
  dict : ∀ x, s.cur x = some .dict → D x
  pend : ∀ x, match lastCov s.pending x with
    | some c => ∃ y, x = c.1 ++ y ∧ content s.cur c.1 c.2 y = s.cur x
    | none => s.flushed x = s.cur x
  rootModel : s.cur [] = some .model

/-- A change that says what is there now. -/
def GoodCh (cur : Tree) (c : Change) : Prop :=
  (c.2 = some .live ∧ cur c.1 ≠ none) ∨ (c.2 = none ∧ cur c.1 = none)

/-- A node reference that is up to date. -/
def GoodData (cur : Tree) (r : Path) (d : Option Data) : Prop :=
  (d = some .live ∧ cur r ≠ none) ∨ (d = none ∧ cur r = none)

/-- The references on the way to `q`. -/
structure Fresh (q : Path) (s : State) : Prop where
  node : ∀ r m, r <+: q → s.root.find r = some m →
    GoodData s.cur r m.data ∨ lastCov s.pending r ≠ none
  pend : ∀ r c, r <+: q → lastCov s.pending r = some c → GoodCh s.cur c

/-- What the clients hold. -/
structure Clients (q : Path) (s : State) : Prop where
  delta : ∀ m x, s.root.find q = some m → x ∈ m.deltas →
    replay (received s.sent x) = s.flushed.sub q
  update : ∀ m x, s.root.find q = some m → x ∈ m.updates →
    lastUpdate (received s.sent x) = some (s.flushed.sub q)

structure Inv (D : Path → Prop) (q : Path) (s : State) : Prop where
  st : Struct s
  bl : Block D s
  fr : Fresh q s
  cl : Clients q s

/-- The values assigned are well formed, and have dicts only where `D` says. -/
def Op.OK (D : Path → Prop) : Op → Prop
  | .assign p v => TreeWF v ∧ ∀ y, v y = some .dict → D (p ++ y)
  | .tableSet p _ _ v => TreeWF v ∧ ∀ y, v y = some .dict → D (p ++ y)
  | _ => True

/-- The operation is not a replacement of some columns of a table at or above `q`. -/
def Op.NoPartialTable (q : Path) : Op → Prop
  | .tableSet p cols changed _ => changed.length = cols.length ∨ ¬ p <+: q
  | _ => True

theorem GoodCh.content {cur : Tree} (hw : TreeWF cur) {c : Change} (h : GoodCh cur c) :
    content cur c.1 c.2 = cur.sub c.1 := by
  rcases h with ⟨h, _⟩ | ⟨h, h2⟩
  · rw [h]; rfl
  · rw [h, hw.sub_absent h2]; rfl

theorem GoodData.content {cur : Tree} (hw : TreeWF cur) {r d} (h : GoodData cur r d) :
    Notifier.content cur r d = cur.sub r := by
  rcases h with ⟨h, _⟩ | ⟨h, h2⟩
  · rw [h]; rfl
  · rw [h, hw.sub_absent h2]; rfl

theorem GoodData.walk {cur : Tree} (hw : TreeWF cur) {p r : Path} {d} (h : GoodData cur p d)
    (hd : NoDict cur (p ++ r)) : GoodData cur (p ++ r) (walkData cur p r d) := by
  rcases h with ⟨rfl, h⟩ | ⟨rfl, h⟩
  · rw [walkData_live hw r p hd h]
    by_cases hc : cur (p ++ r) = none
    · exact Or.inr ⟨by simp [hc], hc⟩
    · exact Or.inl ⟨by simp [hc], hc⟩
  · rw [walkData_none]; exact Or.inr ⟨rfl, hw.none_below h r⟩

theorem NoDict.mono {t : Tree} {q r : Path} (h : NoDict t q) (hr : r <+: q) : NoDict t r :=
  fun x a hx => h x a (hx.trans hr)

/-! #### flush -/

/-- The data of a node on the way to `q` after the flush. -/
theorem flush_data {D q s} (h : Inv D q s) (hd : NoDict s.cur q) {r : Path} (hr : r <+: q) {m : Node}
    (hm : s.root.find r = some m) : GoodData s.cur r (lastData m.data (rel s.cur [] r s.pending)) := by
  rw [lastData_rel]
  cases hc : lastCov s.pending r with
  | none =>
    rcases h.fr.node r m hr hm with h1 | h1
    · exact h1
    · exact absurd hc h1
  | some c =>
    obtain ⟨y, hy⟩ := (lastCov_some hc).2
    have hg := h.fr.pend r c hr hc
    subst hy
    simp only [stripPrefix_append]
    exact GoodData.walk h.bl.wf hg (hd.mono hr)

/-- What applying the Delta of the flush gives. -/
theorem flush_delta {D q s} (h : Inv D q s) (hd : NoDict s.cur q) :
    applyStanzas (s.flushed.sub q) ((rel s.cur [] q s.pending).map (freezeChange s.cur q)) = s.cur.sub q := by
  funext y
  rw [applyStanzas_rel]
  have hp := h.bl.pend (q ++ y)
  cases hc : lastCov s.pending (q ++ y) with
  | none => rw [hc] at hp; exact hp
  | some c =>
    rw [hc] at hp
    obtain ⟨z, hz, hcon⟩ := hp
    simp only [frozenAt, sub_apply]
    cases hs : stripPrefix q c.1 with
    | some p' =>
      have hq := stripPrefix_some.1 hs
      have : y = p' ++ z := by
        rw [hq, List.append_assoc] at hz; exact List.append_cancel_left hz
      simp only [this, stripPrefix_append]
      rw [hcon, this]
    | none =>
      -- c is above q, so it is also the last change at or above q
      have hcq : c.1 <+: q := by
        rcases List.prefix_or_prefix_of_prefix ⟨z, hz.symm⟩ (List.prefix_append q y) with h1 | h1
        · exact h1
        · exact absurd h1 (stripPrefix_none.1 hs)
      have hlast : lastCov s.pending q = some c := by
        -- any change at or above q is at or above q ++ y
        have key : ∀ l : List Change, lastCov l (q ++ y) = some c → c.1 <+: q → lastCov l q = some c := by
          intro l
          induction l with
          | nil => intro h; simp [lastCov] at h
          | cons e l ih =>
            intro h1 h2
            simp only [lastCov] at h1 ⊢
            cases hl : lastCov l (q ++ y) with
            | some e' =>
              rw [hl] at h1; simp only [Option.some.injEq] at h1; subst h1
              rw [ih hl h2]
            | none =>
              rw [hl] at h1
              have : lastCov l q = none := by
                rw [lastCov_none] at hl ⊢
                intro e' he' hpre; exact hl e' he' (hpre.trans (List.prefix_append q y))
              rw [this]
              simp only at h1
              split at h1
              · cases h1; simp [stripPrefix_isSome.2 h2]
              · cases h1
        exact key _ hc hcq
      obtain ⟨r', hr'⟩ := hcq
      have hs2 : stripPrefix c.1 q = some r' := stripPrefix_some.2 hr'.symm
      simp only [hs2]
      have hg : GoodData s.cur c.1 c.2 := h.fr.pend q c (List.prefix_refl q) hlast
      have := (GoodData.walk h.bl.wf hg (r := r') (by rw [hr']; exact hd)).content h.bl.wf
      rw [hr'] at this
      rw [this]; rfl

theorem sub_mem_placed {s : State} (h : Struct s) {r m x} (hm : s.root.find r = some m)
    (hx : x ∈ m.updates ∨ x ∈ m.deltas) : x.path = r := by
  have := h.placed r m hm
  rcases hx with hx | hx
  · simpa using (this.1 x hx).1
  · simpa using (this.2.1 x hx).1

/-- Nothing changed at or below `q` when nothing was said about it. -/
theorem unchanged_of_rel_nil {D q s} (h : Inv D q s) (hn : rel s.cur [] q s.pending = []) :
    s.flushed.sub q = s.cur.sub q := by
  funext y
  have hp := h.bl.pend (q ++ y)
  cases hc : lastCov s.pending (q ++ y) with
  | none => rw [hc] at hp; exact hp
  | some c =>
    exfalso
    obtain ⟨hmem, hpre⟩ := lastCov_some hc
    rw [rel_eq, List.filterMap_eq_nil_iff] at hn
    have := hn c hmem
    rcases List.prefix_or_prefix_of_prefix hpre (List.prefix_append q y) with ⟨z, hz⟩ | ⟨z, hz⟩
    · unfold relOf at this
      cases hs : stripPrefix q c.1 with
      | some p' => simp [hs] at this
      | none =>
        have hs2 : stripPrefix c.1 q = some z := stripPrefix_some.2 hz.symm
        simp [hs, hs2] at this
    · simp [relOf, ← hz] at this

theorem replay_append (a b : List Msg) : replay (a ++ b) = b.foldl hold (replay a) := by
  simp [replay, List.foldl_append]

theorem lastUpdate_append_update (a : List Msg) (v : Tree) :
    lastUpdate (a ++ [.update v]) = some v := by
  simp [lastUpdate, Msg.value?]

/-- The message one registered subscription gets from a flush, if any. -/
theorem flush_received {s : State} (h : Struct s) {m x} (hm : s.root.find x.path = some m)
    (hx : x ∈ m.updates ∨ x ∈ m.deltas) :
    received (s.root.notify s.cur [] s.pending).2 x =
      if x.path ≠ [] ∧ rel s.cur [] x.path s.pending = [] then [] else
        [if x.delta then Msg.delta ((rel s.cur [] x.path s.pending).map (freezeChange s.cur x.path))
         else Msg.update (content s.cur x.path (lastData m.data (rel s.cur [] x.path s.pending)))] := by
  have := received_notify s.cur x x.path [] s.root h.named h.placed (by simp) s.pending
  rw [this, hm]
  simp only
  split
  · rfl
  · have hp := h.placed _ m hm
    rw [ownMsgs, received_append, received_map hp.2.2.1, received_map hp.2.2.2]
    rcases hx with hx | hx
    · have hd := (hp.1 x hx).2
      have : x ∉ m.deltas := fun h' => by have := (hp.2.1 x h').2; rw [hd] at this; cases this
      simp [hx, this, hd]
    · have hd := (hp.2.1 x hx).2
      have : x ∉ m.updates := fun h' => by have := (hp.1 x h').2; rw [hd] at this; cases this
      simp [hx, this, hd]

theorem flush_struct {s : State} (h : Struct s) (hc : s.count = 1) : Struct (s.step .exit) := by
  simp only [State.step, hc]
  have hfind := fun r => find_notify s.cur r [] s.root h.named s.pending
  have hfld : ∀ r m', (s.root.notify s.cur [] s.pending).1.find r = some m' →
      ∃ m, s.root.find r = some m ∧ m'.updates = m.updates ∧ m'.deltas = m.deltas ∧
        Dict.keys m'.children = Dict.keys m.children := by
    intro r m' hm'
    rw [hfind] at hm'
    cases hm : s.root.find r with
    | none => rw [hm] at hm'; cases hm'
    | some m =>
      rw [hm] at hm'
      simp only [Option.map_some, Option.some.injEq] at hm'; subst hm'
      have := notify_fst s.cur ([] ++ r) m (h.named r m hm) (rel s.cur [] r s.pending)
      exact ⟨m, rfl, this.2.1, this.1, this.2.2.2.1⟩
  constructor
  · intro r m' hm'
    obtain ⟨m, hm, _, _, hk⟩ := hfld r m' hm'
    rw [hk]; exact h.named r m hm
  · intro r m' hm'
    obtain ⟨m, hm, hu, hd, _⟩ := hfld r m' hm'
    rw [hu, hd]; exact h.placed r m hm
  · intro r m' x hm' hx
    obtain ⟨m, hm, hu, hd, _⟩ := hfld r m' hm'
    rw [hu, hd] at hx; exact h.reg r m x hm hx
  · intro k x hk
    obtain ⟨hk, m, hm, hx⟩ := h.keys k x hk
    refine ⟨hk, ?_⟩
    have := notify_fst s.cur ([] ++ x.path) m (h.named _ m hm) (rel s.cur [] x.path s.pending)
    refine ⟨_, by rw [hfind, hm]; rfl, ?_⟩
    rw [this.1, this.2.1]; exact hx
  · exact h.nodup
  · intro _; rfl

theorem flush_inv {D q s} (h : Inv D q s) (hd : NoDict s.cur q) (hc : s.count = 1) :
    Inv D q (s.step .exit) := by
  have hst := flush_struct h.st hc
  refine ⟨hst, ?_, ?_, ?_⟩
  · simp only [State.step, hc]
    exact ⟨h.bl.wf, h.bl.dict, fun x => by simp [lastCov], h.bl.rootModel⟩
  · simp only [State.step, hc]
    constructor
    · intro r m' hr hm'
      left
      rw [find_notify _ _ _ _ h.st.named] at hm'
      cases hm : s.root.find r with
      | none => rw [hm] at hm'; cases hm'
      | some m =>
        rw [hm] at hm'
        simp only [Option.map_some, Option.some.injEq] at hm'; subst hm'
        have := notify_fst s.cur ([] ++ r) m (h.st.named r m hm) (rel s.cur [] r s.pending)
        rw [this.2.2.1]
        exact flush_data h hd hr hm
    · intro r c _ hc'; simp [lastCov] at hc'
  · -- clients
    have hback : ∀ m' x, (s.step .exit).root.find q = some m' → (x ∈ m'.updates ∨ x ∈ m'.deltas) →
        ∃ m, s.root.find q = some m ∧ (x ∈ m'.updates ↔ x ∈ m.updates) ∧ (x ∈ m'.deltas ↔ x ∈ m.deltas) ∧
          x.path = q := by
      intro m' x hm' hx
      have hxq := sub_mem_placed hst hm' hx
      simp only [State.step, hc] at hm'
      rw [find_notify _ _ _ _ h.st.named] at hm'
      cases hm : s.root.find q with
      | none => rw [hm] at hm'; cases hm'
      | some m =>
        rw [hm] at hm'
        simp only [Option.map_some, Option.some.injEq] at hm'; subst hm'
        have := notify_fst s.cur ([] ++ q) m (h.st.named q m hm) (rel s.cur [] q s.pending)
        exact ⟨m, rfl, by rw [this.2.1], by rw [this.1], hxq⟩
    constructor
    · intro m' x hm' hx
      obtain ⟨m, hm, hu, hdl, hxq⟩ := hback m' x hm' (Or.inr hx)
      have hxm := hdl.1 hx
      have hprev := h.cl.delta m x hm hxm
      have hrc := flush_received h.st (x := x) (m := m) (by rw [hxq]; exact hm) (Or.inr hxm)
      have hdt : x.delta = true := ((h.st.placed q m hm).2.1 x hxm).2
      simp only [State.step, hc, received_append, hrc, hxq, hdt, if_true]
      split
      · rename_i hn
        rw [List.append_nil, hprev]; exact unchanged_of_rel_nil h hn.2
      · rw [replay_append]; simp only [List.foldl_cons, List.foldl_nil, hprev]
        simp only [hold]
        exact flush_delta h hd
    · intro m' x hm' hx
      obtain ⟨m, hm, hu, hdl, hxq⟩ := hback m' x hm' (Or.inl hx)
      have hxm := hu.1 hx
      have hprev := h.cl.update m x hm hxm
      have hrc := flush_received h.st (x := x) (m := m) (by rw [hxq]; exact hm) (Or.inl hxm)
      have hdt : x.delta = false := ((h.st.placed q m hm).1 x hxm).2
      simp only [State.step, hc, received_append, hrc, hxq, hdt]
      split
      · rename_i hn
        rw [List.append_nil, hprev, unchanged_of_rel_nil h hn.2]
      · have := (flush_data h hd (List.prefix_refl q) hm).content h.bl.wf
        rw [if_neg (by simp), lastUpdate_append_update, this]

/-! #### setters -/

theorem hasParent_ne {t : Tree} {p : Path} (h : hasParent t p = true) : p ≠ [] := by
  rintro rfl; simp [hasParent] at h

theorem hasParent_split {t : Tree} {p : Path} (h : hasParent t p = true) :
    ∃ x a, p = x ++ [a] ∧ t x = some .model := by
  have hne := hasParent_ne h
  refine ⟨p.dropLast, p.getLast hne, (List.dropLast_concat_getLast hne).symm, ?_⟩
  cases p with
  | nil => exact absurd rfl hne
  | cons a p => simpa [hasParent] using h

theorem detachData_content (cur cur' : Tree) (p at_ y : Path) (d : Option Data)
    (h : cur' (at_ ++ y) = cur (at_ ++ y)) :
    content cur' at_ (detachData cur p at_ d) y = content cur at_ d y := by
  cases d with
  | none => rfl
  | some d =>
    cases d with
    | live =>
      simp only [detachData]
      split
      · rfl
      · exact h
    | snap v => rfl

theorem put_inv {D q s} (h : Inv D q s) {p : Path} {v : Tree} {notes : List Change}
    (hp : hasParent s.cur p = true) (hv : TreeWF v) (hD : ∀ y, v y = some .dict → D (p ++ y))
    (hcount : s.count > 0)
    (hcover : ∀ x, lastCov notes x = none → s.cur.setAt p v x = s.cur x)
    (hcont : ∀ x c, lastCov notes x = some c →
      ∃ y, x = c.1 ++ y ∧ content (s.cur.setAt p v) c.1 c.2 y = s.cur.setAt p v x)
    (hgood : ∀ r c, r <+: q → lastCov notes r = some c → GoodCh (s.cur.setAt p v) c)
    (hall : ∀ r, r <+: q → p <+: r → lastCov notes r ≠ none) :
    Inv D q (s.put p v notes) := by
  have hmapc : ∀ x, lastCov (s.pending.map (detachChange s.cur p)) x
      = (lastCov s.pending x).map (detachChange s.cur p) :=
    lastCov_map (detachChange s.cur p) (fun _ => rfl) s.pending
  have hfind := fun r => find_detach s.cur p r [] s.root
  have hfld : ∀ r m', (s.root.detach s.cur p []).find r = some m' →
      ∃ m, s.root.find r = some m ∧ m'.updates = m.updates ∧ m'.deltas = m.deltas ∧
        m'.data = detachData s.cur p r m.data ∧ Dict.keys m'.children = Dict.keys m.children := by
    intro r m' hm'
    rw [hfind] at hm'
    cases hm : s.root.find r with
    | none => rw [hm] at hm'; cases hm'
    | some m =>
      rw [hm] at hm'
      simp only [Option.map_some, Option.some.injEq] at hm'; subst hm'
      have := detach_fields s.cur p ([] ++ r) m
      exact ⟨m, rfl, this.1, this.2.1, this.2.2.1, this.2.2.2⟩
  -- a path on the way to q where something hangs stays if p is not at or above it
  have hkeep : ∀ r, ¬ p <+: r → s.cur.setAt p v r = s.cur r := fun r hr => setAt_other _ _ hr
  refine ⟨?_, ?_, ?_, ?_⟩
  · constructor
    · intro r m' hm'
      obtain ⟨m, hm, _, _, _, hk⟩ := hfld r m' hm'
      rw [hk]; exact h.st.named r m hm
    · intro r m' hm'
      obtain ⟨m, hm, hu, hd, _, _⟩ := hfld r m' hm'
      rw [hu, hd]; exact h.st.placed r m hm
    · intro r m' x hm' hx
      obtain ⟨m, hm, hu, hd, _, _⟩ := hfld r m' hm'
      rw [hu, hd] at hx; exact h.st.reg r m x hm hx
    · intro k x hk
      obtain ⟨hk, m, hm, hx⟩ := h.st.keys k x hk
      have := detach_fields s.cur p ([] ++ x.path) m
      refine ⟨hk, _, by simp only [State.put]; rw [hfind, hm]; rfl, ?_⟩
      rw [this.1, this.2.1]; exact hx
    · exact h.st.nodup
    · intro hc; simp only [State.put] at hc; omega
  · constructor
    · exact h.bl.wf.setAt hv hp
    · intro x hx
      simp only [State.put] at hx
      by_cases hpx : p <+: x
      · obtain ⟨y, rfl⟩ := hpx
        rw [setAt_append] at hx; exact hD y hx
      · rw [hkeep x hpx] at hx; exact h.bl.dict x hx
    · intro x
      simp only [State.put, lastCov_append, hmapc]
      cases hn : lastCov notes x with
      | some c => exact hcont x c hn
      | none =>
        have hsame := hcover x hn
        have hpd := h.bl.pend x
        simp only [Option.none_or]
        cases hc : lastCov s.pending x with
        | none => rw [hc] at hpd; simp only [Option.map_none]; rw [hsame]; exact hpd
        | some c =>
          rw [hc] at hpd
          obtain ⟨y, hy, hco⟩ := hpd
          subst hy
          simp only [Option.map_some, detachChange]
          exact ⟨y, rfl, by rw [detachData_content _ _ _ _ _ _ hsame, hco, hsame]⟩
    · simp only [State.put]
      rw [hkeep _ (by simp [hasParent_ne hp])]
      exact h.bl.rootModel
  · have goodKeep : ∀ r d, ¬ p <+: r → GoodData s.cur r d →
        GoodData (s.cur.setAt p v) r (detachData s.cur p r d) := by
      intro r d hr hg
      have hx : (stripPrefix p r).isSome = false := by
        rw [Bool.eq_false_iff]; simpa [stripPrefix_isSome] using hr
      rcases hg with ⟨rfl, hg⟩ | ⟨rfl, hg⟩
      · refine Or.inl ⟨by simp [detachData, hx], ?_⟩
        rw [hkeep r hr]; exact hg
      · exact Or.inr ⟨rfl, by rw [hkeep r hr]; exact hg⟩
    constructor
    · intro r m' hr hm'
      obtain ⟨m, hm, _, _, hdt, _⟩ := hfld r m' hm'
      simp only [State.put, lastCov_append, hmapc]
      by_cases hpr : p <+: r
      · right
        have := hall r hr hpr
        cases hn : lastCov notes r with
        | none => exact absurd hn this
        | some c => simp
      · rcases h.fr.node r m hr hm with h1 | h1
        · left; rw [hdt]; exact goodKeep r m.data hpr h1
        · right
          cases hl : lastCov s.pending r with
          | none => exact absurd hl h1
          | some c => cases lastCov notes r <;> simp
    · intro r c hr hc
      simp only [State.put, lastCov_append, hmapc] at hc ⊢
      cases hn : lastCov notes r with
      | some c' =>
        rw [hn] at hc; simp only [Option.some_or, Option.some.injEq] at hc; subst hc
        exact hgood r c' hr hn
      | none =>
        rw [hn] at hc
        have hpr : ¬ p <+: r := fun hpr => hall r hr hpr hn
        cases hl : lastCov s.pending r with
        | none => rw [hl] at hc; simp at hc
        | some c0 =>
          rw [hl] at hc
          simp only [Option.none_or, Option.map_some, Option.some.injEq] at hc; subst hc
          have hpc : ¬ p <+: c0.1 := fun hh => hpr (hh.trans (lastCov_some hl).2)
          exact goodKeep c0.1 c0.2 hpc (h.fr.pend r c0 hr hl)
  · constructor
    · intro m' x hm' hx
      obtain ⟨m, hm, hu, hd, _, _⟩ := hfld q m' hm'
      rw [hd] at hx; exact h.cl.delta m x hm hx
    · intro m' x hm' hx
      obtain ⟨m, hm, hu, hd, _, _⟩ := hfld q m' hm'
      rw [hu] at hx; exact h.cl.update m x hm hx

theorem lastCov_single (p : Path) (d : Option Data) (x : Path) :
    lastCov [(p, d)] x = if (stripPrefix p x).isSome then some (p, d) else none := by simp [lastCov]

/-- A change of everything at `p`. -/
theorem put_one_inv {D q s} (h : Inv D q s) {p : Path} {v : Tree}
    (hp : hasParent s.cur p = true) (hv : TreeWF v) (hD : ∀ y, v y = some .dict → D (p ++ y))
    (hcount : s.count > 0) :
    Inv D q (s.put p v [(p, if v [] = none then none else some .live)]) := by
  have hg : GoodCh (s.cur.setAt p v) (p, if v [] = none then none else some .live) := by
    by_cases hn : v [] = none
    · exact Or.inr ⟨by simp [hn], by simp [hn]⟩
    · exact Or.inl ⟨by simp [hn], by simp [hn]⟩
  refine put_inv h hp hv hD hcount ?_ ?_ ?_ ?_
  · intro x hx
    rw [lastCov_none] at hx
    exact setAt_other _ _ (hx _ (List.mem_singleton.2 rfl))
  · intro x c hc
    have := lastCov_some hc
    simp only [List.mem_singleton] at this
    obtain ⟨rfl, ⟨y, hy⟩⟩ := this
    refine ⟨y, hy.symm, ?_⟩
    rw [hg.content (h.bl.wf.setAt hv hp), ← hy]; rfl
  · intro r c _ hc
    have := lastCov_some hc
    simp only [List.mem_singleton] at this
    rw [this.1]; exact hg
  · intro r _ hpr
    rw [lastCov_single, stripPrefix_isSome.2 hpr]; simp

theorem mergeTable_wf {old v : Tree} {changed : List String} (ho : TreeWF old) (hv : TreeWF v)
    (ht : old [] = some .table) : TreeWF (mergeTable old changed v) := by
  intro x a hx
  cases x with
  | nil => exact ⟨.table, rfl, rfl⟩
  | cons k x =>
    simp only [List.cons_append, mergeTable] at hx ⊢
    split at hx
    · rename_i hk; rw [if_pos hk]; exact hv (k :: x) a hx
    · rename_i hk; rw [if_neg hk]; exact ho (k :: x) a hx

theorem TreeWF.sub {t : Tree} (h : TreeWF t) (p : Path) : TreeWF (t.sub p) := by
  intro x a hx
  exact h (p ++ x) a (by rw [List.append_assoc]; exact hx)

theorem assign_inv {D q s} (h : Inv D q s) (p : Path) (v : Tree) (hok : (Op.assign p v).OK D) :
    Inv D q (s.step (.assign p v)) := by
  simp only [State.step]
  split
  · rename_i hc; exact put_one_inv h hc.2 hok.1 hok.2 hc.1
  · exact h

theorem delete_inv {D q s} (h : Inv D q s) (p : Path) : Inv D q (s.step (.delete p)) := by
  simp only [State.step]
  split
  · rename_i hc
    have := put_one_inv (v := Tree.absent) h hc.2 TreeWF.absent (by intro y hy; cases hy) hc.1
    simpa [Tree.absent] using this
  · exact h

theorem tableSet_inv {D q s} (h : Inv D q s) (p : Path) (cols changed : List String) (v : Tree)
    (hok : (Op.tableSet p cols changed v).OK D) (hnp : (Op.tableSet p cols changed v).NoPartialTable q) :
    Inv D q (s.step (.tableSet p cols changed v)) := by
  simp only [State.step]
  split
  · rename_i hc
    obtain ⟨hcount, hp, htab⟩ := hc
    have hold : (s.cur.sub p) [] = some .table := by simpa using htab
    have hwf : TreeWF (mergeTable (s.cur.sub p) changed v) := mergeTable_wf (h.bl.wf.sub p) hok.1 hold
    have hD : ∀ y, mergeTable (s.cur.sub p) changed v y = some .dict → D (p ++ y) := by
      intro y hy
      cases y with
      | nil => simp [mergeTable] at hy
      | cons k y =>
        simp only [mergeTable] at hy
        split at hy
        · exact hok.2 _ hy
        · exact h.bl.dict _ hy
    split
    · have := put_one_inv h hp hwf hD hcount
      simpa [mergeTable] using this
    · rename_i hlen
      have hpq : ¬ p <+: q := by
        rcases hnp with h1 | h1
        · exact absurd h1 hlen
        · exact h1
      have hnone : ∀ r, r <+: q → lastCov (changed.map (fun k => (p ++ [k], some Data.live))) r = none := by
        intro r hr
        rw [lastCov_none]
        intro c hc hpre
        obtain ⟨k, _, rfl⟩ := List.mem_map.1 hc
        exact hpq ((List.prefix_append p [k]).trans (hpre.trans hr))
      refine put_inv h hp hwf hD hcount ?_ ?_ ?_ ?_
      · intro x hx
        rw [lastCov_none] at hx
        by_cases hpx : p <+: x
        · obtain ⟨y, rfl⟩ := hpx
          rw [setAt_append]
          cases y with
          | nil => simp [mergeTable, htab]
          | cons k y =>
            simp only [mergeTable]
            split
            · rename_i hk
              exact absurd ⟨y, by simp⟩ (hx (p ++ [k], some .live) (List.mem_map.2 ⟨k, hk, rfl⟩))
            · rfl
        · exact setAt_other _ _ hpx
      · intro x c hc
        have := lastCov_some hc
        obtain ⟨k, _, rfl⟩ := List.mem_map.1 this.1
        obtain ⟨y, hy⟩ := this.2
        exact ⟨y, hy.symm, by rw [← hy]; rfl⟩
      · intro r c hr hc
        rw [hnone r hr] at hc; cases hc
      · intro r hr hpr
        exact absurd (hpr.trans hr) hpq
  · exact h

/-! #### subscriptions -/

theorem nodeData_good {D q s} (h : Inv D q s) (hd : NoDict s.cur q) (hc : s.count = 0) :
    ∀ r, r <+: q → GoodData s.cur r (nodeData s.cur [] s.root r) := by
  -- walk down from the root
  have key : ∀ (r : Path) (at_ : Path) (n : Node), s.root.find at_ = some n → (at_ ++ r) <+: q →
      GoodData s.cur (at_ ++ r) (nodeData s.cur at_ n r) := by
    intro r
    induction r with
    | nil =>
      intro at_ n hn hq
      rw [List.append_nil] at *
      rw [nodeData]
      rcases h.fr.node at_ n hq hn with h1 | h1
      · exact h1
      · rw [h.st.idle hc] at h1; simp [lastCov] at h1
    | cons a r ih =>
      intro at_ n hn hq
      rw [nodeData]
      cases hg : Dict.get? n.children a with
      | some c =>
        have := ih (at_ ++ [a]) c (by rw [Node.find_append, hn]; simp [Node.find_cons, hg])
          (by simpa [List.append_assoc] using hq)
        simpa [List.append_assoc] using this
      | none =>
        have hat : at_ <+: q := (List.prefix_append at_ (a :: r)).trans hq
        have hgd : GoodData s.cur at_ n.data := by
          rcases h.fr.node at_ n hat hn with h1 | h1
          · exact h1
          · rw [h.st.idle hc] at h1; simp [lastCov] at h1
        exact hgd.walk h.bl.wf (hd.mono hq)
  intro r hr
  simpa using key r [] s.root (by simp) (by simpa using hr)

theorem received_single (x y : Sub) (m : Msg) : received [(x, m)] y = if x = y then [m] else [] := by
  by_cases h : x = y <;> simp [received, h]

theorem subscribe_struct {s : State} (h : Struct s) (sb : Sub) (hfresh : Dict.get? s.keys sb.key = none) :
    Struct (s.step (.subscribe sb)) := by
  simp only [State.step]
  split
  case isFalse => exact h
  case isTrue hc =>
    have hsp := subscribe_spec s.cur sb sb.path [] s.root
    have hnew : ∀ r m, s.root.find r = some m → sb ∉ m.updates ∧ sb ∉ m.deltas := by
      intro r m hm
      constructor <;> intro hx
      · have := h.reg r m sb hm (Or.inl hx); rw [hfresh] at this; cases this
      · have := h.reg r m sb hm (Or.inr hx); rw [hfresh] at this; cases this
    have hnd : ∀ r m', (s.root.subscribe s.cur [] sb sb.path).1.find r = some m' →
        (Dict.keys m'.children).Nodup ∧ m'.updates.Nodup ∧ m'.deltas.Nodup := by
      intro r m' hm'
      refine (hsp.2.1 r m' hm').nodup fun m hm => ?_
      have hp := h.placed r m hm
      exact ⟨h.named r m hm, hp.2.2.1, hp.2.2.2, hnew r m hm⟩
    constructor
    · intro r m' hm'; exact (hnd r m' hm').1
    · intro r m' hm'
      have hf := hsp.2.1 r m' hm'
      refine ⟨?_, ?_, (hnd r m' hm').2⟩
      · intro x hx
        rcases (hf.ups x).1 hx with ⟨m, hm, hxm⟩ | ⟨rfl, rfl, hdl⟩
        · exact (h.placed r m hm).1 x hxm
        · exact ⟨by simp, hdl⟩
      · intro x hx
        rcases (hf.dels x).1 hx with ⟨m, hm, hxm⟩ | ⟨rfl, rfl, hdl⟩
        · exact (h.placed r m hm).2.1 x hxm
        · exact ⟨by simp, hdl⟩
    · intro r m' x hm' hx
      rcases ((hsp.2.1 r m' hm').subs x).1 hx with ⟨m, hm, hxm⟩ | ⟨_, rfl⟩
      · have hk := h.reg r m x hm hxm
        have hne : sb.key ≠ x.key := by intro e; rw [e, hk] at hfresh; cases hfresh
        simp only [Dict.get?_set_ne _ _ hne, hk]
      · simp
    · intro k x hk
      simp only [Dict.get?_set] at hk
      split at hk
      · rename_i he
        simp only [Option.some.injEq] at hk; subst hk
        obtain ⟨m', hm'⟩ := hsp.2.2.2
        exact ⟨he, m', hm', ((hsp.2.1 _ m' hm').subs _).2 (Or.inr ⟨rfl, rfl⟩)⟩
      · obtain ⟨hk', m, hm, hx⟩ := h.keys k x hk
        obtain ⟨m', hm'⟩ := hsp.2.2.1 _ m hm
        exact ⟨hk', m', hm', ((hsp.2.1 _ m' hm').subs _).2 (Or.inl ⟨m, hm, hx⟩)⟩
    · exact Dict.nodup_set h.nodup _ _
    · exact h.idle

theorem subscribe_inv {D q s} (h : Inv D q s) (hd : NoDict s.cur q) (sb : Sub)
    (hfresh : Dict.get? s.keys sb.key = none) : Inv D q (s.step (.subscribe sb)) := by
  have hst := subscribe_struct h.st sb hfresh
  by_cases hc : s.count = 0
  case neg => simp only [State.step, hc, if_false]; exact h
  case pos =>
    have hsp := subscribe_spec s.cur sb sb.path [] s.root
    refine ⟨hst, ?_, ?_, ?_⟩
    · simp only [State.step, hc, if_true]
      exact ⟨h.bl.wf, h.bl.dict, h.bl.pend, h.bl.rootModel⟩
    · simp only [State.step, hc, if_true]
      constructor
      · intro r m' hr hm'
        left
        have hf := hsp.2.1 r m' hm'
        by_cases hrp : r <+: sb.path
        · rw [hf.data hrp]
          exact nodeData_good h hd hc r hr
        · have := hf.old hrp
          rcases h.fr.node r m' hr this with h1 | h1
          · exact h1
          · rw [h.st.idle hc] at h1; simp [lastCov] at h1
      · exact h.fr.pend
    · have hflush : s.flushed = s.cur := by
        funext x
        have := h.bl.pend x
        rw [h.st.idle hc] at this; simpa [lastCov] using this
      constructor
      · intro m' x hm' hx
        simp only [State.step, hc, if_true] at hm' ⊢
        have hf := hsp.2.1 q m' hm'
        rw [hsp.1, received_append, received_single]
        rcases (hf.dels x).1 hx with ⟨m, hm, hxm⟩ | ⟨hq, rfl, hdl⟩
        · have hne : sb ≠ x := by
            rintro rfl
            have := h.st.reg q m sb hm (Or.inr hxm); rw [hfresh] at this; cases this
          simp only [hne, if_false, List.append_nil]
          exact h.cl.delta m x hm hxm
        · simp only [if_true, firstMsg, hdl, replay_append, List.foldl_cons, List.foldl_nil, hold,
            applyStanzas, setAt_nil, List.nil_append]
          rw [← hq, hflush]
          exact (nodeData_good h hd hc q (List.prefix_refl q)).content h.bl.wf
      · intro m' x hm' hx
        simp only [State.step, hc, if_true] at hm' ⊢
        have hf := hsp.2.1 q m' hm'
        rw [hsp.1, received_append, received_single]
        rcases (hf.ups x).1 hx with ⟨m, hm, hxm⟩ | ⟨hq, rfl, hdl⟩
        · have hne : sb ≠ x := by
            rintro rfl
            have := h.st.reg q m sb hm (Or.inl hxm); rw [hfresh] at this; cases this
          simp only [hne, if_false, List.append_nil]
          exact h.cl.update m x hm hxm
        · simp only [if_true, firstMsg, hdl, Bool.false_eq_true, if_false, List.nil_append]
          rw [lastUpdate_append_update, ← hq, hflush]
          exact congrArg some ((nodeData_good h hd hc q (List.prefix_refl q)).content h.bl.wf)

theorem unsubscribe_struct {s : State} (h : Struct s) (k : Nat) : Struct (s.step (.unsubscribe k)) := by
  simp only [State.step]
  split
  case isFalse => exact h
  case isTrue hc =>
    cases hk : Dict.get? s.keys k with
    | none => exact ⟨h.named, h.placed, h.reg, h.keys, h.nodup, h.idle⟩
    | some sb =>
      obtain ⟨hkey, m0, hm0, hx0⟩ := h.keys k sb hk
      obtain ⟨⟨root', rs⟩, hu⟩ := unsubscribe_some sb sb.path s.root m0 hm0 hx0
      simp only [hu]
      obtain ⟨hrs, hfd, hkeep⟩ := unsubscribe_spec sb sb.path s.root root' rs h.named hu
      constructor
      · intro r m' hm'
        obtain ⟨m, hm, _, _, _, h4⟩ := (hfd r m' hm').ex
        exact h4 (h.named r m hm)
      · intro r m' hm'
        obtain ⟨m, hm, _, h2, h3, _⟩ := (hfd r m' hm').ex
        have hp := h.placed r m hm
        rw [h2, h3]
        refine ⟨?_, ?_, ?_, ?_⟩
        · intro x hx; split at hx
          · split at hx
            · exact hp.1 x (List.mem_of_mem_erase hx)
            · exact hp.1 x hx
          · exact hp.1 x hx
        · intro x hx; split at hx
          · split at hx
            · exact hp.2.1 x hx
            · exact hp.2.1 x (List.mem_of_mem_erase hx)
          · exact hp.2.1 x hx
        · split
          · split
            · exact hp.2.2.1.erase _
            · exact hp.2.2.1
          · exact hp.2.2.1
        · split
          · split
            · exact hp.2.2.2
            · exact hp.2.2.2.erase _
          · exact hp.2.2.2
      · intro r m' x hm' hx
        obtain ⟨m, hm, _, h2, h3, _⟩ := (hfd r m' hm').ex
        have hp := h.placed r m hm
        have hxm : x ∈ m.updates ∨ x ∈ m.deltas := by
          rcases hx with hx | hx
          · left; rw [h2] at hx; split at hx
            · split at hx
              · exact List.mem_of_mem_erase hx
              · exact hx
            · exact hx
          · right; rw [h3] at hx; split at hx
            · split at hx
              · exact hx
              · exact List.mem_of_mem_erase hx
            · exact hx
        have hreg := h.reg r m x hm hxm
        have hne : x ≠ sb := by
          intro hxsb
          subst hxsb
          have hxr := sub_mem_placed (s := s) h (r := r) ‹s.root.find r = some _› hxm
          subst hxr
          simp only [if_true] at h2 h3
          rcases hx with hx | hx
          · rw [h2] at hx; split at hx
            · exact (List.Nodup.not_mem_erase hp.2.2.1) hx
            · rename_i hh; exact hh hx
          · rw [h3] at hx; split at hx
            · rename_i hh
              have e1 := (hp.1 x hh).2
              have e2 := (hp.2.1 x hx).2
              rw [e1] at e2; cases e2
            · exact (List.Nodup.not_mem_erase hp.2.2.2) hx
        have hkne : k ≠ x.key := by
          rintro rfl; rw [hk] at hreg; cases hreg; exact hne rfl
        show Dict.get? (Dict.erase s.keys k) x.key = some x
        rw [Dict.get?_erase_ne _ hkne]; exact hreg
      · intro k2 x hk2
        have hk2' : Dict.get? (Dict.erase s.keys k) k2 = some x := hk2
        rw [Dict.get?_erase h.nodup] at hk2'
        split at hk2'
        · cases hk2'
        · rename_i hne
          obtain ⟨hkx, m, hm, hx⟩ := h.keys k2 x hk2'
          have hxs : x ≠ sb := by rintro rfl; exact hne (hkey.symm.trans hkx)
          obtain ⟨m', hm'⟩ := hkeep _ m x hm hxs hx
          refine ⟨hkx, m', hm', ?_⟩
          obtain ⟨m2, hm2, _, h2, h3, _⟩ := (hfd _ m' hm').ex
          rw [hm] at hm2; cases hm2
          rcases hx with hx | hx
          · left; rw [h2]; split
            · split
              · exact (List.mem_erase_of_ne hxs).2 hx
              · exact hx
            · exact hx
          · right; rw [h3]; split
            · split
              · exact hx
              · exact (List.mem_erase_of_ne hxs).2 hx
            · exact hx
      · exact Dict.nodup_erase h.nodup k
      · exact h.idle

theorem unsubscribe_inv {D q s} (h : Inv D q s) (k : Nat) : Inv D q (s.step (.unsubscribe k)) := by
  have hst := unsubscribe_struct h.st k
  by_cases hc : s.count = 0
  case neg => simp only [State.step, hc, if_false]; exact h
  case pos =>
    cases hk : Dict.get? s.keys k with
    | none =>
      simp only [State.step, hc, if_true, hk] at hst ⊢
      exact ⟨hst, ⟨h.bl.wf, h.bl.dict, h.bl.pend, h.bl.rootModel⟩, ⟨h.fr.node, h.fr.pend⟩,
        ⟨h.cl.delta, h.cl.update⟩⟩
    | some sb =>
      obtain ⟨hkey, m, hm, hx⟩ := h.st.keys k sb hk
      obtain ⟨⟨root', rs⟩, hu⟩ := unsubscribe_some sb sb.path s.root m hm hx
      obtain ⟨hrs, hfd, hkeep⟩ := unsubscribe_spec sb sb.path s.root root' rs h.st.named hu
      have hreg := hst.reg
      have herase : ∀ r m' x, root'.find r = some m' → (x ∈ m'.updates ∨ x ∈ m'.deltas) → x ≠ sb := by
        intro r m' x hm' hx
        have hreg : Dict.get? (Dict.erase s.keys k) x.key = some x := by
          have := hst.reg r m' x
          simp only [State.step, hc, if_true, hk, hu] at this
          exact this hm' hx
        rintro rfl
        rw [Dict.get?_erase h.st.nodup, hkey] at hreg
        simp at hreg
      simp only [State.step, hc, if_true, hk, hu] at hst ⊢
      refine ⟨hst, ⟨h.bl.wf, h.bl.dict, h.bl.pend, h.bl.rootModel⟩, ⟨?_, h.fr.pend⟩, ?_⟩
      · intro r m' hr hm'
        obtain ⟨m, hm, h1, _⟩ := (hfd r m' hm').ex
        rw [h1]; exact h.fr.node r m hr hm
      · have hmem : ∀ m' x, root'.find q = some m' →
            ∃ m, s.root.find q = some m ∧ (x ∈ m'.updates → x ∈ m.updates) ∧ (x ∈ m'.deltas → x ∈ m.deltas) := by
          intro m' x hm'
          obtain ⟨m, hm, _, h2, h3, _⟩ := (hfd q m' hm').ex
          refine ⟨m, hm, ?_, ?_⟩
          · intro hx; rw [h2] at hx; split at hx
            · split at hx
              · exact List.mem_of_mem_erase hx
              · exact hx
            · exact hx
          · intro hx; rw [h3] at hx; split at hx
            · split at hx
              · exact hx
              · exact List.mem_of_mem_erase hx
            · exact hx
        constructor
        · intro m' x hm' hx
          have hne := herase q m' x hm' (Or.inr hx)
          obtain ⟨m, hm, _, hd⟩ := hmem m' x hm'
          rw [received_append, hrs, received_single, if_neg (Ne.symm hne), List.append_nil]
          exact h.cl.delta m x hm (hd hx)
        · intro m' x hm' hx
          have hne := herase q m' x hm' (Or.inl hx)
          obtain ⟨m, hm, hu', _⟩ := hmem m' x hm'
          rw [received_append, hrs, received_single, if_neg (Ne.symm hne), List.append_nil]
          exact h.cl.update m x hm (hu' hx)

/-! #### all operations -/

/-- A subscription id is not used again while it is live. -/
def FreshKey (s : State) : Op → Prop
  | .subscribe sb => Dict.get? s.keys sb.key = none
  | _ => True

theorem count_inv {D q s} (h : Inv D q s) (n : Nat) (hn : n ≠ 0) : Inv D q { s with count := n } :=
  ⟨⟨h.st.named, h.st.placed, h.st.reg, h.st.keys, h.st.nodup, fun h => absurd h hn⟩,
   ⟨h.bl.wf, h.bl.dict, h.bl.pend, h.bl.rootModel⟩, ⟨h.fr.node, h.fr.pend⟩, ⟨h.cl.delta, h.cl.update⟩⟩

theorem step_inv {D q s} (h : Inv D q s) (hq : ∀ x a, (x ++ [a]) <+: q → ¬ D x) (op : Op) (hok : op.OK D)
    (hnp : op.NoPartialTable q) (hfresh : FreshKey s op) : Inv D q (s.step op) := by
  have hd : NoDict s.cur q := fun x a hx hdict => hq x a hx (h.bl.dict x hdict)
  cases op with
  | enter => exact count_inv h _ (by omega)
  | exit =>
    match hc : s.count with
    | 0 => simp only [State.step, hc]; exact h
    | 1 => exact flush_inv h hd hc
    | n + 2 => simp only [State.step, hc]; exact count_inv h _ (by omega)
  | assign p v => exact assign_inv h p v hok
  | delete p => exact delete_inv h p
  | tableSet p cols changed v => exact tableSet_inv h p cols changed v hok hnp
  | subscribe sb => exact subscribe_inv h hd sb hfresh
  | unsubscribe k => exact unsubscribe_inv h k

/-- Ids are not reused while live, along a run. -/
def FreshKeys : State → List Op → Prop
  | _, [] => True
  | s, op :: ops => FreshKey s op ∧ FreshKeys (s.step op) ops

theorem init_inv (D : Path → Prop) (q : Path) (block : Tree) (hw : TreeWF block)
    (hd : ∀ x, block x = some .dict → D x) (hr : block [] = some .model) : Inv D q (State.init block) := by
  have hf : ∀ r m, (State.init block).root.find r = some m → r = [] ∧ m = .mk [] [] (some .live) [] := by
    intro r m hm
    cases r with
    | nil => simp [State.init] at hm; exact ⟨rfl, hm.symm⟩
    | cons a r => simp [State.init, Node.find_cons, Node.children] at hm
  refine ⟨⟨?_, ?_, ?_, ?_, ?_, fun _ => rfl⟩, ⟨hw, hd, fun x => by simp [State.init, lastCov], hr⟩, ⟨?_, ?_⟩, ⟨?_, ?_⟩⟩
  · intro r m hm; obtain ⟨_, rfl⟩ := hf r m hm; simp [Node.children, Dict.keys]
  · intro r m hm; obtain ⟨_, rfl⟩ := hf r m hm; simp [Node.updates, Node.deltas]
  · intro r m x hm hx; obtain ⟨_, rfl⟩ := hf r m hm; simp [Node.updates, Node.deltas] at hx
  · intro k x hk; simp [State.init] at hk
  · simp [State.init, Dict.keys]
  · intro r m _ hm; obtain ⟨rfl, rfl⟩ := hf r m hm
    exact Or.inl (Or.inl ⟨rfl, by simp [State.init, hr]⟩)
  · intro r c _ hc; simp [State.init, lastCov] at hc
  · intro m x hm hx; obtain ⟨_, rfl⟩ := hf q m hm; simp [Node.deltas] at hx
  · intro m x hm hx; obtain ⟨_, rfl⟩ := hf q m hm; simp [Node.updates] at hx

theorem run_inv {D q} (hq : ∀ x a, (x ++ [a]) <+: q → ¬ D x) (ops : List Op) : ∀ s, Inv D q s →
    (∀ op ∈ ops, op.OK D ∧ op.NoPartialTable q) → FreshKeys s ops → Inv D q (s.run ops) := by
  induction ops with
  | nil => intro s h _ _; exact h
  | cons op ops ih =>
    intro s h hops hfr
    have := hops op (List.mem_cons_self ..)
    exact ih _ (step_inv h hq op this.1 this.2 hfr.1) (fun o ho => hops o (List.mem_cons_of_mem _ ho)) hfr.2

end Verif.Notifier
