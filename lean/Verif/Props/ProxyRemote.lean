import Verif.Props.Proxy
import Verif.Props.Notifier
/-!
C43, from end to end: a block, its notifier, the subscription that a proxy makes, and the proxy.
-/
namespace Verif.Props.ProxyRemote
open Verif Verif.Notifier Verif.Notifier.Spec Verif.Props.Notifier
open Verif.Proxy (Enc handleDeltas)
open Verif.Spec.Proxy Verif.Props.Proxy

/-- The changes in a stanza of a Delta: websocketclientcomms.py 191-204. `names` are the fields of the block, in order -/
def toChange (names : List String) (st : Path × Tree) : Proxy.Change :=
  if st.1 = [] then .whole names st.2 else if st.2 [] = none then .delete st.1 else .set st.1 st.2

/-- The Deltas of a subscription -/
def deltasOf (names : List String) (msgs : List Msg) : List (List Proxy.Change) :=
  msgs.filterMap fun
    | .delta st => some (st.map (toChange names))
    | _ => none

/-- The tree has a Model at each of the paths `M`, and something at each of the paths `E` -/
def Shape (M E : Path → Prop) (t : Tree) : Prop := (∀ q, M q → t q = some .model) ∧ ∀ q, E q → t q ≠ none

/-- A path below a field, into Models, to something that is there -/
def Into (M E : Path → Prop) (p : Path) : Prop := 2 ≤ p.length ∧ (∀ q k r, p = q ++ k :: r → M q) ∧ E p

/-- What the owner of the block does while the proxy is subscribed: it does not add or remove fields or replace single
columns, and what it puts somewhere has the shape of what was there. The subscription is not ended -/
def Keeps (M E : Path → Prop) (x : Sub) : Op → Prop
  | .assign p v => Into M E p ∧ Shape (fun q => M (p ++ q)) (fun q => E (p ++ q)) v
  | .delete _ => False
  | .tableSet p cols changed _ => Into M E p ∧ changed.length = cols.length ∧ (∀ q, ¬ M (p ++ q)) ∧ ∀ q, E (p ++ q) → q = []
  | .unsubscribe k => k ≠ x.key
  | _ => True

theorem shape_setAt {M E : Path → Prop} {t v : Tree} {p : Path} (h : Shape M E t)
    (hv : Shape (fun q => M (p ++ q)) (fun q => E (p ++ q)) v) : Shape M E (t.setAt p v) := by
  constructor
  · intro q hq
    by_cases hr : ∃ r, q = p ++ r
    · obtain ⟨r, rfl⟩ := hr
      rw [setAt_below]; exact hv.1 r hq
    · rw [setAt_other _ _ _ _ (fun r e => hr ⟨r, e⟩)]; exact h.1 q hq
  · intro q hq
    by_cases hr : ∃ r, q = p ++ r
    · obtain ⟨r, rfl⟩ := hr
      rw [setAt_below]; exact hv.2 r hq
    · rw [setAt_other _ _ _ _ (fun r e => hr ⟨r, e⟩)]; exact h.2 q hq

theorem shape_sub {M E : Path → Prop} {t : Tree} (h : Shape M E t) (p : Path) :
    Shape (fun q => M (p ++ q)) (fun q => E (p ++ q)) (t.sub p) :=
  ⟨fun q hq => h.1 _ hq, fun q hq => h.2 _ hq⟩

/-- A stanza of a change below the fields -/
def GoodStanza (M E : Path → Prop) (st : Path × Tree) : Prop :=
  Into M E st.1 ∧ Shape (fun q => M (st.1 ++ q)) (fun q => E (st.1 ++ q)) st.2

def GoodPending (M E : Path → Prop) (c : Notifier.Change) : Prop :=
  Into M E c.1 ∧ (c.2 = some .live ∨ ∃ v, c.2 = some (.snap v) ∧ Shape (fun q => M (c.1 ++ q)) (fun q => E (c.1 ++ q)) v)

def GoodMsg (M E : Path → Prop) (m : Msg) : Prop := ∃ st, m = .delta st ∧ ∀ s ∈ st, GoodStanza M E s

theorem good_all (M E : Path → Prop) (names : List String) (sts : List (Path × Tree)) : ∀ t : Tree, Shape M E t →
    (∀ s ∈ sts, GoodStanza M E s) →
    AllBelow t (sts.map (toChange names)) ∧ remote t (sts.map (toChange names)) = applyStanzas t sts := by
  induction sts with
  | nil => intro t _ _; exact ⟨trivial, rfl⟩
  | cons s sts ih =>
    intro t ht h
    obtain ⟨⟨g1, g2, g3⟩, g4⟩ := h s (List.mem_cons_self ..)
    have hv : s.2 [] ≠ none := g4.2 [] (by simpa using g3)
    have hne : s.1 ≠ [] := by intro e; rw [e] at g1; simp at g1
    have e : toChange names s = .set s.1 s.2 := by simp [toChange, hne, hv]
    obtain ⟨i1, i2⟩ := ih (t.setAt s.1 s.2) (shape_setAt ht g4) (fun x hx => h x (List.mem_cons_of_mem _ hx))
    refine ⟨?_, ?_⟩
    · rw [List.map_cons, e]
      exact ⟨⟨g1, fun q k r hq => ht.1 q (g2 q k r hq), ht.2 _ g3, hv⟩, i1⟩
    · rw [List.map_cons, e]
      exact i2

theorem good_msgs (M E : Path → Prop) (names : List String) (msgs : List Msg) : ∀ t : Tree, Shape M E t →
    (∀ m ∈ msgs, GoodMsg M E m) →
    AllBelow t (deltasOf names msgs).flatten ∧ remote t (deltasOf names msgs).flatten = msgs.foldl hold t := by
  have app : ∀ (a c : List Proxy.Change) (t : Tree), AllBelow t a → AllBelow (remote t a) c → AllBelow t (a ++ c) := by
    intro a
    induction a with
    | nil => intro c t _ h; exact h
    | cons x a ih =>
      intro c t h g
      match x, h with
      | .set p v, h => exact ⟨h.1, ih c _ h.2 g⟩
  induction msgs with
  | nil => intro t _ _; exact ⟨trivial, rfl⟩
  | cons m msgs ih =>
    intro t ht h
    obtain ⟨st, rfl, hst⟩ := h m (List.mem_cons_self ..)
    obtain ⟨g1, g2⟩ := good_all M E names st t ht hst
    have ht' : Shape M E (applyStanzas t st) := by
      clear h g1 g2 ih
      induction st generalizing t with
      | nil => exact ht
      | cons s st ih =>
        exact ih (t.setAt s.1 s.2) (shape_setAt ht (hst s (List.mem_cons_self ..)).2) (fun x hx => hst x (List.mem_cons_of_mem _ hx))
    obtain ⟨i1, i2⟩ := ih _ ht' (fun x hx => h x (List.mem_cons_of_mem _ hx))
    have e : (deltasOf names (.delta st :: msgs)).flatten = st.map (toChange names) ++ (deltasOf names msgs).flatten := by
      simp [deltasOf]
    rw [e]
    refine ⟨app _ _ _ g1 (by rw [g2]; exact i1), ?_⟩
    rw [remote, List.foldl_append]
    show remote (remote t (st.map (toChange names))) (deltasOf names msgs).flatten = _
    rw [g2, i2]
    rfl

/-- While the proxy is subscribed -/
structure Sync (M E : Path → Prop) (x : Sub) (t0 : Tree) (s : State) : Prop where
  st : Struct s
  live : Live s x
  shape : Shape M E s.cur
  pending : ∀ c ∈ s.pending, GoodPending M E c
  sent : ∃ rest, received s.sent x = .delta [([], t0)] :: rest ∧ ∀ m ∈ rest, GoodMsg M E m

theorem good_detach {M E : Path → Prop} {cur : Tree} (hs : Shape M E cur) (p : Path) {c : Notifier.Change}
    (h : GoodPending M E c) : GoodPending M E (detachChange cur p c) := by
  refine ⟨h.1, ?_⟩
  rcases h.2 with h2 | ⟨v, h2, h3⟩
  · simp only [detachChange, h2, detachData]
    split
    · exact Or.inr ⟨_, rfl, shape_sub hs _⟩
    · exact Or.inl rfl
  · simp only [detachChange, h2, detachData]
    exact Or.inr ⟨v, rfl, h3⟩

theorem good_put {M E : Path → Prop} {x : Sub} {t0 : Tree} {s : State} (h : Sync M E x t0 s) {s' : State} (hst : Struct s')
    (p : Path) (v : Tree) (hp : Into M E p) (hv : Shape (fun q => M (p ++ q)) (fun q => E (p ++ q)) v)
    (hs' : s' = s.put p v [(p, some .live)]) : Sync M E x t0 s' := by
  subst hs'
  refine ⟨hst, h.live, shape_setAt h.shape hv, ?_, h.sent⟩
  intro c hc
  simp only [State.put, List.mem_append, List.mem_map, List.mem_singleton] at hc
  rcases hc with ⟨c', hc', rfl⟩ | rfl
  · exact good_detach h.shape p (h.pending c' hc')
  · exact ⟨hp, Or.inl rfl⟩

theorem sync_step {M E : Path → Prop} {x : Sub} {t0 : Tree} {s : State} (hx : x.path = []) (hd : x.delta = true)
    (h : Sync M E x t0 s) (op : Op) (hf : FreshKey s op) (hk : Keeps M E x op) : Sync M E x t0 (s.step op) := by
  have hst := struct_step h.st op hf
  cases op with
  | enter => exact ⟨hst, h.live, h.shape, h.pending, h.sent⟩
  | exit =>
    match hc : s.count with
    | 0 => simp only [State.step, hc] at hst ⊢; exact h
    | n + 2 => simp only [State.step, hc] at hst ⊢; exact ⟨hst, h.live, h.shape, h.pending, h.sent⟩
    | 1 =>
      simp only [State.step, hc] at hst ⊢
      obtain ⟨m, hm, hmx⟩ := (live_iff_registered h.st x).1 h.live
      have hr := flush_received h.st hm hmx
      rw [hx, hd] at hr
      simp only [ne_eq, not_true_eq_false, false_and, if_false, if_true, rel] at hr
      refine ⟨hst, h.live, h.shape, by simp, ?_⟩
      obtain ⟨rest, e, g⟩ := h.sent
      refine ⟨rest ++ [.delta (s.pending.map (freezeChange s.cur []))], ?_, ?_⟩
      · rw [received_append, e, hr]; rfl
      · intro m' hm'
        rcases List.mem_append.1 hm' with hm' | hm'
        · exact g m' hm'
        · rw [List.mem_singleton.1 hm']
          refine ⟨_, rfl, ?_⟩
          intro st hst'
          obtain ⟨c, hc', rfl⟩ := List.mem_map.1 hst'
          obtain ⟨g1, g2⟩ := h.pending c hc'
          refine ⟨g1, ?_⟩
          simp only [freezeChange, List.nil_append]
          rcases g2 with g2 | ⟨v, g2, g3⟩
          · rw [g2]; exact shape_sub h.shape _
          · rw [g2]; exact g3
  | assign p v =>
    obtain ⟨k1, k2⟩ := hk
    have hv : v [] ≠ none := k2.2 [] (by simpa using k1.2.2)
    simp only [State.step] at hst ⊢
    split
    · rename_i hh
      rw [if_pos hh] at hst
      rw [if_neg hv] at hst
      exact good_put h hst p v k1 k2 rfl
    · exact h
  | delete p => exact hk.elim
  | tableSet p cols changed v =>
    obtain ⟨k1, k2, k3, k4⟩ := hk
    simp only [State.step] at hst ⊢
    split
    · rename_i hh
      rw [if_pos hh] at hst
      rw [if_pos k2] at hst
      refine good_put h hst p _ k1 ⟨fun q hq => absurd hq (k3 q), fun q hq => ?_⟩ rfl
      rw [k4 q hq]
      simp [mergeTable]
    · exact h
  | subscribe sb =>
    simp only [FreshKey] at hf
    have hne : sb ≠ x := by
      intro e; subst e
      rw [h.live] at hf; cases hf
    simp only [State.step] at hst ⊢
    split
    · rename_i hc
      rw [if_pos hc] at hst
      refine ⟨hst, ?_, h.shape, h.pending, ?_⟩
      · have hl := h.live
        unfold Live at hl ⊢
        simp only [Dict.get?_set]
        split
        · rename_i e
          rw [e, hl] at hf; cases hf
        · exact hl
      · obtain ⟨rest, e, g⟩ := h.sent
        refine ⟨rest, ?_, g⟩
        rw [(subscribe_spec s.cur sb sb.path [] s.root).1, received_append, received_single, if_neg hne, List.append_nil, e]
    · exact h
  | unsubscribe k =>
    simp only [Keeps] at hk
    have hl := h.live
    unfold Live at hl
    simp only [State.step] at hst ⊢
    split
    · rename_i hc
      rw [if_pos hc] at hst
      cases hkk : Dict.get? s.keys k with
      | none =>
        rw [hkk] at hst
        exact ⟨hst, h.live, h.shape, h.pending, h.sent⟩
      | some sb =>
        rw [hkk] at hst
        obtain ⟨hkey, m, hm, hx'⟩ := h.st.keys k sb hkk
        obtain ⟨⟨root', rs⟩, hu⟩ := unsubscribe_some sb sb.path s.root m hm hx'
        obtain ⟨hrs, _, _⟩ := unsubscribe_spec sb sb.path s.root root' rs h.st.named hu
        have hne : sb ≠ x := by rintro rfl; exact hk hkey.symm
        simp only [hu] at hst ⊢
        refine ⟨hst, ?_, h.shape, h.pending, ?_⟩
        · unfold Live
          simp only
          rw [Dict.get?_erase h.st.nodup, if_neg hk]
          exact hl
        · obtain ⟨rest, e, g⟩ := h.sent
          refine ⟨rest, ?_, g⟩
          simp only
          rw [hrs, received_append, received_single, if_neg hne, List.append_nil, e]
    · exact h

theorem sync_run {M E : Path → Prop} {x : Sub} {t0 : Tree} (hx : x.path = []) (hd : x.delta = true) (ops : List Op) : ∀ s : State,
    Sync M E x t0 s → FreshKeys s ops → (∀ op ∈ ops, Keeps M E x op) → Sync M E x t0 (s.run ops) := by
  induction ops with
  | nil => intro s h _ _; exact h
  | cons op ops ih =>
    intro s h hf hk
    exact ih _ (sync_step hx hd h op hf.1 (hk op (List.mem_cons_self ..))) hf.2 (fun o ho => hk o (List.mem_cons_of_mem _ ho))

theorem freshKeys_append (a b : List Op) : ∀ s : State, FreshKeys s (a ++ b) → FreshKeys s a ∧ FreshKeys (s.run a) b := by
  induction a with
  | nil => intro s h; exact ⟨trivial, h⟩
  | cons op a ih =>
    intro s h
    obtain ⟨g1, g2⟩ := ih _ h.2
    exact ⟨⟨h.1, g1⟩, g2⟩

theorem unseen_run {x : Sub} (ops : List Op) : ∀ s : State, Struct s → FreshKeys s ops → Op.subscribe x ∉ ops → ¬ Live s x →
    received s.sent x = [] → received (s.run ops).sent x = [] := by
  induction ops with
  | nil => intro s _ _ _ _ h; exact h
  | cons op ops ih =>
    intro s hst hf hn hl hr
    have hne : op ≠ .subscribe x := fun e => hn (by rw [e]; exact List.mem_cons_self ..)
    exact ih _ (struct_step hst op hf.1) hf.2 (fun h => hn (List.mem_cons_of_mem _ h)) (not_live_step hst hl op hne)
      (by rw [silent_step hst hl op hne]; exact hr)

theorem legal_prefix {D block a b} (h : Legal D block (a ++ b)) : Legal D block a :=
  ⟨h.wf, h.root, h.dict, fun op ho => h.assigned op (List.mem_append_left _ ho), (freshKeys_append a b _ h.ids).1⟩

theorem plain_prefix {D a b q} (h : Plain D (a ++ b) q) : Plain D a q :=
  ⟨h.noDict, fun op ho => h.noTable op (List.mem_append_left _ ho)⟩

/-- C43, from end to end, partial. A block is changed in any way, then a proxy subscribes to it, then it is changed
further, with values of the shape of what was there; whenever no changes are held back, the proxy that has handled all
Deltas equals it.
Missing: the same as in `mirror_partial`. -/
theorem proxy_follows_partial {D block before later} {x : Sub} (hx : x.path = []) (hd : x.delta = true)
    (hl : Legal D block (before ++ .subscribe x :: later)) (hp : Plain D (before ++ .subscribe x :: later) [])
    (hq : ((State.init block).run before).count = 0) (hnew : Op.subscribe x ∉ before)
    (M E : Path → Prop) (hs : Shape M E ((State.init block).run before).cur) (hk : ∀ op ∈ later, Keeps M E x op)
    (hquiet : ((State.init block).run (before ++ .subscribe x :: later)).count = 0)
    (enc : Enc) {h0 : Tree} {old : List String} {b : Proxy.Block} (hb : Base h0 old b) (names : List String)
    (hw : Whole enc b names ((State.init block).run before).cur) :
    let s := (State.init block).run (before ++ .subscribe x :: later)
    (handleDeltas enc b (deltasOf names (received s.sent x))).tree = s.cur := by
  intro s
  have happ : ∀ (a c : List Op) (s : State), s.run (a ++ c) = (s.run a).run c := by
    intro a c s; simp [State.run]
  obtain ⟨f1, f2⟩ := freshKeys_append before _ _ hl.ids
  obtain ⟨f2, f3⟩ := f2
  have hst0 := struct_run before _ (struct_init block) f1
  have hr0 := unseen_run (x := x) before _ (struct_init block) f1 hnew (by simp [Live, State.init]) rfl
  -- the subscription
  have hst1 := struct_step hst0 (.subscribe x) f2
  have hrun1 : (State.init block).run (before ++ [.subscribe x]) = ((State.init block).run before).step (.subscribe x) := by
    rw [happ]; rfl
  have hl1 : Legal D block (before ++ [.subscribe x]) := legal_prefix (b := later) (by simpa using hl)
  have hp1 : Plain D (before ++ [.subscribe x]) x.path := by
    rw [hx]; exact plain_prefix (b := later) (by simpa using hp)
  generalize hs0 : (State.init block).run before = s0 at *
  have hlive : Live (s0.step (.subscribe x)) x := by
    unfold Live
    simp only [State.step, hq, if_true]
    rw [Dict.get?_set_self]
  have hc1 : (s0.step (.subscribe x)).count = 0 := by simp only [State.step, hq, if_true]
  have hcur1 : (s0.step (.subscribe x)).cur = s0.cur := by simp only [State.step, hq, if_true]
  have hpend1 : (s0.step (.subscribe x)).pending = [] := hst1.idle hc1
  obtain ⟨X, hX⟩ : ∃ X, received (s0.step (.subscribe x)).sent x = [.delta [([], X)]] := by
    refine ⟨content s0.cur ([] ++ x.path) (nodeData s0.cur [] s0.root x.path), ?_⟩
    simp only [State.step, hq, if_true]
    rw [(subscribe_spec s0.cur x x.path [] s0.root).1, received_append, received_single, if_pos rfl, hr0]
    simp [firstMsg, hd]
  have hXe : X = s0.cur := by
    have := delta_replay_partial hl1 (x := x) hp1 (by rw [hrun1]; exact hlive) hd (by rw [hrun1]; exact hc1)
    rw [hrun1, hX, hcur1, hx] at this
    have e : replay [.delta [([], X)]] = X := by
      funext q; simp [replay, hold, applyStanzas, Tree.setAt, stripPrefix]
    rw [e] at this
    rw [this]; rfl
  subst hXe
  have hsync : Sync M E x s0.cur (s0.step (.subscribe x)) :=
    ⟨hst1, hlive, by rw [hcur1]; exact hs, by rw [hpend1]; simp, [], hX, by simp⟩
  have hfin := sync_run hx hd later _ hsync f3 hk
  have hse : s = (s0.step (.subscribe x)).run later := by
    simp only [s]; rw [happ, hs0]; rfl
  rw [← hse] at hfin
  obtain ⟨rest, e, g⟩ := hfin.sent
  obtain ⟨g1, g2⟩ := good_msgs M E names rest s0.cur hs g
  have hrep := delta_replay_partial hl (x := x) (by rw [hx]; exact hp) hfin.live hd hquiet
  rw [show (State.init block).run (before ++ .subscribe x :: later) = s from rfl, e, hx] at hrep
  have hrep2 : rest.foldl hold s0.cur = s.cur := by
    have e2 : hold Tree.absent (.delta [([], s0.cur)]) = s0.cur := by
      funext q; simp [hold, applyStanzas, Tree.setAt, stripPrefix]
    simp only [replay, List.foldl_cons, e2] at hrep
    rw [hrep]; rfl
  rw [e]
  have e3 : deltasOf names (.delta [([], s0.cur)] :: rest) = [.whole names s0.cur] :: deltasOf names rest := by
    simp [deltasOf, toChange]
  rw [e3, mirror_partial enc hb names s0.cur hw _ g1, g2, hrep2]

/-! ### a block and its proxy -/

/-- The tree with these entries -/
def tree (l : List (Path × Kind)) : Tree := fun p => (l.find? (fun e => e.1 == p)).map (·.2)

theorem tree_mem {l : List (Path × Kind)} {p : Path} (h : tree l p ≠ none) : p ∈ l.map (·.1) := by
  unfold tree at h
  cases hf : l.find? (fun e => e.1 == p) with
  | none => rw [hf] at h; exact absurd rfl h
  | some e =>
    have h1 := List.mem_of_find?_eq_some hf
    have h2 := List.find?_some hf
    exact List.mem_map.2 ⟨e, h1, eq_of_beq h2⟩

def num (n : Int) : Tree := tree [([], .leaf n)]

/-- Some code for a list of strings -/
def code (l : List String) : Int := l.foldl (fun n s => 100 * n + s.length) 0

def attr (f : String) (v : Kind) (rest : List (Path × Kind)) : List (Path × Kind) :=
  [([f], .model), ([f, "value"], v), ([f, "alarm"], .leaf 0), ([f, "timeStamp"], .leaf 0), ([f, "meta"], .model),
   ([f, "meta", "label"], .leaf 1)] ++ rest

def settings (label : Int) (names : List String) : List (Path × Kind) :=
  [([], .model), (["meta"], .model), (["meta", "description"], .leaf 1), (["meta", "tags"], .leaf 2), (["meta", "writeable"], .leaf 1),
   (["meta", "label"], .leaf label), (["meta", "fields"], .leaf (code (Proxy.listed names)))]

/-- A block with a number `a` and a table `t` -/
def there : Tree := tree (settings 7 ["meta", "health", "a", "t"] ++ attr "health" (.leaf 3) [] ++ attr "a" (.leaf 4) [] ++
  attr "t" .table [(["t", "value", "x"], .leaf 5), (["t", "value", "y"], .leaf 6)])

/-- The proxy before it is synced -/
def here : Proxy.Block := ⟨["meta", "health"], tree (settings 8 ["meta", "health"] ++ attr "health" (.leaf 9) [])⟩

def me : Sub := ⟨1, [], true⟩

/-- The proxy after these operations on the block, from the subscription on, and the block -/
def follow (ops : List Op) : Tree × Tree :=
  let s := (State.init there).run (.subscribe me :: ops)
  ((handleDeltas code here (deltasOf ["meta", "health", "a", "t"] (received s.sent me))).tree, s.cur)

/-- The other fields of C43: one added later never appears in the proxy, and what is changed along with it is lost -/
theorem added_field_missing :
    let r := follow [.enter, .assign ["b"] (tree [([], .model), (["value"], .leaf 1)]),
      .assign ["meta", "fields"] (num (code ["health", "a", "t", "b"])), .assign ["a", "value"] (num 5), .exit]
    r.2 ["b", "value"] = some (.leaf 1) ∧ r.1 ["b", "value"] = none ∧ r.2 ["a", "value"] = some (.leaf 5) ∧
    r.1 ["a", "value"] = some (.leaf 4) := by
  decide +kernel

/-- One removed stays -/
theorem removed_field_stays :
    let r := follow [.enter, .assign ["meta", "fields"] (num (code ["health", "t"])), .delete ["a"], .exit]
    r.2 ["a"] = none ∧ r.1 ["a"] = some .model ∧ r.1 ["meta", "fields"] = r.2 ["meta", "fields"] := by
  decide +kernel

/-- A table of which one column is replaced keeps the old one, and what comes after it in the same message is lost:
alarm and time of the table -/
theorem column_lost :
    let r := follow [.enter, .tableSet ["t", "value"] ["x", "y"] ["x"] (tree [([], .table), (["x"], .leaf 50)]),
      .assign ["t", "alarm"] (num 2), .exit]
    r.2 ["t", "value", "x"] = some (.leaf 50) ∧ r.1 ["t", "value", "x"] = some (.leaf 5) ∧
    r.2 ["t", "alarm"] = some (.leaf 2) ∧ r.1 ["t", "alarm"] = some (.leaf 0) := by
  decide +kernel

theorem tree_wf {l : List (Path × Kind)}
    (h : ∀ p ∈ l.map (·.1), p = [] ∨ ∃ k, tree l p.dropLast = some k ∧ k.container = true) : TreeWF (tree l) := by
  intro x a hx
  rcases h _ (tree_mem hx) with e | ⟨k, h1, h2⟩
  · simp at e
  · simp only [List.dropLast_concat] at h1
    exact ⟨k, h1, h2⟩

theorem num_ok (D : Path → Prop) (p : Path) (n : Int) : (Op.assign p (num n)).OK D := by
  refine ⟨tree_wf (by simp), ?_⟩
  intro y hy
  have := tree_mem (l := [([], Kind.leaf n)]) (p := y) (by unfold num at hy; rw [hy]; simp)
  simp at this
  subst this
  simp [num, tree] at hy

/-- The value and the alarm of `a` are set at once, the table is replaced, somebody else subscribes in between -/
def later : List Op :=
  [.enter, .assign ["a", "value"] (num 44), .assign ["a", "alarm"] (num 1), .exit, .subscribe ⟨2, ["a"], false⟩, .enter,
   .tableSet ["t", "value"] ["x", "y"] ["x", "y"] (tree [([], .table), (["x"], .leaf 50), (["y"], .leaf 60)]), .exit, .unsubscribe 2]

def models (p : Path) : Prop := p = [] ∨ p = ["a"] ∨ p = ["t"]
def parts (p : Path) : Prop := p = ["a", "value"] ∨ p = ["a", "alarm"] ∨ p = ["t", "value"]

/-- They meet the hypotheses of `proxy_follows_partial` -/
theorem later_meets : Legal (fun _ => False) there ([] ++ .subscribe me :: later) ∧
    Plain (fun _ => False) ([] ++ .subscribe me :: later) [] ∧ Shape models parts ((State.init there).run []).cur ∧
    (∀ op ∈ later, Keeps models parts me op) ∧ Base (here.tree.sub ["health", "meta"]) [] here ∧
    Whole code here ["meta", "health", "a", "t"] ((State.init there).run []).cur := by
  have hD : ∀ q, there q ≠ some .dict := by
    intro q hq
    have := tree_mem (p := q) (by show there q ≠ none; rw [hq]; simp)
    revert hq
    revert q
    have key : ∀ q ∈ (settings 7 ["meta", "health", "a", "t"] ++ attr "health" (.leaf 3) [] ++ attr "a" (.leaf 4) [] ++
        attr "t" .table [(["t", "value", "x"], .leaf 5), (["t", "value", "y"], .leaf 6)]).map (·.1), there q ≠ some .dict := by
      decide +kernel
    exact fun q hm hq => key q hm hq
  have hlegal : Legal (fun _ => False) there ([] ++ .subscribe me :: later) := by
    refine ⟨tree_wf (by decide +kernel), by decide +kernel, fun x hx => hD x hx, ?_, ?_⟩
    · intro op hop
      simp only [later, List.nil_append, List.mem_cons, List.not_mem_nil, or_false] at hop
      rcases hop with rfl | rfl | rfl | rfl | rfl | rfl | rfl | rfl | rfl | rfl <;>
        first
          | trivial
          | exact num_ok _ _ _
          | skip
      refine ⟨tree_wf (by decide +kernel), ?_⟩
      intro y hy
      have := tree_mem (l := [([], Kind.table), (["x"], .leaf 50), (["y"], .leaf 60)]) (p := y) (by rw [hy]; simp)
      simp at this
      rcases this with rfl | rfl | rfl <;> revert hy <;> decide +kernel
    · simp only [FreshKeys, later, List.nil_append, FreshKey, and_true, true_and]
      decide +kernel
  have hplain : Plain (fun _ => False) ([] ++ .subscribe me :: later) [] := by
    refine ⟨fun x a _ h => h, ?_⟩
    intro op hop
    simp only [later, List.nil_append, List.mem_cons, List.not_mem_nil, or_false] at hop
    rcases hop with rfl | rfl | rfl | rfl | rfl | rfl | rfl | rfl | rfl | rfl <;>
      first
        | trivial
        | exact Or.inl rfl
  have hshape : Shape models parts ((State.init there).run []).cur := by
    refine ⟨?_, ?_⟩
    · rintro q (rfl | rfl | rfl) <;> decide +kernel
    · rintro q (rfl | rfl | rfl) <;> decide +kernel
  have hinto : ∀ f k, f = "a" ∨ f = "t" → parts [f, k] → Into models parts [f, k] := by
    intro f k hf hp
    refine ⟨by simp, ?_, hp⟩
    intro q k' r hq
    match q, hq with
    | [], _ => exact Or.inl rfl
    | [g], hq =>
      simp at hq
      rw [← hq.1]
      rcases hf with rfl | rfl
      · exact Or.inr (Or.inl rfl)
      · exact Or.inr (Or.inr rfl)
    | _ :: _ :: _ :: _, hq => simp at hq
    | [_, _], hq => simp at hq
  have hnum : ∀ k n, k = "value" ∨ k = "alarm" →
      Shape (fun q => models (["a", k] ++ q)) (fun q => parts (["a", k] ++ q)) (num n) := by
    intro k n hk
    refine ⟨?_, ?_⟩
    · intro q hq; simp [models] at hq
    · intro q hq
      simp only [parts, List.cons_append, List.nil_append, List.cons.injEq, true_and] at hq
      rcases hq with ⟨_, rfl⟩ | ⟨_, rfl⟩ | ⟨h, _⟩
      · simp [num, tree]
      · simp [num, tree]
      · simp at h
  have hkeeps : ∀ op ∈ later, Keeps models parts me op := by
    intro op hop
    simp only [later, List.mem_cons, List.not_mem_nil, or_false] at hop
    rcases hop with rfl | rfl | rfl | rfl | rfl | rfl | rfl | rfl | rfl
    · trivial
    · exact ⟨hinto _ _ (Or.inl rfl) (Or.inl rfl), hnum _ _ (Or.inl rfl)⟩
    · exact ⟨hinto _ _ (Or.inl rfl) (Or.inr (Or.inl rfl)), hnum _ _ (Or.inr rfl)⟩
    · trivial
    · trivial
    · trivial
    · refine ⟨hinto _ _ (Or.inr rfl) (Or.inr (Or.inr rfl)), rfl, ?_, ?_⟩
      · intro q hq; simp [models] at hq
      · intro q hq; simp [parts] at hq; exact hq
    · trivial
    · show (2 : Nat) ≠ me.key
      decide
  have hkeys : ∀ (l : List (Path × Kind)) (f : String) (ks : List String),
      (∀ p ∈ l.map (·.1), ∀ k r, p = f :: k :: r → k ∈ ks) → ∀ k r, tree l (f :: k :: r) ≠ none → k ∈ ks :=
    fun l f ks h k r hk => h _ (tree_mem hk) k r rfl
  have hall : ∀ (l : List (Path × Kind)) (f : String) (ks : List String),
      (l.all fun e => match e.1 with | g :: k :: _ => g != f || ks.contains k | _ => true) = true →
      ∀ p ∈ l.map (·.1), ∀ k r, p = f :: k :: r → k ∈ ks := by
    intro l f ks h p hp k r e
    obtain ⟨x, hx, rfl⟩ := List.mem_map.1 hp
    have := List.all_eq_true.1 h x hx
    rw [e] at this
    simpa using this
  have hbase : Base (here.tree.sub ["health", "meta"]) [] here := by
    refine ⟨rfl, by decide, by decide +kernel, ?_, by decide +kernel, by decide +kernel, fun r => rfl, ?_, ?_⟩
    · intro f r hf
      refine Classical.byContradiction fun hc => hf ?_
      have := tree_mem hc
      revert this
      have key : ∀ p ∈ (settings 8 ["meta", "health"] ++ attr "health" (.leaf 9) []).map (·.1), p = [] ∨ ∃ g ∈ here.names, p.head? = some g := by
        decide +kernel
      intro hm
      rcases key _ hm with e | ⟨g, hg, e⟩
      · cases e
      · simp at e; rw [e]; exact hg
    · exact hkeys _ _ _ (hall _ _ _ (by decide +kernel))
    · exact hkeys _ _ _ (hall _ _ _ (by decide +kernel))
  have hwhole : Whole code here ["meta", "health", "a", "t"] ((State.init there).run []).cur := by
    refine ⟨by decide +kernel, ⟨["a", "t"], rfl, by decide⟩, ?_, ⟨by decide +kernel, ?_⟩, ?_, ⟨by decide +kernel, ?_⟩, ?_⟩
    · intro f r hf
      have hm := tree_mem (show tree _ (f :: r) ≠ none from hf)
      have key : ∀ p ∈ (settings 7 ["meta", "health", "a", "t"] ++ attr "health" (.leaf 3) [] ++ attr "a" (.leaf 4) [] ++
          attr "t" .table [(["t", "value", "x"], .leaf 5), (["t", "value", "y"], .leaf 6)]).map (·.1),
          p = [] ∨ ∃ g ∈ ["meta", "health", "a", "t"], p.head? = some g := by decide +kernel
      rcases key _ hm with e | ⟨g, hg, e⟩
      · cases e
      · simp only [List.head?_cons, Option.some.injEq] at e; rw [e]; exact hg
    · exact hkeys _ _ _ (hall _ _ _ (by decide +kernel))
    · funext q
      match q with
      | [] => decide +kernel
      | a :: q =>
        refine Classical.byContradiction fun hc => ?_
        have hm := tree_mem (show there ("meta" :: "fields" :: a :: q) ≠ none from fun e => hc e)
        simp [settings, attr] at hm
    · exact hkeys _ _ _ (hall _ _ _ (by decide +kernel))
    · funext q
      match q with
      | [] => decide +kernel
      | [a] =>
        by_cases ha : a = "label"
        · subst ha; decide +kernel
        · have h1 : there ("health" :: "meta" :: [a]) = none := Classical.byContradiction fun hc => by
            have hm := tree_mem (show there ["health", "meta", a] ≠ none from hc)
            simp [settings, attr, ha] at hm
          have h2 : here.tree ("health" :: "meta" :: [a]) = none := Classical.byContradiction fun hc => by
            have hm := tree_mem (show here.tree ["health", "meta", a] ≠ none from hc)
            simp [settings, attr, ha] at hm
          exact h1.trans h2.symm
      | a :: c :: q =>
        have h1 : there ("health" :: "meta" :: a :: c :: q) = none := Classical.byContradiction fun hc => by
          have hm := tree_mem (show there ("health" :: "meta" :: a :: c :: q) ≠ none from hc)
          simp [settings, attr] at hm
        have h2 : here.tree ("health" :: "meta" :: a :: c :: q) = none := Classical.byContradiction fun hc => by
          have hm := tree_mem (show here.tree ("health" :: "meta" :: a :: c :: q) ≠ none from hc)
          simp [settings, attr] at hm
        exact h1.trans h2.symm
  exact ⟨hlegal, hplain, hshape, hkeeps, hbase, hwhole⟩

theorem later_follows : (follow later).1 = (follow later).2 := by
  obtain ⟨hlegal, hplain, hshape, hkeeps, hbase, hwhole⟩ := later_meets
  exact proxy_follows_partial (before := []) (later := later) (x := me) rfl rfl hlegal hplain rfl (by simp) models parts hshape hkeeps
    (by decide +kernel) code hbase ["meta", "health", "a", "t"] hwhole

example : (follow later).2 ["a", "value"] = some (.leaf 44) ∧ (follow later).2 ["t", "value", "y"] = some (.leaf 60) := by decide +kernel

end Verif.Props.ProxyRemote
