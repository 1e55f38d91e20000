import Verif.Proofs.NotifierRun
/-!
C11-C14: what subscribers to a block receive.

The block is any tree of Models; `State.run` executes any list of operations on it, in any order,
with any number of subscriptions.  `received`, `replay`, `lastUpdate` and `valueAt` are defined in
Verif/Spec/Notifier.lean.
-/
namespace Verif.Props.Notifier
open Verif Verif.Notifier Verif.Notifier.Spec

/-- The circumstances of C11, C12 and C14: a well formed block (only Models, tables and dicts have
parts; the root is a Model), dict-valued fields only at the paths `D`, well formed values assigned,
and no subscription id used again while live. -/
structure Legal (D : Path → Prop) (block : Tree) (ops : List Op) : Prop where
  wf : TreeWF block
  root : block [] = some .model
  dict : ∀ x, block x = some .dict → D x
  assigned : ∀ op ∈ ops, op.OK D
  ids : FreshKeys (State.init block) ops

/-- A path that does not lead into a dict-valued field, and is not at or below a table of which
single columns are replaced. -/
structure Plain (D : Path → Prop) (ops : List Op) (q : Path) : Prop where
  noDict : ∀ x a, (x ++ [a]) <+: q → ¬ D x
  noTable : ∀ op ∈ ops, op.NoPartialTable q

/-- The subscription is live. -/
def Live (s : State) (x : Sub) : Prop := Dict.get? s.keys x.key = some x

instance (s : State) (x : Sub) : Decidable (Live s x) := by unfold Live; infer_instance

theorem inv_of_legal {D block ops} (h : Legal D block ops) {q} (hq : Plain D ops q) :
    Inv D q ((State.init block).run ops) :=
  run_inv hq.noDict ops _ (init_inv D q block h.wf h.dict h.root)
    (fun op ho => ⟨h.assigned op ho, hq.noTable op ho⟩) h.ids

theorem flushed_of_quiet {D q s} (h : Inv D q s) (hc : s.count = 0) : s.flushed = s.cur := by
  funext x
  have := h.bl.pend x
  rw [h.st.idle hc] at this; simpa [lastCov] using this

/-- C11. A client that starts from nothing and applies every stanza it received holds the value of
the block at its path, whenever no squash is open. Partial: not for paths into dict-valued fields, nor at or below a
table of which only some columns are replaced; `second_subscriber_sees_stale_table` and
`below_a_dict_is_never_seen` show that the full statement fails there. -/
theorem delta_replay_partial {D block ops} (h : Legal D block ops) {x : Sub} (hq : Plain D ops x.path)
    (hlive : Live ((State.init block).run ops) x) (hdelta : x.delta = true)
    (hquiet : ((State.init block).run ops).count = 0) :
    replay (received ((State.init block).run ops).sent x)
      = valueAt ((State.init block).run ops).cur x.path := by
  have hi := inv_of_legal h hq
  obtain ⟨_, m, hm, hx⟩ := hi.st.keys _ _ hlive
  have hx : x ∈ m.deltas := by
    rcases hx with hx | hx
    · have := ((hi.st.placed _ m hm).1 x hx).2; rw [hdelta] at this; cases this
    · exact hx
  rw [hi.cl.delta m x hm hx, flushed_of_quiet hi hquiet]; rfl

/-- C12. The last Update received is the value of the block at the path, whenever no squash is open
(so a flush that changes the value always sends one). Partial: same exceptions as C11. -/
theorem last_update_is_current_partial {D block ops} (h : Legal D block ops) {x : Sub}
    (hq : Plain D ops x.path) (hlive : Live ((State.init block).run ops) x) (hdelta : x.delta = false)
    (hquiet : ((State.init block).run ops).count = 0) :
    lastUpdate (received ((State.init block).run ops).sent x)
      = some (valueAt ((State.init block).run ops).cur x.path) := by
  have hi := inv_of_legal h hq
  obtain ⟨_, m, hm, hx⟩ := hi.st.keys _ _ hlive
  have hx : x ∈ m.updates := by
    rcases hx with hx | hx
    · exact hx
    · have := ((hi.st.placed _ m hm).2.1 x hx).2; rw [hdelta] at this; cases this
  rw [hi.cl.update m x hm hx, flushed_of_quiet hi hquiet]; rfl

/-! ### C13 -/

/-- Every reachable state is structurally sound, without any restriction on paths or tables. -/
theorem struct_step {s : State} (h : Struct s) (op : Op) (hf : FreshKey s op) : Struct (s.step op) := by
  have hput : ∀ p v notes, s.count > 0 → Struct (s.put p v notes) := by
    intro p v notes hc
    have hfld : ∀ r m', (s.root.detach s.cur p []).find r = some m' →
        ∃ m, s.root.find r = some m ∧ m'.updates = m.updates ∧ m'.deltas = m.deltas ∧
          Dict.keys m'.children = Dict.keys m.children := by
      intro r m' hm'
      rw [find_detach] at hm'
      cases hm : s.root.find r with
      | none => rw [hm] at hm'; cases hm'
      | some m =>
        rw [hm] at hm'
        simp only [Option.map_some, Option.some.injEq] at hm'; subst hm'
        have := detach_fields s.cur p ([] ++ r) m
        exact ⟨m, rfl, this.1, this.2.1, this.2.2.2⟩
    constructor
    · intro r m' hm'
      obtain ⟨m, hm, _, _, hk⟩ := hfld r m' hm'
      rw [hk]; exact h.named r m hm
    · intro r m' hm'
      obtain ⟨m, hm, hu, hd, _⟩ := hfld r m' hm'
      rw [hu, hd]; exact h.placed r m hm
    · intro r m' x hm' hx
      obtain ⟨m, hm, hu, hd, _⟩ := hfld r m' hm'
      rw [hu, hd] at hx; exact h.reg r m x hm hx
    · intro k x hk
      obtain ⟨hk, m, hm, hx⟩ := h.keys k x hk
      have := detach_fields s.cur p ([] ++ x.path) m
      refine ⟨hk, _, by simp only [State.put]; rw [find_detach, hm]; rfl, ?_⟩
      rw [this.1, this.2.1]; exact hx
    · exact h.nodup
    · intro hc'; simp only [State.put] at hc'; omega
  have hcnt : ∀ n, n ≠ 0 → Struct { s with count := n } := fun n hn =>
    ⟨h.named, h.placed, h.reg, h.keys, h.nodup, fun h => absurd h hn⟩
  cases op with
  | enter => exact hcnt _ (by omega)
  | exit =>
    match hc : s.count with
    | 0 => simp only [State.step, hc]; exact h
    | 1 => exact flush_struct h hc
    | n + 2 => simp only [State.step, hc]; exact hcnt _ (by omega)
  | assign p v =>
    simp only [State.step]; split
    · rename_i hh; exact hput _ _ _ hh.1
    · exact h
  | delete p =>
    simp only [State.step]; split
    · rename_i hh; exact hput _ _ _ hh.1
    · exact h
  | tableSet p cols changed v =>
    simp only [State.step]; split
    · rename_i hh; split
      · exact hput _ _ _ hh.1
      · exact hput _ _ _ hh.1
    · exact h
  | subscribe sb => exact subscribe_struct h sb hf
  | unsubscribe k => exact unsubscribe_struct h k

theorem struct_init (block : Tree) : Struct (State.init block) := by
  have hf : ∀ r m, (State.init block).root.find r = some m → r = [] ∧ m = .mk [] [] (some .live) [] := by
    intro r m hm
    cases r with
    | nil => simp [State.init] at hm; exact ⟨rfl, hm.symm⟩
    | cons a r => simp [State.init, Node.find_cons, Node.children] at hm
  refine ⟨?_, ?_, ?_, ?_, ?_, fun _ => rfl⟩
  · intro r m hm; obtain ⟨_, rfl⟩ := hf r m hm; simp [Node.children, Dict.keys]
  · intro r m hm; obtain ⟨_, rfl⟩ := hf r m hm; simp [Node.updates, Node.deltas]
  · intro r m x hm hx; obtain ⟨_, rfl⟩ := hf r m hm; simp [Node.updates, Node.deltas] at hx
  · intro k x hk; simp [State.init] at hk
  · simp [State.init, Dict.keys]

theorem struct_run (ops : List Op) : ∀ s, Struct s → FreshKeys s ops → Struct (s.run ops) := by
  induction ops with
  | nil => intro s h _; exact h
  | cons op ops ih => intro s h hf; exact ih _ (struct_step h op hf.1) hf.2

/-- C13: while a squash is open nothing is sent, whatever is done, until the outermost one is left. -/
theorem squash_is_silent (s : State) (op : Op) (hopen : s.count > 0) (hinner : op = .exit → s.count > 1) :
    (s.step op).sent = s.sent := by
  cases op with
  | enter => rfl
  | exit =>
    have := hinner rfl
    match hc : s.count with
    | 0 => omega
    | 1 => omega
    | n + 2 => simp only [State.step, hc]
  | assign p v => simp only [State.step]; split <;> rfl
  | delete p => simp only [State.step]; split <;> rfl
  | tableSet p cols changed v =>
    simp only [State.step]; split
    · split <;> rfl
    · rfl
  | subscribe sb => simp only [State.step]; rw [if_neg (by omega)]
  | unsubscribe k => simp only [State.step]; rw [if_neg (by omega)]

/-- The paths that one operation reports, in order. -/
def reported (s : State) : Op → List Path
  | .assign p _ | .delete p => if hasParent s.cur p then [p] else []
  | .tableSet p cols changed _ =>
    if hasParent s.cur p ∧ s.cur p = some .table then
      (if changed.length = cols.length then [p] else changed.map (fun k => p ++ [k]))
    else []
  | _ => []

/-- C13: changes made while a squash is open are kept in the order they were made. -/
theorem squash_keeps_order (s : State) (op : Op) (hopen : s.count > 0) (hinner : op = .exit → s.count > 1) :
    (s.step op).pending.map (·.1) = s.pending.map (·.1) ++ reported s op := by
  have hput : ∀ p v notes, (s.put p v notes).pending.map (·.1) = s.pending.map (·.1) ++ notes.map (·.1) := by
    intro p v notes; simp [State.put, detachChange, Function.comp_def]
  cases op with
  | enter => simp [State.step, reported]
  | exit =>
    have := hinner rfl
    match hc : s.count with
    | 0 => omega
    | 1 => omega
    | n + 2 => simp only [State.step, hc]; simp [reported]
  | assign p v =>
    simp only [State.step, reported, hopen, true_and]
    split
    · rw [hput]; simp
    · simp
  | delete p =>
    simp only [State.step, reported, hopen, true_and]
    split
    · rw [hput]; simp
    · simp
  | tableSet p cols changed v =>
    simp only [State.step, reported, hopen, true_and]
    split
    · split
      · rw [hput]; simp
      · rw [hput]; simp [Function.comp_def]
    · simp
  | subscribe sb => simp only [State.step, reported]; rw [if_neg (by omega)]; simp
  | unsubscribe k => simp only [State.step, reported]; rw [if_neg (by omega)]; simp

/-- How a change at `p` looks from a subscription at `q`: relative to `q`, or a change of everything
when `p` is above `q`. -/
def seenFrom (q p : Path) : Option Path :=
  if q <+: p then some (p.drop q.length) else if p <+: q then some [] else none

theorem relOf_seenFrom (cur : Tree) (q : Path) (c : Change) :
    (relOf cur [] q c).map (·.1) = seenFrom q c.1 := by
  unfold relOf seenFrom
  cases hs : stripPrefix q c.1 with
  | some p' =>
    have := stripPrefix_some.1 hs
    rw [if_pos ⟨p', this.symm⟩, this]; simp
  | none =>
    rw [if_neg (stripPrefix_none.1 hs)]
    cases hs2 : stripPrefix c.1 q with
    | some r' => rw [if_pos ⟨r', (stripPrefix_some.1 hs2).symm⟩]; rfl
    | none => rw [if_neg (stripPrefix_none.1 hs2)]; rfl

theorem rel_paths (cur : Tree) (q : Path) (ch : List Change) :
    (rel cur [] q ch).map (·.1) = (ch.map (·.1)).filterMap (seenFrom q) := by
  rw [rel_eq]
  induction ch with
  | nil => rfl
  | cons c ch ih =>
    have := relOf_seenFrom cur q c
    simp only [List.filterMap_cons, List.map_cons]
    cases hr : relOf cur [] q c with
    | none => rw [hr] at this; simp only [Option.map_none] at this; rw [← this]; exact ih
    | some e => rw [hr] at this; simp only [Option.map_some] at this; rw [← this]; simp [ih]

/-- C13: when the outermost squash is left, a live subscription whose path some change touches gets
exactly one message, which for a Delta has its changes in the order they were made. A subscription that no change touches gets
nothing, unless it is to the whole block. -/
theorem squash_delivers_once {block : Tree} {ops : List Op} (hids : FreshKeys (State.init block) ops)
    {s : State} (hs : s = (State.init block).run ops) (hc : s.count = 1) {x : Sub} (hlive : Live s x) :
    let seen := (s.pending.map (·.1)).filterMap (seenFrom x.path)
    let now := received (s.step .exit).sent x
    (seen = [] ∧ x.path ≠ [] → now = received s.sent x) ∧
    (¬ (seen = [] ∧ x.path ≠ []) → ∃ m, now = received s.sent x ++ [m] ∧
      (x.delta = true → ∃ st, m = .delta st ∧ st.map (·.1) = seen) ∧
      (x.delta = false → ∃ v, m = .update v)) := by
  have hst : Struct s := hs ▸ struct_run ops _ (struct_init block) hids
  obtain ⟨_, m, hm, hx⟩ := hst.keys _ _ hlive
  have hrc := flush_received hst hm hx
  have hpaths := rel_paths s.cur x.path s.pending
  have hnil : rel s.cur [] x.path s.pending = [] ↔ (s.pending.map (·.1)).filterMap (seenFrom x.path) = [] := by
    rw [← hpaths]; simp
  dsimp only
  simp only [State.step, hc, received_append, hrc]
  constructor
  · rintro ⟨h1, h2⟩
    rw [if_pos ⟨h2, hnil.2 h1⟩]; simp
  · intro h
    rw [if_neg (fun hh => h ⟨hnil.1 hh.2, hh.1⟩)]
    refine ⟨_, rfl, ?_, ?_⟩
    · intro hd; simp only [hd, if_true]
      exact ⟨_, rfl, by rw [← hpaths]; simp [freezeChange, Function.comp_def]⟩
    · intro hd; simp only [hd]; exact ⟨_, rfl⟩

/-! ### C14 -/

/-- Nothing is sent to a subscription that is not live by a step that does not make it live. -/
theorem silent_step {s : State} (h : Struct s) {x : Sub} (hnl : ¬ Live s x) (op : Op) (hop : op ≠ .subscribe x) :
    received (s.step op).sent x = received s.sent x := by
  cases op with
  | enter => rfl
  | exit =>
    match hc : s.count with
    | 0 => simp only [State.step, hc]
    | n + 2 => simp only [State.step, hc]
    | 1 =>
      simp only [State.step, hc, received_append]
      rw [received_none (l := (s.root.notify s.cur [] s.pending).2), List.append_nil]
      intro r hr hrx
      obtain ⟨p, m, hm, hxm⟩ := notify_from s.cur _ s.root (Nat.le_refl _) [] h.named s.pending r hr
      exact hnl (hrx ▸ h.reg p m r.1 hm hxm)
  | assign p v => simp only [State.step]; split <;> rfl
  | delete p => simp only [State.step]; split <;> rfl
  | tableSet p cols changed v =>
    simp only [State.step]; split
    · split <;> rfl
    · rfl
  | subscribe sb =>
    simp only [State.step]; split
    · rw [(subscribe_spec s.cur sb sb.path [] s.root).1, received_append, received_single,
        if_neg (fun e => hop (by rw [e])), List.append_nil]
    · rfl
  | unsubscribe k =>
    simp only [State.step]; split
    · cases hk : Dict.get? s.keys k with
      | none => rfl
      | some sb =>
        obtain ⟨hkey, m, hm, hx⟩ := h.keys k sb hk
        obtain ⟨⟨root', rs⟩, hu⟩ := unsubscribe_some sb sb.path s.root m hm hx
        obtain ⟨hrs, _, _⟩ := unsubscribe_spec sb sb.path s.root root' rs h.named hu
        simp only [hu, hrs, received_append, received_single]
        rw [if_neg, List.append_nil]
        rintro rfl; rw [← hkey] at hk; exact hnl hk
    · rfl

theorem not_live_step {s : State} {x : Sub} (h : Struct s) (hnl : ¬ Live s x) (op : Op) (hop : op ≠ .subscribe x) :
    ¬ Live (s.step op) x := by
  unfold Live at *
  have hput : ∀ p v n, (s.put p v n).keys = s.keys := fun _ _ _ => rfl
  cases op with
  | enter => exact hnl
  | exit =>
    match hc : s.count with
    | 0 => simp only [State.step, hc]; exact hnl
    | n + 2 => simp only [State.step, hc]; exact hnl
    | 1 => simp only [State.step, hc]; exact hnl
  | assign p v => simp only [State.step]; split <;> exact hnl
  | delete p => simp only [State.step]; split <;> exact hnl
  | tableSet p cols changed v =>
    simp only [State.step]; split
    · split <;> exact hnl
    · exact hnl
  | subscribe sb =>
    simp only [State.step]; split
    · simp only [Dict.get?_set]; split
      · intro e; simp only [Option.some.injEq] at e; exact hop (by rw [e])
      · exact hnl
    · exact hnl
  | unsubscribe k =>
    simp only [State.step]; split
    · have he : ¬ Dict.get? (Dict.erase s.keys k) x.key = some x := by
        rw [Dict.get?_erase h.nodup]; split
        · simp
        · exact hnl
      split
      · exact hnl
      · split
        · exact he
        · exact he
    · exact hnl

/-- C14: unsubscribing a live id sends exactly one Return, to it and nobody else, and no Error; and
however the history goes on without subscribing it again, it never receives anything more. -/
theorem unsubscribe_is_exact {block : Tree} {ops more : List Op} {s : State}
    (hs : s = (State.init block).run ops) {x : Sub}
    (hids : FreshKeys (State.init block) (ops ++ .unsubscribe x.key :: more))
    (hlive : Live s x) (hc : s.count = 0) (hmore : ∀ op ∈ more, op ≠ .subscribe x) :
    let s' := s.step (.unsubscribe x.key)
    s'.sent = s.sent ++ [(x, .ret)] ∧ s'.errors = s.errors ∧ s'.cur = s.cur ∧
    received (s'.run more).sent x = received s.sent x ++ [.ret] := by
  have happ : ∀ (ops : List Op) (s : State) (l : List Op), FreshKeys s (ops ++ l) →
      FreshKeys s ops ∧ FreshKeys (s.run ops) l := by
    intro ops
    induction ops with
    | nil => intro s l h; exact ⟨trivial, h⟩
    | cons op ops ih => intro s l h; have := ih _ l h.2; exact ⟨⟨h.1, this.1⟩, this.2⟩
  obtain ⟨hf1, hf2⟩ := happ ops _ _ hids
  have hst : Struct s := hs ▸ struct_run ops _ (struct_init block) hf1
  obtain ⟨hkey, m, hm, hx⟩ := hst.keys _ _ hlive
  obtain ⟨⟨root', rs⟩, hu⟩ := unsubscribe_some x x.path s.root m hm hx
  obtain ⟨hrs, _, _⟩ := unsubscribe_spec x x.path s.root root' rs hst.named hu
  subst hrs
  have hlive' : Dict.get? s.keys x.key = some x := hlive
  have hs' : s.step (.unsubscribe x.key) =
      { s with root := root', sent := s.sent ++ [(x, .ret)], keys := Dict.erase s.keys x.key } := by
    simp only [State.step, hc, if_true, hlive', hu]
  have hst' : Struct (s.step (.unsubscribe x.key)) := unsubscribe_struct hst _
  have hnl : ¬ Live (s.step (.unsubscribe x.key)) x := by
    rw [hs']; unfold Live; simp [Dict.get?_erase_self hst.nodup]
  have hquiet : ∀ (more : List Op) (s : State), Struct s → ¬ Live s x → FreshKeys s more →
      (∀ op ∈ more, op ≠ .subscribe x) → received (s.run more).sent x = received s.sent x := by
    intro more
    induction more with
    | nil => intro s _ _ _ _; rfl
    | cons op more ih =>
      intro s h hn hf hm
      have hop := hm op (List.mem_cons_self ..)
      have := ih (s.step op) (struct_step h op hf.1) (not_live_step h hn op hop) hf.2
        (fun o ho => hm o (List.mem_cons_of_mem _ ho))
      exact this.trans (silent_step h hn op hop)
  dsimp only
  have hfm : FreshKeys (s.step (.unsubscribe x.key)) more := by rw [hs]; exact hf2.2
  refine ⟨by rw [hs'], by rw [hs'], by rw [hs'], ?_⟩
  rw [hquiet more _ hst' hnl hfm hmore, hs', received_append, received_single, if_pos rfl]

/-- C14: unsubscribing an id that is not live is answered by an Error and changes nothing else. -/
theorem unsubscribe_unknown (s : State) (k : Nat) (hc : s.count = 0) (hk : Dict.get? s.keys k = none) :
    s.step (.unsubscribe k) = { s with errors := s.errors ++ [k] } := by
  simp only [State.step, hc, if_true, hk]

/-- Does the operation concern subscription id `k`? -/
def about (k : Nat) : Op → Bool
  | .subscribe sb => sb.key == k
  | .unsubscribe k' => k' == k
  | _ => false

/-- Two systems that a subscriber with another id than `k` cannot tell apart. -/
structure Alike (D : Path → Prop) (k : Nat) (y : Sub) (s t : State) : Prop where
  cur : s.cur = t.cur
  count : s.count = t.count
  pending : s.pending = t.pending
  flushed : s.flushed = t.flushed
  keys : ∀ k', k' ≠ k → Dict.get? s.keys k' = Dict.get? t.keys k'
  recv : received s.sent y = received t.sent y
  inv1 : Inv D y.path s
  inv2 : Inv D y.path t

theorem live_iff_registered {s : State} (h : Struct s) (x : Sub) :
    Live s x ↔ ∃ m, s.root.find x.path = some m ∧ (x ∈ m.updates ∨ x ∈ m.deltas) :=
  ⟨fun hl => (h.keys _ _ hl).2, fun ⟨m, hm, hx⟩ => h.reg _ m x hm hx⟩

/-- What a flush sends to a live subscription depends only on the block and the changes. -/
theorem flush_message {D s} {y : Sub} (h : Inv D y.path s) (hd : NoDict s.cur y.path) (hl : Live s y) :
    received (s.root.notify s.cur [] s.pending).2 y =
      if y.path ≠ [] ∧ rel s.cur [] y.path s.pending = [] then [] else
        [if y.delta then Msg.delta ((rel s.cur [] y.path s.pending).map (freezeChange s.cur y.path))
         else Msg.update (s.cur.sub y.path)] := by
  obtain ⟨m, hm, hx⟩ := (live_iff_registered h.st y).1 hl
  rw [flush_received h.st hm hx, (flush_data h hd (List.prefix_refl _) hm).content h.bl.wf]

theorem alike_step {D k y s t} (h : Alike D k y s t) (hq : ∀ x a, (x ++ [a]) <+: y.path → ¬ D x) (hyk : y.key ≠ k)
    (op : Op) (hok : op.OK D) (hnp : op.NoPartialTable y.path) (hf : FreshKey s op) :
    Alike D k y (s.step op) (if about k op then t else t.step op) := by
  obtain ⟨hcur, hcount, hpend, hfl, hkeys, hrecv, hi1, hi2⟩ := h
  have hd : NoDict s.cur y.path := fun x a hx hdict => hq x a hx (hi1.bl.dict x hdict)
  have hi1' := step_inv hi1 hq op hok hnp hf
  by_cases hab : about k op = true
  · -- an operation on id k
    simp only [hab, if_true]
    cases op with
    | subscribe sb =>
      have hsk : sb.key = k := by simpa [about] using hab
      have hne : sb ≠ y := by rintro rfl; exact hyk hsk
      simp only [State.step] at hi1' ⊢
      split at hi1'
      · rename_i hc
        simp only [hc, if_true] at hi1' ⊢
        refine ⟨hcur, by simpa [hc] using hcount, hpend, hfl, ?_, ?_, hi1', hi2⟩
        · intro k' hk'; rw [Dict.get?_set_ne _ _ (by rw [hsk]; exact fun e => hk' e.symm)]; exact hkeys k' hk'
        · rw [(subscribe_spec s.cur sb sb.path [] s.root).1, received_append, received_single, if_neg hne,
            List.append_nil, hrecv]
      · rename_i hc
        simp only [hc, if_false] at hi1' ⊢
        exact ⟨hcur, hcount, hpend, hfl, hkeys, hrecv, hi1, hi2⟩
    | unsubscribe k' =>
      have hsk : k' = k := by simpa [about] using hab
      subst hsk
      simp only [State.step] at hi1' ⊢
      split
      · rename_i hc
        rw [if_pos hc] at hi1'
        cases hg : Dict.get? s.keys k' with
        | none =>
          simp only [hg] at hi1'
          exact ⟨hcur, hcount, hpend, hfl, hkeys, hrecv, hi1', hi2⟩
        | some sb =>
          obtain ⟨hkey, m, hm, hx⟩ := hi1.st.keys k' sb hg
          obtain ⟨⟨root', rs⟩, hu⟩ := unsubscribe_some sb sb.path s.root m hm hx
          obtain ⟨hrs, _, _⟩ := unsubscribe_spec sb sb.path s.root root' rs hi1.st.named hu
          simp only [hg, hu] at hi1' ⊢
          refine ⟨hcur, hcount, hpend, hfl, ?_, ?_, hi1', hi2⟩
          · intro k2 hk2; rw [Dict.get?_erase_ne _ (Ne.symm hk2)]; exact hkeys k2 hk2
          · have hne : sb ≠ y := by rintro rfl; exact hyk hkey
            rw [hrs, received_append, received_single, if_neg hne, List.append_nil, hrecv]
      · exact ⟨hcur, hcount, hpend, hfl, hkeys, hrecv, hi1, hi2⟩
    | _ => simp [about] at hab
  · rw [if_neg hab]
    have hf2 : FreshKey t op := by
      cases op with
      | subscribe sb =>
        have : sb.key ≠ k := by simpa [about] using hab
        show Dict.get? t.keys sb.key = none
        rw [← hkeys _ this]; exact hf
      | _ => trivial
    have hi2' := step_inv hi2 hq op hok hnp hf2
    have hlive : ∀ x : Sub, x.key ≠ k → (Live s x ↔ Live t x) := by
      intro x hx; unfold Live; rw [hkeys _ hx]
    have hd2 : NoDict t.cur y.path := hcur ▸ hd
    have hputk : ∀ p v notes, (s.put p v notes).keys = s.keys ∧ (t.put p v notes).keys = t.keys :=
      fun _ _ _ => ⟨rfl, rfl⟩
    have hput : ∀ p v notes, Inv D y.path (s.put p v notes) → Inv D y.path (t.put p v notes) →
        Alike D k y (s.put p v notes) (t.put p v notes) := by
      intro p v notes h1 h2
      exact ⟨by simp [State.put, hcur], hcount, by simp [State.put, hcur, hpend], hfl, hkeys, hrecv, h1, h2⟩
    cases op with
    | enter => exact ⟨hcur, by simp [State.step, hcount], hpend, hfl, hkeys, hrecv, hi1', hi2'⟩
    | exit =>
      match hc : s.count with
      | 0 =>
        have hc2 := hcount ▸ hc
        simp only [State.step, hc, hc2]
        exact ⟨hcur, hcount, hpend, hfl, hkeys, hrecv, hi1, hi2⟩
      | n + 2 =>
        have hc2 : t.count = n + 2 := hcount ▸ hc
        simp only [State.step, hc, hc2] at hi1' hi2' ⊢
        exact ⟨hcur, rfl, hpend, hfl, hkeys, hrecv, hi1', hi2'⟩
      | 1 =>
        have hc2 : t.count = 1 := hcount ▸ hc
        have hr : received (s.root.notify s.cur [] s.pending).2 y
            = received (t.root.notify t.cur [] t.pending).2 y := by
          by_cases hl : Live s y
          · rw [flush_message hi1 hd hl, flush_message hi2 hd2 ((hlive y hyk).1 hl), hcur, hpend]
          · have h1 := silent_step hi1.st hl .exit (by simp)
            have h2 := silent_step hi2.st (fun h => hl ((hlive y hyk).2 h)) .exit (by simp)
            simp only [State.step, hc, received_append] at h1
            simp only [State.step, hc2, received_append] at h2
            have e1 : received (s.root.notify s.cur [] s.pending).2 y = [] := by simpa using h1
            have e2 : received (t.root.notify t.cur [] t.pending).2 y = [] := by simpa using h2
            rw [e1, e2]
        simp only [State.step, hc, hc2] at hi1' hi2' ⊢
        exact ⟨hcur, rfl, rfl, hcur, hkeys, by
          show received (s.sent ++ _) y = received (t.sent ++ _) y
          rw [received_append, received_append, hrecv, hr], hi1', hi2'⟩
    | assign p v =>
      simp only [State.step, ← hcur, ← hcount] at hi1' hi2' ⊢
      split
      · rename_i hh; simp only [hh, and_self, if_true] at hi1' hi2'; exact hput _ _ _ hi1' hi2'
      · exact ⟨hcur, hcount, hpend, hfl, hkeys, hrecv, hi1, hi2⟩
    | delete p =>
      simp only [State.step, ← hcur, ← hcount] at hi1' hi2' ⊢
      split
      · rename_i hh; simp only [hh, and_self, if_true] at hi1' hi2'; exact hput _ _ _ hi1' hi2'
      · exact ⟨hcur, hcount, hpend, hfl, hkeys, hrecv, hi1, hi2⟩
    | tableSet p cols changed v =>
      simp only [State.step, ← hcur, ← hcount] at hi1' hi2' ⊢
      split
      · rename_i hh
        simp only [hh, and_self, if_true] at hi1' hi2'
        split
        · rename_i hl; simp only [hl, if_true] at hi1' hi2'; exact hput _ _ _ hi1' hi2'
        · rename_i hl; simp only [hl, if_false] at hi1' hi2'; exact hput _ _ _ hi1' hi2'
      · exact ⟨hcur, hcount, hpend, hfl, hkeys, hrecv, hi1, hi2⟩
    | subscribe sb =>
      have hsk : sb.key ≠ k := by simpa [about] using hab
      by_cases hc : s.count = 0
      · have hc2 : t.count = 0 := hcount ▸ hc
        simp only [State.step, hc, hc2, if_true] at hi1' hi2' ⊢
        refine ⟨hcur, by simp [hc, hc2], hpend, hfl, ?_, ?_, hi1', hi2'⟩
        · intro k' hk'; simp only [Dict.get?_set, hkeys k' hk']
        · rw [(subscribe_spec s.cur sb sb.path [] s.root).1, (subscribe_spec t.cur sb sb.path [] t.root).1,
            received_append, received_append, received_single, received_single, hrecv]
          by_cases hy : sb = y
          · subst hy
            have e1 := (nodeData_good hi1 hd hc sb.path (List.prefix_refl _)).content hi1.bl.wf
            have e2 := (nodeData_good hi2 hd2 hc2 sb.path (List.prefix_refl _)).content hi2.bl.wf
            simp only [List.nil_append]
            rw [e1, e2, hcur]
          · simp [hy]
      · have hc2 : ¬ t.count = 0 := hcount ▸ hc
        simp only [State.step, hc, hc2, if_false]
        exact ⟨hcur, hcount, hpend, hfl, hkeys, hrecv, hi1, hi2⟩
    | unsubscribe k' =>
      have hsk : k' ≠ k := by simpa [about] using hab
      by_cases hc : s.count = 0
      · have hc2 : t.count = 0 := hcount ▸ hc
        have hkk := hkeys k' hsk
        simp only [State.step, hc, hc2, if_true] at hi1' hi2' ⊢
        cases hg : Dict.get? s.keys k' with
        | none =>
          have hg2 : Dict.get? t.keys k' = none := hkk ▸ hg
          simp only [hg, hg2] at hi1' hi2' ⊢
          exact ⟨hcur, by simp [hc, hc2], hpend, hfl, hkeys, hrecv, hi1', hi2'⟩
        | some sb =>
          have hg2 : Dict.get? t.keys k' = some sb := hkk ▸ hg
          obtain ⟨hkey, m, hm, hx⟩ := hi1.st.keys k' sb hg
          obtain ⟨⟨root', rs⟩, hu⟩ := unsubscribe_some sb sb.path s.root m hm hx
          obtain ⟨hrs, _, _⟩ := unsubscribe_spec sb sb.path s.root root' rs hi1.st.named hu
          obtain ⟨_, m2, hm2, hx2⟩ := hi2.st.keys k' sb hg2
          obtain ⟨⟨root2, rs2⟩, hu2⟩ := unsubscribe_some sb sb.path t.root m2 hm2 hx2
          obtain ⟨hrs2, _, _⟩ := unsubscribe_spec sb sb.path t.root root2 rs2 hi2.st.named hu2
          simp only [hg, hu, hg2, hu2] at hi1' hi2' ⊢
          refine ⟨hcur, by simp [hc, hc2], hpend, hfl, ?_, ?_, hi1', hi2'⟩
          · intro k2 hk2
            simp only [Dict.get?_erase hi1.st.nodup, Dict.get?_erase hi2.st.nodup, hkeys k2 hk2]
          · simp only [hrs, hrs2, received_append, hrecv]
      · have hc2 : ¬ t.count = 0 := hcount ▸ hc
        simp only [State.step, hc, hc2, if_false]
        exact ⟨hcur, hcount, hpend, hfl, hkeys, hrecv, hi1, hi2⟩

/-- C14: a subscriber receives exactly what it would have received had another id never been used.
Partial: same exceptions as C11. -/
theorem others_unaffected_partial {D block ops} (h : Legal D block ops) {y : Sub} (hq : Plain D ops y.path)
    {k : Nat} (hyk : y.key ≠ k) :
    received ((State.init block).run ops).sent y
      = received ((State.init block).run (ops.filter (fun op => !about k op))).sent y := by
  have key : ∀ (ops : List Op) (s t : State), Alike D k y s t → (∀ op ∈ ops, op.OK D ∧ op.NoPartialTable y.path) →
      FreshKeys s ops → Alike D k y (s.run ops) (t.run (ops.filter (fun op => !about k op))) := by
    intro ops
    induction ops with
    | nil => intro s t h _ _; exact h
    | cons op ops ih =>
      intro s t h ho hf
      have hop := ho op (List.mem_cons_self ..)
      have h1 := alike_step h hq.noDict hyk op hop.1 hop.2 hf.1
      have h2 := ih _ _ h1 (fun o ho' => ho o (List.mem_cons_of_mem _ ho')) hf.2
      by_cases hab : about k op = true
      · simp only [hab, if_true] at h2
        simpa [List.filter_cons, hab, State.run] using h2
      · rw [if_neg hab] at h2
        simpa [List.filter_cons, hab, State.run] using h2
  have hi := init_inv D y.path block h.wf h.dict h.root
  exact (key ops _ _ ⟨rfl, rfl, rfl, rfl, fun _ _ => rfl, rfl, hi, hi⟩
    (fun op ho => ⟨h.assigned op ho, hq.noTable op ho⟩) h.ids).recv

/-! ### Examples and counterexamples -/

/-- A block with an attribute `a` whose value is a table with columns `x` and `y`, and a method
whose argument metas sit in a dict. -/
def block : Tree
  | [] => some .model
  | ["a"] => some .model
  | ["a", "value"] => some .table
  | ["a", "value", "x"] => some (.leaf 1)
  | ["a", "value", "y"] => some (.leaf 2)
  | ["m"] => some .model
  | ["m", "elements"] => some .dict
  | ["m", "elements", "p"] => some .model
  | ["m", "elements", "p", "tag"] => some (.leaf 5)
  | _ => none

def num (n : Int) : Tree
  | [] => some (.leaf n)
  | _ => none

/-- A new column `x`. -/
def newX (n : Int) : Tree
  | [] => some .table
  | ["x"] => some (.leaf n)
  | _ => none

def onBlock : Sub := ⟨1, [], true⟩
def onA : Sub := ⟨2, ["a"], false⟩
def onValue : Sub := ⟨3, ["a", "value"], false⟩
def onValue2 : Sub := ⟨4, ["a", "value"], true⟩
def onP : Sub := ⟨5, ["m", "elements", "p"], true⟩

/-- Subscribe, replace one column, add a field and delete it in one squash, unsubscribe. -/
def history : List Op :=
  [.subscribe onBlock, .subscribe onA, .enter, .tableSet ["a", "value"] ["x", "y"] ["x"] (newX 7),
   .assign ["b"] (num 3), .enter, .assign ["b"] (num 4), .exit, .delete ["m"], .exit, .unsubscribe 2]

theorem num_wf (n : Int) : TreeWF (num n) := by
  intro x a h
  cases x with
  | nil => simp [num] at h
  | cons b x => simp [num] at h

theorem newX_wf (n : Int) : TreeWF (newX n) ∧ ∀ y, newX n y ≠ some .dict := by
  constructor
  · intro x a h
    cases x with
    | nil => exact ⟨.table, rfl, rfl⟩
    | cons b x => cases x <;> simp [newX] at h
  · intro y h; unfold newX at h; split at h <;> simp at h

/-- The hypotheses of the theorems are met by this history, and the messages are what they should be. -/
example : ((State.init block).run history).count = 0 ∧
    (received ((State.init block).run history).sent onA).length = 3 ∧
    (received ((State.init block).run history).sent onBlock).length = 2 ∧
    replay (received ((State.init block).run history).sent onBlock) ["a", "value", "x"] = some (.leaf 7) ∧
    replay (received ((State.init block).run history).sent onBlock) ["b"] = some (.leaf 4) ∧
    replay (received ((State.init block).run history).sent onBlock) ["m", "elements"] = none ∧
    lastUpdate (received ((State.init block).run history).sent onA) ≠ none := by
  refine ⟨by decide, by decide, by decide, by decide, by decide, by decide, by decide⟩

theorem block_wf : TreeWF block := by
  have key : ∀ z, block z ≠ none → ∀ x a, z = x ++ [a] → ∃ k, block x = some k ∧ k.container := by
    intro z hz x a hx
    have hx' : x = z.dropLast := by rw [hx]; simp
    subst hx'
    unfold block at hz
    split at hz <;> first
      | (simp at hx; done)
      | exact ⟨_, rfl, rfl⟩
      | exact absurd rfl hz
  exact fun x a h => key _ h x a rfl

/-- The history meets the hypotheses of C11, C12 and C14, for the two subscriptions in it. -/
example : Legal (· = ["m", "elements"]) block history ∧
    Plain (· = ["m", "elements"]) history [] ∧ Plain (· = ["m", "elements"]) history ["a"] := by
  refine ⟨⟨block_wf, rfl, ?_, ?_, ?_⟩, ⟨?_, ?_⟩, ⟨?_, ?_⟩⟩
  · intro x hx; unfold block at hx; split at hx <;> simp_all
  · intro op hop
    simp only [history, List.mem_cons, List.not_mem_nil, or_false] at hop
    rcases hop with rfl | rfl | rfl | rfl | rfl | rfl | rfl | rfl | rfl | rfl | rfl <;>
      first
        | trivial
        | exact ⟨(newX_wf _).1, fun y h => absurd h ((newX_wf _).2 y)⟩
        | exact ⟨num_wf _, by intro y h; unfold num at h; split at h <;> simp at h⟩
  · simp only [FreshKeys, history, FreshKey, and_true, true_and]
    decide
  · intro x a h; simp at h
  · intro op hop
    simp only [history, List.mem_cons, List.not_mem_nil, or_false] at hop
    rcases hop with rfl | rfl | rfl | rfl | rfl | rfl | rfl | rfl | rfl | rfl | rfl <;>
      first
        | trivial
        | exact Or.inr (by simp)
  · intro x a h hD
    subst hD
    simp at h
  · intro op hop
    simp only [history, List.mem_cons, List.not_mem_nil, or_false] at hop
    rcases hop with rfl | rfl | rfl | rfl | rfl | rfl | rfl | rfl | rfl | rfl | rfl <;>
      first
        | trivial
        | exact Or.inr (by simp)

/-- The disagreement with C12: the Update sent after one column is replaced carries the old table. -/
theorem table_update_is_stale :
    let s := (State.init block).run
      [.subscribe onValue, .enter, .tableSet ["a", "value"] ["x", "y"] ["x"] (newX 7), .exit]
    s.count = 0 ∧ Live s onValue ∧ s.cur ["a", "value", "x"] = some (.leaf 7) ∧
    (received s.sent onValue).length = 2 ∧
    (lastUpdate (received s.sent onValue)).map (· ["x"]) = some (some (.leaf 1)) := by
  refine ⟨by decide, by decide, by decide, by decide, by decide⟩

/-- The disagreement with C11 (and C14): a Delta subscriber that joins another one after one column was replaced
starts from the old table and never gets the new column; without the other one it would have had it. -/
theorem second_subscriber_sees_stale_table :
    let change : List Op := [.enter, .tableSet ["a", "value"] ["x", "y"] ["x"] (newX 7), .exit]
    let s := (State.init block).run ([.subscribe onValue] ++ change ++ [.subscribe onValue2])
    let alone := (State.init block).run (change ++ [.subscribe onValue2])
    s.count = 0 ∧ Live s onValue2 ∧ s.cur ["a", "value", "x"] = some (.leaf 7) ∧
    replay (received s.sent onValue2) ["x"] = some (.leaf 1) ∧
    replay (received alone.sent onValue2) ["x"] = some (.leaf 7) := by
  refine ⟨by decide, by decide, by decide, by decide, by decide⟩

/-- The disagreement with C11 below a dict-valued field: the subscriber is given None. -/
theorem below_a_dict_is_never_seen :
    let s := (State.init block).run [.subscribe onP]
    Live s onP ∧ s.cur ["m", "elements", "p"] = some .model ∧ replay (received s.sent onP) [] = none := by
  refine ⟨by decide, by decide, by decide⟩

/-- The disagreement with C13: leaving a squash in which nothing changed sends a (redundant) message
to subscribers to the whole block. -/
theorem empty_squash_notifies_block_subscribers :
    let s := (State.init block).run [.subscribe onBlock]
    let s' := s.run [.enter, .exit]
    (received s'.sent onBlock).length = (received s.sent onBlock).length + 1 ∧ s'.cur = s.cur := by
  refine ⟨by decide, rfl⟩

end Verif.Props.Notifier
