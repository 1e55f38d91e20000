import Verif.Props.WebServer
/-!
C42 (ids of subscriptions, clients apart from each other) and C61 (who may write): the web server.
-/
namespace Verif.Props.WebClients
open Verif.WebServer Verif.Spec.WebServer Verif.Props.WebServer

/-- What no request, response or answer changes about a connection -/
structure Kept (s s' : State) : Prop where
  writeable : ∀ c, (s'.conns c).writeable = (s.conns c).writeable
  alive : ∀ c, (s'.conns c).alive = (s.conns c).alive
  ids : ∀ c i, (s.conns c).alive = true → (s.conns c).ids.mem i = true → (s'.conns c).ids.mem i = true

theorem Kept.refl (s : State) : Kept s s := ⟨fun _ => rfl, fun _ => rfl, fun _ _ _ h => h⟩

theorem Kept.trans {a b c : State} (h : Kept a b) (g : Kept b c) : Kept a c :=
  ⟨fun d => (g.writeable d).trans (h.writeable d), fun d => (g.alive d).trans (h.alive d),
   fun d i ha hi => g.ids d i ((h.alive d).trans ha) (h.ids d i ha hi)⟩

theorem Kept.of_conns {s s' : State} (h : s'.conns = s.conns) : Kept s s' :=
  ⟨fun c => by rw [h], fun c => by rw [h], fun c i _ hi => by rw [h]; exact hi⟩

theorem kept_set (s : State) (c : Nat) (d : Dict Int Mri)
    (h : (s.conns c).alive = true → ∀ i, (s.conns c).ids.mem i = true → Dict.mem d i = true) :
    Kept s (setConn s c { s.conns c with ids := d }) := by
  refine ⟨fun e => ?_, fun e => ?_, fun e i ha hi => ?_⟩
  · simp only [setConn]; split <;> rename_i g <;> simp [g]
  · simp only [setConn]; split <;> rename_i g <;> simp [g]
  · simp only [setConn]
    split
    · rename_i g; subst g; exact h ha i hi
    · exact hi

theorem kept_write (s : State) (c : Nat) (r : Resp) : Kept s (write s c r) := by
  unfold write; split <;> exact Kept.of_conns rfl

theorem kept_report (s : State) (r : Req) : Kept s (report s r) := by
  unfold report; split
  · exact Kept.of_conns rfl
  · exact kept_write ..

theorem kept_resp (s : State) (c : Nat) (r : Resp) : Kept s (onResponse s c r) := by
  unfold onResponse
  split
  · exact kept_write ..
  · rename_i hd
    split
    · split
      · exact (kept_set s c _ (fun h => absurd h hd)).trans (kept_report ..)
      · exact Kept.refl s
    · exact Kept.refl s

theorem mem_set {d : Dict Int Mri} {i j : Int} {m : Mri} (h : d.mem j = true) : (d.set i m).mem j = true := by
  simp only [Dict.mem, Dict.get?_set] at h ⊢
  split
  · rfl
  · exact h

theorem kept_dispatch (s : State) (c : Nat) (id : Int) (k : Kind) (mri : Mri) (tag : Nat) : Kept s (dispatch s c id k mri tag) := by
  unfold dispatch
  dsimp only
  split
  · split
    · exact kept_write ..
    · exact (kept_set s c _ (fun _ i hi => mem_set hi)).trans (kept_report ..)
  · split
    · exact kept_report ..
    · exact kept_write ..
  · split
    · exact kept_report ..
    · exact kept_write ..
  · split
    · exact kept_report ..
    · exact kept_write ..
  · exact kept_report ..

theorem kept_message (s : State) (c : Nat) (m : Msg) : Kept s (onMessage s c m) := by
  unfold onMessage
  dsimp only
  split
  · exact (Kept.of_conns rfl : Kept s { s with count := s.count + 1 }).trans (kept_write ..)
  · split
    · exact (Kept.of_conns rfl : Kept s { s with count := s.count + 1 }).trans (kept_write ..)
    · exact (Kept.of_conns rfl : Kept s { s with count := s.count + 1 }).trans (kept_dispatch ..)

theorem kept_handle (s : State) (r : Req) (ok : Bool) : Kept s (handle s r ok) := by
  unfold handle
  split
  · split
    · exact (Kept.of_conns rfl : Kept s { s with subs := s.subs.filter (fun q => !sameKey q r) ++ [r] }).trans (kept_resp ..)
    · exact kept_resp ..
  · split
    · exact (Kept.of_conns rfl : Kept s { s with subs := s.subs.filter (fun q => !sameKey q r) }).trans (kept_resp ..)
    · exact kept_resp ..
  · exact kept_resp ..

/-- A step other than the end of a connection -/
theorem kept_step (s : State) (op : Op) (hop : ∀ c, op ≠ .close c) : Kept s (step s op) := by
  cases op with
  | message c m =>
    simp only [step]
    split
    · exact kept_message ..
    · exact Kept.of_conns rfl
  | handle n ok =>
    simp only [step]
    split
    · exact (Kept.of_conns rfl : Kept s { s with queue := s.queue.eraseIdx n }).trans (kept_handle ..)
    · exact Kept.refl s
  | change n =>
    simp only [step]
    split
    · exact kept_resp ..
    · exact Kept.refl s
  | close c => exact absurd rfl (hop c)

theorem ids_kept (ops : List Op) (c : Nat) (i : Int) : ∀ s : State, (s.conns c).alive = true → (s.conns c).ids.mem i = true →
    Connected ops c → ((run s ops).conns c).ids.mem i = true := by
  induction ops with
  | nil => intro s _ h _; exact h
  | cons op ops ih =>
    intro s ha hi hc
    have hc2 : Connected ops c := fun hm => hc (List.mem_cons_of_mem _ hm)
    by_cases hop : ∀ d, op ≠ .close d
    · have k := kept_step s op hop
      exact ih _ ((k.alive c).trans ha) (k.ids c i ha hi) hc2
    · have hop' : ∃ d, op = .close d := Classical.byContradiction fun h => hop fun d hd => h ⟨d, hd⟩
      obtain ⟨d, rfl⟩ := hop'
      have hne : c ≠ d := fun e => hc (by rw [e]; exact List.mem_cons_self ..)
      refine ih _ ?_ ?_ hc2
      · simpa [step, setConn, hne] using ha
      · simpa [step, setConn, hne] using hi

theorem subscribe_takes (s : State) (c : Nat) (i : Int) (mri : Mri) (ha : (s.conns c).alive = true) :
    ((step s (.message c ⟨some i, some (.subscribe, mri)⟩)).conns c).ids.mem i = true := by
  simp only [step, ha, if_true, onMessage, dispatch]
  split
  · rename_i h
    exact (kept_write _ _ _).ids c i ha h
  · refine (kept_report _ _).ids c i ?_ ?_
    · simp [setConn, ha]
    · simp [setConn, Dict.mem, Dict.get?_set_self]

/-- C42, second part. Once a client has asked for a subscription with an id, a further one with the same id is turned
down, as long as it stays connected: it is answered by an error, to the same client, and the subscriptions there are,
and the requests under way, stay as they are. -/
theorem duplicate_rejected (known : Mri → Bool) (writeable : Nat → Bool) (ops later : List Op) (c : Nat) (i : Int) (mri mri' : Mri)
    (hc : Connected (ops ++ later) c) :
    let s := run (start known writeable) (ops ++ [.message c ⟨some i, some (.subscribe, mri)⟩] ++ later)
    let s' := step s (.message c ⟨some i, some (.subscribe, mri')⟩)
    s'.out = s.out ++ [(c, ⟨i, .error, s.count⟩)] ∧ s'.subs = s.subs ∧ s'.queue = s.queue ∧ s'.conns = s.conns := by
  intro s s'
  have hc1 : Connected ops c := fun h => hc (List.mem_append_left _ h)
  have hc2 : Connected later c := fun h => hc (List.mem_append_right _ h)
  have ha1 := alive_of ops c (start known writeable) rfl hc1
  have hm1 := subscribe_takes (run (start known writeable) ops) c i mri ha1
  have ha2 : ((step (run (start known writeable) ops) (.message c ⟨some i, some (.subscribe, mri)⟩)).conns c).alive = true :=
    ((kept_step _ _ (by intro d h; cases h)).alive c).trans ha1
  have hs : s = run (step (run (start known writeable) ops) (.message c ⟨some i, some (.subscribe, mri)⟩)) later := by
    simp [s, run]
  have ha := alive_of later c _ ha2 hc2
  have hi := ids_kept later c i _ ha2 hm1 hc2
  rw [← hs] at ha hi
  have : s' = { s with count := s.count + 1, out := s.out ++ [(c, ⟨i, .error, s.count⟩)] } := by
    simp [s', step, ha, onMessage, dispatch, hi, fail, write]
  rw [this]
  exact ⟨rfl, rfl, rfl, rfl⟩

/-- The connection that a step is about -/
def actor (s : State) : Op → Option Nat
  | .message c _ => some c
  | .handle n _ => (s.queue[n]?).map (·.conn)
  | .change n => (s.subs[n]?).map (·.conn)
  | .close c => some c

/-- What there is of a connection -/
def part (s : State) (d : Nat) : List Req × List Req × List Resp × Conn :=
  (s.queue.filter (·.conn == d), s.subs.filter (·.conn == d), (s.out.filter (·.1 == d)).map (·.2), s.conns d)

theorem part_set (s : State) (c d : Nat) (k : Conn) (h : d ≠ c) : part (setConn s c k) d = part s d := by
  simp [part, setConn, h]

theorem part_write (s : State) (c d : Nat) (r : Resp) (h : d ≠ c) : part (write s c r) d = part s d := by
  unfold write
  split
  · simp [part, List.filter_append, List.filter_cons, Ne.symm h]
  · rfl

theorem part_report (s : State) (r : Req) (d : Nat) (h : d ≠ r.conn) : part (report s r) d = part s d := by
  unfold report
  split
  · simp [part, List.filter_append, List.filter_cons, Ne.symm h]
  · exact part_write _ _ _ _ h

theorem part_resp (s : State) (c d : Nat) (r : Resp) (h : d ≠ c) : part (onResponse s c r) d = part s d := by
  unfold onResponse
  split
  · exact part_write _ _ _ _ h
  · split
    · split
      · rw [part_report _ _ _ (by exact h), part_set _ _ _ _ h]
      · rfl
    · rfl

theorem part_dispatch (s : State) (c d : Nat) (id : Int) (k : Kind) (mri : Mri) (tag : Nat) (h : d ≠ c) :
    part (dispatch s c id k mri tag) d = part s d := by
  unfold dispatch
  dsimp only
  split
  · split
    · exact part_write _ _ _ _ h
    · rw [part_report _ _ _ (by exact h), part_set _ _ _ _ h]
  · split
    · exact part_report _ _ _ h
    · exact part_write _ _ _ _ h
  · split
    · exact part_report _ _ _ h
    · exact part_write _ _ _ _ h
  · split
    · exact part_report _ _ _ h
    · exact part_write _ _ _ _ h
  · exact part_report _ _ _ h

theorem filter_eraseIdx {α : Type} (p : α → Bool) (l : List α) (n : Nat) (a : α) (h : l[n]? = some a) (hp : p a = false) :
    (l.eraseIdx n).filter p = l.filter p := by
  induction l generalizing n with
  | nil => rfl
  | cons x l ih =>
    cases n with
    | zero => simp at h; subst h; simp [List.filter_cons, hp]
    | succ n => simp only [List.eraseIdx_cons_succ, List.filter_cons]; rw [ih n (by simpa using h)]

theorem filter_other (l : List Req) (r : Req) (d : Nat) (h : d ≠ r.conn) :
    (l.filter (fun q => !sameKey q r)).filter (·.conn == d) = l.filter (·.conn == d) := by
  rw [List.filter_filter]
  apply List.filter_congr
  intro q _
  cases hq : (q.conn == d)
  · rfl
  · have e := eq_of_beq hq
    simp [sameKey, e, h]

/-- C42, third part. What one client does, and what is done for it, changes nothing of another: neither its requests
under way, nor its subscriptions, nor what it has been sent. -/
theorem clients_apart (s : State) (op : Op) (d : Nat) (h : actor s op ≠ some d) : part (step s op) d = part s d := by
  cases op with
  | message c m =>
    have hd : d ≠ c := fun e => h (by simp [actor, e])
    simp only [step]
    split
    · unfold onMessage
      dsimp only
      have h0 : part { s with count := s.count + 1 } d = part s d := rfl
      split
      · rw [← h0]; exact part_write _ _ _ _ hd
      · split
        · rw [← h0]; exact part_write _ _ _ _ hd
        · rw [← h0]; exact part_dispatch _ _ _ _ _ _ _ hd
    · rfl
  | handle n ok =>
    simp only [step]
    split
    · rename_i r hn
      have hd : d ≠ r.conn := fun e => h (by simp [actor, hn, e])
      have h0 : part { s with queue := s.queue.eraseIdx n } d = part s d := by
        simp only [part]
        rw [filter_eraseIdx _ _ _ _ hn (by simpa using fun e => hd e.symm)]
      unfold handle
      split
      · split
        · rw [part_resp _ _ _ _ hd, ← h0]
          simp only [part, List.filter_append, filter_other _ _ _ hd]
          simp [List.filter_cons, Ne.symm hd]
        · rw [part_resp _ _ _ _ hd, h0]
      · split
        · rename_i q hq
          have hk := List.find?_some hq
          have hqc : q.conn = r.conn := by simp [sameKey] at hk; exact hk.1.2
          rw [part_resp _ _ _ _ (hqc ▸ hd), ← h0]
          simp only [part, filter_other _ _ _ hd]
        · rw [part_resp _ _ _ _ hd, h0]
      · rw [part_resp _ _ _ _ hd, h0]
    · rfl
  | change n =>
    simp only [step]
    split
    · rename_i r hn
      have hd : d ≠ r.conn := fun e => h (by simp [actor, hn, e])
      exact part_resp _ _ _ _ hd
    · rfl
  | close c =>
    have hd : d ≠ c := fun e => h (by simp [actor, e])
    exact part_set _ _ _ _ hd

/-- The id of a subscription that has ended stays taken: a client that has unsubscribed cannot subscribe again with
the same id, although the controller has forgotten it. -/
theorem unsubscribed_id_rejected :
    let s := run (start (fun m => m == "A") fun _ => true)
      [.message 0 ⟨some 1, some (.subscribe, "A")⟩, .handle 0 true, .message 0 ⟨some 1, some (.unsubscribe, "")⟩, .handle 0 true,
       .message 0 ⟨some 1, some (.subscribe, "A")⟩]
    s.subs = [] ∧ s.queue = [] ∧
    s.out = [(0, ⟨1, .update, 0⟩), (0, ⟨1, .value, 0⟩), (0, ⟨1, .error, 2⟩)] := by
  decide +kernel

/-- So does the id of a subscription to a block that does not exist, once it exists. -/
theorem failed_id_rejected :
    let s := run (start (fun m => m == "A") fun _ => true)
      [.message 0 ⟨some 1, some (.subscribe, "B")⟩, .message 0 ⟨some 1, some (.subscribe, "A")⟩]
    s.subs = [] ∧ s.queue = [] ∧ s.out = [(0, ⟨1, .error, 0⟩), (0, ⟨1, .error, 1⟩)] := by
  decide +kernel

/-- An Unsubscribe handled before the Subscribe that it ends: the client is told of an error, and gets updates for ever. -/
theorem unsubscribe_overtakes :
    let s := run (start (fun m => m == "A") fun _ => true)
      [.message 0 ⟨some 1, some (.subscribe, "A")⟩, .message 0 ⟨some 1, some (.unsubscribe, "")⟩, .handle 1 true, .handle 0 true]
    s.subs = [⟨0, 1, .subscribe, "A", 0⟩] ∧ s.queue = [] ∧ s.out = [(0, ⟨1, .error, 1⟩), (0, ⟨1, .update, 0⟩)] := by
  decide +kernel

theorem unwriteable_kept (ops : List Op) : ∀ s : State, ∀ c, ((run s ops).conns c).writeable = (s.conns c).writeable := by
  induction ops with
  | nil => intro s c; rfl
  | cons op ops ih =>
    intro s c
    refine (ih (step s op) c).trans ?_
    by_cases hop : ∀ d, op ≠ .close d
    · exact (kept_step s op hop).writeable c
    · have hop' : ∃ d, op = .close d := Classical.byContradiction fun h => hop fun d hd => h ⟨d, hd⟩
      obtain ⟨d, rfl⟩ := hop'
      simp only [step, setConn]
      split <;> rename_i g <;> simp [g]

/-- Which requests a step hands to a controller -/
theorem queue_step (s : State) (op : Op) : ∀ r ∈ (step s op).queue, r ∈ s.queue ∨
    (r.kind ≠ .put ∧ r.kind ≠ .post) ∨ (s.conns r.conn).writeable = true := by
  have hw : ∀ (s : State) (c : Nat) (r : Resp), (write s c r).queue = s.queue := by
    intro s c r; unfold write; split <;> rfl
  have hr : ∀ (s : State) (q : Req), ∀ r ∈ (report s q).queue, r ∈ s.queue ∨ r = q := by
    intro s q r h
    unfold report at h
    split at h
    · simpa using h
    · rw [fail, hw] at h; exact Or.inl h
  have ho : ∀ (s : State) (c : Nat) (a : Resp), ∀ r ∈ (onResponse s c a).queue, r ∈ s.queue ∨ r.kind = .unsubscribe := by
    intro s c a r h
    unfold onResponse at h
    split at h
    · rw [hw] at h; exact Or.inl h
    · split at h
      · split at h
        · rcases hr _ _ _ h with h | h
          · exact Or.inl h
          · exact Or.inr (by rw [h])
        · exact Or.inl h
      · exact Or.inl h
  intro r h
  cases op with
  | message c m =>
    simp only [step] at h
    split at h
    · unfold onMessage at h
      dsimp only at h
      split at h
      · rw [fail, hw] at h; exact Or.inl h
      · split at h
        · rw [fail, hw] at h; exact Or.inl h
        · unfold dispatch at h
          dsimp only at h
          split at h
          · split at h
            · rw [fail, hw] at h; exact Or.inl h
            · rcases hr _ _ _ h with h | h
              · exact Or.inl h
              · rw [h]; exact Or.inr (Or.inl (by simp))
          · split at h
            · rcases hr _ _ _ h with h | h
              · exact Or.inl h
              · rw [h]; exact Or.inr (Or.inl (by simp))
            · rw [fail, hw] at h; exact Or.inl h
          · split at h
            · rename_i hwr
              rcases hr _ _ _ h with h | h
              · exact Or.inl h
              · rw [h]; exact Or.inr (Or.inr hwr)
            · rw [fail, hw] at h; exact Or.inl h
          · split at h
            · rename_i hwr
              rcases hr _ _ _ h with h | h
              · exact Or.inl h
              · rw [h]; exact Or.inr (Or.inr hwr)
            · rw [fail, hw] at h; exact Or.inl h
          · rcases hr _ _ _ h with h | h
            · exact Or.inl h
            · rw [h]; exact Or.inr (Or.inl (by simp))
    · exact Or.inl h
  | handle n ok =>
    simp only [step] at h
    have aux : ∀ (s' : State) (c : Nat) (a : Resp), s'.queue = s.queue.eraseIdx n → r ∈ (onResponse s' c a).queue →
        r ∈ s.queue ∨ (r.kind ≠ .put ∧ r.kind ≠ .post) ∨ (s.conns r.conn).writeable = true := by
      intro s' c a e h
      rcases ho _ _ _ _ h with h | h
      · rw [e] at h; exact Or.inl (List.mem_of_mem_eraseIdx h)
      · exact Or.inr (Or.inl (by rw [h]; simp))
    split at h
    · unfold handle at h
      split at h
      · split at h
        · exact aux _ _ _ rfl h
        · exact aux _ _ _ rfl h
      · split at h
        · exact aux _ _ _ rfl h
        · exact aux _ _ _ rfl h
      · exact aux _ _ _ rfl h
    · exact Or.inl h
  | change n =>
    simp only [step] at h
    split at h
    · rcases ho _ _ _ _ h with h | h
      · exact Or.inl h
      · exact Or.inr (Or.inl (by rw [h]; simp))
    · exact Or.inl h
  | close c => exact Or.inl h

/-- C61, first part. A client may write if no interfaces were found to check against, or if its address is in the
network of one of them. -/
theorem may_write_iff (interfaces : List (BitVec 32 × BitVec 32)) (remote : BitVec 32) :
    mayWrite interfaces remote = true ↔ interfaces = [] ∨ ∃ i ∈ interfaces, InNetwork i remote := by
  have key : ∀ i : BitVec 32 × BitVec 32, validator i.1 i.2 remote = true ↔ InNetwork i remote := by
    intro i
    simp only [validator, beq_iff_eq, InNetwork]
    constructor
    · intro h b hb hm
      have := congrArg (fun v => v.getLsbD b) h
      simpa [BitVec.getLsbD_and, hm] using this
    · intro h
      apply BitVec.eq_of_getLsbD_eq
      intro b hb
      simp only [BitVec.getLsbD_and]
      cases hm : i.2.getLsbD b
      · simp
      · simp [h b hb hm]
  unfold mayWrite
  split
  · rename_i h; simp [h]
  · rename_i h
    simp [h, List.any_eq_true, key]

/-- C61, second part. No Put and no Post of a client that may not write ever reaches a block. -/
theorem read_only_client (known : Mri → Bool) (writeable : Nat → Bool) (ops : List Op) (c : Nat) (h : writeable c = false) :
    ∀ r ∈ (run (start known writeable) ops).queue, r.conn = c → r.kind ≠ .put ∧ r.kind ≠ .post := by
  refine snoc_ind (P := fun ops => ∀ r ∈ (run (start known writeable) ops).queue, r.conn = c → r.kind ≠ .put ∧ r.kind ≠ .post) ?_ ?_ ops
  · intro r hr; simp [run, start] at hr
  · intro ops op ih r hr hc
    rw [run_snoc] at hr
    rcases queue_step _ _ r hr with g | g | g
    · exact ih r g hc
    · exact g
    · rw [unwriteable_kept, hc] at g
      simp [start, h] at g

/-- C61, third part. Each of them is answered by an error, and so is not one of a client that may, to a block that
exists. -/
theorem write_checked (known : Mri → Bool) (writeable : Nat → Bool) (ops : List Op) (c : Nat) (i : Int) (k : Kind) (mri : Mri)
    (hk : k = .put ∨ k = .post) (hc : Connected ops c) :
    let s := run (start known writeable) ops
    let s' := step s (.message c ⟨some i, some (k, mri)⟩)
    (writeable c = false → s'.out = s.out ++ [(c, ⟨i, .error, s.count⟩)] ∧ s'.queue = s.queue) ∧
    (writeable c = true → s.known mri = true → s'.out = s.out ∧ s'.queue = s.queue ++ [⟨c, i, k, mri, s.count⟩]) := by
  intro s s'
  have ha : (s.conns c).alive = true := alive_of ops c (start known writeable) rfl hc
  have hw : (s.conns c).writeable = writeable c := unwriteable_kept ops _ c
  constructor
  · intro h
    rw [h] at hw
    have : s' = { s with count := s.count + 1, out := s.out ++ [(c, ⟨i, .error, s.count⟩)] } := by
      rcases hk with rfl | rfl <;> simp [s', step, ha, onMessage, dispatch, hw, fail, write]
    rw [this]
    exact ⟨rfl, rfl⟩
  · intro h hkn
    rw [h] at hw
    have : s' = { s with count := s.count + 1, queue := s.queue ++ [⟨c, i, k, mri, s.count⟩] } := by
      rcases hk with rfl | rfl <;> simp [s', step, ha, onMessage, dispatch, hw, report, hkn]
    rw [this]
    exact ⟨rfl, rfl⟩

/-- A network of 256 addresses and one machine, and three clients -/
example : mayWrite [(0xC0A80105, 0xFFFFFF00), (0x7F000001, 0xFFFFFFFF)] 0xC0A80142 = true ∧
    mayWrite [(0xC0A80105, 0xFFFFFF00), (0x7F000001, 0xFFFFFFFF)] 0xC0A80242 = false ∧
    mayWrite [(0xC0A80105, 0xFFFFFF00), (0x7F000001, 0xFFFFFFFF)] 0x7F000001 = true := by decide +kernel

/-- Two clients, one of which may not write: each gets what is meant for it, and the subscription of the first ends
with the value for it -/
example : (run (start (fun m => m == "A") fun c => c == 0)
      [.message 0 ⟨some 1, some (.subscribe, "A")⟩, .message 1 ⟨some 1, some (.put, "A")⟩, .handle 0 true, .message 0 ⟨some 2, some (.put, "A")⟩,
       .message 1 ⟨some 1, some (.get, "A")⟩, .change 0, .handle 1 true, .handle 0 false,
       .message 0 ⟨some 1, some (.unsubscribe, "")⟩, .handle 0 true]).out =
    [(1, ⟨1, .error, 1⟩), (0, ⟨1, .update, 0⟩), (0, ⟨1, .update, 0⟩), (1, ⟨1, .value, 3⟩), (0, ⟨2, .error, 2⟩), (0, ⟨1, .value, 0⟩)] := by
  decide +kernel

end Verif.Props.WebClients
