import Verif.Proofs.WebClient
/-!
C62 and C63: the requests of a web client.
-/
namespace Verif.Props.WebClient
open Verif.WebClient Verif.Spec.WebClient Verif.Dict

/-- C62: requests are numbered 1, 2, ... in the order in which they are sent, over all connections, so no two have the same
id -/
theorem numbered (es : List Ev) :
    (run {} es).asked.map (fun x => x.2.1) = List.range' 1 (run {} es).asked.length := (G.run es).num

/-- C62: whatever a server sends, and however connections come and go, what the callback of a caller is called with is a
response to a request of this caller: its id is the one that was given for it, and as ids are different, for no other -/
theorem own_reply (es : List Ev) (w : Who) (r : Resp) (h : (w, r) ∈ (run {} es).got) :
    (∃ c, (c, respId r, w) ∈ (run {} es).asked) ∧ ∀ c v, (c, respId r, v) ∈ (run {} es).asked → v = w := by
  have g := G.run es
  obtain ⟨c, hc⟩ := g.own w r (by simp [out, h])
  exact ⟨⟨c, hc⟩, fun d v hd => (g.id_unique hd hc).2⟩

/-- what is pending or given was received -/
theorem out_received (es : List Ev) : ∀ w m, (w, Resp.reply m) ∈ out (run {} es) → m ∈ received es m.id := by
  refine snoc_ind (P := fun es => ∀ w m, (w, Resp.reply m) ∈ out (run {} es) → m ∈ received es m.id) ?_ ?_ es
  · intro w m h; simp [run, out] at h
  · intro es e ih w m h
    have key : (w, Resp.reply m) ∈ out (run {} es) → m ∈ received (es ++ [e]) m.id := by
      intro h; rw [received_snoc]; exact List.mem_append.2 (.inl (ih w m h))
    rw [run_snoc] at h
    generalize run {} es = s at h ih key
    have fin : ∀ (t : Client) (st : St), out (finish t st) = out t := by
      intro t st; unfold finish; split
      · rfl
      · split <;> rfl
    have fl : ∀ (t : Client), out (fail t) = out t := by
      intro t; unfold fail; split <;> rfl
    have rd : ∀ (t : Client) (n : Nat), out (readNext t n) = out t := by
      intro t n; unfold readNext; split <;> rfl
    have tell : ∀ (t : Client), (w, Resp.reply m) ∈ out (tellAll t) → (w, Resp.reply m) ∈ out t := by
      intro t h
      simp only [out, tellAll, List.mem_append, List.mem_map] at h ⊢
      rcases h with (h | ⟨x, _, hx⟩) | h
      · exact .inl h
      · cases hx
      · exact .inr h
    cases e with
    | request n ok => exact key h
    | task =>
      simp only [step] at h
      split at h
      · exact key h
      · next t _ _ => cases t <;> exact key h
    | opened =>
      simp only [step] at h
      split at h
      · exact key h
      · exact key (by simpa [out, pending] using h)
    | refused => exact key h
    | message n m' =>
      simp only [step] at h
      split at h
      · rw [rd] at h
        unfold onMessage at h
        split at h
        · exact key h
        · next v _ =>
          simp only [out, List.filterMap_append, List.filterMap_cons, pending, List.filterMap_nil, List.mem_append,
            List.mem_singleton] at h
          rcases h with h | h | h
          · exact key (by simp only [out, List.mem_append]; exact .inl h)
          · exact key (by simp only [out, List.mem_append]; exact .inr h)
          · cases h; simp [received]
      · exact key h
    | junk n =>
      simp only [step] at h
      split at h
      · rw [rd] at h; exact key h
      · exact key h
    | lost n =>
      simp only [step] at h
      split at h
      · exact key (by simpa [out, pending] using h)
      · exact key h
    | call =>
      simp only [step] at h
      split at h
      · exact key h
      · next c cs hc =>
        cases c with
        | connected => exact key (by simpa [out, hc, List.filterMap_cons, pending, runCall] using h)
        | fault =>
          have hk : (w, Resp.reply m) ∈ out { s with calls := cs } → m ∈ received (es ++ [.call]) m.id := by
            intro h; exact key (by simpa [out, hc, List.filterMap_cons, pending] using h)
          simp only [runCall, reportFault] at h
          split at h
          · exact hk (tell _ h)
          · split at h
            · exact hk (tell _ h)
            · exact hk h
        | deliver v m' => exact key (by simpa [out, hc, List.filterMap_cons, pending, runCall] using h)
    | reset =>
      simp only [step] at h
      split at h
      · split at h <;> exact key h
      · exact key h
    | started =>
      simp only [step] at h
      split at h
      · rw [fin] at h; exact key h
      · exact key h
    | disable =>
      simp only [step] at h
      split at h
      · split at h <;> exact key h
      · exact key h
    | stopped =>
      simp only [step] at h
      split at h
      · rw [fin] at h; exact key h
      · exact key h
    | timeout =>
      simp only [step] at h
      split at h
      · exact key h
      · rw [fl] at h; exact key h

/-- C62: and it is either a message that came from the server with this id, or the error that says that the connection was
lost -/
theorem from_server (es : List Ev) (w : Who) (r : Resp) (h : (w, r) ∈ (run {} es).got) :
    (∃ m ∈ received es (respId r), r = .reply m) ∨ r = .disconnected (respId r) := by
  cases r with
  | reply m => exact .inl ⟨m, out_received es w m (by simp [out, h]), rfl⟩
  | disconnected id => exact .inr rfl

/-- C62: no request is ended twice, whatever the server sends -/
theorem ended_once (es : List Ev) (id : Nat) : ((given (run {} es) id).filter fun x => Ends x.2).length ≤ 1 := by
  have h := (G.run es).one id
  have hb : born (run {} es).nextId id ≤ 1 := by unfold born; split <;> omega
  have he : ((given (run {} es) id).filter fun x => Ends x.2).length = (run {} es).got.countP (endOf id) := by
    rw [given, List.filter_filter, List.countP_eq_length_filter]
    congr 2
    funext x
    simp [endOf, Bool.and_comm]
  rw [out, List.countP_append] at h
  omega

/-- C62, partial. If the server only answers what it was asked, once, and the client is neither reset nor disabled after it
has lost a connection unexpectedly, then each request that was written to a connection is given exactly the messages with its id, in the order
in which they came; and if its connection is lost before one of them ends it, then, as the last, the error that says so. So
once all callbacks have run a caller is only left waiting on a connection that is there. Missing: requests that were not
written, and clients that were reset or disabled after a connection was lost; see `sent_while_disconnected`,
`not_encoded`, `disable_overtakes_fault`, `stale_token_hides_fault` and `late_connection_faults` -/
theorem answered_partial (es : List Ev) (ht : Tame es) (hh : Honest es) (hc : (run {} es).calls = []) (c id : Nat) (w : Who)
    (ha : (some c, id, w) ∈ (run {} es).asked) :
    let ms := (received es id).map fun m => (w, Resp.reply m)
    (given (run {} es) id = ms ∧ ∃ m ∈ received es id, m.kind ≠ .update) ∨
    (given (run {} es) id = ms ∧ c ∈ (run {} es).loops ∧ ∀ m ∈ received es id, m.kind = .update) ∨
    (given (run {} es) id = ms ++ [(w, .disconnected id)] ∧ c ∉ (run {} es).loops ∧ ∀ m ∈ received es id, m.kind = .update) := by
  have h := (T.run es ht hh).stands c id w ha
  have ho : outId (run {} es) id = given (run {} es) id := by simp [outId, out, hc, given]
  simp only [Stands, ho, hc, List.not_mem_nil, or_false, toWho] at h
  rcases h with ⟨a, _, b, d⟩ | ⟨a, _, b⟩ | ⟨a, _, b, d⟩
  · exact .inr (.inl ⟨a, b, d⟩)
  · exact .inl ⟨a, b⟩
  · exact .inr (.inr ⟨a, b, d⟩)

/-- A client connects, two callers send requests, the first is answered, the connection is lost and that is reported -/
def lostHistory : List Ev :=
  [.reset, .task, .opened, .call, .started, .task, .request 1 true, .request 2 true, .task, .task,
   .message 0 ⟨1, .update, 5⟩, .message 0 ⟨3, .value, 7⟩, .call, .call, .lost 0, .call]

example : (run {} lostHistory).asked = [(some 0, 1, .client), (some 0, 2, .user 1), (some 0, 3, .user 2)] ∧
    (run {} lostHistory).calls = [] ∧
    given (run {} lostHistory) 1 = [(.client, .reply ⟨1, .update, 5⟩), (.client, .disconnected 1)] ∧
    given (run {} lostHistory) 2 = [(.user 1, .disconnected 2)] ∧
    given (run {} lostHistory) 3 = [(.user 2, .reply ⟨3, .value, 7⟩)] := by decide +kernel

theorem split_at {α : Type} (l : List α) (p : List α → α → List α → Prop)
    (h : ∀ i, (hi : i < l.length) → p (l.take i) l[i] (l.drop (i + 1))) : ∀ pre e post, l = pre ++ e :: post → p pre e post := by
  intro pre e post he
  subst he
  have := h pre.length (by simp)
  simpa using this

/-- It meets the hypotheses of `answered_partial` -/
example : Tame lostHistory ∧ Honest lostHistory := by
  refine ⟨⟨?_, ?_⟩, ?_⟩
  · intro pre n post he
    refine split_at lostHistory (fun pre e post => ∀ n, e = .lost n → Unexpected pre n → Ev.reset ∉ post ∧ Ev.disable ∉ post) ?_
      pre _ post he n rfl
    intro i hi n hn _
    have : ∀ i, (hi : i < lostHistory.length) → (∃ n, lostHistory[i] = .lost n) →
        Ev.reset ∉ lostHistory.drop (i + 1) ∧ Ev.disable ∉ lostHistory.drop (i + 1) := by
      intro i hi hex
      have h14 : i = 14 := by
        obtain ⟨n, hn⟩ := hex
        have hlen : lostHistory.length = 16 := rfl
        have : i < 16 := hi
        match i, this with
        | 0, _ | 1, _ | 2, _ | 3, _ | 4, _ | 5, _ | 6, _ | 7, _ | 8, _ | 9, _ | 10, _ | 11, _ | 12, _ | 13, _ | 15, _ => cases hn
        | 14, _ => rfl
        | n + 16, h => omega
      subst h14
      decide
    exact this i hi ⟨n, hn⟩
  · intro pre post he
    exfalso
    have : Ev.timeout ∈ lostHistory := he ▸ by simp
    revert this
    decide
  · intro pre n m post he
    refine split_at lostHistory (fun pre e post => ∀ n m, e = .message n m →
      (∃ c w, (run {} pre).loops[n]? = some c ∧ (some c, m.id, w) ∈ (run {} pre).asked) ∧
        ∀ m' ∈ received pre m.id, m'.kind = .update) ?_ pre _ post he n m rfl
    intro i hi n m hm
    have : i < 16 := hi
    match i, this with
    | 0, _ | 1, _ | 2, _ | 3, _ | 4, _ | 5, _ | 6, _ | 7, _ | 8, _ | 9, _ | 12, _ | 13, _ | 14, _ | 15, _ => cases hm
    | 10, _ => cases hm; exact ⟨⟨0, .client, by decide +kernel⟩, by decide +kernel⟩
    | n + 16, h => omega
    | 11, _ => cases hm; exact ⟨⟨0, .user 2, by decide +kernel⟩, by decide +kernel⟩

/-! ### What the code does otherwise -/

/-- Nothing is left to be done, and no connection is there: as long as nobody resets the client, nothing more happens -/
def Settled (s : Client) : Prop := s.tasks = [] ∧ s.calls = [] ∧ s.loops = [] ∧ s.opening = 0 ∧ s.job = .idle

instance (s : Client) : Decidable (Settled s) := by unfold Settled; infer_instance

/-- C62, the negation of the full statement: a put or a post that is sent after a connection was lost, when that has been
reported, is never answered. The caller waits for ever, as `send_put` and `send_post` wait without a time limit -/
theorem sent_while_disconnected :
    let s := run {} (lostHistory ++ [.request 3 true, .task])
    Settled s ∧ s.state = .fault ∧ (none, 4, .user 3) ∈ s.asked ∧ given s 4 = [] := by decide +kernel

/-- C62: neither is one that cannot be encoded, although the connection is there -/
theorem not_encoded :
    let s := run {} [.reset, .task, .opened, .call, .started, .task, .request 1 false, .task]
    s.state = .ready ∧ s.loops = [0] ∧ s.tasks = [] ∧ s.calls = [] ∧ (none, 2, .user 1) ∈ s.asked ∧ given s 2 = [] := by decide +kernel

/-- C62: a client that is disabled just after its connection was lost is Disabled when that is to be reported, which
then raises, so that requests that were sent are never answered -/
theorem disable_overtakes_fault :
    let s := run {} [.reset, .task, .opened, .call, .started, .task, .request 1 true, .task, .lost 0, .disable, .call]
    Settled s ∧ s.state = .disabled ∧ (some 0, 2, .user 1) ∈ s.asked ∧ given s 2 = [] := by decide +kernel

/-- C62: a connection that is lost unexpectedly leaves an item in the queue that tells `reset` of a connection and
`disable` of its end. So after a reset, `disable` does not wait for the end, which then cannot be reported: requests are never
answered -/
theorem stale_token_hides_fault :
    let s := run {} [.reset, .task, .opened, .call, .started, .task, .lost 0, .call,
      .reset, .task, .opened, .call, .started, .task, .request 1 true, .task, .disable, .task, .stopped, .lost 0, .call]
    Settled s ∧ s.state = .disabled ∧ (some 1, 3, .user 1) ∈ s.asked ∧ given s 3 = [] := by decide +kernel

/-- C62: a client that gave up waiting for its connection is in Fault; when the connection is made and then lost this cannot be
reported, as there is no transition from Fault to Fault -/
theorem late_connection_faults :
    let s := run {} [.reset, .task, .timeout, .opened, .call, .request 1 true, .task, .lost 0, .call]
    Settled s ∧ s.state = .fault ∧ (some 0, 1, .user 1) ∈ s.asked ∧ given s 1 = [] := by decide +kernel

/-! ### C63 -/

/-- the client has asked for the list of remote blocks on connection `c`, or will -/
def Subscribed (s : Client) (c : Nat) : Prop := Task.send .client true ∈ s.tasks ∨ ∃ id, (some c, id, .client) ∈ s.asked

theorem asked_mono (s : Client) (e : Ev) : ∀ x ∈ s.asked, x ∈ (step s e).asked := by
  intro x hx
  have fin : ∀ (t : Client) (st : St), (finish t st).asked = t.asked := by
    intro t st; unfold finish; split
    · rfl
    · split <;> rfl
  have fl : ∀ (t : Client), (fail t).asked = t.asked := by
    intro t; unfold fail; split <;> rfl
  have rd : ∀ (t : Client) (n : Nat), (readNext t n).asked = t.asked := by
    intro t n; unfold readNext; split <;> rfl
  cases e with
  | task =>
    simp only [step]
    split
    · exact hx
    · next t _ _ => cases t <;> simp [runTask, sendRequest, hx]
  | message n m =>
    simp only [step]
    split
    · rw [rd]; unfold onMessage; split <;> exact hx
    · exact hx
  | junk n =>
    simp only [step]
    split
    · rw [rd]; exact hx
    · exact hx
  | call =>
    simp only [step]
    split
    · exact hx
    · next c _ _ =>
      cases c with
      | fault =>
        simp only [runCall, reportFault]
        split
        · exact hx
        · split <;> exact hx
      | connected => exact hx
      | deliver w m => exact hx
  | started =>
    simp only [step]
    split
    · rw [fin]; exact hx
    · exact hx
  | stopped =>
    simp only [step]
    split
    · rw [fin]; exact hx
    · exact hx
  | timeout =>
    simp only [step]
    split
    · exact hx
    · rw [fl]; exact hx
  | request n ok => exact hx
  | opened => simp only [step]; split <;> exact hx
  | refused => exact hx
  | lost n => simp only [step]; split <;> exact hx
  | reset =>
    simp only [step]
    split
    · split <;> exact hx
    · exact hx
  | disable =>
    simp only [step]
    split
    · split <;> exact hx
    · exact hx

theorem tasks_mono (s : Client) (e : Ev) (he : e ≠ .task) : ∀ x ∈ s.tasks, x ∈ (step s e).tasks := by
  intro x hx
  have fin : ∀ (t : Client) (st : St), (finish t st).tasks = t.tasks := by
    intro t st; unfold finish; split
    · rfl
    · split <;> rfl
  have fl : ∀ (t : Client), (fail t).tasks = t.tasks := by
    intro t; unfold fail; split <;> rfl
  have rd : ∀ (t : Client) (n : Nat), (readNext t n).tasks = t.tasks := by
    intro t n; unfold readNext; split <;> rfl
  cases e with
  | task => exact absurd rfl he
  | message n m =>
    simp only [step]
    split
    · rw [rd]; unfold onMessage; split <;> exact hx
    · exact hx
  | junk n =>
    simp only [step]
    split
    · rw [rd]; exact hx
    · exact hx
  | call =>
    simp only [step]
    split
    · exact hx
    · next c _ _ =>
      cases c with
      | fault =>
        simp only [runCall, reportFault]
        split
        · exact hx
        · split <;> exact hx
      | connected => exact hx
      | deliver w m => exact hx
  | started =>
    simp only [step]
    split
    · rw [fin]; simp [hx]
    · exact hx
  | stopped =>
    simp only [step]
    split
    · rw [fin]; exact hx
    · exact hx
  | timeout =>
    simp only [step]
    split
    · exact hx
    · rw [fl]; exact hx
  | request n ok => simp [step, hx]
  | opened => simp only [step]; split <;> exact hx
  | refused => exact hx
  | lost n => simp only [step]; split <;> exact hx
  | reset =>
    simp only [step]
    split
    · split <;> simp [hx]
    · exact hx
  | disable =>
    simp only [step]
    split
    · split <;> simp [hx]
    · exact hx

theorem Subscribed.step {s : Client} {c : Nat} (h : Subscribed s c) (hc : s.conn = some c) (e : Ev) : Subscribed (step s e) c := by
  rcases h with h | ⟨id, h⟩
  · by_cases he : e = .task
    · subst he
      cases ht : s.tasks with
      | nil => rw [ht] at h; cases h
      | cons t ts =>
        rw [ht] at h
        rcases List.mem_cons.1 h with rfl | h'
        · refine .inr ⟨s.nextId, ?_⟩
          simp [WebClient.step, ht, runTask, sendRequest, hc]
        · refine .inl ?_
          cases t <;> simp [WebClient.step, ht, runTask, sendRequest, h']
    · exact .inl (tasks_mono s e he _ h)
  · exact .inr ⟨id, asked_mono s e _ h⟩

theorem ready_next {s : Client} {k : K} {e : Ev} {c : Nat} (h : nextK s k e = .ready c) :
    k = .ready c ∨ (e = .started ∧ k = .opened c ∧ 0 < s.tokens) := by
  cases e <;> simp only [nextK] at h <;> try exact .inl h
  · cases k <;> simp at h
    · split at h <;> cases h
    · exact .inl (by rw [h])
  · split at h
    · split at h <;> cases h
    · exact .inl h
  · cases k <;> simp at h
    exact .inl (by rw [h])
  · cases k <;> simp at h
    · split at h
      · cases h; exact .inr ⟨rfl, rfl, by assumption⟩
      · cases h
    · exact .inl (by rw [h])
  · cases k <;> simp at h
  · cases k <;> simp at h
    · exact .inl (by rw [h])
    · split at h <;> cases h
  · cases k <;> simp at h
    exact .inl (by rw [h])

/-- C63, partial. In a history in which the client is neither reset nor disabled after it has lost a connection unexpectedly: a
client that is Ready, with no fault still to be reported, has one connection and reads from it, and has asked for the list of
remote blocks on it, or is about to. Missing: clients that were reset after they lost a connection; see `reset_is_not_enough` -/
theorem ready_is_connected_partial (es : List Ev) (ht : Tame es) (hr : (run {} es).state = .ready)
    (hf : Call.fault ∉ (run {} es).calls) :
    ∃ c, (run {} es).conn = some c ∧ (run {} es).loops = [c] ∧
      (Task.send .client true ∈ (run {} es).tasks ∨ ∃ id, (some c, id, .client) ∈ (run {} es).asked) := by
  have key : ∀ es, Tame es → ∃ k, Ph (run {} es) k ∧ (∀ c, k = .ready c → Subscribed (run {} es) c) ∧
      (k = .lost → ∃ pre n post, es = pre ++ .lost n :: post ∧ Unexpected pre n) := by
    intro es
    refine snoc_ind (P := fun es => Tame es → ∃ k, Ph (run {} es) k ∧ (∀ c, k = .ready c → Subscribed (run {} es) c) ∧
      (k = .lost → ∃ pre n post, es = pre ++ .lost n :: post ∧ Unexpected pre n)) ?_ ?_ es
    · intro _; exact ⟨.off, by simp [run, Ph], by simp, by simp⟩
    · intro es e ih ht
      obtain ⟨k, hp, hk, hl⟩ := ih (tame_prefix ht)
      refine ⟨nextK (run {} es) k e, ?_, ?_, ?_⟩
      · rw [run_snoc]
        refine nextK_ph hp e ?_ ?_
        · intro hk'
          obtain ⟨pre, n, post, he, hu⟩ := hl hk'
          have := ht.1 pre n (post ++ [e]) (by simp [he]) hu
          simp at this
          exact ⟨fun h => this.1.2 h.symm, fun h => this.2.2 h.symm⟩
        · intro he; subst he; exact ht.2 es [] rfl
      · intro c hc
        rw [run_snoc]
        rcases ready_next hc with h | ⟨rfl, rfl, htok⟩
        · subst h
          exact (hk c rfl).step hp.1 e
        · refine .inl ?_
          have hj : (run {} es).job = .starting := hp.2.2.2.2.2.2.1
          simp only [step, hj, htok, and_self, ↓reduceIte, finish]
          split
          · simp
          · split <;> simp
      · intro hk'
        rcases nextK_lost hk' with h | ⟨n, rfl, h1, h2⟩
        · obtain ⟨pre, n, post, he, hu⟩ := hl h
          exact ⟨pre, n, post ++ [e], by simp [he], hu⟩
        · exact ⟨es, n, [], rfl, h1, h2⟩
  obtain ⟨k, hp, hk, hl⟩ := key es ht
  cases k with
  | off => have := hp.2.2.2.2.2.2.2.2; rw [hr] at this; rcases this with h | h <;> cases h
  | starting => have := hp.2.2.2.2.2.2.2; rw [hr] at this; cases this
  | opened c => have := hp.2.2.2.2.2.2.2; rw [hr] at this; cases this
  | ready c => exact ⟨c, hp.1, hp.2.1, hk c rfl⟩
  | stopping c => have := hp.2.2.2.2.2.2.2.2; rw [hr] at this; cases this
  | closed => have := hp.2.2.2.2.2.2.2.2; rw [hr] at this; cases this
  | lost =>
    have := hp.2.2.2.2.2.2.2.2 hf
    rw [hr] at this; cases this

/-- A client that is started, stopped and started again -/
def twice : List Ev :=
  [.reset, .task, .opened, .call, .started, .task, .disable, .task, .lost 0, .call, .stopped,
   .reset, .task, .opened, .call, .started, .task]

/-- It meets the hypotheses of `ready_is_connected_partial` -/
example : Tame twice ∧ (run {} twice).state = .ready ∧ Call.fault ∉ (run {} twice).calls ∧
    (run {} twice).asked = [(some 0, 1, .client), (some 1, 2, .client)] := by
  refine ⟨⟨?_, ?_⟩, by decide +kernel, by decide +kernel, by decide +kernel⟩
  · intro pre n post he
    refine split_at twice (fun pre e post => ∀ n, e = .lost n → Unexpected pre n → Ev.reset ∉ post ∧ Ev.disable ∉ post) ?_
      pre _ post he n rfl
    intro i hi n hn hu
    have : i < 17 := hi
    match i, this with
    | 0, _ | 1, _ | 2, _ | 3, _ | 4, _ | 5, _ | 6, _ | 7, _ | 9, _ | 10, _ | 11, _ | 12, _ | 13, _ | 14, _ | 15, _ | 16, _ => cases hn
    | 8, _ => exact absurd (by decide +kernel) hu.2
    | n + 17, h => omega
  · intro pre post he
    exfalso
    have : Ev.timeout ∈ twice := he ▸ by simp
    revert this
    decide

/-- C63, the negation of the full statement: a client that is reset after it lost its connection goes on at once, because of
the item that was left in the queue, before there is a connection. It is Ready; its request for the list of remote blocks is not
written; and when the connection is there, nothing asks for it again -/
theorem reset_is_not_enough :
    let before := [Ev.reset, .task, .opened, .call, .started, .task, .lost 0, .call, .reset, .started]
    let s := run {} (before ++ [.task, .task, .opened, .call])
    (run {} before).state = .ready ∧ (run {} before).conn = none ∧
    s.state = .ready ∧ s.conn = some 1 ∧ s.tasks = [] ∧ s.calls = [] ∧ s.asked = [(some 0, 1, .client), (none, 2, .client)] := by
  decide +kernel

end Verif.Props.WebClient
