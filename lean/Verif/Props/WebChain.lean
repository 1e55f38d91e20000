import Verif.Spec.WebChain
import Verif.Props.WebFlow
import Verif.Props.WebClient
import Verif.Props.ProxyRemote
/-!
C112: a proxy over a websocket, from end to end.
-/
namespace Verif.Props.WebChain
open Verif Verif.WebChain Verif.Proxy Verif.Spec.Proxy Verif.Spec.WebChain Verif.Props.Proxy
open Verif.WebClient (Client Who Resp Kind outId toWho out pending sendRequest tellAll reportFault onMessage readNext finish fail)
open Verif.Spec.WebClient (received given Tame Honest respId)
open Verif.Spec.WebFlow (told upTo Fine Calm By)

/-! ### What the subscription of the proxy is given -/

theorem take_range' (a : Nat) : ∀ (m n : Nat), m ≤ n → (List.range' a n).take m = List.range' a m
  | 0, _, _ => rfl
  | m + 1, n + 1, h => by
    rw [List.range'_succ, List.take_succ_cons, List.range'_succ, take_range' (a + 1) m n (by omega)]

theorem given_prefix (s : Client) (id : Nat) : given s id <+: outId s id := by
  unfold given outId out
  rw [List.filter_append]
  exact List.prefix_append _ _

theorem updates_map (w : Who) (ms : List WebClient.Msg) (h : ∀ m ∈ ms, m.kind = .update) :
    updates (ms.map fun m => (w, Resp.reply m)) = ms.length := by
  unfold updates
  rw [List.countP_map, List.countP_eq_length]
  intro m hm
  simp [h m hm]

/-- What was given is the first so many of the messages, and after all of them perhaps the error that the connection was lost -/
theorem given_take (es : List WebClient.Ev) (ht : Tame es) (hh : Honest es) (c id : Nat) (w : Who)
    (ha : (some c, id, w) ∈ (WebClient.run {} es).asked) (hu : ∀ m ∈ received es id, m.kind = .update) :
    ∃ n, n ≤ (received es id).length ∧ updates (given (WebClient.run {} es) id) = n ∧
      (given (WebClient.run {} es) id = toWho w ((received es id).take n) ∨
       given (WebClient.run {} es) id = toWho w ((received es id).take n) ++ [(w, .disconnected id)]) := by
  have hp := given_prefix (WebClient.run {} es) id
  have key : ∀ (l : List (Who × Resp)), l <+: toWho w (received es id) →
      l = toWho w ((received es id).take l.length) ∧ l.length ≤ (received es id).length := by
    intro l hl
    have h1 := List.prefix_iff_eq_take.1 hl
    refine ⟨?_, by simpa [toWho] using hl.length_le⟩
    rw [toWho, List.map_take]
    exact h1
  have fin : ∀ l : List (Who × Resp), l <+: toWho w (received es id) →
      ∃ n, n ≤ (received es id).length ∧ updates l = n ∧ l = toWho w ((received es id).take n) := by
    intro l hl
    obtain ⟨h1, h2⟩ := key l hl
    refine ⟨l.length, h2, ?_, h1⟩
    rw [h1]
    unfold toWho
    rw [updates_map w _ (fun m hm => hu m (List.mem_of_mem_take hm))]
    simp
  rcases (WebClient.T.run es ht hh).stands c id w ha with ⟨h, _⟩ | ⟨h, _⟩ | ⟨h, _⟩
  · rw [h] at hp
    obtain ⟨n, h1, h2, h3⟩ := fin _ hp
    exact ⟨n, h1, h2, .inl h3⟩
  · rw [h] at hp
    obtain ⟨n, h1, h2, h3⟩ := fin _ hp
    exact ⟨n, h1, h2, .inl h3⟩
  · rw [h] at hp
    rcases List.prefix_concat_iff.1 hp with e | e
    · refine ⟨(received es id).length, Nat.le_refl _, ?_, .inr ?_⟩
      · rw [e]
        unfold updates
        rw [List.countP_append]
        have := updates_map w (received es id) hu
        unfold updates at this
        unfold toWho
        rw [this]
        simp
      · rw [List.take_length]; exact e
    · obtain ⟨n, h1, h2, h3⟩ := fin _ e
      exact ⟨n, h1, h2, .inl h3⟩

theorem proxy_append (enc : Enc) (deltas : List (List Change)) (b : Block) (l l' : List (Who × Resp)) :
    proxy enc deltas b (l ++ l') = proxy enc deltas (proxy enc deltas b l) l' := by
  unfold proxy; rw [List.foldl_append]

/-- Messages with the numbers 1, 2, 3 … make the proxy handle the Deltas in order -/
theorem proxy_numbers (enc : Enc) (w : Who) : ∀ (ms : List WebClient.Msg) (deltas : List (List Change)) (k : Nat) (b : Block),
    ms.map (fun m => (m.kind, m.body)) = (List.range' (k + 1) ms.length).map (fun n => (Kind.update, n)) →
    k + ms.length ≤ deltas.length →
    proxy enc deltas b (toWho w ms) = handleDeltas enc b ((deltas.drop k).take ms.length)
  | [], _, _, _, _, _ => rfl
  | m :: ms, deltas, k, b, h, hl => by
    simp only [List.length_cons, List.range'_succ, List.map_cons, List.cons.injEq, Prod.mk.injEq] at h hl
    obtain ⟨⟨h1, h2⟩, h3⟩ := h
    have ih := proxy_numbers enc w ms deltas (k + 1) (handleDelta enc b (deltaOf deltas m.body)).1 h3 (by omega)
    have hk : k < deltas.length := by omega
    have e : proxy enc deltas b (toWho w (m :: ms)) = proxy enc deltas (handleDelta enc b (deltaOf deltas m.body)).1 (toWho w ms) := by
      show proxy enc deltas (onResponse enc deltas b (.reply m)) (toWho w ms) = _
      simp only [onResponse, if_pos h1]
    rw [e, ih, h2]
    have e2 : deltaOf deltas (k + 1) = deltas[k] := by simp [deltaOf, List.getElem?_eq_getElem hk]
    rw [e2, List.drop_eq_getElem_cons hk, List.length_cons, List.take_succ_cons]
    rfl

/-- What the proxy is, as long as what was written comes in the order of the numbers -/
theorem proxy_take (enc : Enc) (deltas : List (List Change)) (b : Block) (ces : List WebClient.Ev) (ht : Tame ces) (hh : Honest ces)
    (c id : Nat) (w : Who) (ha : (some c, id, w) ∈ (WebClient.run {} ces).asked) (written : List Nat) (ver : Nat) (hw : written <+: upTo ver)
    (hc : Carried written (read ces id)) (hv : ver ≤ deltas.length) :
    let g := given (WebClient.run {} ces) id
    updates g ≤ ver ∧ proxy enc deltas b g = handleDeltas enc b (deltas.take (updates g)) := by
  intro g
  have hr : (received ces id).map (fun m => (m.kind, m.body)) <+: (upTo ver).map (fun n => (Kind.update, n)) :=
    hc.trans (List.IsPrefix.map _ hw)
  have hlen : (received ces id).length ≤ ver := by
    have := hr.length_le
    simpa [upTo] using this
  have heq : (received ces id).map (fun m => (m.kind, m.body)) = (List.range' 1 (received ces id).length).map (fun n => (Kind.update, n)) := by
    have h1 := List.prefix_iff_eq_take.1 hr
    rw [h1, List.length_map, ← List.map_take, upTo, take_range' _ _ _ hlen]
  have hu : ∀ m ∈ received ces id, m.kind = .update := by
    intro m hm
    have : (m.kind, m.body) ∈ (List.range' 1 (received ces id).length).map (fun n => (Kind.update, n)) := by
      rw [← heq]; exact List.mem_map_of_mem hm
    obtain ⟨n, _, e⟩ := List.mem_map.1 this
    injection e with e _
    exact e.symm
  obtain ⟨n, h1, h2, h3⟩ := given_take ces ht hh c id w ha hu
  have hpart : proxy enc deltas b (toWho w ((received ces id).take n)) = handleDeltas enc b (deltas.take n) := by
    have e : ((received ces id).take n).length = n := by simp; omega
    have := proxy_numbers enc w ((received ces id).take n) deltas 0 b (by
      rw [List.map_take, heq, ← List.map_take, take_range' _ _ _ h1, e]) (by rw [e]; omega)
    rw [e] at this
    simpa using this
  refine ⟨by show updates g ≤ ver; rw [h2]; omega, ?_⟩
  show proxy enc deltas b g = handleDeltas enc b (deltas.take (updates g))
  rw [h2]
  rcases h3 with h3 | h3
  · rw [show g = _ from h3]; exact hpart
  · rw [show g = _ from h3, proxy_append, hpart]; rfl

theorem allBelow_append : ∀ (a c : List Change) (t : Notifier.Tree), AllBelow t (a ++ c) → AllBelow t a
  | [], _, _, _ => trivial
  | .set _ _ :: a, c, _, h => ⟨h.1, allBelow_append a c _ h.2⟩
  | .whole _ _ :: _, _, _, h => h.elim
  | .delete _ :: _, _, _, h => h.elim

theorem handle_take (enc : Enc) {h0 : Notifier.Tree} {old : List String} {b : Block} (hb : Base h0 old b) (names : List String) (d : Notifier.Tree)
    (rest : List (List Change)) (hd : Deltas enc b names d rest) (n : Nat) (hn : n ≠ 0) :
    (handleDeltas enc b (([Change.whole names d] :: rest).take n)).tree = remoteAt d rest n := by
  match n, hn with
  | n + 1, _ =>
    rw [List.take_succ_cons]
    refine mirror_partial enc hb names d hd.whole (rest.take n) ?_
    have h := hd.below
    rw [← List.take_append_drop n rest, List.flatten_append] at h
    exact allBelow_append _ _ _ h

/-! ### The claims -/

/-- C112, partial. At any time the proxy shows the remote block as it was at some moment: after as many Deltas as it has been given, none of them
left out or exchanged. It does so also after the connection was lost. For servers on which no change is made before those before it
have been handed over, and blocks that keep their fields. -/
theorem shows_past_partial (subs : List Nat) (ses : List WebFlow.Ev) (s c : Nat) (hs : subs[s]? = some c) (hf : ∀ e ∈ ses, Fine e)
    (hcm : Calm (WebFlow.init subs) ses) (ces : List WebClient.Ev) (ht : Tame ces) (hh : Honest ces) (cc id : Nat) (w : Who)
    (ha : (some cc, id, w) ∈ (WebClient.run {} ces).asked) (hc : Carried (sent subs ses s c) (read ces id)) (enc : Enc) {h0 : Notifier.Tree}
    {old : List String} {b : Block} (hb : Base h0 old b) (names : List String) (d : Notifier.Tree) (rest : List (List Change))
    (hd : Deltas enc b names d rest) (hv : (WebFlow.run (WebFlow.init subs) ses).ver ≤ rest.length + 1) :
    let g := given (WebClient.run {} ces) id
    updates g ≤ (WebFlow.run (WebFlow.init subs) ses).ver ∧ (updates g = 0 → proxy enc ([.whole names d] :: rest) b g = b) ∧
    (updates g ≠ 0 → (proxy enc ([.whole names d] :: rest) b g).tree = remoteAt d rest (updates g)) := by
  intro g
  obtain ⟨h1, h2⟩ := proxy_take enc ([.whole names d] :: rest) b ces ht hh cc id w ha (sent subs ses s c) _
    (WebFlow.told_in_order_partial subs ses s c hs hf hcm) hc (by simpa using hv)
  refine ⟨h1, ?_, ?_⟩
  · intro h; rw [h2, show updates (given (WebClient.run {} ces) id) = 0 from h]; rfl
  · intro h; rw [h2]; exact handle_take enc hb names d rest hd _ h

/-- C112, partial. When the server has written all, the client has read all and run its callbacks, and the connection is there, the proxy shows the
remote block as it is. -/
theorem shows_now_partial (subs : List Nat) (t : Nat) (ses : List WebFlow.Ev) (s c : Nat) (hs : subs[s]? = some c) (hf : ∀ e ∈ ses, Fine e)
    (hby : ∀ e ∈ ses, By t e) (hal : ((WebFlow.run (WebFlow.init subs) ses).conns c).alive = true)
    (hq : (WebFlow.run (WebFlow.init subs) ses).held = [] ∧ (WebFlow.run (WebFlow.init subs) ses).todo = [])
    (ces : List WebClient.Ev) (ht : Tame ces) (hh : Honest ces) (hcl : (WebClient.run {} ces).calls = []) (cc id : Nat) (w : Who)
    (ha : (some cc, id, w) ∈ (WebClient.run {} ces).asked) (hc : Arrived (sent subs ses s c) (read ces id)) (enc : Enc) (b : Block)
    (deltas : List (List Change)) (hv : deltas.length = (WebFlow.run (WebFlow.init subs) ses).ver) :
    proxy enc deltas b (given (WebClient.run {} ces) id) = handleDeltas enc b deltas := by
  have hall := WebFlow.shown_partial subs t ses s c hs hf hby hal hq
  have hc' : Carried (sent subs ses s c) (read ces id) := by rw [Carried, hc]; exact List.prefix_refl _
  obtain ⟨_, h2⟩ := proxy_take enc deltas b ces ht hh cc id w ha (sent subs ses s c) _
    (by unfold sent; rw [hall]; exact List.prefix_refl _) hc' (by omega)
  rw [h2]
  have hr : (received ces id).map (fun m => (m.kind, m.body)) = (upTo (WebFlow.run (WebFlow.init subs) ses).ver).map (fun n => (Kind.update, n)) := by
    have := hc
    unfold Arrived Spec.WebChain.read sent at this
    rw [hall] at this
    exact this
  have hlen : (received ces id).length = deltas.length := by
    have := congrArg List.length hr
    simpa [upTo, hv] using this
  have hu : ∀ m ∈ received ces id, m.kind = .update := by
    intro m hm
    have : (m.kind, m.body) ∈ (upTo (WebFlow.run (WebFlow.init subs) ses).ver).map (fun n => (Kind.update, n)) := by
      rw [← hr]; exact List.mem_map_of_mem hm
    obtain ⟨n, _, e⟩ := List.mem_map.1 this
    injection e with e _
    exact e.symm
  have hup : updates (given (WebClient.run {} ces) id) = deltas.length := by
    rcases WebClient.answered_partial ces ht hh hcl cc id w ha with ⟨h, _⟩ | ⟨h, _⟩ | ⟨h, _⟩
    · rw [h, updates_map w _ hu, hlen]
    · rw [h, updates_map w _ hu, hlen]
    · rw [h]
      have := updates_map w (received ces id) hu
      unfold updates at this ⊢
      rw [List.countP_append, this, hlen]
      simp
  rw [hup, List.take_length]

open Verif.Notifier Verif.Notifier.Spec Verif.Props.Notifier Verif.Props.ProxyRemote in
/-- C112, from end to end, partial: the block and its notifier, the server that writes the Deltas of the subscription, the connection, the client
and the proxy. When nothing is on its way any more, the proxy equals the block. -/
theorem end_to_end_partial {D block before later} {x : Sub} (hx : x.path = []) (hxd : x.delta = true)
    (hl : Legal D block (before ++ .subscribe x :: later)) (hp : Plain D (before ++ .subscribe x :: later) [])
    (hq0 : ((State.init block).run before).count = 0) (hnew : Op.subscribe x ∉ before)
    (M E : Path → Prop) (hsh : Shape M E ((State.init block).run before).cur) (hk : ∀ op ∈ later, Keeps M E x op)
    (hquiet : ((State.init block).run (before ++ .subscribe x :: later)).count = 0)
    (enc : Enc) {h0 : Tree} {old : List String} {b : Proxy.Block} (hb : Base h0 old b) (names : List String)
    (hw : Whole enc b names ((State.init block).run before).cur)
    (subs : List Nat) (t : Nat) (ses : List WebFlow.Ev) (s c : Nat) (hs : subs[s]? = some c) (hf : ∀ e ∈ ses, Fine e)
    (hby : ∀ e ∈ ses, By t e) (hal : ((WebFlow.run (WebFlow.init subs) ses).conns c).alive = true)
    (hq : (WebFlow.run (WebFlow.init subs) ses).held = [] ∧ (WebFlow.run (WebFlow.init subs) ses).todo = [])
    (hv : (deltasOf names (Notifier.Spec.received ((State.init block).run (before ++ .subscribe x :: later)).sent x)).length
      = (WebFlow.run (WebFlow.init subs) ses).ver)
    (ces : List WebClient.Ev) (ht : Tame ces) (hh : Honest ces) (hcl : (WebClient.run {} ces).calls = []) (cc id : Nat) (w : Who)
    (ha : (some cc, id, w) ∈ (WebClient.run {} ces).asked) (hc : Arrived (sent subs ses s c) (read ces id)) :
    (proxy enc (deltasOf names (Notifier.Spec.received ((State.init block).run (before ++ .subscribe x :: later)).sent x)) b
      (given (WebClient.run {} ces) id)).tree = ((State.init block).run (before ++ .subscribe x :: later)).cur := by
  rw [shows_now_partial subs t ses s c hs hf hby hal hq ces ht hh hcl cc id w ha hc enc b _ hv]
  exact proxy_follows_partial hx hxd hl hp hq0 hnew M E hsh hk hquiet enc hb names hw

/-! ### When the connection is lost -/

/-- The request has been ended: it is not looked for any more -/
def Closed (s : Client) (id : Nat) : Prop := s.lookup.get? id = none ∧ id < s.nextId

theorem finish_same (s : Client) (t : St) : (finish s t).lookup = s.lookup ∧ (finish s t).nextId = s.nextId ∧ (finish s t).got = s.got ∧
    (finish s t).calls = s.calls := by
  unfold finish; split
  · simp
  · split <;> simp

theorem fail_same (s : Client) : (fail s).lookup = s.lookup ∧ (fail s).nextId = s.nextId ∧ (fail s).got = s.got ∧ (fail s).calls = s.calls := by
  unfold fail; split <;> simp

theorem readNext_same (s : Client) (n : Nat) : (readNext s n).lookup = s.lookup ∧ (readNext s n).nextId = s.nextId ∧ (readNext s n).got = s.got ∧
    (readNext s n).calls = s.calls := by
  unfold readNext; split <;> simp

theorem same_closed {s t : Client} {id : Nat} (h : Closed s id) (h1 : t.lookup = s.lookup ∧ t.nextId = s.nextId) (h2 : out t = out s) :
    Closed t id ∧ outId t id = outId s id := by
  unfold Closed outId
  rw [h1.1, h1.2, h2]
  exact ⟨h, rfl⟩

theorem closed_tell {s : Client} {id : Nat} (h : Closed s id) : Closed (tellAll s) id ∧ (tellAll s).got.filter (fun x => respId x.2 = id) = s.got.filter (fun x => respId x.2 = id) := by
  refine ⟨⟨rfl, h.2⟩, ?_⟩
  unfold tellAll
  dsimp only
  rw [List.filter_append]
  have : (s.lookup.map fun x => ((x.2, Resp.disconnected x.1) : Who × Resp)).filter (fun x => respId x.2 = id) = [] := by
    rw [List.filter_eq_nil_iff]
    intro x hx
    obtain ⟨y, hy, rfl⟩ := List.mem_map.1 hx
    intro e
    have e : y.1 = id := of_decide_eq_true e
    have := (Dict.get?_none_iff).1 h.1
    exact this (e ▸ List.mem_map_of_mem (f := Prod.fst) hy)
  rw [this, List.append_nil]

theorem closed_step {s : Client} {id : Nat} (h : Closed s id) (e : WebClient.Ev) : Closed (WebClient.step s e) id ∧ outId (WebClient.step s e) id = outId s id := by
  cases e with
  | request n ok => exact same_closed h ⟨rfl, rfl⟩ rfl
  | task =>
    simp only [WebClient.step]
    split
    · exact ⟨h, rfl⟩
    · rename_i t ts _
      cases t with
      | connect => exact same_closed h ⟨rfl, rfl⟩ rfl
      | close => exact same_closed h ⟨rfl, rfl⟩ rfl
      | send w ok =>
        refine ⟨⟨?_, Nat.lt_succ_of_lt h.2⟩, rfl⟩
        show Dict.get? (Dict.set s.lookup s.nextId w) id = none
        rw [Dict.get?_set_ne _ _ (by have := h.2; omega)]
        exact h.1
  | opened =>
    simp only [WebClient.step]
    split
    · exact ⟨h, rfl⟩
    · exact same_closed h ⟨rfl, rfl⟩ (by simp [out, pending])
  | refused => exact same_closed h ⟨rfl, rfl⟩ rfl
  | message n m =>
    simp only [WebClient.step]
    split
    · obtain ⟨r1, r2, r3, r4⟩ := readNext_same (onMessage s m) n
      have ho : Closed (onMessage s m) id ∧ outId (onMessage s m) id = outId s id := by
        unfold onMessage
        split
        · exact ⟨h, rfl⟩
        · rename_i w hw
          have hne : m.id ≠ id := by intro e; rw [e, h.1] at hw; cases hw
          refine ⟨⟨?_, h.2⟩, ?_⟩
          · dsimp only
            split
            · exact h.1
            · rw [Dict.get?_erase_ne _ (by omega)]; exact h.1
          · simp [outId, out, pending, respId, hne]
      have := same_closed (t := readNext (onMessage s m) n) ho.1 ⟨r1, r2⟩ (by unfold out; rw [r3, r4])
      exact ⟨this.1, this.2.trans ho.2⟩
    · exact ⟨h, rfl⟩
  | junk n =>
    simp only [WebClient.step]
    split
    · obtain ⟨r1, r2, r3, r4⟩ := readNext_same s n
      exact same_closed h ⟨r1, r2⟩ (by unfold out; rw [r3, r4])
    · exact ⟨h, rfl⟩
  | lost n =>
    simp only [WebClient.step]
    split
    · exact same_closed h ⟨rfl, rfl⟩ (by simp [out, pending])
    · exact ⟨h, rfl⟩
  | call =>
    simp only [WebClient.step]
    split
    · exact ⟨h, rfl⟩
    · rename_i c cs hcs
      cases c with
      | connected => exact same_closed h ⟨rfl, rfl⟩ (by unfold out; rw [hcs]; rfl)
      | deliver w m => exact same_closed h ⟨rfl, rfl⟩ (by simp [out, hcs, pending, WebClient.runCall])
      | fault =>
        simp only [WebClient.runCall, reportFault]
        have hc0 : Closed { s with calls := cs } id := h
        have ho0 : outId { s with calls := cs } id = outId s id := by unfold outId out; rw [hcs]; rfl
        split
        · obtain ⟨k1, k2⟩ := closed_tell hc0
          refine ⟨k1, ?_⟩
          rw [← ho0]
          unfold outId out
          rw [List.filter_append, List.filter_append, k2]
          rfl
        · split
          · obtain ⟨k1, k2⟩ := closed_tell (s := { s with calls := cs, state := .fault }) h
            refine ⟨k1, ?_⟩
            rw [← ho0]
            unfold outId out
            rw [List.filter_append, List.filter_append, k2]
            rfl
          · exact ⟨hc0, ho0⟩
  | reset =>
    simp only [WebClient.step]
    split
    · split <;> exact same_closed h ⟨rfl, rfl⟩ rfl
    · exact ⟨h, rfl⟩
  | started =>
    simp only [WebClient.step]
    split
    · obtain ⟨r1, r2, r3, r4⟩ := finish_same { s with tokens := s.tokens - 1, tasks := s.tasks ++ [.send .client true], job := .idle } .ready
      exact same_closed h ⟨r1, r2⟩ (by unfold out; rw [r3, r4])
    · exact ⟨h, rfl⟩
  | disable =>
    simp only [WebClient.step]
    split
    · split <;> exact same_closed h ⟨rfl, rfl⟩ rfl
    · exact ⟨h, rfl⟩
  | stopped =>
    simp only [WebClient.step]
    split
    · obtain ⟨r1, r2, r3, r4⟩ := finish_same { s with tokens := s.tokens - 1, conn := none, job := .idle } .disabled
      exact same_closed h ⟨r1, r2⟩ (by unfold out; rw [r3, r4])
    · exact ⟨h, rfl⟩
  | timeout =>
    simp only [WebClient.step]
    split
    · exact ⟨h, rfl⟩
    · obtain ⟨r1, r2, r3, r4⟩ := fail_same { s with job := .idle }
      exact same_closed h ⟨r1, r2⟩ (by unfold out; rw [r3, r4])

theorem closed_run {id : Nat} : ∀ (es : List WebClient.Ev) {s : Client}, Closed s id → outId (WebClient.run s es) id = outId s id
  | [], _, _ => rfl
  | e :: es, s, h => by
    obtain ⟨h1, h2⟩ := closed_step h e
    exact (closed_run es h1).trans h2

theorem got_step (s : Client) (e : WebClient.Ev) : s.got <+: (WebClient.step s e).got := by
  have r : ∀ t : Client, t.got = s.got → s.got <+: t.got := fun t h => by rw [h]; exact List.prefix_refl _
  cases e with
  | request n ok => exact r _ rfl
  | task =>
    simp only [WebClient.step]
    split
    · exact r _ rfl
    · rename_i t ts _
      cases t <;> exact r _ rfl
  | opened => simp only [WebClient.step]; split <;> exact r _ rfl
  | refused => exact r _ rfl
  | message n m =>
    simp only [WebClient.step]
    split
    · refine r _ ((readNext_same _ n).2.2.1.trans ?_)
      unfold onMessage; split <;> rfl
    · exact r _ rfl
  | junk n =>
    simp only [WebClient.step]
    split
    · exact r _ (readNext_same _ n).2.2.1
    · exact r _ rfl
  | lost n => simp only [WebClient.step]; split <;> exact r _ rfl
  | call =>
    simp only [WebClient.step]
    split
    · exact r _ rfl
    · rename_i c cs _
      cases c with
      | connected => exact r _ rfl
      | deliver w m => exact List.prefix_append _ _
      | fault =>
        simp only [WebClient.runCall, reportFault]
        split
        · exact List.prefix_append _ _
        · split
          · exact List.prefix_append _ _
          · exact r _ rfl
  | reset =>
    simp only [WebClient.step]
    split
    · split <;> exact r _ rfl
    · exact r _ rfl
  | started =>
    simp only [WebClient.step]
    split
    · exact r _ (finish_same _ _).2.2.1
    · exact r _ rfl
  | disable =>
    simp only [WebClient.step]
    split
    · split <;> exact r _ rfl
    · exact r _ rfl
  | stopped =>
    simp only [WebClient.step]
    split
    · exact r _ (finish_same _ _).2.2.1
    · exact r _ rfl
  | timeout =>
    simp only [WebClient.step]
    split
    · exact r _ rfl
    · exact r _ (fail_same _).2.2.1

theorem got_run : ∀ (es : List WebClient.Ev) (s : Client), s.got <+: (WebClient.run s es).got
  | [], _ => List.prefix_refl _
  | e :: es, s => (got_step s e).trans (got_run es _)

/-- C112 fails when the connection is lost: once the subscription of a proxy has been told so, the proxy never changes again, whatever the client does - it may
be reset and have a new connection - and whatever servers send. -/
theorem frozen (es more : List WebClient.Ev) (id : Nat) (w : Who) (h : (w, Resp.disconnected id) ∈ (WebClient.run {} es).got)
    (hc : (WebClient.run {} es).calls = []) (enc : Enc) (deltas : List (List Change)) (b : Block) :
    proxy enc deltas b (given (WebClient.run {} (es ++ more)) id) = proxy enc deltas b (given (WebClient.run {} es) id) := by
  have g := WebClient.G.run es
  have hout : (w, Resp.disconnected id) ∈ out (WebClient.run {} es) := by simp [out, h]
  have hb := g.one id
  have h1 : 1 ≤ (out (WebClient.run {} es)).countP (WebClient.endOf id) :=
    List.countP_pos_iff.2 ⟨_, hout, by simp [WebClient.endOf, respId, Spec.WebClient.Ends]⟩
  have hborn : WebClient.born (WebClient.run {} es).nextId id ≤ 1 ∧ (1 ≤ WebClient.born (WebClient.run {} es).nextId id → id < (WebClient.run {} es).nextId) := by
    unfold WebClient.born; split <;> simp <;> omega
  have hm : (Dict.mem (WebClient.run {} es).lookup id) = false := by
    cases hx : Dict.mem (WebClient.run {} es).lookup id
    · rfl
    · rw [hx] at hb; simp only [Bool.toNat_true] at hb; omega
  have hcl : Closed (WebClient.run {} es) id := by
    refine ⟨?_, hborn.2 (by omega)⟩
    simpa [Dict.mem] using hm
  have e : outId (WebClient.run {} (es ++ more)) id = outId (WebClient.run {} es) id := by
    have : WebClient.run {} (es ++ more) = WebClient.run (WebClient.run {} es) more := by simp [WebClient.run]
    rw [this]; exact closed_run more hcl
  have e0 : outId (WebClient.run {} es) id = given (WebClient.run {} es) id := by simp [outId, out, hc, given]
  obtain ⟨tail, ht⟩ := given_prefix (WebClient.run {} (es ++ more)) id
  rw [e, e0] at ht
  obtain ⟨tail', ht'⟩ : ∃ t', given (WebClient.run {} (es ++ more)) id = given (WebClient.run {} es) id ++ t' := by
    have := got_run more (WebClient.run {} es)
    rw [show WebClient.run (WebClient.run {} es) more = WebClient.run {} (es ++ more) by simp [WebClient.run]] at this
    obtain ⟨l, hl⟩ := this
    exact ⟨l.filter fun x => respId x.2 = id, by unfold given; rw [← hl, List.filter_append]⟩
  have : tail' = [] := by
    rw [ht'] at ht
    have := congrArg List.length ht
    rw [List.length_append, List.length_append] at this
    exact List.eq_nil_of_length_eq_zero (by omega)
  rw [ht', this, List.append_nil]

/-! ### Concrete cases -/

open Verif.Props.ProxyRemote (here there me code num later later_meets deltasOf models parts)

/-- A client that is connected and whose proxy has subscribed: with the id 2 -/
def linked : List WebClient.Ev := [.reset, .task, .opened, .call, .started, .task, .request 1 true, .task]

/-- It reads Deltas with these numbers -/
def reads (ns : List Nat) : List WebClient.Ev := ns.flatMap fun n => [.message 0 ⟨2, .update, n⟩, .call]

/-- A server with a client, which makes three Deltas -/
def three : List WebFlow.Ev := [.change 1 [], .work, .change 1 [], .change 1 [], .work, .work]

theorem reads_tame (ns : List Nat) : Tame (linked ++ reads ns) := by
  have h1 : ∀ e ∈ linked ++ reads ns, (∀ n, e ≠ .lost n) ∧ e ≠ .timeout := by
    intro e he
    rcases List.mem_append.1 he with he | he
    · simp [linked] at he
      rcases he with rfl | rfl | rfl | rfl | rfl | rfl | rfl | rfl <;> exact ⟨by simp, by simp⟩
    · simp [reads] at he
      obtain ⟨n, _, rfl | rfl⟩ := he <;> exact ⟨by simp, by simp⟩
  refine ⟨fun pre n post he => absurd rfl ((h1 (.lost n) (he ▸ by simp)).1 n), fun pre post he => absurd rfl (h1 .timeout (he ▸ by simp)).2⟩

theorem reads_honest : Honest (linked ++ reads [1, 2, 3]) := by
  intro pre n m post he
  refine WebClient.split_at (linked ++ reads [1, 2, 3]) (fun pre e post => ∀ n m, e = .message n m →
    (∃ c w, (WebClient.run {} pre).loops[n]? = some c ∧ (some c, m.id, w) ∈ (WebClient.run {} pre).asked) ∧
      ∀ m' ∈ received pre m.id, m'.kind = .update) ?_ pre _ post he n m rfl
  intro i hi n m hm
  have : i < 14 := hi
  match i, this with
  | 0, _ | 1, _ | 2, _ | 3, _ | 4, _ | 5, _ | 6, _ | 7, _ | 9, _ | 11, _ | 13, _ => cases hm
  | 8, _ | 10, _ | 12, _ => cases hm; exact ⟨⟨0, .user 1, by decide +kernel⟩, by decide +kernel⟩
  | n + 14, h => omega

/-- The block of C43 is changed twice, and all arrives: it meets the hypotheses of `end_to_end_partial` -/
theorem three_arrive :
    let s := (Notifier.State.init there).run (.subscribe me :: later)
    (proxy code (deltasOf ["meta", "health", "a", "t"] (Notifier.Spec.received s.sent me)) here
      (given (WebClient.run {} (linked ++ reads [1, 2, 3])) 2)).tree = s.cur := by
  obtain ⟨hlegal, hplain, hshape, hkeeps, hbase, hwhole⟩ := later_meets
  exact end_to_end_partial (before := []) rfl rfl hlegal hplain rfl (by simp) models parts hshape hkeeps (by decide +kernel) code hbase
    ["meta", "health", "a", "t"] hwhole [0] 1 three 0 0 rfl
    (by intro e he; simp [three] at he; rcases he with rfl | rfl | rfl | rfl | rfl | rfl <;> first | rfl | trivial)
    (by intro e he; simp [three] at he; rcases he with rfl | rfl | rfl | rfl | rfl | rfl <;> first | rfl | trivial)
    (by decide +kernel) (by decide +kernel) (by decide +kernel) (linked ++ reads [1, 2, 3]) (reads_tame _) reads_honest (by decide +kernel)
    0 2 (.user 1) (by decide +kernel) (by unfold Arrived; decide +kernel)

/-- It has been given two of three: `shows_past_partial` -/
example : let g := given (WebClient.run {} (linked ++ reads [1, 2])) 2
    updates g = 2 ∧ Carried (sent [0] three 0 0) (Spec.WebChain.read (linked ++ reads [1, 2]) 2) ∧
    (proxy code [[.whole ["meta", "health", "a", "t"] there], [.set ["a", "value"] (num 5)], [.set ["a", "value"] (num 6)]] here g).tree
      ["a", "value"] = some (.leaf 5) := by
  unfold Carried; decide +kernel

/-- The Deltas of a block whose `a` gets these values -/
def counted (ns : List Int) : List (List Change) :=
  [.whole ["meta", "health", "a", "t"] there] :: ns.map fun n => [.set ["a", "value"] (num n)]

/-- Against the property: two threads change the block at once, and the client has two subscriptions. All has arrived, the connection is there,
and the proxy shows what is no longer so. -/
theorem overtaken_proxy :
    let ces := linked ++ reads [1, 2, 3, 4, 6, 5]
    Arrived (sent [0, 0] WebFlow.race 1 0) (Spec.WebChain.read ces 2) ∧ (WebClient.run {} ces).calls = [] ∧ (WebClient.run {} ces).state = .ready ∧
    (WebFlow.run (WebFlow.init [0, 0]) WebFlow.race).held = [] ∧ (WebFlow.run (WebFlow.init [0, 0]) WebFlow.race).todo = [] ∧
    (WebFlow.run (WebFlow.init [0, 0]) WebFlow.race).ver = 6 ∧ remoteAt there (((counted [2, 3, 4, 5, 6]).drop 1)) 6 ["a", "value"] = some (.leaf 6) ∧
    (proxy code (counted [2, 3, 4, 5, 6]) here (given (WebClient.run {} ces) 2)).tree ["a", "value"] = some (.leaf 5) := by
  unfold Arrived; decide +kernel

/-- The connection is lost, then the client is reset, has a connection and is Ready -/
def again : List WebClient.Ev := [.lost 0, .call, .reset, .task, .opened, .call, .started, .task, .call]

/-- Against the property: the proxy does not show that its connection was lost, nor does it after that show anything new: its health
is what the remote block said last, and a client that is reset is Ready although the proxy is dead. -/
theorem lost_unseen (more : List WebClient.Ev) (ns : List Int) :
    let ces := linked ++ reads [1] ++ again
    (WebClient.run {} ces).state = .ready ∧ (WebClient.run {} ces).conn = some 1 ∧
    given (WebClient.run {} ces) 2 = [(.user 1, .reply ⟨2, .update, 1⟩), (.user 1, .disconnected 2)] ∧
    (proxy code (counted ns) here (given (WebClient.run {} (ces ++ more)) 2)).tree ["a", "value"] = some (.leaf 4) ∧
    (proxy code (counted ns) here (given (WebClient.run {} (ces ++ more)) 2)).tree ["health", "value"] = some (.leaf 3) := by
  have hg : given (WebClient.run {} (linked ++ reads [1] ++ again)) 2 = [(.user 1, .reply ⟨2, .update, 1⟩), (.user 1, .disconnected 2)] := by
    decide +kernel
  have hf := frozen (linked ++ reads [1] ++ again) more 2 (.user 1) (by decide +kernel) (by decide +kernel) code (counted ns) here
  refine ⟨by decide +kernel, by decide +kernel, hg, ?_, ?_⟩
  · rw [hf, hg]
    show (handleDelta code here [.whole ["meta", "health", "a", "t"] there]).1.tree ["a", "value"] = some (.leaf 4)
    decide +kernel
  · rw [hf, hg]
    show (handleDelta code here [.whole ["meta", "health", "a", "t"] there]).1.tree ["health", "value"] = some (.leaf 3)
    decide +kernel

end Verif.Props.WebChain
