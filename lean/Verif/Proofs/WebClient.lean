import Verif.Spec.WebClient
import Verif.Proofs.PyDict
/-! What holds after every history of a web client -/
namespace Verif.WebClient
open Verif.Spec.WebClient Verif.Dict

theorem run_snoc (s : Client) (es : List Ev) (e : Ev) : run s (es ++ [e]) = step (run s es) e := by simp [run]

/-- a response still to be given -/
def pending : Call → Option (Who × Resp)
  | .deliver w m => some (w, .reply m)
  | _ => none

/-- the responses given and still to be given -/
def out (s : Client) : List (Who × Resp) := s.got ++ s.calls.filterMap pending

def endOf (id : Nat) (x : Who × Resp) : Bool := respId x.2 = id && Ends x.2

/-- 1 if the id was given when `n` is next, else 0 -/
def born (n id : Nat) : Nat := if 1 ≤ id ∧ id < n then 1 else 0

structure G (s : Client) : Prop where
  num : s.asked.map (fun (x : Option Nat × Nat × Who) => x.2.1) = List.range' 1 s.asked.length
  next : s.nextId = s.asked.length + 1
  nod : s.lookup.keys.Nodup
  look : ∀ id w, s.lookup.get? id = some w → ∃ c, (c, id, w) ∈ s.asked
  own : ∀ w r, (w, r) ∈ out s → ∃ c, (c, respId r, w) ∈ s.asked
  one : ∀ id, (out s).countP (endOf id) + (s.lookup.mem id).toNat = born s.nextId id

theorem G.same {s t : Client} (h : G s) (h1 : t.nextId = s.nextId) (h2 : t.lookup = s.lookup) (h3 : t.asked = s.asked)
    (h4 : out t = out s) : G t where
  num := by rw [h3]; exact h.num
  next := by rw [h1, h3]; exact h.next
  nod := by rw [h2]; exact h.nod
  look := by rw [h2, h3]; exact h.look
  own := by rw [h4, h3]; exact h.own
  one := by rw [h4, h2, h1]; exact h.one

theorem countP_tell (d : Dict Nat Who) (hn : d.keys.Nodup) (id : Nat) :
    (d.map fun x => ((x.2, .disconnected x.1) : Who × Resp)).countP (endOf id) = (d.mem id).toNat := by
  induction d with
  | nil => simp [mem]
  | cons x d ih =>
    obtain ⟨k, w⟩ := x
    have hn' : k ∉ keys d ∧ (keys d).Nodup := by simpa [keys] using hn
    simp only [List.map_cons, List.countP_cons, ih hn'.2]
    by_cases hk : k = id
    · subst hk
      have : mem d k = false := by
        cases hm : mem d k
        · rfl
        · exact absurd (mem_iff.1 hm) hn'.1
      rw [this]
      simp [mem, get?_cons, endOf, respId, Ends]
    · simp [mem, get?_cons, endOf, respId, hk]

theorem G.send {s : Client} (h : G s) (w : Who) (ok : Bool) : G (sendRequest s w ok) := by
  have hfresh : s.lookup.get? s.nextId = none := by
    cases hg : s.lookup.get? s.nextId with
    | none => rfl
    | some w' =>
      obtain ⟨c, hc⟩ := h.look _ _ hg
      have hm : s.nextId ∈ s.asked.map (fun (x : Option Nat × Nat × Who) => x.2.1) := List.mem_map.2 ⟨_, hc, rfl⟩
      rw [h.num, List.mem_range'] at hm
      have := h.next
      obtain ⟨i, hi, he⟩ := hm
      omega
  constructor
  · simp only [sendRequest, List.map_append, h.num, List.map_cons, List.map_nil, List.length_append, List.length_cons,
      List.length_nil]
    rw [List.range'_concat]
    simp [h.next, Nat.add_comm]
  · simp [sendRequest, h.next]
  · exact nodup_set h.nod _ _
  · intro id w' hg
    simp only [sendRequest, get?_set] at hg
    split at hg
    · next he => cases hg; subst he; exact ⟨_, List.mem_append.2 (.inr (List.mem_singleton.2 rfl))⟩
    · obtain ⟨c, hc⟩ := h.look _ _ hg; exact ⟨c, by simp [sendRequest, hc]⟩
  · intro w' r hr
    obtain ⟨c, hc⟩ := h.own w' r hr
    exact ⟨c, by simp [sendRequest, hc]⟩
  · intro id
    have h1 := h.one id
    have hout : out (sendRequest s w ok) = out s := rfl
    rw [hout]
    simp only [sendRequest]
    have hnx := h.next
    by_cases hid : s.nextId = id
    · subst hid
      have e1 : born s.nextId s.nextId = 0 := by simp [born]
      have e2 : born (s.nextId + 1) s.nextId = 1 := by unfold born; rw [if_pos (by omega)]
      have e3 : mem (Dict.set s.lookup s.nextId w) s.nextId = true := by simp [mem]
      rw [e2, e3]
      rw [e1] at h1
      simp only [Bool.toNat_true]
      omega
    · have e3 : mem (Dict.set s.lookup s.nextId w) id = mem s.lookup id := by simp [mem, get?_set_ne _ _ hid]
      have e4 : born (s.nextId + 1) id = born s.nextId id := by
        have : (1 ≤ id ∧ id < s.nextId + 1) ↔ (1 ≤ id ∧ id < s.nextId) := by omega
        simp [born, this]
      rw [e3, e4, h1]

theorem G.onMessage {s : Client} (h : G s) (m : Msg) : G (onMessage s m) := by
  unfold WebClient.onMessage
  cases hg : s.lookup.get? m.id with
  | none => exact h
  | some w =>
    dsimp only
    have hout : ∀ l, out { s with lookup := l, calls := s.calls ++ [.deliver w m] } = out s ++ [(w, .reply m)] := by
      intro l; simp [out, pending]
    obtain ⟨c, hc⟩ := h.look _ _ hg
    constructor
    · exact h.num
    · exact h.next
    · dsimp only; split
      · exact h.nod
      · exact nodup_erase h.nod _
    · intro id w' hg'
      dsimp only at hg'
      split at hg'
      · exact h.look _ _ hg'
      · rw [get?_erase h.nod] at hg'
        split at hg'
        · cases hg'
        · exact h.look _ _ hg'
    · intro w' r hr
      rw [hout] at hr
      rcases List.mem_append.1 hr with hr | hr
      · exact h.own _ _ hr
      · simp at hr; obtain ⟨rfl, rfl⟩ := hr; exact ⟨c, hc⟩
    · intro id
      rw [hout, List.countP_append, List.countP_singleton]
      have h1 := h.one id
      by_cases hu : m.kind = .update
      · simp only [endOf, respId, Ends, hu, ↓reduceIte]; simpa using h1
      · by_cases hid : m.id = id
        · subst hid
          have hm : mem s.lookup m.id = true := by simp [mem, hg]
          have he : mem (erase s.lookup m.id) m.id = false := by simp [mem, get?_erase_self h.nod]
          rw [hm] at h1
          simp only [hu, ↓reduceIte, he, endOf, respId, Ends, decide_true, ne_eq, not_false_eq_true, Bool.and_self, Bool.false_eq_true, decide_not,
            decide_false, Bool.not_false]
          simpa using h1
        · have he : mem (erase s.lookup m.id) id = mem s.lookup id := by simp [mem, get?_erase_ne _ hid]
          simp only [hu, ↓reduceIte, he, endOf, respId, hid, decide_false, Bool.false_and, Bool.false_eq_true]
          simpa using h1

theorem G.tellAll {s : Client} (h : G s) : G (tellAll s) := by
  constructor
  · exact h.num
  · exact h.next
  · simp [WebClient.tellAll, keys]
  · intro id w hg; simp [WebClient.tellAll] at hg
  · intro w r hr
    simp only [out, WebClient.tellAll, List.mem_append, List.mem_map] at hr
    rcases hr with (hr | ⟨x, hx, he⟩) | hr
    · exact h.own _ _ (by simp [out, hr])
    · obtain ⟨k, w'⟩ := x
      cases he
      exact h.look _ _ (get?_of_mem_nodup h.nod hx)
    · exact h.own _ _ (by simp only [out, List.mem_append]; exact .inr hr)
  · intro id
    have h1 := h.one id
    simp only [out, WebClient.tellAll, List.countP_append, countP_tell _ h.nod] at h1 ⊢
    have : mem ([] : Dict Nat Who) id = false := rfl
    rw [this, Bool.toNat_false]
    omega

theorem G.readNext {s : Client} (h : G s) (n : Nat) : G (readNext s n) := by
  unfold WebClient.readNext; split <;> exact h.same rfl rfl rfl rfl

theorem G.finish {s : Client} (h : G s) (t : St) : G (finish s t) := by
  unfold WebClient.finish; split
  · exact h.same rfl rfl rfl rfl
  · split
    · exact h.same rfl rfl rfl rfl
    · exact h

theorem G.fail {s : Client} (h : G s) : G (fail s) := by
  unfold WebClient.fail; split
  · exact h.same rfl rfl rfl rfl
  · exact h

theorem G.reportFault {s : Client} (h : G s) : G (reportFault s) := by
  unfold WebClient.reportFault; split
  · exact h.tellAll
  · split
    · exact G.tellAll (h.same rfl rfl rfl rfl)
    · exact h

theorem G.step {s : Client} (h : G s) (e : Ev) : G (step s e) := by
  cases e with
  | request n ok => exact h.same rfl rfl rfl rfl
  | task =>
    simp only [WebClient.step]
    split
    · exact h
    · next t ts _ =>
      have h' : G { s with tasks := ts } := h.same rfl rfl rfl rfl
      cases t with
      | connect => exact h'.same rfl rfl rfl rfl
      | send w ok => exact h'.send w ok
      | close => exact h'
  | opened =>
    simp only [WebClient.step]
    split
    · exact h
    · exact h.same rfl rfl rfl (by simp [out, pending])
  | refused => exact h.same rfl rfl rfl rfl
  | message n m =>
    simp only [WebClient.step]
    split
    · exact (h.onMessage m).readNext n
    · exact h
  | junk n =>
    simp only [WebClient.step]
    split
    · exact h.readNext n
    · exact h
  | lost n =>
    simp only [WebClient.step]
    split
    · exact h.same rfl rfl rfl (by simp [out, pending])
    · exact h
  | call =>
    simp only [WebClient.step]
    split
    · exact h
    · next c cs hc =>
      cases c with
      | connected => exact h.same rfl rfl rfl (by simp [out, hc, List.filterMap_cons, pending, runCall])
      | fault =>
        have h' : G { s with calls := cs } := h.same rfl rfl rfl (by simp [out, hc, List.filterMap_cons, pending])
        exact h'.reportFault
      | deliver w m => exact h.same rfl rfl rfl (by simp [out, hc, List.filterMap_cons, pending, runCall])
  | reset =>
    simp only [WebClient.step]
    split
    · split
      · exact h.same rfl rfl rfl rfl
      · exact h.same rfl rfl rfl rfl
    · exact h
  | started =>
    simp only [WebClient.step]
    split
    · apply G.finish; exact h.same rfl rfl rfl rfl
    · exact h
  | disable =>
    simp only [WebClient.step]
    split
    · split
      · exact h.same rfl rfl rfl rfl
      · exact h.same rfl rfl rfl rfl
    · exact h
  | stopped =>
    simp only [WebClient.step]
    split
    · apply G.finish; exact h.same rfl rfl rfl rfl
    · exact h
  | timeout =>
    simp only [WebClient.step]
    split
    · exact h
    · exact G.fail (h.same rfl rfl rfl rfl)

theorem G.init : G {} := by
  constructor
  · simp
  · rfl
  · simp [keys]
  · intro id w h; simp at h
  · intro w r h; simp [out] at h
  · intro id
    have : ¬ (1 ≤ id ∧ id < 1) := by omega
    simp [out, mem, born]; omega

theorem G.run (es : List Ev) : G (run {} es) := by
  have : ∀ s, G s → G (WebClient.run s es) := by
    induction es with
    | nil => intro s h; exact h
    | cons e es ih => intro s h; exact ih _ (h.step e)
  exact this _ G.init

/-! ## Tame histories and honest servers -/

inductive K
  | off | starting | opened (c : Nat) | ready (c : Nat) | stopping (c : Nat) | closed | lost

/-- nothing comes after a pending fault -/
def FaultLast (s : Client) : Prop := ∀ a b, s.calls = a ++ .fault :: b → b = []

/-- where a client is in a tame history -/
def Ph (s : Client) : K → Prop
  | .off => s.conn = none ∧ s.loops = [] ∧ s.opening = 0 ∧ Task.connect ∉ s.tasks ∧ s.tokens = 0 ∧ Call.connected ∉ s.calls ∧
      Call.fault ∉ s.calls ∧ s.job = .idle ∧ (s.state = .disabled ∨ s.state = .fault)
  | .starting => s.conn = none ∧ s.loops = [] ∧ s.opening + s.tasks.count .connect ≤ 1 ∧ s.tokens = 0 ∧
      Call.connected ∉ s.calls ∧ Call.fault ∉ s.calls ∧ s.job = .starting ∧ s.state = .resetting
  | .opened c => s.conn = some c ∧ s.loops = [c] ∧ s.opening = 0 ∧ Task.connect ∉ s.tasks ∧
      s.tokens + s.calls.count .connected = 1 ∧ Call.fault ∉ s.calls ∧ s.job = .starting ∧ s.state = .resetting
  | .ready c => s.conn = some c ∧ s.loops = [c] ∧ s.opening = 0 ∧ Task.connect ∉ s.tasks ∧ s.tokens = 0 ∧
      Call.connected ∉ s.calls ∧ Call.fault ∉ s.calls ∧ s.job = .idle ∧ s.state = .ready
  | .stopping c => s.conn = some c ∧ s.loops = [c] ∧ s.opening = 0 ∧ Task.connect ∉ s.tasks ∧ s.tokens = 0 ∧
      Call.connected ∉ s.calls ∧ Call.fault ∉ s.calls ∧ s.job = .stopping ∧ s.state = .disabling
  | .closed => s.conn = none ∧ s.loops = [] ∧ s.opening = 0 ∧ Task.connect ∉ s.tasks ∧ s.tokens + s.calls.count .fault = 1 ∧
      Call.connected ∉ s.calls ∧ FaultLast s ∧ s.job = .stopping ∧ s.state = .disabling
  | .lost => s.conn = none ∧ s.loops = [] ∧ s.opening = 0 ∧ Task.connect ∉ s.tasks ∧
      (Call.fault ∈ s.calls → s.state = .resetting ∨ s.state = .ready) ∧ FaultLast s ∧ s.job ≠ .stopping ∧
      (s.job = .starting → s.state = .resetting ∨ s.state = .fault) ∧ (Call.fault ∉ s.calls → s.state = .fault)

/-- the next phase, if it changes -/
def nextK (s : Client) (k : K) : Ev → K
  | .opened => match k with
    | .starting => if s.opening = 0 then .starting else .opened s.made
    | k => k
  | .lost n => if n < s.loops.length then (if s.job = .stopping then .closed else .lost) else k
  | .reset => match k with
    | .off => .starting
    | k => k
  | .started => match k with
    | .opened c => if 0 < s.tokens then .ready c else .opened c
    | k => k
  | .disable => match k with
    | .ready c => .stopping c
    | k => k
  | .stopped => match k with
    | .closed => if 0 < s.tokens then .off else .closed
    | k => k
  | .timeout => match k with
    | .starting => .off
    | k => k
  | _ => k

theorem onMessage_ph {s : Client} (m : Msg) : (onMessage s m).conn = s.conn ∧ (onMessage s m).loops = s.loops ∧
    (onMessage s m).opening = s.opening ∧ (onMessage s m).tasks = s.tasks ∧ (onMessage s m).tokens = s.tokens ∧
    (onMessage s m).job = s.job ∧ (onMessage s m).state = s.state ∧
    ((onMessage s m).calls = s.calls ∨ ∃ w, (onMessage s m).calls = s.calls ++ [.deliver w m]) := by
  unfold onMessage
  split
  · simp
  · simp

theorem nextK_ph {s : Client} {k : K} (h : Ph s k) (e : Ev) (ht : k = .lost → e ≠ .reset ∧ e ≠ .disable)
    (hto : e = .timeout → s.job = .starting ∧ s.conn = none ∧ s.opening = 0 ∧ Task.connect ∉ s.tasks ∧ Call.fault ∉ s.calls) :
    Ph (step s e) (nextK s k e) := by
  cases e with
  | request n ok => cases k <;> simpa [Ph, step, nextK, FaultLast, List.count_append] using h
  | task =>
    simp only [step, nextK]
    split
    · exact h
    · next t ts hts =>
      cases t with
      | connect =>
        cases k <;> simp_all [Ph, runTask, FaultLast]
        omega
      | send w ok => cases k <;> simp_all [Ph, runTask, FaultLast, sendRequest]
      | close => cases k <;> simp_all [Ph, runTask, FaultLast]
  | opened =>
    simp only [step]
    split
    · next h0 => cases k <;> simp_all [nextK, Ph]
    · next h0 =>
      cases k <;> simp_all [nextK, Ph, List.count_append]
      have hc : s.tasks.count .connect = 0 := by omega
      refine ⟨by omega, fun hm => ?_, List.count_eq_zero.2 h.2.2.2.2.1⟩
      have := List.count_pos_iff.2 hm
      omega
  | refused => cases k <;> simp_all [Ph, step, nextK, FaultLast]; omega
  | message n m =>
    obtain ⟨h1, h2, h3, h4, h5, h6, h7, h8⟩ := onMessage_ph (s := s) m
    simp only [step, nextK]
    split
    · next hn =>
      cases k with
      | off => simp_all [Ph]
      | starting => simp_all [Ph]
      | closed => simp_all [Ph]
      | lost => simp_all [Ph]
      | opened c =>
        have : n = 0 := by simp_all [Ph]
        subst this
        rcases h8 with h8 | ⟨w, h8⟩ <;> simp_all [Ph, readNext, List.count_append]
      | ready c =>
        have : n = 0 := by simp_all [Ph]
        subst this
        rcases h8 with h8 | ⟨w, h8⟩ <;> simp_all [Ph, readNext, List.count_append]
      | stopping c =>
        have : n = 0 := by simp_all [Ph]
        subst this
        rcases h8 with h8 | ⟨w, h8⟩ <;> simp_all [Ph, readNext, List.count_append]
    · exact h
  | junk n =>
    simp only [step, nextK]
    split
    · next hn =>
      cases k with
      | off => simp_all [Ph]
      | starting => simp_all [Ph]
      | closed => simp_all [Ph]
      | lost => simp_all [Ph]
      | opened c =>
        have : n = 0 := by simp_all [Ph]
        subst this
        simp_all [Ph, readNext]
      | ready c =>
        have : n = 0 := by simp_all [Ph]
        subst this
        simp_all [Ph, readNext]
      | stopping c =>
        have : n = 0 := by simp_all [Ph]
        subst this
        simp_all [Ph, readNext]
    · exact h
  | lost n =>
    simp only [step, nextK]
    split
    · next hn =>
      have hl : Call.fault ∉ s.calls → FaultLast { s with loops := s.loops.eraseIdx n, conn := none, calls := s.calls ++ [.fault] } := by
        intro hf a b hab
        dsimp only at hab
        rcases List.eq_nil_or_concat b with rfl | ⟨b', x, rfl⟩
        · rfl
        · exfalso
          rw [List.concat_eq_append, ← List.cons_append, ← List.append_assoc] at hab
          have := (List.append_inj' hab rfl).1
          exact hf (this ▸ by simp)
      cases k with
      | off => simp_all [Ph]
      | starting => simp_all [Ph]
      | closed => simp_all [Ph]
      | lost => simp_all [Ph]
      | opened c =>
        have : n = 0 := by simp_all [Ph]
        subst this
        have := hl h.2.2.2.2.2.1
        simp_all [Ph]
      | ready c =>
        have : n = 0 := by simp_all [Ph]
        subst this
        have := hl h.2.2.2.2.2.2.1
        simp_all [Ph]
      | stopping c =>
        have : n = 0 := by simp_all [Ph]
        subst this
        have := hl h.2.2.2.2.2.2.1
        simp_all [Ph, List.count_append, List.count_eq_zero]
    · exact h
  | call =>
    simp only [step, nextK]
    split
    · exact h
    · next c cs hc =>
      have hl : FaultLast s → FaultLast { s with calls := cs } := by
        intro hf a b hab
        exact hf (c :: a) b (by rw [hc, show cs = _ from hab]; rfl)
      cases c with
      | connected =>
        have hf : FaultLast s → FaultLast { s with calls := cs, tokens := s.tokens + 1 } := hl
        cases k <;> simp_all [Ph, runCall, List.count_cons]
        omega
      | fault =>
        cases k with
        | off => simp_all [Ph]
        | starting => simp_all [Ph]
        | opened c => simp_all [Ph]
        | ready c => simp_all [Ph]
        | stopping c => simp_all [Ph]
        | closed =>
          have : cs = [] := h.2.2.2.2.2.2.1 [] cs hc
          subst this
          obtain ⟨a1, a2, a3, a4, a5, a6, a7, a8, a9⟩ := h
          simp only [hc, List.count_cons_self, List.count_nil] at a5
          simp only [runCall, reportFault, a9, ↓reduceIte, tellAll]
          exact ⟨a1, a2, a3, a4, by simp; omega, by simp, by simp [FaultLast], a8, rfl⟩
        | lost =>
          have : cs = [] := h.2.2.2.2.2.1 [] cs hc
          subst this
          have e1 : allowed .resetting .fault = true := by decide
          have e2 : allowed .ready .fault = true := by decide
          obtain ⟨a1, a2, a3, a4, a5, a6, a7, a8, a9⟩ := h
          have ha : s.state ≠ .disabling ∧ allowed s.state .fault = true := by
            rcases a5 (by simp [hc]) with hs | hs <;> rw [hs] <;> simp [e1, e2]
          simp only [runCall, reportFault, ha.1, ha.2, ↓reduceIte, tellAll]
          exact ⟨a1, a2, a3, a4, by simp, by simp [FaultLast], a7, by simp, by simp⟩
      | deliver w m =>
        have hf : FaultLast s → FaultLast { s with calls := cs, got := s.got ++ [(w, .reply m)] } := hl
        cases k <;> simp_all [Ph, runCall, List.count_cons]
  | reset =>
    have e1 : allowed .disabled .resetting = true := by decide
    have e2 : allowed .fault .resetting = true := by decide
    have e3 : allowed .ready .resetting = false := by decide
    cases k with
    | off =>
      have := h
      obtain ⟨a1, a2, a3, a4, a5, a6, a7, a8, a9⟩ := h
      have : allowed s.state .resetting = true := by rcases a9 with h | h <;> rw [h] <;> assumption
      simp [step, nextK, Ph, a1, a2, a3, a5, a6, a7, a8, this, List.count_append, List.count_eq_zero.2 a4]
    | ready c => simp_all [Ph, step, nextK]
    | lost => exact absurd rfl (ht rfl).1
    | starting => simp_all [Ph, step, nextK]
    | opened c => simp_all [Ph, step, nextK]
    | stopping c => simp_all [Ph, step, nextK]
    | closed => simp_all [Ph, step, nextK]
  | disable =>
    have e1 : allowed .disabled .disabling = false := by decide
    have e2 : allowed .fault .disabling = true := by decide
    have e3 : allowed .ready .disabling = true := by decide
    cases k with
    | off =>
      obtain ⟨a1, a2, a3, a4, a5, a6, a7, a8, a9⟩ := h
      rcases a9 with h | h <;> simp_all [Ph, step, nextK]
    | ready c => simp_all [Ph, step, nextK]
    | lost => exact absurd rfl (ht rfl).2
    | starting => simp_all [Ph, step, nextK]
    | opened c => simp_all [Ph, step, nextK]
    | stopping c => simp_all [Ph, step, nextK]
    | closed => simp_all [Ph, step, nextK]
  | started =>
    have e1 : allowed .resetting .ready = true := by decide
    simp only [step]
    split
    · next hj =>
      cases k with
      | off => simp_all [Ph]
      | starting => simp_all [Ph]
      | opened c =>
        obtain ⟨a1, a2, a3, a4, a5, a6, a7, a8⟩ := h
        have hcn : s.calls.count .connected = 0 := by omega
        have ht : s.tokens = 1 := by omega
        simp [nextK, finish, Ph, a1, a2, a3, a4, a6, a8, ht, List.count_eq_zero.1 hcn, e1]
      | ready c => simp_all [Ph]
      | stopping c => simp_all [Ph]
      | closed => simp_all [Ph]
      | lost =>
        obtain ⟨a1, a2, a3, a4, a5, a6, a7, a8, a9⟩ := h
        simp only [nextK, finish]
        split
        · next ha =>
          refine ⟨a1, a2, a3, by simp [a4], ?_, a6, by simp, by simp, ?_⟩
          · intro _; right; rfl
          · intro hm
            have e4 : allowed .fault .ready = false := by decide
            rw [show s.state = .fault from a9 hm, e4] at ha
            cases ha
        · split
          · next hn hf =>
            refine ⟨a1, a2, a3, by simp [a4], ?_, a6, by simp, by simp, by simp⟩
            intro hm
            exfalso
            rcases a8 hj.1 with hs | hs
            · rw [hs] at hn; exact hn e1
            · exact hf.1 hs
          · exact ⟨a1, a2, a3, by simp [a4], a5, a6, by simp, by simp, a9⟩
    · next hj =>
      cases k <;> simp_all [Ph, nextK]
  | stopped =>
    have e1 : allowed .disabling .disabled = true := by decide
    simp only [step]
    split
    · next hj =>
      cases k with
      | off => simp_all [Ph]
      | starting => simp_all [Ph]
      | opened c => simp_all [Ph]
      | ready c => simp_all [Ph]
      | stopping c => simp_all [Ph]
      | closed =>
        obtain ⟨a1, a2, a3, a4, a5, a6, a7, a8, a9⟩ := h
        have hcn : s.calls.count .fault = 0 := by omega
        have ht : s.tokens = 1 := by omega
        simp [nextK, finish, Ph, a2, a3, a4, a6, a9, ht, List.count_eq_zero.1 hcn, e1]
      | lost => simp_all [Ph]
    · next hj =>
      cases k <;> simp_all [Ph, nextK]
  | timeout =>
    obtain ⟨b1, b2, b3, b4, b5⟩ := hto rfl
    have e1 : allowed .resetting .fault = true := by decide
    cases k with
    | off => simp_all [Ph]
    | starting => simp_all [Ph, step, nextK, fail]
    | opened c => simp_all [Ph]
    | ready c => simp_all [Ph]
    | stopping c => simp_all [Ph]
    | closed => simp_all [Ph]
    | lost =>
      obtain ⟨a1, a2, a3, a4, a5, a6, a7, a8, a9⟩ := h
      simp only [step, b1, nextK, fail]
      split
      · cases ‹_›
      · split
        · exact ⟨a1, a2, a3, a4, fun hm => absurd hm b5, a6, by simp, by simp, by simp⟩
        · exact ⟨a1, a2, a3, a4, fun hm => absurd hm b5, a6, by simp, by simp, a9⟩

/-- what the request number `id` was or will be given -/
def outId (s : Client) (id : Nat) : List (Who × Resp) := (out s).filter fun x => respId x.2 = id

/-- the messages `ms` as given to `w` -/
def toWho (w : Who) (ms : List Msg) : List (Who × Resp) := ms.map fun m => (w, .reply m)

/-- where a request that was written to connection `c` stands, after the messages `ms` for it -/
def Stands (s : Client) (ms : List Msg) (c id : Nat) (w : Who) : Prop :=
  (outId s id = toWho w ms ∧ s.lookup.get? id = some w ∧ (c ∈ s.loops ∨ Call.fault ∈ s.calls) ∧ ∀ m ∈ ms, m.kind = .update) ∨
  (outId s id = toWho w ms ∧ s.lookup.get? id = none ∧ ∃ m ∈ ms, m.kind ≠ .update) ∨
  (outId s id = toWho w ms ++ [(w, .disconnected id)] ∧ s.lookup.get? id = none ∧ c ∉ s.loops ∧ ∀ m ∈ ms, m.kind = .update)

structure T (s : Client) (es : List Ev) : Prop where
  stands : ∀ c id w, (some c, id, w) ∈ s.asked → Stands s (received es id) c id w
  new : ∀ id, s.nextId ≤ id → received es id = []
  bound : ∀ c id w, (some c, id, w) ∈ s.asked → c < s.made
  loops : ∀ c ∈ s.loops, c < s.made

theorem received_snoc (es : List Ev) (e : Ev) (id : Nat) :
    received (es ++ [e]) id = received es id ++ received [e] id := by simp [received]

/-- a step that changes none of what `T` speaks of -/
theorem T.same {s t : Client} {es : List Ev} (h : T s es) (e : Ev) (he : ∀ id, received [e] id = [])
    (h1 : t.nextId = s.nextId) (h2 : t.lookup = s.lookup) (h3 : t.asked = s.asked) (h4 : out t = out s) (h5 : t.made = s.made)
    (h6 : t.loops = s.loops) (h7 : Call.fault ∈ s.calls → Call.fault ∈ t.calls) : T t (es ++ [e]) where
  stands := by
    intro c id w hc
    rw [h3] at hc
    have := h.stands c id w hc
    simp only [Stands, outId, h4, h2, h6, received_snoc, he, List.append_nil] at this ⊢
    rcases this with ⟨a, b, c' | c', d⟩ | this | this
    · exact .inl ⟨a, b, .inl c', d⟩
    · exact .inl ⟨a, b, .inr (h7 c'), d⟩
    · exact .inr (.inl this)
    · exact .inr (.inr this)
  new := by intro id hid; rw [received_snoc, he, h.new id (h1 ▸ hid)]; rfl
  bound := by rw [h3, h5]; exact h.bound
  loops := by rw [h6, h5]; exact h.loops

theorem G.id_unique {s : Client} (g : G s) {c d : Option Nat} {id : Nat} {w v : Who} (h1 : (c, id, w) ∈ s.asked)
    (h2 : (d, id, v) ∈ s.asked) : c = d ∧ w = v := by
  have hn : (s.asked.map (fun (x : Option Nat × Nat × Who) => x.2.1)).Nodup := by rw [g.num]; exact List.nodup_range'
  generalize s.asked = l at *
  clear g
  induction l with
  | nil => simp at h1
  | cons x l ih =>
    simp only [List.map_cons, List.nodup_cons, List.mem_map, not_exists, not_and] at hn
    rcases List.mem_cons.1 h1 with rfl | h1' <;> rcases List.mem_cons.1 h2 with h2' | h2'
    · cases h2'; exact ⟨rfl, rfl⟩
    · exact absurd rfl (hn.1 (d, id, v) h2')
    · subst h2'; exact absurd rfl (hn.1 (c, id, w) h1')
    · exact ih h1' h2' hn.2

theorem G.id_lt {s : Client} (g : G s) {c : Option Nat} {id : Nat} {w : Who} (h1 : (c, id, w) ∈ s.asked) :
    1 ≤ id ∧ id < s.nextId := by
  have hm : id ∈ s.asked.map (fun (x : Option Nat × Nat × Who) => x.2.1) := List.mem_map.2 ⟨_, h1, rfl⟩
  rw [g.num, List.mem_range'] at hm
  obtain ⟨i, hi, he⟩ := hm
  have := g.next
  omega

theorem outId_fresh {s : Client} (g : G s) : outId s s.nextId = [] := by
  simp only [outId, List.filter_eq_nil_iff]
  intro x hx hid
  obtain ⟨c, hc⟩ := g.own x.1 x.2 hx
  have := (g.id_lt hc).2
  simp at hid
  omega

theorem T.send {s : Client} {es : List Ev} (g : G s) (h : T s es) (hp : ∀ c, s.conn = some c → c ∈ s.loops) (e : Ev)
    (he : ∀ id, received [e] id = []) (w : Who) (ok : Bool) : T (sendRequest s w ok) (es ++ [e]) where
  stands := by
    intro c id v hc
    simp only [sendRequest, List.mem_append, List.mem_singleton] at hc
    rcases hc with hc | hc
    · have hlt := (g.id_lt hc).2
      have hne : s.nextId ≠ id := by omega
      have := h.stands c id v hc
      simp only [Stands, received_snoc, he, List.append_nil, sendRequest, get?_set_ne _ _ hne] at this ⊢
      exact this
    · injection hc with h1 h2
      injection h2 with h2 h3
      subst h2 h3
      left
      have hcn : s.conn = some c := by
        cases ok
        · cases h1
        · exact h1.symm
      rw [received_snoc, he, h.new _ (Nat.le_refl _)]
      refine ⟨?_, by simp [sendRequest], .inl (hp c hcn), by simp⟩
      exact outId_fresh g
  new := by intro id hid; rw [received_snoc, he, h.new id (Nat.le_of_succ_le hid)]; rfl
  bound := by
    intro c id v hc
    simp only [sendRequest, List.mem_append, List.mem_singleton] at hc
    rcases hc with hc | hc
    · exact h.bound c id v hc
    · injection hc with h1 h2
      have hcn : s.conn = some c := by
        cases ok
        · cases h1
        · exact h1.symm
      exact h.loops c (hp c hcn)
  loops := h.loops

theorem T.message {s : Client} {es : List Ev} (g : G s) (h : T s es) (n : Nat) (m : Msg) {c : Nat} {w : Who}
    (hc : (some c, m.id, w) ∈ s.asked) (hl : c ∈ s.loops) (hu : ∀ m' ∈ received es m.id, m'.kind = .update) :
    T (onMessage s m) (es ++ [.message n m]) := by
  have hlook : s.lookup.get? m.id = some w := by
    rcases h.stands _ _ _ hc with ⟨_, h, _⟩ | ⟨_, _, m', hm', hk⟩ | ⟨_, _, h, _⟩
    · exact h
    · exact absurd (hu m' hm') hk
    · exact absurd hl h
  have hout : outId s m.id = toWho w (received es m.id) := by
    rcases h.stands _ _ _ hc with ⟨h, _⟩ | ⟨_, _, m', hm', hk⟩ | ⟨_, _, h, _⟩
    · exact h
    · exact absurd (hu m' hm') hk
    · exact absurd hl h
  have hr1 : received (es ++ [.message n m]) m.id = received es m.id ++ [m] := by simp [received]
  have hr2 : ∀ id, m.id ≠ id → received (es ++ [.message n m]) id = received es id := by
    intro id hid; simp [received, hid]
  unfold onMessage
  rw [hlook]
  dsimp only
  have ho : ∀ l, out { s with lookup := l, calls := s.calls ++ [.deliver w m] } = out s ++ [(w, .reply m)] := by
    intro l; simp [out, pending]
  constructor
  · intro d id v hd
    by_cases hid : m.id = id
    · subst hid
      obtain ⟨e1, rfl⟩ := g.id_unique hc hd
      cases e1
      rw [hr1]
      have ho' : ∀ l, outId { s with lookup := l, calls := s.calls ++ [.deliver w m] } m.id = toWho w (received es m.id ++ [m]) := by
        intro l
        simp only [outId, ho, List.filter_append, toWho, List.map_append]
        simp only [outId] at hout
        rw [hout]
        simp [toWho, respId]
      by_cases hk : m.kind = .update
      · left
        refine ⟨ho' _, by simp [hk, hlook], .inl hl, ?_⟩
        intro m' hm'
        rcases List.mem_append.1 hm' with hm' | hm'
        · exact hu m' hm'
        · simp at hm'; exact hm' ▸ hk
      · right; left
        exact ⟨ho' _, by simp [hk, get?_erase_self g.nod], m, by simp, hk⟩
    · have ho' : ∀ l, outId { s with lookup := l, calls := s.calls ++ [.deliver w m] } id = outId s id := by
        intro l
        simp [outId, ho, List.filter_append, respId, hid]
      have hg : Dict.get? (if m.kind = .update then s.lookup else Dict.erase s.lookup m.id) id = Dict.get? s.lookup id := by
        split
        · rfl
        · exact get?_erase_ne _ hid
      rw [hr2 id hid]
      have := h.stands d id v hd
      simp only [Stands, ho', hg] at this ⊢
      simpa using this
  · intro id hid
    have := (g.id_lt hc).2
    rw [hr2 id (by dsimp only at hid; omega)]
    exact h.new id hid
  · exact h.bound
  · exact h.loops

theorem T.readNext {s : Client} {es : List Ev} (h : T s es) (n : Nat) (hp : ∃ c, s.conn = some c ∧ s.loops = [c])
    (hn : n < s.loops.length) : T (readNext s n) es := by
  obtain ⟨c, h1, h2⟩ := hp
  have : WebClient.readNext s n = s := by
    rw [h2] at hn
    have : n = 0 := by simpa using hn
    subst this
    obtain ⟨⟩ := s
    simp_all [WebClient.readNext]
  rw [this]; exact h

theorem filter_tell (d : Dict Nat Who) (hn : d.keys.Nodup) (id : Nat) :
    (d.map fun x => ((x.2, .disconnected x.1) : Who × Resp)).filter (fun x => respId x.2 = id) =
      match d.get? id with
      | some w => [(w, .disconnected id)]
      | none => [] := by
  induction d with
  | nil => rfl
  | cons x d ih =>
    obtain ⟨k, w⟩ := x
    have hn' : k ∉ keys d ∧ (keys d).Nodup := by simpa [keys] using hn
    by_cases hk : k = id
    · subst hk
      have hnone := get?_none_iff.2 hn'.1
      have := ih hn'.2
      rw [hnone] at this
      simp only [List.map_cons, List.filter_cons, respId, decide_true, ↓reduceIte, get?_cons]
      simp only [respId] at this
      rw [this]
    · simp only [List.map_cons, List.filter_cons, respId, hk, decide_false, Bool.false_eq_true, ↓reduceIte, get?_cons]
      exact ih hn'.2

theorem T.tellAll {s : Client} {es : List Ev} (g : G s) (h : T { s with calls := [.fault] } es) (hl : s.loops = [])
    (hcalls : s.calls = []) (e : Ev) (he : ∀ id, received [e] id = []) : T (tellAll s) (es ++ [e]) where
  stands := by
    intro c id w hc
    have h1 := h.stands c id w hc
    have ho : outId { s with calls := [.fault] } id = s.got.filter fun x => respId x.2 = id := by simp [outId, out, pending]
    have hO : outId (WebClient.tellAll s) id = (s.got.filter fun x => respId x.2 = id) ++
        (match Dict.get? s.lookup id with
          | some w => [(w, .disconnected id)]
          | none => []) := by
      simp only [outId, out, WebClient.tellAll, hcalls, List.filterMap_nil, List.append_nil, List.filter_append,
        filter_tell _ g.nod]
    simp only [Stands, ho, received_snoc, he, List.append_nil] at h1 ⊢
    rw [hO]
    rcases h1 with ⟨a, b, _, d⟩ | ⟨a, b, d⟩ | ⟨a, b, d, f⟩
    · right; right
      refine ⟨?_, by simp [WebClient.tellAll], by simp [WebClient.tellAll, hl], d⟩
      rw [b, a]
    · right; left
      refine ⟨?_, by simp [WebClient.tellAll], d⟩
      rw [b, a]; simp
    · right; right
      refine ⟨?_, by simp [WebClient.tellAll], by simp [WebClient.tellAll, hl], f⟩
      rw [b, a]; simp
  new := by intro id hid; rw [received_snoc, he, h.new id hid]; rfl
  bound := h.bound
  loops := h.loops

theorem Ph.conn {s : Client} {k : K} (h : Ph s k) : (s.conn = none ∧ s.loops = []) ∨ ∃ c, s.conn = some c ∧ s.loops = [c] := by
  cases k with
  | off => exact .inl ⟨h.1, h.2.1⟩
  | starting => exact .inl ⟨h.1, h.2.1⟩
  | closed => exact .inl ⟨h.1, h.2.1⟩
  | lost => exact .inl ⟨h.1, h.2.1⟩
  | opened c => exact .inr ⟨c, h.1, h.2.1⟩
  | ready c => exact .inr ⟨c, h.1, h.2.1⟩
  | stopping c => exact .inr ⟨c, h.1, h.2.1⟩

/-- a pending fault is the last call, and will be reported -/
theorem Ph.fault {s : Client} {k : K} (h : Ph s k) {cs : List Call} (hc : s.calls = .fault :: cs) :
    cs = [] ∧ s.loops = [] ∧ (s.state = .disabling ∨ allowed s.state .fault = true) := by
  have e1 : allowed .resetting .fault = true := by decide
  have e2 : allowed .ready .fault = true := by decide
  have hm : Call.fault ∈ s.calls := by simp [hc]
  cases k with
  | off => exact absurd hm h.2.2.2.2.2.2.1
  | starting => exact absurd hm h.2.2.2.2.2.1
  | opened c => exact absurd hm h.2.2.2.2.2.1
  | ready c => exact absurd hm h.2.2.2.2.2.2.1
  | stopping c => exact absurd hm h.2.2.2.2.2.2.1
  | closed => exact ⟨h.2.2.2.2.2.2.1 [] cs hc, h.2.1, .inl h.2.2.2.2.2.2.2.2⟩
  | lost =>
    refine ⟨h.2.2.2.2.2.1 [] cs hc, h.2.1, .inr ?_⟩
    rcases h.2.2.2.2.1 hm with hs | hs <;> rw [hs] <;> assumption

theorem Ph.opened {s : Client} {k : K} (h : Ph s k) (ho : s.opening ≠ 0) : s.loops = [] ∧ Call.fault ∉ s.calls := by
  cases k with
  | off => exact absurd h.2.2.1 ho
  | starting => exact ⟨h.2.1, h.2.2.2.2.2.1⟩
  | opened c => exact absurd h.2.2.1 ho
  | ready c => exact absurd h.2.2.1 ho
  | stopping c => exact absurd h.2.2.1 ho
  | closed => exact absurd h.2.2.1 ho
  | lost => exact absurd h.2.2.1 ho

theorem T.finish {s : Client} {es : List Ev} (h : T s es) (t : St) : T (finish s t) es := by
  have : ∀ st, T { s with state := st } es := fun st => ⟨h.stands, h.new, h.bound, h.loops⟩
  unfold WebClient.finish; split
  · exact this _
  · split
    · exact this _
    · exact h

theorem T.fail {s : Client} {es : List Ev} (h : T s es) : T (fail s) es := by
  have : ∀ st, T { s with state := st } es := fun st => ⟨h.stands, h.new, h.bound, h.loops⟩
  unfold WebClient.fail; split
  · exact this _
  · exact h

theorem T.nop {s : Client} {es : List Ev} (h : T s es) (e : Ev) (he : ∀ id, received [e] id = []) : T s (es ++ [e]) :=
  h.same e he rfl rfl rfl rfl rfl rfl id

theorem T.step {s : Client} {es : List Ev} {k : K} (g : G s) (p : Ph s k) (h : T s es) (e : Ev)
    (hh : ∀ n m, e = .message n m → (∃ c w, s.loops[n]? = some c ∧ (some c, m.id, w) ∈ s.asked) ∧
      ∀ m' ∈ received es m.id, m'.kind = .update) : T (step s e) (es ++ [e]) := by
  cases e with
  | request n ok => exact h.same _ (fun _ => rfl) rfl rfl rfl rfl rfl rfl id
  | task =>
    simp only [WebClient.step]
    split
    · exact h.nop _ (fun _ => rfl)
    · next t ts _ =>
      have g' : G { s with tasks := ts } := g.same rfl rfl rfl rfl
      cases t with
      | connect => exact h.same _ (fun _ => rfl) rfl rfl rfl rfl rfl rfl id
      | send w ok =>
        have h' : T { s with tasks := ts } es := ⟨h.stands, h.new, h.bound, h.loops⟩
        refine T.send g' h' ?_ _ (fun _ => rfl) w ok
        intro c hc
        rcases p.conn with ⟨h1, _⟩ | ⟨d, h1, h2⟩
        · rw [h1] at hc; cases hc
        · rw [h1] at hc; cases hc; simp [h2]
      | close => exact h.same _ (fun _ => rfl) rfl rfl rfl rfl rfl rfl id
  | opened =>
    simp only [WebClient.step]
    split
    · exact h.nop _ (fun _ => rfl)
    · next ho =>
      obtain ⟨hl, hf⟩ := p.opened ho
      constructor
      · intro c id w hc
        have hlt := h.bound c id w hc
        have h1 := h.stands c id w hc
        have ho' : ∀ a b c d, outId { s with opening := a, conn := b, made := c, loops := d, calls := s.calls ++ [.connected] } id =
            outId s id := by intro a b c d; simp [outId, out, pending]
        simp only [Stands, ho', received_snoc] at h1 ⊢
        rw [show received [Ev.opened] id = [] from rfl, List.append_nil]
        rcases h1 with ⟨_, _, c' | c', _⟩ | h1 | ⟨a, b, _, d⟩
        · simp [hl] at c'
        · exact absurd c' hf
        · exact .inr (.inl h1)
        · exact .inr (.inr ⟨a, b, by simp [hl]; omega, d⟩)
      · intro id hid; rw [received_snoc, show received [Ev.opened] id = [] from rfl, h.new id hid]; rfl
      · intro c id w hc; exact Nat.lt_succ_of_lt (h.bound c id w hc)
      · intro c hc; simp [hl] at hc; subst hc; exact Nat.lt_succ_self _
  | refused => exact h.same _ (fun _ => rfl) rfl rfl rfl rfl rfl rfl id
  | message n m =>
    obtain ⟨⟨c, w, hn, hc⟩, hu⟩ := hh n m rfl
    have hn' : n < s.loops.length := (List.getElem?_eq_some_iff.1 hn).1
    have hl : c ∈ s.loops := List.mem_of_getElem? hn
    simp only [WebClient.step, hn', ↓reduceIte]
    obtain ⟨e1, e2, _⟩ := onMessage_ph (s := s) m
    refine T.readNext (T.message g h n m hc hl hu) n ?_ (e2 ▸ hn')
    rw [e1, e2]
    rcases p.conn with ⟨_, h2⟩ | h2
    · rw [h2] at hl; cases hl
    · exact h2
  | junk n =>
    simp only [WebClient.step]
    split
    · next hn =>
      refine T.readNext (h.nop _ (fun _ => rfl)) n ?_ hn
      rcases p.conn with ⟨_, h2⟩ | h2
      · rw [h2] at hn; cases hn
      · exact h2
    · exact h.nop _ (fun _ => rfl)
  | lost n =>
    simp only [WebClient.step]
    split
    · next hn =>
      have hl : s.loops.eraseIdx n = [] := by
        rcases p.conn with ⟨_, h2⟩ | ⟨c, _, h2⟩
        · rw [h2] at hn; cases hn
        · rw [h2] at hn ⊢
          have : n = 0 := by simpa using hn
          subst this; rfl
      constructor
      · intro c id w hc
        have h1 := h.stands c id w hc
        have ho' : outId { s with loops := s.loops.eraseIdx n, conn := none, calls := s.calls ++ [.fault] } id = outId s id := by
          simp [outId, out, pending]
        simp only [Stands, ho', received_snoc] at h1 ⊢
        rw [show received [Ev.lost n] id = [] from rfl, List.append_nil]
        rcases h1 with ⟨a, b, _, d⟩ | h1 | ⟨a, b, _, d⟩
        · exact .inl ⟨a, b, .inr (by simp), d⟩
        · exact .inr (.inl h1)
        · exact .inr (.inr ⟨a, b, by simp [hl], d⟩)
      · intro id hid; rw [received_snoc, show received [Ev.lost n] id = [] from rfl, h.new id hid]; rfl
      · exact h.bound
      · intro c hc
        rw [hl] at hc; cases hc
    · exact h.nop _ (fun _ => rfl)
  | call =>
    simp only [WebClient.step]
    split
    · exact h.nop _ (fun _ => rfl)
    · next c cs hc =>
      cases c with
      | connected =>
        exact h.same _ (fun _ => rfl) rfl rfl rfl (by simp [out, hc, List.filterMap_cons, pending, runCall]) rfl rfl
          (by simp [hc, runCall])
      | fault =>
        obtain ⟨rfl, hl, hs⟩ := p.fault hc
        simp only [runCall, WebClient.reportFault]
        have g0 : ∀ st, G { s with calls := [], state := st } := fun st =>
          g.same rfl rfl rfl (by simp [out, hc, List.filterMap_cons, pending])
        have h0 : ∀ st, T { s with calls := [Call.fault], state := st } es := by
          intro st
          rw [← hc]
          exact ⟨h.stands, h.new, h.bound, h.loops⟩
        split
        · exact T.tellAll (g0 s.state) (h0 s.state) hl rfl _ (fun _ => rfl)
        · next hd =>
          rcases hs with hs | hs
          · exact absurd hs hd
          · rw [if_pos hs]
            exact T.tellAll (g0 .fault) (h0 .fault) hl rfl _ (fun _ => rfl)
      | deliver w m =>
        exact h.same _ (fun _ => rfl) rfl rfl rfl (by simp [out, hc, List.filterMap_cons, pending, runCall]) rfl rfl
          (by simp [hc, runCall])
  | reset =>
    simp only [WebClient.step]
    split
    · split
      · exact h.same _ (fun _ => rfl) rfl rfl rfl rfl rfl rfl id
      · exact h.same _ (fun _ => rfl) rfl rfl rfl rfl rfl rfl id
    · exact h.nop _ (fun _ => rfl)
  | started =>
    simp only [WebClient.step]
    split
    · apply T.finish; exact h.same _ (fun _ => rfl) rfl rfl rfl rfl rfl rfl id
    · exact h.nop _ (fun _ => rfl)
  | disable =>
    simp only [WebClient.step]
    split
    · split
      · exact h.same _ (fun _ => rfl) rfl rfl rfl rfl rfl rfl id
      · exact h.same _ (fun _ => rfl) rfl rfl rfl rfl rfl rfl id
    · exact h.nop _ (fun _ => rfl)
  | stopped =>
    simp only [WebClient.step]
    split
    · apply T.finish; exact h.same _ (fun _ => rfl) rfl rfl rfl rfl rfl rfl id
    · exact h.nop _ (fun _ => rfl)
  | timeout =>
    simp only [WebClient.step]
    split
    · exact h.nop _ (fun _ => rfl)
    · apply T.fail; exact h.same _ (fun _ => rfl) rfl rfl rfl rfl rfl rfl id

theorem snoc_ind {α : Type} {P : List α → Prop} (h0 : P []) (h1 : ∀ l a, P l → P (l ++ [a])) (l : List α) : P l := by
  have : ∀ n (l : List α), l.length = n → P l := by
    intro n
    induction n with
    | zero => intro l hl; rw [List.length_eq_zero_iff.1 hl]; exact h0
    | succ n ih =>
      intro l hl
      rcases List.eq_nil_or_concat l with rfl | ⟨l', a, rfl⟩
      · simp at hl
      · rw [List.concat_eq_append] at *
        exact h1 _ _ (ih l' (by simpa using hl))
  exact this _ l rfl

theorem tame_prefix {es : List Ev} {e : Ev} (h : Tame (es ++ [e])) : Tame es := by
  refine ⟨fun pre n post he hu => ?_, fun pre post he => ?_⟩
  · have := h.1 pre n (post ++ [e]) (by simp [he]) hu
    simp at this
    exact ⟨this.1.1, this.2.1⟩
  · exact h.2 pre (post ++ [e]) (by simp [he])

theorem honest_prefix {es : List Ev} {e : Ev} (h : Honest (es ++ [e])) : Honest es :=
  fun pre n m post he => h pre n m (post ++ [e]) (by simp [he])

theorem nextK_lost {s : Client} {k : K} {e : Ev} (h : nextK s k e = .lost) :
    k = .lost ∨ ∃ n, e = .lost n ∧ n < s.loops.length ∧ s.job ≠ .stopping := by
  cases e <;> simp only [nextK] at h <;> try exact .inl h
  all_goals (try (cases k <;> simp_all <;> done))
  · cases k <;> simp at h
    · split at h <;> cases h
    · exact .inl rfl
  · next n =>
    split at h
    · next hn =>
      split at h
      · cases h
      · next hj => exact .inr ⟨n, rfl, hn, hj⟩
    · exact .inl h
  · cases k <;> simp at h
    · split at h <;> cases h
    · exact .inl rfl
  · cases k <;> simp at h
    · split at h <;> cases h
    · exact .inl rfl

/-- a tame history has a phase; if it is lost, a connection was lost unexpectedly -/
theorem phase (es : List Ev) (ht : Tame es) : ∃ k, Ph (run {} es) k ∧
    (k = .lost → ∃ pre n post, es = pre ++ .lost n :: post ∧ Unexpected pre n) := by
  revert ht
  refine snoc_ind (P := fun es => Tame es → ∃ k, Ph (run {} es) k ∧
    (k = .lost → ∃ pre n post, es = pre ++ .lost n :: post ∧ Unexpected pre n)) ?_ ?_ es
  · intro _; exact ⟨.off, by simp [run, Ph], by simp⟩
  · intro es e ih ht
    obtain ⟨k, hp, hk⟩ := ih (tame_prefix ht)
    refine ⟨nextK (run {} es) k e, ?_, ?_⟩
    · rw [run_snoc]
      refine nextK_ph hp e ?_ ?_
      · intro hl
        obtain ⟨pre, n, post, he, hu⟩ := hk hl
        have := ht.1 pre n (post ++ [e]) (by simp [he]) hu
        simp at this
        exact ⟨fun h => this.1.2 h.symm, fun h => this.2.2 h.symm⟩
      · intro he; subst he; exact ht.2 es [] rfl
    · intro hl
      rcases nextK_lost hl with h | ⟨n, rfl, h1, h2⟩
      · obtain ⟨pre, n, post, he, hu⟩ := hk h
        exact ⟨pre, n, post ++ [e], by simp [he], hu⟩
      · exact ⟨es, n, [], rfl, h1, h2⟩

theorem T.run (es : List Ev) (ht : Tame es) (hh : Honest es) : T (run {} es) es := by
  revert ht hh
  refine snoc_ind (P := fun es => Tame es → Honest es → T (WebClient.run {} es) es) ?_ ?_ es
  · intro _ _
    exact ⟨fun c id w h => by simp [WebClient.run] at h, fun _ _ => rfl, fun c id w h => by simp [WebClient.run] at h,
      fun c h => by simp [WebClient.run] at h⟩
  · intro es e ih ht hh
    obtain ⟨k, hp, _⟩ := phase es (tame_prefix ht)
    rw [run_snoc]
    refine T.step (G.run es) hp (ih (tame_prefix ht) (honest_prefix hh)) e ?_
    intro n m he
    subst he
    exact hh es n m [] rfl

end Verif.WebClient
