import Verif.Spec.Context
import Verif.Proofs.PyDict
/-! Invariants of a Context. -/
set_option linter.unusedVariables false
namespace Verif.Context
open Verif
variable {V : Type}

theorem firstSettled_append (id : Nat) (a b : List (Item V)) :
    firstSettled id (a ++ b) = (firstSettled id a).or (firstSettled id b) := by
  induction a with
  | nil => simp [firstSettled]
  | cons x xs ih =>
    simp only [List.cons_append, firstSettled]
    cases x.settles id with
    | some r => simp
    | none => simpa using ih

/-- Facts true of every state a context can reach. -/
structure Inv (s : Ctx V) : Prop where
  reqNodup : s.requests.keys.Nodup
  reqLt : ∀ id ∈ s.requests.keys, id < s.nextId
  resLt : ∀ id ∈ s.results.keys, id < s.nextId
  resReq : ∀ id ∈ s.results.keys, id ∉ s.requests.keys
  subsLt : ∀ id ∈ s.subs, id < s.nextId
  madeLt : ∀ id ∈ s.made, id < s.nextId
  madeIff : ∀ id ∈ s.made, Dict.get? s.requests id = some true ∨ id ∈ s.results.keys
  madeNodup : s.made.Nodup
  reqMade : ∀ id, Dict.get? s.requests id = some true → id ∈ s.made
  unsubLt : ∀ id ∈ s.unsubs.map (·.1), id < s.nextId
  unsubNodup : (s.unsubs.map (·.1)).Nodup
  unsubMade : ∀ id ∈ s.unsubs.map (·.1), id ∈ s.made
  unsubSubs : ∀ id ∈ s.unsubs.map (·.1), id ∉ s.subs
  subsMade : ∀ id ∈ s.subs, id ∈ s.made
  active : ∀ id, Dict.get? s.requests id = some true →
    (id ∈ s.subs ∧ id ∉ s.pending) ∨ (id ∉ s.subs ∧ id ∈ s.pending ∧ id ∈ s.unsubs.map (·.1))
  pendLt : ∀ id ∈ s.pending, id < s.nextId
  subsPend : ∀ id ∈ s.subs, id ∉ s.pending

theorem inv_init : Inv ({} : Ctx V) := by
  constructor <;> simp [Dict.keys, Dict.get?]

theorem inv_unsubscribe {s : Ctx V} (h : Inv s) (id : Nat) (alive : Bool) :
    Inv (s.unsubscribe id alive) := by
  unfold Ctx.unsubscribe
  split
  · exact h
  · rename_i hp
    cases hg : Dict.get? s.requests id with
    | none => exact h
    | some b =>
      dsimp only
      have hk : id ∈ s.requests.keys := by
        have := Dict.get?_mem hg
        exact List.mem_map.2 ⟨_, this, rfl⟩
      split
      · rename_i hs
        have hun : id ∉ s.unsubs.map (·.1) := fun hc => h.unsubSubs id hc hs
        refine { h with subsLt := ?_, unsubLt := ?_, unsubNodup := ?_, unsubMade := ?_, unsubSubs := ?_, subsMade := ?_, active := ?_, pendLt := ?_, subsPend := ?_ }
        · intro i hi; exact h.subsLt i (List.mem_filter.1 hi).1
        · intro i hi
          simp only [List.map_append, List.map_cons, List.map_nil, List.mem_append, List.mem_singleton] at hi
          rcases hi with hi | rfl
          · exact h.unsubLt i hi
          · exact h.reqLt i hk
        · simp only [List.map_append, List.map_cons, List.map_nil]
          rw [List.nodup_append]
          refine ⟨h.unsubNodup, by simp, ?_⟩
          intro a ha b hb
          simp only [List.mem_singleton] at hb
          subst hb
          intro hc; subst hc; exact hun ha
        · intro i hi
          simp only [List.map_append, List.map_cons, List.map_nil, List.mem_append, List.mem_singleton] at hi
          rcases hi with hi | rfl
          · exact h.unsubMade i hi
          · exact h.subsMade i hs
        · intro i hi
          simp only [List.map_append, List.map_cons, List.map_nil, List.mem_append, List.mem_singleton] at hi
          rcases hi with hi | rfl
          · intro hc; exact h.unsubSubs i hi (List.mem_filter.1 hc).1
          · simp
        · intro i hi; exact h.subsMade i (List.mem_filter.1 hi).1
        · intro i hi
          by_cases he : i = id
          · subst he
            right
            refine ⟨by simp, by simp, by simp⟩
          · rcases h.active i hi with ⟨a, b⟩ | ⟨a, b, c⟩
            · left
              refine ⟨List.mem_filter.2 ⟨a, by simpa using he⟩, ?_⟩
              simp [b, he]
            · right
              refine ⟨fun hc => a (List.mem_filter.1 hc).1, by simp [b], ?_⟩
              simp only [List.map_append, List.mem_append]
              exact .inl c
        · intro i hi
          simp only [List.mem_append, List.mem_singleton] at hi
          rcases hi with hi | rfl
          · exact h.pendLt i hi
          · exact h.reqLt i hk
        · intro i hi
          obtain ⟨hi1, hi2⟩ := List.mem_filter.1 hi
          simp only [List.mem_append, List.mem_singleton, not_or]
          exact ⟨h.subsPend i hi1, by simpa using hi2⟩
      · rename_i hs
        refine { h with active := ?_, pendLt := ?_, subsPend := ?_ }
        · intro i hi
          by_cases he : i = id
          · subst he
            rcases h.active i hi with ⟨a, b⟩ | ⟨a, b, c⟩
            · exact absurd a hs
            · exact absurd b hp
          · rcases h.active i hi with ⟨a, b⟩ | ⟨a, b, c⟩
            · left; exact ⟨a, by simp [b, he]⟩
            · right; exact ⟨a, by simp [b], c⟩
        · intro i hi
          simp only [List.mem_append, List.mem_singleton] at hi
          rcases hi with hi | rfl
          · exact h.pendLt i hi
          · exact h.reqLt i hk
        · intro i hi
          simp only [List.mem_append, List.mem_singleton, not_or]
          exact ⟨h.subsPend i hi, fun hc => hs (hc ▸ hi)⟩

theorem foldl_inv {A : Type} (P : Ctx V → Prop) (f : Ctx V → A → Ctx V) (l : List A)
    (hf : ∀ s a, P s → P (f s a)) (s : Ctx V) (h : P s) : P (l.foldl f s) := by
  induction l generalizing s with
  | nil => exact h
  | cons a l ih => exact ih _ (hf s a h)

theorem inv_unsubscribeAll {s : Ctx V} (h : Inv s) (alive : Nat → Bool) : Inv (s.unsubscribeAll alive) := by
  unfold Ctx.unsubscribeAll
  apply foldl_inv Inv
  · intro s r hs
    split
    · exact inv_unsubscribe hs _ _
    · exact hs
  · exact h

theorem get?_erase' {d : Dict Nat Bool} (hn : d.keys.Nodup) (k k' : Nat) :
    Dict.get? (Dict.erase d k) k' = if k' = k then none else Dict.get? d k' := by
  rw [Dict.get?_erase hn]
  by_cases h : k' = k
  · subst h; simp
  · rw [if_neg h, if_neg (fun hc => h hc.symm)]

theorem mem_keys_iff {d : Dict Nat Bool} {k : Nat} : k ∈ d.keys ↔ Dict.get? d k ≠ none := by
  rw [ne_eq, Dict.get?_none_iff]; exact Decidable.not_not.symm

theorem mem_keys_iff' {d : Dict Nat (Result V)} {k : Nat} : k ∈ d.keys ↔ Dict.get? d k ≠ none := by
  rw [ne_eq, Dict.get?_none_iff]; exact Decidable.not_not.symm

theorem inv_settle {s : Ctx V} (h : Inv s) (id : Nat) (r : Result V) (pend : List Nat)
    (hm : Dict.mem s.requests id = true) (hp : ∀ i ∈ pend, i ∈ s.pending)
    (hp2 : ∀ i ∈ s.pending, i ≠ id → i ∈ pend) :
    Inv { s with requests := Dict.erase s.requests id, pending := pend,
                 results := Dict.set s.results id r } := by
  have hk : id ∈ s.requests.keys := Dict.mem_iff.1 hm
  have hsub : ∀ i, i ∈ (Dict.erase s.requests id).keys ↔ i ≠ id ∧ i ∈ s.requests.keys := by
    intro i
    rw [mem_keys_iff, get?_erase' h.reqNodup, mem_keys_iff]
    by_cases hi : i = id
    · simp [hi]
    · simp [hi]
  have hres : ∀ i, i ∈ (Dict.set s.results id r).keys ↔ i = id ∨ i ∈ s.results.keys := by
    intro i
    rw [mem_keys_iff', Dict.get?_set, mem_keys_iff']
    by_cases hi : i = id
    · subst hi; simp
    · rw [if_neg (fun hc => hi (by first | exact hc | exact hc.symm))]; simp [hi]
  have hget : ∀ i b, Dict.get? (Dict.erase s.requests id) i = some b →
      i ≠ id ∧ Dict.get? s.requests i = some b := by
    intro i b hb
    rw [get?_erase' h.reqNodup] at hb
    by_cases hi : i = id
    · simp [hi] at hb
    · exact ⟨hi, by simpa [hi] using hb⟩
  refine { h with reqNodup := ?_, reqLt := ?_, resLt := ?_, resReq := ?_, madeIff := ?_, reqMade := ?_, active := ?_, pendLt := ?_, subsPend := ?_ }
  · exact Dict.nodup_erase h.reqNodup id
  · intro i hi; exact h.reqLt i ((hsub i).1 hi).2
  · intro i hi
    rcases (hres i).1 hi with rfl | hi
    · exact h.reqLt i hk
    · exact h.resLt i hi
  · intro i hi hc
    obtain ⟨h1, h2⟩ := (hsub i).1 hc
    rcases (hres i).1 hi with rfl | hi
    · exact h1 rfl
    · exact h.resReq i hi h2
  · intro i hi
    by_cases he : i = id
    · right; exact (hres i).2 (.inl he)
    · rcases h.madeIff i hi with h1 | h1
      · left
        show Dict.get? (Dict.erase s.requests id) i = some true
        rw [get?_erase' h.reqNodup, if_neg he]; exact h1
      · right; exact (hres i).2 (.inr h1)
  · intro i hi; exact h.reqMade i (hget i _ hi).2
  · intro i hi
    obtain ⟨hne, hi⟩ := hget i _ hi
    rcases h.active i hi with ⟨a, b⟩ | ⟨a, b, c⟩
    · exact .inl ⟨a, fun hc => b (hp i hc)⟩
    · exact .inr ⟨a, hp2 i b hne, c⟩
  · intro i hi; exact h.pendLt i (hp i hi)
  · intro i hi hc; exact h.subsPend i hi (hp i hc)

theorem inv_pop {s : Ctx V} (h : Inv s) : Inv s.pop.1 := by
  unfold Ctx.pop
  cases hq : s.q with
  | nil => exact h
  | cons item q =>
    dsimp only
    have h' : Inv { s with q := q, popped := s.popped ++ [item] } := { h with }
    cases item with
    | sentinel n =>
      dsimp only
      split
      · exact { h with }
      · exact h'
    | stop n =>
      dsimp only
      split <;> exact h'
    | update id v =>
      dsimp only
      split
      · exact { h with }
      · exact h'
    | ret id v =>
      dsimp only
      split
      · rename_i hm
        refine inv_settle h' id (.value v) _ hm ?_ ?_
        · intro i hi; exact (List.mem_filter.1 hi).1
        · intro i hi hne; exact List.mem_filter.2 ⟨hi, by simpa using hne⟩
      · exact h'
    | error id e =>
      dsimp only
      split
      · rename_i hm
        exact inv_settle h' id (.exc e) _ hm (fun i hi => hi) (fun i hi _ => hi)
      · exact h'

theorem inv_step {s : Ctx V} (h : Inv s) (op : Op V) : Inv (s.step op) := by
  cases op with
  | request b =>
    have fresh : s.nextId ∉ s.requests.keys := fun hc => Nat.lt_irrefl _ (h.reqLt _ hc)
    have hget : ∀ i c, Dict.get? (Dict.set s.requests s.nextId b) i = some c →
        (i = s.nextId ∧ c = b) ∨ (i ≠ s.nextId ∧ Dict.get? s.requests i = some c) := by
      intro i c hc
      rw [Dict.get?_set] at hc
      split at hc
      · rename_i he
        left
        exact ⟨by first | exact he | exact he.symm, by simpa using hc.symm⟩
      · rename_i he
        right
        exact ⟨fun hh => he (by first | exact hh | exact hh.symm), hc⟩
    have hkeys : ∀ i, i ∈ (Dict.set s.requests s.nextId b).keys → i = s.nextId ∨ i ∈ s.requests.keys := by
      intro i hi
      rw [mem_keys_iff] at hi
      cases hc : Dict.get? (Dict.set s.requests s.nextId b) i with
      | none => exact absurd hc hi
      | some c =>
        rcases hget i c hc with ⟨h1, _⟩ | ⟨_, h2⟩
        · exact .inl h1
        · exact .inr (mem_keys_iff.2 (by rw [h2]; simp))
    have hsubs : ∀ i, i ∈ (if b then s.subs ++ [s.nextId] else s.subs) →
        (i = s.nextId ∧ b = true) ∨ i ∈ s.subs := by
      intro i hi
      cases b with
      | true =>
        simp only [if_true, List.mem_append, List.mem_singleton] at hi
        rcases hi with h1 | h1
        · exact .inr h1
        · exact .inl ⟨h1, rfl⟩
      | false => exact .inr (by simpa using hi)
    have hmade : ∀ i, i ∈ (if b then s.made ++ [s.nextId] else s.made) →
        (i = s.nextId ∧ b = true) ∨ i ∈ s.made := by
      intro i hi
      cases b with
      | true =>
        simp only [if_true, List.mem_append, List.mem_singleton] at hi
        rcases hi with h1 | h1
        · exact .inr h1
        · exact .inl ⟨h1, rfl⟩
      | false => exact .inr (by simpa using hi)
    have madeSup : ∀ i ∈ s.made, i ∈ (if b then s.made ++ [s.nextId] else s.made) := by
      intro i hi; cases b <;> simp [hi]
    show Inv { s with
             nextId := s.nextId + 1, requests := Dict.set s.requests s.nextId b,
             subs := (if b then s.subs ++ [s.nextId] else s.subs),
             made := (if b then s.made ++ [s.nextId] else s.made) }
    constructor
    · exact Dict.nodup_set h.reqNodup _ _
    · intro i hi
      show i < s.nextId + 1
      rcases hkeys i hi with rfl | h1
      · omega
      · have := h.reqLt i h1; omega
    · intro i hi; show i < s.nextId + 1; have := h.resLt i hi; omega
    · intro i hi hc
      rcases hkeys i hc with rfl | h1
      · exact Nat.lt_irrefl _ (h.resLt _ hi)
      · exact h.resReq i hi h1
    · intro i hi
      show i < s.nextId + 1
      rcases hsubs i hi with ⟨rfl, _⟩ | h1
      · omega
      · have := h.subsLt i h1; omega
    · intro i hi
      show i < s.nextId + 1
      rcases hmade i hi with ⟨rfl, _⟩ | h1
      · omega
      · have := h.madeLt i h1; omega
    · intro i hi
      rcases hmade i hi with ⟨rfl, hb⟩ | h1
      · left
        show Dict.get? (Dict.set s.requests s.nextId b) s.nextId = some true
        rw [Dict.get?_set_self, hb]
      · rcases h.madeIff i h1 with h2 | h2
        · left
          show Dict.get? (Dict.set s.requests s.nextId b) i = some true
          have hne : i ≠ s.nextId := by
            intro hc; have := h.madeLt i h1; omega
          rw [Dict.get?_set_ne _ _ (by first | exact hne | exact hne.symm)]; exact h2
        · right; exact h2
    · show (if b then s.made ++ [s.nextId] else s.made).Nodup
      cases b with
      | true =>
        simp only [if_true]
        rw [List.nodup_append]
        refine ⟨h.madeNodup, by simp, ?_⟩
        intro a ha c hc
        simp only [List.mem_singleton] at hc
        have := h.madeLt a ha
        omega
      | false => simpa using h.madeNodup
    · intro i hi
      rcases hget i _ hi with ⟨h1, h2⟩ | ⟨_, h2⟩
      · show i ∈ (if b then s.made ++ [s.nextId] else s.made)
        rw [← h2, h1]; simp
      · exact madeSup i (h.reqMade i h2)
    · intro i hi; show i < s.nextId + 1; have := h.unsubLt i hi; omega
    · exact h.unsubNodup
    · intro i hi; exact madeSup i (h.unsubMade i hi)
    · intro i hi hc
      rcases hsubs i hc with ⟨rfl, _⟩ | h1
      · exact Nat.lt_irrefl _ (h.unsubLt _ hi)
      · exact h.unsubSubs i hi h1
    · intro i hi
      show i ∈ (if b then s.made ++ [s.nextId] else s.made)
      rcases hsubs i hi with ⟨rfl, hb⟩ | h1
      · simp [hb]
      · exact madeSup i (h.subsMade i h1)
    · intro i hi
      rcases hget i _ hi with ⟨h1, h2⟩ | ⟨hne, h2⟩
      · left
        subst h1
        refine ⟨?_, fun hc => Nat.lt_irrefl _ (h.pendLt _ hc)⟩
        show s.nextId ∈ (if b then s.subs ++ [s.nextId] else s.subs)
        rw [← h2]; simp
      · rcases h.active i h2 with ⟨a, c⟩ | ⟨a, c, d⟩
        · left
          refine ⟨?_, c⟩
          show i ∈ (if b then s.subs ++ [s.nextId] else s.subs)
          cases b <;> simp [a]
        · right
          refine ⟨?_, c, d⟩
          intro hc
          rcases hsubs i hc with ⟨h3, _⟩ | h3
          · exact hne h3
          · exact a h3
    · intro i hi; show i < s.nextId + 1; have := h.pendLt i hi; omega
    · intro i hi hc
      rcases hsubs i hi with ⟨rfl, _⟩ | h1
      · exact Nat.lt_irrefl _ (h.pendLt _ hc)
      · exact h.subsPend i h1 hc
  | update id v => exact { h with }
  | ret id v => exact { h with }
  | error id e => exact { h with }
  | stop => exact { h with }
  | ignore => exact { h with }
  | unsubscribe id alive => exact inv_unsubscribe h id alive
  | unsubscribeAll alive => exact inv_unsubscribeAll h alive
  | pop => exact inv_pop h

theorem inv_run {s : Ctx V} (h : Inv s) (ops : List (Op V)) : Inv (s.run ops) :=
  foldl_inv Inv Ctx.step ops (fun _ _ hs => inv_step hs _) s h

/-! ### the queue -/

/-- what an operation puts in the queue -/
def Op.puts (s : Ctx V) : Op V → List (Item V)
  | .update id v => [.update id v]
  | .ret id v => [.ret id v]
  | .error id e => [.error id e]
  | .stop => [.stop s.ignores]
  | .ignore => [.sentinel s.ignores]
  | _ => []

theorem unsubscribe_same (s : Ctx V) (id : Nat) (alive : Bool) :
    (s.unsubscribe id alive).q = s.q ∧ (s.unsubscribe id alive).popped = s.popped ∧
    (s.unsubscribe id alive).ignores = s.ignores ∧ (s.unsubscribe id alive).sentinel = s.sentinel ∧
    (s.unsubscribe id alive).calls = s.calls ∧ (s.unsubscribe id alive).requests = s.requests ∧
    (s.unsubscribe id alive).results = s.results ∧ (s.unsubscribe id alive).nextId = s.nextId ∧
    (s.unsubscribe id alive).made = s.made := by
  unfold Ctx.unsubscribe
  split
  · simp
  · split
    · simp
    · split <;> simp

theorem unsubscribeAll_same (s : Ctx V) (alive : Nat → Bool) :
    (s.unsubscribeAll alive).q = s.q ∧ (s.unsubscribeAll alive).popped = s.popped ∧
    (s.unsubscribeAll alive).ignores = s.ignores ∧ (s.unsubscribeAll alive).sentinel = s.sentinel ∧
    (s.unsubscribeAll alive).calls = s.calls ∧ (s.unsubscribeAll alive).requests = s.requests ∧
    (s.unsubscribeAll alive).results = s.results ∧ (s.unsubscribeAll alive).nextId = s.nextId ∧
    (s.unsubscribeAll alive).made = s.made := by
  unfold Ctx.unsubscribeAll
  apply foldl_inv (fun t : Ctx V => t.q = s.q ∧ t.popped = s.popped ∧ t.ignores = s.ignores ∧
    t.sentinel = s.sentinel ∧ t.calls = s.calls ∧ t.requests = s.requests ∧ t.results = s.results ∧
    t.nextId = s.nextId ∧ t.made = s.made)
  · intro t r ht
    split
    · obtain ⟨a, b, c, d, e, f, g, h, i⟩ := unsubscribe_same t r.1 (alive r.1)
      rw [a, b, c, d, e, f, g, h, i]; exact ht
    · exact ht
  · simp

theorem pop_history (s : Ctx V) : s.pop.1.popped ++ s.pop.1.q = s.popped ++ s.q ∧
    s.pop.1.ignores = s.ignores ∧ s.pop.1.nextId = s.nextId ∧ s.pop.1.made = s.made ∧
    s.pop.1.unsubs = s.unsubs ∧ s.pop.1.subs = s.subs := by
  unfold Ctx.pop
  cases hq : s.q with
  | nil => simp [hq]
  | cons item q =>
    cases item <;> dsimp only <;> (try split) <;> simp

theorem pop_popped (s : Ctx V) (x : Item V) (q : List (Item V)) (hq : s.q = x :: q) :
    s.pop.1.popped = s.popped ++ [x] ∧ s.pop.1.q = q := by
  unfold Ctx.pop
  rw [hq]
  cases x <;> dsimp only <;> (try split) <;> simp

theorem step_history (s : Ctx V) (op : Op V) :
    (s.step op).popped ++ (s.step op).q = s.popped ++ s.q ++ op.puts s := by
  cases op with
  | pop => simpa [Op.puts, Ctx.step] using (pop_history s).1
  | unsubscribe id alive =>
    have h := unsubscribe_same s id alive
    simp [Op.puts, Ctx.step, h.1, h.2.1]
  | unsubscribeAll alive =>
    have h := unsubscribeAll_same s alive
    simp [Op.puts, Ctx.step, h.1, h.2.1]
  | _ => simp [Op.puts, Ctx.step]

theorem step_ignores (s : Ctx V) (op : Op V) :
    (s.step op).ignores = s.ignores + (match op with | .ignore => 1 | _ => 0) := by
  cases op with
  | pop => simpa [Ctx.step] using (pop_history s).2.1
  | unsubscribe id alive => exact (unsubscribe_same s id alive).2.2.1
  | unsubscribeAll alive => exact (unsubscribeAll_same s alive).2.2.1
  | _ => simp [Ctx.step]

theorem run_history (s : Ctx V) (ops : List (Op V)) :
    ∃ l, (s.run ops).popped ++ (s.run ops).q = s.popped ++ s.q ++ l := by
  induction ops generalizing s with
  | nil => exact ⟨[], by simp [Ctx.run]⟩
  | cons op ops ih =>
    obtain ⟨l, hl⟩ := ih (s.step op)
    refine ⟨op.puts s ++ l, ?_⟩
    show ((s.step op).run ops).popped ++ ((s.step op).run ops).q = _
    rw [hl, step_history]; simp [List.append_assoc]

theorem run_ignores (s : Ctx V) (ops : List (Op V)) :
    s.ignores ≤ (s.run ops).ignores ∧ (Op.ignore ∈ ops ↔ s.ignores < (s.run ops).ignores) := by
  induction ops generalizing s with
  | nil => simp [Ctx.run]
  | cons op ops ih =>
    obtain ⟨h1, h2⟩ := ih (s.step op)
    have h3 := step_ignores s op
    show s.ignores ≤ ((s.step op).run ops).ignores ∧ (_ ↔ s.ignores < ((s.step op).run ops).ignores)
    have hc : Op.ignore ∈ op :: ops ↔ Op.ignore = op ∨ Op.ignore ∈ ops := by
      simp
    rw [hc]
    cases op with
    | ignore => simp only at h3; refine ⟨by omega, by simp; omega⟩
    | _ => simp only [Nat.add_zero] at h3; rw [h3] at h1 h2; exact ⟨h1, by simp [h2]⟩

/-- How two items of the queue are related, the first being ahead of the second. -/
def Ahead : Item V → Item V → Prop
  | .stop n, .sentinel k => n ≤ k
  | .sentinel n, .sentinel k => n ≠ k
  | _, _ => True

structure SInv (s : Ctx V) : Prop where
  pw : s.q.Pairwise Ahead
  covered : ∀ a b n, s.q = a ++ Item.stop n :: b → n < s.ignores → Item.sentinel (s.ignores - 1) ∈ b
  stopLe : ∀ n, Item.stop n ∈ s.q → n ≤ s.ignores
  sentLt : ∀ n, Item.sentinel n ∈ s.q → n < s.ignores
  isSome : ∀ n, s.sentinel = some n → n + 1 = s.ignores ∧ Item.sentinel n ∈ s.q
  inQ : ∀ n, Item.sentinel n ∈ s.q → n + 1 = s.ignores → s.sentinel = some n

theorem sinv_of_same {s t : Ctx V} (h : SInv s) (h1 : t.q = s.q) (h2 : t.ignores = s.ignores)
    (h3 : t.sentinel = s.sentinel) : SInv t := by
  constructor
  · rw [h1]; exact h.pw
  · rw [h1, h2]; exact h.covered
  · rw [h1, h2]; exact h.stopLe
  · rw [h1, h2]; exact h.sentLt
  · rw [h1, h2, h3]; exact h.isSome
  · rw [h1, h2, h3]; exact h.inQ

theorem append_one {A : Type} {q a b : List A} {x y : A} (h : q ++ [x] = a ++ y :: b) :
    (b = [] ∧ x = y ∧ q = a) ∨ ∃ b', b = b' ++ [x] ∧ q = a ++ y :: b' := by
  rcases List.eq_nil_or_concat b with hb | ⟨b', z, hb⟩
  · left
    subst hb
    have := List.append_inj' h rfl
    exact ⟨rfl, by simpa using this.2, this.1⟩
  · right
    subst hb
    have h' : q ++ [x] = (a ++ y :: b') ++ [z] := by simpa using h
    have := List.append_inj' h' rfl
    have hz : x = z := by simpa using this.2
    exact ⟨b', by simp [hz], this.1⟩

theorem sinv_put {s : Ctx V} (h : SInv s) (x : Item V)
    (hx : ∀ n, x ≠ Item.sentinel n) (hs : ∀ n, x = Item.stop n → n = s.ignores) :
    SInv { s with q := s.q ++ [x] } := by
  have hmem : ∀ n, Item.sentinel n ∈ s.q ++ [x] → Item.sentinel n ∈ s.q := by
    intro n hn
    rcases List.mem_append.1 hn with h1 | h1
    · exact h1
    · exact absurd (List.mem_singleton.1 h1).symm (hx n)
  constructor
  · show (s.q ++ [x]).Pairwise Ahead
    rw [List.pairwise_append]
    refine ⟨h.pw, by simp, ?_⟩
    intro a ha b hb
    simp only [List.mem_singleton] at hb
    subst hb
    cases b with
    | sentinel n => exact absurd rfl (hx n)
    | _ => cases a <;> trivial
  · intro a b n hq hn
    rcases append_one hq with ⟨hb, hxy, _⟩ | ⟨b', hb, hq'⟩
    · have := hs n hxy
      have hn' : n < s.ignores := hn
      omega
    · rw [hb]; exact List.mem_append.2 (.inl (h.covered a b' n hq' hn))
  · intro n hn
    rcases List.mem_append.1 hn with h1 | h1
    · exact h.stopLe n h1
    · have := hs n (List.mem_singleton.1 h1).symm
      show n ≤ s.ignores
      omega
  · intro n hn; exact h.sentLt n (hmem n hn)
  · intro n hn; exact ⟨(h.isSome n hn).1, List.mem_append.2 (.inl (h.isSome n hn).2)⟩
  · intro n hn; exact h.inQ n (hmem n hn)

theorem sinv_ignore {s : Ctx V} (h : SInv s) : SInv (s.step .ignore) := by
  have key : SInv { s with
      ignores := s.ignores + 1, sentinel := some s.ignores, q := s.q ++ [.sentinel s.ignores] } := by
    constructor
    · show (s.q ++ [Item.sentinel s.ignores]).Pairwise Ahead
      rw [List.pairwise_append]
      refine ⟨h.pw, by simp, ?_⟩
      intro a ha b hb
      simp only [List.mem_singleton] at hb
      subst hb
      cases a with
      | stop n => exact h.stopLe n ha
      | sentinel n => have := h.sentLt n ha; show n ≠ s.ignores; omega
      | _ => trivial
    · intro a b n hq hn
      rcases append_one hq with ⟨hb, hxy, _⟩ | ⟨b', hb, hq'⟩
      · exact absurd hxy (by simp)
      · rw [hb]; simp
    · intro n hn
      show n ≤ s.ignores + 1
      rcases List.mem_append.1 hn with h1 | h1
      · have := h.stopLe n h1; omega
      · simp at h1
    · intro n hn
      show n < s.ignores + 1
      rcases List.mem_append.1 hn with h1 | h1
      · have := h.sentLt n h1; omega
      · simp at h1; omega
    · intro n hn
      have : s.ignores = n := by simpa using hn
      subst this
      exact ⟨rfl, by simp⟩
    · intro n hn he
      have he' : n + 1 = s.ignores + 1 := he
      have : n = s.ignores := by omega
      subst this; rfl
  exact key

open Classical in
theorem sinv_tail {s : Ctx V} (h : SInv s) (x : Item V) (q : List (Item V)) (hq : s.q = x :: q)
    (t : Ctx V) (ht : t.q = q) (hi : t.ignores = s.ignores)
    (hs : t.sentinel = if (∃ n, x = Item.sentinel n ∧ s.sentinel = some n) then none else s.sentinel) :
    SInv t := by
  have hpw := h.pw
  rw [hq, List.pairwise_cons] at hpw
  have hsub : ∀ y, y ∈ q → y ∈ s.q := fun y hy => by rw [hq]; exact List.mem_cons_of_mem _ hy
  constructor
  · rw [ht]; exact hpw.2
  · intro a b n hab hn
    rw [ht] at hab
    rw [hi] at hn ⊢
    exact h.covered (x :: a) b n (by rw [hq, hab]; rfl) hn
  · rw [ht, hi]; intro n hn; exact h.stopLe n (hsub _ hn)
  · rw [ht, hi]; intro n hn; exact h.sentLt n (hsub _ hn)
  · intro n hn
    rw [hs] at hn
    split at hn
    · cases hn
    · rename_i hc
      obtain ⟨h1, h2⟩ := h.isSome n hn
      refine ⟨by rw [hi]; exact h1, ?_⟩
      rw [ht]
      rw [hq] at h2
      rcases List.mem_cons.1 h2 with h3 | h3
      · exact absurd ⟨n, h3.symm, hn⟩ hc
      · exact h3
  · intro n hn he
    rw [ht] at hn
    rw [hi] at he
    have h1 := h.inQ n (hsub _ hn) he
    rw [hs]
    split
    · rename_i hc
      obtain ⟨m, hm, hm2⟩ := hc
      rw [h1] at hm2
      have hmn : n = m := by simpa using hm2
      subst hmn
      have := hpw.1 _ hn
      rw [hm] at this
      exact absurd rfl this
    · exact h1

theorem sinv_pop {s : Ctx V} (h : SInv s) : SInv s.pop.1 := by
  cases hq : s.q with
  | nil => unfold Ctx.pop; rw [hq]; exact h
  | cons x q =>
    refine sinv_tail h x q hq _ (pop_popped s x q hq).2 (pop_history s).2.1 ?_
    unfold Ctx.pop
    rw [hq]
    cases x with
    | sentinel n =>
      dsimp only
      by_cases hc : s.sentinel = some n
      · rw [if_pos hc, if_pos ⟨n, rfl, hc⟩]
      · rw [if_neg hc, if_neg]
        rintro ⟨m, hm, hm2⟩
        cases hm
        exact hc hm2
    | _ => rw [if_neg (by simp)]; dsimp only <;> (try split) <;> rfl

theorem sinv_step {s : Ctx V} (h : SInv s) (op : Op V) : SInv (s.step op) := by
  cases op with
  | request b => exact sinv_of_same h rfl rfl rfl
  | update id v => exact sinv_put h _ (by simp) (by simp)
  | ret id v => exact sinv_put h _ (by simp) (by simp)
  | error id e => exact sinv_put h _ (by simp) (by simp)
  | stop => exact sinv_put h _ (by simp) (by intro n hn; simpa using hn.symm)
  | ignore => exact sinv_ignore h
  | unsubscribe id alive =>
    have h1 := unsubscribe_same s id alive
    exact sinv_of_same h h1.1 h1.2.2.1 h1.2.2.2.1
  | unsubscribeAll alive =>
    have h1 := unsubscribeAll_same s alive
    exact sinv_of_same h h1.1 h1.2.2.1 h1.2.2.2.1
  | pop => exact sinv_pop h

theorem sinv_init : SInv ({} : Ctx V) := by constructor <;> simp

theorem sinv_run {s : Ctx V} (h : SInv s) (ops : List (Op V)) : SInv (s.run ops) :=
  foldl_inv SInv Ctx.step ops (fun _ _ hs => sinv_step hs _) s h

/-- A stop that is taken from the queue aborts iff nothing was ignored since it was put. -/
theorem stop_at_head {s : Ctx V} (h : SInv s) (n : Nat) (q : List (Item V)) (hq : s.q = .stop n :: q) :
    s.pop.2 = if s.ignores = n then .aborted else .nothing := by
  have hle := h.stopLe n (by rw [hq]; simp)
  have hp : s.pop.2 = if s.sentinel = none then .aborted else .nothing := by
    unfold Ctx.pop
    rw [hq]
    dsimp only
    split <;> rfl
  rw [hp]
  by_cases hn : s.ignores = n
  · rw [if_pos hn, if_pos]
    cases hs : s.sentinel with
    | none => rfl
    | some m =>
      obtain ⟨h1, h2⟩ := h.isSome m hs
      rw [hq] at h2
      have h3 : Item.sentinel m ∈ q := by simpa using h2
      have hpw := h.pw
      rw [hq, List.pairwise_cons] at hpw
      have := hpw.1 _ h3
      have h4 : n ≤ m := this
      omega
  · rw [if_neg hn, if_neg]
    have h1 := h.covered [] q n hq (by omega)
    have h2 := h.inQ (s.ignores - 1) (by rw [hq]; exact List.mem_cons_of_mem _ h1) (by omega)
    rw [h2]; simp

/-! ### futures -/

structure Track (id k : Nat) (s : Ctx V) : Prop where
  len : k ≤ s.popped.length
  res : Dict.get? s.results id = firstSettled id (s.popped.drop k)
  open_ : Dict.get? s.results id = none → id ∈ s.requests.keys

theorem track_same {id k : Nat} {s t : Ctx V} (h : Track id k s) (h1 : t.popped = s.popped)
    (h2 : t.results = s.results) (h3 : ∀ i, i ∈ s.requests.keys → i ∈ t.requests.keys) : Track id k t := by
  refine ⟨by rw [h1]; exact h.len, by rw [h1, h2]; exact h.res, ?_⟩
  rw [h2]; intro hn; exact h3 id (h.open_ hn)

theorem track_settle {id k : Nat} {s : Ctx V} (h : Track id k s) (hi : Inv s) (x : Item V) (i : Nat)
    (r : Result V) (hx : ∀ j, x.settles j = if i = j then some r else none)
    (hm : Dict.mem s.requests i = true) (t : Ctx V) (h1 : t.popped = s.popped ++ [x])
    (h2 : t.results = Dict.set s.results i r) (h3 : t.requests = Dict.erase s.requests i) : Track id k t := by
  have hd : t.popped.drop k = s.popped.drop k ++ [x] := by
    rw [h1, List.drop_append_of_le_length h.len]
  have hik : i ∈ s.requests.keys := Dict.mem_iff.1 hm
  refine ⟨by rw [h1]; have := h.len; simp; omega, ?_, ?_⟩
  · rw [hd, firstSettled_append, ← h.res, h2]
    by_cases he : i = id
    · subst he
      have hn : Dict.get? s.results i = none := by
        rw [Dict.get?_none_iff]; exact fun hc => hi.resReq i hc hik
      rw [hn, Dict.get?_set_self]
      simp [firstSettled, hx]
    · rw [Dict.get?_set_ne _ _ (by first | exact he | exact fun hc => he hc.symm)]
      simp [firstSettled, hx, he]
  · rw [h2, h3]
    intro hn
    by_cases he : i = id
    · subst he; rw [Dict.get?_set_self] at hn; cases hn
    · rw [Dict.get?_set_ne _ _ (by first | exact he | exact fun hc => he hc.symm)] at hn
      rw [mem_keys_iff, get?_erase' hi.reqNodup, if_neg (fun hc => he hc.symm), ← mem_keys_iff]
      exact h.open_ hn

theorem track_skip {id k : Nat} {s : Ctx V} (h : Track id k s) (x : Item V)
    (hx : x.settles id = none ∨ id ∉ s.requests.keys) (t : Ctx V) (h1 : t.popped = s.popped ++ [x])
    (h2 : t.results = s.results) (h3 : t.requests = s.requests) : Track id k t := by
  have hd : t.popped.drop k = s.popped.drop k ++ [x] := by
    rw [h1, List.drop_append_of_le_length h.len]
  refine ⟨by rw [h1]; have := h.len; simp; omega, ?_, by rw [h2, h3]; exact h.open_⟩
  rw [hd, firstSettled_append, ← h.res, h2]
  rcases hx with hx | hx
  · simp [firstSettled, hx]
  · cases hr : Dict.get? s.results id with
    | none => exact absurd (h.open_ hr) hx
    | some r => simp

theorem not_mem_of_mem_false {d : Dict Nat Bool} {i : Nat} (h : ¬ Dict.mem d i = true) : i ∉ d.keys :=
  fun hc => h (Dict.mem_iff.2 hc)

theorem track_pop {id k : Nat} {s : Ctx V} (h : Track id k s) (hi : Inv s) : Track id k s.pop.1 := by
  unfold Ctx.pop
  cases hq : s.q with
  | nil => exact h
  | cons x q =>
    cases x with
    | sentinel n =>
      dsimp only
      split <;> exact track_skip h (.sentinel n) (.inl rfl) _ rfl rfl rfl
    | stop n =>
      dsimp only
      split <;> exact track_skip h (.stop n) (.inl rfl) _ rfl rfl rfl
    | update i v =>
      dsimp only
      split <;> exact track_skip h (.update i v) (.inl rfl) _ rfl rfl rfl
    | ret i v =>
      dsimp only
      split
      · rename_i hm
        exact track_settle h hi (.ret i v) i (.value v) (fun j => rfl) hm _ rfl rfl rfl
      · rename_i hm
        refine track_skip h (.ret i v) ?_ _ rfl rfl rfl
        by_cases he : i = id
        · exact .inr (he ▸ not_mem_of_mem_false hm)
        · exact .inl (by simp [Item.settles, he])
    | error i e =>
      dsimp only
      split
      · rename_i hm
        exact track_settle h hi (.error i e) i (.exc e) (fun j => rfl) hm _ rfl rfl rfl
      · rename_i hm
        refine track_skip h (.error i e) ?_ _ rfl rfl rfl
        by_cases he : i = id
        · exact .inr (he ▸ not_mem_of_mem_false hm)
        · exact .inl (by simp [Item.settles, he])

theorem keys_set_sub (d : Dict Nat Bool) (k : Nat) (b : Bool) (i : Nat) (hi : i ∈ d.keys) :
    i ∈ (Dict.set d k b).keys := by
  rw [mem_keys_iff, Dict.get?_set]
  split
  · simp
  · exact mem_keys_iff.1 hi

theorem track_step {id k : Nat} {s : Ctx V} (h : Track id k s) (hi : Inv s) (op : Op V) :
    Track id k (s.step op) := by
  cases op with
  | pop => exact track_pop h hi
  | request b => exact track_same h rfl rfl (fun i hi => keys_set_sub _ _ _ _ hi)
  | unsubscribe i alive =>
    obtain ⟨_, a, _, _, _, b, c, _⟩ := unsubscribe_same s i alive
    exact track_same h a c (fun i hi => by show i ∈ (s.unsubscribe _ _).requests.keys; rw [b]; exact hi)
  | unsubscribeAll alive =>
    obtain ⟨_, a, _, _, _, b, c, _⟩ := unsubscribeAll_same s alive
    exact track_same h a c (fun i hi => by show i ∈ (s.unsubscribeAll _).requests.keys; rw [b]; exact hi)
  | _ => exact track_same h rfl rfl (fun i hi => hi)

theorem track_run {id k : Nat} {s : Ctx V} (h : Track id k s) (hi : Inv s) (ops : List (Op V)) :
    Track id k (s.run ops) := by
  have : Track id k (s.run ops) ∧ Inv (s.run ops) :=
    foldl_inv (fun s => Track id k s ∧ Inv s) Ctx.step ops
      (fun t op ht => ⟨track_step ht.1 ht.2 op, inv_step ht.2 op⟩) s ⟨h, hi⟩
  exact this.1

theorem results_pop {s : Ctx V} (hi : Inv s) (id : Nat) (r : Result V)
    (h : Dict.get? s.results id = some r) : Dict.get? s.pop.1.results id = some r := by
  have key : ∀ i, Dict.mem s.requests i = true → i ≠ id := by
    intro i hm he
    subst he
    exact hi.resReq i (mem_keys_iff'.2 (by rw [h]; simp)) (Dict.mem_iff.1 hm)
  unfold Ctx.pop
  cases hq : s.q with
  | nil => exact h
  | cons x q =>
    cases x with
    | ret i v =>
      dsimp only
      split
      · rename_i hm
        have := key i hm
        show Dict.get? (Dict.set s.results i _) id = _
        rw [Dict.get?_set_ne _ _ (by first | exact this | exact this.symm)]; exact h
      · exact h
    | error i e =>
      dsimp only
      split
      · rename_i hm
        have := key i hm
        show Dict.get? (Dict.set s.results i _) id = _
        rw [Dict.get?_set_ne _ _ (by first | exact this | exact this.symm)]; exact h
      · exact h
    | _ => dsimp only; split <;> exact h

theorem results_same {s : Ctx V} (op : Op V) (h : op ≠ .pop) : (s.step op).results = s.results := by
  cases op with
  | pop => exact absurd rfl h
  | unsubscribe i alive => exact (unsubscribe_same s i alive).2.2.2.2.2.2.1
  | unsubscribeAll alive => exact (unsubscribeAll_same s alive).2.2.2.2.2.2.1
  | _ => rfl

theorem results_step {s : Ctx V} (hi : Inv s) (op : Op V) (id : Nat) (r : Result V)
    (h : Dict.get? s.results id = some r) : Dict.get? (s.step op).results id = some r := by
  cases op with
  | pop => exact results_pop hi id r h
  | unsubscribe i alive => rw [results_same _ (by simp)]; exact h
  | unsubscribeAll alive => rw [results_same _ (by simp)]; exact h
  | _ => exact h

theorem results_run {s : Ctx V} (hi : Inv s) (ops : List (Op V)) (id : Nat) (r : Result V)
    (h : Dict.get? s.results id = some r) : Dict.get? (s.run ops).results id = some r := by
  have : Dict.get? (s.run ops).results id = some r ∧ Inv (s.run ops) :=
    foldl_inv (fun s => Dict.get? s.results id = some r ∧ Inv s) Ctx.step ops
      (fun t op ht => ⟨results_step ht.2 op id r ht.1, inv_step ht.2 op⟩) s ⟨h, hi⟩
  exact this.1

/-- the future of a request that was made -/
def Known (s : Ctx V) (f : Nat) : Prop := f ∈ s.requests.keys ∨ f ∈ s.results.keys

theorem known_settle {s : Ctx V} (hi : Inv s) (f i : Nat) (r : Result V) (h : Known s f) (t : Ctx V)
    (h2 : t.results = Dict.set s.results i r) (h3 : t.requests = Dict.erase s.requests i) : Known t f := by
  unfold Known
  rw [h2, h3]
  by_cases he : f = i
  · right; subst he; rw [mem_keys_iff', Dict.get?_set_self]; simp
  · rcases h with h | h
    · left; rw [mem_keys_iff, get?_erase' hi.reqNodup, if_neg he]; exact mem_keys_iff.1 h
    · right
      rw [mem_keys_iff', Dict.get?_set_ne _ _ (by first | exact he | exact fun hc => he hc.symm)]
      exact mem_keys_iff'.1 h

theorem known_pop {s : Ctx V} (hi : Inv s) (f : Nat) (h : Known s f) : Known s.pop.1 f := by
  unfold Ctx.pop
  cases hq : s.q with
  | nil => exact h
  | cons x q =>
    cases x with
    | ret i v => dsimp only; split; exact known_settle hi f i _ h _ rfl rfl; exact h
    | error i v => dsimp only; split; exact known_settle hi f i _ h _ rfl rfl; exact h
    | _ => dsimp only; split <;> exact h

theorem known_step {s : Ctx V} (hi : Inv s) (op : Op V) (f : Nat) (h : Known s f) : Known (s.step op) f := by
  cases op with
  | pop => exact known_pop hi f h
  | request b => exact h.imp (keys_set_sub _ _ _ _) id
  | unsubscribe i alive =>
    obtain ⟨_, _, _, _, _, b, c, _⟩ := unsubscribe_same s i alive
    unfold Known Ctx.step; rw [b, c]; exact h
  | unsubscribeAll alive =>
    obtain ⟨_, _, _, _, _, b, c, _⟩ := unsubscribeAll_same s alive
    unfold Known Ctx.step; rw [b, c]; exact h
  | _ => exact h

theorem known_run {s : Ctx V} (hi : Inv s) (ops : List (Op V)) (f : Nat) (h : Known s f) :
    Known (s.run ops) f := by
  have : Known (s.run ops) f ∧ Inv (s.run ops) :=
    foldl_inv (fun s => Known s f ∧ Inv s) Ctx.step ops
      (fun t op ht => ⟨known_step ht.2 op f ht.1, inv_step ht.2 op⟩) s ⟨h, hi⟩
  exact this.1

/-- what a pop that resolves or fails a future did -/
theorem pop_resolved {s : Ctx V} {i : Nat} (h : s.pop.2 = .resolved i) :
    i ∈ s.requests.keys ∧ ∃ v, s.pop.1.results = Dict.set s.results i (.value v) ∧
      s.pop.1.requests = Dict.erase s.requests i := by
  unfold Ctx.pop at h ⊢
  cases hq : s.q with
  | nil => simp [hq] at h
  | cons x q =>
    cases x with
    | ret j v =>
      simp only [hq] at h ⊢
      by_cases hm : Dict.mem s.requests j = true
      · rw [if_pos hm] at h
        rw [if_pos hm]
        have : j = i := by simpa using h
        subst this
        exact ⟨Dict.mem_iff.1 hm, v, rfl, rfl⟩
      · rw [if_neg hm] at h; simp at h
    | _ => simp only [hq] at h; split at h <;> simp at h

theorem pop_failed {s : Ctx V} {i e : Nat} (h : s.pop.2 = .failed i e) :
    i ∈ s.requests.keys ∧ s.pop.1.results = Dict.set s.results i (.exc e) ∧
      s.pop.1.requests = Dict.erase s.requests i := by
  unfold Ctx.pop at h ⊢
  cases hq : s.q with
  | nil => simp [hq] at h
  | cons x q =>
    cases x with
    | error j v =>
      simp only [hq] at h ⊢
      by_cases hm : Dict.mem s.requests j = true
      · rw [if_pos hm] at h
        rw [if_pos hm]
        have : j = i ∧ v = e := by simpa using h
        obtain ⟨rfl, rfl⟩ := this
        exact ⟨Dict.mem_iff.1 hm, rfl, rfl⟩
      · rw [if_neg hm] at h; simp at h
    | _ => simp only [hq] at h; split at h <;> simp at h

theorem pop_other {s : Ctx V} (h : ∀ i, s.pop.2 ≠ .resolved i) (h' : ∀ i e, s.pop.2 ≠ .failed i e) :
    s.pop.1.results = s.results ∧ s.pop.1.requests = s.requests := by
  unfold Ctx.pop at h h' ⊢
  cases hq : s.q with
  | nil => exact ⟨rfl, rfl⟩
  | cons x q =>
    cases x with
    | ret j v =>
      simp only [hq] at h ⊢
      by_cases hm : Dict.mem s.requests j = true
      · rw [if_pos hm] at h; exact absurd rfl (h j)
      · rw [if_neg hm]; exact ⟨rfl, rfl⟩
    | error j v =>
      simp only [hq] at h' ⊢
      by_cases hm : Dict.mem s.requests j = true
      · rw [if_pos hm] at h'; exact absurd rfl (h' j v)
      · rw [if_neg hm]; exact ⟨rfl, rfl⟩
    | _ => dsimp only; split <;> exact ⟨rfl, rfl⟩

/-! ### waits -/

theorem pruneLoop_sub (rq : Dict Nat Bool) (n : Nat) (fs : List Nat) (i x : Nat)
    (h : x ∈ pruneLoop rq n fs i) : x ∈ fs := by
  induction n generalizing fs i with
  | zero => exact h
  | succ n ih =>
    unfold pruneLoop at h
    cases hf : fs[i]? with
    | none => rw [hf] at h; exact h
    | some f =>
      rw [hf] at h
      dsimp only at h
      split at h
      · exact ih _ _ h
      · exact List.mem_of_mem_erase (ih _ _ h)

theorem pruneLoop_keeps (rq : Dict Nat Bool) (n : Nat) (fs : List Nat) (i x : Nat)
    (hx : x ∈ fs) (hr : x ∈ rq.keys) : x ∈ pruneLoop rq n fs i := by
  induction n generalizing fs i with
  | zero => exact hx
  | succ n ih =>
    unfold pruneLoop
    cases hf : fs[i]? with
    | none => exact hx
    | some f =>
      dsimp only
      split
      · exact ih _ _ hx
      · rename_i hm
        refine ih _ _ ?_
        have : x ≠ f := fun hc => hm (hc ▸ Dict.mem_iff.2 hr)
        exact (List.mem_erase_of_ne this).2 hx

theorem prune_all_open (rq : Dict Nat Bool) (n : Nat) (fs : List Nat) (i : Nat)
    (h : ∀ x ∈ fs, x ∈ rq.keys) : pruneLoop rq n fs i = fs := by
  induction n generalizing i with
  | zero => rfl
  | succ n ih =>
    unfold pruneLoop
    cases hf : fs[i]? with
    | none => rfl
    | some f =>
      have hm : f ∈ fs := List.mem_of_getElem? hf
      dsimp only
      rw [if_pos (Dict.mem_iff.2 (h f hm))]
      exact ih _

theorem startLoop_error {rs : Dict Nat (Result V)} {fs : List Nat} {f e : Nat}
    (h : startLoop rs fs = .error (f, e)) : f ∈ fs ∧ Dict.get? rs f = some (.exc e) := by
  induction fs with
  | nil => simp [startLoop] at h
  | cons g fs ih =>
    unfold startLoop at h
    cases hg : Dict.get? rs g with
    | none =>
      rw [hg] at h
      dsimp only at h
      cases hs : startLoop rs fs with
      | error x =>
        rw [hs] at h
        have hx : x = (f, e) := by simpa using h
        subst hx
        exact ⟨List.mem_cons_of_mem _ (ih hs).1, (ih hs).2⟩
      | ok l => rw [hs] at h; simp at h
    | some r =>
      rw [hg] at h
      cases r with
      | value v => exact ⟨List.mem_cons_of_mem _ (ih h).1, (ih h).2⟩
      | exc e' =>
        have hx : g = f ∧ e' = e := by simpa using h
        obtain ⟨rfl, rfl⟩ := hx
        exact ⟨List.mem_cons_self, hg⟩

theorem startLoop_ok {rs : Dict Nat (Result V)} {fs l : List Nat} (h : startLoop rs fs = .ok l) :
    l.Sublist fs ∧ (∀ f ∈ fs, f ∈ l ∨ ∃ v, Dict.get? rs f = some (.value v)) ∧
    (∀ f ∈ l, Dict.get? rs f = none) := by
  induction fs generalizing l with
  | nil => simp [startLoop] at h; subst h; simp
  | cons g fs ih =>
    unfold startLoop at h
    cases hg : Dict.get? rs g with
    | none =>
      rw [hg] at h
      dsimp only at h
      cases hs : startLoop rs fs with
      | error x => rw [hs] at h; simp at h
      | ok l' =>
        rw [hs] at h
        have hl : g :: l' = l := by simpa using h
        subst hl
        obtain ⟨a, b, c⟩ := ih hs
        refine ⟨List.Sublist.cons_cons g a, ?_, ?_⟩
        · intro f hf
          rcases List.mem_cons.1 hf with rfl | hf
          · exact .inl List.mem_cons_self
          · exact (b f hf).imp (List.mem_cons_of_mem _) id
        · intro f hf
          rcases List.mem_cons.1 hf with rfl | hf
          · exact hg
          · exact c f hf
    | some r =>
      rw [hg] at h
      cases r with
      | exc e => simp at h
      | value v =>
        obtain ⟨a, b, c⟩ := ih h
        refine ⟨List.Sublist.cons g a, ?_, c⟩
        intro f hf
        rcases List.mem_cons.1 hf with rfl | hf
        · exact .inr ⟨v, hg⟩
        · exact b f hf

/-- Facts about a wait for `fs`, whatever happens meanwhile. -/
structure WInv (fs : List Nat) (sw : Ctx V × Wait) : Prop where
  inv : Inv sw.1
  known : ∀ f ∈ fs, Known sw.1 f
  sub : ∀ f ∈ sw.2.futures, f ∈ fs
  left : sw.2.ended = none ∨ sw.2.ended = some .returned →
    ∀ f ∈ fs, f ∈ sw.1.results.keys ∨ f ∈ sw.2.futures
  ret : sw.2.ended = some .returned → sw.2.futures = []
  fail : ∀ f e, sw.2.ended = some (.failed f e) → f ∈ fs ∧ Dict.get? sw.1.results f = some (.exc e)

theorem results_keys_step {s : Ctx V} (hi : Inv s) (op : Op V) (f : Nat) (h : f ∈ s.results.keys) :
    f ∈ (s.step op).results.keys := by
  rw [mem_keys_iff'] at h ⊢
  cases hr : Dict.get? s.results f with
  | none => exact absurd hr h
  | some r => rw [results_step hi op f r hr]; simp

theorem winv_elsewhere {fs : List Nat} {s : Ctx V} {w : Wait} (h : WInv fs (s, w)) (op : Op V) :
    WInv fs (s.step op, w) where
  inv := inv_step h.inv op
  known := fun f hf => known_step h.inv op f (h.known f hf)
  sub := h.sub
  left := fun he f hf => (h.left he f hf).imp (results_keys_step h.inv op f) id
  ret := h.ret
  fail := fun f e he => ⟨(h.fail f e he).1, results_step h.inv op f _ (h.fail f e he).2⟩

theorem winv_run {fs : List Nat} {s : Ctx V} {w : Wait} (h : WInv fs (s, w)) (ops : List (Op V)) :
    WInv fs (s.run ops, w) := by
  induction ops generalizing s with
  | nil => exact h
  | cons op ops ih => exact ih (winv_elsewhere h op)

theorem winv_prune {fs : List Nat} {s : Ctx V} {w : Wait} (h : WInv fs (s, w)) (hn : w.ended = none) :
    WInv fs (s, Wait.check { w with futures := prune s.requests w.futures }) := by
  have hl : ∀ f ∈ fs, f ∈ s.results.keys ∨ f ∈ prune s.requests w.futures := by
    intro f hf
    rcases h.left (.inl hn) f hf with h1 | h1
    · exact .inl h1
    · rcases h.known f hf with h2 | h2
      · exact .inr (pruneLoop_keeps _ _ _ _ _ h1 h2)
      · exact .inl h2
  have hs : ∀ f ∈ prune s.requests w.futures, f ∈ fs := fun f hf => h.sub f (pruneLoop_sub _ _ _ _ _ hf)
  unfold Wait.check
  split
  · rename_i hc
    refine ⟨h.inv, h.known, hs, fun _ => hl, fun _ => hc.2, ?_⟩
    intro f e he; simp at he
  · refine ⟨h.inv, h.known, hs, fun _ => hl, ?_, ?_⟩
    · intro he; have he' : w.ended = some .returned := he; rw [hn] at he'; cases he'
    · intro f e he; have he' : w.ended = some (.failed f e) := he; rw [hn] at he'; cases he'

theorem winv_turn {fs : List Nat} {s : Ctx V} {w : Wait} (h : WInv fs (s, w)) (body : List (Op V))
    (raises : Bool) : WInv fs (w.turn s body raises) := by
  unfold Wait.turn
  split
  case isFalse => exact h
  case isTrue hn =>
    have hp : WInv fs (s.pop.1, w) := winv_elsewhere h .pop
    dsimp only
    have other : ∀ en, en ≠ Ended.returned → (∀ f e, en ≠ Ended.failed f e) →
        WInv fs (s.pop.1, { w with ended := some en }) := by
      intro en h1 h2
      refine ⟨hp.inv, hp.known, hp.sub, ?_, ?_, ?_⟩
      · intro he
        rcases he with he | he
        · cases he
        · exact absurd (Option.some.inj he) h1
      · intro he; exact absurd (Option.some.inj he) h1
      · intro f e he; exact absurd (Option.some.inj he) (h2 f e)
    cases ho : s.pop.2 with
    | empty => exact hp
    | nothing => exact hp
    | aborted => exact other _ (by simp) (by simp)
    | keyError => exact other _ (by simp) (by simp)
    | update i v =>
      dsimp only
      split
      · split
        · have := winv_run hp body
          refine ⟨this.inv, this.known, this.sub, ?_, ?_, ?_⟩
          · intro he; rcases he with he | he <;> simp at he
          · intro he; simp at he
          · intro f e he; simp at he
        · exact winv_prune (winv_run hp body) hn
      · exact winv_prune hp hn
    | resolved i =>
      dsimp only
      obtain ⟨hk, v, hr, _⟩ := pop_resolved ho
      have hl : ∀ f ∈ fs, f ∈ s.pop.1.results.keys ∨ f ∈ w.futures.erase i := by
        intro f hf
        by_cases he : f = i
        · left; rw [hr, he, mem_keys_iff', Dict.get?_set_self]; simp
        · exact (hp.left (.inl hn) f hf).imp id (fun h1 => (List.mem_erase_of_ne he).2 h1)
      have hs : ∀ f ∈ w.futures.erase i, f ∈ fs := fun f hf => h.sub f (List.mem_of_mem_erase hf)
      unfold Wait.check
      split
      · rename_i hc
        refine ⟨hp.inv, hp.known, hs, fun _ => hl, fun _ => hc.2, ?_⟩
        intro f e he; simp at he
      · refine ⟨hp.inv, hp.known, hs, fun _ => hl, ?_, ?_⟩
        · intro he; have he' : w.ended = some .returned := he; rw [hn] at he'; cases he'
        · intro f e he; have he' : w.ended = some (.failed f e) := he; rw [hn] at he'; cases he'
    | failed i e =>
      dsimp only
      obtain ⟨hk, hr, _⟩ := pop_failed ho
      split
      · rename_i hi
        refine ⟨hp.inv, hp.known, fun f hf => h.sub f (List.mem_of_mem_erase hf), ?_, ?_, ?_⟩
        · intro he; rcases he with he | he <;> simp at he
        · intro he; simp at he
        · intro f e' he
          have : i = f ∧ e = e' := by simpa using he
          obtain ⟨rfl, rfl⟩ := this
          refine ⟨h.sub i hi, ?_⟩
          show Dict.get? s.pop.1.results i = _
          rw [hr, Dict.get?_set_self]
      · exact hp

theorem winv_start {s : Ctx V} (hi : Inv s) (fs : List Nat) (hk : ∀ f ∈ fs, Known s f) :
    WInv fs (s, Wait.start s fs) := by
  unfold Wait.start
  cases hs : startLoop s.results fs with
  | error x =>
    obtain ⟨f, e⟩ := x
    obtain ⟨h1, h2⟩ := startLoop_error hs
    refine ⟨hi, hk, by simp, ?_, by simp, ?_⟩
    · intro he; rcases he with he | he <;> simp at he
    · intro f' e' he
      have : f = f' ∧ e = e' := by simpa using he
      obtain ⟨rfl, rfl⟩ := this
      exact ⟨h1, h2⟩
  | ok l =>
    obtain ⟨h1, h2, h3⟩ := startLoop_ok hs
    refine ⟨hi, hk, fun f hf => h1.subset hf, ?_, ?_, ?_⟩
    · intro _ f hf
      rcases h2 f hf with h4 | ⟨v, h4⟩
      · exact .inr h4
      · left; rw [mem_keys_iff']; show Dict.get? s.results f ≠ none; rw [h4]; simp
    · intro he
      show l = []
      dsimp only at he
      split at he
      · assumption
      · cases he
    · intro f e he
      dsimp only at he
      split at he <;> simp at he

theorem winv_evs {fs : List Nat} {sw : Ctx V × Wait} (h : WInv fs sw) (evs : List (Ev V)) :
    WInv fs (runWait sw evs) := by
  induction evs generalizing sw with
  | nil => exact h
  | cons ev evs ih =>
    refine ih ?_
    cases ev with
    | elsewhere op => exact winv_elsewhere (s := sw.1) (w := sw.2) h op
    | turn body raises => exact winv_turn (s := sw.1) (w := sw.2) h body raises

/-- Nothing but this wait takes from the queue. -/
def Ev.Sole : Ev V → Prop
  | .elsewhere op => op ≠ .pop
  | .turn body _ => ∀ op ∈ body, op ≠ .pop

theorem requests_step {s : Ctx V} (op : Op V) (h : op ≠ .pop) (f : Nat) (hf : f ∈ s.requests.keys) :
    f ∈ (s.step op).requests.keys := by
  cases op with
  | pop => exact absurd rfl h
  | request b => exact keys_set_sub _ _ _ _ hf
  | unsubscribe i alive =>
    show f ∈ (s.unsubscribe i alive).requests.keys
    rw [(unsubscribe_same s i alive).2.2.2.2.2.1]; exact hf
  | unsubscribeAll alive =>
    show f ∈ (s.unsubscribeAll alive).requests.keys
    rw [(unsubscribeAll_same s alive).2.2.2.2.2.1]; exact hf
  | _ => exact hf

/-- Facts about a wait when nothing else takes from the queue. -/
structure Alone (fs : List Nat) (sw : Ctx V × Wait) : Prop where
  noFail : sw.2.ended = none ∨ sw.2.ended = some .returned →
    ∀ f ∈ fs, ∀ e, Dict.get? sw.1.results f ≠ some (.exc e)
  waiting : sw.2.ended = none → sw.2.futures ≠ []
  opens : fs.Nodup → sw.2.ended = none → sw.2.futures.Nodup ∧ ∀ f ∈ sw.2.futures, f ∈ sw.1.requests.keys

theorem alone_elsewhere {fs : List Nat} {s : Ctx V} {w : Wait} (h : Alone fs (s, w)) (op : Op V)
    (ho : op ≠ .pop) : Alone fs (s.step op, w) where
  noFail := by
    show _ → ∀ f ∈ fs, ∀ e, Dict.get? (s.step op).results f ≠ _
    rw [results_same op ho]; exact h.noFail
  waiting := h.waiting
  opens := fun hn he => ⟨(h.opens hn he).1, fun f hf => requests_step op ho f ((h.opens hn he).2 f hf)⟩

theorem alone_run {fs : List Nat} {s : Ctx V} {w : Wait} (h : Alone fs (s, w)) (ops : List (Op V))
    (ho : ∀ op ∈ ops, op ≠ .pop) : Alone fs (s.run ops, w) := by
  induction ops generalizing s with
  | nil => exact h
  | cons op ops ih =>
    exact ih (alone_elsewhere h op (ho op List.mem_cons_self)) (fun o hm => ho o (List.mem_cons_of_mem _ hm))

theorem alone_prune {fs : List Nat} {s : Ctx V} {w : Wait} (h : Alone fs (s, w)) (hn : w.ended = none) :
    Alone fs (s, Wait.check { w with futures := prune s.requests w.futures }) := by
  unfold Wait.check
  split
  · refine ⟨fun _ => h.noFail (.inl hn), ?_, ?_⟩
    · intro he; simp at he
    · intro _ he; simp at he
  · rename_i hc
    refine ⟨h.noFail, ?_, ?_⟩
    · intro he hf; exact hc ⟨he, hf⟩
    · intro hd _
      have := h.opens hd hn
      have he : prune s.requests w.futures = w.futures := prune_all_open _ _ _ _ this.2
      show (prune s.requests w.futures).Nodup ∧ ∀ f ∈ prune s.requests w.futures, _
      rw [he]; exact this

theorem alone_turn {fs : List Nat} {s : Ctx V} {w : Wait} (hw : WInv fs (s, w)) (h : Alone fs (s, w))
    (body : List (Op V)) (hb : ∀ op ∈ body, op ≠ .pop) (raises : Bool) :
    Alone fs (w.turn s body raises) := by
  unfold Wait.turn
  split
  case isFalse => exact h
  case isTrue hn =>
    dsimp only
    have over : ∀ (t : Ctx V) en fu, en ≠ Ended.returned →
        Alone fs (t, { futures := fu, ended := some en }) := by
      intro t en fu h1
      refine ⟨?_, ?_, ?_⟩
      · intro he
        rcases he with he | he
        · cases he
        · exact absurd (Option.some.inj he) h1
      · intro he; simp at he
      · intro _ he; simp at he
    have same : s.pop.1.results = s.results ∧ s.pop.1.requests = s.requests → Alone fs (s.pop.1, w) := by
      rintro ⟨h1, h2⟩
      refine ⟨?_, h.waiting, ?_⟩
      · show _ → ∀ f ∈ fs, ∀ e, Dict.get? s.pop.1.results f ≠ _
        rw [h1]; exact h.noFail
      · intro hd he
        show _ ∧ ∀ f ∈ w.futures, f ∈ s.pop.1.requests.keys
        rw [h2]; exact h.opens hd he
    cases ho : s.pop.2 with
    | empty => exact same (pop_other (by rw [ho]; simp) (by rw [ho]; simp))
    | nothing => exact same (pop_other (by rw [ho]; simp) (by rw [ho]; simp))
    | aborted => exact over _ _ _ (by simp)
    | keyError => exact over _ _ _ (by simp)
    | update i v =>
      dsimp only
      have hp := same (pop_other (by rw [ho]; simp) (by rw [ho]; simp))
      split
      · split
        · exact over _ _ _ (by simp)
        · exact alone_prune (alone_run hp body hb) hn
      · exact alone_prune hp hn
    | resolved i =>
      dsimp only
      obtain ⟨hk, v, hr, hq⟩ := pop_resolved ho
      have nf : ∀ f ∈ fs, ∀ e, Dict.get? s.pop.1.results f ≠ some (.exc e) := by
        intro f hf e
        rw [hr]
        by_cases he : f = i
        · rw [he, Dict.get?_set_self]; simp
        · rw [Dict.get?_set_ne _ _ (by first | exact he | exact fun hc => he hc.symm)]
          exact h.noFail (.inl hn) f hf e
      unfold Wait.check
      split
      · refine ⟨fun _ => nf, ?_, ?_⟩
        · intro he; simp at he
        · intro _ he; simp at he
      · rename_i hc
        refine ⟨fun _ => nf, fun he hf => hc ⟨he, hf⟩, ?_⟩
        intro hd _
        obtain ⟨h1, h2⟩ := h.opens hd hn
        refine ⟨h1.erase i, ?_⟩
        intro f hf
        show f ∈ s.pop.1.requests.keys
        have h3 := (List.Nodup.mem_erase_iff h1).1 hf
        rw [hq, mem_keys_iff, get?_erase' hw.inv.reqNodup, if_neg h3.1]
        exact mem_keys_iff.1 (h2 f h3.2)
    | failed i e =>
      dsimp only
      obtain ⟨hk, hr, hq⟩ := pop_failed ho
      split
      · exact over _ _ _ (by simp)
      · rename_i hi
        have hne : ∀ f ∈ fs, f ≠ i := by
          intro f hf he
          subst he
          rcases hw.left (.inl hn) f hf with h1 | h1
          · exact hw.inv.resReq f h1 hk
          · exact hi h1
        refine ⟨?_, h.waiting, ?_⟩
        · intro _ f hf e'
          show Dict.get? s.pop.1.results f ≠ _
          have := hne f hf
          rw [hr, Dict.get?_set_ne _ _ (by first | exact this | exact this.symm)]
          exact h.noFail (.inl hn) f hf e'
        · intro hd _
          obtain ⟨h1, h2⟩ := h.opens hd hn
          refine ⟨h1, ?_⟩
          intro f hf
          show f ∈ s.pop.1.requests.keys
          rw [hq, mem_keys_iff, get?_erase' hw.inv.reqNodup, if_neg (fun hc : f = i => hi (hc ▸ hf))]
          exact mem_keys_iff.1 (h2 f hf)

theorem alone_start {s : Ctx V} (fs : List Nat) (hk : ∀ f ∈ fs, Known s f) :
    Alone fs (s, Wait.start s fs) := by
  unfold Wait.start
  cases hs : startLoop s.results fs with
  | error x =>
    refine ⟨?_, ?_, ?_⟩
    · intro he; rcases he with he | he <;> simp at he
    · intro he; simp at he
    · intro _ he; simp at he
  | ok l =>
    obtain ⟨h1, h2, h3⟩ := startLoop_ok hs
    refine ⟨?_, ?_, ?_⟩
    · intro _ f hf e
      show Dict.get? s.results f ≠ _
      rcases h2 f hf with h4 | ⟨v, h4⟩
      · rw [h3 f h4]; simp
      · rw [h4]; simp
    · intro he
      dsimp only at he
      split at he
      · cases he
      · assumption
    · intro hd _
      refine ⟨h1.nodup hd, ?_⟩
      intro f hf
      rcases hk f (h1.subset hf) with h4 | h4
      · exact h4
      · exact absurd (h3 f hf) (mem_keys_iff'.1 h4)

theorem alone_evs {fs : List Nat} {sw : Ctx V × Wait} (hw : WInv fs sw) (h : Alone fs sw)
    (evs : List (Ev V)) (hs : ∀ ev ∈ evs, ev.Sole) : Alone fs (runWait sw evs) := by
  induction evs generalizing sw with
  | nil => exact h
  | cons ev evs ih =>
    have h1 := hs ev List.mem_cons_self
    have h2 := fun e hm => hs e (List.mem_cons_of_mem _ hm)
    cases ev with
    | elsewhere op =>
      exact ih (winv_elsewhere (s := sw.1) (w := sw.2) hw op)
        (alone_elsewhere (s := sw.1) (w := sw.2) h op h1) h2
    | turn body raises =>
      exact ih (winv_turn (s := sw.1) (w := sw.2) hw body raises)
        (alone_turn (s := sw.1) (w := sw.2) hw h body h1 raises) h2

/-! ### unsubscribe_all -/

theorem unsubscribe_mono (s : Ctx V) (id : Nat) (alive : Bool) (i : Nat)
    (h : i ∈ s.unsubs.map (·.1)) : i ∈ (s.unsubscribe id alive).unsubs.map (·.1) := by
  unfold Ctx.unsubscribe
  split
  · exact h
  · split
    · exact h
    · split
      · simp only [List.map_append, List.mem_append]; exact .inl h
      · exact h

theorem unsubscribe_does {s : Ctx V} (hi : Inv s) (id : Nat) (alive : Bool)
    (h : Dict.get? s.requests id = some true) : id ∈ (s.unsubscribe id alive).unsubs.map (·.1) := by
  rcases hi.active id h with ⟨a, b⟩ | ⟨a, b, c⟩
  · unfold Ctx.unsubscribe
    rw [if_neg b, h]
    dsimp only
    rw [if_pos a]; simp
  · exact unsubscribe_mono _ _ _ _ c

theorem unsubscribeAll_fold (l : List (Nat × Bool)) (alive : Nat → Bool) (s : Ctx V) (hi : Inv s) :
    (∀ i, i ∈ s.unsubs.map (·.1) → i ∈ (l.foldl (fun s r =>
      if r.2 ∧ r.1 ∉ s.pending then s.unsubscribe r.1 (alive r.1) else s) s).unsubs.map (·.1)) ∧
    ∀ i, (i, true) ∈ l → Dict.get? s.requests i = some true →
      i ∈ (l.foldl (fun s r =>
        if r.2 ∧ r.1 ∉ s.pending then s.unsubscribe r.1 (alive r.1) else s) s).unsubs.map (·.1) := by
  induction l generalizing s with
  | nil => exact ⟨fun i h => h, by simp⟩
  | cons r l ih =>
    simp only [List.foldl_cons]
    by_cases hc : r.2 = true ∧ r.1 ∉ s.pending
    · rw [if_pos hc]
      obtain ⟨h1, h2⟩ := ih (s.unsubscribe r.1 (alive r.1)) (inv_unsubscribe hi _ _)
      refine ⟨fun i h => h1 i (unsubscribe_mono _ _ _ _ h), ?_⟩
      intro i hm hg
      rcases List.mem_cons.1 hm with h3 | h3
      · subst h3; exact h1 i (unsubscribe_does hi i _ hg)
      · refine h2 i h3 ?_
        rw [(unsubscribe_same s r.1 (alive r.1)).2.2.2.2.2.1]; exact hg
    · rw [if_neg hc]
      obtain ⟨h1, h2⟩ := ih s hi
      refine ⟨h1, ?_⟩
      intro i hm hg
      rcases List.mem_cons.1 hm with h3 | h3
      · subst h3
        have hp : i ∈ s.pending := by
          apply Classical.byContradiction
          intro hn; exact hc ⟨rfl, hn⟩
        rcases hi.active i hg with ⟨a, b⟩ | ⟨a, b, c⟩
        · exact absurd hp b
        · exact h1 i c
      · exact h2 i h3 hg

theorem unsubscribeAll_does {s : Ctx V} (hi : Inv s) (alive : Nat → Bool) (i : Nat)
    (h : Dict.get? s.requests i = some true) : i ∈ (s.unsubscribeAll alive).unsubs.map (·.1) :=
  (unsubscribeAll_fold s.requests alive s hi).2 i (Dict.get?_mem h) h

theorem count_one {l : List Nat} (h : l.Nodup) {i : Nat} (hi : i ∈ l) : l.count i = 1 := by
  induction l with
  | nil => simp at hi
  | cons a l ih =>
    rw [List.nodup_cons] at h
    by_cases he : i = a
    · subst he
      rw [List.count_cons_self, List.count_eq_zero_of_not_mem h.1]
    · rw [List.count_cons_of_ne (fun hc => he hc.symm)]
      exact ih h.2 ((List.mem_cons.1 hi).resolve_left he)

/-! ### after unsubscribe_all -/

/-- In the queue's history no update follows the last response to its request. -/
def Later : Item V → Item V → Prop
  | .ret i _, .update j _ => i ≠ j
  | .error i _, .update j _ => i ≠ j
  | _, _ => True

structure QuietInv (s : Ctx V) : Prop where
  inv : Inv s
  order : (s.popped ++ s.q).Pairwise Later
  dead : ∀ id ∈ s.subs, Dict.get? s.requests id = some true ∨
    firstSettled id s.popped ≠ none

theorem firstSettled_mem {id : Nat} {l : List (Item V)} (h : firstSettled id l ≠ none) :
    ∃ x ∈ l, x.settles id ≠ none := by
  induction l with
  | nil => exact absurd rfl h
  | cons x l ih =>
    unfold firstSettled at h
    cases hx : x.settles id with
    | some r => exact ⟨x, List.mem_cons_self, by rw [hx]; simp⟩
    | none =>
      rw [hx] at h
      obtain ⟨y, hy, hy2⟩ := ih h
      exact ⟨y, List.mem_cons_of_mem _ hy, hy2⟩

theorem firstSettled_none {id : Nat} {l : List (Item V)} (h : firstSettled id l = none) :
    ∀ x ∈ l, x.settles id = none := by
  induction l with
  | nil => simp
  | cons y l ih =>
    unfold firstSettled at h
    cases hx : y.settles id with
    | some r => rw [hx] at h; cases h
    | none =>
      rw [hx] at h
      intro x hm
      rcases List.mem_cons.1 hm with rfl | hm
      · exact hx
      · exact ih h x hm

theorem later_of_settles {x : Item V} {id : Nat} {v : V} (h : x.settles id = none) :
    Later x (.update id v) := by
  cases x with
  | ret i w => intro hc; subst hc; simp [Item.settles] at h
  | error i w => intro hc; subst hc; simp [Item.settles] at h
  | _ => trivial

theorem settles_of_later {x : Item V} {id : Nat} {v : V} (h : Later x (.update id v)) :
    x.settles id = none := by
  cases x with
  | ret i w => have h' : i ≠ id := h; simp [Item.settles, h']
  | error i w => have h' : i ≠ id := h; simp [Item.settles, h']
  | _ => rfl

theorem later_put {l : List (Item V)} (x : Item V) (h : l.Pairwise Later)
    (hx : ∀ y ∈ l, Later y x) : (l ++ [x]).Pairwise Later := by
  rw [List.pairwise_append]
  refine ⟨h, by simp, ?_⟩
  intro a ha b hb
  rw [List.mem_singleton.1 hb]; exact hx a ha

theorem later_true (y x : Item V) (hx : ∀ i v, x ≠ .update i v) : Later y x := by
  cases x with
  | update i v => exact absurd rfl (hx i v)
  | _ => cases y <;> trivial

theorem order_step {s : Ctx V} (h : (s.popped ++ s.q).Pairwise Later) (op : Op V) (hl : op.Legal s) :
    ((s.step op).popped ++ (s.step op).q).Pairwise Later := by
  rw [step_history]
  cases op with
  | update id v => exact later_put _ h (fun y hy => later_of_settles (firstSettled_none hl y hy))
  | ret id v => exact later_put _ h (fun y _ => later_true y _ (by simp))
  | error id v => exact later_put _ h (fun y _ => later_true y _ (by simp))
  | stop => exact later_put _ h (fun y _ => later_true y _ (by simp))
  | ignore => exact later_put _ h (fun y _ => later_true y _ (by simp))
  | _ => simpa [Op.puts] using h

theorem unsubscribe_subs (s : Ctx V) (id : Nat) (alive : Bool) (i : Nat)
    (h : i ∈ (s.unsubscribe id alive).subs) : i ∈ s.subs := by
  unfold Ctx.unsubscribe at h
  split at h
  · exact h
  · split at h
    · exact h
    · split at h
      · exact (List.mem_filter.1 h).1
      · exact h

theorem unsubscribeAll_subs (s : Ctx V) (alive : Nat → Bool) (i : Nat)
    (h : i ∈ (s.unsubscribeAll alive).subs) : i ∈ s.subs := by
  revert h
  unfold Ctx.unsubscribeAll
  apply foldl_inv (fun t : Ctx V => i ∈ t.subs → i ∈ s.subs)
  · intro t r ht
    split
    · exact fun hm => ht (unsubscribe_subs _ _ _ _ hm)
    · exact ht
  · exact id

theorem dead_pop {s : Ctx V} (hi : Inv s) (h : ∀ id ∈ s.subs, Dict.get? s.requests id = some true ∨
    firstSettled id s.popped ≠ none) : ∀ id ∈ s.pop.1.subs,
    Dict.get? s.pop.1.requests id = some true ∨ firstSettled id s.pop.1.popped ≠ none := by
  intro id hm
  rw [(pop_history s).2.2.2.2.2] at hm
  cases hq : s.q with
  | nil =>
    have : s.pop.1 = s := by unfold Ctx.pop; rw [hq]
    rw [this]; exact h id hm
  | cons x q =>
    rw [(pop_popped s x q hq).1, firstSettled_append]
    rcases h id hm with h1 | h1
    · by_cases hx : x.settles id = none
      · left
        unfold Ctx.pop
        rw [hq]
        cases x with
        | ret i v =>
          dsimp only
          have hne : id ≠ i := by intro hc; subst hc; simp [Item.settles] at hx
          split
          · show Dict.get? (Dict.erase s.requests i) id = _
            rw [get?_erase' hi.reqNodup, if_neg hne]; exact h1
          · exact h1
        | error i v =>
          dsimp only
          have hne : id ≠ i := by intro hc; subst hc; simp [Item.settles] at hx
          split
          · show Dict.get? (Dict.erase s.requests i) id = _
            rw [get?_erase' hi.reqNodup, if_neg hne]; exact h1
          · exact h1
        | _ => dsimp only; split <;> exact h1
      · right
        cases hx2 : x.settles id with
        | none => exact absurd hx2 hx
        | some r =>
          cases firstSettled id s.popped with
          | some r' => simp
          | none => simp [firstSettled, hx2]
    · right
      cases hf : firstSettled id s.popped with
      | none => exact absurd hf h1
      | some r => simp

theorem quietInv_step {s : Ctx V} (h : QuietInv s) (op : Op V) (hl : op.Legal s) :
    QuietInv (s.step op) := by
  refine ⟨inv_step h.inv op, order_step h.order op hl, ?_⟩
  cases op with
  | pop => exact dead_pop h.inv h.dead
  | request b =>
    intro id hm
    show Dict.get? (Dict.set s.requests s.nextId b) id = some true ∨ firstSettled id s.popped ≠ none
    have hm' : id ∈ (if b then s.subs ++ [s.nextId] else s.subs) := hm
    by_cases he : id = s.nextId
    · left
      subst he
      rw [Dict.get?_set_self]
      cases b with
      | true => rfl
      | false =>
        have hm2 : s.nextId ∈ s.subs := by simpa using hm'
        exact absurd (h.inv.subsLt _ hm2) (Nat.lt_irrefl _)
    · have hm2 : id ∈ s.subs := by cases b <;> simpa [he] using hm'
      rw [Dict.get?_set_ne _ _ (by first | exact he | exact fun hc => he hc.symm)]
      exact h.dead id hm2
  | unsubscribe i alive =>
    intro id hm
    show Dict.get? (s.unsubscribe i alive).requests id = _ ∨ firstSettled id (s.unsubscribe i alive).popped ≠ _
    rw [(unsubscribe_same s i alive).2.2.2.2.2.1, (unsubscribe_same s i alive).2.1]
    exact h.dead id (unsubscribe_subs _ _ _ _ hm)
  | unsubscribeAll alive =>
    intro id hm
    show Dict.get? (s.unsubscribeAll alive).requests id = _ ∨ firstSettled id (s.unsubscribeAll alive).popped ≠ _
    rw [(unsubscribeAll_same s alive).2.2.2.2.2.1, (unsubscribeAll_same s alive).2.1]
    exact h.dead id (unsubscribeAll_subs _ _ _ hm)
  | _ => exact h.dead

theorem quietInv_run {s : Ctx V} (h : QuietInv s) (ops : List (Op V)) (hl : LegalFrom s ops) :
    QuietInv (s.run ops) := by
  induction ops generalizing s with
  | nil => exact h
  | cons op ops ih => exact ih (quietInv_step h op hl.1) hl.2

theorem quietInv_init : QuietInv ({} : Ctx V) := ⟨inv_init, by simp, by simp⟩

/-- no callback will be called -/
def Quiet (s : Ctx V) : Prop := ∀ id ∈ s.subs, Dict.get? s.requests id ≠ some true

theorem quiet_unsubscribeAll {s : Ctx V} (hi : Inv s) (alive : Nat → Bool) :
    Quiet (s.unsubscribeAll alive) := by
  intro id hm hg
  rw [(unsubscribeAll_same s alive).2.2.2.2.2.1] at hg
  exact (inv_unsubscribeAll hi alive).unsubSubs id (unsubscribeAll_does hi alive id hg) hm

theorem requests_pop_get {s : Ctx V} (hi : Inv s) (id : Nat) (b : Bool)
    (h : Dict.get? s.pop.1.requests id = some b) : Dict.get? s.requests id = some b := by
  have key : ∀ i, Dict.get? (Dict.erase s.requests i) id = some b → Dict.get? s.requests id = some b := by
    intro i hg
    rw [get?_erase' hi.reqNodup] at hg
    split at hg
    · cases hg
    · exact hg
  unfold Ctx.pop at h
  cases hq : s.q with
  | nil => rw [hq] at h; exact h
  | cons x q =>
    rw [hq] at h
    cases x with
    | ret i v => dsimp only at h; split at h; exact key i h; exact h
    | error i v => dsimp only at h; split at h; exact key i h; exact h
    | _ => dsimp only at h; split at h <;> exact h

theorem quiet_step {s : Ctx V} (h : QuietInv s) (hq : Quiet s) (op : Op V) (ho : op ≠ .request true) :
    Quiet (s.step op) ∧ (s.step op).calls = s.calls := by
  cases op with
  | pop =>
    refine ⟨?_, ?_⟩
    · intro id hm hg
      have hm' : id ∈ s.pop.1.subs := hm
      rw [(pop_history s).2.2.2.2.2] at hm'
      exact hq id hm' (requests_pop_get h.inv id true hg)
    · show s.pop.1.calls = s.calls
      unfold Ctx.pop
      cases hqq : s.q with
      | nil => rfl
      | cons x q =>
        cases x with
        | update id v =>
          dsimp only
          split
          · rename_i hm
            exfalso
            rcases h.dead id hm with h1 | h1
            · exact hq id hm h1
            · obtain ⟨y, hy, hy2⟩ := firstSettled_mem h1
              have ho := h.order
              rw [hqq, List.pairwise_append] at ho
              exact hy2 (settles_of_later (ho.2.2 y hy _ List.mem_cons_self))
          · rfl
        | _ => dsimp only; split <;> rfl
  | request b =>
    cases b with
    | true => exact absurd rfl ho
    | false =>
      refine ⟨?_, rfl⟩
      intro id hm hg
      have hm' : id ∈ s.subs := by
        have : id ∈ (if (false = true) then s.subs ++ [s.nextId] else s.subs) := hm
        simpa using this
      have hne : id ≠ s.nextId := by intro hc; have := h.inv.subsLt id hm'; omega
      have hg' : Dict.get? (Dict.set s.requests s.nextId false) id = some true := hg
      rw [Dict.get?_set_ne _ _ (by first | exact hne | exact hne.symm)] at hg'
      exact hq id hm' hg'
  | unsubscribe i alive =>
    refine ⟨?_, (unsubscribe_same s i alive).2.2.2.2.1⟩
    intro id hm hg
    have hg' : Dict.get? (s.unsubscribe i alive).requests id = some true := hg
    rw [(unsubscribe_same s i alive).2.2.2.2.2.1] at hg'
    exact hq id (unsubscribe_subs _ _ _ _ hm) hg'
  | unsubscribeAll alive =>
    refine ⟨?_, (unsubscribeAll_same s alive).2.2.2.2.1⟩
    intro id hm hg
    have hg' : Dict.get? (s.unsubscribeAll alive).requests id = some true := hg
    rw [(unsubscribeAll_same s alive).2.2.2.2.2.1] at hg'
    exact hq id (unsubscribeAll_subs _ _ _ hm) hg'
  | _ => exact ⟨hq, rfl⟩

theorem quiet_run {s : Ctx V} (h : QuietInv s) (hq : Quiet s) (ops : List (Op V)) (hl : LegalFrom s ops)
    (ho : Op.request true ∉ ops) : (s.run ops).calls = s.calls := by
  induction ops generalizing s with
  | nil => rfl
  | cons op ops ih =>
    have h1 : op ≠ .request true := fun hc => ho (hc ▸ List.mem_cons_self)
    obtain ⟨a, b⟩ := quiet_step h hq op h1
    show ((s.step op).run ops).calls = _
    rw [ih (quietInv_step h op hl.1) a hl.2 (fun hm => ho (List.mem_cons_of_mem _ hm)), b]

end Verif.Context
