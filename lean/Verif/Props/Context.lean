import Verif.Proofs.Context
/-! C18, C19, C20: futures, stops and subscriptions of a Context. -/
set_option linter.unusedVariables false
namespace Verif.Props.Context
open Verif Verif.Context
variable {V : Type}

/-! ### C18 -/

/-- C18. Whatever happened before a request was made and whatever happens after it, its future has
the result given by the first Return or Error with its id taken from the queue since, and no result if
there was none. -/
theorem resolves_to_first_response (before after : List (Op V)) (isSub : Bool) :
    let s0 := Ctx.run {} before
    let s := (s0.step (.request isSub)).run after
    Dict.get? s.results s0.nextId = firstSettled s0.nextId (s.popped.drop s0.popped.length) := by
  dsimp only
  have hi : Inv (Ctx.run ({} : Ctx V) before) := inv_run inv_init before
  have h0 : Track (Ctx.run ({} : Ctx V) before).nextId (Ctx.run ({} : Ctx V) before).popped.length
      ((Ctx.run ({} : Ctx V) before).step (.request isSub)) := by
    have hn : Dict.get? (Ctx.run ({} : Ctx V) before).results (Ctx.run ({} : Ctx V) before).nextId = none := by
      rw [Dict.get?_none_iff]
      exact fun hc => Nat.lt_irrefl _ (hi.resLt _ hc)
    refine ⟨Nat.le_refl _, ?_, ?_⟩
    · show Dict.get? (Ctx.run ({} : Ctx V) before).results _ =
        firstSettled _ ((Ctx.run ({} : Ctx V) before).popped.drop _)
      rw [List.drop_length, hn]; rfl
    · intro _
      show _ ∈ (Dict.set (Ctx.run ({} : Ctx V) before).requests _ isSub).keys
      rw [mem_keys_iff, Dict.get?_set_self]; simp
  exact (track_run h0 (inv_step hi _) after).res

/-- C18. A future that is done never changes. -/
theorem resolved_once (before after : List (Op V)) (id : Nat) (r : Result V)
    (h : Dict.get? (Ctx.run {} before).results id = some r) :
    Dict.get? (Ctx.run {} (before ++ after)).results id = some r := by
  have : Ctx.run ({} : Ctx V) (before ++ after) = (Ctx.run {} before).run after := by
    simp [Ctx.run, List.foldl_append]
  rw [this]
  exact results_run (inv_run inv_init before) after id r h

/-- a future that this context made and that is done, or not yet -/
def Made (s : Ctx V) (f : Nat) : Prop := f ∈ s.requests.keys ∨ f ∈ s.results.keys

/-- C18. For every history of the context and every sequence of events during the wait (requests and
responses by others, nested waits inside callbacks, stray responses): when `wait_all_futures` returns,
all the futures are done. -/
theorem wait_returns_when_done (before : List (Op V)) (fs : List Nat) (evs : List (Ev V))
    (hk : ∀ f ∈ fs, Made (Ctx.run {} before) f)
    (h : (runWait (Ctx.run {} before, Wait.start (Ctx.run {} before) fs) evs).2.ended = some .returned) :
    ∀ f ∈ fs, ∃ r,
      Dict.get? (runWait (Ctx.run {} before, Wait.start (Ctx.run {} before) fs) evs).1.results f = some r := by
  have hw := winv_evs (winv_start (inv_run inv_init before) fs hk) evs
  intro f hf
  rcases hw.left (.inr h) f hf with h1 | h1
  · rw [mem_keys_iff'] at h1
    cases hg : Dict.get? (runWait (Ctx.run {} before, Wait.start (Ctx.run {} before) fs) evs).1.results f with
    | none => exact absurd hg h1
    | some r => exact ⟨r, rfl⟩
  · rw [hw.ret h] at h1; cases h1

/-- C18. If it raises an error then one of the futures failed with that error. -/
theorem wait_raises_own_error (before : List (Op V)) (fs : List Nat) (evs : List (Ev V))
    (hk : ∀ f ∈ fs, Made (Ctx.run {} before) f) (f e : Nat)
    (h : (runWait (Ctx.run {} before, Wait.start (Ctx.run {} before) fs) evs).2.ended = some (.failed f e)) :
    f ∈ fs ∧
    Dict.get? (runWait (Ctx.run {} before, Wait.start (Ctx.run {} before) fs) evs).1.results f
      = some (.exc e) :=
  (winv_evs (winv_start (inv_run inv_init before) fs hk) evs).fail f e h

/-- C18, in part: when only this wait takes responses from the queue (no callback waits), a wait that
returns has seen no failure. Missing: callbacks that wait themselves, for which it is false
(`nested_wait_hides_error`). -/
theorem wait_returned_none_failed_partial (before : List (Op V)) (fs : List Nat) (evs : List (Ev V))
    (hk : ∀ f ∈ fs, Made (Ctx.run {} before) f) (hs : ∀ ev ∈ evs, ev.Sole)
    (h : (runWait (Ctx.run {} before, Wait.start (Ctx.run {} before) fs) evs).2.ended = some .returned) :
    ∀ f ∈ fs, ∃ v,
      Dict.get? (runWait (Ctx.run {} before, Wait.start (Ctx.run {} before) fs) evs).1.results f
        = some (.value v) := by
  intro f hf
  obtain ⟨r, hr⟩ := wait_returns_when_done before fs evs hk h f hf
  have ha := alone_evs (winv_start (inv_run inv_init before) fs hk) (alone_start fs hk) evs hs
  cases r with
  | value v => exact ⟨v, hr⟩
  | exc e => exact absurd hr (ha.noFail (.inr h) f hf e)

/-- C18, in part: a wait for distinct futures that has neither returned nor raised is waiting for one
that is not done. Missing: callbacks that wait (`nested_wait_hangs`) and repeated futures
(`repeated_future_hangs`), for which it is false. -/
theorem wait_waits_for_something_partial (before : List (Op V)) (fs : List Nat) (evs : List (Ev V))
    (hk : ∀ f ∈ fs, Made (Ctx.run {} before) f) (hs : ∀ ev ∈ evs, ev.Sole) (hd : fs.Nodup)
    (h : (runWait (Ctx.run {} before, Wait.start (Ctx.run {} before) fs) evs).2.ended = none) :
    ∃ f ∈ fs, Dict.get? (runWait (Ctx.run {} before, Wait.start (Ctx.run {} before) fs) evs).1.results f
      = none := by
  have hw := winv_evs (winv_start (inv_run inv_init before) fs hk) evs
  have ha := alone_evs (winv_start (inv_run inv_init before) fs hk) (alone_start fs hk) evs hs
  obtain ⟨h1, h2⟩ := ha.opens hd h
  cases hf : (runWait (Ctx.run {} before, Wait.start (Ctx.run {} before) fs) evs).2.futures with
  | nil => exact absurd hf (ha.waiting h)
  | cons f l =>
    have hm : f ∈ (runWait (Ctx.run {} before, Wait.start (Ctx.run {} before) fs) evs).2.futures := by
      rw [hf]; exact List.mem_cons_self
    refine ⟨f, hw.sub f hm, ?_⟩
    rw [Dict.get?_none_iff]
    exact fun hc => hw.inv.resReq f hc (h2 f hm)

-- two Puts answered in the other order while waited for: both have their own result
example :
    let r := runWait (Ctx.run ({} : Ctx Nat) [.request false, .request false], { futures := [1, 2] })
      [.elsewhere (.ret 2 20), .turn [] false, .elsewhere (.ret 1 10), .turn [] false]
    r.2.ended = some .returned ∧ Dict.get? r.1.results 1 = some (.value 10) ∧
    Dict.get? r.1.results 2 = some (.value 20) ∧
    Wait.start (Ctx.run ({} : Ctx Nat) [.request false, .request false]) [1, 2] = { futures := [1, 2] } := by
  decide

-- an Error is raised, and a later Return for the same id does not change the future
example :
    let r := runWait (Ctx.run ({} : Ctx Nat) [.request false, .request false], { futures := [1, 2] })
      [.elsewhere (.error 2 7), .elsewhere (.ret 2 5), .turn [] false, .turn [] false, .elsewhere .pop]
    r.2.ended = some (.failed 2 7) ∧ Dict.get? r.1.results 2 = some (.exc 7) := by
  decide

/-- Disagreement with C18: a callback that waits can take the Error of a future that an outer wait is
waiting for; the outer wait then returns as if nothing had failed. -/
theorem nested_wait_hides_error :
    let s := Ctx.run ({} : Ctx Nat) [.request true, .request false]
    let r := runWait (s, Wait.start s [2])
      [.elsewhere (.update 1 0), .elsewhere (.error 2 7), .turn [.pop] false]
    r.2.ended = some .returned ∧ Dict.get? r.1.results 2 = some (.exc 7) := by
  decide

/-- Disagreement with C18: after a callback that waited, the futures that are done are removed from a
list while it is iterated over, so of two neighbours one stays, and the wait goes on although both are
done. -/
theorem nested_wait_hangs :
    let s := Ctx.run ({} : Ctx Nat) [.request true, .request false, .request false]
    let r := runWait (s, Wait.start s [2, 3])
      [.elsewhere (.update 1 0), .elsewhere (.ret 2 5), .elsewhere (.ret 3 6), .turn [.pop, .pop] false]
    r.2 = { futures := [3], ended := none } ∧ Dict.get? r.1.results 2 = some (.value 5) ∧
    Dict.get? r.1.results 3 = some (.value 6) := by
  decide

/-- Disagreement with C18: waiting for the same future twice does not end when it is done. -/
theorem repeated_future_hangs :
    let s := Ctx.run ({} : Ctx Nat) [.request false]
    let r := runWait (s, Wait.start s [1, 1]) [.elsewhere (.ret 1 5), .turn [] false]
    r.2 = { futures := [1], ended := none } ∧ Dict.get? r.1.results 1 = some (.value 5) := by
  decide

/-- Disagreement with C18: a response for a future that is done already raises KeyError in whichever
wait takes it. -/
theorem stray_response_raises :
    let s := Ctx.run ({} : Ctx Nat) [.request false, .request false]
    let r := runWait (s, Wait.start s [2])
      [.elsewhere (.ret 1 5), .elsewhere (.ret 1 6), .turn [] false, .turn [] false]
    r.2.ended = some .keyError := by
  decide

/-! ### C19 -/

/-- What is put in the queue is taken from it in the order in which it was put, each item once:
what has been taken followed by what is left is the history, and only grows at its end. -/
theorem queue_in_order (s : Ctx V) (ops : List (Op V)) :
    ∃ new, (s.run ops).popped ++ (s.run ops).q = s.popped ++ s.q ++ new := run_history s ops

/-- C19. Take any history, then `stop()`, then any further operations, until the item that will be
taken next is that stop (everything put before it has been taken, and nothing else). Then the wait
that takes it is aborted if `ignore_stops_before_now` was not called after the stop, and goes on if it
was. -/
theorem stop_aborts_unless_ignored (before after : List (Op V)) :
    let s0 := Ctx.run {} before
    let s := (s0.step .stop).run after
    s.popped.length = (s0.popped ++ s0.q).length →
    ((Op.ignore ∉ after → s.pop.2 = .aborted) ∧ (Op.ignore ∈ after → s.pop.2 = .nothing)) := by
  dsimp only
  intro hlen
  have hs : SInv (((Ctx.run ({} : Ctx V) before).step .stop).run after) :=
    sinv_run (sinv_step (sinv_run sinv_init before) _) after
  obtain ⟨l, hl⟩ := run_history ((Ctx.run ({} : Ctx V) before).step .stop) after
  rw [step_history] at hl
  have hq : (((Ctx.run ({} : Ctx V) before).step .stop).run after).q =
      .stop (Ctx.run ({} : Ctx V) before).ignores :: l := by
    have hl' : (((Ctx.run ({} : Ctx V) before).step .stop).run after).popped ++
      (((Ctx.run ({} : Ctx V) before).step .stop).run after).q = ((Ctx.run ({} : Ctx V) before).popped ++ (Ctx.run ({} : Ctx V) before).q) ++
      (Item.stop (Ctx.run ({} : Ctx V) before).ignores :: l) := by
      rw [hl]; simp [Op.puts]
    exact (List.append_inj hl' hlen).2
  have hp := stop_at_head hs _ _ hq
  obtain ⟨h1, h2⟩ := run_ignores ((Ctx.run ({} : Ctx V) before).step .stop) after
  have h0 : ((Ctx.run ({} : Ctx V) before).step .stop).ignores = (Ctx.run ({} : Ctx V) before).ignores := rfl
  rw [h0] at h1 h2
  refine ⟨?_, ?_⟩
  · intro hn
    rw [hp, if_pos]
    have : ¬ _ := fun hc => hn (h2.2 hc)
    omega
  · intro hn
    rw [hp, if_neg]
    have := h2.1 hn
    omega

/-- C19. Only a stop aborts: a wait is aborted by an item only if that item is a stop. -/
theorem only_stop_aborts (s : Ctx V) (h : s.pop.2 = .aborted) : ∃ n q, s.q = .stop n :: q := by
  unfold Ctx.pop at h
  cases hq : s.q with
  | nil => rw [hq] at h; cases h
  | cons x q =>
    cases x with
    | stop n => exact ⟨n, q, rfl⟩
    | _ => simp only [hq] at h; split at h <;> cases h

/-- C19. A wait whose turn takes an item with outcome `aborted` ends with AbortedError. -/
theorem aborted_ends_wait (s : Ctx V) (w : Wait) (body : List (Op V)) (raises : Bool)
    (hw : w.ended = none) (h : s.pop.2 = .aborted) :
    (w.turn s body raises).2.ended = some .aborted := by
  unfold Wait.turn
  rw [if_pos hw]
  dsimp only
  rw [h]

-- the hypothesis is met: a response is queued before the stop, and an ignore after it or not
example :
    let s0 := Ctx.run ({} : Ctx Nat) [.request false, .request false, .ret 1 5]
    ((s0.step .stop).run [.pop, .ret 2 6]).popped.length = (s0.popped ++ s0.q).length ∧
    ((s0.step .stop).run [.pop, .ret 2 6]).pop.2 = .aborted ∧
    ((s0.step .stop).run [.ignore, .pop, .ret 2 6]).popped.length = (s0.popped ++ s0.q).length ∧
    ((s0.step .stop).run [.ignore, .pop, .ret 2 6]).pop.2 = .nothing := by
  decide

-- stop, ignore, stop, ignore, stop: the first two are ignored, the third is not
example :
    let s := Ctx.run ({} : Ctx Nat) [.stop, .ignore, .stop, .ignore, .stop]
    (s.pop.2, (s.run [.pop]).pop.2, (s.run [.pop, .pop]).pop.2, (s.run [.pop, .pop, .pop]).pop.2,
      (s.run [.pop, .pop, .pop, .pop]).pop.2) = (.nothing, .nothing, .nothing, .nothing, .aborted) := by
  decide

/-- A stop aborts one wait: the next wait on the same context is not aborted by it. -/
theorem stop_aborts_one_wait :
    let s := Ctx.run ({} : Ctx Nat) [.request false, .stop]
    let r := runWait (s, Wait.start s [1]) [.turn [] false]
    let r2 := runWait (r.1, Wait.start r.1 [1]) [.elsewhere (.ret 1 5), .turn [] false]
    r.2.ended = some .aborted ∧ r2.2.ended = some .returned := by
  decide

/-! ### C20 -/

/-- C20. For every history, no subscription is sent more than one Unsubscribe. -/
theorem at_most_one_unsubscribe (ops : List (Op V)) :
    ((Ctx.run {} ops).unsubs.map (·.1)).Nodup := (inv_run inv_init ops).unsubNodup

/-- C20. For every history, after `unsubscribe_all` every subscription made through the context that
has not been ended by its controller (with a Return or Error already received) has been sent exactly
one Unsubscribe. -/
theorem unsubscribe_all_leaves_none (ops : List (Op V)) (alive : Nat → Bool) (id : Nat)
    (hm : id ∈ (Ctx.run {} ops).made) (hd : Dict.get? (Ctx.run {} ops).results id = none) :
    ((Ctx.run {} (ops ++ [.unsubscribeAll alive])).unsubs.map (·.1)).count id = 1 := by
  have hi : Inv (Ctx.run ({} : Ctx V) ops) := inv_run inv_init ops
  have hr : Ctx.run ({} : Ctx V) (ops ++ [.unsubscribeAll alive]) = (Ctx.run {} ops).unsubscribeAll alive := by
    simp [Ctx.run, List.foldl_append, Ctx.step]
  rw [hr]
  refine count_one (inv_unsubscribeAll hi alive).unsubNodup (unsubscribeAll_does hi alive id ?_)
  rcases hi.madeIff id hm with h | h
  · exact h
  · exact absurd hd (mem_keys_iff'.1 h)

/-- C20. Only subscriptions are unsubscribed. -/
theorem only_subscriptions_unsubscribed (ops : List (Op V)) (id : Nat)
    (h : id ∈ (Ctx.run {} ops).unsubs.map (·.1)) : id ∈ (Ctx.run {} ops).made :=
  (inv_run inv_init ops).unsubMade id h

/-- every Subscribe request is recorded as made -/
theorem subscribe_is_made (s : Ctx V) : s.nextId ∈ (s.step (.request true)).made := by
  simp [Ctx.step]

/-- C20. After `unsubscribe_all` no callback is called, whatever is still in the queue and whatever
arrives, until a new subscription is made; assuming that controllers send no Update after the response
that ends a subscription. -/
theorem no_callback_after_unsubscribe_all (before after : List (Op V)) (alive : Nat → Bool)
    (hl : LegalFrom {} before) (hl' : LegalFrom ((Ctx.run {} before).unsubscribeAll alive) after)
    (hn : Op.request true ∉ after) :
    (((Ctx.run {} before).unsubscribeAll alive).run after).calls = (Ctx.run {} before).calls := by
  have hq := quietInv_run quietInv_init before hl
  have hq' : QuietInv ((Ctx.run ({} : Ctx V) before).unsubscribeAll alive) :=
    quietInv_step hq (.unsubscribeAll alive) trivial
  rw [quiet_run hq' (quiet_unsubscribeAll hq.inv alive) after hl' hn]
  exact (unsubscribeAll_same _ alive).2.2.2.2.1

/-- C20. After `unsubscribe` of a subscription its callback is not called again. -/
theorem no_callback_after_unsubscribe (before after : List (Op V)) (id : Nat) (alive : Bool)
    (hm : Dict.get? (Ctx.run {} before).requests id = some true) :
    ((((Ctx.run {} before).unsubscribe id alive).run after).calls.filter (·.1 = id)) =
      (Ctx.run {} before).calls.filter (·.1 = id) := by
  have hi : Inv (Ctx.run ({} : Ctx V) before) := inv_run inv_init before
  have hi' := inv_unsubscribe hi id alive
  have hu := unsubscribe_does hi id alive hm
  have key : ∀ ops (s : Ctx V), Inv s → id ∈ s.unsubs.map (·.1) →
      (s.run ops).calls.filter (·.1 = id) = s.calls.filter (·.1 = id) := by
    intro ops
    induction ops with
    | nil => intro s _ _; rfl
    | cons op ops ih =>
      intro s hs hin
      have hns := hs.unsubSubs id hin
      have hin' : id ∈ (s.step op).unsubs.map (·.1) := by
        cases op with
        | pop => show id ∈ s.pop.1.unsubs.map (·.1); rw [(pop_history s).2.2.2.2.1]; exact hin
        | unsubscribe i al => exact unsubscribe_mono _ _ _ _ hin
        | unsubscribeAll al => exact (unsubscribeAll_fold s.requests al s hs).1 id hin
        | _ => exact hin
      show ((s.step op).run ops).calls.filter _ = _
      rw [ih (s.step op) (inv_step hs op) hin']
      cases op with
      | pop =>
        show s.pop.1.calls.filter _ = _
        unfold Ctx.pop
        cases hq : s.q with
        | nil => rfl
        | cons x q =>
          cases x with
          | update i v =>
            dsimp only
            split
            · rename_i hsub
              have hne : i ≠ id := fun hc => hns (hc ▸ hsub)
              simp [List.filter_append, hne]
            · rfl
          | _ => dsimp only; split <;> rfl
      | unsubscribe i al => show (s.unsubscribe i al).calls.filter _ = _; rw [(unsubscribe_same s i al).2.2.2.2.1]
      | unsubscribeAll al => show (s.unsubscribeAll al).calls.filter _ = _; rw [(unsubscribeAll_same s al).2.2.2.2.1]
      | _ => rfl
  rw [key after _ hi' hu, (unsubscribe_same _ id alive).2.2.2.2.1]

-- three subscriptions: one unsubscribed by the user, one ended by its controller, one left;
-- an Update for it is still queued and is not delivered
example :
    let s := Ctx.run ({} : Ctx Nat)
      [.request true, .request false, .request true, .request true, .update 1 5, .pop, .error 3 9, .pop,
       .unsubscribe 4 true, .update 1 6]
    s.made = [1, 3, 4] ∧ s.calls = [(1, 5)] ∧ Dict.get? s.results 1 = none ∧
    (s.unsubscribeAll fun _ => true).unsubs = [(4, true), (1, true)] ∧
    ((s.unsubscribeAll fun _ => true).run [.pop]).calls = [(1, 5)] := by
  decide

-- the hypothesis about Updates is met by that history and by what follows
example : LegalFrom ({} : Ctx Nat)
    [.request true, .request true, .update 1 5, .pop, .error 2 9, .pop, .update 1 6] ∧
    LegalFrom ((Ctx.run ({} : Ctx Nat)
      [.request true, .request true, .update 1 5, .pop, .error 2 9, .pop, .update 1 6]).unsubscribeAll
        fun _ => true) [.update 1 7, .pop, .ret 1 0, .pop, .pop] :=
  ⟨⟨trivial, trivial, rfl, trivial, trivial, trivial, rfl, trivial⟩,
   ⟨rfl, trivial, trivial, trivial, trivial, trivial⟩⟩

end Verif.Props.Context
