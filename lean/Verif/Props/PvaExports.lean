import Verif.Proofs.PvaExports
/-!
C122. Putting the exports of a block of another Malcolm over pvAccess: the put ends well only when the block has been made anew with its
new fields, and it fails if the server refuses it.
-/
namespace Verif.Props.PvaExports
open Verif.PvaExports Verif.Spec.PvaExports Verif.Proofs.PvaExports

variable {F : Type}

/-- Each making of the block but the first lets one put of exports go on, at once or later, and no more than one: so it has let go as many as
have ended well by waiting, and there are as many left over as there are in the queue. -/
theorem one_for_each {w : World F} (h : Reached w) :
    w.puts.countP (fun p => decide (p.phase = .over true .ok)) + w.tokens + 1 = w.made := by
  have := count_reached h
  unfold waited took at this
  omega

/-- The block is made anew at most once for each connection that was lost. -/
theorem made_for_losses (f : F) (es : List (Ev F)) : ((World.start f).run es).made ≤ 1 + losses es := by
  have := due_run es (World.start f)
  unfold due at this
  simp only [World.start, Bool.false_eq_true, if_false] at this ⊢
  omega

/-- When the connection has been lost, the next value makes the block anew as it is on the server, and those after it do not. -/
theorem made_anew (w : World F) :
    ((w.step .disconnected).step .value).shown = w.server ∧ ((w.step .disconnected).step .value).made = w.made + 1
    ∧ (((w.step .disconnected).step .value).step .value).made = w.made + 1 := by
  simp [World.step]

/-- **New exports are there when the put ends.** If nothing is left over in the queue when exports are put that the server accepts, and nobody
else changes the fields, then whenever the put has ended well after waiting, the block has been made anew since it was sent, and has the new
fields. `_partial`: without the first see `refused_but_ok` and `too_early`; a put whose answer is not cut off does not wait (`not_waited_for`). -/
theorem new_fields_partial {w : World F} (h : Reached w) (h0 : w.tokens = 0) (f : F) (es : List (Ev F)) (hu : ∀ ev ∈ es, Untouched ev)
    (hi : EndedWaiting ((w.step (.send true (.accepted f))).run es) w.puts.length .ok) :
    w.made < ((w.step (.send true (.accepted f))).run es).made ∧ ((w.step (.send true (.accepted f))).run es).shown = f := by
  have hr : (w.step (.send true (.accepted f))).run es = w.run (.send true (.accepted f) :: es) := rfl
  have hm : w.made < ((w.step (.send true (.accepted f))).run es).made := by
    rw [hr] at hi ⊢
    refine anew h h0 _ w.puts.length hi ?_
    rintro ⟨p, hp, _⟩
    have := (List.getElem?_eq_some_iff.mp hp).1
    omega
  refine ⟨hm, (shown_run f w.made es (w.step (.send true (.accepted f))) hu ⟨rfl, ?_⟩).2 hm⟩
  intro hc
  exact absurd hc (Nat.lt_irrefl _)

/-- **Refused exports are not reported as put.** If nothing is left over in the queue and the connection lasts, a put of exports that the server
refuses never ends well. `_partial`: with something left over, or after a reconnection, it does (`refused_but_ok`). -/
theorem refused_partial {w : World F} (h : Reached w) (h0 : w.tokens = 0) (hf : w.fresh = false) (m : String) (es : List (Ev F))
    (hc : ∀ ev ∈ es, Connected ev) : ¬ Ended ((w.step (.send true (.refused m))).run es) w.puts.length .ok := by
  rintro ⟨p, b, hp, hph⟩
  have hr : (w.step (.send true (.refused m))).run es = w.run (.send true (.refused m) :: es) := rfl
  have hR : Reached ((w.step (.send true (.refused m))).run es) := by
    obtain ⟨f, es', rfl⟩ := h
    exact ⟨f, es' ++ (.send true (.refused m) :: es), by rw [hr]; unfold World.run; rw [List.foldl_append]⟩
  -- it is the put that was refused
  obtain ⟨p', k1, k2, k3, _⟩ := puts_run es (w.step (.send true (.refused m))) w.puts.length ⟨true, .refused m, .sent⟩ (by simp [World.step])
  rw [hp] at k1; cases k1
  cases b with
  | false =>
    have := fits_reached hR p (List.mem_of_getElem? hp)
    unfold Fits at this
    rw [k2] at this
    simp only [if_true] at this
    obtain ⟨f, hv⟩ := this.2 hph
    rw [k3] at hv; cases hv
  | true =>
    have hm := anew h h0 (.send true (.refused m) :: es) w.puts.length (by rw [← hr]; exact ⟨p, hp, hph⟩) (by
      rintro ⟨q, hq, _⟩
      have := (List.getElem?_eq_some_iff.mp hq).1
      omega)
    have := (made_run (.send true (.refused m) :: es) w (by
      intro ev hev
      rcases List.mem_cons.mp hev with rfl | hev
      · trivial
      · exact hc ev hev) hf).2
    omega

/-- A put of anything but exports ends as the server says, unless the answer is cut off. -/
theorem others_as_answered {w : World F} (h : Reached w) (i : Nat) (p : Put F) (hp : w.puts[i]? = some p) (hx : p.exports = false) :
    (∀ m, p.verdict = .refused m → p.phase = .sent ∨ p.phase = .over false (.error m))
    ∧ (∀ f, p.verdict = .accepted f → p.phase = .sent ∨ p.phase = .over false .ok ∨ p.phase = .over false (.error cutOff)) := by
  have := fits_reached h p (List.mem_of_getElem? hp)
  unfold Fits at this
  rw [hx] at this
  simp only [Bool.false_eq_true, if_false] at this
  constructor
  · intro m hv
    rcases this with a | ⟨f, a, _⟩ | ⟨m', a, b⟩
    · exact Or.inl a
    · rw [hv] at a; cases a
    · rw [hv] at a; cases a; exact Or.inr b
  · intro f hv
    rcases this with a | ⟨_, _, b⟩ | ⟨m', a, _⟩
    · exact Or.inl a
    · exact Or.inr b
    · rw [hv] at a; cases a

/-- **Why exports were refused is never told**: whatever happens, no put of exports ends with an error of the server. -/
theorem reason_never_told {w : World F} (h : Reached w) (i : Nat) (p : Put F) (hp : w.puts[i]? = some p) (hx : p.exports = true) (m : String) :
    ¬ Ended w i (.error m) := by
  rintro ⟨q, b, hq, hph⟩
  rw [hp] at hq; cases hq
  have := fits_reached h p (List.mem_of_getElem? hp)
  unfold Fits at this
  rw [hx] at this
  simp only [if_true] at this
  exact this.1 b m hph

/-! Non-vacuity, and what goes wrong -/

/-- non-vacuity of `new_fields_partial`: the put, the channel closed, the block made anew, the put ends -/
example : let w := (World.start 0).step (.send true (.accepted 1))
    let v := w.run [.answer 0 true, .disconnected, .value, .take 0]
    (World.start 0).tokens = 0 ∧ v.shown = 1 ∧ v.puts = [⟨true, .accepted 1, .over true .ok⟩] := by decide +kernel

/-- non-vacuity of `refused_partial`: it ends with the timeout -/
example : ((World.start 0).run [.send true (.refused "no"), .answer 0 false, .take 0, .giveUp 0]).puts = [⟨true, .refused "no", .over true .timeout⟩] := by
  decide +kernel

/-- **Refused, but reported as put**: once the connection has been lost and come back, the first put of exports that the server refuses ends
well at once. -/
theorem refused_but_ok :
    let w := (World.start 0).run [.disconnected, .value, .send true (.refused "no such field"), .answer 0 false, .take 0]
    Ended w 0 .ok ∧ w.shown = 0 ∧ w.server = 0 := by
  refine ⟨⟨⟨true, .refused "no such field", .over true .ok⟩, true, by decide +kernel, rfl⟩, by decide +kernel, by decide +kernel⟩

/-- **Reported too early**: likewise a put of exports that the server accepts ends before the block has the new fields. -/
theorem too_early :
    let w := (World.start 0).run [.disconnected, .value, .send true (.accepted 1), .answer 0 true, .take 0]
    Ended w 0 .ok ∧ w.shown = 0 ∧ w.server = 1 := by
  refine ⟨⟨⟨true, .accepted 1, .over true .ok⟩, true, by decide +kernel, rfl⟩, by decide +kernel, by decide +kernel⟩

/-- **Not waited for**: if the answer of the server is not cut off, the put ends before the block has the new fields, and what the block is made
anew for is left over for the next put. -/
theorem not_waited_for :
    let w := (World.start 0).run [.send true (.accepted 1), .answer 0 false]
    Ended w 0 .ok ∧ w.shown = 0 ∧ w.server = 1
    ∧ Ended (w.run [.disconnected, .value, .send true (.refused "no such field"), .answer 1 false, .take 1]) 1 .ok := by
  refine ⟨⟨⟨true, .accepted 1, .over false .ok⟩, false, by decide +kernel, rfl⟩, by decide +kernel, by decide +kernel,
    ⟨⟨true, .refused "no such field", .over true .ok⟩, true, by decide +kernel, rfl⟩⟩

/-- **The refusal of one taken for the success of another**: of two puts at the same time the one that was refused takes what the one that was
accepted waits for, which then ends with a timeout. -/
theorem swapped :
    let w := (World.start 0).run [.send true (.refused "no such field"), .send true (.accepted 1), .answer 0 false, .answer 1 true, .disconnected, .value,
      .take 0, .take 1, .giveUp 1]
    Ended w 0 .ok ∧ Ended w 1 .timeout ∧ w.shown = 1 := by
  refine ⟨⟨⟨true, .refused "no such field", .over true .ok⟩, true, by decide +kernel, rfl⟩,
    ⟨⟨true, .accepted 1, .over true .timeout⟩, true, by decide +kernel, rfl⟩, by decide +kernel⟩

end Verif.Props.PvaExports
