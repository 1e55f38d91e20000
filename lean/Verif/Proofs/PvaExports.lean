import Verif.Spec.PvaExports
namespace Verif.Proofs.PvaExports
open Verif.PvaExports Verif.Spec.PvaExports

variable {F : Type}

/-- the put has ended well by waiting -/
def took (p : Put F) : Bool := decide (p.phase = .over true .ok)

def waited (w : World F) : Nat := w.puts.countP took

theorem count_set {A : Type} (q : A → Bool) : ∀ (l : List A) (i : Nat) (a b : A), l[i]? = some a → q a = false →
    (l.set i b).countP q = l.countP q + (if q b then 1 else 0)
  | [], _, _, _, h, _ => by simp at h
  | x :: l, 0, a, b, h, hq => by
    simp only [List.getElem?_cons_zero, Option.some.injEq] at h
    subst h
    simp [List.countP_cons, hq]
  | x :: l, i + 1, a, b, h, hq => by
    simp only [List.getElem?_cons_succ] at h
    simp only [List.set_cons_succ, List.countP_cons, count_set q l i a b h hq]
    omega

theorem took_false {p : Put F} (h : p.phase ≠ .over true .ok) : took p = false := by simp [took, h]

theorem answered_not_took (p : Put F) (cut : Bool) : answered p cut ≠ .over true .ok := by
  unfold answered
  split <;> (try split) <;> simp

/-- Each None has been put by the making of a block, and taken by one put -/
theorem count_step (w : World F) (ev : Ev F) (h : w.tokens + waited w + 1 = w.made) :
    (w.step ev).tokens + waited (w.step ev) + 1 = (w.step ev).made := by
  cases ev with
  | disconnected => exact h
  | elsewhere f => exact h
  | value =>
    simp only [World.step]
    split
    · exact h
    · split
      · show w.tokens + 1 + waited w + 1 = w.made + 1
        omega
      · exact h
  | send ex v =>
    have key : ∀ (ex : Bool) (v : Verdict F), (w.puts ++ [(⟨ex, v, .sent⟩ : Put F)]).countP took = w.puts.countP took := by
      intro ex v
      simp [List.countP_append, took]
    simp only [World.step]
    split <;> (unfold waited at *; simp only [key]; exact h)
  | answer i cut =>
    simp only [World.step]
    split
    · rename_i p hp
      split
      · rename_i hs
        have := count_set took w.puts i p { p with phase := answered p cut } hp (took_false (by rw [hs]; simp))
        rw [took_false (p := { p with phase := answered p cut }) (answered_not_took p cut)] at this
        unfold waited at *
        simp only [this]
        simpa using h
      · exact h
    · exact h
  | take i =>
    simp only [World.step]
    split
    · rename_i p hp
      split
      · rename_i hs
        have := count_set took w.puts i p { p with phase := .over true .ok } hp (took_false (by rw [hs.1]; simp))
        have hb : took { p with phase := Phase.over true Outcome.ok } = true := by simp [took]
        rw [hb] at this
        unfold waited at *
        simp only [this, if_true]
        omega
      · exact h
    · exact h
  | giveUp i =>
    simp only [World.step]
    split
    · rename_i p hp
      split
      · rename_i hs
        have := count_set took w.puts i p { p with phase := .over true .timeout } hp (took_false (by rw [hs]; simp))
        rw [took_false (p := { p with phase := Phase.over true Outcome.timeout }) (by simp)] at this
        unfold waited at *
        simp only [this]
        simpa using h
      · exact h
    · exact h

theorem count_run : ∀ (es : List (Ev F)) (w : World F), w.tokens + waited w + 1 = w.made →
    (w.run es).tokens + waited (w.run es) + 1 = (w.run es).made
  | [], _, h => h
  | ev :: es, w, h => count_run es (w.step ev) (count_step w ev h)

theorem count_reached {w : World F} (h : Reached w) : w.tokens + waited w + 1 = w.made := by
  obtain ⟨f, es, rfl⟩ := h
  exact count_run es _ rfl

/-- what one event does to the puts: none is forgotten, and one that has ended stays as it is -/
theorem puts_step (w : World F) (ev : Ev F) (i : Nat) (p : Put F) (h : w.puts[i]? = some p) :
    ∃ p', (w.step ev).puts[i]? = some p' ∧ p'.exports = p.exports ∧ p'.verdict = p.verdict ∧ (∀ b o, p.phase = .over b o → p'.phase = .over b o) := by
  have same : ∃ p', w.puts[i]? = some p' ∧ p'.exports = p.exports ∧ p'.verdict = p.verdict ∧ (∀ b o, p.phase = .over b o → p'.phase = .over b o) :=
    ⟨p, h, rfl, rfl, fun _ _ x => x⟩
  have upd : ∀ (j : Nat) (q : Put F) (ph : Phase), w.puts[j]? = some q → (∀ b o, q.phase ≠ .over b o) →
      ∃ p', (w.puts.set j { q with phase := ph })[i]? = some p' ∧ p'.exports = p.exports ∧ p'.verdict = p.verdict
        ∧ (∀ b o, p.phase = .over b o → p'.phase = .over b o) := by
    intro j q ph hq hno
    by_cases hij : j = i
    · subst hij
      rw [h] at hq; cases hq
      have hlt : j < w.puts.length := (List.getElem?_eq_some_iff.mp h).1
      exact ⟨_, List.getElem?_set_self hlt, rfl, rfl, fun b o x => absurd x (hno b o)⟩
    · rw [List.getElem?_set_ne hij]; exact same
  cases ev with
  | disconnected => exact same
  | elsewhere f => exact same
  | value =>
    simp only [World.step]
    split
    · exact same
    · split <;> exact same
  | send ex v =>
    have : (w.puts ++ [{ exports := ex, verdict := v, phase := .sent }])[i]? = some p := by
      rw [List.getElem?_append_left (List.getElem?_eq_some_iff.mp h).1]; exact h
    simp only [World.step]
    split <;> exact ⟨p, this, rfl, rfl, fun _ _ x => x⟩
  | answer j cut =>
    simp only [World.step]
    split
    · rename_i q hq
      split
      · rename_i hs; exact upd j q _ hq (fun b o => by rw [hs]; simp)
      · exact same
    · exact same
  | take j =>
    simp only [World.step]
    split
    · rename_i q hq
      split
      · rename_i hs; exact upd j q _ hq (fun b o => by rw [hs.1]; simp)
      · exact same
    · exact same
  | giveUp j =>
    simp only [World.step]
    split
    · rename_i q hq
      split
      · rename_i hs; exact upd j q _ hq (fun b o => by rw [hs]; simp)
      · exact same
    · exact same

theorem puts_run : ∀ (es : List (Ev F)) (w : World F) (i : Nat) (p : Put F), w.puts[i]? = some p →
    ∃ p', (w.run es).puts[i]? = some p' ∧ p'.exports = p.exports ∧ p'.verdict = p.verdict ∧ (∀ b o, p.phase = .over b o → p'.phase = .over b o)
  | [], _, _, p, h => ⟨p, h, rfl, rfl, fun _ _ x => x⟩
  | ev :: es, w, i, p, h => by
    obtain ⟨p1, h1, h2, h3, h4⟩ := puts_step w ev i p h
    obtain ⟨p2, k1, k2, k3, k4⟩ := puts_run es (w.step ev) i p1 h1
    exact ⟨p2, k1, k2.trans h2, k3.trans h3, fun b o x => k4 b o (h4 b o x)⟩

/-- as many have ended by waiting, and one more if one more has -/
theorem count_more (l : List (Put F)) (q : Put F → Bool) (l' : List (Put F))
    (h : ∀ (i : Nat) p, l[i]? = some p → ∃ p', l'[i]? = some p' ∧ (q p = true → q p' = true)) (i : Nat)
    (hi : ∃ p', l'[i]? = some p' ∧ q p' = true) (hno : ∀ p, l[i]? = some p → q p = false) : l.countP q + 1 ≤ l'.countP q := by
  induction l generalizing l' i with
  | nil =>
    obtain ⟨p', h1, h2⟩ := hi
    have : 0 < l'.countP q := List.countP_pos_iff.mpr ⟨p', List.mem_of_getElem? h1, h2⟩
    simp only [List.countP_nil]; omega
  | cons a l ih =>
    cases l' with
    | nil => obtain ⟨p', h1, _⟩ := hi; simp at h1
    | cons a' l' =>
      have hmono : ∀ (l l' : List (Put F)), (∀ (i : Nat) p, l[i]? = some p → ∃ p', l'[i]? = some p' ∧ (q p = true → q p' = true)) → l.countP q ≤ l'.countP q := by
        intro l
        induction l with
        | nil => intro l' _; simp
        | cons b l ihl =>
          intro l' hl
          cases l' with
          | nil => obtain ⟨p', h1, _⟩ := hl 0 b rfl; simp at h1
          | cons b' l' =>
            have h0 := hl 0 b rfl
            simp only [List.getElem?_cons_zero, Option.some.injEq] at h0
            obtain ⟨_, rfl, h0⟩ := h0
            have := ihl l' (fun i p hp => hl (i + 1) p (by simpa using hp))
            simp only [List.countP_cons]
            by_cases hb : q b = true
            · simp only [hb, h0 hb, if_true]; omega
            · rw [if_neg hb]; omega
      have h0 := h 0 a rfl
      simp only [List.getElem?_cons_zero, Option.some.injEq] at h0
      obtain ⟨_, rfl, h0⟩ := h0
      simp only [List.countP_cons]
      cases i with
      | zero =>
        have hm := hmono l l' (fun i p hp => h (i + 1) p (by simpa using hp))
        obtain ⟨p', h1, h2⟩ := hi
        simp only [List.getElem?_cons_zero, Option.some.injEq] at h1
        subst h1
        have hn := hno a rfl
        simp only [h2, hn, if_true]
        simp; omega
      | succ i =>
        have := ih l' (fun i p hp => h (i + 1) p (by simpa using hp)) i (by simpa using hi) (fun p hp => hno p (by simpa using hp))
        by_cases hb : q a = true
        · simp only [hb, h0 hb, if_true]; omega
        · rw [if_neg hb]; omega

/-- The queue was empty, and since then a put has ended well by waiting: the block has been made anew since then -/
theorem anew {w : World F} (h : Reached w) (h0 : w.tokens = 0) (es : List (Ev F)) (i : Nat) (hi : EndedWaiting (w.run es) i .ok)
    (hno : ¬ EndedWaiting w i .ok) : w.made < (w.run es).made := by
  have h1 := count_reached h
  have h2 := count_run es w h1
  have : waited w + 1 ≤ waited (w.run es) := by
    refine count_more w.puts took (w.run es).puts ?_ i ?_ ?_
    · intro j p hp
      obtain ⟨p', k1, _, _, k4⟩ := puts_run es w j p hp
      exact ⟨p', k1, fun x => by simp only [took, decide_eq_true_eq] at x ⊢; exact k4 _ _ x⟩
    · obtain ⟨p, k1, k2⟩ := hi
      exact ⟨p, k1, by simp [took, k2]⟩
    · intro p hp
      exact took_false (fun x => hno ⟨p, hp, x⟩)
  omega

/-- every put is in a phase that its kind can be in -/
def Fits (p : Put F) : Prop :=
  if p.exports then
    (∀ b m, p.phase ≠ .over b (.error m)) ∧ (p.phase = .over false .ok → ∃ f, p.verdict = .accepted f)
  else
    p.phase = .sent ∨ (∃ f, p.verdict = .accepted f ∧ (p.phase = .over false .ok ∨ p.phase = .over false (.error cutOff)))
      ∨ ∃ m, p.verdict = .refused m ∧ p.phase = .over false (.error m)

theorem fits_step (w : World F) (ev : Ev F) (h : ∀ p ∈ w.puts, Fits p) : ∀ p ∈ (w.step ev).puts, Fits p := by
  have upd : ∀ (j : Nat) (q q' : Put F), w.puts[j]? = some q → Fits q' → ∀ p ∈ w.puts.set j q', Fits p := by
    intro j q q' _ hq' p hp
    rcases List.mem_or_eq_of_mem_set hp with hp | rfl
    · exact h p hp
    · exact hq'
  cases ev with
  | disconnected => exact h
  | elsewhere f => exact h
  | value =>
    simp only [World.step]
    split
    · exact h
    · split <;> exact h
  | send ex v =>
    have key : ∀ p ∈ w.puts ++ [{ exports := ex, verdict := v, phase := .sent }], Fits p := by
      intro p hp
      rcases List.mem_append.mp hp with hp | hp
      · exact h p hp
      · rw [List.mem_singleton.mp hp]; unfold Fits; cases ex <;> simp
    simp only [World.step]
    split <;> exact key
  | answer j cut =>
    simp only [World.step]
    split
    · rename_i q hq
      split
      · refine upd j q _ hq ?_
        unfold Fits answered
        cases hx : q.exports <;> cases hv : q.verdict <;> cases cut <;> simp [hx, hv]
      · exact h
    · exact h
  | take j =>
    simp only [World.step]
    split
    · rename_i q hq
      split
      · rename_i hs
        refine upd j q _ hq ?_
        have := h q (List.mem_of_getElem? hq)
        unfold Fits at this ⊢
        cases hx : q.exports <;> simp [hx, hs.1] at this ⊢
      · exact h
    · exact h
  | giveUp j =>
    simp only [World.step]
    split
    · rename_i q hq
      split
      · rename_i hs
        refine upd j q _ hq ?_
        have := h q (List.mem_of_getElem? hq)
        unfold Fits at this ⊢
        cases hx : q.exports <;> simp [hx, hs] at this ⊢
      · exact h
    · exact h

theorem fits_run : ∀ (es : List (Ev F)) (w : World F), (∀ p ∈ w.puts, Fits p) → ∀ p ∈ (w.run es).puts, Fits p
  | [], _, h => h
  | ev :: es, w, h => fits_run es (w.step ev) (fits_step w ev h)

theorem fits_reached {w : World F} (h : Reached w) : ∀ p ∈ w.puts, Fits p := by
  obtain ⟨f, es, rfl⟩ := h
  exact fits_run es _ (by simp [World.start])

/-- while nobody changes the fields of the server, a block that is made anew gets them -/
theorem shown_step (f : F) (m : Nat) (w : World F) (ev : Ev F) (hu : Untouched ev) (h : w.server = f ∧ (m < w.made → w.shown = f)) :
    (w.step ev).server = f ∧ (m < (w.step ev).made → (w.step ev).shown = f) := by
  cases ev with
  | disconnected => exact h
  | elsewhere g => exact absurd hu (by simp [Untouched])
  | value =>
    simp only [World.step]
    split
    · exact h
    · split
      · exact ⟨h.1, fun _ => h.1⟩
      · exact h
  | send ex v =>
    simp only [World.step]
    split
    · exact absurd hu (by simp [Untouched])
    · exact h
  | answer j cut =>
    simp only [World.step]
    split
    · split <;> exact h
    · exact h
  | take j =>
    simp only [World.step]
    split
    · split <;> exact h
    · exact h
  | giveUp j =>
    simp only [World.step]
    split
    · split <;> exact h
    · exact h

theorem shown_run (f : F) (m : Nat) : ∀ (es : List (Ev F)) (w : World F), (∀ ev ∈ es, Untouched ev) →
    w.server = f ∧ (m < w.made → w.shown = f) → (w.run es).server = f ∧ (m < (w.run es).made → (w.run es).shown = f)
  | [], _, _, h => h
  | ev :: es, w, hu, h => shown_run f m es (w.step ev) (fun x hx => hu x (List.mem_cons_of_mem _ hx))
      (shown_step f m w ev (hu ev (List.mem_cons_self ..)) h)

/-- while the connection lasts the block is not made anew -/
theorem made_step (w : World F) (ev : Ev F) (hc : Connected ev) (h : w.fresh = false) :
    (w.step ev).fresh = false ∧ (w.step ev).made = w.made := by
  cases ev with
  | disconnected => exact absurd hc (by simp [Connected])
  | elsewhere g => exact ⟨h, rfl⟩
  | value =>
    simp only [World.step, h]
    split <;> simp [h]
  | send ex v =>
    simp only [World.step]
    split <;> exact ⟨h, rfl⟩
  | answer j cut =>
    simp only [World.step]
    split
    · split <;> exact ⟨h, rfl⟩
    · exact ⟨h, rfl⟩
  | take j =>
    simp only [World.step]
    split
    · split <;> exact ⟨h, rfl⟩
    · exact ⟨h, rfl⟩
  | giveUp j =>
    simp only [World.step]
    split
    · split <;> exact ⟨h, rfl⟩
    · exact ⟨h, rfl⟩

theorem made_run : ∀ (es : List (Ev F)) (w : World F), (∀ ev ∈ es, Connected ev) → w.fresh = false →
    (w.run es).fresh = false ∧ (w.run es).made = w.made
  | [], _, _, h => ⟨h, rfl⟩
  | ev :: es, w, hc, h => by
    obtain ⟨h1, h2⟩ := made_step w ev (hc ev (List.mem_cons_self ..)) h
    obtain ⟨k1, k2⟩ := made_run es (w.step ev) (fun x hx => hc x (List.mem_cons_of_mem _ hx)) h1
    exact ⟨k1, k2.trans h2⟩

/-- what one event does to the number of times the block has been made, with one to come if it is to be made anew -/
def due (w : World F) : Nat := w.made + (if w.fresh then 1 else 0)

theorem due_step (w : World F) (ev : Ev F) : due (w.step ev) ≤ due w + losses [ev] := by
  have same : ∀ v : World F, v.made = w.made → v.fresh = w.fresh → due v ≤ due w + losses [ev] := by
    intro v h1 h2; unfold due; rw [h1, h2]; omega
  cases ev with
  | disconnected =>
    show w.made + 1 ≤ due w + 1
    unfold due; omega
  | elsewhere f => exact same _ rfl rfl
  | value =>
    simp only [World.step]
    split
    · exact same _ rfl rfl
    · split
      · rename_i hf
        unfold due
        simp [hf]
      · exact same _ rfl rfl
  | send ex v => simp only [World.step]; split <;> exact same _ rfl rfl
  | answer j cut =>
    simp only [World.step]
    split
    · split <;> exact same _ rfl rfl
    · exact same _ rfl rfl
  | take j =>
    simp only [World.step]
    split
    · split <;> exact same _ rfl rfl
    · exact same _ rfl rfl
  | giveUp j =>
    simp only [World.step]
    split
    · split <;> exact same _ rfl rfl
    · exact same _ rfl rfl

theorem losses_cons (ev : Ev F) (es : List (Ev F)) : losses (ev :: es) = losses [ev] + losses es := by
  cases ev <;> simp [losses] <;> omega

theorem due_run : ∀ (es : List (Ev F)) (w : World F), due (w.run es) ≤ due w + losses es
  | [], w => by simp [World.run, losses]
  | ev :: es, w => by
    have h1 := due_step w ev
    have h2 := due_run es (w.step ev)
    rw [losses_cons]
    show due ((w.step ev).run es) ≤ _
    omega

end Verif.Proofs.PvaExports
