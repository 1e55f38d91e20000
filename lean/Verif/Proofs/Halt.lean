import Verif.Spec.Halt
/-!
The stopping of a process (C119): proofs.
-/
namespace Verif.Proofs.Halt
open Verif.Halt Verif.Spec.Halt

/-- What a step can do -/
inductive Change (kids : Nat → List Nat) (w : World) : Ev → World → Prop
  | none (e : Ev) : Change kids w e w
  | halt (j b : Nat) (ok : Bool) (h : w.jobs[j]? = some ⟨b, .halting⟩) :
    Change kids w (.halt j ok) (w.setJob j b (if ok then .due else .over false))
  | begin (j b : Nat) (h : w.jobs[j]? = some ⟨b, .due⟩) (ha : (w.st b).allowed .disabling = true) :
    Change kids w (.begin j)
      { ((w.put b .disabling).setJob j b (.running Option.none ((kids b).map fun _ => .idle))) with began := w.began ++ [b] }
  | refused (j b : Nat) (h : w.jobs[j]? = some ⟨b, .due⟩) (ha : (w.st b).allowed .disabling = false) :
    Change kids w (.begin j) ((w.put b (w.st b).error).setJob j b (.over false))
  | own (j b : Nat) (ok : Bool) (ks : List KidSt) (h : w.jobs[j]? = some ⟨b, .running Option.none ks⟩) :
    Change kids w (.own j ok) (w.setJob j b (.running (some ok) ks))
  | look (j b i c : Nat) (own : Option Bool) (ks : List KidSt) (h : w.jobs[j]? = some ⟨b, .running own ks⟩)
      (hi : ks[i]? = some .idle) (hc : (kids b)[i]? = some c) :
    Change kids w (.kid j i) (w.setJob j b (.running own (ks.set i (if (w.st c).writeable then .seen else .over true))))
  | post (j b i c : Nat) (own : Option Bool) (ks : List KidSt) (h : w.jobs[j]? = some ⟨b, .running own ks⟩)
      (hi : ks[i]? = some .seen) (hc : (kids b)[i]? = some c) (hw : (w.st c).writeable = true) :
    Change kids w (.kid j i)
      { (w.setJob j b (.running own (ks.set i (.waiting w.jobs.length)))) with
        jobs := (w.setJob j b (.running own (ks.set i (.waiting w.jobs.length)))).jobs ++ [⟨c, .due⟩] }
  | late (j b i c : Nat) (own : Option Bool) (ks : List KidSt) (h : w.jobs[j]? = some ⟨b, .running own ks⟩)
      (hi : ks[i]? = some .seen) (hc : (kids b)[i]? = some c) (hw : (w.st c).writeable = false) :
    Change kids w (.kid j i) (w.setJob j b (.running own (ks.set i (.over false))))
  | got (j b i k d : Nat) (ok : Bool) (own : Option Bool) (ks : List KidSt) (h : w.jobs[j]? = some ⟨b, .running own ks⟩)
      (hi : ks[i]? = some (.waiting k)) (hk : w.jobs[k]? = some ⟨d, .over ok⟩) :
    Change kids w (.kid j i) (w.setJob j b (.running own (ks.set i (.over ok))))
  | gave (j b i k : Nat) (own : Option Bool) (ks : List KidSt) (h : w.jobs[j]? = some ⟨b, .running own ks⟩)
      (hi : ks[i]? = some (.waiting k)) (hb : bad own ks = true) :
    Change kids w (.giveUp j i) (w.setJob j b (.running own (ks.set i (.over false))))
  | done (j b : Nat) (own : Option Bool) (ks : List KidSt) (h : w.jobs[j]? = some ⟨b, .running own ks⟩)
      (ho : own.isSome = true) (hk : ks.all KidSt.isOver = true) (hb : bad own ks = false) (ha : (w.st b).allowed .disabled = true) :
    Change kids w (.finish j) ((w.put b .disabled).setJob j b (.over true))
  | failed (j b : Nat) (own : Option Bool) (ks : List KidSt) (h : w.jobs[j]? = some ⟨b, .running own ks⟩)
      (ho : own.isSome = true) (hk : ks.all KidSt.isOver = true) (hb : bad own ks = true ∨ (w.st b).allowed .disabled = false) :
    Change kids w (.finish j) ((w.put b (w.st b).error).setJob j b (.over false))

theorem step_change (kids : Nat → List Nat) (w : World) (e : Ev) : Change kids w e (w.step kids e) := by
  cases e with
  | halt j ok =>
    simp only [World.step]
    split
    · next b h => exact .halt j b ok h
    · exact .none _
  | begin j =>
    simp only [World.step]
    split
    · next b h =>
      split
      · next ha => exact .begin j b h ha
      · next ha => exact .refused j b h (by simpa using ha)
    · exact .none _
  | own j ok =>
    simp only [World.step]
    split
    · next b ks h => exact .own j b ok ks h
    · exact .none _
  | kid j i =>
    simp only [World.step]
    split
    · next b own ks h =>
      unfold World.kid
      split
      · next c hi hc => exact .look j b i c own ks h hi hc
      · next c hi hc =>
        split
        · next hw => exact .post j b i c own ks h hi hc hw
        · next hw => exact .late j b i c own ks h hi hc (by simpa using hw)
      · next k hi =>
        split
        · next d ok hk => exact .got j b i k d ok own ks h hi hk
        · exact .none _
      · exact .none _
    · exact .none _
  | giveUp j i =>
    simp only [World.step]
    split
    · next b own ks h =>
      split
      · next k hi =>
        split
        · next hb => exact .gave j b i k own ks h hi hb
        · exact .none _
      · exact .none _
    · exact .none _
  | finish j =>
    simp only [World.step]
    split
    · next b own ks h =>
      split
      · next hc =>
        simp only [Bool.and_eq_true] at hc
        split
        · next hd =>
          simp only [Bool.and_eq_true, Bool.not_eq_true'] at hd
          exact .done j b own ks h hc.1 hc.2 hd.1 hd.2
        · next hd =>
          refine .failed j b own ks h hc.1 hc.2 ?_
          cases hb : bad own ks
          · right
            simpa [hb] using hd
          · exact .inl rfl
      · exact .none _
    · exact .none _

theorem error_ne (s : St) : s.error ≠ .disabling ∧ s.error ≠ .ready := by
  cases s <;> decide

theorem error_disabled {s : St} : s.error = .disabled ↔ s = .disabled := by
  cases s <;> decide

/-- What always holds -/
structure Inv (kids : Nat → List Nat) (n : Nat) (st0 : Nat → St) (w : World) : Prop where
  heads : ∀ j, j < n → ∃ ph, w.jobs[j]? = some ⟨j, ph⟩
  busy : ∀ b, w.st b = .disabling → ∃ (j : Nat) (own : Option Bool) (ks : List KidSt), w.jobs[j]? = some ⟨b, .running own ks⟩
  wait : ∀ (j b i k : Nat) own ks, w.jobs[j]? = some ⟨b, .running own ks⟩ → ks[i]? = some (.waiting k) → (j < k ∧ n ≤ k) ∧ k < w.jobs.length
  len : ∀ (j b : Nat) own ks, w.jobs[j]? = some ⟨b, .running own ks⟩ → ks.length = (kids b).length
  dis : ∀ b, st0 b = .disabled → w.st b = .disabled ∧ b ∉ w.began
  beg : ∀ b, st0 b ≠ .disabled → w.st b = .disabling ∨ w.st b = .disabled → b ∈ w.began

theorem start_inv (kids : Nat → List Nat) (n : Nat) (st0 : Nat → St) (hs : ∀ b, Settled (st0 b)) :
    Inv kids n st0 (World.start st0 n) := by
  have hr : ∀ (j b : Nat) own ks, (World.start st0 n).jobs[j]? = some ⟨b, .running own ks⟩ → False := by
    intro j b own ks h
    simp only [World.start, List.getElem?_map, Option.map_eq_some_iff] at h
    obtain ⟨a, -, h⟩ := h
    simp at h
  refine ⟨fun j hj => ⟨.halting, by simp [World.start, hj]⟩, ?_, ?_, ?_, ?_, ?_⟩
  · intro b h
    exact absurd h (hs b)
  · intro j b i k own ks h
    exact (hr j b own ks h).elim
  · intro j b own ks h
    exact (hr j b own ks h).elim
  · intro b h
    exact ⟨h, by simp [World.start]⟩
  · intro b h hd
    rcases hd with hd | hd
    · exact absurd hd (hs b)
    · exact absurd hd h

theorem get_setJob (w : World) (j b : Nat) (ph : Phase) (x : Job) (h : w.jobs[j]? = some x) (k : Nat) :
    (w.setJob j b ph).jobs[k]? = if k = j then some ⟨b, ph⟩ else w.jobs[k]? := by
  have hl : j < w.jobs.length := (List.getElem?_eq_some_iff.mp h).1
  simp only [World.setJob, List.getElem?_set]
  by_cases hkj : j = k
  · subst hkj; simp [hl]
  · simp [hkj, Ne.symm hkj]

/-- A job goes into another phase, with nothing else changed: the invariant is kept if what is said of the new phase holds and no
running one is lost -/
theorem Inv.setJob {kids : Nat → List Nat} {n : Nat} {st0 : Nat → St} {w : World} (hI : Inv kids n st0 w) {j b : Nat} {ph0 ph : Phase}
    (h : w.jobs[j]? = some ⟨b, ph0⟩)
    (hrun : ∀ own ks, ph0 = .running own ks → ∃ own' ks', ph = .running own' ks')
    (hwait : ∀ own ks (i k : Nat), ph = .running own ks → ks[i]? = some (.waiting k) → (j < k ∧ n ≤ k) ∧ k < w.jobs.length)
    (hlen : ∀ own ks, ph = .running own ks → ks.length = (kids b).length) : Inv kids n st0 (w.setJob j b ph) := by
  have hg := get_setJob w j b ph _ h
  refine ⟨?_, ?_, ?_, ?_, hI.dis, hI.beg⟩
  · intro k hk
    obtain ⟨p, hp⟩ := hI.heads k hk
    rw [hg]
    by_cases hkj : k = j
    · subst hkj
      rw [h] at hp
      cases hp
      exact ⟨ph, by simp⟩
    · exact ⟨p, by simp [hkj, hp]⟩
  · intro d hd
    obtain ⟨k, own, ks, hk⟩ := hI.busy d hd
    by_cases hkj : k = j
    · subst hkj
      rw [h] at hk
      cases hk
      obtain ⟨o', k', rfl⟩ := hrun own ks rfl
      exact ⟨k, o', k', by rw [hg]; simp⟩
    · exact ⟨k, own, ks, by rw [hg]; simp [hkj, hk]⟩
  · intro k d i m own ks hk hi
    rw [hg] at hk
    have hl : (w.setJob j b ph).jobs.length = w.jobs.length := by simp [World.setJob]
    rw [hl]
    by_cases hkj : k = j
    · subst hkj
      simp only [if_true, Option.some.injEq, Job.mk.injEq] at hk
      exact hwait own ks i m hk.2 hi
    · simp only [hkj, if_false] at hk
      exact hI.wait k d i m own ks hk hi
  · intro k d own ks hk
    rw [hg] at hk
    by_cases hkj : k = j
    · subst hkj
      simp only [if_true, Option.some.injEq, Job.mk.injEq] at hk
      rw [← hk.1]
      exact hlen own ks hk.2
    · simp only [hkj, if_false] at hk
      exact hI.len k d own ks hk

/-- A call ends, with the state of its block changed to one that is not Disabling -/
theorem Inv.over {kids : Nat → List Nat} {n : Nat} {st0 : Nat → St} {w : World} (hI : Inv kids n st0 w) {j b : Nat} {ph0 : Phase} {ok : Bool} {s : St}
    (h : w.jobs[j]? = some ⟨b, ph0⟩) (hs : s ≠ .disabling) (hd : st0 b = .disabled → s = .disabled)
    (hb : st0 b ≠ .disabled → s = .disabled → b ∈ w.began) : Inv kids n st0 ((w.put b s).setJob j b (.over ok)) := by
  have hg := get_setJob (w.put b s) j b (.over ok) _ h
  have hst : ∀ c, ((w.put b s).setJob j b (.over ok)).st c = if c = b then s else w.st c := fun _ => rfl
  have hl : ((w.put b s).setJob j b (.over ok)).jobs.length = w.jobs.length := by simp [World.setJob, World.put]
  have hgo : ∀ k x, k ≠ j → w.jobs[k]? = some x → ((w.put b s).setJob j b (.over ok)).jobs[k]? = some x := by
    intro k x hkj hk
    rw [hg]
    simp only [hkj, if_false]
    exact hk
  have hgr : ∀ (k d : Nat) own ks, ((w.put b s).setJob j b (.over ok)).jobs[k]? = some ⟨d, .running own ks⟩ → w.jobs[k]? = some ⟨d, .running own ks⟩ := by
    intro k d own ks hk
    rw [hg] at hk
    by_cases hkj : k = j
    · subst hkj; simp at hk
    · simp only [hkj, if_false] at hk
      exact hk
  refine ⟨?_, ?_, ?_, ?_, ?_, ?_⟩
  · intro k hk
    obtain ⟨p, hp⟩ := hI.heads k hk
    by_cases hkj : k = j
    · subst hkj
      rw [h] at hp
      cases hp
      exact ⟨.over ok, by rw [hg]; simp⟩
    · exact ⟨p, hgo k _ hkj hp⟩
  · intro d hdd
    rw [hst] at hdd
    by_cases hdb : d = b
    · simp only [hdb, if_true] at hdd
      exact absurd hdd hs
    · simp only [hdb, if_false] at hdd
      obtain ⟨k, own, ks, hk⟩ := hI.busy d hdd
      refine ⟨k, own, ks, hgo k _ ?_ hk⟩
      intro hkj
      rw [hkj, h] at hk
      cases hk
      exact hdb rfl
  · intro k d i m own ks hk hi
    rw [hl]
    exact hI.wait k d i m own ks (hgr k d own ks hk) hi
  · intro k d own ks hk
    exact hI.len k d own ks (hgr k d own ks hk)
  · intro d h0
    have := hI.dis d h0
    rw [hst]
    by_cases hdb : d = b
    · subst hdb
      simp only [if_true]
      exact ⟨hd h0, this.2⟩
    · simp only [hdb, if_false]
      exact this
  · intro d h0 hor
    rw [hst] at hor
    by_cases hdb : d = b
    · subst hdb
      simp only [if_true] at hor
      rcases hor with h1 | h1
      · exact absurd h1 hs
      · exact hb h0 h1
    · simp only [hdb, if_false] at hor
      exact hI.beg d h0 hor

theorem kids_set {kids : Nat → List Nat} {n : Nat} {st0 : Nat → St} {w : World} (hI : Inv kids n st0 w) {j b i : Nat} {own : Option Bool}
    {ks : List KidSt} (h : w.jobs[j]? = some ⟨b, .running own ks⟩) (x : KidSt) (hx : ∀ k, x ≠ .waiting k) :
    Inv kids n st0 (w.setJob j b (.running own (ks.set i x))) := by
  refine hI.setJob h (fun _ _ _ => ⟨_, _, rfl⟩) ?_ ?_
  · intro own' ks' i' k he hi'
    simp only [Phase.running.injEq] at he
    rw [← he.2, List.getElem?_set] at hi'
    split at hi'
    · split at hi'
      · simp only [Option.some.injEq] at hi'
        exact absurd hi' (hx k)
      · cases hi'
    · exact hI.wait j b i' k own ks h hi'
  · intro own' ks' he
    simp only [Phase.running.injEq] at he
    rw [← he.2, List.length_set]
    exact hI.len j b own ks h

theorem step_inv {kids : Nat → List Nat} {n : Nat} {st0 : Nat → St} {w w' : World} {e : Ev} (hI : Inv kids n st0 w)
    (hc : Change kids w e w') : Inv kids n st0 w' := by
  cases hc with
  | none => exact hI
  | halt j b ok h =>
    refine hI.setJob h ?_ ?_ ?_
    · intro _ _ h; cases h
    · intro _ _ _ _ h; cases ok <;> simp at h
    · intro _ _ h; cases ok <;> simp at h
  | own j b ok ks h =>
    refine hI.setJob h (fun _ _ _ => ⟨_, _, rfl⟩) ?_ ?_
    · intro own' ks' i' k he hi'
      simp only [Phase.running.injEq] at he
      rw [← he.2] at hi'
      exact hI.wait j b i' k _ ks h hi'
    · intro own' ks' he
      simp only [Phase.running.injEq] at he
      rw [← he.2]
      exact hI.len j b _ ks h
  | look j b i c own ks h hi hc => exact kids_set hI h _ (by intro k; split <;> simp)
  | late j b i c own ks h hi hc hw => exact kids_set hI h _ (by simp)
  | got j b i k d ok own ks h hi hk => exact kids_set hI h _ (by simp)
  | gave j b i k own ks h hi hb => exact kids_set hI h _ (by simp)
  | refused j b h ha =>
    refine hI.over h (error_ne _).1 ?_ ?_
    · intro h0
      rw [(hI.dis b h0).1]
      rfl
    · intro h0 hs
      exact hI.beg b h0 (.inr (error_disabled.mp hs))
  | failed j b own ks h ho hk hb =>
    refine hI.over h (error_ne _).1 ?_ ?_
    · intro h0
      rw [(hI.dis b h0).1]
      rfl
    · intro h0 hs
      exact hI.beg b h0 (.inr (error_disabled.mp hs))
  | done j b own ks h ho hk hb ha =>
    refine hI.over h (by simp) (fun _ => rfl) ?_
    intro h0 _
    refine hI.beg b h0 (.inl ?_)
    revert ha
    cases w.st b <;> simp [St.allowed]
  | begin j b h ha =>
    have hst : ∀ c, (({ ((w.put b .disabling).setJob j b (.running Option.none ((kids b).map fun _ => .idle))) with began := w.began ++ [b] } : World)).st c
      = if c = b then .disabling else w.st c := fun _ => rfl
    have hg : ∀ k, (({ ((w.put b .disabling).setJob j b (.running Option.none ((kids b).map fun _ => .idle))) with began := w.began ++ [b] } : World)).jobs[k]?
      = if k = j then some ⟨b, .running Option.none ((kids b).map fun _ => .idle)⟩ else w.jobs[k]? :=
      fun k => get_setJob (w.put b .disabling) j b _ _ h k
    refine ⟨?_, ?_, ?_, ?_, ?_, ?_⟩
    · intro k hk
      obtain ⟨p, hp⟩ := hI.heads k hk
      rw [hg]
      by_cases hkj : k = j
      · subst hkj
        rw [h] at hp
        cases hp
        exact ⟨_, by simp; rfl⟩
      · exact ⟨p, by simp [hkj, hp]⟩
    · intro d hd
      rw [hst] at hd
      by_cases hdb : d = b
      · subst hdb
        exact ⟨j, _, _, by rw [hg]; simp; exact ⟨rfl, rfl⟩⟩
      · simp only [hdb, if_false] at hd
        obtain ⟨k, own, ks, hk⟩ := hI.busy d hd
        refine ⟨k, own, ks, ?_⟩
        rw [hg]
        have : k ≠ j := by
          intro hkj
          rw [hkj, h] at hk
          cases hk
        simp [this, hk]
    · intro k d i m own ks hk hi
      rw [hg] at hk
      have hl : (({ ((w.put b .disabling).setJob j b (.running Option.none ((kids b).map fun _ => .idle))) with began := w.began ++ [b] } : World)).jobs.length
        = w.jobs.length := by simp [World.setJob, World.put]
      rw [hl]
      by_cases hkj : k = j
      · simp only [hkj, if_true, Option.some.injEq, Job.mk.injEq, Phase.running.injEq] at hk
        rw [← hk.2.2] at hi
        simp at hi
      · simp only [hkj, if_false] at hk
        exact hI.wait k d i m own ks hk hi
    · intro k d own ks hk
      rw [hg] at hk
      by_cases hkj : k = j
      · simp only [hkj, if_true, Option.some.injEq, Job.mk.injEq, Phase.running.injEq] at hk
        rw [← hk.2.2, ← hk.1]
        simp
      · simp only [hkj, if_false] at hk
        exact hI.len k d own ks hk
    · intro d h0
      have := hI.dis d h0
      have hdb : d ≠ b := by
        intro h'
        rw [h'] at this
        rw [this.1] at ha
        exact absurd ha (by decide)
      rw [hst]
      simp only [hdb, if_false]
      refine ⟨this.1, ?_⟩
      simp [this.2, hdb]
    · intro d h0 hor
      rw [hst] at hor
      by_cases hdb : d = b
      · simp [hdb]
      · simp only [hdb, if_false] at hor
        simp [hI.beg d h0 hor]
  | post j b i c own ks h hi hc hw =>
    have hl : j < w.jobs.length := (List.getElem?_eq_some_iff.mp h).1
    have hn : n ≤ w.jobs.length := by
      by_cases h0 : n = 0
      · omega
      · obtain ⟨ph, hp⟩ := hI.heads (n - 1) (by omega)
        have := (List.getElem?_eq_some_iff.mp hp).1
        omega
    have hlen : (w.setJob j b (.running own (ks.set i (.waiting w.jobs.length)))).jobs.length = w.jobs.length := by simp [World.setJob]
    have hg : ∀ k, ((w.setJob j b (.running own (ks.set i (.waiting w.jobs.length)))).jobs ++ [(⟨c, .due⟩ : Job)])[k]?
        = if k = j then some ⟨b, .running own (ks.set i (.waiting w.jobs.length))⟩
          else if k = w.jobs.length then some ⟨c, .due⟩ else w.jobs[k]? := by
      intro k
      by_cases hk : k < w.jobs.length
      · rw [List.getElem?_append_left (by omega), get_setJob w j b _ _ h k]
        have : k ≠ w.jobs.length := by omega
        simp [this]
      · rw [List.getElem?_append_right (by omega), hlen]
        have hkj : k ≠ j := by omega
        simp only [hkj, if_false]
        by_cases hke : k = w.jobs.length
        · simp [hke]
        · simp only [hke, if_false]
          rw [List.getElem?_eq_none (by simp; omega), List.getElem?_eq_none (by omega)]
    refine ⟨?_, ?_, ?_, ?_, hI.dis, hI.beg⟩
    · intro k hk
      obtain ⟨p, hp⟩ := hI.heads k hk
      have hkl : k < w.jobs.length := (List.getElem?_eq_some_iff.mp hp).1
      have : k ≠ w.jobs.length := by omega
      by_cases hkj : k = j
      · subst hkj
        rw [h] at hp
        cases hp
        exact ⟨_, by rw [hg]; simp; rfl⟩
      · exact ⟨p, by rw [hg]; simp [hkj, this, hp]⟩
    · intro d hd
      obtain ⟨k, o, s, hk⟩ := hI.busy d hd
      have hkl : k < w.jobs.length := (List.getElem?_eq_some_iff.mp hk).1
      have : k ≠ w.jobs.length := by omega
      by_cases hkj : k = j
      · subst hkj
        rw [h] at hk
        cases hk
        exact ⟨k, _, _, by rw [hg]; simp; exact ⟨rfl, rfl⟩⟩
      · exact ⟨k, o, s, by rw [hg]; simp [hkj, this, hk]⟩
    · intro k d i' m own' ks' hk hi'
      simp only [List.length_append, hlen, List.length_singleton]
      rw [hg] at hk
      by_cases hkj : k = j
      · simp only [hkj, if_true, Option.some.injEq, Job.mk.injEq, Phase.running.injEq] at hk
        rw [← hk.2.2, List.getElem?_set] at hi'
        split at hi'
        · split at hi'
          · simp only [Option.some.injEq, KidSt.waiting.injEq] at hi'
            omega
          · cases hi'
        · have := hI.wait j b i' m own ks h hi'
          omega
      · simp only [hkj, if_false] at hk
        by_cases hke : k = w.jobs.length
        · simp [hke] at hk
        · simp only [hke, if_false] at hk
          have := hI.wait k d i' m own' ks' hk hi'
          omega
    · intro k d own' ks' hk
      rw [hg] at hk
      by_cases hkj : k = j
      · simp only [hkj, if_true, Option.some.injEq, Job.mk.injEq, Phase.running.injEq] at hk
        rw [← hk.2.2, ← hk.1, List.length_set]
        exact hI.len j b own ks h
      · simp only [hkj, if_false] at hk
        by_cases hke : k = w.jobs.length
        · simp [hke] at hk
        · simp only [hke, if_false] at hk
          exact hI.len k d own' ks' hk

theorem run_inv {kids : Nat → List Nat} {n : Nat} {st0 : Nat → St} (es : List Ev) {w : World} (hI : Inv kids n st0 w) :
    Inv kids n st0 (w.run kids es) := by
  induction es generalizing w with
  | nil => exact hI
  | cons e es ih => exact ih (step_inv hI (step_change kids w e))

/-! ### What has become of a block whose own call has got as far as `disable` -/

/-- The call of `halt` of this block has begun with `disable` or has ended -/
def Past (w : World) (b : Nat) : Prop := ∃ ph, w.jobs[b]? = some ⟨b, ph⟩ ∧ ph ≠ .halting ∧ ph ≠ .due

theorem ready_gone {kids : Nat → List Nat} {w w' : World} {e : Ev} (hc : Change kids w e w') (b : Nat) (h : w.st b ≠ .ready) :
    w'.st b ≠ .ready := by
  have put : ∀ c s ph (j : Nat), s ≠ St.ready → ((w.put c s).setJob j c ph).st b ≠ .ready := by
    intro c s ph j hs
    simp only [World.setJob, World.put]
    split <;> assumption
  cases hc with
  | none => exact h
  | halt => exact h
  | own => exact h
  | look => exact h
  | late => exact h
  | got => exact h
  | gave => exact h
  | post => exact h
  | begin j c => exact put c .disabling .due j (by simp)
  | refused => exact put _ _ _ _ (error_ne _).2
  | done => exact put _ _ _ _ (by simp)
  | failed => exact put _ _ _ _ (error_ne _).2

theorem began_kept {kids : Nat → List Nat} {w w' : World} {e : Ev} (hc : Change kids w e w') (b : Nat) (h : b ∈ w.began) :
    b ∈ w'.began := by
  cases hc with
  | begin => simp [h]
  | _ => exact h

theorem past_new {kids : Nat → List Nat} {n : Nat} {st0 : Nat → St} {w w' : World} {e : Ev} (hI : Inv kids n st0 w) (hc : Change kids w e w')
    (b : Nat) (hb : b < n) (hp : Past w' b) :
    Past w b ∨ e = .halt b false ∨ (w'.st b ≠ .ready ∧ (st0 b ≠ .disabled → b ∈ w'.began)) := by
  obtain ⟨ph, hph, h1, h2⟩ := hp
  obtain ⟨p0, hp0⟩ := hI.heads b hb
  have old : w.jobs[b]? = some ⟨b, ph⟩ → Past w b := fun h => ⟨ph, h, h1, h2⟩
  have set : ∀ (w0 : World) (j c : Nat) ph1 ph0, w0.jobs = w.jobs → w.jobs[j]? = some ⟨c, ph0⟩ → ph0 ≠ .halting → ph0 ≠ .due →
      (w0.setJob j c ph1).jobs[b]? = some ⟨b, ph⟩ → Past w b := by
    intro w0 j c ph1 ph0 hw hj g1 g2 hh
    rw [get_setJob w0 j c ph1 ⟨c, ph0⟩ (by rw [hw]; exact hj) b, hw] at hh
    by_cases hbj : b = j
    · simp only [hbj, if_true, Option.some.injEq, Job.mk.injEq] at hh
      refine ⟨ph0, ?_, g1, g2⟩
      rw [hbj, hj, hh.1]
    · simp only [hbj, if_false] at hh
      exact old hh
  cases hc with
  | none => exact .inl (old hph)
  | halt j c ok h =>
    rw [get_setJob w j c _ _ h b] at hph
    by_cases hbj : b = j
    · subst hbj
      simp only [if_true, Option.some.injEq, Job.mk.injEq] at hph
      cases ok
      · exact .inr (.inl rfl)
      · simp only [if_true] at hph
        exact absurd hph.2.symm h2
    · simp only [hbj, if_false] at hph
      exact .inl (old hph)
  | own j c ok ks h => exact .inl (set w j c _ _ rfl h (by simp) (by simp) hph)
  | look j c i d own ks h => exact .inl (set w j c _ _ rfl h (by simp) (by simp) hph)
  | late j c i d own ks h => exact .inl (set w j c _ _ rfl h (by simp) (by simp) hph)
  | got j c i k d ok own ks h => exact .inl (set w j c _ _ rfl h (by simp) (by simp) hph)
  | gave j c i k own ks h => exact .inl (set w j c _ _ rfl h (by simp) (by simp) hph)
  | done j c own ks h => exact .inl (set (w.put c _) j c _ _ rfl h (by simp) (by simp) hph)
  | failed j c own ks h => exact .inl (set (w.put c _) j c _ _ rfl h (by simp) (by simp) hph)
  | post j c i d own ks h hi hc hw =>
    have hl : b < w.jobs.length := (List.getElem?_eq_some_iff.mp hp0).1
    simp only at hph
    rw [List.getElem?_append_left (by simpa [World.setJob] using hl)] at hph
    exact .inl (set w j c _ _ rfl h (by simp) (by simp) hph)
  | begin j c h ha =>
    have hph' : ((w.put c .disabling).setJob j c (.running none ((kids c).map fun _ => .idle))).jobs[b]? = some ⟨b, ph⟩ := hph
    rw [get_setJob (w.put c .disabling) j c _ _ h b] at hph'
    by_cases hbj : b = j
    · subst hbj
      rw [hp0] at h
      simp only [Option.some.injEq, Job.mk.injEq] at h
      refine .inr (.inr ⟨?_, ?_⟩)
      · simp [World.setJob, World.put, h.1]
      · intro _
        simp [← h.1]
    · simp only [hbj, if_false] at hph'
      exact .inl (old hph')
  | refused j c h ha =>
    rw [get_setJob (w.put c _) j c _ _ h b] at hph
    by_cases hbj : b = j
    · subst hbj
      rw [hp0] at h
      simp only [Option.some.injEq, Job.mk.injEq] at h
      obtain ⟨rfl, -⟩ := h
      refine .inr (.inr ⟨?_, ?_⟩)
      · simp only [World.setJob, World.put, if_true]
        exact (error_ne _).2
      · intro h0
        refine hI.beg b h0 ?_
        revert ha
        cases w.st b <;> simp [St.allowed]
    · simp only [hbj, if_false] at hph
      exact .inl (old hph)

theorem past_run {kids : Nat → List Nat} {n : Nat} {st0 : Nat → St} (b : Nat) (hb : b < n) (es : List Ev) {w : World} (hI : Inv kids n st0 w)
    (hf : Ev.halt b false ∉ es) (hw : Past w b → w.st b ≠ .ready ∧ (st0 b ≠ .disabled → b ∈ w.began)) :
    Past (w.run kids es) b → (w.run kids es).st b ≠ .ready ∧ (st0 b ≠ .disabled → b ∈ (w.run kids es).began) := by
  induction es generalizing w with
  | nil => exact hw
  | cons e es ih =>
    have hc := step_change kids w e
    refine ih (step_inv hI hc) (fun h => hf (by simp [h])) ?_
    intro hp
    rcases past_new hI hc b hb hp with h | h | h
    · exact ⟨ready_gone hc b (hw h).1, fun h0 => began_kept hc b ((hw h).2 h0)⟩
    · exact absurd (by simp [h]) hf
    · exact h

/-! ### Nothing is stuck, and it ends -/

theorem not_over {w : World} (h : ¬ AllOver w) : ∃ (j : Nat) (x : Job), w.jobs[j]? = some x ∧ (∀ ok, x.ph ≠ .over ok) ∧
    ∀ (k : Nat) (y : Job), j < k → w.jobs[k]? = some y → ∃ ok, y.ph = .over ok := by
  obtain ⟨st, jobs, began⟩ := w
  simp only [AllOver] at h ⊢
  clear st began
  induction jobs with
  | nil => exact absurd (by simp) h
  | cons x xs ih =>
    by_cases hx : ∀ y ∈ xs, ∃ ok, y.ph = .over ok
    · refine ⟨0, x, by simp, ?_, ?_⟩
      · intro ok hok
        refine h ?_
        intro y hy
        rcases List.mem_cons.mp hy with rfl | hy
        · exact ⟨ok, hok⟩
        · exact hx y hy
      · intro k y hk hy
        obtain ⟨m, rfl⟩ : ∃ m, k = m + 1 := ⟨k - 1, by omega⟩
        exact hx y (List.mem_of_getElem? (by simpa using hy))
    · obtain ⟨j, y, h1, h2, h3⟩ := ih hx
      refine ⟨j + 1, y, by simpa using h1, h2, ?_⟩
      intro k z hk hz
      obtain ⟨m, rfl⟩ : ∃ m, k = m + 1 := ⟨k - 1, by omega⟩
      exact h3 m z (by omega) (by simpa using hz)

theorem set_ne {w w0 : World} {j b : Nat} {ph0 ph : Phase} (h : w.jobs[j]? = some ⟨b, ph0⟩) (hw : w0.jobs = w.jobs) (hne : ph ≠ ph0) :
    w0.setJob j b ph ≠ w := by
  intro he
  have := get_setJob w0 j b ph ⟨b, ph0⟩ (by rw [hw]; exact h) j
  rw [he, h] at this
  simp only [if_true, Option.some.injEq, Job.mk.injEq, true_and] at this
  exact hne this.symm

theorem set_kid_ne {ks : List KidSt} {i : Nat} {x y : KidSt} (h : ks[i]? = some x) (hxy : y ≠ x) : ks.set i y ≠ ks := by
  intro he
  have hl : i < ks.length := (List.getElem?_eq_some_iff.mp h).1
  have : (ks.set i y)[i]? = some y := by simp [hl]
  rw [he, h] at this
  simp only [Option.some.injEq] at this
  exact hxy this.symm

theorem progress {kids : Nat → List Nat} {n : Nat} {st0 : Nat → St} {w : World} (hI : Inv kids n st0 w) (h : ¬ AllOver w) :
    ∃ e, w.step kids e ≠ w := by
  obtain ⟨j, ⟨b, ph⟩, hj, hno, hlater⟩ := not_over h
  cases ph with
  | over ok => exact absurd rfl (hno ok)
  | halting =>
    refine ⟨.halt j true, ?_⟩
    simp only [World.step, hj, if_true]
    exact set_ne hj rfl (by simp)
  | due =>
    refine ⟨.begin j, ?_⟩
    simp only [World.step, hj]
    split
    · intro he
      have h1 := congrArg (fun w => w.began.length) he
      simp [World.setJob, World.put] at h1
    · exact set_ne (w0 := w.put b _) hj rfl (by simp)
  | running own ks =>
    cases own with
    | none =>
      refine ⟨.own j true, ?_⟩
      simp only [World.step, hj]
      exact set_ne hj rfl (by simp)
    | some o =>
      by_cases hall : ks.all KidSt.isOver = true
      · refine ⟨.finish j, ?_⟩
        simp only [World.step, hj, Option.isSome_some, hall, Bool.and_self, if_true]
        split
        · exact set_ne (w0 := w.put b _) hj rfl (by simp)
        · exact set_ne (w0 := w.put b _) hj rfl (by simp)
      · simp only [List.all_eq_true, Classical.not_forall] at hall
        obtain ⟨x, hx, hxo⟩ := hall
        obtain ⟨i, hi⟩ := List.mem_iff_getElem?.mp hx
        have hil : i < (kids b).length := by
          rw [← hI.len j b _ ks hj]
          exact (List.getElem?_eq_some_iff.mp hi).1
        have hc : (kids b)[i]? = some (kids b)[i] := List.getElem?_eq_getElem hil
        refine ⟨.kid j i, ?_⟩
        cases x with
        | over ok => simp [KidSt.isOver] at hxo
        | idle =>
          simp only [World.step, hj, World.kid, hi, hc]
          refine set_ne hj rfl ?_
          intro he
          simp only [Phase.running.injEq, true_and] at he
          exact set_kid_ne hi (by split <;> simp) he
        | seen =>
          simp only [World.step, hj, World.kid, hi, hc]
          split
          · intro he
            have h1 := congrArg (fun w => w.jobs.length) he
            simp [World.setJob] at h1
          · refine set_ne hj rfl ?_
            intro he
            simp only [Phase.running.injEq, true_and] at he
            exact set_kid_ne hi (by simp) he
        | waiting k =>
          obtain ⟨h1, h2⟩ := hI.wait j b i k _ ks hj hi
          have hk : w.jobs[k]? = some w.jobs[k] := List.getElem?_eq_getElem h2
          obtain ⟨ok, hok⟩ := hlater k _ h1.1 hk
          have hk' : w.jobs[k]? = some ⟨w.jobs[k].blk, .over ok⟩ := by rw [hk, ← hok]
          simp only [World.step, hj, World.kid, hi, hc, hk']
          refine set_ne hj rfl ?_
          intro he
          simp only [Phase.running.injEq, true_and] at he
          exact set_kid_ne hi (by simp) he

/-- The work that `disable` of a block may come to, itself and through its children -/
def cost (kids : Nat → List Nat) : Nat → Nat → Nat
  | 0, _ => 0
  | f + 1, b => 3 + ((kids b).map fun c => 3 + cost kids f c).sum

theorem cost_enough {kids : Nat → List Nat} {rank : Nat → Nat} (hr : ∀ b, ∀ c ∈ kids b, rank c < rank b) (r : Nat) :
    ∀ b f g, rank b ≤ r → rank b < f → rank b < g → cost kids f b = cost kids g b := by
  induction r with
  | zero =>
    intro b f g hb hf hg
    obtain ⟨f, rfl⟩ : ∃ m, f = m + 1 := ⟨f - 1, by omega⟩
    obtain ⟨g, rfl⟩ : ∃ m, g = m + 1 := ⟨g - 1, by omega⟩
    have : kids b = [] := List.eq_nil_iff_forall_not_mem.mpr fun c hc => by have := hr b c hc; omega
    simp [cost, this]
  | succ r ih =>
    intro b f g hb hf hg
    obtain ⟨f, rfl⟩ : ∃ m, f = m + 1 := ⟨f - 1, by omega⟩
    obtain ⟨g, rfl⟩ : ∃ m, g = m + 1 := ⟨g - 1, by omega⟩
    simp only [cost]
    congr 2
    refine List.map_congr_left ?_
    intro c hc
    have := hr b c hc
    rw [ih c f g (by omega) (by omega) (by omega)]

theorem exists_cost {kids : Nat → List Nat} (ha : Acyclic kids) :
    ∃ W : Nat → Nat, ∀ b, W b = 3 + ((kids b).map fun c => 3 + W c).sum := by
  obtain ⟨rank, hr⟩ := ha
  refine ⟨fun b => cost kids (rank b + 1) b, ?_⟩
  intro b
  simp only [cost]
  congr 2
  refine List.map_congr_left ?_
  intro c hc
  have := hr b c hc
  congr 1
  rw [← cost.eq_2]
  exact cost_enough hr (rank c) c _ _ (Nat.le_refl _) (by omega) (by omega)

/-- The work left for a ChildPart -/
def kidLeft (W : Nat → Nat) : KidSt × Nat → Nat
  | (.idle, c) => 3 + W c
  | (.seen, c) => 2 + W c
  | (.waiting _, _) => 1
  | (.over _, _) => 0

/-- The work left in a call -/
def jobLeft (kids : Nat → List Nat) (W : Nat → Nat) (x : Job) : Nat :=
  match x.ph with
  | .halting => 1 + W x.blk
  | .due => W x.blk
  | .running own ks => (if own.isSome then 1 else 2) + ((ks.zip (kids x.blk)).map (kidLeft W)).sum
  | .over _ => 0

def left (kids : Nat → List Nat) (W : Nat → Nat) (w : World) : Nat := (w.jobs.map (jobLeft kids W)).sum

theorem sum_set (f : α → Nat) (l : List α) (i : Nat) (x y : α) (h : l[i]? = some x) :
    ((l.set i y).map f).sum + f x = (l.map f).sum + f y := by
  induction l generalizing i with
  | nil => simp at h
  | cons a l ih =>
    cases i with
    | zero =>
      simp only [List.getElem?_cons_zero, Option.some.injEq] at h
      subst h
      simp only [List.set_cons_zero, List.map_cons, List.sum_cons]
      omega
    | succ i =>
      simp only [List.getElem?_cons_succ] at h
      have := ih i h
      simp only [List.set_cons_succ, List.map_cons, List.sum_cons]
      omega

theorem zip_set (ks : List KidSt) (cs : List Nat) (i : Nat) (x : KidSt) (c : Nat) (hc : cs[i]? = some c) :
    (ks.set i x).zip cs = (ks.zip cs).set i (x, c) := by
  induction ks generalizing i cs with
  | nil => simp
  | cons k ks ih =>
    cases cs with
    | nil => simp at hc
    | cons d cs =>
      cases i with
      | zero =>
        simp only [List.getElem?_cons_zero, Option.some.injEq] at hc
        simp [hc]
      | succ i => simp [ih cs i (by simpa using hc)]

theorem left_set (kids : Nat → List Nat) (W : Nat → Nat) (w : World) (j b : Nat) (ph0 ph : Phase) (h : w.jobs[j]? = some ⟨b, ph0⟩) :
    left kids W (w.setJob j b ph) + jobLeft kids W ⟨b, ph0⟩ = left kids W w + jobLeft kids W ⟨b, ph⟩ :=
  sum_set (jobLeft kids W) w.jobs j ⟨b, ph0⟩ ⟨b, ph⟩ h

theorem left_put (kids : Nat → List Nat) (W : Nat → Nat) (w : World) (b : Nat) (s : St) : left kids W (w.put b s) = left kids W w := rfl

theorem left_kid (kids : Nat → List Nat) (W : Nat → Nat) (b i c : Nat) (own : Option Bool) (ks : List KidSt) (x y : KidSt)
    (hi : ks[i]? = some x) (hc : (kids b)[i]? = some c) :
    jobLeft kids W ⟨b, .running own (ks.set i y)⟩ + kidLeft W (x, c) = jobLeft kids W ⟨b, .running own ks⟩ + kidLeft W (y, c) := by
  have hz : (ks.zip (kids b))[i]? = some (x, c) := List.getElem?_zip_eq_some.mpr ⟨hi, hc⟩
  have := sum_set (kidLeft W) (ks.zip (kids b)) i (x, c) (y, c) hz
  simp only [jobLeft]
  rw [zip_set ks (kids b) i y c hc]
  omega

theorem fresh_left (kids : Nat → List Nat) (W : Nat → Nat) (cs : List Nat) :
    (((cs.map fun _ => KidSt.idle).zip cs).map (kidLeft W)).sum = (cs.map fun c => 3 + W c).sum := by
  induction cs with
  | nil => rfl
  | cons c cs ih =>
    simp only [List.map_cons, List.zip_cons_cons, List.sum_cons, ih]
    rfl

theorem step_left {kids : Nat → List Nat} {n : Nat} {st0 : Nat → St} {W : Nat → Nat} (hW : ∀ b, W b = 3 + ((kids b).map fun c => 3 + W c).sum)
    {w w' : World} {e : Ev} (hI : Inv kids n st0 w) (hc : Change kids w e w') : w' = w ∨ left kids W w' < left kids W w := by
  have hkc : ∀ (j b i : Nat) own ks x, w.jobs[j]? = some ⟨b, .running own ks⟩ → ks[i]? = some x → ∃ c, (kids b)[i]? = some c := by
    intro j b i own ks x hj hi
    have hil : i < (kids b).length := by
      rw [← hI.len j b _ ks hj]
      exact (List.getElem?_eq_some_iff.mp hi).1
    exact ⟨_, List.getElem?_eq_getElem hil⟩
  cases hc with
  | none => exact .inl rfl
  | halt j b ok h =>
    have h1 := left_set kids W w j b _ (if ok then .due else .over false) h
    right
    cases ok <;> simp [jobLeft] at h1 ⊢ <;> omega
  | begin j b h ha =>
    have h1 := left_set kids W (w.put b .disabling) j b _ (.running none ((kids b).map fun _ => .idle)) h
    rw [left_put] at h1
    right
    have h3 := fresh_left kids W (kids b)
    simp only [jobLeft, Option.isSome_none, Bool.false_eq_true, if_false] at h1
    have := hW b
    show left kids W ((w.put b .disabling).setJob j b _) < _
    omega
  | refused j b h ha =>
    have h1 := left_set kids W (w.put b (w.st b).error) j b _ (.over false) h
    rw [left_put] at h1
    right
    simp only [jobLeft] at h1
    have := hW b
    omega
  | own j b ok ks h =>
    have h1 := left_set kids W w j b _ (.running (some ok) ks) h
    right
    simp only [jobLeft, Option.isSome_none, Option.isSome_some, Bool.false_eq_true, if_false, if_true] at h1
    omega
  | look j b i c own ks h hi hc =>
    have h1 := left_set kids W w j b _ (.running own (ks.set i (if (w.st c).writeable then .seen else .over true))) h
    have h2 := left_kid kids W b i c own ks _ (if (w.st c).writeable then .seen else .over true) hi hc
    right
    cases hw : (w.st c).writeable <;> simp only [hw, if_true, if_false, Bool.false_eq_true, kidLeft] at h1 h2 ⊢ <;> omega
  | post j b i c own ks h hi hc hw =>
    have h1 := left_set kids W w j b _ (.running own (ks.set i (.waiting w.jobs.length))) h
    have h2 := left_kid kids W b i c own ks _ (.waiting w.jobs.length) hi hc
    right
    have h3 : left kids W ({ (w.setJob j b (.running own (ks.set i (.waiting w.jobs.length)))) with
        jobs := (w.setJob j b (.running own (ks.set i (.waiting w.jobs.length)))).jobs ++ [⟨c, .due⟩] })
        = left kids W (w.setJob j b (.running own (ks.set i (.waiting w.jobs.length)))) + W c := by
      simp [left, jobLeft]
    rw [h3]
    simp only [kidLeft] at h2
    omega
  | late j b i c own ks h hi hc hw =>
    have h1 := left_set kids W w j b _ (.running own (ks.set i (.over false))) h
    have h2 := left_kid kids W b i c own ks _ (.over false) hi hc
    right
    simp only [kidLeft] at h2
    omega
  | got j b i k d ok own ks h hi hk =>
    obtain ⟨c, hc⟩ := hkc j b i own ks _ h hi
    have h1 := left_set kids W w j b _ (.running own (ks.set i (.over ok))) h
    have h2 := left_kid kids W b i c own ks _ (.over ok) hi hc
    right
    simp only [kidLeft] at h2
    omega
  | gave j b i k own ks h hi hb =>
    obtain ⟨c, hc⟩ := hkc j b i own ks _ h hi
    have h1 := left_set kids W w j b _ (.running own (ks.set i (.over false))) h
    have h2 := left_kid kids W b i c own ks _ (.over false) hi hc
    right
    simp only [kidLeft] at h2
    omega
  | done j b own ks h ho =>
    have h1 := left_set kids W (w.put b .disabled) j b _ (.over true) h
    rw [left_put] at h1
    right
    simp only [jobLeft, ho, if_true] at h1
    omega
  | failed j b own ks h ho =>
    have h1 := left_set kids W (w.put b (w.st b).error) j b _ (.over false) h
    rw [left_put] at h1
    right
    simp only [jobLeft, ho, if_true] at h1
    omega

theorem run_left {kids : Nat → List Nat} {n : Nat} {st0 : Nat → St} {W : Nat → Nat} (hW : ∀ b, W b = 3 + ((kids b).map fun c => 3 + W c).sum)
    (es : List Ev) {w : World} (hI : Inv kids n st0 w) (he : Effective kids w es) : es.length ≤ left kids W w := by
  induction es generalizing w with
  | nil => simp
  | cons e es ih =>
    have hc := step_change kids w e
    have := ih (step_inv hI hc) he.2
    rcases step_left hW hI hc with h | h
    · exact absurd h he.1
    · simp only [List.length_cons]
      omega

/-! ### Children first -/

/-- What holds if no ChildPart looks at its block before that has halted, and nothing raises -/
def Good (st0 : Nat → St) (w : World) (j : Nat) : Phase → Prop
  | .halting => w.st j = st0 j ∧ j ∉ w.began
  | .due => w.st j = st0 j ∧ j ∉ w.began
  | .running own ks => st0 j ≠ .disabled ∧ w.st j = .disabling ∧ own ≠ some false ∧ (∀ x ∈ ks, x = .idle ∨ x = .over true) ∧ w.began.count j = 1
  | .over ok => w.st j = .disabled ∧ (ok = true ↔ st0 j ≠ .disabled) ∧ w.began.count j = if st0 j = .disabled then 0 else 1

structure Turn (n : Nat) (st0 : Nat → St) (w : World) : Prop where
  len : w.jobs.length = n
  good : ∀ j, j < n → ∃ ph, w.jobs[j]? = some ⟨j, ph⟩ ∧ Good st0 w j ph

theorem start_turn (st0 : Nat → St) (n : Nat) : Turn n st0 (World.start st0 n) := by
  refine ⟨by simp [World.start], ?_⟩
  intro j hj
  exact ⟨.halting, by simp [World.start, hj], by simp [Good, World.start]⟩

theorem good_other {st0 : Nat → St} {w w' : World} {j : Nat} {ph : Phase} (h : Good st0 w j ph) (hs : w'.st j = w.st j)
    (hb : w'.began.count j = w.began.count j) : Good st0 w' j ph := by
  have hm : j ∈ w'.began ↔ j ∈ w.began := by
    rw [← List.count_pos_iff, ← List.count_pos_iff, hb]
  cases ph <;> simp only [Good, hs, hb, hm] at h ⊢ <;> exact h

theorem turn_set {n : Nat} {st0 : Nat → St} {w w0 : World} {j : Nat} {ph0 ph : Phase} (hT : Turn n st0 w) (h : w.jobs[j]? = some ⟨j, ph0⟩)
    (hw : w0.jobs = w.jobs.set j ⟨j, ph⟩) (hg : Good st0 w0 j ph) (hs : ∀ k, k ≠ j → w0.st k = w.st k)
    (hb : ∀ k, k ≠ j → w0.began.count k = w.began.count k) : Turn n st0 w0 := by
  have hl : j < w.jobs.length := (List.getElem?_eq_some_iff.mp h).1
  refine ⟨by rw [hw, List.length_set, hT.len], ?_⟩
  intro k hk
  by_cases hkj : k = j
  · subst hkj
    exact ⟨ph, by rw [hw]; simp [hl], hg⟩
  · obtain ⟨p, h1, h2⟩ := hT.good k hk
    exact ⟨p, by rw [hw, List.getElem?_set_ne (Ne.symm hkj)]; exact h1, good_other h2 (hs k hkj) (hb k hkj)⟩

theorem step_turn {kids : Nat → List Nat} {n : Nat} {st0 : Nat → St} (hs0 : ∀ b, Settled (st0 b)) {w w' : World} {e : Ev} (hT : Turn n st0 w)
    (hf : ∀ j, e ≠ .halt j false ∧ e ≠ .own j false)
    (hfirst : ∀ j i x c, e = .kid j i → w.jobs[j]? = some x → (kids x.blk)[i]? = some c → HaltOver w c)
    (hc : Change kids w e w') : Turn n st0 w' := by
  have blk : ∀ (j b : Nat) ph, w.jobs[j]? = some ⟨b, ph⟩ → b = j ∧ Good st0 w j ph := by
    intro j b ph h
    have hl : j < w.jobs.length := (List.getElem?_eq_some_iff.mp h).1
    obtain ⟨p, h1, h2⟩ := hT.good j (by rw [← hT.len]; exact hl)
    rw [h] at h1
    simp only [Option.some.injEq, Job.mk.injEq] at h1
    obtain ⟨rfl, rfl⟩ := h1
    exact ⟨rfl, h2⟩
  have stk : ∀ (b : Nat) s k, k ≠ b → (w.put b s).st k = w.st k := by
    intro b s k h
    simp [World.put, h]
  cases hc with
  | none => exact hT
  | halt j b ok h =>
    obtain ⟨rfl, hg⟩ := blk j b _ h
    cases ok with
    | false => exact absurd rfl (hf b).1
    | true => exact turn_set hT h rfl (by simpa [Good, World.setJob] using hg) (fun _ _ => rfl) (fun _ _ => rfl)
  | begin j b h ha =>
    obtain ⟨rfl, hg⟩ := blk j b _ h
    simp only [Good] at hg
    have hnd : st0 b ≠ .disabled := by
      intro h0
      rw [hg.1, h0] at ha
      exact absurd ha (by decide)
    refine turn_set (w := w) (ph := .running none ((kids b).map fun _ => .idle)) hT h rfl ?_ (fun k hk => stk b _ k hk) ?_
    · refine ⟨hnd, by simp [World.setJob, World.put], by simp, by simp, ?_⟩
      simp [List.count_eq_zero.mpr hg.2]
    · intro k hk
      simp [List.count_append, List.count_cons, Ne.symm hk]
  | refused j b h ha =>
    obtain ⟨rfl, hg⟩ := blk j b _ h
    simp only [Good] at hg
    have hd : st0 b = .disabled := by
      have := hs0 b
      rw [hg.1] at ha
      revert ha this
      cases st0 b <;> simp [St.allowed, Settled]
    refine turn_set (w := w) (ph := .over false) hT h rfl ?_ (fun k hk => stk b _ k hk) (fun _ _ => rfl)
    refine ⟨?_, by simp [hd], ?_⟩
    · simp only [World.setJob, World.put, if_true, hg.1, hd]
      rfl
    · simpa [hd, World.setJob, World.put, List.count_eq_zero] using hg.2
  | own j b ok ks h =>
    obtain ⟨rfl, hg⟩ := blk j b _ h
    cases ok with
    | false => exact absurd rfl (hf b).2
    | true =>
      simp only [Good] at hg
      exact turn_set (w := w) hT h rfl ⟨hg.1, hg.2.1, by simp, hg.2.2.2.1, hg.2.2.2.2⟩ (fun _ _ => rfl) (fun _ _ => rfl)
  | look j b i c own ks h hi hc =>
    obtain ⟨rfl, hg⟩ := blk j b _ h
    simp only [Good] at hg
    obtain ⟨x, hx, ok, hok⟩ := hfirst b i _ c rfl h hc
    obtain ⟨d, ph⟩ := x
    simp only at hok
    subst hok
    have hgc := (blk c d _ hx).2
    simp only [Good] at hgc
    have hwr : (w.st c).writeable = false := by rw [hgc.1]; rfl
    refine turn_set (w := w) hT h rfl ⟨hg.1, hg.2.1, hg.2.2.1, ?_, hg.2.2.2.2⟩ (fun _ _ => rfl) (fun _ _ => rfl)
    intro y hy
    rcases List.mem_or_eq_of_mem_set hy with hy | hy
    · exact hg.2.2.2.1 y hy
    · simp [hwr] at hy
      exact .inr hy
  | post j b i c own ks h hi hc hw =>
    obtain ⟨rfl, hg⟩ := blk j b _ h
    simp only [Good] at hg
    have := hg.2.2.2.1 _ (List.mem_of_getElem? hi)
    simp at this
  | late j b i c own ks h hi hc hw =>
    obtain ⟨rfl, hg⟩ := blk j b _ h
    simp only [Good] at hg
    have := hg.2.2.2.1 _ (List.mem_of_getElem? hi)
    simp at this
  | got j b i k d ok own ks h hi hk =>
    obtain ⟨rfl, hg⟩ := blk j b _ h
    simp only [Good] at hg
    have := hg.2.2.2.1 _ (List.mem_of_getElem? hi)
    simp at this
  | gave j b i k own ks h hi hb =>
    obtain ⟨rfl, hg⟩ := blk j b _ h
    simp only [Good] at hg
    have := hg.2.2.2.1 _ (List.mem_of_getElem? hi)
    simp at this
  | done j b own ks h ho hk hb ha =>
    obtain ⟨rfl, hg⟩ := blk j b _ h
    simp only [Good] at hg
    refine turn_set (w := w) (ph := .over true) hT h rfl ?_ (fun k hk => stk b _ k hk) (fun _ _ => rfl)
    refine ⟨by simp [World.setJob, World.put], by simp [hg.1], ?_⟩
    simpa [hg.1, World.setJob, World.put] using hg.2.2.2.2
  | failed j b own ks h ho hk hb =>
    obtain ⟨rfl, hg⟩ := blk j b _ h
    simp only [Good] at hg
    rcases hb with hb | hb
    · simp only [bad, Bool.or_eq_true, beq_iff_eq, List.contains_iff_mem] at hb
      rcases hb with hb | hb
      · exact absurd hb hg.2.2.1
      · have := hg.2.2.2.1 _ hb
        simp at this
    · rw [hg.2.1] at hb
      exact absurd hb (by decide)

theorem run_turn {kids : Nat → List Nat} {n : Nat} {st0 : Nat → St} (hs0 : ∀ b, Settled (st0 b)) (es : List Ev) {w : World} (hT : Turn n st0 w)
    (hf : NoFailure es) (hfirst : ChildrenFirst kids w es) : Turn n st0 (w.run kids es) := by
  induction es generalizing w with
  | nil => exact hT
  | cons e es ih =>
    refine ih (step_turn hs0 hT ?_ hfirst.1 (step_change kids w e)) ?_ hfirst.2
    · intro j
      have := hf j
      simp only [List.mem_cons, not_or] at this
      exact ⟨Ne.symm this.1.1, Ne.symm this.2.1⟩
    · intro j
      have := hf j
      simp only [List.mem_cons, not_or] at this
      exact ⟨this.1.2, this.2.2⟩

/-! ### Nobody overtaken -/

/-- What holds if nobody is overtaken and nothing raises -/
structure Sep (n : Nat) (st0 : Nat → St) (w : World) : Prop where
  le : n ≤ w.jobs.length
  st : ∀ b, (w.st b = st0 b ∧ w.began.count b = 0) ∨ ((w.st b = .disabling ∨ w.st b = .disabled) ∧ w.began.count b = 1)
  run : ∀ (j b : Nat) own ks, w.jobs[j]? = some ⟨b, .running own ks⟩ → w.st b = .disabling ∧ own ≠ some false ∧ KidSt.over false ∉ ks
  one : ∀ (j k b : Nat) own ks own' ks', w.jobs[j]? = some ⟨b, .running own ks⟩ → w.jobs[k]? = some ⟨b, .running own' ks'⟩ → j = k
  over : ∀ (j b : Nat) ok, n ≤ j → w.jobs[j]? = some ⟨b, .over ok⟩ → ok = true

theorem start_sep (st0 : Nat → St) (n : Nat) : Sep n st0 (World.start st0 n) := by
  have hr : ∀ (j b : Nat) ph, (World.start st0 n).jobs[j]? = some ⟨b, ph⟩ → ph = .halting := by
    intro j b ph h
    simp only [World.start, List.getElem?_map, Option.map_eq_some_iff] at h
    obtain ⟨a, -, h⟩ := h
    simp only [Job.mk.injEq] at h
    exact h.2.symm
  refine ⟨by simp [World.start], ?_, ?_, ?_, ?_⟩
  · intro b
    exact .inl ⟨rfl, rfl⟩
  · intro j b own ks h
    exact absurd (hr j b _ h) (by simp)
  · intro j k b own ks own' ks' h
    exact absurd (hr j b _ h) (by simp)
  · intro j b ok _ h
    exact absurd (hr j b _ h) (by simp)

theorem sep_set {n : Nat} {st0 : Nat → St} {w : World} {j b : Nat} {own own' : Option Bool} {ks ks' : List KidSt} (hS : Sep n st0 w)
    (h : w.jobs[j]? = some ⟨b, .running own ks⟩) (ho : own' ≠ some false) (hk : KidSt.over false ∉ ks') :
    Sep n st0 (w.setJob j b (.running own' ks')) := by
  have hg := get_setJob w j b (.running own' ks') _ h
  have old : ∀ (k d : Nat) o s, (w.setJob j b (.running own' ks')).jobs[k]? = some ⟨d, .running o s⟩ → ∃ o0 s0, w.jobs[k]? = some ⟨d, .running o0 s0⟩ := by
    intro k d o s hk'
    rw [hg] at hk'
    by_cases hkj : k = j
    · simp only [hkj, if_true, Option.some.injEq, Job.mk.injEq] at hk'
      rw [hkj, ← hk'.1]
      exact ⟨_, _, h⟩
    · simp only [hkj, if_false] at hk'
      exact ⟨_, _, hk'⟩
  refine ⟨by simpa [World.setJob] using hS.le, hS.st, ?_, ?_, ?_⟩
  · intro k d o s hk'
    rw [hg] at hk'
    by_cases hkj : k = j
    · simp only [hkj, if_true, Option.some.injEq, Job.mk.injEq, Phase.running.injEq] at hk'
      rw [← hk'.1, ← hk'.2.1, ← hk'.2.2]
      exact ⟨(hS.run j b own ks h).1, ho, hk⟩
    · simp only [hkj, if_false] at hk'
      exact hS.run k d o s hk'
  · intro k m d o s o' s' h1 h2
    obtain ⟨_, _, h1⟩ := old k d o s h1
    obtain ⟨_, _, h2⟩ := old m d o' s' h2
    exact hS.one k m d _ _ _ _ h1 h2
  · intro k d ok hn hk'
    rw [hg] at hk'
    by_cases hkj : k = j
    · simp [hkj] at hk'
    · simp only [hkj, if_false] at hk'
      exact hS.over k d ok hn hk'

theorem set_not_mem {ks : List KidSt} {i : Nat} {x : KidSt} (h : KidSt.over false ∉ ks) (hx : x ≠ .over false) : KidSt.over false ∉ ks.set i x := by
  intro hm
  rcases List.mem_or_eq_of_mem_set hm with hm | hm
  · exact h hm
  · exact hx hm.symm

theorem step_sep {kids : Nat → List Nat} {n : Nat} {st0 : Nat → St} (hs0 : ∀ b, Settled (st0 b)) {w w' : World} {e : Ev} (hI : Inv kids n st0 w)
    (hS : Sep n st0 w) (hf : ∀ j, e ≠ .halt j false ∧ e ≠ .own j false)
    (hb : ∀ j x, e = .begin j → w.jobs[j]? = some x → x.ph = .due → w.st x.blk ≠ .disabling ∧ (n ≤ j → w.st x.blk ≠ .disabled))
    (hseen : ∀ (j i b c : Nat) own ks, e = .kid j i → w.jobs[j]? = some ⟨b, .running own ks⟩ → ks[i]? = some .seen → (kids b)[i]? = some c →
          w.st c ≠ .disabling ∧ w.st c ≠ .disabled)
    (hc : Change kids w e w') : Sep n st0 w' := by
  cases hc with
  | none => exact hS
  | halt j b ok h =>
    cases ok with
    | false => exact absurd rfl (hf j).1
    | true =>
      have hg := get_setJob w j b .due _ h
      have old : ∀ (k d : Nat) ph, ph ≠ .due → (w.setJob j b .due).jobs[k]? = some ⟨d, ph⟩ → w.jobs[k]? = some ⟨d, ph⟩ := by
        intro k d ph hph hk
        rw [hg] at hk
        by_cases hkj : k = j
        · simp only [hkj, if_true, Option.some.injEq, Job.mk.injEq] at hk
          exact absurd hk.2.symm hph
        · simpa [hkj] using hk
      simp only [if_true]
      refine ⟨by simpa [World.setJob] using hS.le, hS.st, ?_, ?_, ?_⟩
      · intro k d o s hk
        exact hS.run k d o s (old k d _ (by simp) hk)
      · intro k m d o s o' s' h1 h2
        exact hS.one k m d o s o' s' (old k d _ (by simp) h1) (old m d _ (by simp) h2)
      · intro k d ok hn hk
        exact hS.over k d ok hn (old k d _ (by simp) hk)
  | own j b ok ks h =>
    cases ok with
    | false => exact absurd rfl (hf j).2
    | true => exact sep_set hS h (by simp) (hS.run j b _ _ h).2.2
  | look j b i c own ks h hi hc =>
    exact sep_set hS h (hS.run j b _ _ h).2.1 (set_not_mem (hS.run j b _ _ h).2.2 (by split <;> simp))
  | late j b i c own ks h hi hc hw =>
    have := hseen j i b c own ks rfl h hi hc
    revert hw this
    cases w.st c <;> simp [St.writeable]
  | got j b i k d ok own ks h hi hk =>
    have hkn := (hI.wait j b i k own ks h hi).1.2
    have := hS.over k d ok hkn hk
    subst this
    exact sep_set hS h (hS.run j b _ _ h).2.1 (set_not_mem (hS.run j b _ _ h).2.2 (by simp))
  | gave j b i k own ks h hi hbad =>
    have h1 := hS.run j b _ _ h
    simp only [bad, Bool.or_eq_true, beq_iff_eq, List.contains_iff_mem] at hbad
    rcases hbad with hbad | hbad
    · exact absurd hbad h1.2.1
    · exact absurd hbad h1.2.2
  | failed j b own ks h ho hk hbad =>
    have h1 := hS.run j b _ _ h
    rcases hbad with hbad | hbad
    · simp only [bad, Bool.or_eq_true, beq_iff_eq, List.contains_iff_mem] at hbad
      rcases hbad with hbad | hbad
      · exact absurd hbad h1.2.1
      · exact absurd hbad h1.2.2
    · rw [h1.1] at hbad
      exact absurd hbad (by decide)
  | refused j b h ha =>
    have h1 := hb j _ rfl h rfl
    simp only at h1
    have hd : w.st b = .disabled := by
      revert ha h1
      cases w.st b <;> simp [St.allowed]
    have hjn : ¬ n ≤ j := fun hn => h1.2 hn hd
    have hg := get_setJob (w.put b (w.st b).error) j b (.over false) _ h
    have hst : ∀ c, ((w.put b (w.st b).error).setJob j b (.over false)).st c = w.st c := by
      intro c
      simp only [World.setJob, World.put]
      split
      · next hcb =>
        rw [hcb, hd]
        rfl
      · rfl
    have old : ∀ (k d : Nat) ph, ph ≠ .over false → ((w.put b (w.st b).error).setJob j b (.over false)).jobs[k]? = some ⟨d, ph⟩ → w.jobs[k]? = some ⟨d, ph⟩ := by
      intro k d ph hph hk
      rw [hg] at hk
      by_cases hkj : k = j
      · simp only [hkj, if_true, Option.some.injEq, Job.mk.injEq] at hk
        exact absurd hk.2.symm hph
      · simp only [hkj, if_false] at hk
        exact hk
    refine ⟨by simpa [World.setJob, World.put] using hS.le, ?_, ?_, ?_, ?_⟩
    · intro c
      rw [hst]
      exact hS.st c
    · intro k d o s hk
      rw [hst]
      exact hS.run k d o s (old k d _ (by simp) hk)
    · intro k m d o s o' s' h1 h2
      exact hS.one k m d o s o' s' (old k d _ (by simp) h1) (old m d _ (by simp) h2)
    · intro k d ok hn hk
      have hkj : k ≠ j := by
        intro hkj
        exact hjn (hkj ▸ hn)
      rw [hg] at hk
      simp only [hkj, if_false] at hk
      exact hS.over k d ok hn hk
  | done j b own ks h ho hk hbad ha =>
    have h1 := hS.run j b _ _ h
    have hg := get_setJob (w.put b .disabled) j b (.over true) _ h
    have hst : ∀ c, ((w.put b .disabled).setJob j b (.over true)).st c = if c = b then .disabled else w.st c := fun _ => rfl
    have old : ∀ (k d : Nat) o s, ((w.put b .disabled).setJob j b (.over true)).jobs[k]? = some ⟨d, .running o s⟩ →
        k ≠ j ∧ w.jobs[k]? = some ⟨d, .running o s⟩ := by
      intro k d o s hk
      rw [hg] at hk
      by_cases hkj : k = j
      · simp [hkj] at hk
      · simp only [hkj, if_false] at hk
        exact ⟨hkj, hk⟩
    refine ⟨by simpa [World.setJob, World.put] using hS.le, ?_, ?_, ?_, ?_⟩
    · intro c
      rw [hst]
      by_cases hcb : c = b
      · subst hcb
        rcases hS.st c with h2 | h2
        · rw [h1.1] at h2
          exact absurd h2.1.symm (hs0 c)
        · exact .inr ⟨by simp, h2.2⟩
      · simp only [hcb, if_false]
        exact hS.st c
    · intro k d o s hk0
      obtain ⟨hkj, hk1⟩ := old k d o s hk0
      have hdb : d ≠ b := by
        intro hdb
        rw [hdb] at hk1
        exact hkj (hS.one k j b _ _ _ _ hk1 h)
      rw [hst]
      simp only [hdb, if_false]
      exact hS.run k d o s hk1
    · intro k m d o s o' s' h2 h3
      exact hS.one k m d o s o' s' (old k d _ _ h2).2 (old m d _ _ h3).2
    · intro k d ok hn hk
      rw [hg] at hk
      by_cases hkj : k = j
      · simp only [hkj, if_true, Option.some.injEq, Job.mk.injEq, Phase.over.injEq] at hk
        exact hk.2.symm
      · simp only [hkj, if_false] at hk
        exact hS.over k d ok hn hk
  | begin j b h ha =>
    have hst : ∀ c, (({ ((w.put b .disabling).setJob j b (.running Option.none ((kids b).map fun _ => .idle))) with began := w.began ++ [b] } : World)).st c
      = if c = b then .disabling else w.st c := fun _ => rfl
    have hg : ∀ k, (({ ((w.put b .disabling).setJob j b (.running Option.none ((kids b).map fun _ => .idle))) with began := w.began ++ [b] } : World)).jobs[k]?
      = if k = j then some ⟨b, .running Option.none ((kids b).map fun _ => .idle)⟩ else w.jobs[k]? :=
      fun k => get_setJob (w.put b .disabling) j b _ _ h k
    have hnb : w.st b ≠ .disabling ∧ w.st b ≠ .disabled := by
      revert ha
      cases w.st b <;> simp [St.allowed]
    have hnr : ∀ (k d : Nat) o s, w.jobs[k]? = some ⟨d, .running o s⟩ → d ≠ b := by
      intro k d o s hk hdb
      subst hdb
      exact hnb.1 (hS.run k d o s hk).1
    refine ⟨by simpa [World.setJob, World.put] using hS.le, ?_, ?_, ?_, ?_⟩
    · intro c
      rw [hst]
      simp only [List.count_append]
      by_cases hcb : c = b
      · subst hcb
        rcases hS.st c with h2 | h2
        · exact .inr ⟨by simp, by simp [h2.2]⟩
        · rcases h2.1 with h3 | h3
          · exact absurd h3 hnb.1
          · exact absurd h3 hnb.2
      · have : List.count c [b] = 0 := by simp [Ne.symm hcb]
        simp only [hcb, if_false, this, Nat.add_zero]
        exact hS.st c
    · intro k d o s hk
      rw [hg] at hk
      rw [hst]
      by_cases hkj : k = j
      · simp only [hkj, if_true, Option.some.injEq, Job.mk.injEq, Phase.running.injEq] at hk
        rw [← hk.1, ← hk.2.1, ← hk.2.2]
        simp
      · simp only [hkj, if_false] at hk
        have := hnr k d o s hk
        simp only [this, if_false]
        exact hS.run k d o s hk
    · intro k m d o s o' s' h2 h3
      rw [hg] at h2 h3
      by_cases hkj : k = j
      · by_cases hmj : m = j
        · omega
        · simp only [hkj, hmj, if_true, if_false, Option.some.injEq, Job.mk.injEq] at h2 h3
          exact absurd h2.1.symm (hnr m d o' s' h3)
      · by_cases hmj : m = j
        · simp only [hkj, hmj, if_true, if_false, Option.some.injEq, Job.mk.injEq] at h2 h3
          exact absurd h3.1.symm (hnr k d o s h2)
        · simp only [hkj, hmj, if_false] at h2 h3
          exact hS.one k m d o s o' s' h2 h3
    · intro k d ok hn hk
      rw [hg] at hk
      by_cases hkj : k = j
      · simp [hkj] at hk
      · simp only [hkj, if_false] at hk
        exact hS.over k d ok hn hk
  | post j b i c own ks h hi hc hw =>
    have h1 := hS.run j b _ _ h
    have hS' := sep_set (ks' := ks.set i (.waiting w.jobs.length)) hS h h1.2.1 (set_not_mem h1.2.2 (by simp))
    generalize hw2 : w.setJob j b (.running own (ks.set i (.waiting w.jobs.length))) = w2 at hS'
    have hl : w2.jobs.length = w.jobs.length := by rw [← hw2]; simp [World.setJob]
    have old : ∀ (k d : Nat) ph, ph ≠ .due → (w2.jobs ++ [(⟨c, .due⟩ : Job)])[k]? = some ⟨d, ph⟩ → w2.jobs[k]? = some ⟨d, ph⟩ := by
      intro k d ph hph hk
      by_cases hkl : k < w2.jobs.length
      · rwa [List.getElem?_append_left hkl] at hk
      · rw [List.getElem?_append_right (by omega)] at hk
        cases hm : k - w2.jobs.length with
        | zero =>
          simp [hm] at hk
          exact absurd hk.2.symm hph
        | succ m => simp [hm] at hk
    refine ⟨by simp; have := hS'.le; omega, hS'.st, ?_, ?_, ?_⟩
    · intro k d o s hk
      exact hS'.run k d o s (old k d _ (by simp) hk)
    · intro k m d o s o' s' h2 h3
      exact hS'.one k m d o s o' s' (old k d _ (by simp) h2) (old m d _ (by simp) h3)
    · intro k d ok hn hk
      exact hS'.over k d ok hn (old k d _ (by simp) hk)

theorem run_sep {kids : Nat → List Nat} {n : Nat} {st0 : Nat → St} (hs0 : ∀ b, Settled (st0 b)) (es : List Ev) {w : World} (hI : Inv kids n st0 w)
    (hS : Sep n st0 w) (hf : NoFailure es) (ha : Apart kids n w es) : Sep n st0 (w.run kids es) := by
  induction es generalizing w with
  | nil => exact hS
  | cons e es ih =>
    refine ih (step_inv hI (step_change kids w e)) (step_sep hs0 hI hS ?_ ha.1 ha.2.1 (step_change kids w e)) ?_ ha.2.2
    · intro j
      have := hf j
      simp only [List.mem_cons, not_or] at this
      exact ⟨Ne.symm this.1.1, Ne.symm this.2.1⟩
    · intro j
      have := hf j
      simp only [List.mem_cons, not_or] at this
      exact ⟨this.1.2, this.2.2⟩

end Verif.Proofs.Halt
