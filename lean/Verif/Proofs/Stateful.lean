import Verif.Model.Stateful
import Verif.Proofs.PyDict
import Verif.Proofs.States
/-! Helper lemmas for the stateful controller. -/
set_option linter.unusedSectionVars false
namespace Verif

/-! ### stable sort by severity -/

def SevSorted (l : List Alarm) : Prop :=
  l.Pairwise (fun a b => a.severity.toNat ≤ b.severity.toNat)

theorem mem_insertBySeverity {a x : Alarm} {l : List Alarm} :
    x ∈ insertBySeverity a l ↔ x = a ∨ x ∈ l := by
  induction l with
  | nil => simp [insertBySeverity]
  | cons b l ih =>
    unfold insertBySeverity
    split
    · simp
    · simp only [List.mem_cons, ih]
      constructor
      · rintro (h | h | h) <;> simp [h]
      · rintro (h | h | h) <;> simp [h]

theorem sorted_insertBySeverity {a : Alarm} {l : List Alarm} (h : SevSorted l) :
    SevSorted (insertBySeverity a l) := by
  unfold SevSorted at *
  induction l with
  | nil => simp [insertBySeverity]
  | cons b l ih =>
    rw [List.pairwise_cons] at h
    unfold insertBySeverity
    split
    · rename_i hlt
      rw [List.pairwise_cons]
      refine ⟨?_, List.pairwise_cons.2 h⟩
      intro x hx
      rcases List.mem_cons.1 hx with hx | hx
      · subst hx; omega
      · have := h.1 x hx; omega
    · rename_i hlt
      rw [List.pairwise_cons]
      refine ⟨?_, ih h.2⟩
      intro x hx
      rcases mem_insertBySeverity.1 hx with hx | hx
      · subst hx; omega
      · exact h.1 x hx

theorem sort_foldl (l acc : List Alarm) (h : SevSorted acc) :
    SevSorted (l.foldl (fun acc a => insertBySeverity a acc) acc) ∧
    ∀ x, x ∈ l.foldl (fun acc a => insertBySeverity a acc) acc ↔ x ∈ l ∨ x ∈ acc := by
  induction l generalizing acc with
  | nil => simp [h]
  | cons a l ih =>
    have := ih (insertBySeverity a acc) (sorted_insertBySeverity h)
    refine ⟨this.1, fun x => ?_⟩
    rw [List.foldl_cons, this.2 x, mem_insertBySeverity, List.mem_cons]
    constructor
    · rintro (h | h | h) <;> simp [h]
    · rintro ((h | h) | h) <;> simp [h]

theorem mem_sortBySeverity {l : List Alarm} {x : Alarm} : x ∈ sortBySeverity l ↔ x ∈ l := by
  have := (sort_foldl l [] (by simp [SevSorted])).2 x
  simpa [sortBySeverity] using this

theorem sorted_sortBySeverity (l : List Alarm) : SevSorted (sortBySeverity l) :=
  (sort_foldl l [] (by simp [SevSorted])).1

theorem sevSorted_last_max {l : List Alarm} (h : SevSorted l) {a : Alarm}
    (hl : l.getLast? = some a) : a ∈ l ∧ ∀ b ∈ l, b.severity.toNat ≤ a.severity.toNat := by
  unfold SevSorted at h
  obtain ⟨ys, rfl⟩ := List.getLast?_eq_some_iff.1 hl
  refine ⟨by simp, ?_⟩
  intro b hb
  rcases List.mem_append.1 hb with hb | hb
  · exact (List.pairwise_append.1 h).2.2 b hb a (by simp)
  · simp at hb; subst hb; exact Nat.le_refl _

theorem healthOf_spec {R : Type} (faults : Dict R Alarm) :
    (faults = [] → healthOf faults = ⟨"OK", Alarm.ok⟩) ∧
    (faults ≠ [] → ∃ a, a ∈ Dict.values faults ∧ healthOf faults = ⟨a.message, a⟩ ∧
      ∀ b ∈ Dict.values faults, b.severity.toNat ≤ a.severity.toNat) := by
  constructor
  · rintro rfl; rfl
  · intro hne
    unfold healthOf
    cases hl : (sortBySeverity (Dict.values faults)).getLast? with
    | none =>
      exfalso
      obtain ⟨kv, t, rfl⟩ := List.exists_cons_of_ne_nil hne
      rw [List.getLast?_eq_none_iff] at hl
      have : kv.2 ∈ sortBySeverity (Dict.values (kv :: t)) :=
        mem_sortBySeverity.2 (by simp [Dict.values])
      rw [hl] at this
      simp at this
    | some a =>
      have := sevSorted_last_max (sorted_sortBySeverity _) hl
      exact ⟨a, mem_sortBySeverity.1 this.1, rfl, fun b hb => this.2 b (mem_sortBySeverity.2 hb)⟩

namespace Ctl
variable {F R : Type} [DecidableEq F] [DecidableEq R]

theorem get?_updateFaults {K : Type} [DecidableEq K] {d : Dict K Alarm} (hn : (Dict.keys d).Nodup)
    (r : K) (a : Alarm) (r2 : K) :
    Dict.get? (updateFaults d r a) r2 =
      if r = r2 then (if a.isOk then none else some a) else Dict.get? d r2 := by
  unfold updateFaults
  split
  · rw [Dict.get?_erase hn]
  · rw [Dict.get?_set]

theorem nodup_updateFaults {K : Type} [DecidableEq K] {d : Dict K Alarm}
    (hn : (Dict.keys d).Nodup) (r : K) (a : Alarm) :
    (Dict.keys (updateFaults d r a)).Nodup := by
  unfold updateFaults
  split
  · exact Dict.nodup_erase hn r
  · exact Dict.nodup_set hn r a

/-! ### frame lemmas -/

@[simp] theorem updateHealth_state (c : Ctl F R) (r) (a) : (c.updateHealth r a).state = c.state := rfl
@[simp] theorem updateHealth_ss (c : Ctl F R) (r) (a) : (c.updateHealth r a).ss = c.ss := rfl
@[simp] theorem updateHealth_children (c : Ctl F R) (r) (a) :
    (c.updateHealth r a).children = c.children := rfl
@[simp] theorem updateHealth_writeable (c : Ctl F R) (r) (a) :
    (c.updateHealth r a).writeable = c.writeable := rfl

theorem transition_ss (c : Ctl F R) (s m) : (c.transition s m).1.ss = c.ss := by
  unfold transition
  split
  · rfl
  · rfl
  · dsimp only
    split <;> rfl

theorem setWriteableIn_ss (c : Ctl F R) (f s) : (c.setWriteableIn f s).1.ss = c.ss := by
  unfold setWriteableIn; split <;> rfl

theorem addBlockField_ss (c : Ctl F R) (f h) : (c.addBlockField f h).ss = c.ss := by
  unfold addBlockField; dsimp only; split <;> (try split) <;> rfl

theorem step_ss (c : Ctl F R) (op : Op F R) : (c.step op).ss = c.ss := by
  cases op with
  | setWriteableIn f s => exact setWriteableIn_ss c f s
  | addBlockField f h => exact addBlockField_ss c f h
  | removeField f => rfl
  | transition s m => exact transition_ss c s m
  | report r a => rfl

theorem run_ss (c : Ctl F R) (ops : List (Op F R)) : (c.run ops).ss = c.ss := by
  induction ops generalizing c with
  | nil => rfl
  | cons op ops ih => simp only [run, List.foldl_cons] at *; rw [ih, step_ss]

/-! ### the dictionary of a state -/

/-- What the state dictionaries say about field `f` in state `s`. -/
def mark (children : Dict St (Dict F Bool)) (s : St) (f : F) : Option Bool :=
  Dict.get? ((Dict.get? children s).getD []) f

theorem get?_markStates (children : Dict St (Dict F Bool)) (f : F) (states possible : List St)
    (s : St) :
    Dict.get? (markStates children possible f states) s =
      if s ∈ possible then
        some (Dict.set ((Dict.get? children s).getD []) f (decide (s ∈ states)))
      else Dict.get? children s := by
  unfold markStates
  induction possible generalizing children with
  | nil => simp
  | cons p ps ih =>
    rw [List.foldl_cons, ih]
    by_cases hs : s = p
    · subst hs
      by_cases h2 : s ∈ ps
      · have hself : ∀ (d : Dict F Bool) (b : Bool), Dict.set (Dict.set d f b) f b = Dict.set d f b := by
          intro d b
          induction d with
          | nil => simp [Dict.set]
          | cons kv d ih =>
            obtain ⟨k, v⟩ := kv
            by_cases hk : k = f <;> simp [Dict.set, hk, ih]
        simp [h2, hself]
      · simp [h2]
    · have h3 : ¬ p = s := fun e => hs e.symm
      simp [hs, Dict.get?_set_ne _ _ h3]

theorem mark_markStates (children : Dict St (Dict F Bool)) (f : F) (states possible : List St)
    (s : St) (g : F) :
    mark (markStates children possible f states) s g =
      if s ∈ possible ∧ g = f then some (decide (s ∈ states)) else mark children s g := by
  unfold mark
  rw [get?_markStates]
  by_cases hs : s ∈ possible
  · by_cases hg : g = f
    · subst hg; simp [hs]
    · have : f ≠ g := fun e => hg e.symm
      simp [hs, hg, Dict.get?_set_ne _ _ this]
  · simp [hs]

theorem mem_get?_keys {K V : Type} [DecidableEq K] (d : Dict K V) (k : K) :
    (Dict.get? d k).isSome = true ↔ k ∈ Dict.keys d := Dict.mem_iff

/-- `applyWriteable` sets a marked field to its mark and leaves others alone (the dictionaries have
unique keys). -/
theorem applyWriteable_eq (w : F → Bool) (d : Dict F Bool) (hn : (Dict.keys d).Nodup) (f : F) :
    applyWriteable w d f = (Dict.get? d f).getD (w f) := by
  unfold applyWriteable
  induction d generalizing w with
  | nil => rfl
  | cons kv d ih =>
    obtain ⟨k, b⟩ := kv
    simp only [Dict.keys, List.map_cons, List.nodup_cons] at hn
    rw [List.foldl_cons, ih _ hn.2]
    by_cases hk : k = f
    · subst hk
      rw [Dict.get?_none_iff.2 hn.1]
      simp [Dict.get?]
    · have : ¬ f = k := fun e => hk e.symm
      simp [Dict.get?, hk, this]

/-- All state dictionaries have unique keys. -/
def NodupInv (c : Ctl F R) : Prop :=
  ∀ s d, Dict.get? c.children s = some d → (Dict.keys d).Nodup

/-- Nothing is marked in one state of the set but not in another. -/
def UniformInv (c : Ctl F R) : Prop :=
  ∀ f s s', s ∈ c.ss.possible → s' ∈ c.ss.possible →
    (mark c.children s f).isSome = true → (mark c.children s' f).isSome = true

theorem nodup_markStates {children : Dict St (Dict F Bool)}
    (h : ∀ s d, Dict.get? children s = some d → (Dict.keys d).Nodup) (f : F) (states possible) :
    ∀ s d, Dict.get? (markStates children possible f states) s = some d →
      (Dict.keys d).Nodup := by
  intro s d hd
  rw [get?_markStates] at hd
  split at hd
  · simp only [Option.some.injEq] at hd
    subst hd
    apply Dict.nodup_set
    cases hg : Dict.get? children s with
    | none => simp [Dict.keys]
    | some d' => simpa using h s d' hg
  · exact h s d hd

theorem get?_map_erase (children : Dict St (Dict F Bool)) (f : F) (s : St) :
    Dict.get? (children.map (fun sd => (sd.1, Dict.erase sd.2 f))) s =
      (Dict.get? children s).map (fun d => Dict.erase d f) := by
  induction children with
  | nil => rfl
  | cons kv l ih =>
    obtain ⟨k, d⟩ := kv
    by_cases h : k = s <;> simp [Dict.get?, h, ih]

theorem nodupInv_step (c : Ctl F R) (op : Op F R) (h : c.NodupInv) : (c.step op).NodupInv := by
  cases op with
  | setWriteableIn f states =>
    simp only [step, setWriteableIn]
    split
    · exact nodup_markStates h f states _
    · exact h
  | addBlockField f hf =>
    simp only [step, addBlockField]
    split
    · split
      · exact h
      · exact nodup_markStates h f _ _
    · exact h
  | removeField f =>
    intro s d hd
    simp only [step, removeField, get?_map_erase] at hd
    cases hg : Dict.get? c.children s with
    | none => simp [hg] at hd
    | some d' =>
      simp only [hg, Option.map_some, Option.some.injEq] at hd
      subst hd
      exact Dict.nodup_erase (h s d' hg) f
  | transition s m =>
    simp only [step, transition]
    split
    · exact h
    · exact h
    · split <;> exact h
  | report r a => exact h

theorem nodupInv_run (c : Ctl F R) (ops : List (Op F R)) (h : c.NodupInv) : (c.run ops).NodupInv := by
  induction ops generalizing c with
  | nil => exact h
  | cons op ops ih => exact ih _ (nodupInv_step c op h)

/-- Does an operation change what the state dictionaries say about `f`? -/
def touchesMarks (f : F) : Op F R → Prop
  | .setWriteableIn g _ => g = f
  | .removeField g => g = f
  | _ => False

/-- The marks for `f` are complete: every possible state has one, given by `states`. -/
def Marked (c : Ctl F R) (f : F) (states : List St) : Prop :=
  ∀ s ∈ c.ss.possible, mark c.children s f = some (decide (s ∈ states))

theorem declared_of_marked {c : Ctl F R} {f : F} {states : List St} (h : c.Marked f states)
    (hne : c.ss.possible ≠ []) : c.declared f = true := by
  obtain ⟨s, t, ht⟩ := List.exists_cons_of_ne_nil hne
  unfold declared
  rw [List.any_eq_true]
  have hs : s ∈ c.ss.possible := by rw [ht]; simp
  refine ⟨s, hs, ?_⟩
  have := h s hs
  unfold mark at this
  unfold Dict.mem
  rw [this]; rfl

theorem marked_step {c : Ctl F R} {f : F} {states : List St} (h : c.Marked f states)
    (hne : c.ss.possible ≠ []) (op : Op F R) (ht : ¬ touchesMarks f op) :
    (c.step op).Marked f states := by
  cases op with
  | setWriteableIn g sts =>
    have hg : ¬ f = g := fun e => ht e.symm
    simp only [step, setWriteableIn]
    split
    · intro s hs
      simp only [mark_markStates]
      rw [if_neg (fun hh => hg hh.2)]
      exact h s hs
    · exact h
  | addBlockField g hf =>
    simp only [step, addBlockField]
    split
    · by_cases hg : g = f
      · subst hg
        have : ({ c with writeable := fun g' => if g' = g then true else c.writeable g' } : Ctl F R).declared g
            = true := declared_of_marked (c := { c with writeable := _ }) h hne
        rw [if_pos this]
        exact h
      · split
        · exact h
        · intro s hs
          simp only [mark_markStates]
          rw [if_neg (by rintro ⟨_, e⟩; exact hg e.symm)]
          exact h s hs
    · exact h
  | removeField g =>
    have hg : ¬ g = f := ht
    intro s hs
    simp only [step, removeField] at hs ⊢
    have := h s hs
    unfold mark at this ⊢
    rw [get?_map_erase]
    cases hd : Dict.get? c.children s with
    | none => simp [hd] at this
    | some d =>
      simp only [hd, Option.getD_some, Option.map_some] at this ⊢
      rw [Dict.get?_erase_ne _ hg]
      exact this
  | transition s m =>
    simp only [step, transition]
    split
    · exact h
    · exact h
    · split <;> exact h
  | report r a => exact h

theorem marked_run {c : Ctl F R} {f : F} {states : List St} (h : c.Marked f states)
    (hne : c.ss.possible ≠ []) (ops : List (Op F R)) (ht : ∀ op ∈ ops, ¬ touchesMarks f op) :
    (c.run ops).Marked f states := by
  induction ops generalizing c with
  | nil => exact h
  | cons op ops ih =>
    have h1 := marked_step h hne op (ht op (by simp))
    exact ih h1 (by rw [step_ss]; exact hne) (fun o ho => ht o (by simp [ho]))

/-- A successful transition puts exactly the marks in force. -/
theorem transition_ok_writeable {c : Ctl F R} (hn : c.NodupInv) {f : F} {states : List St}
    (h : c.Marked f states) {t : St} {m : String} (htp : t ∈ c.ss.possible)
    (hok : (c.transition t m).2 = .ok) :
    (c.transition t m).1.writeable f = decide (t ∈ states) ∧ (c.transition t m).1.state = t := by
  unfold transition at hok ⊢
  split at hok
  · cases hok
  · cases hok
  · dsimp only at hok ⊢
    split at hok
    · cases hok
    · rename_i d hd
      simp only [updateHealth_children] at hd
      refine ⟨?_, rfl⟩
      simp only
      rw [applyWriteable_eq _ _ (hn t d hd)]
      have := h t htp
      unfold mark at this
      rw [hd] at this
      simp only [Option.getD_some] at this
      rw [this]; rfl

/-! ### read-only fields -/

theorem mark_step_none {c : Ctl F R} {f : F} (h : ∀ s, mark c.children s f = none)
    (op : Op F R) (h1 : ∀ sts, op ≠ .setWriteableIn f sts) (h2 : op ≠ .addBlockField f true) :
    ∀ s, mark (c.step op).children s f = none := by
  intro s
  cases op with
  | setWriteableIn g sts =>
    have hg : ¬ f = g := fun e => h1 sts (by rw [e])
    simp only [step, setWriteableIn]
    split
    · simp only [mark_markStates]
      rw [if_neg (fun hh => hg hh.2)]
      exact h s
    · exact h s
  | addBlockField g hf =>
    simp only [step, addBlockField]
    split
    · rename_i hh
      have hg : ¬ f = g := fun e => h2 (by rw [e, hh])
      split
      · exact h s
      · simp only [mark_markStates]
        rw [if_neg (fun hh => hg hh.2)]
        exact h s
    · exact h s
  | removeField g =>
    have := h s
    simp only [step, removeField]
    unfold mark at this ⊢
    rw [get?_map_erase]
    cases hd : Dict.get? c.children s with
    | none => rfl
    | some d =>
      simp only [hd, Option.getD_some, Option.map_some] at this ⊢
      rw [Dict.get?_none_iff] at this ⊢
      exact fun hm => this ((Dict.keys_erase_sub d g).subset hm)
  | transition t m =>
    simp only [step, transition]
    split
    · exact h s
    · exact h s
    · split <;> exact h s
  | report r a => exact h s

theorem transition_unmarked {c : Ctl F R} (hn : c.NodupInv) {f : F}
    (h : ∀ s, mark c.children s f = none) (t : St) (m : String) :
    (c.transition t m).1.writeable f = c.writeable f := by
  unfold transition
  split
  · rfl
  · rfl
  · dsimp only
    split
    · rfl
    · rename_i d hd
      simp only [updateHealth_children] at hd
      simp only [updateHealth_writeable]
      rw [applyWriteable_eq _ _ (hn t d hd)]
      have := h t
      unfold mark at this
      rw [hd] at this
      simp only [Option.getD_some] at this
      rw [this]; rfl

/-- Does an operation change `f` outside a transition? -/
def touches (f : F) : Op F R → Prop
  | .setWriteableIn g _ => g = f
  | .addBlockField g h => g = f ∧ h = true
  | .removeField g => g = f
  | _ => False

/-- The three state sets only allow moves to states they list as possible. -/
theorem target_possible {ss : StateSet}
    (hss : ss = statefulStates ∨ ss = managerStates ∨ ss = runnableStates) {a b : St}
    (h : ss.transitionAllowed a b = some true) : b ∈ ss.possible := by
  rcases hss with e | e | e <;> subst e
  · rw [statefulStates_eq] at *; revert h; cases a <;> cases b <;> decide
  · rw [managerStates_eq] at *; revert h; cases a <;> cases b <;> decide
  · rw [runnableStates_eq] at *; revert h; cases a <;> cases b <;> decide

theorem transition_ok_allowed {c : Ctl F R} {t : St} {m : String}
    (hok : (c.transition t m).2 = .ok) : c.ss.transitionAllowed c.state t = some true := by
  unfold transition at hok
  split at hok
  · cases hok
  · cases hok
  · assumption

/-- Settled: the field's writeable flag agrees with its states. -/
def Settled (c : Ctl F R) (f : F) (states : List St) : Prop :=
  c.Marked f states ∧ c.writeable f = decide (c.state ∈ states)

theorem settled_step {c : Ctl F R}
    (hss : c.ss = statefulStates ∨ c.ss = managerStates ∨ c.ss = runnableStates)
    (hn : c.NodupInv) {f : F} {states : List St} (h : c.Settled f states)
    (op : Op F R) (ht : ¬ touches f op) : (c.step op).Settled f states := by
  have hne : c.ss.possible ≠ [] := by
    rcases hss with e | e | e <;> rw [e]
    · rw [statefulStates_eq]; decide
    · rw [managerStates_eq]; decide
    · rw [runnableStates_eq]; decide
  have hm : (c.step op).Marked f states := by
    apply marked_step h.1 hne
    intro hc
    apply ht
    cases op <;> simp_all [touchesMarks, touches]
  refine ⟨hm, ?_⟩
  cases op with
  | setWriteableIn g sts => simp only [step, setWriteableIn]; split <;> exact h.2
  | addBlockField g hf =>
    simp only [touches, not_and] at ht
    simp only [step, addBlockField]
    split
    · rename_i hh
      have hg : ¬ f = g := fun e => ht e.symm hh
      split <;> simp [hg, h.2]
    · exact h.2
  | removeField g => exact h.2
  | report r a => exact h.2
  | transition t m =>
    have e : c.step (.transition t m) = (c.transition t m).1 := rfl
    rw [e]
    by_cases hok : (c.transition t m).2 = .ok
    · have hp := target_possible hss (transition_ok_allowed hok)
      have := transition_ok_writeable hn h.1 hp hok
      rw [this.1, this.2]
    · -- a failed transition changes nothing; the KeyError case cannot happen as `f` is marked
      have hsame : (c.transition t m).1.writeable f = c.writeable f ∧
          (c.transition t m).1.state = c.state := by
        unfold transition at hok ⊢
        split
        · exact ⟨rfl, rfl⟩
        · exact ⟨rfl, rfl⟩
        · rename_i hal
          exfalso
          simp only [hal] at hok
          have hp := target_possible hss hal
          have hmk := h.1 t hp
          unfold mark at hmk
          cases hd : Dict.get? c.children t with
          | none => simp [hd] at hmk
          | some d => simp [hd] at hok
      rw [hsame.1, hsame.2]; exact h.2

theorem settled_run {c : Ctl F R}
    (hss : c.ss = statefulStates ∨ c.ss = managerStates ∨ c.ss = runnableStates)
    (hn : c.NodupInv) {f : F} {states : List St} (h : c.Settled f states)
    (ops : List (Op F R)) (ht : ∀ op ∈ ops, ¬ touches f op) : (c.run ops).Settled f states := by
  induction ops generalizing c with
  | nil => exact h
  | cons op ops ih =>
    exact ih (by rw [step_ss]; exact hss) (nodupInv_step c op hn)
      (settled_step hss hn h op (ht op (by simp))) (fun o ho => ht o (by simp [ho]))

end Ctl
end Verif
