import Verif.Model.Validate
import Verif.Proofs.PyDict
/-! C10: `validate` returns a consistent set of parameters or raises. -/
set_option linter.unusedSectionVars false
namespace Verif.Props.Validate
open Verif Verif.Validate
variable {K V : Type} [DecidableEq K]

theorem loop_spec (env : Env K V) (fuel round : Nat) (params : Dict K V) :
    let r := loop env fuel round params
    r.2.length ≤ fuel ∧
    (∀ p, r.1 = .ok p → r.2.getLast? = some p ∧ env.ask (round + (r.2.length - 1)) p = .ok []) ∧
    (r.1 = .error .inconsistent → (∀ i p, env.ask i p ≠ .error .inconsistent) → r.2.length = fuel) ∧
    (∀ i p, r.2[i]? = some p → i + 1 < r.2.length →
      ∃ t ts, env.ask (round + i) p = .ok (t :: ts)) := by
  induction fuel generalizing round params with
  | zero => simp [loop]
  | succ fuel ih =>
    unfold loop
    cases ha : env.ask round params with
    | error e =>
      refine ⟨by simp, by simp, ?_, ?_⟩
      · intro h hn
        simp only [Except.error.injEq] at h
        subst h
        exact absurd ha (hn _ _)
      · intro i p hi hlt; simp at hlt
    | ok tw =>
      cases tw with
      | nil =>
        refine ⟨by simp, ?_, by simp, ?_⟩
        · intro p hp
          simp only [Except.ok.injEq] at hp
          subst hp
          simp [ha]
        · intro i p hi hlt; simp at hlt
      | cons t ts =>
        dsimp only
        cases hr : applyRound env params (t :: ts) with
        | error e =>
          refine ⟨by simp, by simp, ?_, ?_⟩
          · intro h
            simp only [Except.error.injEq] at h
            subst h
            have : ∀ (l : List (Tweak K V)) (d : Dict K V),
                applyTweaks env d l ≠ .error .inconsistent := by
              intro l
              induction l with
              | nil => intro d; simp [applyTweaks]
              | cons t ts ih =>
                intro d
                unfold applyTweaks
                split
                · simp
                · exact ih _
            unfold applyRound at hr
            dsimp only at hr
            split at hr
            · exact absurd hr (this _ _)
            · exact absurd hr (this _ _)
          · intro i p hi hlt; simp at hlt
        | ok params' =>
          obtain ⟨h1, h2, h3, h4⟩ := ih (round + 1) params'
          dsimp only
          generalize loop env fuel (round + 1) params' = r at *
          refine ⟨by simp; omega, ?_, ?_, ?_⟩
          · intro p hp
            obtain ⟨hl, hask⟩ := h2 p hp
            have hne : r.2 ≠ [] := by rintro h; rw [h] at hl; simp at hl
            have hpos : 0 < r.2.length := List.length_pos_iff.2 hne
            refine ⟨?_, ?_⟩
            · rw [List.getLast?_cons, hl]; simp
            · rw [List.length_cons]
              have : round + (r.2.length + 1 - 1) = round + 1 + (r.2.length - 1) := by omega
              rw [this]; exact hask
          · intro h hn
            rw [List.length_cons, h3 h hn]
          · intro i p hi hlt
            cases i with
            | zero =>
              simp at hi
              subst hi
              exact ⟨t, ts, by simpa using ha⟩
            | succ i =>
              simp only [List.getElem?_cons_succ] at hi
              simp only [List.length_cons] at hlt
              obtain ⟨t', ts', h⟩ := h4 i p hi (by omega)
              refine ⟨t', ts', ?_⟩
              rw [show round + (i + 1) = round + 1 + i by omega]
              exact h

/-- C10: if `validate` returns parameters, then the last thing it did was to ask every part about
exactly those parameters, and no part wanted a tweak; it asked at most ten times. -/
theorem validate_returns_consistent (env : Env K V) (kwargs defaults : Dict K V) (p : Dict K V)
    (h : (validate env kwargs defaults).1 = .ok p) :
    (validate env kwargs defaults).2.length ≤ 10 ∧
    (validate env kwargs defaults).2.getLast? = some p ∧
    env.ask ((validate env kwargs defaults).2.length - 1) p = .ok [] := by
  have := loop_spec env 10 0 (withDefaults kwargs defaults)
  refine ⟨this.1, ?_⟩
  have h2 := this.2.1 p h
  rw [Nat.zero_add] at h2
  exact h2

/-- C10, for parts whose answer depends only on the parameters: what `validate` returns is a fixed
point, asking again gives no tweak. -/
theorem validate_fixpoint (env : Env K V) (f : Dict K V → Except Err (List (Tweak K V)))
    (hf : ∀ i p, env.ask i p = f p) (kwargs defaults p : Dict K V)
    (h : (validate env kwargs defaults).1 = .ok p) : f p = .ok [] := by
  have := (validate_returns_consistent env kwargs defaults p h).2.2
  rwa [hf] at this

/-- C10: it gives up with "Could not get a consistent set" only after asking ten times, each time
but the last having got tweaks. -/
theorem validate_gives_up_after_ten (env : Env K V) (kwargs defaults : Dict K V)
    (hn : ∀ i p, env.ask i p ≠ .error .inconsistent)
    (h : (validate env kwargs defaults).1 = .error .inconsistent) :
    (validate env kwargs defaults).2.length = 10 := by
  exact (loop_spec env 10 0 (withDefaults kwargs defaults)).2.2.1 h hn

theorem get?_applyTweaks (env : Env K V) (l : List (Tweak K V)) (d d' : Dict K V) (k : K)
    (h : applyTweaks env d l = .ok d') (hk : ∀ t ∈ l, t.parameter ≠ k) :
    Dict.get? d' k = Dict.get? d k := by
  induction l generalizing d with
  | nil => simp [applyTweaks] at h; rw [h]
  | cons t ts ih =>
    unfold applyTweaks at h
    split at h
    · cases h
    · rename_i v hv
      rw [ih _ h (fun t' ht' => hk t' (by simp [ht']))]
      exact Dict.get?_set_ne _ _ (hk t (by simp))

theorem resolveGenerator_spec (env : Env K V) (l : List (Tweak K V)) :
    (resolveGenerator env l = none ↔ l = []) ∧
    ∀ g, resolveGenerator env l = some g → (∀ t ∈ l, t.parameter = env.generator) →
      g.parameter = env.generator := by
  match l with
  | [] => simp [resolveGenerator]
  | [t] =>
    refine ⟨by simp [resolveGenerator], ?_⟩
    intro g hg ht
    simp only [resolveGenerator, Option.some.injEq] at hg
    subst hg
    exact ht _ (by simp)
  | t :: t' :: ts =>
    refine ⟨by simp [resolveGenerator], ?_⟩
    intro g hg ht
    simp only [resolveGenerator, Option.some.injEq] at hg
    subst hg
    rfl

theorem largest_spec {A : Type} (d : A → Int) : ∀ (l : List A) (m : Int), let L := l.foldl (fun m t => if d t > m then d t else m) m
    m ≤ L ∧ (L = m ∨ ∃ x ∈ l, d x = L) ∧ ∀ x ∈ l, d x ≤ L := by
  intro l
  induction l with
  | nil => intro m; simp
  | cons a l ih =>
    intro m
    rw [List.foldl_cons]
    obtain ⟨h1, h2, h3⟩ := ih (if d a > m then d a else m)
    by_cases ha : d a > m
    · rw [if_pos ha] at h1 h2 h3 ⊢
      refine ⟨by omega, .inr ?_, ?_⟩
      · rcases h2 with h2 | ⟨x, hx, h2⟩
        · exact ⟨a, List.mem_cons_self, h2.symm⟩
        · exact ⟨x, List.mem_cons_of_mem _ hx, h2⟩
      · intro x hx
        rcases List.mem_cons.1 hx with rfl | hx
        · exact h1
        · exact h3 x hx
    · rw [if_neg ha] at h1 h2 h3 ⊢
      refine ⟨h1, ?_, ?_⟩
      · rcases h2 with h2 | ⟨x, hx, h2⟩
        · exact .inl h2
        · exact .inr ⟨x, List.mem_cons_of_mem _ hx, h2⟩
      · intro x hx
        rcases List.mem_cons.1 hx with rfl | hx
        · omega
        · exact h3 x hx

/-- C10: if several parts ask for another generator, the round takes the first with the longest of the durations they ask for: each
of them gets at least the duration it needs, and no longer one than one of them needs. -/
theorem longest_duration_taken (env : Env K V) (params : Dict K V) (tweaks ts : List (Tweak K V)) (t u : Tweak K V)
    (hg : tweaks.filter (fun t => t.parameter = env.generator) = t :: u :: ts)
    (hd : ∀ x ∈ t :: u :: ts, 0 ≤ env.duration x.value) :
    ∃ L, applyRound env params tweaks = applyTweaks env params [⟨env.generator, env.withDuration t.value L⟩] ∧
      (∃ x ∈ t :: u :: ts, env.duration x.value = L) ∧ ∀ x ∈ t :: u :: ts, env.duration x.value ≤ L := by
  obtain ⟨h1, h2, h3⟩ := largest_spec (fun t : Tweak K V => env.duration t.value) (t :: u :: ts) 0
  refine ⟨_, ?_, ?_, h3⟩
  · unfold applyRound
    simp only [hg, resolveGenerator]
  · rcases h2 with h2 | h2
    · refine ⟨t, List.mem_cons_self, ?_⟩
      have h4 := h3 t List.mem_cons_self
      have h5 := hd t List.mem_cons_self
      exact Int.le_antisymm h4 (by rw [h2]; exact h5)
    · exact h2

theorem get?_applyRound (env : Env K V) (tweaks : List (Tweak K V)) (d d' : Dict K V) (k : K)
    (h : applyRound env d tweaks = .ok d') (hk : ∀ t ∈ tweaks, t.parameter ≠ k) :
    Dict.get? d' k = Dict.get? d k := by
  unfold applyRound at h
  dsimp only at h
  split at h
  · rename_i g hg
    have hg2 := (resolveGenerator_spec env (tweaks.filter (fun t => t.parameter = env.generator))).2 g hg
      (fun t ht => by simpa using (List.mem_filter.1 ht).2)
    have hne : tweaks.filter (fun t => decide (t.parameter = env.generator)) ≠ [] := by
      intro h0
      have := (resolveGenerator_spec env (tweaks.filter (fun t => t.parameter = env.generator))).1.2 h0
      rw [this] at hg; cases hg
    obtain ⟨t, ht⟩ := List.exists_mem_of_ne_nil _ hne
    obtain ⟨ht1, ht2⟩ := List.mem_filter.1 ht
    have hgk : g.parameter ≠ k := by
      rw [hg2, ← (by simpa using ht2 : t.parameter = env.generator)]
      exact hk t ht1
    exact get?_applyTweaks env [g] d d' k h (by simp [hgk])
  · exact get?_applyTweaks env tweaks d d' k h hk

/-- C10: a parameter that no part ever asks to change comes back as it was given. -/
theorem untweaked_parameter_unchanged (env : Env K V) (fuel round : Nat) (params p : Dict K V) (k : K)
    (hk : ∀ i q tw, env.ask i q = .ok tw → ∀ t ∈ tw, t.parameter ≠ k)
    (h : (loop env fuel round params).1 = .ok p) : Dict.get? p k = Dict.get? params k := by
  induction fuel generalizing round params with
  | zero => simp [loop] at h
  | succ fuel ih =>
    unfold loop at h
    cases ha : env.ask round params with
    | error e => simp [ha] at h
    | ok tw =>
      cases tw with
      | nil => simp [ha] at h; rw [h]
      | cons t ts =>
        simp only [ha] at h
        cases hr : applyRound env params (t :: ts) with
        | error e => simp [hr] at h
        | ok params' =>
          simp only [hr] at h
          rw [ih _ _ h]
          exact get?_applyRound env _ _ _ _ hr (hk _ _ _ ha)

/-- C10: ... which is the value given by the caller or, if none was, the default. -/
theorem get?_withDefaults (kwargs defaults : Dict K V) (hn : (Dict.keys defaults).Nodup) (k : K) :
    Dict.get? (withDefaults kwargs defaults) k =
      (Dict.get? kwargs k).orElse (fun _ => Dict.get? defaults k) := by
  unfold withDefaults
  induction defaults generalizing kwargs with
  | nil => cases h : Dict.get? kwargs k <;> simp [Dict.get?, h]
  | cons kv t ih =>
    simp only [Dict.keys, List.map_cons, List.nodup_cons] at hn
    rw [List.foldl_cons, ih _ (by simpa [Dict.keys] using hn.2)]
    obtain ⟨k', v'⟩ := kv
    by_cases hm : Dict.mem kwargs k' = true
    · simp only [hm, if_true]
      by_cases hkk : k' = k
      · subst hkk
        obtain ⟨v, hv⟩ : ∃ v, Dict.get? kwargs k' = some v := by
          cases hg : Dict.get? kwargs k' with
          | none => rw [Dict.mem_iff] at hm; rw [Dict.get?_none_iff] at hg; exact absurd hm hg
          | some v => exact ⟨v, rfl⟩
        rw [hv]; rfl
      · congr 1; funext _
        simp [Dict.get?, hkk]
    · simp only [hm]
      by_cases hkk : k' = k
      · subst hkk
        have hg : Dict.get? kwargs k' = none := by
          rw [Dict.get?_none_iff]; intro h; exact hm (Dict.mem_iff.2 h)
        simp [Dict.get?_set_self, hg, Dict.get?]
      · simp [Dict.get?_set_ne _ _ hkk, Dict.get?, hkk]

theorem untweaked_comes_back (env : Env K V) (kwargs defaults p : Dict K V)
    (hn : (Dict.keys defaults).Nodup) (k : K)
    (hk : ∀ i q tw, env.ask i q = .ok tw → ∀ t ∈ tw, t.parameter ≠ k)
    (h : (validate env kwargs defaults).1 = .ok p) :
    Dict.get? p k = (Dict.get? kwargs k).orElse (fun _ => Dict.get? defaults k) := by
  rw [untweaked_parameter_unchanged env 10 0 _ p k hk h, get?_withDefaults _ _ hn]

/-! ### Non-vacuity: one part wants parameter 1 to be at least 3, and is content after that. -/

def exampleEnv : Env Nat Nat where
  ask := fun _ p => match Dict.get? p 1 with
    | some v => if v < 3 then .ok [⟨1, v + 1⟩] else .ok []
    | none => .error .partRaised
  deserialize := fun _ v => some v
  generator := 0
  duration := fun v => v
  withDuration := fun v _ => v

example : (validate exampleEnv [(1, 0), (2, 7)] [(3, 9)]).1 = .ok [(1, 3), (2, 7), (3, 9)] := rfl
example : (validate exampleEnv [(1, 0), (2, 7)] []).2.length = 4 := rfl

end Verif.Props.Validate
