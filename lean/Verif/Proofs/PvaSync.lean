import Verif.Proofs.PvaStore
/-!
The local copy stays in step with the data of the channel.
-/
namespace Verif.Proofs.PvaClient
open Verif Verif.Pva Verif.Spec.Pva Verif.PvaClient Verif.Spec.PvaClient
open Verif.Props.Pva (field_none_iff field_setField names_setField fields_ext mem_of_field field_back names_back)

/-- a place of the block that is kept in step as a whole -/
def Root (v : Pv) (r : List String) : Prop :=
  (∃ k, k ≠ "health" ∧ k ≠ "meta" ∧ r = [k] ∧ at_ (back v) [k] ≠ none) ∨
  (∃ n ∈ ["value", "alarm", "timeStamp"], r = ["health", n] ∧ at_ (back v) ["health"] ≠ none) ∨
  (∃ n ∈ ["description", "tags", "writeable", "label"], r = ["meta", n] ∧ at_ (back v) ["meta"] ≠ none)

theorem root_short {v : Pv} {r : List String} (h : Root v r) : r.length ≤ 2 := by
  rcases h with ⟨k, -, -, rfl, -⟩ | ⟨n, -, rfl, -⟩ | ⟨n, -, rfl, -⟩ <;> simp

structure Synced (m : Models) (c : Client) (v : Pv) : Prop where
  root : ∀ r, Root v r → ∃ x, at_ (.dict none c.fields) r = some x ∧ at_ (back v) r = some x ∧ ∀ q ∈ terminals m [] x, r ++ q ∈ c.update
  absent : ∀ k, k ≠ "health" → k ≠ "meta" → at_ (back v) [k] = none → field c.fields k = none
  anti : ∀ p ∈ c.update, ∀ q ∈ c.update, p <+: q → p = q
  long : ∀ p ∈ c.update, 2 ≤ p.length

theorem synced_mirrors {m : Models} {c : Client} {v : Pv} (h : Synced m c v) : Mirrors c.fields (back v) := by
  refine ⟨?_, ?_, ?_⟩
  · intro k h1 h2
    cases hk : at_ (back v) [k] with
    | none => rw [at_dict, h.absent k h1 h2 hk]; rfl
    | some y =>
      obtain ⟨x, h3, h4, -⟩ := h.root [k] (.inl ⟨k, h1, h2, rfl, by rw [hk]; simp⟩)
      rw [h3, ← h4, hk]
  · intro hh n hn
    obtain ⟨x, h3, h4, -⟩ := h.root ["health", n] (.inr (.inl ⟨n, hn, rfl, hh⟩))
    rw [h3, h4]
  · intro hh n hn
    obtain ⟨x, h3, h4, -⟩ := h.root ["meta", n] (.inr (.inr ⟨n, hn, rfl, hh⟩))
    rw [h3, h4]

/-! ### an update -/

theorem applyOne_dead {m : Models} {acc : Acc} {v : Pv} (L : List (List String)) : ∀ c : Client,
    (L.foldl (applyOne m acc v) c).alive = true → c.alive = true := by
  induction L with
  | nil => intro c h; exact h
  | cons p L ih =>
    intro c h
    have := ih _ h
    unfold applyOne at this
    cases hc : c.alive with
    | true => rfl
    | false => rw [hc] at this; simp [hc] at this

theorem applyOne_alive {m : Models} {acc : Acc} {v : Pv} {c : Client} {p : List String} (h : (applyOne m acc v c p).alive = true) :
    ∃ w fs, atPv v p = some w ∧ applyChange m (back w) c.fields p = some fs ∧ applyOne m acc v c p = { c with fields := fs } := by
  unfold applyOne at h ⊢
  split
  · rename_i hc
    rw [if_pos hc] at h
    split
    · rename_i hw; rw [hw] at h; cases h
    · rename_i w hw
      rw [hw] at h
      simp only at h
      split
      · rename_i ha
        rw [if_pos ha] at h
        split
        · rename_i hf; rw [hf] at h; cases h
        · rename_i fs hf; exact ⟨w, fs, hw, hf, rfl⟩
      · rename_i ha; rw [if_neg ha] at h; cases h
  · rename_i hc; rw [if_neg hc] at h; exact absurd h hc

theorem terminals_of_skel (m : Models) : ∀ b pre, terminals m pre (skel b) = terminals m pre b := by
  refine py_ind ?_ ?_
  · intro b hb pre
    rw [skel_leaf hb, terminals_leaf m pre hb, terminals_leaf]
    intros; simp
  · intro t fs ih pre
    have hr := recursed_skel m (.dict t fs)
    rw [skel] at hr ⊢
    rw [terminals_dict, terminals_dict, hr]
    congr 1
    clear hr
    induction fs with
    | nil => rfl
    | cons f fs ihf =>
      obtain ⟨k, v⟩ := f
      rw [skelIn, terminalsIn, terminalsIn, ih _ List.mem_cons_self, ihf (fun kv h => ih kv (List.mem_cons_of_mem _ h))]

/-- What the loop makes of a place: under it, what is gone through is new and the rest is as it was -/
theorem fold_root {m : Models} {acc : Acc} {v' : Pv} {U : List (List String)} (anti : ∀ p ∈ U, ∀ q ∈ U, p <+: q → p = q)
    (long : ∀ p ∈ U, 2 ≤ p.length) {r : List String} (hr : r.length ≤ 2) {y' : Py} (hy : at_ (back v') r = some y') :
    ∀ (L : List (List String)) (c : Client) (x : Py), (∀ p ∈ L, p ∈ U) → at_ (.dict none c.fields) r = some x → skel x = skel y' →
      (L.foldl (applyOne m acc v') c).alive = true →
      ∃ x', at_ (.dict none (L.foldl (applyOne m acc v') c).fields) r = some x' ∧ skel x' = skel y' ∧
        ∀ q, r ++ q ∈ U → at_ x' q = if r ++ q ∈ L then at_ y' q else at_ x q := by
  intro L
  induction L with
  | nil => intro c x _ hx hs _; exact ⟨x, hx, hs, fun q _ => by simp⟩
  | cons p L ih =>
    intro c x hU hx hs ha
    obtain ⟨w, fs, hw, hc, heq⟩ := applyOne_alive (applyOne_dead L _ ha)
    rw [List.foldl_cons] at ha ⊢
    rw [heq] at ha ⊢
    have hp := hU p List.mem_cons_self
    have hL : ∀ p ∈ L, p ∈ U := fun q hq => hU q (List.mem_cons_of_mem _ hq)
    have P := applyChange_placed m (back w) hc
    by_cases hrp : r <+: p
    · obtain ⟨q0, rfl⟩ := hrp
      obtain ⟨x0, x1, h1, h2, h3, h4⟩ := placed_above P rfl
      rw [hx] at h1; cases h1
      obtain ⟨y, hwas⟩ := P.was
      have hxq : at_ x q0 = some y := by
        rw [at_append, hx] at hwas; exact hwas
      -- what is there in the new value
      have hyq : at_ y' q0 = some (back w) ∧ skel y = skel (back w) := by
        have e1 := at_skel q0 x
        rw [hs, at_skel, hxq] at e1
        cases hz : at_ y' q0 with
        | none => rw [hz] at e1; cases e1
        | some z =>
          rw [hz] at e1
          have hz' : at_ (back v') (r ++ q0) = some z := by rw [at_append, hy]; exact hz
          obtain ⟨w', h5, h6⟩ := at_back _ _ _ hz'
          rw [hw] at h5; cases h5
          rw [h6]
          exact ⟨rfl, (Option.some.inj e1).symm⟩
      have hs1 : skel x1 = skel y' := by rw [← hs]; exact h4 y hwas hyq.2
      obtain ⟨x', h5, h6, h7⟩ := ih { c with fields := fs } x1 hL h2 hs1 ha
      refine ⟨x', h5, h6, fun q hq => ?_⟩
      rw [h7 q hq]
      by_cases hqL : r ++ q ∈ L
      · rw [if_pos hqL, if_pos (List.mem_cons_of_mem _ hqL)]
      · rw [if_neg hqL]
        by_cases hqq : q = q0
        · subst hqq
          rw [if_pos List.mem_cons_self, h3, hyq.1]
        · have hne : r ++ q ≠ r ++ q0 := fun h => hqq (List.append_cancel_left h)
          rw [if_neg (fun h => (List.mem_cons.1 h).elim hne hqL)]
          have := P.there (r ++ q) (fun h => hne (anti _ hp _ hq h).symm) (fun h => hne (anti _ hq _ hp h))
          rw [at_append, at_append, hx, h2] at this
          exact this
    · have hpr : ¬ p <+: r := by
        intro h
        have h1 := h.length_le
        have h2 := long p hp
        have : p = r := h.eq_of_length (by omega)
        exact hrp (this ▸ List.prefix_refl _)
      have hx' : at_ (.dict none fs) r = some x := by rw [P.there r hpr hrp, hx]
      obtain ⟨x', h5, h6, h7⟩ := ih { c with fields := fs } x hL hx' hs ha
      refine ⟨x', h5, h6, fun q hq => ?_⟩
      rw [h7 q hq]
      have hne : r ++ q ≠ p := fun h => hrp (h ▸ List.prefix_append r q)
      by_cases hqL : r ++ q ∈ L
      · rw [if_pos hqL, if_pos (List.mem_cons_of_mem _ hqL)]
      · rw [if_neg hqL, if_neg (fun h => (List.mem_cons.1 h).elim hne hqL)]

theorem applyChange_names {m : Models} {u : Py} {fs fs' : List (String × Py)} {p : List String} (h : applyChange m u fs p = some fs') :
    fs'.map (·.1) = fs.map (·.1) := by
  unfold applyChange at h
  split at h
  · split at h
    · cases h
    · obtain ⟨x, -, h2⟩ := Option.map_eq_some_iff.1 h
      subst h2
      exact names_setField _ _ _
  · cases h

theorem fold_names {m : Models} {acc : Acc} {v' : Pv} : ∀ (L : List (List String)) (c : Client),
    (L.foldl (applyOne m acc v') c).alive = true →
    (L.foldl (applyOne m acc v') c).fields.map (·.1) = c.fields.map (·.1) ∧ (L.foldl (applyOne m acc v') c).update = c.update := by
  intro L
  induction L with
  | nil => intro c _; exact ⟨rfl, rfl⟩
  | cons p L ih =>
    intro c ha
    obtain ⟨w, fs, hw, hc, heq⟩ := applyOne_alive (applyOne_dead L _ ha)
    rw [List.foldl_cons] at ha ⊢
    rw [heq] at ha ⊢
    obtain ⟨h1, h2⟩ := ih _ ha
    exact ⟨h1.trans (applyChange_names hc), h2⟩

theorem at_none_iff {v v' : Pv} (ht : typeOf v' = typeOf v) (p : List String) : at_ (back v') p = none ↔ at_ (back v) p = none := by
  have hs := at_skel p (back v')
  rw [skel_back v' v ht, at_skel] at hs
  constructor
  · intro h; rw [h] at hs
    cases h1 : at_ (back v) p with
    | none => rfl
    | some y => rw [h1] at hs; cases hs
  · intro h; rw [h] at hs
    cases h1 : at_ (back v') p with
    | none => rfl
    | some y => rw [h1] at hs; cases hs

theorem root_same {v v' : Pv} (ht : typeOf v' = typeOf v) {r : List String} (h : Root v' r) : Root v r := by
  rcases h with ⟨k, h1, h2, h3, h4⟩ | ⟨n, h1, h2, h3⟩ | ⟨n, h1, h2, h3⟩
  · exact .inl ⟨k, h1, h2, h3, fun h => h4 ((at_none_iff ht _).2 h)⟩
  · exact .inr (.inl ⟨n, h1, h2, fun h => h3 ((at_none_iff ht _).2 h)⟩)
  · exact .inr (.inr ⟨n, h1, h2, fun h => h3 ((at_none_iff ht _).2 h)⟩)

theorem tidy_at : ∀ (p : List String) (b x : Py), Tidy b → at_ b p = some x → Tidy x := by
  intro p
  induction p with
  | nil => intro b x ht h; rw [at_] at h; cases h; exact ht
  | cons k ks ih =>
    intro b x ht h
    by_cases hd : ∃ t fs, b = .dict t fs
    · obtain ⟨t, fs, rfl⟩ := hd
      rw [at_dict] at h
      cases hf : field fs k with
      | none => rw [hf] at h; cases h
      | some v => rw [hf] at h; exact ih v x (tidy_mem ht (field_mem hf)) h
    · have hd : ∀ t fs, b ≠ .dict t fs := fun t fs h => hd ⟨t, fs, h⟩
      rw [at_leaf hd] at h; cases h

theorem synced_update {m : Models} {acc : Acc} {order : List (List String) → List (List String)} {c : Client} {v v' : Pv}
    {stored : List (List String)} (ho : ∀ l x, x ∈ order l ↔ x ∈ l) (hs : Synced m c v) (ht : typeOf v' = typeOf v)
    (hsame : ∀ q, changedSet stored q = false → atPv v' q = atPv v q) (htidy : Tidy (back v'))
    (ha : (updateBlock m acc order c v' stored).alive = true) : Synced m (updateBlock m acc order c v' stored) v' := by
  have hL : ∀ p, p ∈ order (c.update.filter (changedSet stored)) ↔ p ∈ c.update ∧ changedSet stored p = true := by
    intro p; rw [ho, List.mem_filter]
  unfold updateBlock at ha ⊢
  generalize hLe : order (c.update.filter (changedSet stored)) = L at *
  obtain ⟨hn, hu⟩ := fold_names L c ha
  refine ⟨?_, ?_, ?_, ?_⟩
  · intro r hr
    obtain ⟨x, h1, h2, h3⟩ := hs.root r (root_same ht hr)
    obtain ⟨y', hy⟩ : ∃ y', at_ (back v') r = some y' := by
      cases hz : at_ (back v') r with
      | none => rw [(at_none_iff ht r).1 hz] at h2; cases h2
      | some z => exact ⟨z, rfl⟩
    have hsk : skel x = skel y' := by
      have e := at_skel r (back v')
      rw [skel_back v' v ht, at_skel, h2, hy] at e
      exact Option.some.inj e
    obtain ⟨x', h4, h5, h6⟩ := fold_root (acc := acc) hs.anti hs.long (root_short hr) hy L c x (fun p hp => ((hL p).1 hp).1) h1 hsk ha
    have hterm : ∀ q, q ∈ terminals m [] y' ↔ q ∈ terminals m [] x := by
      intro q
      rw [← terminals_of_skel m y', ← hsk, terminals_of_skel]
    have hxy : y' = x' := by
      refine terminals_ext m y' (tidy_at r _ _ htidy hy) x' h5.symm ?_
      intro q hq
      have hqU := h3 q ((hterm q).1 hq)
      rw [h6 q hqU]
      by_cases hqL : r ++ q ∈ L
      · rw [if_pos hqL]
      · rw [if_neg hqL]
        have hcs : changedSet stored (r ++ q) = false := by
          rw [← Bool.not_eq_true]; intro h; exact hqL ((hL _).2 ⟨hqU, h⟩)
        have e := at_back_same ht (hsame _ hcs)
        rw [at_append, at_append, hy, h2] at e
        exact e
    subst hxy
    refine ⟨y', h4, hy, fun q hq => ?_⟩
    rw [hu]
    exact h3 q ((hterm q).1 hq)
  · intro k h1 h2 h3
    have := hs.absent k h1 h2 ((at_none_iff ht _).1 h3)
    rw [field_none_iff] at this ⊢
    rw [hn]; exact this
  · rw [hu]; exact hs.anti
  · rw [hu]; exact hs.long

end Verif.Proofs.PvaClient
