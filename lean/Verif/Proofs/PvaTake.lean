import Verif.Proofs.PvaSync
/-!
The local copy is made anew, and keeps its own health and settings.
-/
namespace Verif.Proofs.PvaClient
open Verif Verif.Pva Verif.Spec.Pva Verif.PvaClient Verif.Spec.PvaClient
open Verif.Props.Pva (field_none_iff field_setField names_setField fields_ext mem_of_field field_back names_back names_conv field_conv)

/-! ### names that are not there twice -/

mutual
def TidyPv : Pv → Prop
  | .struct _ fs => (fs.map (·.1)).Nodup ∧ TidyPvIn fs
  | _ => True
def TidyPvIn : List (String × Pv) → Prop
  | [] => True
  | (_, v) :: fs => TidyPv v ∧ TidyPvIn fs
end

theorem tidyPvIn_iff (fs : List (String × Pv)) : TidyPvIn fs ↔ ∀ kv ∈ fs, TidyPv kv.2 := by
  induction fs with
  | nil => rw [TidyPvIn]; simp
  | cons f fs ih =>
    obtain ⟨k, v⟩ := f
    rw [TidyPvIn, ih]
    constructor
    · rintro ⟨h1, h2⟩ kv h
      rcases List.mem_cons.1 h with rfl | h
      · exact h1
      · exact h2 kv h
    · intro h; exact ⟨h _ List.mem_cons_self, fun kv hm => h kv (List.mem_cons_of_mem _ hm)⟩

theorem tidyPv_struct (id : String) (fs : List (String × Pv)) :
    TidyPv (.struct id fs) ↔ (fs.map (·.1)).Nodup ∧ ∀ kv ∈ fs, TidyPv kv.2 := by rw [TidyPv, tidyPvIn_iff]

theorem tidyPv_leaf {v : Pv} (h : ∀ t fs, v ≠ .struct t fs) : TidyPv v := by
  rw [TidyPv]
  · trivial
  · exact h

theorem typeOfIn_names (fs : List (String × Pv)) : (typeOfIn fs).map (·.1) = fs.map (·.1) := by
  induction fs with
  | nil => rfl
  | cons f fs ih => obtain ⟨k, v⟩ := f; rw [typeOfIn, List.map_cons, List.map_cons, ih]

theorem tidyPv_typeOf : ∀ v, TidyPv (typeOf v) ↔ TidyPv v := by
  refine pv_ind ?_ ?_
  · intro v hv
    have : TidyPv v := tidyPv_leaf hv
    rw [typeOf_leaf hv]
    exact ⟨fun _ => this, fun _ => tidyPv_leaf (by intros; simp)⟩
  · intro id fs ih
    rw [typeOf, tidyPv_struct, tidyPv_struct, typeOfIn_names]
    refine and_congr_right (fun hnd => ?_)
    clear hnd
    induction fs with
    | nil => rw [typeOfIn]
    | cons f fs ihf =>
      obtain ⟨k, v⟩ := f
      rw [typeOfIn, List.forall_mem_cons, List.forall_mem_cons, ihf (fun kv h => ih kv (List.mem_cons_of_mem _ h)),
        ih (k, v) List.mem_cons_self]

theorem tidyPv_at : ∀ (p : List String) (v w : Pv), TidyPv v → atPv v p = some w → TidyPv w := by
  intro p
  induction p with
  | nil => intro v w ht h; rw [atPv_nil] at h; cases h; exact ht
  | cons k ks ih =>
    intro b x ht h
    by_cases hd : ∃ t fs, b = .struct t fs
    · obtain ⟨t, fs, rfl⟩ := hd
      rw [atPv_struct] at h
      cases hf : field fs k with
      | none => rw [hf] at h; cases h
      | some v => rw [hf] at h; exact ih v x (((tidyPv_struct _ _).1 ht).2 _ (field_mem hf)) h
    · have hd : ∀ t fs, b ≠ .struct t fs := fun t fs h => hd ⟨t, fs, h⟩
      rw [atPv_leaf hd] at h; cases h

theorem mem_backFields {b : Bool} {k : String} {x : Py} : ∀ {fs : List (String × Pv)}, (k, x) ∈ backFields b fs → ∃ w, (k, w) ∈ fs ∧ x = back w := by
  intro fs
  induction fs with
  | nil => intro h; rw [backFields] at h; cases h
  | cons f fs ih =>
    obtain ⟨n, v⟩ := f
    intro h
    rw [backFields] at h
    split at h
    · obtain ⟨w, h1, h2⟩ := ih h; exact ⟨w, List.mem_cons_of_mem _ h1, h2⟩
    · rcases List.mem_cons.1 h with h | h
      · cases h; exact ⟨v, List.mem_cons_self, rfl⟩
      · obtain ⟨w, h1, h2⟩ := ih h; exact ⟨w, List.mem_cons_of_mem _ h1, h2⟩

theorem tidy_leaf {b : Py} (h : ∀ t fs, b ≠ .dict t fs) : Tidy b := by
  rw [Tidy]
  · trivial
  · exact h

theorem tidy_back : ∀ v, TidyPv v → Tidy (back v) := by
  refine pv_ind ?_ ?_
  · intro v hv _; exact tidy_leaf (back_leaf hv)
  · intro id fs ih ht
    rw [tidyPv_struct] at ht
    rw [back]
    refine tidy_mk ?_ ?_
    · rw [names_back]; exact ht.1.filter _
    · intro k x h
      obtain ⟨w, h1, rfl⟩ := mem_backFields h
      exact ih _ h1 (ht.2 _ h1)

theorem convFields_mem : ∀ (fs : List (String × Py)) (ws : List (String × Pv)), convFields fs = some ws → ∀ kv ∈ ws, ∃ v, (kv.1, v) ∈ fs ∧ conv v = some kv.2 := by
  intro fs
  induction fs with
  | nil => intro ws h; rw [convFields] at h; cases h; intro kv h; cases h
  | cons f fs ih =>
    intro ws h kv hm
    obtain ⟨k, v⟩ := f
    rw [convFields] at h
    split at h
    · rename_i w ws' h1 h2
      cases h
      rcases List.mem_cons.1 hm with rfl | hm
      · exact ⟨v, List.mem_cons_self, h1⟩
      · obtain ⟨v', h3, h4⟩ := ih ws' h2 kv hm
        exact ⟨v', List.mem_cons_of_mem _ h3, h4⟩
    · cases h

theorem conv_tidy : ∀ b, Tidy b → ∀ v, conv b = some v → TidyPv v := by
  refine py_ind ?_ ?_
  · intro b hb _ v h
    refine tidyPv_leaf ?_
    rintro t fs rfl
    cases b <;> first | exact hb _ _ rfl | skip
    all_goals
      rw [conv] at h
      first
        | cases h
        | (split at h <;> cases h)
        | (obtain ⟨x, -, h2⟩ := Option.map_eq_some_iff.1 h; cases h2)
  · intro t fs ih ht v h
    rw [conv] at h
    split at h
    · cases h
    · rename_i ws hw
      obtain ⟨gs, h1, rfl⟩ := Option.map_eq_some_iff.1 h
      have hws : (ws.map (·.1)).Nodup ∧ ∀ kv ∈ ws, TidyPv kv.2 := by
        refine ⟨by rw [names_conv _ _ hw]; exact tidy_names ht, ?_⟩
        intro kv hm
        obtain ⟨x, h2, h3⟩ := convFields_mem _ _ hw kv hm
        exact ih _ h2 (tidy_mem ht h2) _ h3
      rw [tidyPv_struct]
      unfold withLabels at h1
      split at h1
      · split at h1
        · split at h1
          · cases h1
          · rename_i hl
            cases h1
            refine ⟨?_, ?_⟩
            · rw [List.map_cons, List.nodup_cons]
              refine ⟨?_, hws.1⟩
              rw [← field_none_iff]
              cases hf : field ws "labels" with
              | none => rfl
              | some x => rw [hf] at hl; exact absurd rfl hl
            · intro kv hm
              rcases List.mem_cons.1 hm with rfl | hm
              · exact tidyPv_leaf (by intros; simp)
              · exact hws.2 kv hm
        · cases h1
      · cases h1; exact hws

/-! ### a block has its own health and settings -/

/-- a field that is a Model with these parts -/
def Own (m : Models) (fs : List (String × Py)) (k : String) (ns : List String) : Prop :=
  ∃ t gs, field fs k = some (.dict (some t) gs) ∧ m t = true ∧ Tidy (.dict (some t) gs) ∧ ∀ n ∈ ns, ∃ x, field gs n = some x

theorem proper_iff (m : Models) (fs : List (String × Py)) : Proper m fs ↔
    Own m fs "health" ["value", "alarm", "timeStamp"] ∧ Own m fs "meta" ["description", "tags", "writeable", "label", "fields"] :=
  ⟨fun h => ⟨h.health, h.meta_⟩, fun h => ⟨h.1, h.2⟩⟩

theorem tidy_setField {t : Option String} {gs : List (String × Py)} {k : String} {x : Py} (h : Tidy (.dict t gs)) (hx : Tidy x) :
    Tidy (.dict t (setField gs k x)) := by
  refine tidy_mk (by rw [names_setField]; exact tidy_names h) ?_
  intro n v hm
  have : ∀ gs : List (String × Py), (n, v) ∈ setField gs k x → (n, v) ∈ gs ∨ v = x := by
    intro gs
    induction gs with
    | nil => intro h; cases h
    | cons f gs ih =>
      obtain ⟨j, w⟩ := f
      intro h
      rw [setField] at h
      split at h
      · rcases List.mem_cons.1 h with h | h
        · cases h; exact .inr rfl
        · exact .inl (List.mem_cons_of_mem _ h)
      · rcases List.mem_cons.1 h with h | h
        · cases h; exact .inl List.mem_cons_self
        · exact (ih h).imp (List.mem_cons_of_mem _) id
  rcases this gs hm with h' | rfl
  · exact tidy_mem h h'
  · exact hx

theorem own_other {m : Models} {fs : List (String × Py)} {k j : String} {ns : List String} {x : Py} (h : Own m fs j ns) (hk : k ≠ j) :
    Own m (setField fs k x) j ns := by
  obtain ⟨t, gs, h1, h2⟩ := h
  refine ⟨t, gs, ?_, h2⟩
  by_cases hm : k ∈ fs.map (·.1)
  · rw [field_setField _ _ _ _ hm, if_neg hk]; exact h1
  · have : ∀ fs : List (String × Py), k ∉ fs.map (·.1) → setField fs k x = fs := by
      intro fs
      induction fs with
      | nil => intro _; rfl
      | cons f fs ih =>
        obtain ⟨n, v⟩ := f
        intro hn
        rw [List.map_cons, List.mem_cons, not_or] at hn
        rw [setField, if_neg (Ne.symm hn.1), ih hn.2]
    rw [this fs hm]; exact h1

/-- the parts of the field after some are replaced -/
theorem foldl_setField (news : List (String × Py)) : ∀ (gs : List (String × Py)), (news.map (·.1)).Nodup →
    (∀ n ∈ news.map (·.1), n ∈ gs.map (·.1)) →
    (news.foldl (fun gs n => setField gs n.1 n.2) gs).map (·.1) = gs.map (·.1) ∧
    ∀ n, field (news.foldl (fun gs n => setField gs n.1 n.2) gs) n = (field news n).or (field gs n) := by
  induction news with
  | nil => intro gs _ _; exact ⟨rfl, fun n => rfl⟩
  | cons f news ih =>
    intro gs hn hm
    obtain ⟨k, x⟩ := f
    rw [List.map_cons, List.nodup_cons] at hn
    rw [List.foldl_cons]
    obtain ⟨h1, h2⟩ := ih (setField gs k x) hn.2 (fun n h => by rw [names_setField]; exact hm n (by simp only [List.map_cons, List.mem_cons]; exact .inr h))
    refine ⟨h1.trans (names_setField _ _ _), fun n => ?_⟩
    rw [h2 n, field_setField _ _ _ _ (hm k (by simp)), field]
    by_cases hkn : k = n
    · subst hkn
      rw [if_pos rfl, if_pos rfl]
      rw [(field_none_iff news k).2 hn.1]; rfl
    · rw [if_neg hkn, if_neg hkn]

theorem foldl_tidy {t : Option String} (news : List (String × Py)) : ∀ (gs : List (String × Py)), (∀ n ∈ news, Tidy n.2) → Tidy (.dict t gs) →
    Tidy (.dict t (news.foldl (fun gs n => setField gs n.1 n.2) gs)) := by
  induction news with
  | nil => intro gs _ h; exact h
  | cons f news ih =>
    intro gs h1 h2
    exact ih _ (fun n h => h1 n (List.mem_cons_of_mem _ h)) (tidy_setField h2 (h1 f List.mem_cons_self))

theorem setIn_own {m : Models} {fs : List (String × Py)} {k : String} {ns : List String} {news : List (String × Py)} (h : Own m fs k ns)
    (hn : (news.map (·.1)).Nodup) (hs : ∀ n ∈ news.map (·.1), n ∈ ns) (ht : ∀ n ∈ news, Tidy n.2) :
    ∃ t gs gs', field fs k = some (.dict (some t) gs) ∧ field (setIn fs k news) k = some (.dict (some t) gs') ∧ m t = true ∧ Tidy (.dict (some t) gs') ∧
      (∀ n ∈ ns, ∃ x, field gs' n = some x) ∧ ∀ n, field gs' n = (field news n).or (field gs n) := by
  obtain ⟨t, gs, h1, h2, h3, h4⟩ := h
  have hm : ∀ n ∈ news.map (·.1), n ∈ gs.map (·.1) := by
    intro n hn
    obtain ⟨x, hx⟩ := h4 n (hs n hn)
    exact mem_of_field hx
  obtain ⟨h5, h6⟩ := foldl_setField news gs hn hm
  refine ⟨t, gs, _, h1, ?_, h2, foldl_tidy news gs ht h3, ?_, h6⟩
  · unfold setIn
    rw [h1]
    simp only
    rw [field_setField _ _ _ _ (mem_of_field h1), if_pos rfl]
  · intro n hn
    obtain ⟨x, hx⟩ := h4 n hn
    rw [field_some_iff, h5]
    exact mem_of_field hx

theorem setIn_other (fs : List (String × Py)) {k j : String} (news : List (String × Py)) (h : k ≠ j) : field (setIn fs k news) j = field fs j := by
  unfold setIn
  split
  · rename_i t gs hf
    rw [field_setField _ _ _ _ (mem_of_field hf), if_neg h]
  · rfl

theorem own_congr {m : Models} {fs fs' : List (String × Py)} {k : String} {ns : List String} (h : field fs' k = field fs k) (ho : Own m fs k ns) :
    Own m fs' k ns := by
  obtain ⟨t, gs, h1, h2⟩ := ho
  exact ⟨t, gs, by rw [h, h1], h2⟩

theorem field_setOrAdd (fs : List (String × Py)) (k n : String) (x : Py) : field (setOrAdd fs k x) n = if k = n then some x else field fs n := by
  induction fs with
  | nil =>
    rw [setOrAdd, field, field, field]
  | cons f fs ih =>
    obtain ⟨j, v⟩ := f
    rw [setOrAdd]
    by_cases hj : j = k
    · rw [if_pos hj, field, field]
      subst hj
      by_cases hn : j = n
      · rw [if_pos hn, if_pos hn]
      · rw [if_neg hn, if_neg hn, if_neg hn]
    · rw [if_neg hj, field, field, ih]
      by_cases hn : j = n
      · subst hn
        rw [if_pos rfl, if_pos rfl, if_neg (Ne.symm hj)]
      · rw [if_neg hn, if_neg hn]

theorem updateFields_proper {m : Models} {fs : List (String × Py)} (h : Proper m fs) :
    Proper m (updateFields fs) ∧ (∀ j, j ≠ "meta" → field (updateFields fs) j = field fs j) ∧
    ∀ n, n ≠ "fields" → at_ (.dict none (updateFields fs)) ["meta", n] = at_ (.dict none fs) ["meta", n] := by
  obtain ⟨hh, hm⟩ := (proper_iff m fs).1 h
  have ho : ∀ j, j ≠ "meta" → field (updateFields fs) j = field fs j := fun j hj => setIn_other fs _ (Ne.symm hj)
  obtain ⟨t, gs, gs', h1, h2, h3, h4, h5, h6⟩ := setIn_own (news := [("fields", .strs ((fs.map (·.1)).filter (· ≠ "meta")))]) hm (by simp)
    (by simp) (by intro n hn; rw [List.mem_singleton.1 hn]; exact tidy_leaf (by intros; simp))
  refine ⟨(proper_iff _ _).2 ⟨own_congr (ho _ (by decide)) hh, t, gs', h2, h3, h4, h5⟩, ho, ?_⟩
  intro n hn
  rw [at_dict, at_dict, h1]
  rw [show field (updateFields fs) "meta" = _ from h2]
  show at_ (.dict (some t) gs') [n] = at_ (.dict (some t) gs) [n]
  rw [at_dict, at_dict, h6, field, if_neg (Ne.symm hn)]
  rfl

theorem take_spec {v : Py} : ∀ (ns : List String) (news : List (String × Py)), take v ns = some news →
    news.map (·.1) = ns ∧ ∀ n ∈ ns, ∃ x, v.get n = some x ∧ field news n = some x := by
  intro ns
  induction ns with
  | nil => intro news h; rw [take] at h; cases h; exact ⟨rfl, by simp⟩
  | cons n ns ih =>
    intro news h
    rw [take] at h
    split at h
    · rename_i x xs h1 h2
      cases h
      obtain ⟨h3, h4⟩ := ih xs h2
      refine ⟨by rw [List.map_cons, h3], ?_⟩
      intro j hj
      rw [field]
      by_cases hnj : n = j
      · subst hnj; exact ⟨x, h1, by rw [if_pos rfl]⟩
      · rw [if_neg hnj]
        rcases List.mem_cons.1 hj with h | h
        · exact absurd h.symm hnj
        · exact h4 j h
    · cases h

theorem take_tidy {v : Py} (ht : Tidy v) : ∀ (ns : List String) (news : List (String × Py)), take v ns = some news → ∀ n ∈ news, Tidy n.2 := by
  intro ns
  induction ns with
  | nil => intro news h; rw [take] at h; cases h; intro n h; cases h
  | cons n ns ih =>
    intro news h
    rw [take] at h
    split at h
    · rename_i x xs h1 h2
      cases h
      intro j hj
      rcases List.mem_cons.1 hj with rfl | hj
      · cases v with
        | dict t fs => exact tidy_mem ht (field_mem h1)
        | _ => cases h1
      · exact ih xs h2 j hj
    · cases h

theorem at_get (v : Py) (n : String) : at_ v [n] = v.get n := by
  cases v with
  | dict t fs =>
    rw [at_dict]
    show _ = field fs n
    cases field fs n with
    | none => rfl
    | some x => show at_ x [] = _; rw [at_]
  | _ => rfl

/-- one turn of the loop that makes the block anew -/
theorem takeField_spec {m : Models} {fs fs' : List (String × Py)} {k : String} {v : Py} (hp : Proper m fs) (ht : Tidy v)
    (h : takeField m fs k v = some fs') :
    Proper m fs' ∧ (∃ x, field fs' k = some x ∧ isModel m x = true ∧ Tidy x ∧ (k ≠ "health" → k ≠ "meta" → x = v) ∧
      (k = "health" → ∀ n ∈ ["value", "alarm", "timeStamp"], ∃ y, at_ v [n] = some y ∧ at_ x [n] = some y) ∧
      (k = "meta" → ∀ n ∈ ["description", "tags", "writeable", "label"], ∃ y, at_ v [n] = some y ∧ at_ x [n] = some y)) ∧
    (∀ j, j ≠ k → j ≠ "meta" → field fs' j = field fs j) ∧
    (k ≠ "meta" → ∀ n, n ≠ "fields" → at_ (.dict none fs') ["meta", n] = at_ (.dict none fs) ["meta", n]) := by
  obtain ⟨hh, hm⟩ := (proper_iff m fs).1 hp
  unfold takeField at h
  split at h
  · rename_i hk
    subst hk
    obtain ⟨news, h1, rfl⟩ := Option.map_eq_some_iff.1 h
    obtain ⟨h2, h3⟩ := take_spec _ _ h1
    obtain ⟨t, gs, gs', g1, g2, g3, g4, g5, g6⟩ := setIn_own (news := news) hh (by rw [h2]; decide) (by rw [h2]; exact fun n h => h) (take_tidy ht _ _ h1)
    have hoth : ∀ j, j ≠ "health" → field (setIn fs "health" news) j = field fs j := fun j hj => setIn_other fs news (Ne.symm hj)
    refine ⟨(proper_iff _ _).2 ⟨⟨t, gs', g2, g3, g4, g5⟩, own_congr (hoth _ (by decide)) hm⟩, ⟨_, g2, g3, g4, fun h => absurd rfl h, ?_, (fun h => absurd h (by decide))⟩,
      fun j hj _ => hoth j hj, ?_⟩
    · intro _ n hn
      obtain ⟨y, h4, h5⟩ := h3 n hn
      refine ⟨y, by rw [at_get]; exact h4, ?_⟩
      rw [at_get]
      show field gs' n = some y
      rw [g6, h5]; rfl
    · intro _ n _
      rw [at_dict, at_dict, hoth "meta" (by decide)]
  · rename_i hk
    split at h
    · rename_i hk2
      subst hk2
      obtain ⟨news, h1, rfl⟩ := Option.map_eq_some_iff.1 h
      obtain ⟨h2, h3⟩ := take_spec _ _ h1
      obtain ⟨t, gs, gs', g1, g2, g3, g4, g5, g6⟩ := setIn_own (news := news) hm (by rw [h2]; decide) (by rw [h2]; exact fun n h => h) (take_tidy ht _ _ h1)
      have hoth : ∀ j, j ≠ "meta" → field (setIn fs "meta" news) j = field fs j := fun j hj => setIn_other fs news (Ne.symm hj)
      refine ⟨(proper_iff _ _).2 ⟨own_congr (hoth _ (by decide)) hh, t, gs', g2, g3, g4, g5⟩, ⟨_, g2, g3, g4, fun _ h => absurd rfl h, (fun h => absurd h (by decide)), ?_⟩,
        fun j hj _ => hoth j hj, fun h => absurd rfl h⟩
      intro _ n hn
      obtain ⟨y, h4, h5⟩ := h3 n (by
        simp only [List.mem_cons, List.not_mem_nil, or_false] at hn ⊢
        rcases hn with h | h | h | h <;> simp [h])
      refine ⟨y, by rw [at_get]; exact h4, ?_⟩
      rw [at_get]
      show field gs' n = some y
      rw [g6, h5]; rfl
    · rename_i hk2
      split at h
      · rename_i hmod
        cases h
        have hset : ∀ j, j ≠ k → field (setOrAdd fs k v) j = field fs j := fun j hj => by rw [field_setOrAdd, if_neg (Ne.symm hj)]
        have hp' : Proper m (setOrAdd fs k v) := (proper_iff _ _).2 ⟨own_congr (hset _ (Ne.symm hk)) hh, own_congr (hset _ (Ne.symm hk2)) hm⟩
        obtain ⟨u1, u2, u3⟩ := updateFields_proper hp'
        refine ⟨u1, ⟨v, by rw [u2 k hk2, field_setOrAdd, if_pos rfl], hmod, ht, fun _ _ => rfl, fun h => absurd h hk, fun h => absurd h hk2⟩, ?_, ?_⟩
        · intro j hj hj2; rw [u2 j hj2, hset j hj]
        · intro _ n hn
          rw [u3 n hn, at_dict, at_dict, hset _ (Ne.symm hk2)]
      · cases h

/-- the block that the loop makes: for each field that is sent, what was made of it when it was taken -/
structure Taken (m : Models) (c c' : Client) (vs : List (String × Pv)) (X : String → Py) : Prop where
  proper : Proper m c'.fields
  model : ∀ k w, (k, w) ∈ vs → isModel m (X k) = true ∧ Tidy (X k)
  field_ : ∀ k w, (k, w) ∈ vs → k ≠ "meta" → field c'.fields k = some (X k)
  rest : ∀ k, k ∉ vs.map (·.1) → k ≠ "meta" → field c'.fields k = field c.fields k
  plain_ : ∀ k w, (k, w) ∈ vs → k ≠ "health" → k ≠ "meta" → X k = back w
  health : ∀ w, ("health", w) ∈ vs → ∀ n ∈ ["value", "alarm", "timeStamp"], ∃ y, at_ (back w) [n] = some y ∧ at_ (X "health") [n] = some y
  meta_ : ∀ w, ("meta", w) ∈ vs → ∀ n ∈ ["description", "tags", "writeable", "label"],
    ∃ y, at_ (back w) [n] = some y ∧ at_ (X "meta") [n] = some y ∧ at_ (.dict none c'.fields) ["meta", n] = some y
  metaRest : "meta" ∉ vs.map (·.1) → ∀ n, n ≠ "fields" → at_ (.dict none c'.fields) ["meta", n] = at_ (.dict none c.fields) ["meta", n]
  update : ∀ p, p ∈ c'.update ↔ p ∈ c.update ∨ ∃ k w, (k, w) ∈ vs ∧ p ∈ terminals m [k] (X k)

theorem takeFields_spec {m : Models} : ∀ (vs : List (String × Pv)) (c : Client), (vs.map (·.1)).Nodup → (∀ kv ∈ vs, Tidy (back kv.2)) →
    Proper m c.fields → (takeFields m c vs).alive = true → ∃ X, Taken m c (takeFields m c vs) vs X := by
  intro vs
  induction vs with
  | nil =>
    intro c _ _ hp _
    refine ⟨fun _ => .none, ⟨hp, ?_, ?_, fun _ _ _ => rfl, ?_, ?_, ?_, fun _ _ _ => rfl, ?_⟩⟩
    · intro k w h; cases h
    · intro k w h; cases h
    · intro k w h; cases h
    · intro w h; cases h
    · intro w h; cases h
    · intro p; constructor
      · exact .inl
      · rintro (h | ⟨k, w, h, -⟩)
        · exact h
        · cases h
  | cons f vs ih =>
    intro c hn ht hp ha
    obtain ⟨k, w⟩ := f
    rw [List.map_cons, List.nodup_cons] at hn
    rw [takeFields] at ha ⊢
    split at ha
    · cases ha
    · rename_i fs' hf
      obtain ⟨hp', ⟨x, x1, x2, x3, x4, x5, x6⟩, hoth, hmeta⟩ := takeField_spec hp (ht _ List.mem_cons_self) hf
      obtain ⟨X, T⟩ := ih _ hn.2 (fun kv h => ht kv (List.mem_cons_of_mem _ h)) hp' ha
      rw [x1] at T ⊢
      have hk : ∀ {j v}, (j, v) ∈ vs → j ≠ k := by
        rintro j v h rfl; exact hn.1 (List.mem_map.2 ⟨_, h, rfl⟩)
      let Y : String → Py := fun j => if j = k then x else X j
      have hYk : Y k = x := if_pos rfl
      have hYj : ∀ {j v}, (j, v) ∈ vs → Y j = X j := fun h => if_neg (hk h)
      refine ⟨Y, ⟨T.proper, ?_, ?_, ?_, ?_, ?_, ?_, ?_, ?_⟩⟩
      · intro j v h
        rcases List.mem_cons.1 h with h | h
        · cases h; rw [hYk]; exact ⟨x2, x3⟩
        · rw [hYj h]; exact T.model j v h
      · intro j v h hj
        rcases List.mem_cons.1 h with h | h
        · cases h; rw [hYk, T.rest k hn.1 hj]; exact x1
        · rw [hYj h]; exact T.field_ j v h hj
      · intro j hj hjm
        rw [List.map_cons, List.mem_cons, not_or] at hj
        rw [T.rest j hj.2 hjm]
        exact hoth j hj.1 hjm
      · intro j v h h1 h2
        rcases List.mem_cons.1 h with h | h
        · cases h; rw [hYk]; exact x4 h1 h2
        · rw [hYj h]; exact T.plain_ j v h h1 h2
      · intro v h
        rcases List.mem_cons.1 h with h | h
        · cases h; rw [hYk]; exact x5 rfl
        · rw [hYj h]; exact T.health v h
      · intro v h n hnn
        rcases List.mem_cons.1 h with h | h
        · cases h
          obtain ⟨y, y1, y2⟩ := x6 rfl n hnn
          refine ⟨y, y1, by rw [hYk]; exact y2, ?_⟩
          rw [T.metaRest hn.1 n (by rintro rfl; simp at hnn)]
          show at_ (.dict none fs') ["meta", n] = some y
          rw [at_dict, x1]
          exact y2
        · rw [hYj h]; exact T.meta_ v h n hnn
      · intro h n hnn
        rw [List.map_cons, List.mem_cons, not_or] at h
        rw [T.metaRest h.2 n hnn]
        exact hmeta (Ne.symm h.1) n hnn
      · intro p
        rw [T.update p, List.mem_append]
        constructor
        · rintro ((h | h) | ⟨j, v, h1, h2⟩)
          · exact .inl h
          · exact .inr ⟨k, w, List.mem_cons_self, by rw [hYk]; exact h⟩
          · exact .inr ⟨j, v, List.mem_cons_of_mem _ h1, by rw [hYj h1]; exact h2⟩
        · rintro (h | ⟨j, v, h1, h2⟩)
          · exact .inl (.inl h)
          · rcases List.mem_cons.1 h1 with h | h
            · cases h; rw [hYk] at h2; exact .inl (.inr h2)
            · rw [hYj h] at h2; exact .inr ⟨j, v, h, h2⟩

theorem field_filter (P : String × Py → Prop) [DecidablePred P] (hP : ∀ k v v', P (k, v) → P (k, v')) (fs : List (String × Py)) (k : String) :
    field (fs.filter (fun f => decide (P f))) k = (field fs k).bind (fun v => if P (k, v) then some v else none) := by
  induction fs with
  | nil => rfl
  | cons f fs ih =>
    obtain ⟨n, v⟩ := f
    rw [List.filter_cons]
    by_cases hp : P (n, v)
    · rw [if_pos (decide_eq_true hp), field, field]
      by_cases hn : n = k
      · subst hn; rw [if_pos rfl, if_pos rfl]; show some v = if P (n, v) then some v else none; rw [if_pos hp]
      · rw [if_neg hn, if_neg hn, ih]
    · rw [if_neg (by simpa using hp), ih, field]
      by_cases hn : n = k
      · subst hn
        rw [if_pos rfl]
        show _ = if P (n, v) then some v else none
        rw [if_neg hp]
        cases hf : field fs n with
        | none => rfl
        | some v' => show (if P (n, v') then some v' else none) = none; rw [if_neg (fun h => hp (hP _ _ _ h))]
      · rw [if_neg hn]

theorem onlyOwn_proper {m : Models} {fs : List (String × Py)} (h : Proper m fs) :
    Proper m (onlyOwn fs) ∧ ∀ k, k ≠ "health" → k ≠ "meta" → field (onlyOwn fs) k = none := by
  have hf : ∀ k, field (fs.filter (fun f => f.1 = "health" ∨ f.1 = "meta")) k = if k = "health" ∨ k = "meta" then field fs k else none := by
    intro k
    rw [field_filter (fun f : String × Py => f.1 = "health" ∨ f.1 = "meta") (fun _ _ _ h => h)]
    split
    · rename_i h; cases field fs k with
      | none => rfl
      | some v => rfl
    · rename_i h; cases field fs k with
      | none => rfl
      | some v => rfl
  obtain ⟨hh, hm⟩ := (proper_iff m fs).1 h
  have hp : Proper m (fs.filter (fun f => f.1 = "health" ∨ f.1 = "meta")) :=
    (proper_iff _ _).2 ⟨own_congr (by rw [hf, if_pos (.inl rfl)]) hh, own_congr (by rw [hf, if_pos (.inr rfl)]) hm⟩
  obtain ⟨u1, u2, -⟩ := updateFields_proper hp
  refine ⟨u1, fun k h1 h2 => ?_⟩
  show field (updateFields _) k = none
  rw [u2 k h2, hf, if_neg (fun h => h.elim h1 h2)]

theorem model_terminals {m : Models} {x : Py} (h : isModel m x = true) {q : List String} (hq : q ∈ terminals m [] x) : q ≠ [] := by
  cases x with
  | dict t fs =>
    cases t with
    | none => cases h
    | some t =>
      obtain ⟨k, v, q', -, rfl, -⟩ := (mem_terminals_dict m (show recursed m (.dict (some t) fs) = true from h) q).1 hq
      simp
  | _ => cases h

theorem model_terminal_below {m : Models} {x y : Py} {n : String} (h : isModel m x = true) (hy : at_ x [n] = some y) {q : List String}
    (hq : q ∈ terminals m [] y) : n :: q ∈ terminals m [] x := by
  cases x with
  | dict t fs =>
    cases t with
    | none => cases h
    | some t =>
      rw [at_get] at hy
      exact (mem_terminals_dict m (show recursed m (.dict (some t) fs) = true from h) _).2 ⟨n, y, q, field_mem hy, rfl, hq⟩
  | _ => cases h

/-- the local block is made anew from the whole value -/
theorem synced_regenerate {m : Models} {c : Client} {v : Pv} {id : String} {vs : List (String × Pv)} (hv : v = .struct id vs) (hid : id ≠ ntTable)
    (ht : TidyPv v) (hp : Proper m c.fields) (hu : c.update = []) (ha : (regenerate m c v).alive = true) :
    Synced m (regenerate m c v) v ∧ Proper m (regenerate m c v).fields := by
  subst hv
  rw [tidyPv_struct] at ht
  obtain ⟨o1, o2⟩ := onlyOwn_proper hp
  rw [regenerate] at ha ⊢
  obtain ⟨X, T⟩ := takeFields_spec vs _ ht.1 (fun kv h => tidy_back _ (ht.2 kv h)) o1 ha
  have hat : ∀ k ks, at_ (back (.struct id vs)) (k :: ks) = (field vs k).bind (fun w => at_ (back w) ks) := by
    intro k ks
    rw [back, at_dict, field_back, if_neg (fun h => hid (by simpa using h.1))]
    cases field vs k <;> rfl
  have hupd : ∀ p, p ∈ (takeFields m { c with fields := onlyOwn c.fields } vs).update ↔ ∃ k w, (k, w) ∈ vs ∧ p ∈ terminals m [k] (X k) := by
    intro p
    rw [T.update p]
    show (p ∈ c.update ∨ _) ↔ _
    rw [hu]; simp
  refine ⟨⟨?_, ?_, ?_, ?_⟩, T.proper⟩
  · intro r hr
    rcases hr with ⟨k, h1, h2, rfl, h3⟩ | ⟨n, hn, rfl, h3⟩ | ⟨n, hn, rfl, h3⟩
    · rw [hat] at h3
      cases hf : field vs k with
      | none => rw [hf] at h3; exact absurd rfl h3
      | some w =>
        have hm := field_mem hf
        refine ⟨back w, ?_, ?_, ?_⟩
        · rw [at_dict, T.field_ k w hm h2, T.plain_ k w hm h1 h2]
          show at_ (back w) [] = _
          rw [at_]
        · rw [hat, hf]
          show at_ (back w) [] = _
          rw [at_]
        · intro q hq
          rw [hupd]
          exact ⟨k, w, hm, (mem_terminals m _ _ _).2 ⟨q, rfl, by rw [T.plain_ k w hm h1 h2]; exact hq⟩⟩
    · rw [hat] at h3
      cases hf : field vs "health" with
      | none => rw [hf] at h3; exact absurd rfl h3
      | some w =>
        have hm := field_mem hf
        obtain ⟨y, y1, y2⟩ := T.health w hm n hn
        refine ⟨y, ?_, ?_, ?_⟩
        · rw [at_dict, T.field_ _ w hm (by decide)]; exact y2
        · rw [hat, hf]; exact y1
        · intro q hq
          rw [hupd]
          exact ⟨"health", w, hm, (mem_terminals m _ _ _).2 ⟨n :: q, rfl, model_terminal_below (T.model _ w hm).1 y2 hq⟩⟩
    · rw [hat] at h3
      cases hf : field vs "meta" with
      | none => rw [hf] at h3; exact absurd rfl h3
      | some w =>
        have hm := field_mem hf
        obtain ⟨y, y1, y2, y3⟩ := T.meta_ w hm n hn
        refine ⟨y, y3, ?_, ?_⟩
        · rw [hat, hf]; exact y1
        · intro q hq
          rw [hupd]
          exact ⟨"meta", w, hm, (mem_terminals m _ _ _).2 ⟨n :: q, rfl, model_terminal_below (T.model _ w hm).1 y2 hq⟩⟩
  · intro k h1 h2 h3
    rw [hat] at h3
    have hk : k ∉ vs.map (·.1) := by
      rw [← field_none_iff]
      cases hf : field vs k with
      | none => rfl
      | some w =>
        rw [hf] at h3
        have h3 : at_ (back w) [] = none := h3
        rw [at_] at h3; cases h3
    rw [T.rest k hk h2]
    exact o2 k h1 h2
  · intro p hp q hq hpq
    obtain ⟨k, w, h1, h2⟩ := (hupd p).1 hp
    obtain ⟨k', w', h3, h4⟩ := (hupd q).1 hq
    obtain ⟨p', rfl, h5⟩ := (mem_terminals m _ _ _).1 h2
    obtain ⟨q', rfl, h6⟩ := (mem_terminals m _ _ _).1 h4
    rw [List.singleton_append, List.singleton_append, List.cons_prefix_cons] at hpq
    obtain ⟨rfl, hpq⟩ := hpq
    rw [terminals_anti m _ (T.model k w h1).2 p' h5 q' h6 hpq]
  · intro p hp
    obtain ⟨k, w, h1, h2⟩ := (hupd p).1 hp
    obtain ⟨p', rfl, h5⟩ := (mem_terminals m _ _ _).1 h2
    have := model_terminals (T.model k w h1).1 h5
    cases p' with
    | nil => exact absurd rfl this
    | cons a b => simp

/-! ### the own parts stay -/

theorem applyAt_own {m : Models} {u : Py} : ∀ (p : List String) (b b' : Py), applyAt m u b p = some b' →
    ∃ t gs gs', b = .dict t gs ∧ b' = .dict t gs' ∧ gs'.map (·.1) = gs.map (·.1) ∧ (Tidy b → Tidy u → Tidy b') := by
  intro p
  induction p with
  | nil => intro b b' h; cases b <;> simp [applyAt] at h
  | cons k ks ih =>
    intro b b' h
    by_cases hd : ∃ t fs, b = .dict t fs
    · obtain ⟨t, fs, rfl⟩ := hd
      cases ks with
      | nil =>
        rw [applyAt] at h
        split at h
        · split at h
          · cases h
          · cases h
            exact ⟨t, fs, _, rfl, rfl, names_setField _ _ _, fun h1 h2 => tidy_setField h1 h2⟩
        · cases h
      | cons l ks =>
        rw [applyAt] at h
        split at h
        · split at h
          · cases h
          · rename_i v hv
            obtain ⟨x, h1, h2⟩ := Option.map_eq_some_iff.1 h
            subst h2
            obtain ⟨-, -, -, -, -, -, h3⟩ := ih v x h1
            exact ⟨t, fs, _, rfl, rfl, names_setField _ _ _, fun h4 h5 => tidy_setField h4 (h3 (tidy_mem h4 (field_mem hv)) h5)⟩
        · cases h
    · exfalso
      have hd : ∀ t fs, b ≠ .dict t fs := fun t fs h => hd ⟨t, fs, h⟩
      cases b <;> first | exact hd _ _ rfl | (simp [applyAt] at h)

theorem applyChange_own {m : Models} {u : Py} {p : List String} {fs fs' : List (String × Py)} (h : applyChange m u fs p = some fs') (hu : Tidy u)
    {j : String} {ns : List String} (ho : Own m fs j ns) : Own m fs' j ns := by
  unfold applyChange at h
  split at h
  · rename_i k l ks
    split at h
    · cases h
    · rename_i v hv
      obtain ⟨x, h1, h2⟩ := Option.map_eq_some_iff.1 h
      subst h2
      by_cases hk : k = j
      · subst hk
        obtain ⟨t, gs, h3, h4, h5, h6⟩ := ho
        rw [h3] at hv; cases hv
        obtain ⟨t', gs1, gs', e1, rfl, e3, e4⟩ := applyAt_own _ _ _ h1
        cases e1
        refine ⟨t, gs', by rw [field_setField _ _ _ _ (mem_of_field h3), if_pos rfl], h4, e4 h5 hu, ?_⟩
        intro n hn
        obtain ⟨y, hy⟩ := h6 n hn
        rw [field_some_iff, e3]
        exact mem_of_field hy
      · exact own_other ho hk
  · cases h

theorem update_proper {m : Models} {acc : Acc} {v : Pv} (ht : TidyPv v) : ∀ (L : List (List String)) (c : Client),
    (L.foldl (applyOne m acc v) c).alive = true → Proper m c.fields → Proper m (L.foldl (applyOne m acc v) c).fields := by
  intro L
  induction L with
  | nil => intro c _ h; exact h
  | cons p L ih =>
    intro c ha hp
    obtain ⟨w, fs, hw, hc, heq⟩ := applyOne_alive (applyOne_dead L _ ha)
    rw [List.foldl_cons] at ha ⊢
    rw [heq] at ha ⊢
    refine ih _ ha ?_
    obtain ⟨h1, h2⟩ := (proper_iff _ _).1 hp
    have hu := tidy_back w (tidyPv_at _ _ _ ht hw)
    exact (proper_iff _ _).2 ⟨applyChange_own hc hu h1, applyChange_own hc hu h2⟩

end Verif.Proofs.PvaClient
