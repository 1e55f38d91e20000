import Verif.Proofs.PvaNet
/-!
C76: the local copy of a remote block over pvAccess shows the remote block while the channel is open.
-/
namespace Verif.Props.PvaClient
open Verif Verif.Pva Verif.Spec.Pva Verif.PvaClient Verif.Spec.PvaClient Verif.Proofs.PvaClient
open Verif.Props.Pva (field_none_iff field_setField names_setField mem_of_field back_conv Good noExt)

/-- At the start the channel has no client. -/
def start (t : Option String) (fs : List (String × Py)) (c : Client) : Net := { world := ⟨.dict t fs, {}⟩, client := c }

theorem start_ni {m : Models} {t : Option String} {fs : List (String × Py)} {c : Client} (ht : t ≠ some ntTable) (htidy : Tidy (.dict t fs))
    (hp : Proper m c.fields) (hu : c.update = []) : NI m (start t fs c) := by
  refine ⟨⟨⟨⟨t, fs, rfl⟩, fun _ => ⟨rfl, rfl⟩, (fun h => by cases h)⟩, htidy, ⟨t, fs, rfl, ht⟩, (fun h => by cases h)⟩, fun _ => ⟨hp, fun _ => hu, ?_⟩⟩
  intro h; cases h

/-- **C76.** As long as no callback has raised, a client that monitors an open channel shows the remote block as it is now: after any
history of changes, of clients that come and go, and of a channel that closes and opens, whatever the order in which the changes of an
update are gone through. -/
theorem proxy_shows_block_partial {ext : Ext} {m : Models} {acc : Acc} {order : List (List String) → List (List String)}
    (K : KeepsTypes ext) (hord : ∀ l x, x ∈ order l ↔ x ∈ l) {t : Option String} {fs : List (String × Py)} {c : Client}
    (ht : t ≠ some ntTable) (htidy : Tidy (.dict t fs)) (hp : Proper m c.fields) (hu : c.update = []) {evs : List NEv}
    (hg : Growing ext ⟨.dict t fs, {}⟩ (remoteEvs evs)) (he : TidyEvs (remoteEvs evs)) {n : Net}
    (hn : n = runNet ext m acc order (start t fs c) evs) (hj : n.joined = true) (ha : n.client.alive = true)
    (ho : n.world.handler.isOpen = true) : Mirrors n.client.fields (plain n.world.block) := by
  have h := ni_run (acc := acc) K hord evs _ (start_ni (m := m) ht htidy hp hu) hg he
  rw [← hn] at h
  obtain ⟨v, h1, h2, h3⟩ := h.world.good.shows ho
  have hv : openValue n.world.handler = some v := by unfold openValue; rw [if_pos ho, h2]
  have hs := (h.client ha).synced hj v hv
  rw [← h3]
  exact synced_mirrors hs

/-- The proxy says so when the channel closes, and the other fields stay. -/
theorem disconnect_shown {ext : Ext} {m : Models} {acc : Acc} {order : List (List String) → List (List String)}
    (K : KeepsTypes ext) (hord : ∀ l x, x ∈ order l ↔ x ∈ l) {t : Option String} {fs : List (String × Py)} {c : Client}
    (ht : t ≠ some ntTable) (htidy : Tidy (.dict t fs)) (hp : Proper m c.fields) (hu : c.update = []) {evs : List NEv} {e : Ev} {now : Int × Int}
    (hg : Growing ext ⟨.dict t fs, {}⟩ (remoteEvs evs)) (he : TidyEvs (remoteEvs evs)) {n n' : Net}
    (hn : n = runNet ext m acc order (start t fs c) evs) (hn' : n' = stepNet ext m acc order n (.remote e now))
    (hj : n.joined = true) (ha : n.client.alive = true) (ho : n.world.handler.isOpen = true) (hc : n'.world.handler.isOpen = false) :
    at_ (.dict none n'.client.fields) ["health", "value"] = some (.str "pvAccess disconnected") ∧
    at_ (.dict none n'.client.fields) ["health", "alarm"] = some disconnectedAlarm ∧
    (∀ k, k ≠ "health" → at_ (.dict none n'.client.fields) [k] = at_ (.dict none n.client.fields) [k]) ∧ n'.client.alive = true := by
  have h := ni_run (acc := acc) K hord evs _ (start_ni (m := m) ht htidy hp hu) hg he
  rw [← hn] at h
  obtain ⟨v, h1, h2, h3⟩ := h.world.good.shows ho
  have hv : openValue n.world.handler = some v := by unfold openValue; rw [if_pos ho, h2]
  have hst : n'.world = step ext n.world e := by rw [hn', stepNet]
  have hv' : openValue (step ext n.world e).handler = none := by
    rw [hst] at hc; unfold openValue; rw [if_neg (by rw [hc]; simp)]
  have hcl : n'.client = callback m acc order n.client (.disconnected now) := by
    rw [hn', stepNet]
    simp only [hj, if_true, sent, hv, hv']
  have hP := (proper_iff _ _).1 (h.client ha).proper
  have htidy : ∀ n ∈ [("value", Py.str "pvAccess disconnected"), ("alarm", disconnectedAlarm), ("timeStamp", timeStamp now)], Tidy n.2 := by
    intro n hn
    simp only [List.mem_cons, List.not_mem_nil, or_false] at hn
    rcases hn with rfl | rfl | rfl
    · exact tidy_leaf (by intros; simp)
    · refine tidy_mk (by decide) ?_
      intro k v hv
      simp only [List.mem_cons, List.not_mem_nil, or_false, Prod.mk.injEq] at hv
      rcases hv with ⟨-, rfl⟩ | ⟨-, rfl⟩ | ⟨-, rfl⟩ <;> exact tidy_leaf (by intros; simp)
    · refine tidy_mk (by simp) ?_
      intro k v hv
      simp only [List.mem_cons, List.not_mem_nil, or_false, Prod.mk.injEq] at hv
      rcases hv with ⟨-, rfl⟩ | ⟨-, rfl⟩ | ⟨-, rfl⟩ <;> exact tidy_leaf (by intros; simp)
  obtain ⟨t', gs, gs', -, g2, -, -, -, g6⟩ := setIn_own hP.1 (by simp) (by intro n hn; simpa using hn) htidy
  have hf : n'.client.fields = setIn n.client.fields "health" [("value", .str "pvAccess disconnected"), ("alarm", disconnectedAlarm),
      ("timeStamp", timeStamp now)] := by
    rw [hcl]; simp only [callback, if_pos ha]
  refine ⟨?_, ?_, ?_, ?_⟩
  · rw [hf, at_dict, g2]
    show at_ (.dict (some t') gs') ["value"] = _
    rw [at_get]
    show field gs' "value" = _
    rw [g6]; rfl
  · rw [hf, at_dict, g2]
    show at_ (.dict (some t') gs') ["alarm"] = _
    rw [at_get]
    show field gs' "alarm" = _
    rw [g6]; rfl
  · intro k hk
    rw [hf, at_dict, at_dict, setIn_other _ _ (Ne.symm hk)]
  · rw [hcl]; simp only [callback, if_pos ha]; exact ha

/-! ### when the callback does not raise -/

theorem takeField_some {m : Models} {fs : List (String × Py)} {k : String} {v : Py}
    (hh : k = "health" → ∀ n ∈ ["value", "alarm", "timeStamp"], at_ v [n] ≠ none)
    (hm : k = "meta" → ∀ n ∈ ["description", "tags", "writeable", "label", "fields"], at_ v [n] ≠ none)
    (hf : k ≠ "health" → k ≠ "meta" → isModel m v = true) : ∃ fs', takeField m fs k v = some fs' := by
  have htake : ∀ ns : List String, (∀ n ∈ ns, at_ v [n] ≠ none) → ∃ news, take v ns = some news := by
    intro ns
    induction ns with
    | nil => intro _; exact ⟨[], rfl⟩
    | cons n ns ih =>
      intro h
      obtain ⟨news, hn⟩ := ih (fun x hx => h x (List.mem_cons_of_mem _ hx))
      have hv := h n List.mem_cons_self
      rw [at_get] at hv
      cases hg : v.get n with
      | none => exact absurd hg hv
      | some x => exact ⟨_, by rw [take, hg, hn]⟩
  unfold takeField
  split
  · rename_i hk
    obtain ⟨news, hn⟩ := htake _ (hh hk)
    exact ⟨_, by rw [hn]; rfl⟩
  · rename_i hk
    split
    · rename_i hk2
      obtain ⟨news, hn⟩ := htake _ (hm hk2)
      exact ⟨_, by rw [hn]; rfl⟩
    · rename_i hk2
      rw [if_pos (hf hk hk2)]
      exact ⟨_, rfl⟩

theorem takeFields_alive {m : Models} : ∀ (vs : List (String × Pv)) (c : Client), c.alive = true →
    (∀ k w, (k, w) ∈ vs → k = "health" → ∀ n ∈ ["value", "alarm", "timeStamp"], at_ (back w) [n] ≠ none) →
    (∀ k w, (k, w) ∈ vs → k = "meta" → ∀ n ∈ ["description", "tags", "writeable", "label", "fields"], at_ (back w) [n] ≠ none) →
    (∀ k w, (k, w) ∈ vs → k ≠ "health" → k ≠ "meta" → isModel m (back w) = true) → (takeFields m c vs).alive = true := by
  intro vs
  induction vs with
  | nil => intro c h _ _ _; exact h
  | cons f vs ih =>
    obtain ⟨k, w⟩ := f
    intro c h h1 h2 h3
    obtain ⟨fs', hf⟩ := takeField_some (m := m) (fs := c.fields) (h1 k w List.mem_cons_self) (h2 k w List.mem_cons_self) (h3 k w List.mem_cons_self)
    rw [takeFields, hf]
    exact ih _ h (fun j v hj => h1 j v (List.mem_cons_of_mem _ hj)) (fun j v hj => h2 j v (List.mem_cons_of_mem _ hj))
      (fun j v hj => h3 j v (List.mem_cons_of_mem _ hj))

/-- A remote block whose fields are all Models, with a health and settings that are complete, is copied: a client that begins while
the channel is open shows it. -/
theorem join_shows_block {ext : Ext} {m : Models} {acc : Acc} {order : List (List String) → List (List String)}
    (K : KeepsTypes ext) (hord : ∀ l x, x ∈ order l ↔ x ∈ l) {t : Option String} {fs : List (String × Py)} {c : Client}
    (ht : t ≠ some ntTable) (htidy : Tidy (.dict t fs)) (hp : Proper m c.fields) (hu : c.update = []) {evs : List NEv}
    (hg : Growing ext ⟨.dict t fs, {}⟩ (remoteEvs evs)) (he : TidyEvs (remoteEvs evs)) {n n' : Net}
    (hn : n = runNet ext m acc order (start t fs c) evs) (hn' : n' = stepNet ext m acc order n .join)
    (hj : n.joined = false) (ha : n.client.alive = true) (ho : n.world.handler.isOpen = true)
    (hh : at_ n.world.block ["health"] ≠ none → ∀ k ∈ ["value", "alarm", "timeStamp"], at_ (plain n.world.block) ["health", k] ≠ none)
    (hm : at_ n.world.block ["meta"] ≠ none → ∀ k ∈ ["description", "tags", "writeable", "label", "fields"],
      at_ (plain n.world.block) ["meta", k] ≠ none)
    (hf : ∀ k x, k ≠ "health" → k ≠ "meta" → at_ (plain n.world.block) [k] = some x → isModel m x = true) :
    n'.client.alive = true ∧ Mirrors n'.client.fields (plain n'.world.block) := by
  have h := ni_run (acc := acc) K hord evs _ (start_ni (m := m) ht htidy hp hu) hg he
  rw [← hn] at h
  obtain ⟨v, h1, h2, h3⟩ := h.world.good.shows ho
  have hv : openValue n.world.handler = some v := by unfold openValue; rw [if_pos ho, h2]
  obtain ⟨-, -, -, -, id, vs, rfl, hid⟩ := openValue_some h.world hv
  have hat : ∀ k ks, at_ (back (.struct id vs)) (k :: ks) = (field vs k).bind (fun w => at_ (back w) ks) := by
    intro k ks
    rw [back, at_dict, Verif.Props.Pva.field_back, if_neg (fun h => hid (by simpa using h.1))]
    cases field vs k <;> rfl
  have hplain : ∀ k, at_ n.world.block [k] = none → at_ (plain n.world.block) [k] = none := by
    intro k hk
    obtain ⟨t', fs', hb⟩ := h.world.good.dict
    rw [hb] at hk ⊢
    rw [at_get] at hk ⊢
    rw [plain]
    show field (plainFields fs') k = none
    rw [Verif.Props.Pva.field_plain]
    rw [show field fs' k = none from hk]; rfl
  have hnd : (vs.map (·.1)).Nodup := ((tidyPv_struct _ _).1 (openValue_some h.world hv).2.2.2.1).1
  have hne : ∀ k w, (k, w) ∈ vs → at_ (plain n.world.block) [k] = some (back w) := by
    intro k w hw
    rw [← h3, hat, field_of_mem hnd hw]
    show at_ (back w) [] = _
    rw [at_]
  have hmem : ∀ k w, (k, w) ∈ vs → at_ n.world.block [k] ≠ none := by
    intro k w hw hk
    have := hne k w hw
    rw [hplain k hk] at this; cases this
  have hdeep : ∀ k w j, (k, w) ∈ vs → at_ (plain n.world.block) [k, j] = at_ (back w) [j] := by
    intro k w j hw
    rw [← h3, hat, field_of_mem hnd hw]; rfl
  have halive : (regenerate m n.client (.struct id vs)).alive = true := by
    rw [regenerate]
    refine takeFields_alive vs _ ha ?_ ?_ ?_
    · rintro k w hw rfl j hj
      rw [← hdeep "health" w j hw]
      exact hh (hmem _ w hw) j hj
    · rintro k w hw rfl j hj
      rw [← hdeep "meta" w j hw]
      exact hm (hmem _ w hw) j hj
    · intro k w hw k1 k2
      exact hf k _ k1 k2 (hne k w hw)
  have hupd := (h.client ha).closed (.inl hj)
  have hcl : n'.client = regenerate m n.client (.struct id vs) := by
    rw [hn', stepNet, if_neg (by rw [hj]; simp)]
    simp only [hv, callback, if_pos ha, if_pos hupd]
  have hw' : n'.world = n.world := by rw [hn', stepNet]; split <;> rfl
  rw [hcl, hw', ← h3]
  refine ⟨halive, ?_⟩
  exact synced_mirrors (synced_regenerate rfl hid (openValue_some h.world hv).2.2.2.1 (h.client ha).proper hupd halive).1

theorem applyAt_some {m : Models} {u : Py} : ∀ (p : List String) (b : Py), p ≠ [] → at_ b p ≠ none →
    (∀ q, q <+: p → q ≠ p → ∃ x, at_ b q = some x ∧ isModel m x = true) → ∃ b', applyAt m u b p = some b' := by
  intro p
  induction p with
  | nil => intro b h; exact absurd rfl h
  | cons k ks ih =>
    intro b _ hat hq
    obtain ⟨x, hx, hm⟩ := hq [] List.nil_prefix (by simp)
    rw [at_] at hx; cases hx
    cases b with
    | dict t fs =>
      rw [at_dict] at hat
      cases hf : field fs k with
      | none => rw [hf] at hat; exact absurd rfl hat
      | some v =>
        rw [hf] at hat
        cases ks with
        | nil => exact ⟨_, by rw [applyAt, if_pos hm, hf]⟩
        | cons l ks =>
          obtain ⟨b', hb⟩ := ih v (by simp) hat (fun q h1 h2 => by
            obtain ⟨x, hx, hm'⟩ := hq (k :: q) (List.cons_prefix_cons.2 ⟨rfl, h1⟩) (fun h => h2 (List.cons.inj h).2)
            rw [at_dict, hf] at hx
            exact ⟨x, hx, hm'⟩)
          exact ⟨.dict t (setField fs k b'), by rw [applyAt, if_pos hm, hf]; simp only [hb, Option.map_some]⟩
    | _ => cases hm

theorem applyChange_some {m : Models} {u : Py} {fs : List (String × Py)} {p : List String} (hl : 2 ≤ p.length) (h : OnlyModels m fs p) :
    ∃ fs', applyChange m u fs p = some fs' := by
  match p, hl with
  | k :: l :: ks, _ =>
    obtain ⟨h1, h2⟩ := h
    rw [at_dict] at h1
    cases hf : field fs k with
    | none => rw [hf] at h1; exact absurd rfl h1
    | some v =>
      rw [hf] at h1
      obtain ⟨b', hb⟩ := applyAt_some (m := m) (u := u) (l :: ks) v (by simp) h1 (fun q q1 q2 => by
        obtain ⟨x, hx, hm⟩ := h2 (k :: q) (by simp) (List.cons_prefix_cons.2 ⟨rfl, q1⟩) (fun h => q2 (List.cons.inj h).2)
        rw [at_dict, hf] at hx
        exact ⟨x, hx, hm⟩)
      exact ⟨setField fs k b', by rw [applyChange, hf]; simp only [hb, Option.map_some]⟩

theorem isModel_of_skelTop {m : Models} {b b' : Py} {t : Option String} {gs gs' : List (String × Py)} (h1 : b = .dict t gs) (h2 : b' = .dict t gs') :
    isModel m b' = isModel m b := by
  subst h1 h2; cases t <;> rfl

/-- a change elsewhere leaves a path as it was -/
theorem applyAt_top {m : Models} {u : Py} : ∀ (p q : List String) (b b' x : Py), applyAt m u b p = some b' → ¬ p <+: q → at_ b q = some x → isModel m x = true →
    ∃ x', at_ b' q = some x' ∧ isModel m x' = true := by
  intro p
  induction p with
  | nil => intro q b b' x h; cases b <;> simp [applyAt] at h
  | cons k ks ih =>
    intro q b b' x h hpq hx hm
    by_cases hd : ∃ t fs, b = .dict t fs
    · obtain ⟨t, fs, rfl⟩ := hd
      obtain ⟨t', gs, gs', e1, rfl, -, -⟩ := applyAt_own _ _ _ h
      cases e1
      cases q with
      | nil =>
        rw [at_] at hx; cases hx
        refine ⟨.dict t gs', by rw [at_], ?_⟩
        rw [isModel_of_skelTop rfl rfl]; exact hm
      | cons n ns =>
        have hgs : ∃ v y, field fs k = some v ∧ gs' = setField fs k y ∧ (ks = [] ∨ applyAt m u v ks = some y) := by
          cases ks with
          | nil =>
            rw [applyAt] at h
            split at h
            · split at h
              · cases h
              · rename_i v hv
                cases h; exact ⟨v, u, hv, rfl, .inl rfl⟩
            · cases h
          | cons l ks =>
            rw [applyAt] at h
            split at h
            · split at h
              · cases h
              · rename_i v hv
                obtain ⟨y, h1, h2⟩ := Option.map_eq_some_iff.1 h
                cases h2
                exact ⟨v, y, hv, rfl, .inr h1⟩
            · cases h
        obtain ⟨v, y, hv, rfl, hy⟩ := hgs
        rw [at_dict] at hx
        rw [at_dict, field_setField _ _ _ _ (mem_of_field hv)]
        by_cases hn : k = n
        · subst hn
          rw [if_pos rfl]
          rw [hv] at hx
          rcases hy with rfl | hy
          · exact absurd (List.cons_prefix_cons.2 ⟨rfl, List.nil_prefix⟩) hpq
          · exact ih ns v y x hy (fun h' => hpq (List.cons_prefix_cons.2 ⟨rfl, h'⟩)) hx hm
        · rw [if_neg hn]; exact ⟨x, hx, hm⟩
    · exfalso
      have hd : ∀ t fs, b ≠ .dict t fs := fun t fs h => hd ⟨t, fs, h⟩
      cases b <;> first | exact hd _ _ rfl | (simp [applyAt] at h)

theorem applyChange_top {m : Models} {u : Py} {p q : List String} {fs fs' : List (String × Py)} {x : Py} (h : applyChange m u fs p = some fs')
    (hpq : ¬ p <+: q) (hq : q ≠ []) (hx : at_ (.dict none fs) q = some x) (hm : isModel m x = true) :
    ∃ x', at_ (.dict none fs') q = some x' ∧ isModel m x' = true := by
  unfold applyChange at h
  split at h
  · rename_i k l ks
    split at h
    · cases h
    · rename_i v hv
      obtain ⟨y, h1, h2⟩ := Option.map_eq_some_iff.1 h
      subst h2
      cases q with
      | nil => exact absurd rfl hq
      | cons n ns =>
        rw [at_dict] at hx
        rw [at_dict, field_setField _ _ _ _ (mem_of_field hv)]
        by_cases hn : k = n
        · subst hn
          rw [if_pos rfl]
          rw [hv] at hx
          exact applyAt_top _ ns v y x h1 (fun h' => hpq (List.cons_prefix_cons.2 ⟨rfl, h'⟩)) hx hm
        · rw [if_neg hn]; exact ⟨x, hx, hm⟩
  · cases h

theorem fold_alive {m : Models} {acc : Acc} {v : Pv} (hacc : ∀ fs p u, acc fs p u = true) : ∀ (L : List (List String)) (c : Client), c.alive = true →
    (∀ p ∈ L, 2 ≤ p.length ∧ OnlyModels m c.fields p ∧ atPv v p ≠ none) → (∀ p ∈ L, ∀ q ∈ L, p <+: q → p = q) →
    (L.foldl (applyOne m acc v) c).alive = true := by
  intro L
  induction L with
  | nil => intro c h _ _; exact h
  | cons p L ih =>
    intro c hc hL hanti
    obtain ⟨h1, h2, h3⟩ := hL p List.mem_cons_self
    cases hw : atPv v p with
    | none => exact absurd hw h3
    | some w =>
      obtain ⟨fs', hf⟩ := applyChange_some (u := back w) h1 h2
      have e : applyOne m acc v c p = { c with fields := fs' } := by
        unfold applyOne
        rw [if_pos hc, hw]
        simp only [hacc, if_true, hf]
      rw [List.foldl_cons, e]
      refine ih _ hc ?_ (fun a ha b hb => hanti a (List.mem_cons_of_mem _ ha) b (List.mem_cons_of_mem _ hb))
      intro q hq
      obtain ⟨g1, ⟨g2, g4⟩, g3⟩ := hL q (List.mem_cons_of_mem _ hq)
      refine ⟨g1, ⟨?_, ?_⟩, g3⟩
      · have P := applyChange_placed m (back w) hf
        by_cases hpq : p = q
        · subst hpq; rw [P.here]; simp
        · rw [P.there q (fun h => hpq (hanti _ List.mem_cons_self _ (List.mem_cons_of_mem _ hq) h))
            (fun h => hpq (hanti _ (List.mem_cons_of_mem _ hq) _ List.mem_cons_self h).symm)]
          exact g2
      · intro r r1 r2 r3
        obtain ⟨x, hx, hm⟩ := g4 r r1 r2 r3
        refine applyChange_top hf (fun h => ?_) r1 hx hm
        have := hanti _ List.mem_cons_self _ (List.mem_cons_of_mem _ hq) (h.trans r2)
        subst this
        exact r3 (r2.eq_of_length (Nat.le_antisymm r2.length_le h.length_le))

/-- what is stored is there -/
theorem leaves_at {ext : Ext} (K : KeepsTypes ext) : ∀ new old x, store ext old new = some x → ∀ s ∈ leaves new, atPv x s ≠ none := by
  refine pv_ind ?_ ?_
  · intro new hn old x h s hs
    rw [leaves_leaf hn, List.mem_singleton] at hs
    rw [hs, atPv_nil]; simp
  · intro id fs ih old x h s hs
    obtain ⟨id', fs', r, rfl, h1, rfl⟩ := store_struct_cases K h
    rw [leaves] at hs
    clear h
    induction fs generalizing fs' with
    | nil => rw [leavesIn] at hs; cases hs
    | cons f fs ihf =>
      obtain ⟨k, v⟩ := f
      obtain ⟨o, x, ho, hx, hr⟩ := storeFields_cons h1
      rw [leavesIn] at hs
      rcases List.mem_append.1 hs with hs | hs
      · obtain ⟨s', hs', rfl⟩ := List.mem_map.1 hs
        have h2 := ih _ List.mem_cons_self _ _ hx s' hs'
        -- the types stay after this
        have hty : typeOf (.struct id' r) = typeOf (.struct id' (setField fs' k x)) :=
          store_type K (.struct id fs) (.struct id' (setField fs' k x)) (.struct id' r) (by rw [store, hr]; rfl)
        have h3 : atPv (.struct id' (setField fs' k x)) (k :: s') ≠ none := by
          rw [atPv_struct, field_setField _ _ _ _ (mem_of_field ho), if_pos rfl]; exact h2
        exact fun h => h3 (atPv_none_of_type hty _ h)
      · exact ihf (fun kv h => ih kv (List.mem_cons_of_mem _ h)) hs _ hr
where
  atPv_none_of_type {a b : Pv} (h : typeOf a = typeOf b) (p : List String) (hn : atPv a p = none) : atPv b p = none := by
    have key : ∀ (p : List String) (a : Pv), atPv (typeOf a) p = (atPv a p).map typeOf := by
      intro p
      induction p with
      | nil => intro a; rw [atPv_nil, atPv_nil]; rfl
      | cons k ks ih =>
        intro a
        by_cases hd : ∃ t fs, a = .struct t fs
        · obtain ⟨t, fs, rfl⟩ := hd
          rw [typeOf, atPv_struct, atPv_struct, typeOfIn_field]
          cases field fs k with
          | none => rfl
          | some w => exact ih w
        · have hd : ∀ t fs, a ≠ .struct t fs := fun t fs h => hd ⟨t, fs, h⟩
          rw [atPv_leaf hd, typeOf_leaf hd]; rfl
    have h1 := key p a
    rw [h, key p b, hn] at h1
    cases hb : atPv b p with
    | none => rfl
    | some w => rw [hb] at h1; cases h1

theorem updatePath_at {ext : Ext} (K : KeepsTypes ext) {new : Pv} : ∀ (p : List String) (v v' : Pv), updatePath ext new v p = some v' →
    ∀ s ∈ leaves new, atPv v' (p ++ s) ≠ none := by
  intro p
  induction p with
  | nil => intro v v' h; cases v <;> simp [updatePath] at h
  | cons k ks ih =>
    intro v v' h s hs
    obtain ⟨id, fs, o, x, rfl, ho, rfl, hh⟩ := updatePath_cases h
    rw [List.cons_append, atPv_struct, field_setField _ _ _ _ (mem_of_field ho), if_pos rfl]
    rcases hh with ⟨rfl, h'⟩ | ⟨-, h'⟩
    · exact leaves_at K _ _ _ h' s hs
    · exact ih _ _ h' s hs

theorem atPv_prefix : ∀ (p q : List String) (v : Pv), p <+: q → atPv v q ≠ none → atPv v p ≠ none := by
  intro p
  induction p with
  | nil => intro q v _ _; rw [atPv_nil]; simp
  | cons k ks ih =>
    intro q v hpq hq
    obtain ⟨r, rfl⟩ := hpq
    by_cases hd : ∃ t fs, v = .struct t fs
    · obtain ⟨t, fs, rfl⟩ := hd
      rw [List.cons_append, atPv_struct] at hq
      rw [atPv_struct]
      cases hf : field fs k with
      | none => rw [hf] at hq; exact hq
      | some w => rw [hf] at hq; exact ih (ks ++ r) w (List.prefix_append _ _) hq
    · have hd : ∀ t fs, v ≠ .struct t fs := fun t fs h => hd ⟨t, fs, h⟩
      rw [List.cons_append, atPv_leaf hd] at hq
      exact absurd rfl hq

theorem storedBy_at {ext : Ext} (K : KeepsTypes ext) : ∀ (cs : List Change) (v v' : Pv), updateAll ext v cs = some v' →
    ∀ s ∈ storedBy cs, atPv v' s ≠ none := by
  intro cs
  induction cs with
  | nil => intro v v' _ s hs; rw [storedBy] at hs; cases hs
  | cons c cs ih =>
    intro v v' h s hs
    obtain ⟨p, u⟩ := c
    obtain ⟨u', w, v1, rfl, hw, h1, h2⟩ := updateAll_cons h
    rw [storedBy, Option.bind_some, hw] at hs
    rcases List.mem_append.1 hs with hs | hs
    · obtain ⟨s', hs', rfl⟩ := List.mem_map.1 hs
      have h3 := updatePath_at K _ _ _ h1 s' hs'
      exact fun h => h3 (leaves_at.atPv_none_of_type (updateAll_type K _ _ _ h2) _ h)
    · exact ih _ _ h2 s hs

/-- Changes of places that are reached through Models only, with values that are accepted, are shown. -/
theorem change_shown {ext : Ext} {m : Models} {acc : Acc} {order : List (List String) → List (List String)}
    (K : KeepsTypes ext) (hord : ∀ l x, x ∈ order l ↔ x ∈ l) (hacc : ∀ fs p u, acc fs p u = true) {t : Option String} {fs : List (String × Py)} {c : Client}
    (ht : t ≠ some ntTable) (htidy : Tidy (.dict t fs)) (hp : Proper m c.fields) (hu : c.update = []) {evs : List NEv} {cs : List Change} {now : Int × Int}
    (hg : Growing ext ⟨.dict t fs, {}⟩ (remoteEvs evs)) (he : TidyEvs (remoteEvs evs)) {n n' : Net}
    (hn : n = runNet ext m acc order (start t fs c) evs) (hn' : n' = stepNet ext m acc order n (.remote (.changes cs) now))
    (hcs : AllGrow n.world.block cs) (hct : ∀ c ∈ cs, ∀ u, c.2 = some u → Tidy u)
    (hj : n.joined = true) (ha : n.client.alive = true) (ho : n.world.handler.isOpen = true) (ho' : n'.world.handler.isOpen = true)
    (hne : n.client.update ≠ []) (hom : ∀ p ∈ n.client.update, (∃ s ∈ storedBy cs, p <+: s) → OnlyModels m n.client.fields p) :
    n'.client.alive = true ∧ Mirrors n'.client.fields (plain (cs.foldl change n.world.block)) := by
  have h := ni_run (acc := acc) K hord evs _ (start_ni (m := m) ht htidy hp hu) hg he
  rw [← hn] at h
  have hNI := ni_step (acc := acc) K hord h (.remote (.changes cs) now) (by intro e now h cs' hc; cases h; cases hc; exact hcs)
    (by intro e now h cs' hc; cases h; cases hc; exact hct)
  rw [← hn'] at hNI
  have hst : n'.world = step ext n.world (.changes cs) := by rw [hn', stepNet]
  have hbl : n'.world.block = cs.foldl change n.world.block := by rw [hst, step]
  have hj' : n'.joined = true := by rw [hn', stepNet]; exact hj
  obtain ⟨v, h1, h2, h3⟩ := h.world.good.shows ho
  have hv : openValue n.world.handler = some v := by unfold openValue; rw [if_pos ho, h2]
  obtain ⟨v', h1', h2', h3'⟩ := hNI.world.good.shows ho'
  have hv' : openValue n'.world.handler = some v' := by unfold openValue; rw [if_pos ho', h2']
  have hup : updateAll ext v cs = some v' := by
    have ho2 := ho'
    rw [hst] at ho2
    obtain ⟨v2, e1, -, e3⟩ := step_open h.world.good ho2
    rw [hst] at h1'
    rw [h1'] at e1; cases e1
    rcases e3 with ⟨-, -, e6⟩ | ⟨cs', v0, e7, -, e5, e6⟩ | ⟨e4, -⟩
    · exact absurd rfl (e6 cs)
    · cases e7; rw [h1] at e5; cases e5; exact e6
    · rw [ho] at e4; cases e4
  have hci := h.client ha
  have hsy := hci.synced hj v hv
  have hcl : n'.client = updateBlock m acc order n.client v' (storedBy cs) := by
    rw [hst] at hv'
    rw [hn', stepNet]
    simp only [hj, if_true, sent, hv, hv', callback, if_pos ha, if_neg hne]
  have halive : n'.client.alive = true := by
    rw [hcl]
    unfold updateBlock
    have hmem : ∀ p ∈ order (n.client.update.filter (changedSet (storedBy cs))), p ∈ n.client.update ∧ ∃ s ∈ storedBy cs, p <+: s := by
      intro p hp
      rw [hord, List.mem_filter] at hp
      refine ⟨hp.1, ?_⟩
      obtain ⟨s, s1, s2⟩ := List.any_eq_true.1 hp.2
      exact ⟨s, s1, List.isPrefixOf_iff_prefix.1 s2⟩
    refine fold_alive hacc _ _ ha ?_ ?_
    · intro p hp
      obtain ⟨p1, s, s1, s2⟩ := hmem p hp
      exact ⟨hsy.long p p1, hom p p1 ⟨s, s1, s2⟩, atPv_prefix p s v' s2 (storedBy_at K cs v v' hup s s1)⟩
    · intro p hp q hq
      exact hsy.anti p (hmem p hp).1 q (hmem q hq).1
  refine ⟨halive, ?_⟩
  rw [← hbl, ← h3']
  exact synced_mirrors ((hNI.client halive).synced hj' v' hv')

/-- After a callback has raised, nothing is shown any more: the monitor is closed. -/
theorem dead_stays {ext : Ext} {m : Models} {acc : Acc} {order : List (List String) → List (List String)} : ∀ (evs : List NEv) (n : Net),
    n.client.alive = false → (runNet ext m acc order n evs).client = n.client := by
  have hcb : ∀ c msg, c.alive = false → callback m acc order c msg = c := by
    intro c msg h; unfold callback; rw [if_neg (by rw [h]; simp)]
  intro evs
  induction evs with
  | nil => intro n _; rfl
  | cons e evs ih =>
    intro n h
    have : (stepNet ext m acc order n e).client = n.client := by
      cases e with
      | join =>
        rw [stepNet]
        split
        · rfl
        · simp only
          split
          · exact hcb _ _ h
          · rfl
      | remote e now =>
        rw [stepNet]
        simp only
        split
        · split
          · exact hcb _ _ h
          · rfl
        · rfl
    have h2 := ih (stepNet ext m acc order n e) (by rw [this]; exact h)
    rw [← this]
    exact h2

/-! ### puts -/

def puttable (f : String × Pv) : Bool :=
  match f.2.id with
  | some i => decide (i ∉ unputtable)
  | none => false

theorem putPaths_eq (id : String) (gs : List (String × Pv)) : putPaths false (.struct id gs) = (gs.filter puttable).map (fun f => f.1 ++ ".value") := rfl

/-- **C76.** A put of the client reaches the attribute of the remote block, with the data that was put. -/
theorem put_arrives {a : String} {v : Py} {op : PutOp} (hs : sendPut a v = some op) {h : Handler} {f id : String} {fs gs : List (String × Pv)}
    (hv : h.value = some (.struct id fs)) (hg : gs.map (·.1) = fs.map (·.1)) (hp : h.putPaths = putPaths false (.struct id gs))
    (hnd : (fs.map (·.1)).Nodup) {x : Pv} {i : String} (hx : (a, x) ∈ gs) (hi : x.id = some i) (hu : i ∉ unputtable)
    (hdot : ∀ b ∈ fs.map (·.1), b ++ ".value" ≠ a) : put false h f op = some ([a, "value"], plain v) := by
  unfold sendPut at hs
  split at hs
  · cases hs
  · rename_i w hw
    cases hs
    have hinj : ∀ b c : String, b ++ ".value" = c ++ ".value" → b = c := by
      intro b c h
      have : b.toList ++ ".value".toList = c.toList ++ ".value".toList := by rw [← String.toList_append, ← String.toList_append, h]
      exact String.toList_inj.1 (List.append_cancel_right this)
    have hfil : h.putPaths.filter (fun s => decide (s ∈ [a, a ++ ".value"])) = [a ++ ".value"] := by
      rw [hp, putPaths_eq]
      have hgn : (gs.map (·.1)).Nodup := by rw [hg]; exact hnd
      have hsub : ∀ b ∈ gs.map (·.1), b ++ ".value" ≠ a := by rw [hg]; exact hdot
      clear hp hg hv hnd hdot
      induction gs with
      | nil => cases hx
      | cons g gs ih =>
        obtain ⟨k, y⟩ := g
        rw [List.map_cons, List.nodup_cons] at hgn
        have hrest : a = k → (((gs.filter puttable).map (fun f => f.1 ++ ".value")).filter (fun s => decide (s ∈ [a, a ++ ".value"]))) = [] := by
          intro hak
          rw [List.filter_eq_nil_iff]
          intro s hsm
          obtain ⟨⟨j, z⟩, hj, rfl⟩ := List.mem_map.1 hsm
          have hjm := (List.mem_filter.1 hj).1
          simp only [List.mem_cons, List.not_mem_nil, or_false, decide_eq_true_eq, not_or]
          refine ⟨hsub j (List.mem_map.2 ⟨(j, z), List.mem_cons_of_mem _ hjm, rfl⟩), fun h => ?_⟩
          have := hinj _ _ h
          subst this
          exact hgn.1 (List.mem_map.2 ⟨(j, z), hjm, by rw [hak]⟩)
        rcases List.mem_cons.1 hx with hxe | hxm
        · cases hxe
          rw [List.filter_cons, if_pos (by simp [puttable, hi, hu]), List.map_cons, List.filter_cons, if_pos (by simp), hrest rfl]
        · have hak : a ≠ k := fun h => hgn.1 (List.mem_map.2 ⟨(a, x), hxm, h⟩)
          have ih' := ih hxm hgn.2 (fun b hb => hsub b (by rw [List.map_cons]; exact List.mem_cons_of_mem _ hb))
          rw [List.filter_cons]
          split
          · rw [List.map_cons, List.filter_cons, if_neg]
            · exact ih'
            · simp only [List.mem_cons, List.not_mem_nil, or_false, decide_eq_true_eq, not_or]
              exact ⟨hsub k (by simp), fun h => hak (hinj _ _ h).symm⟩
          · exact ih'
    have hcut : cut (fs.map (·.1)) (a ++ ".value") = some a := by
      have hmem : a ∈ fs.map (·.1) := by rw [← hg]; exact List.mem_map.2 ⟨_, hx, rfl⟩
      unfold cut
      cases hc : (fs.map (·.1)).find? (fun b => decide (b ++ ".value" = a ++ ".value")) with
      | none =>
        rw [List.find?_eq_none] at hc
        exact absurd (decide_eq_true rfl) (hc a hmem)
      | some b =>
        have := List.find?_some hc
        rw [hinj _ _ (of_decide_eq_true this)]
    unfold put
    rw [hfil]
    simp only [hv, hcut, Bool.false_eq_true, if_false]
    simp only [field, if_true, back, Py.get, backFields]
    have : ¬ (decide ("structure" = ntTable) = true ∧ "value" = "labels") := by decide
    rw [if_neg this]
    simp only [field, if_true, Option.map_some, back_conv v w hw]

/-! ### cases -/

theorem noExt_keeps : KeepsTypes noExt := ⟨(by intro _ _ _ h; cases h), fun _ _ _ => rfl, fun _ _ _ => rfl⟩

/-- some of the Models -/
def models : Models := fun t => t ∈ ["epics:nt/NTScalar:1.0", "malcolm:core/BlockMeta:1.0", "malcolm:core/Method:1.1", "malcolm:core/MethodMeta:1.1",
  "malcolm:core/MapMeta:1.0", "malcolm:core/StringMeta:1.0", "malcolm:core/ChoiceMeta:1.0", "malcolm:core/HealthMeta:1.0"]

def ok : Py := .dict (some "alarm_t") [("severity", .alarm 0), ("status", .alarm 0), ("message", .str "")]

def health (value label : String) : Py := .dict (some "epics:nt/NTScalar:1.0") [("value", .str value), ("alarm", ok), ("timeStamp", timeStamp (0, 0)),
  ("meta", .dict (some "malcolm:core/HealthMeta:1.0") [("label", .str label)])]

def blockMeta (label : String) (fields : List String) : Py := .dict (some "malcolm:core/BlockMeta:1.0")
  [("description", .str ""), ("tags", .strs []), ("writeable", .num "?" 1), ("label", .str label), ("fields", .strs fields)]

def choice (value : String) (choices : List String) : Py := .dict (some "epics:nt/NTScalar:1.0") [("value", .str value), ("alarm", ok),
  ("timeStamp", timeStamp (0, 0)), ("meta", .dict (some "malcolm:core/ChoiceMeta:1.0") [("choices", .strs choices)])]

def configure (description : String) : Py := .dict (some "malcolm:core/Method:1.1") [("meta", .dict (some "malcolm:core/MethodMeta:1.1")
  [("takes", .dict (some "malcolm:core/MapMeta:1.0") [("elements", .dict none [("exposure", .dict (some "malcolm:core/StringMeta:1.0")
    [("description", .str description)])])])])]

def remoteFields : List (String × Py) := [("health", health "OK" "Health"), ("mode", choice "a" ["a", "b"]), ("configure", configure "Time"),
  ("meta", blockMeta "Detector" ["health", "mode", "configure"])]

def remote : Py := .dict (some "malcolm:core/Block:1.0") remoteFields

/-- a local block before it has heard of the remote one -/
def fresh : Client := { fields := [("health", health "Uninitialized" ""), ("meta", blockMeta "" ["health"])] }

def yes : Acc := fun _ _ _ => true

def net0 : Net := start (some "malcolm:core/Block:1.0") remoteFields fresh

def strAt (fs : List (String × Py)) (p : List String) : Option String :=
  match at_ (.dict none fs) p with
  | some (.str s) => some s
  | _ => none

theorem fresh_proper : Proper models fresh.fields := by
  refine (proper_iff _ _).2 ⟨⟨_, _, rfl, by decide +kernel, ?_, ?_⟩, ⟨_, _, rfl, by decide +kernel, ?_, ?_⟩⟩
  · simp [Tidy, TidyIn, ok, timeStamp]
  · intro n hn
    simp only [List.mem_cons, List.not_mem_nil, or_false] at hn
    rcases hn with rfl | rfl | rfl <;> exact ⟨_, rfl⟩
  · simp [Tidy, TidyIn]
  · intro n hn
    simp only [List.mem_cons, List.not_mem_nil, or_false] at hn
    rcases hn with rfl | rfl | rfl | rfl | rfl <;> exact ⟨_, rfl⟩

theorem remote_tidy : Tidy remote := by
  simp [remote, remoteFields, Tidy, TidyIn, health, choice, configure, blockMeta, ok, timeStamp]

def change1 : List NEv := [.remote .connect (0, 0), .join, .remote (.changes [(["mode", "value"], some (.str "b"))]) (0, 0)]

/-- a case of `proxy_shows_block_partial` -/
example : (runNet noExt models yes id net0 change1).joined = true ∧ (runNet noExt models yes id net0 change1).client.alive = true ∧
    (runNet noExt models yes id net0 change1).world.handler.isOpen = true ∧
    strAt (runNet noExt models yes id net0 change1).client.fields ["mode", "value"] = some "b" ∧
    Growing noExt ⟨remote, {}⟩ (remoteEvs change1) ∧ TidyEvs (remoteEvs change1) := by
  refine ⟨by decide +kernel, by decide +kernel, by decide +kernel, by decide +kernel, ⟨nofun, ?_, trivial⟩, ?_⟩
  · intro cs h
    cases h
    refine ⟨?_, trivial⟩
    show keeps (plain (.str "a")) (plain (.str "b"))
    rw [plain, plain, keeps]
    exact ⟨"a", rfl⟩
  · intro cs hm c hc u hu
    simp only [change1, remoteEvs, List.mem_cons, List.not_mem_nil, or_false, reduceCtorEq, false_or, Ev.changes.injEq] at hm
    subst hm
    rw [List.mem_singleton.1 hc] at hu
    cases hu
    exact tidy_leaf (by intros; simp)

/-- a case of `change_shown`: the path goes through Models only -/
example : let n := runNet noExt models yes id net0 [.remote .connect (0, 0), .join]
    n.client.update ≠ [] ∧ ["mode", "value"] ∈ n.client.update ∧ OnlyModels models n.client.fields ["mode", "value"] := by
  refine ⟨by decide +kernel, by decide +kernel, ?_⟩
  refine ⟨(by intro h; cases h), ?_⟩
  intro q h1 h2 h3
  have : q = ["mode"] := by
    obtain ⟨r, hr⟩ := h2
    match q, h1, h3, hr with
    | [a], _, _, hr => rw [List.singleton_append] at hr; cases hr; rfl
    | a :: b :: q, _, h3, hr =>
      rw [List.cons_append, List.cons_append] at hr
      injection hr with e1 hr
      injection hr with e2 hr
      obtain ⟨rfl, rfl⟩ := List.append_eq_nil_iff.1 hr
      subst e1 e2
      exact absurd rfl h3
  subst this
  exact ⟨_, rfl, rfl⟩

/-- a case of `disconnect_shown` and of `join_shows_block`: the channel closes, and opens again when the block has another value -/
example : let n := runNet noExt models yes id net0 (change1 ++ [.remote .other (7, 8)])
    n.world.handler.isOpen = false ∧ n.client.alive = true ∧ strAt n.client.fields ["health", "value"] = some "pvAccess disconnected" ∧
      strAt n.client.fields ["mode", "value"] = some "b" ∧
      strAt (runNet noExt models yes id net0 (change1 ++ [.remote .other (7, 8), .remote .disconnect (0, 0), .remote (.changes [(["mode", "value"], some (.str "a"))]) (0, 0),
        .remote .connect (0, 0)])).client.fields ["mode", "value"] = some "a" := by
  decide +kernel

/-- The description of a parameter of a method changes. The parameters are in a dictionary, which has no `apply_change`: the callback
raises, and whatever the remote block does after that is not shown. -/
theorem parameter_change_stops_proxy (evs : List NEv) :
    let n := runNet noExt models yes id net0 [.remote .connect (0, 0), .join,
      .remote (.changes [(["configure", "meta", "takes", "elements", "exposure", "description"], some (.str "Exposure"))]) (0, 0),
      .remote (.changes [(["mode", "value"], some (.str "b"))]) (0, 0)]
    n.world.handler.isOpen = true ∧ strAt n.client.fields ["mode", "value"] = some "a" ∧
      strAt (runNet noExt models yes id n evs).client.fields ["mode", "value"] = some "a" := by
  refine ⟨by decide +kernel, by decide +kernel, ?_⟩
  rw [dead_stays evs _ (by decide +kernel)]
  decide +kernel

/-- a choice must be one of those that the local block knows -/
def oneOf : Acc := fun fs p u =>
  match p, u with
  | ["mode", "value"], .str s =>
    match at_ (.dict none fs) ["mode", "meta", "choices"] with
    | some (.strs cs) => s ∈ cs
    | _ => true
  | _, _ => true

/-- The choices and the value change together, to a new choice. Whether the proxy survives depends on the order in which a set is
gone through. -/
theorem order_matters :
    let evs : List NEv := [.remote .connect (0, 0), .join, .remote (.changes [(["mode", "meta", "choices"], some (.strs ["c"])),
      (["mode", "value"], some (.str "c"))]) (0, 0)]
    (runNet noExt models oneOf id net0 evs).client.alive = false ∧ (runNet noExt models oneOf List.reverse net0 evs).client.alive = true := by
  decide +kernel

/-- The label of the health is not copied when the client connects. -/
theorem health_meta_not_copied :
    let n := runNet noExt models yes id net0 [.remote .connect (0, 0), .join]
    strAt n.client.fields ["health", "value"] = some "OK" ∧ strAt n.client.fields ["health", "meta", "label"] = some "" ∧
      strAt remoteFields ["health", "meta", "label"] = some "Health" := by
  decide +kernel

/-- The hypotheses of `put_arrives` -/
example : (sendPut "mode" (.str "b")).isSome = true ∧
    ∃ op, sendPut "mode" (.str "b") = some op ∧
      (put false (runNet noExt models yes id net0 [.remote .connect (0, 0)]).world.handler "" op).map (·.1) = some ["mode", "value"] :=
  ⟨rfl, _, rfl, by decide +kernel⟩

end Verif.Props.PvaClient
