import Verif.Proofs.PvaTake
/-!
A remote block, its channel and a client of it.
-/
namespace Verif.Proofs.PvaClient
open Verif Verif.Pva Verif.Spec.Pva Verif.PvaClient Verif.Spec.PvaClient
open Verif.Props.Pva (field_none_iff field_setField names_setField fields_ext mem_of_field field_back names_back names_conv field_conv
  Good step_good run_good changes_dict change_dict conv_dict_struct updateAll_names)

/-! ### the remote block -/

theorem put1_mem {k : String} {x : Py} : ∀ (fs : List (String × Py)) {n : String} {v : Py}, (n, v) ∈ put1 fs k x → (n, v) ∈ fs ∨ v = x := by
  intro fs
  induction fs with
  | nil => intro n v h; rw [put1] at h; cases List.mem_singleton.1 h; exact .inr rfl
  | cons f fs ih =>
    obtain ⟨j, w⟩ := f
    intro n v h
    rw [put1] at h
    split at h
    · rcases List.mem_cons.1 h with h | h
      · cases h; exact .inr rfl
      · exact .inl (List.mem_cons_of_mem _ h)
    · rcases List.mem_cons.1 h with h | h
      · cases h; exact .inl List.mem_cons_self
      · exact (ih h).imp (List.mem_cons_of_mem _) id

theorem put1_names {k : String} {x : Py} : ∀ (fs : List (String × Py)),
    (put1 fs k x).map (·.1) = fs.map (·.1) ∨ (k ∉ fs.map (·.1) ∧ (put1 fs k x).map (·.1) = fs.map (·.1) ++ [k]) := by
  intro fs
  induction fs with
  | nil => right; exact ⟨by simp, rfl⟩
  | cons f fs ih =>
    obtain ⟨j, w⟩ := f
    rw [put1]
    by_cases h : j = k
    · rw [if_pos h]; left; rfl
    · rw [if_neg h]
      rcases ih with h1 | ⟨h1, h2⟩
      · left; rw [List.map_cons, h1]; rfl
      · right
        refine ⟨?_, by rw [List.map_cons, h2]; rfl⟩
        rw [List.map_cons, List.mem_cons, not_or]
        exact ⟨Ne.symm h, h1⟩

theorem tidy_put1 {t : Option String} {fs : List (String × Py)} {k : String} {x : Py} (h : Tidy (.dict t fs)) (hx : Tidy x) :
    Tidy (.dict t (put1 fs k x)) := by
  refine tidy_mk ?_ ?_
  · rcases put1_names (k := k) (x := x) fs with h1 | ⟨h1, h2⟩
    · rw [h1]; exact tidy_names h
    · rw [h2, List.nodup_append]
      refine ⟨tidy_names h, by simp, ?_⟩
      intro a ha b hb hab
      rw [List.mem_singleton.1 hb] at hab
      exact h1 (hab ▸ ha)
  · intro n v hm
    rcases put1_mem fs hm with h1 | rfl
    · exact tidy_mem h h1
    · exact hx

theorem tidy_setAt {u : Py} (hu : Tidy u) : ∀ (p : List String) (b : Py), Tidy b → Tidy (setAt u b p) := by
  intro p
  induction p with
  | nil => intro b _; rw [setAt]; exact hu
  | cons k ks ih =>
    intro b hb
    by_cases hd : ∃ t fs, b = .dict t fs
    · obtain ⟨t, fs, rfl⟩ := hd
      rw [setAt]
      split
      · rename_i v hv
        exact tidy_put1 hb (ih v (tidy_mem hb (field_mem hv)))
      · split
        · exact tidy_put1 hb hu
        · exact hb
    · have hd : ∀ t fs, b ≠ .dict t fs := fun t fs h => hd ⟨t, fs, h⟩
      have : setAt u b (k :: ks) = b := by
        cases b <;> first | exact absurd rfl (hd _ _) | rfl
      rw [this]; exact hb

theorem tidy_removeAt : ∀ (p : List String) (b : Py), Tidy b → Tidy (removeAt b p) := by
  intro p
  induction p with
  | nil => intro b h; rw [removeAt]; exact h
  | cons k ks ih =>
    intro b hb
    by_cases hd : ∃ t fs, b = .dict t fs
    · obtain ⟨t, fs, rfl⟩ := hd
      rw [removeAt]
      split
      · rename_i v hv
        split
        · refine tidy_mk ?_ ?_
          · exact (List.Sublist.map _ List.filter_sublist).nodup (tidy_names hb)
          · intro n v hm; exact tidy_mem hb (List.mem_filter.1 hm).1
        · exact tidy_put1 hb (ih v (tidy_mem hb (field_mem hv)))
      · exact hb
    · have hd : ∀ t fs, b ≠ .dict t fs := fun t fs h => hd ⟨t, fs, h⟩
      have : removeAt b (k :: ks) = b := by
        cases b <;> first | exact absurd rfl (hd _ _) | rfl
      rw [this]; exact hb

theorem tidy_changes : ∀ (cs : List Change) (b : Py), (∀ c ∈ cs, ∀ u, c.2 = some u → Tidy u) → Tidy b → Tidy (cs.foldl change b) := by
  intro cs
  induction cs with
  | nil => intro b _ h; exact h
  | cons c cs ih =>
    intro b hc hb
    refine ih _ (fun c h => hc c (List.mem_cons_of_mem _ h)) ?_
    obtain ⟨p, u⟩ := c
    cases u with
    | none => exact tidy_removeAt p b hb
    | some u => exact tidy_setAt (hc _ List.mem_cons_self u rfl) p b hb

/-- the block is no table -/
def NoTable (b : Py) : Prop := ∃ t fs, b = .dict t fs ∧ t ≠ some ntTable

theorem noTable_change {b : Py} {c : Change} (hg : Grows b c) (h : NoTable b) : NoTable (change b c) := by
  obtain ⟨t, fs, rfl, ht⟩ := h
  obtain ⟨p, u⟩ := c
  cases u with
  | none =>
    show NoTable (removeAt (.dict t fs) p)
    cases p with
    | nil => exact ⟨t, fs, by rw [removeAt], ht⟩
    | cons k ks =>
      rw [removeAt]
      split
      · split
        · exact ⟨t, _, rfl, ht⟩
        · exact ⟨t, _, rfl, ht⟩
      · exact ⟨t, _, rfl, ht⟩
  | some u =>
    show NoTable (setAt u (.dict t fs) p)
    cases p with
    | nil =>
      rw [setAt]
      have hg' : keeps (plain (.dict t fs)) (plain u) := hg
      obtain ⟨t2, fs2, rfl⟩ : ∃ t2 fs2, u = .dict t2 fs2 := by
        have := change_dict hg ⟨t, fs, rfl⟩
        obtain ⟨t2, fs2, h⟩ := this
        have h : setAt u (.dict t fs) [] = .dict t2 fs2 := h
        rw [setAt] at h
        exact ⟨t2, fs2, h⟩
      refine ⟨t2, fs2, rfl, ?_⟩
      rintro rfl
      rw [plain, plain, keeps] at hg'
      obtain ⟨fs', h1, -⟩ := hg'
      rw [Py.dict.injEq] at h1
      have h1 := h1.1
      rw [if_neg (show ¬ some ntTable = some "structure" by decide)] at h1
      split at h1
      · cases h1
      · exact ht h1
    | cons k ks =>
      rw [setAt]
      split
      · exact ⟨t, _, rfl, ht⟩
      · split
        · exact ⟨t, _, rfl, ht⟩
        · exact ⟨t, _, rfl, ht⟩

theorem noTable_changes : ∀ (cs : List Change) (b : Py), AllGrow b cs → NoTable b → NoTable (cs.foldl change b) := by
  intro cs
  induction cs with
  | nil => intro b _ h; exact h
  | cons c cs ih =>
    intro b hg h
    rw [AllGrow] at hg
    exact ih _ hg.2 (noTable_change hg.1 h)

/-! ### the channel -/

theorem createInitial_some {h h' : Handler} {cs : List Change} (hc : createInitial false h cs = some h') :
    ∃ u v, cs = [([], some u)] ∧ asObj u (conv u) = some v ∧ h'.value = some v ∧ h'.shown = some v := by
  unfold createInitial at hc
  split at hc
  · rename_i u
    split at hc
    · cases hc
    · rename_i v hv
      cases hc
      exact ⟨u, v, rfl, hv, rfl, rfl⟩
  · cases hc

/-- where the data of an open channel comes from -/
theorem step_open {ext : Ext} {w : World} {e : Ev} (hg : Good w) (ho : (step ext w e).handler.isOpen = true) :
    ∃ v', (step ext w e).handler.value = some v' ∧ (step ext w e).handler.shown = some v' ∧
      ((w.handler.isOpen = true ∧ w.handler.value = some v' ∧ ∀ cs, e ≠ .changes cs) ∨
       (∃ cs v, e = .changes cs ∧ w.handler.isOpen = true ∧ w.handler.value = some v ∧ updateAll ext v cs = some v') ∨
       (w.handler.isOpen = false ∧ asObj (step ext w e).block (conv (step ext w e).block) = some v')) := by
  cases e with
  | connect =>
    simp only [step] at ho ⊢
    cases hp : w.handler.pv with
    | true =>
      rw [hp, if_pos rfl] at ho
      obtain ⟨v, h1, h2, -⟩ := hg.shows ho
      rw [if_pos rfl]
      exact ⟨v, h1, h2, .inl ⟨ho, h1, by intro cs h; cases h⟩⟩
    | false =>
      obtain ⟨h1, h2⟩ := hg.idle hp
      rw [hp, if_neg (by simp)] at ho
      rw [if_neg (by simp)]
      simp only [handle, connect, if_true, h1] at ho ⊢
      obtain ⟨r, hr⟩ : ∃ r, r = createInitial false (⟨true, none, w.handler.isOpen, w.handler.putPaths, w.handler.shown⟩ : Handler) [([], some w.block)] :=
        ⟨_, rfl⟩
      rw [← hr] at ho ⊢
      cases r with
      | none => cases ho
      | some h' =>
        obtain ⟨u, v, e1, e2, e3, e4⟩ := createInitial_some hr.symm
        cases e1
        exact ⟨v, e3, e4, .inr (.inr ⟨h2, e2⟩)⟩
  | disconnect => simp [step, disconnect] at ho
  | other =>
    simp only [step, handle] at ho
    split at ho
    · cases ho
    · rename_i hp
      obtain ⟨-, h2⟩ := hg.idle (by simpa using hp)
      rw [h2] at ho; cases ho
  | changes cs =>
    simp only [step, handle] at ho ⊢
    cases hp : w.handler.pv with
    | false =>
      rw [hp] at ho
      simp only [Bool.false_eq_true, if_false] at ho
      obtain ⟨-, h2⟩ := hg.idle hp
      rw [h2] at ho; cases ho
    | true =>
      rw [hp] at ho
      simp only [if_true] at ho ⊢
      cases hv : w.handler.value with
      | none =>
        rw [hv] at ho
        simp only at ho ⊢
        have hcl : w.handler.isOpen = false := by
          rw [← Bool.not_eq_true]; intro h
          obtain ⟨v, h1, -⟩ := hg.shows h
          rw [hv] at h1; cases h1
        cases hc : createInitial false w.handler cs with
        | none => rw [hc] at ho; cases ho
        | some h' =>
          obtain ⟨u, v, rfl, e2, e3, e4⟩ := createInitial_some hc
          exact ⟨v, e3, e4, .inr (.inr ⟨hcl, by
            show asObj (change w.block ([], some u)) (conv (change w.block ([], some u))) = some v
            have : change w.block ([], some u) = u := by show setAt u w.block [] = u; rw [setAt]
            rw [this]; exact e2⟩)⟩
      | some v =>
        rw [hv] at ho
        simp only at ho ⊢
        cases hop : w.handler.isOpen with
        | false => rw [hop] at ho; simp [hop] at ho
        | true =>
          rw [hop] at ho
          simp only [if_true] at ho ⊢
          cases hu : updateValue ext w.handler v cs with
          | none => rw [hu] at ho; cases ho
          | some h' =>
            unfold updateValue at hu
            split at hu
            · cases hu
            · split at hu
              · cases hu
              · rename_i v' hv'
                cases hu
                exact ⟨v', rfl, rfl, .inr (.inl ⟨cs, v, rfl, trivial, rfl, hv'⟩)⟩

/-- what holds of the remote block and its channel -/
structure WI (w : World) : Prop where
  good : Good w
  tidy : Tidy w.block
  noTable : NoTable w.block
  val : w.handler.isOpen = true → ∀ v, w.handler.value = some v → TidyPv v ∧ ∃ id vs, v = .struct id vs ∧ id ≠ ntTable

theorem conv_noTable {b : Py} {v : Pv} (h : NoTable b) (hc : asObj b (conv b) = some v) : conv b = some v ∧ ∃ id vs, v = .struct id vs ∧ id ≠ ntTable := by
  obtain ⟨t, fs, rfl, ht⟩ := h
  have hc : conv (.dict t fs) = some v := hc
  refine ⟨hc, ?_⟩
  rw [conv] at hc
  split at hc
  · cases hc
  · obtain ⟨gs, -, rfl⟩ := Option.map_eq_some_iff.1 hc
    refine ⟨_, _, rfl, ?_⟩
    cases t with
    | none => decide
    | some t => intro h; exact ht (by rw [show t = ntTable from h])

theorem wi_step {ext : Ext} (K : KeepsTypes ext) {w : World} (h : WI w) (e : Ev) (he : ∀ cs, e = .changes cs → AllGrow w.block cs)
    (ht : ∀ cs, e = .changes cs → ∀ c ∈ cs, ∀ u, c.2 = some u → Tidy u) : WI (step ext w e) := by
  have hg := step_good (ext := ext) h.good e he
  have hb : Tidy (step ext w e).block ∧ NoTable (step ext w e).block := by
    cases e with
    | connect =>
      have : (step ext w .connect).block = w.block := by rw [step]; split <;> rfl
      rw [this]; exact ⟨h.tidy, h.noTable⟩
    | disconnect => exact ⟨h.tidy, h.noTable⟩
    | other => exact ⟨h.tidy, h.noTable⟩
    | changes cs => exact ⟨tidy_changes cs _ (ht cs rfl) h.tidy, noTable_changes cs _ (he cs rfl) h.noTable⟩
  refine ⟨hg, hb.1, hb.2, ?_⟩
  intro ho v hv
  obtain ⟨v', h1, h2, h3⟩ := step_open h.good ho
  rw [hv] at h1; cases h1
  rcases h3 with ⟨h4, h5, -⟩ | ⟨cs, v0, rfl, h4, h5, h6⟩ | ⟨-, h4⟩
  · exact h.val h4 v h5
  · obtain ⟨t0, id, vs, rfl, hid⟩ := h.val h4 v0 h5
    refine ⟨?_, ?_⟩
    · have := updateAll_type K cs _ _ h6
      rw [← tidyPv_typeOf, this, tidyPv_typeOf]; exact t0
    · obtain ⟨gs, rfl, -⟩ := updateAll_names cs id vs v h6
      exact ⟨id, gs, rfl, hid⟩
  · obtain ⟨h5, h6⟩ := conv_noTable hb.2 h4
    exact ⟨conv_tidy _ hb.1 v h5, h6⟩

/-! ### the client -/

/-- what holds of the client -/
structure CI (m : Models) (c : Client) (joined : Bool) (o : Option Pv) : Prop where
  proper : Proper m c.fields
  closed : (joined = false ∨ o = none) → c.update = []
  synced : joined = true → ∀ v, o = some v → Synced m c v

/-- what holds of all of it -/
structure NI (m : Models) (n : Net) : Prop where
  world : WI n.world
  client : n.client.alive = true → CI m n.client n.joined (openValue n.world.handler)

theorem openValue_some {w : World} (h : WI w) {v : Pv} (hv : openValue w.handler = some v) :
    w.handler.isOpen = true ∧ w.handler.value = some v ∧ back v = plain w.block ∧ TidyPv v ∧ ∃ id vs, v = .struct id vs ∧ id ≠ ntTable := by
  unfold openValue at hv
  split at hv
  · rename_i ho
    obtain ⟨v', h1, h2, h3⟩ := h.good.shows ho
    rw [h2] at hv; cases hv
    exact ⟨ho, h1, h3, h.val ho v h1⟩
  · cases hv

theorem callback_alive {m : Models} {acc : Acc} {order : List (List String) → List (List String)} {c : Client} {msg : Msg}
    (h : (callback m acc order c msg).alive = true) : c.alive = true := by
  unfold callback at h
  split at h
  · assumption
  · exact h

theorem disconnected_proper {m : Models} {fs : List (String × Py)} (now : Int × Int) (h : Proper m fs) :
    Proper m (setIn fs "health" [("value", .str "pvAccess disconnected"), ("alarm", disconnectedAlarm), ("timeStamp", timeStamp now)]) := by
  obtain ⟨hh, hm⟩ := (proper_iff _ _).1 h
  have htidy : ∀ n ∈ [("value", Py.str "pvAccess disconnected"), ("alarm", disconnectedAlarm), ("timeStamp", timeStamp now)], Tidy n.2 := by
    intro n hn
    simp only [List.mem_cons, List.not_mem_nil, or_false] at hn
    rcases hn with rfl | rfl | rfl
    · exact tidy_leaf (by intros; simp)
    · refine tidy_mk (by decide) ?_
      intro k v hv
      simp only [List.mem_cons, List.not_mem_nil, or_false, Prod.mk.injEq] at hv
      rcases hv with ⟨-, rfl⟩ | ⟨-, rfl⟩ | ⟨-, rfl⟩ <;> exact tidy_leaf (by intros; simp)
    · refine tidy_mk (by simp) ?_
      intro k v hv
      simp only [List.mem_cons, List.not_mem_nil, or_false, Prod.mk.injEq] at hv
      rcases hv with ⟨-, rfl⟩ | ⟨-, rfl⟩ | ⟨-, rfl⟩ <;> exact tidy_leaf (by intros; simp)
  obtain ⟨t, gs, gs', -, g2, g3, g4, g5, -⟩ := setIn_own hh (by simp) (by intro n hn; simpa using hn) htidy
  exact (proper_iff _ _).2 ⟨⟨t, gs', g2, g3, g4, g5⟩, own_congr (setIn_other _ _ (by decide)) hm⟩

/-- a whole value, when the client has none -/
theorem ci_whole {m : Models} {acc : Acc} {order : List (List String) → List (List String)} {c : Client} {v : Pv} {stored : List (List String)}
    (hp : Proper m c.fields) (hu : c.update = []) (ht : TidyPv v) (hs : ∃ id vs, v = .struct id vs ∧ id ≠ ntTable)
    (ha : (callback m acc order c (.value v stored)).alive = true) :
    CI m (callback m acc order c (.value v stored)) true (some v) := by
  have hc := callback_alive ha
  have e : callback m acc order c (.value v stored) = regenerate m c v := by
    unfold callback
    rw [if_pos hc]
    simp only
    rw [if_pos hu]
  rw [e] at ha ⊢
  obtain ⟨id, vs, h1, h2⟩ := hs
  obtain ⟨s1, s2⟩ := synced_regenerate h1 h2 ht hp hu ha
  refine ⟨s2, ?_, ?_⟩
  · rintro (h | h) <;> cases h
  · rintro - v' h; cases h; exact s1

theorem ni_step {ext : Ext} (K : KeepsTypes ext) {m : Models} {acc : Acc} {order : List (List String) → List (List String)}
    (hord : ∀ l x, x ∈ order l ↔ x ∈ l) {n : Net} (h : NI m n) (ev : NEv)
    (he : ∀ e now, ev = .remote e now → ∀ cs, e = .changes cs → AllGrow n.world.block cs)
    (ht : ∀ e now, ev = .remote e now → ∀ cs, e = .changes cs → ∀ c ∈ cs, ∀ u, c.2 = some u → Tidy u) :
    NI m (stepNet ext m acc order n ev) := by
  cases ev with
  | join =>
    rw [stepNet]
    split
    · exact h
    · rename_i hj
      refine ⟨h.world, ?_⟩
      simp only
      have hj : n.joined = false := by simpa using hj
      cases ho : openValue n.world.handler with
      | none =>
        intro ha
        have := h.client ha
        refine ⟨this.proper, fun _ => this.closed (.inl hj), ?_⟩
        intro _ v hv; cases hv
      | some v =>
        intro ha
        have := h.client (callback_alive ha)
        obtain ⟨-, -, -, t1, t2⟩ := openValue_some h.world ho
        exact ci_whole this.proper (this.closed (.inl hj)) t1 t2 ha
  | remote e now =>
    have hw := wi_step (ext := ext) K h.world e (he e now rfl) (ht e now rfl)
    refine ⟨hw, ?_⟩
    simp only [stepNet]
    cases hj : n.joined with
    | false =>
      simp only [Bool.false_eq_true, if_false]
      intro ha
      have := h.client ha
      exact ⟨this.proper, fun _ => this.closed (.inl hj), by intro h; cases h⟩
    | true =>
      simp only [if_true]
      cases ho : openValue n.world.handler with
      | none =>
        cases ho' : openValue (step ext n.world e).handler with
        | none =>
          have : sent e now n.world.handler (step ext n.world e).handler = none := by unfold sent; rw [ho, ho']
          rw [this]
          intro ha
          have := h.client ha
          exact ⟨this.proper, fun _ => this.closed (.inr ho), by intro _ v hv; cases hv⟩
        | some v =>
          have : sent e now n.world.handler (step ext n.world e).handler = some (.value v []) := by unfold sent; rw [ho, ho']
          rw [this]
          intro ha
          have := h.client (callback_alive ha)
          obtain ⟨-, -, -, t1, t2⟩ := openValue_some hw ho'
          exact ci_whole this.proper (this.closed (.inr ho)) t1 t2 ha
      | some v =>
        cases ho' : openValue (step ext n.world e).handler with
        | none =>
          have : sent e now n.world.handler (step ext n.world e).handler = some (.disconnected now) := by unfold sent; rw [ho, ho']
          rw [this]
          intro ha
          have hc := callback_alive ha
          have := h.client hc
          simp only [callback, if_pos hc]
          exact ⟨disconnected_proper now this.proper, fun _ => rfl, by intro _ v hv; cases hv⟩
        | some v' =>
          obtain ⟨o1, o2, -, -, -⟩ := openValue_some h.world ho
          obtain ⟨o1', o2', -, t1, t2⟩ := openValue_some hw ho'
          obtain ⟨v2, e1, -, e3⟩ := step_open h.world.good o1'
          rw [o2'] at e1; cases e1
          rcases e3 with ⟨-, e5, e6⟩ | ⟨cs, v0, rfl, -, e5, e6⟩ | ⟨e4, -⟩
          · rw [o2] at e5; cases e5
            have : sent e now n.world.handler (step ext n.world e).handler = none := by
              unfold sent; rw [ho, ho']
              cases e with
              | changes cs => exact absurd rfl (e6 cs)
              | _ => rfl
            rw [this]
            intro ha
            have hci := h.client ha
            rw [ho, hj] at hci
            exact hci
          · rw [o2] at e5; cases e5
            have : sent (.changes cs) now n.world.handler (step ext n.world (.changes cs)).handler = some (.value v' (storedBy cs)) := by
              unfold sent; rw [ho, ho']
            rw [this]
            intro ha
            have hc := callback_alive ha
            have hci := h.client hc
            rw [ho, hj] at hci
            by_cases hu : n.client.update = []
            · exact ci_whole hci.proper hu t1 t2 ha
            · have e : callback m acc order n.client (.value v' (storedBy cs)) = updateBlock m acc order n.client v' (storedBy cs) := by
                unfold callback
                rw [if_pos hc]
                simp only
                rw [if_neg hu]
              simp only [e] at ha ⊢
              refine ⟨update_proper t1 _ _ ha hci.proper, ?_, ?_⟩
              · rintro (h | h) <;> cases h
              · rintro - v2 h2; cases h2
                exact synced_update hord (hci.synced rfl v rfl) (updateAll_type K cs _ _ e6) (updateAll_same K cs _ _ e6) (tidy_back _ t1) ha
          · rw [o1] at e4; cases e4

theorem ni_run {ext : Ext} (K : KeepsTypes ext) {m : Models} {acc : Acc} {order : List (List String) → List (List String)}
    (hord : ∀ l x, x ∈ order l ↔ x ∈ l) : ∀ (evs : List NEv) (n : Net), NI m n → Growing ext n.world (remoteEvs evs) → TidyEvs (remoteEvs evs) →
    NI m (runNet ext m acc order n evs) := by
  intro evs
  induction evs with
  | nil => intro n h _ _; exact h
  | cons ev evs ih =>
    intro n h hg ht
    cases ev with
    | join =>
      have hw : (stepNet ext m acc order n .join).world = n.world := by rw [stepNet]; split <;> rfl
      refine ih _ (ni_step K hord h .join (by intro e now h; cases h) (by intro e now h; cases h)) ?_ ht
      rw [hw]; exact hg
    | remote e now =>
      have hg' : Growing ext n.world (e :: remoteEvs evs) := hg
      rw [Growing] at hg'
      have ht' : TidyEvs (e :: remoteEvs evs) := ht
      refine ih _ (ni_step K hord h (.remote e now) ?_ ?_) hg'.2 (fun cs hm => ht' cs (List.mem_cons_of_mem _ hm))
      · intro e' now' h; cases h; exact hg'.1
      · intro e' now' h cs hcs; cases h; subst hcs; exact ht' cs List.mem_cons_self

end Verif.Proofs.PvaClient
