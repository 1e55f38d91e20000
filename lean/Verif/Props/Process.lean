import Verif.Model.Process
import Verif.Proofs.Process
/-!
C23: "A Process never holds two controllers with one mri; it starts each of them once, in the order
added, publishes only blocks whose use allows it, and can be started again only after stopping."

`Proc.run fuel {} ops` is the process after the history `ops`. `ctls` is its dictionary of controllers,
`startLog` the mris whose start hook has been run since the process was last stopped.
-/
namespace Verif.Props.Process
open Verif Verif.Process

/-- what every history keeps -/
structure Inv (s : Proc) : Prop where
  nodup : s.ctls.keys.Nodup
  named : ∀ k c, Dict.get? s.ctls k = some c → c.mri = k
  started : s.startLog.Nodup ∧ ∀ k ∈ s.startLog, k ∈ s.ctls.keys
  order : s.startLog.Sublist s.ctls.keys
  stopped : s.phase = .stopped → s.startLog = []
  published : ∀ l ∈ s.publishLog, l.Nodup

theorem sublist_nodup {A : Type} {a b : List A} (h : a.Sublist b) (hb : b.Nodup) : a.Nodup := h.nodup hb

theorem afterStart_fields (fuel : Nat) (s : Proc) (count : Nat) (infos : List String) (m : Bool) :
    (afterStart fuel s count infos m).ctls = s.ctls ∧ (afterStart fuel s count infos m).startLog = s.startLog ∧
    (afterStart fuel s count infos m).phase = s.phase ∧
    (∀ l ∈ (afterStart fuel s count infos m).publishLog, l ∈ s.publishLog ∨
      l = publishList fuel s.ctls (afterStart fuel s count infos m).unpublished) := by
  unfold afterStart
  dsimp only
  split
  · refine ⟨rfl, rfl, rfl, ?_⟩
    intro l hl
    rcases List.mem_append.1 hl with h | h
    · exact .inl h
    · exact .inr (List.mem_singleton.1 h)
  · exact ⟨rfl, rfl, rfl, fun l hl => .inl hl⟩

theorem inv_step (fuel : Nat) (s : Proc) (h : Inv s) (op : Op) : Inv (s.step fuel op).1 := by
  cases op with
  | startBegin =>
    simp only [Proc.step]
    split
    · rename_i hp
      have := h.stopped hp
      refine ⟨h.nodup, h.named, ?_, ?_, by simp, h.published⟩
      · show (s.startLog ++ s.ctls.keys).Nodup ∧ _
        rw [this, List.nil_append]; exact ⟨h.nodup, fun _ hk => hk⟩
      · show (s.startLog ++ s.ctls.keys).Sublist _
        rw [this, List.nil_append]; exact List.Sublist.refl _
    · exact h
  | startEnd infos =>
    simp only [Proc.step]
    split
    · obtain ⟨a, b, c, d⟩ := afterStart_fields fuel s s.ctls.length infos true
      refine ⟨?_, ?_, ?_, ?_, by simp, ?_⟩ <;> dsimp only
      · rw [a]; exact h.nodup
      · rw [a]; exact h.named
      · rw [a, b]; exact h.started
      · rw [a, b]; exact h.order
      · intro l hl
        rcases d l hl with hl | hl
        · exact h.published l hl
        · rw [hl]; exact (publishList_sound _ _ h.nodup _).1
    · exact h
  | add cs infos =>
    obtain ⟨a, b, ⟨n, c⟩, d⟩ := addLoop_spec cs s.ctls h.nodup h.named
    have hsub : s.startLog.Sublist (addLoop s.ctls cs).1.keys := by
      rw [c]; exact h.order.trans (List.sublist_append_left _ _)
    simp only [Proc.step]
    have base : Inv { s with ctls := (addLoop s.ctls cs).1 } :=
      ⟨a, b, ⟨sublist_nodup hsub a, fun k hk => hsub.subset hk⟩, hsub, h.stopped, h.published⟩
    split
    · rename_i hr
      split
      · exact base
      · rename_i hp
        have hs2 : (s.startLog ++ cs.map (·.mri)).Sublist (addLoop s.ctls cs).1.keys := by
          rw [d hr]; exact h.order.append (List.Sublist.refl _)
        obtain ⟨e1, e2, e3, e4⟩ := afterStart_fields fuel
          { s with ctls := (addLoop s.ctls cs).1, startLog := s.startLog ++ cs.map (·.mri) } cs.length infos
          (decide (s.phase = .started))
        refine ⟨?_, ?_, ?_, ?_, ?_, ?_⟩
        · rw [e1]; exact a
        · rw [e1]; exact b
        · rw [e1, e2]; exact ⟨sublist_nodup hs2 a, fun k hk => hs2.subset hk⟩
        · rw [e1, e2]; exact hs2
        · rw [e3]; intro hc; exact absurd hc hp
        · intro l hl
          rcases e4 l hl with hl | hl
          · exact h.published l hl
          · rw [hl]; exact (publishList_sound _ _ a _).1
    · exact base
  | stopBegin =>
    simp only [Proc.step]
    split
    · exact ⟨h.nodup, h.named, h.started, h.order, by simp, h.published⟩
    · exact h
  | stopEnd timeout =>
    simp only [Proc.step]
    split
    · exact ⟨by simp [Dict.keys], (by intro k c hc; cases hc), by simp, by simp, by simp, h.published⟩
    · exact h

theorem inv_run (fuel : Nat) (ops : List Op) : ∀ s, Inv s → Inv (s.run fuel ops) := by
  induction ops with
  | nil => intro s h; exact h
  | cons op ops ih => intro s h; exact ih _ (inv_step fuel s h op)

theorem inv_init : Inv {} :=
  ⟨by simp [Dict.keys], (by intro k c hc; cases hc), by simp, by simp, by simp, by simp⟩

/-- **C23** part: after every history no two controllers have one mri, and each is under its own. -/
theorem mri_unique (fuel : Nat) (ops : List Op) :
    ((Proc.run fuel {} ops).ctls.map (·.2.mri)).Nodup := by
  have h := inv_run fuel ops {} inv_init
  have : (Proc.run fuel {} ops).ctls.map (·.2.mri) = (Proc.run fuel {} ops).ctls.keys := by
    show _ = (Proc.run fuel {} ops).ctls.map (·.1)
    apply List.map_congr_left
    intro e he
    exact h.named _ _ (Dict.get?_of_mem_nodup h.nodup he)
  rw [this]; exact h.nodup

/-- **C23** part: adding a controller whose mri is taken is refused, and none of the controllers given
with it is started. -/
theorem duplicate_refused (fuel : Nat) (s : Proc) (cs : List Ctl) (infos : List String)
    (h : ∃ c ∈ cs, c.mri ∈ s.ctls.keys) :
    (s.step fuel (.add cs infos)).2 = false ∧ (s.step fuel (.add cs infos)).1.startLog = s.startLog := by
  have key : ∀ (cs : List Ctl) (ctls : Ctls), (∃ c ∈ cs, c.mri ∈ ctls.keys) → (addLoop ctls cs).2 = false := by
    intro cs
    induction cs with
    | nil => rintro _ ⟨c, hc, _⟩; cases hc
    | cons c cs ih =>
      rintro ctls ⟨d, hd, hk⟩
      unfold addLoop
      split
      · rfl
      · rename_i hm
        dsimp only
        rcases List.mem_cons.1 hd with rfl | hd
        · exact absurd (Dict.mem_iff.2 hk) hm
        · split
          · refine ih _ ⟨d, hd, ?_⟩
            rw [Dict.keys_set]; split
            · exact hk
            · exact List.mem_append.2 (.inl hk)
          · rfl
  have := key cs s.ctls h
  simp [Proc.step, this]

/-- **C23** part: no start hook is run twice between two stops, whatever the history, and the start
hooks are run in the order in which the controllers were added. -/
theorem started_once_in_order (fuel : Nat) (ops : List Op) :
    (Proc.run fuel {} ops).startLog.Nodup ∧
    (Proc.run fuel {} ops).startLog.Sublist (Proc.run fuel {} ops).ctls.keys := by
  have h := inv_run fuel ops {} inv_init
  exact ⟨h.started.1, h.order⟩

/-- Every `add` of the history succeeded. -/
def AddsOk (fuel : Nat) : Proc → List Op → Prop
  | _, [] => True
  | s, op :: ops => (∀ cs infos, op = .add cs infos → (s.step fuel op).2 = true) ∧ AddsOk fuel (s.step fuel op).1 ops

/-- **C23** part: if no addition was refused, a process that is not stopped has run the start hooks of
all its controllers. What is missing: see `failed_add_not_started`. -/
theorem all_started_partial (fuel : Nat) (ops : List Op) (hok : AddsOk fuel {} ops)
    (hp : (Proc.run fuel {} ops).phase ≠ .stopped) :
    (Proc.run fuel {} ops).startLog = (Proc.run fuel {} ops).ctls.keys := by
  have key : ∀ (ops : List Op) (s : Proc), Inv s → AddsOk fuel s ops →
      (s.phase ≠ .stopped → s.startLog = s.ctls.keys) →
      (s.run fuel ops).phase ≠ .stopped → (s.run fuel ops).startLog = (s.run fuel ops).ctls.keys := by
    intro ops
    induction ops with
    | nil => intro s _ _ h; exact h
    | cons op ops ih =>
      intro s hi hok h
      refine ih _ (inv_step fuel s hi op) hok.2 ?_
      have hok1 := hok.1
      cases op with
      | startBegin =>
        simp only [Proc.step]
        split
        · rename_i hs; intro _; show s.startLog ++ s.ctls.keys = _; rw [hi.stopped hs]; rfl
        · exact h
      | startEnd infos =>
        simp only [Proc.step]
        split
        · rename_i hs
          obtain ⟨a, b, c, d⟩ := afterStart_fields fuel s s.ctls.length infos true
          intro _
          show (afterStart fuel s s.ctls.length infos true).startLog = (afterStart fuel s s.ctls.length infos true).ctls.keys
          rw [a, b]; exact h (by rw [hs]; simp)
        · exact h
      | add cs infos =>
        have hr := hok1 cs infos rfl
        obtain ⟨a, b, c, d⟩ := addLoop_spec cs s.ctls hi.nodup hi.named
        simp only [Proc.step] at hr ⊢
        by_cases hl : (addLoop s.ctls cs).2 = true
        · rw [if_pos hl]
          split
          · rename_i hs; intro hc; exact absurd hs hc
          · rename_i hs
            obtain ⟨e1, e2, e3, e4⟩ := afterStart_fields fuel
              { s with ctls := (addLoop s.ctls cs).1, startLog := s.startLog ++ cs.map (·.mri) } cs.length infos
              (decide (s.phase = .started))
            intro _
            rw [e1, e2]
            show s.startLog ++ _ = _
            rw [d hl, h hs]
        · rw [if_neg hl] at hr; cases hr
      | stopBegin =>
        simp only [Proc.step]
        split
        · rename_i hs; intro _; exact h (by rw [hs]; simp)
        · exact h
      | stopEnd timeout =>
        simp only [Proc.step]
        split
        · intro hc; exact absurd rfl hc
        · exact h
  exact key ops {} inv_init hok (by simp) hp

/-- **C23** part: a process can be started only when stopped, and stopped only when started; otherwise
the call is refused and nothing changes. After a stop nothing is left of the old controllers. -/
theorem start_stop_alternate (fuel : Nat) (s : Proc) :
    (s.phase ≠ .stopped → s.step fuel .startBegin = (s, false)) ∧
    (s.phase = .stopped → (s.step fuel .startBegin).2 = true ∧ (s.step fuel .startBegin).1.phase = .starting) ∧
    (s.phase ≠ .started → s.step fuel .stopBegin = (s, false)) ∧
    (s.phase = .started → (s.step fuel .stopBegin).2 = true ∧
      (s.step fuel .stopBegin).1.stopLog = s.stopLog ++ s.ctls.keys) ∧
    (s.phase = .stopping → (s.step fuel (.stopEnd false)).1.phase = .stopped ∧
      (s.step fuel (.stopEnd false)).1.ctls = []) := by
  refine ⟨?_, ?_, ?_, ?_, ?_⟩ <;> intro h <;> simp [Proc.step, h]

/-- **C23** part: the list given to the publish hook has each mri once, only mris of the process's
controllers, and none of a controller that said it is not to be published. -/
theorem publish_sound (fuel : Nat) (ops : List Op) :
    (∀ l ∈ (Proc.run fuel {} ops).publishLog, l.Nodup) ∧
    ∀ unp, ∀ k ∈ publishList fuel (Proc.run fuel {} ops).ctls unp, k ∈ (Proc.run fuel {} ops).ctls.keys ∧ k ∉ unp := by
  have h := inv_run fuel ops {} inv_init
  exact ⟨h.published, fun unp => (publishList_sound _ _ h.nodup unp).2⟩

/-- What a step adds to the publish log is the list for the controllers it has then, without those said
to be unpublished. -/
theorem publish_is_current (fuel : Nat) (s : Proc) (op : Op) :
    (s.step fuel op).1.publishLog = s.publishLog ∨
    (s.step fuel op).1.publishLog = s.publishLog ++
      [publishList fuel (s.step fuel op).1.ctls (s.step fuel op).1.unpublished] := by
  have ha : ∀ (s : Proc) (count : Nat) (infos : List String) (m : Bool),
      (afterStart fuel s count infos m).publishLog = s.publishLog ∨
      (afterStart fuel s count infos m).publishLog = s.publishLog ++
        [publishList fuel s.ctls (afterStart fuel s count infos m).unpublished] := by
    intro s count infos m
    unfold afterStart
    dsimp only
    split
    · exact .inr rfl
    · exact .inl rfl
  cases op with
  | startBegin => left; simp only [Proc.step]; split <;> rfl
  | startEnd infos =>
    simp only [Proc.step]
    split
    · rcases ha s s.ctls.length infos true with h | h
      · exact .inl h
      · right
        dsimp only
        rw [h, (afterStart_fields fuel s s.ctls.length infos true).1]
    · exact .inl rfl
  | add cs infos =>
    simp only [Proc.step]
    split
    · split
      · exact .inl rfl
      · rw [(afterStart_fields fuel _ _ _ _).1]
        exact ha { s with ctls := (addLoop s.ctls cs).1, startLog := s.startLog ++ cs.map (·.mri) } cs.length infos _
    · exact .inl rfl
  | stopBegin => left; simp only [Proc.step]; split <;> rfl
  | stopEnd t => left; simp only [Proc.step]; split <;> rfl

/-- When the publish hook is run: when starting ends with more controllers than the start hooks called
unpublished, and when controllers more than their start hooks called unpublished are added to a started
process, never else: not while it starts, stops or is stopped. -/
theorem published_when (fuel : Nat) (s : Proc) (op : Op) :
    (s.step fuel op).1.publishLog ≠ s.publishLog ↔
      (∃ infos, op = .startEnd infos ∧ s.phase = .starting ∧ infos.eraseDups.length < s.ctls.length) ∨
      (∃ cs infos, op = .add cs infos ∧ s.phase = .started ∧ (s.step fuel op).2 = true ∧
        infos.eraseDups.length < cs.length) := by
  have ha : ∀ (s : Proc) (count : Nat) (infos : List String) (m : Bool),
      (afterStart fuel s count infos m).publishLog ≠ s.publishLog ↔ (infos.eraseDups.length < count ∧ m = true) := by
    intro s count infos m
    unfold afterStart
    dsimp only
    by_cases hc : count > infos.eraseDups.length ∧ m = true
    · rw [if_pos hc]
      refine ⟨fun _ => hc, fun _ h => ?_⟩
      have := congrArg List.length h
      simp at this
    · rw [if_neg hc]; simp only [ne_eq, not_true_eq_false, false_iff]; exact hc
  cases op with
  | startBegin => simp only [Proc.step]; split <;> simp
  | startEnd infos =>
    simp only [Proc.step]
    split
    · rename_i hp
      have h := ha s s.ctls.length infos true
      simp only [and_true] at h
      dsimp only
      rw [h]
      simp [hp]
    · rename_i hp; simp [hp]
  | add cs infos =>
    simp only [Proc.step]
    split
    · split
      · rename_i hp; simp [hp]
      · rename_i hok hp
        have h := ha { s with ctls := (addLoop s.ctls cs).1, startLog := s.startLog ++ cs.map (·.mri) } cs.length infos
          (decide (s.phase = .started))
        dsimp only
        rw [h]
        simp only [decide_eq_true_eq]
        constructor
        · intro ⟨h1, h2⟩; exact .inr ⟨cs, infos, rfl, h2, trivial, h1⟩
        · rintro (⟨_, h1, _⟩ | ⟨_, _, h1, h2, _, h3⟩)
          · cases h1
          · cases h1; exact ⟨h3, h2⟩
    · rename_i hno; simp
  | stopBegin => simp only [Proc.step]; split <;> simp
  | stopEnd t => simp only [Proc.step]; split <;> simp

/-- The mris that the start hooks said are not to be published are remembered, so no later publish
list of the same run of the process has them. -/
theorem unpublished_remembered (fuel : Nat) (s : Proc) (infos : List String) (hs : s.phase = .starting) :
    ∀ m ∈ infos, m ∈ (s.step fuel (.startEnd infos)).1.unpublished := by
  intro m hm
  simp only [Proc.step, if_pos hs]
  have : m ∈ s.unpublished ++ infos.eraseDups.filter (· ∉ s.unpublished) := by
    by_cases h : m ∈ s.unpublished
    · exact List.mem_append.2 (.inl h)
    · refine List.mem_append.2 (.inr (List.mem_filter.2 ⟨List.mem_eraseDups.2 hm, by simpa using h⟩))
  unfold afterStart
  dsimp only
  split <;> exact this

/-- **C23** part: if blocks are not children of themselves, directly or through others, then every
block not said to be unpublished is published. `rank` witnesses the absence of cycles; `fuel` is the
depth of recursion Python allows. What is missing: with a cycle, see `cyclic_children_not_published`. -/
theorem publish_complete_partial (fuel : Nat) (ops : List Op) (unp : List String) (rank : String → Nat)
    (hN : ∀ c ∈ (Proc.run fuel {} ops).ctls.values, rank c.mri < fuel)
    (hr : ∀ c ∈ (Proc.run fuel {} ops).ctls.values, ∀ d ∈ (Proc.run fuel {} ops).ctls.values,
      d.mri ∈ c.parts → rank d.mri < rank c.mri) :
    ∀ k, k ∈ publishList fuel (Proc.run fuel {} ops).ctls unp ↔
      k ∈ (Proc.run fuel {} ops).ctls.keys ∧ k ∉ unp := by
  have h := inv_run fuel ops {} inv_init
  have hval : ∀ k c, Dict.get? (Proc.run fuel {} ops).ctls k = some c → c ∈ (Proc.run fuel {} ops).ctls.values := by
    intro k c hc
    exact List.mem_map.2 ⟨(k, c), Dict.get?_mem hc, rfl⟩
  intro k
  constructor
  · exact (publishList_sound _ _ h.nodup unp).2 k
  · rintro ⟨h1, h2⟩
    refine publishList_complete fuel _ h.nodup unp rank ?_ ?_ k h1 h2
    · intro k hk
      obtain ⟨c, hc⟩ := mem_keys_some hk
      have := hN c (hval k c hc)
      rw [h.named k c hc] at this; exact this
    · intro k hk p hp hpk
      obtain ⟨c, hc⟩ := mem_keys_some hk
      obtain ⟨d, hd⟩ := mem_keys_some hpk
      have hpc : p ∈ c.parts := by unfold partsOf at hp; rw [hc] at hp; exact hp
      have := hr c (hval k c hc) d (hval p d hd) (by rw [h.named p d hd]; exact hpc)
      rw [h.named k c hc, h.named p d hd] at this; exact this

/-! ### where the code does not do it -/

/-- A failing `add_controllers` leaves the controllers before the failing one in the process, but they
are never started. -/
theorem failed_add_not_started : ∃ ops : List Op,
    (Proc.run 9 {} ops).phase = .started ∧ "B" ∈ (Proc.run 9 {} ops).ctls.keys ∧
    "B" ∉ (Proc.run 9 {} ops).startLog :=
  ⟨[.add [⟨1, "A", [], true⟩] [], .startBegin, .startEnd [],
    .add [⟨2, "B", [], true⟩, ⟨3, "A", [], true⟩] []], by decide +kernel⟩

/-- A controller added while the process is stopping is started, and then dropped without its stop
hook being run. -/
theorem added_while_stopping : ∃ ops : List Op,
    let s := Proc.run 9 {} ops
    s.phase = .stopping ∧ "B" ∈ s.startLog ∧ "B" ∉ s.stopLog ∧ (s.step 9 (.stopEnd false)).1.phase = .stopped :=
  ⟨[.add [⟨1, "A", [], true⟩] [], .startBegin, .startEnd [], .stopBegin, .add [⟨2, "B", [], true⟩] []],
    by decide +kernel⟩

/-- Two blocks that are children of each other are not published, whatever they say. -/
theorem cyclic_children_not_published :
    publishList 9 [("A", ⟨1, "A", ["B"], true⟩), ("B", ⟨2, "B", ["A"], true⟩)] [] = [] := by decide +kernel

/-! ### examples -/

/-- parents come before children in the published list, and an unpublished block is left out -/
example : (Proc.run 9 {} [.add [⟨1, "A", [], true⟩, ⟨2, "B", ["A", "C"], true⟩, ⟨3, "C", [], true⟩] [],
    .startBegin, .startEnd ["C"]]).publishLog = [["B", "A"]] := by decide +kernel

example : AddsOk 9 {} [.add [⟨1, "A", [], true⟩] [], .startBegin, .add [⟨2, "B", [], true⟩] [], .startEnd []] ∧
    (Proc.run 9 {} [.add [⟨1, "A", [], true⟩] [], .startBegin, .add [⟨2, "B", [], true⟩] [], .startEnd []]).startLog
      = ["A", "B"] := by
  refine ⟨⟨?_, ?_, ?_, ?_, trivial⟩, by decide +kernel⟩ <;> intro cs infos h <;> cases h <;> decide +kernel

/-- the hypotheses of `publish_complete_partial` -/
example : let s := Proc.run 9 {} [.add [⟨1, "A", [], true⟩, ⟨2, "B", ["A"], true⟩] []]
    let rank := fun k => if k = "A" then 0 else 1
    (∀ c ∈ s.ctls.values, rank c.mri < 9) ∧
    ∀ c ∈ s.ctls.values, ∀ d ∈ s.ctls.values, d.mri ∈ c.parts → rank d.mri < rank c.mri := by decide +kernel

end Verif.Props.Process
