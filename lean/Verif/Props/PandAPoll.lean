import Verif.Spec.PandAPoll
import Verif.Proofs.PyDict
/-!
C40: "Each reported change of a bit output produces a visible edge by the next poll even when two changes fall within
one poll, and once the PandA stops changing the displayed value equals the last reported one after at most one more
poll." C58: "Every change of a field that the PandA reports in a poll is passed in that poll, with the last value
reported, to the block the field belongs to, and no block is told of anything else."
-/
namespace Verif.Props.PandAPoll
open Verif.PandAPoll Verif.Spec.PandAPoll

theorem dest_bit {k : Key} (h : BitName k) : dest k = some k := by simp [dest, h.1]

theorem dest_ne {k k' : Key} (h : BitName k) (hne : k' ≠ k) : dest k' ≠ some k := by
  intro hd
  unfold dest at hd
  split at hd
  · split at hd
    · have := Option.some.inj hd
      exact h.2 (by rw [← this])
    · cases hd
  · exact hne (Option.some.inj hd)

theorem emit_block {s : State} {o : Out} {k : Key} (h : BitName k) (k' : Key) (v : Val) :
    (emit s o k' v).block.get? k = if k' = k then some v else o.block.get? k := by
  by_cases hk : k' = k
  · subst hk; simp [emit, dest_bit h]
  · rw [if_neg hk]
    unfold emit
    cases hd : dest k' with
    | none => simp
    | some d =>
      simp only
      exact Dict.get?_set_ne _ _ (by intro e; subst e; exact dest_ne h hk hd)

theorem emit_bus {s : State} {o : Out} {k : Key} (hb : k ∈ s.busFields) (k' : Key) (v : Val) :
    (emit s o k' v).bus.get? k = if k' = k then some v else o.bus.get? k := by
  by_cases hk : k' = k
  · subst hk; simp [emit, hb]
  · rw [if_neg hk]
    unfold emit
    simp only
    split
    · exact Dict.get?_set_ne _ _ hk
    · rfl

/-- What is known of one bit: what is shown, what is deferred, and what block and bus have been told in this poll -/
structure View where
  bit : Option Bool
  pending : Option Bool
  block : Option Val
  bus : Option Val

def view (k : Key) (s : State) (o : Out) : View :=
  ⟨s.bitOuts.get? k, s.pending.get? k, o.block.get? k, o.bus.get? k⟩

theorem other_view {k : Key} (h : BitName k) {applied : Dict Key Bool} {s s' : State} {o o' : Out} {k' : Key} {r : Raw}
    (hne : k' ≠ k) (hb : k ∈ s.busFields) (hc : handleChange applied s o k' r = some (s', o')) :
    view k s' o' = view k s o ∧ s'.busFields = s.busFields := by
  unfold handleChange at hc
  cases h1 : s.bitOuts.get? k' with
  | none =>
    rw [h1] at hc
    have := Option.some.inj hc
    cases this
    simp [view, emit_block h, emit_bus hb, hne]
  | some cur =>
    rw [h1] at hc
    cases r with
    | other x => simp at hc
    | int n =>
      simp only at hc
      cases h2 : applied.get? k' with
      | none =>
        rw [h2] at hc
        simp only at hc
        split at hc
        · have := Option.some.inj hc
          cases this
          simp [view, emit_block h, emit_bus hb, hne, Dict.get?_set_ne]
        · have := Option.some.inj hc
          cases this
          simp [view, emit_block h, emit_bus hb, hne, Dict.get?_set_ne]
      | some c =>
        rw [h2] at hc
        simp only at hc
        split at hc
        · have := Option.some.inj hc
          cases this
          simp [view, hne, Dict.get?_set_ne]
        · have := Option.some.inj hc
          cases this
          simp

theorem others_view {k : Key} (h : BitName k) {applied : Dict Key Bool} (rs : List (Key × Raw)) (hs : Silent k rs) :
    ∀ {s s' : State} {o o' : Out}, k ∈ s.busFields → handleAll applied s o rs = some (s', o') →
      view k s' o' = view k s o ∧ s'.busFields = s.busFields := by
  induction rs with
  | nil =>
    intro s s' o o' _ hc
    have := Option.some.inj hc
    cases this
    exact ⟨rfl, rfl⟩
  | cons x rs ih =>
    obtain ⟨k', r⟩ := x
    intro s s' o o' hb hc
    simp only [handleAll] at hc
    cases h1 : handleChange applied s o k' r with
    | none => rw [h1] at hc; simp at hc
    | some so =>
      obtain ⟨s1, o1⟩ := so
      rw [h1] at hc
      have hne : k' ≠ k := hs (k', r) (by simp)
      obtain ⟨h2, h3⟩ := other_view h hne hb h1
      obtain ⟨h4, h5⟩ := ih (fun y hy => hs y (by simp [hy])) (by rw [h3]; exact hb) hc
      exact ⟨by rw [h4, h2], by rw [h5, h3]⟩

theorem handleAll_append (applied : Dict Key Bool) (a b : List (Key × Raw)) : ∀ s o,
    handleAll applied s o (a ++ b) = (handleAll applied s o a).bind fun so => handleAll applied so.1 so.2 b := by
  induction a with
  | nil => intro s o; rfl
  | cons x a ih =>
    intro s o
    obtain ⟨k, r⟩ := x
    simp only [List.cons_append, handleAll]
    cases handleChange applied s o k r with
    | none => rfl
    | some so => exact ih _ _

theorem applied_view (k : Key) (pend : Dict Key Bool) (hn : (Dict.keys pend).Nodup) : ∀ so : State × Out,
    let so' := pend.foldl applyOne so
    so'.1.pending = so.1.pending ∧ so'.1.busFields = so.1.busFields ∧
    (match pend.get? k with
      | some v => so'.1.bitOuts.get? k = some v ∧ so'.2.block.get? k = some (.bit v) ∧ so'.2.bus.get? k = some (.bit v)
      | none => so'.1.bitOuts.get? k = so.1.bitOuts.get? k ∧ so'.2.block.get? k = so.2.block.get? k ∧
          so'.2.bus.get? k = so.2.bus.get? k) := by
  induction pend with
  | nil => intro so; simp
  | cons x pend ih =>
    obtain ⟨k', v⟩ := x
    intro so
    have hn' : k' ∉ Dict.keys pend ∧ (Dict.keys pend).Nodup := by simpa [Dict.keys] using hn
    obtain ⟨h1, h2, h3⟩ := ih hn'.2 (applyOne so (k', v))
    refine ⟨h1, h2, ?_⟩
    rw [Dict.get?_cons]
    by_cases hk : k' = k
    · subst hk
      rw [if_pos rfl]
      rw [Dict.get?_none_iff.2 hn'.1] at h3
      simpa [applyOne] using h3
    · rw [if_neg hk]
      cases hp : Dict.get? pend k with
      | none =>
        rw [hp] at h3
        simpa [applyOne, Dict.get?_set_ne _ _ hk] using h3
      | some u =>
        rw [hp] at h3
        simpa using h3

theorem handle_nodup {applied : Dict Key Bool} (rs : List (Key × Raw)) : ∀ {s s' : State} {o o' : Out},
    (Dict.keys s.pending).Nodup → handleAll applied s o rs = some (s', o') → (Dict.keys s'.pending).Nodup := by
  induction rs with
  | nil => intro s s' o o' hn hc; cases Option.some.inj hc; exact hn
  | cons x rs ih =>
    obtain ⟨k, r⟩ := x
    intro s s' o o' hn hc
    simp only [handleAll] at hc
    cases h1 : handleChange applied s o k r with
    | none => rw [h1] at hc; simp at hc
    | some so =>
      rw [h1] at hc
      refine ih ?_ hc
      clear hc ih
      unfold handleChange at h1
      cases hb : s.bitOuts.get? k with
      | none => rw [hb] at h1; cases Option.some.inj h1; exact hn
      | some cur =>
        rw [hb] at h1
        cases r with
        | other x => simp at h1
        | int n =>
          simp only at h1
          cases h2 : applied.get? k with
          | none =>
            rw [h2] at h1
            simp only at h1
            split at h1
            · cases Option.some.inj h1; exact Dict.nodup_set hn _ _
            · cases Option.some.inj h1; exact hn
          | some c =>
            rw [h2] at h1
            simp only at h1
            split at h1
            · cases Option.some.inj h1; exact Dict.nodup_set hn _ _
            · cases Option.some.inj h1; exact hn

/-- What holds of a bit between polls: it is shown as `b`, and anything deferred for it is the opposite -/
structure Ok (k : Key) (s : State) (b : Bool) : Prop where
  nodup : (Dict.keys s.pending).Nodup
  bit : s.bitOuts.get? k = some b
  pend : ∀ v, s.pending.get? k = some v → v = !b
  bus : k ∈ s.busFields

theorem once_split (k : Key) (rs : List (Key × Raw)) (h : Once k rs) :
    Silent k rs ∨ ∃ pre r post, rs = pre ++ (k, r) :: post ∧ Silent k pre ∧ Silent k post := by
  induction rs with
  | nil => left; intro r hr; simp at hr
  | cons x rs ih =>
    by_cases hx : x.1 = k
    · right
      refine ⟨[], x.2, rs, by simp [← hx], by intro r hr; simp at hr, ?_⟩
      intro r hr he
      simp only [Once, List.filter_cons, hx, decide_true, if_true, List.length_cons] at h
      have : r ∈ rs.filter fun r => r.1 = k := by simp [hr, he]
      have := List.length_pos_iff.2 (List.ne_nil_of_mem this)
      omega
    · have h' : Once k rs := by simpa [Once, List.filter_cons, hx] using h
      rcases ih h' with hs | ⟨pre, r, post, rfl, h1, h2⟩
      · left
        intro r hr
        rcases List.mem_cons.1 hr with rfl | hr
        · exact hx
        · exact hs r hr
      · right
        refine ⟨x :: pre, r, post, rfl, ?_, h2⟩
        intro r hr
        rcases List.mem_cons.1 hr with rfl | hr
        · exact hx
        · exact h1 r hr

theorem apply_facts {k : Key} {s : State} {b : Bool} (hok : Ok k s b) :
    (applyPending s).1.pending = [] ∧ (applyPending s).1.busFields = s.busFields ∧
    (match s.pending.get? k with
      | some v => (applyPending s).1.bitOuts.get? k = some v ∧ (applyPending s).2.block.get? k = some (.bit v) ∧
          (applyPending s).2.bus.get? k = some (.bit v)
      | none => (applyPending s).1.bitOuts.get? k = some b ∧ (applyPending s).2.block.get? k = none ∧
          (applyPending s).2.bus.get? k = none) := by
  have := applied_view k s.pending hok.nodup ({ s with pending := [] }, {})
  obtain ⟨h1, h2, h3⟩ := this
  refine ⟨h1, h2, ?_⟩
  cases hp : s.pending.get? k with
  | none => rw [hp] at h3; simpa [applyPending, hok.bit] using h3
  | some v => rw [hp] at h3; exact h3

theorem silent_poll {k : Key} (hk : BitName k) {s s' : State} {o : Out} {b : Bool} (hok : Ok k s b)
    {rs : List (Key × Raw)} (hs : Silent k rs) (hp : poll s rs = some (s', o)) :
    ∃ b', Ok k s' b' ∧ s'.pending.get? k = none ∧ o.bus.get? k = o.block.get? k ∧
      (match s.pending.get? k with
      | some v => b' = v ∧ o.block.get? k = some (.bit v)
      | none => b' = b ∧ o.block.get? k = none) := by
  obtain ⟨h1, h2, h3⟩ := apply_facts hok
  simp only [poll] at hp
  obtain ⟨hv, hbf⟩ := others_view hk rs hs (by rw [h2]; exact hok.bus) hp
  have hnd := handle_nodup rs (by rw [h1]; simp [Dict.keys]) hp
  have e1 : s'.bitOuts.get? k = (applyPending s).1.bitOuts.get? k := congrArg View.bit hv
  have e2 : s'.pending.get? k = none := by
    have : s'.pending.get? k = (applyPending s).1.pending.get? k := congrArg View.pending hv
    rw [this, h1]; rfl
  have e3 : o.block.get? k = (applyPending s).2.block.get? k := congrArg View.block hv
  have e4 : o.bus.get? k = (applyPending s).2.bus.get? k := congrArg View.bus hv
  cases hpd : s.pending.get? k with
  | none =>
    rw [hpd] at h3
    obtain ⟨a1, a2, a3⟩ := h3
    exact ⟨b, ⟨hnd, by rw [e1, a1], by rw [e2]; simp, by rw [hbf, h2]; exact hok.bus⟩, e2, by rw [e3, e4, a2, a3],
      rfl, by rw [e3, a2]⟩
  | some v =>
    rw [hpd] at h3
    obtain ⟨a1, a2, a3⟩ := h3
    exact ⟨v, ⟨hnd, by rw [e1, a1], by rw [e2]; simp, by rw [hbf, h2]; exact hok.bus⟩, e2, by rw [e3, e4, a2, a3],
      rfl, by rw [e3, a2]⟩

theorem report_poll {k : Key} (hk : BitName k) {s s' : State} {o : Out} {b : Bool} (hok : Ok k s b)
    {pre post : List (Key × Raw)} {r : Raw} (h1 : Silent k pre) (h2 : Silent k post)
    (hp : poll s (pre ++ (k, r) :: post) = some (s', o)) :
    ∃ n, r = .int n ∧ Ok k s' (!b) ∧ o.block.get? k = some (.bit (!b)) ∧ o.bus.get? k = some (.bit (!b)) ∧
      s'.pending.get? k = if decide (n ≠ 0) = !b then none else some (decide (n ≠ 0)) := by
  obtain ⟨a1, a2, a3⟩ := apply_facts hok
  simp only [poll] at hp
  have hnd := handle_nodup _ (by rw [a1]; simp [Dict.keys]) hp
  rw [handleAll_append] at hp
  cases hpre : handleAll s.pending (applyPending s).1 (applyPending s).2 pre with
  | none => rw [hpre] at hp; cases hp
  | some so =>
    obtain ⟨s1, o1⟩ := so
    rw [hpre] at hp
    simp only [Option.bind_some, handleAll] at hp
    obtain ⟨hv1, hb1⟩ := others_view hk pre h1 (by rw [a2]; exact hok.bus) hpre
    cases hc : handleChange s.pending s1 o1 k r with
    | none => rw [hc] at hp; cases hp
    | some so2 =>
      obtain ⟨s2, o2⟩ := so2
      rw [hc] at hp
      have hbus1 : k ∈ s1.busFields := by rw [hb1, a2]; exact hok.bus
      have e1 : s1.bitOuts.get? k = (applyPending s).1.bitOuts.get? k := congrArg View.bit hv1
      have e2 : s1.pending.get? k = none := by
        have : s1.pending.get? k = (applyPending s).1.pending.get? k := congrArg View.pending hv1
        rw [this, a1]; rfl
      have e3 : o1.block.get? k = (applyPending s).2.block.get? k := congrArg View.block hv1
      have e4 : o1.bus.get? k = (applyPending s).2.bus.get? k := congrArg View.bus hv1
      -- the report itself
      have key : ∃ n, r = .int n ∧ s2.bitOuts.get? k = some (!b) ∧ o2.block.get? k = some (.bit (!b)) ∧
          o2.bus.get? k = some (.bit (!b)) ∧
          s2.pending.get? k = (if decide (n ≠ 0) = !b then none else some (decide (n ≠ 0))) ∧ s2.busFields = s1.busFields := by
        unfold handleChange at hc
        cases hpd : s.pending.get? k with
        | none =>
          rw [hpd] at a3
          rw [e1, a3.1] at hc
          cases r with
          | other x => cases hc
          | int n =>
            simp only [hpd] at hc
            split at hc
            · rename_i hvb
              cases Option.some.inj hc
              refine ⟨n, rfl, by simp [hvb], by simp [emit_block hk, hvb], by simp [emit_bus hbus1, hvb], ?_, rfl⟩
              rw [if_neg (by rw [hvb]; cases b <;> simp)]
              simp
            · rename_i hvb
              have hvb' : decide (n ≠ 0) = !b := by
                revert hvb; cases decide (n ≠ 0) <;> cases b <;> simp
              cases Option.some.inj hc
              exact ⟨n, rfl, by simp only [Dict.get?_set_self, hvb'], by simp [emit_block hk, ← hvb'],
                by simp [emit_bus hbus1, ← hvb'], by rw [if_pos hvb']; exact e2, rfl⟩
        | some v =>
          have hvn := hok.pend v hpd
          rw [hpd] at a3
          rw [e1, a3.1] at hc
          cases r with
          | other x => cases hc
          | int n =>
            simp only [hpd] at hc
            split at hc
            · rename_i hvb
              cases Option.some.inj hc
              refine ⟨n, rfl, by rw [← hvn]; exact e1.trans a3.1, by rw [← hvn]; exact e3.trans a3.2.1,
                by rw [← hvn]; exact e4.trans a3.2.2, ?_, rfl⟩
              rw [if_neg (by rw [← hvn]; exact fun e => hvb e.symm)]
              simp
            · rename_i hvb
              simp only [ne_eq, Decidable.not_not] at hvb
              cases Option.some.inj hc
              refine ⟨n, rfl, by rw [← hvn]; exact e1.trans a3.1, by rw [← hvn]; exact e3.trans a3.2.1,
                by rw [← hvn]; exact e4.trans a3.2.2, ?_, rfl⟩
              rw [if_pos (by rw [← hvn, ← hvb])]
              exact e2
      obtain ⟨n, hr, f1, f2, f3, f4, f5⟩ := key
      obtain ⟨hv2, hb2⟩ := others_view hk post h2 (by rw [f5]; exact hbus1) hp
      have g1 : s'.bitOuts.get? k = s2.bitOuts.get? k := congrArg View.bit hv2
      have g2 : s'.pending.get? k = s2.pending.get? k := congrArg View.pending hv2
      have g3 : o.block.get? k = o2.block.get? k := congrArg View.block hv2
      have g4 : o.bus.get? k = o2.bus.get? k := congrArg View.bus hv2
      refine ⟨n, hr, ⟨hnd, by rw [g1, f1], ?_, by rw [hb2, f5]; exact hbus1⟩, by rw [g3, f2], by rw [g4, f3], by rw [g2, f4]⟩
      intro v hv
      rw [g2, f4] at hv
      split at hv
      · cases hv
      · rename_i hne
        rw [← Option.some.inj hv]
        revert hne
        cases decide (n ≠ 0) <;> cases b <;> simp

theorem polls_append (h : List (List (Key × Raw))) : ∀ (s : State) (ps : List (List (Key × Raw))) (s'' : State) (outs : List Out),
    polls s (h ++ ps) = some (s'', outs) →
    ∃ s' o1 o2, polls s h = some (s', o1) ∧ polls s' ps = some (s'', o2) ∧ outs = o1 ++ o2 ∧ o1.length = h.length := by
  induction h with
  | nil => intro s ps s'' outs hp; exact ⟨s, [], outs, rfl, hp, rfl, rfl⟩
  | cons p h ih =>
    intro s ps s'' outs hp
    simp only [List.cons_append, polls] at hp ⊢
    cases h1 : poll s p with
    | none => rw [h1] at hp; simp at hp
    | some so =>
      obtain ⟨s1, o⟩ := so
      rw [h1] at hp
      simp only at hp
      cases h2 : polls s1 (h ++ ps) with
      | none => rw [h2] at hp; simp at hp
      | some so2 =>
        obtain ⟨s2, os⟩ := so2
        rw [h2] at hp
        cases Option.some.inj hp
        obtain ⟨s', o1, o2, a, b, c, d⟩ := ih s1 ps _ _ h2
        exact ⟨s', o :: o1, o2, by simp [a], b, by simp [c], by simp [d]⟩

theorem shown_append (k : Key) (a : List Out) (o : Out) : shown k (a ++ [o]) =
    match o.block.get? k with
    | some (.bit v) => v
    | _ => shown k a := by
  simp only [shown, List.foldl_append, List.foldl_cons, List.foldl_nil]
  rfl

theorem snoc_ind {α : Type} {P : List α → Prop} (h0 : P []) (h1 : ∀ l a, P l → P (l ++ [a])) (l : List α) : P l := by
  rw [← List.reverse_reverse l]
  induction l.reverse with
  | nil => simpa using h0
  | cons a l ih => simpa using h1 _ a ih

theorem start_get (bits : List Key) (k : Key) (h : k ∈ bits) : Dict.get? (bits.map (·, false)) k = some false := by
  induction bits with
  | nil => simp at h
  | cons b bits ih =>
    simp only [List.map_cons, Dict.get?_cons]
    by_cases hb : b = k
    · simp [hb]
    · rw [if_neg hb]
      exact ih (by rcases List.mem_cons.1 h with rfl | h; exact absurd rfl hb; exact h)

theorem poll_single (s : State) (p : List (Key × Raw)) (s' : State) (os : List Out) (h : polls s [p] = some (s', os)) :
    ∃ o, os = [o] ∧ poll s p = some (s', o) := by
  simp only [polls] at h
  cases h1 : poll s p with
  | none => rw [h1] at h; simp at h
  | some so =>
    obtain ⟨s1, o⟩ := so
    rw [h1] at h
    cases Option.some.inj h
    exact ⟨o, rfl, rfl⟩

/-- After any history, what is remembered of a bit is what its block shows -/
theorem history_ok {bits others : List Key} {k : Key} (hb : k ∈ bits) (hk : BitName k) (h : List (List (Key × Raw))) :
    ∀ (s : State) (outs : List Out), (∀ p ∈ h, Once k p) → polls (start bits others) h = some (s, outs) →
      Ok k s (shown k outs) := by
  induction h using snoc_ind with
  | h0 =>
    intro s outs _ hp
    cases Option.some.inj hp
    exact ⟨by simp [start, Dict.keys], start_get bits k hb, by simp [start], by simp [start, hb]⟩
  | h1 h p ih =>
    intro s outs hon hp
    obtain ⟨s1, o1, o2, hp1, hp2, rfl, _⟩ := polls_append h _ _ _ _ hp
    obtain ⟨o, rfl, hpo⟩ := poll_single _ _ _ _ hp2
    have hok := ih s1 o1 (fun q hq => hon q (by simp [hq])) hp1
    rw [shown_append]
    rcases once_split k p (hon p (by simp)) with hs | ⟨pre, r, post, rfl, h1, h2⟩
    · obtain ⟨b', hok', _, _, hm⟩ := silent_poll hk hok hs hpo
      cases hpd : s1.pending.get? k with
      | none => rw [hpd] at hm; obtain ⟨rfl, e⟩ := hm; rw [e]; exact hok'
      | some v => rw [hpd] at hm; obtain ⟨rfl, e⟩ := hm; rw [e]; exact hok'
    · obtain ⟨n, _, hok', e, _, _⟩ := report_poll hk hok h1 h2 hpo
      rw [e]; exact hok'

/-- C40. In every poll that reports a bit, whatever value is reported and whatever came before, the block and the
table of bits are told the opposite of what the block showed: there is an edge. -/
theorem every_report_is_an_edge {bits others : List Key} {k : Key} (hb : k ∈ bits) (hk : BitName k)
    (h : List (List (Key × Raw))) (p : List (Key × Raw)) (hon : ∀ q ∈ h ++ [p], Once k q) (hrep : ¬ Silent k p)
    (s : State) (outs : List Out) (o : Out) (hp : polls (start bits others) (h ++ [p]) = some (s, outs ++ [o])) :
    o.block.get? k = some (.bit (!shown k outs)) ∧ o.bus.get? k = some (.bit (!shown k outs)) := by
  obtain ⟨s1, o1, o2, hp1, hp2, he, _⟩ := polls_append h _ _ _ _ hp
  obtain ⟨o', rfl, hpo⟩ := poll_single _ _ _ _ hp2
  obtain ⟨rfl, h2⟩ := List.append_inj' he rfl
  have h2 : o = o' := by simpa using h2
  subst h2
  have hok := history_ok hb hk h s1 outs (fun q hq => hon q (by simp [hq])) hp1
  rcases once_split k p (hon p (by simp)) with hs | ⟨pre, r, post, rfl, h1, h2⟩
  · exact absurd hs hrep
  · obtain ⟨n, _, _, e, e', _⟩ := report_poll hk hok h1 h2 hpo
    exact ⟨e, e'⟩

theorem lastReport_split {k : Key} {pre post : List (Key × Raw)} {r : Raw} (h2 : Silent k post) :
    lastReport k (pre ++ (k, r) :: post) = some r := by
  have : post.reverse.find? (fun r => decide (r.1 = k)) = none := by
    rw [List.find?_eq_none]
    intro x hx
    simpa using h2 x (by simpa using hx)
  simp [lastReport, this]

/-- C40. If the last report for a bit was `n`, then after at least one more poll, and for as long as nothing more is
reported for it, its block shows whether `n` is not zero. -/
theorem settles {bits others : List Key} {k : Key} (hb : k ∈ bits) (hk : BitName k)
    (h : List (List (Key × Raw))) (p q : List (Key × Raw)) (qs : List (List (Key × Raw)))
    (hon : ∀ x ∈ h ++ [p], Once k x) (n : Int) (hlast : lastReport k p = some (.int n)) (hq : Silent k q)
    (hqs : ∀ x ∈ qs, Silent k x)
    (s : State) (outs : List Out) (hp : polls (start bits others) (h ++ [p] ++ q :: qs) = some (s, outs)) :
    shown k outs = decide (n ≠ 0) := by
  -- after the poll that follows the report nothing is deferred any more
  have first : ∀ s outs, polls (start bits others) (h ++ [p] ++ [q]) = some (s, outs) →
      shown k outs = decide (n ≠ 0) ∧ Ok k s (shown k outs) ∧ s.pending.get? k = none := by
    intro s outs hp
    have hon' : ∀ x ∈ h ++ [p] ++ [q], Once k x := by
      intro x hx
      rcases List.mem_append.1 hx with hx | hx
      · exact hon x hx
      · rw [List.mem_singleton.1 hx]
        have : q.filter (fun r => r.1 = k) = [] := by
          rw [List.filter_eq_nil_iff]
          intro y hy
          simpa using hq y hy
        simp [Once, this]
    have hok3 := history_ok hb hk _ s outs hon' hp
    obtain ⟨s2, o12, o3, hp12, hp3, rfl, _⟩ := polls_append (h ++ [p]) _ _ _ _ hp
    obtain ⟨oq, rfl, hpq⟩ := poll_single _ _ _ _ hp3
    obtain ⟨s1, o1, o2, hp1, hp2, rfl, _⟩ := polls_append h _ _ _ _ hp12
    obtain ⟨o, rfl, hpo⟩ := poll_single _ _ _ _ hp2
    have hok := history_ok hb hk h s1 o1 (fun q hq => hon q (by simp [hq])) hp1
    rcases once_split k p (hon p (by simp)) with hs | ⟨pre, r, post, rfl, h1, h2⟩
    · exfalso
      have : p.reverse.find? (fun r => decide (r.1 = k)) = none := by
        rw [List.find?_eq_none]
        intro x hx
        simpa using hs x (by simpa using hx)
      rw [lastReport, this] at hlast
      cases hlast
    · rw [lastReport_split h2] at hlast
      obtain ⟨n', hr, hok2, e, _, epend⟩ := report_poll hk hok h1 h2 hpo
      rw [Option.some.inj hlast] at hr
      have : n = n' := by injection hr
      subst this
      obtain ⟨b', hok', hnone, _, hm⟩ := silent_poll hk hok2 hq hpq
      refine ⟨?_, hok3, hnone⟩
      rw [shown_append]
      rw [epend] at hm
      split at hm
      · rename_i v heq
        split at heq
        · cases heq
        · rw [hm.2, ← Option.some.inj heq]
      · rename_i heq
        split at heq
        · rename_i hv
          rw [hm.2, shown_append, e, hv]
        · cases heq
  induction qs using snoc_ind generalizing s outs with
  | h0 => exact (first s outs hp).1
  | h1 qs x ih =>
    rw [show h ++ [p] ++ q :: (qs ++ [x]) = (h ++ [p] ++ q :: qs) ++ [x] by simp] at hp
    obtain ⟨s2, o12, o3, hp12, hp3, rfl, _⟩ := polls_append (h ++ [p] ++ q :: qs) _ _ _ _ hp
    obtain ⟨ox, rfl, hpx⟩ := poll_single _ _ _ _ hp3
    have hsh := ih (fun y hy => hqs y (by simp [hy])) s2 o12 hp12
    have rest : ∀ qs : List (List (Key × Raw)), (∀ y ∈ qs, Silent k y) → ∀ s outs,
        polls (start bits others) (h ++ [p] ++ q :: qs) = some (s, outs) → ∃ b, Ok k s b ∧ s.pending.get? k = none := by
      intro qs
      induction qs using snoc_ind with
      | h0 => intro _ s outs hp; exact ⟨_, (first s outs hp).2⟩
      | h1 qs y ih =>
        intro hqs s outs hp
        rw [show h ++ [p] ++ q :: (qs ++ [y]) = (h ++ [p] ++ q :: qs) ++ [y] by simp] at hp
        obtain ⟨s2, o12, o3, hp12, hp3, rfl, _⟩ := polls_append (h ++ [p] ++ q :: qs) _ _ _ _ hp
        obtain ⟨oy, rfl, hpy⟩ := poll_single _ _ _ _ hp3
        obtain ⟨b, hb, _⟩ := ih (fun z hz => hqs z (by simp [hz])) s2 o12 hp12
        obtain ⟨b', hok', hnone, _⟩ := silent_poll hk hb (hqs y (by simp)) hpy
        exact ⟨b', hok', hnone⟩
    obtain ⟨b, hok, hnone⟩ := rest qs (fun y hy => hqs y (by simp [hy])) s2 o12 hp12
    obtain ⟨b', _, _, _, hm⟩ := silent_poll hk hok (hqs x (by simp)) hpx
    rw [hnone] at hm
    rw [shown_append, hm.2]
    exact hsh

/-- C40. A bit for which nothing was reported in the last two polls does not move. -/
theorem no_spurious_edge {bits others : List Key} {k : Key} (hb : k ∈ bits) (hk : BitName k)
    (h : List (List (Key × Raw))) (p q : List (Key × Raw)) (hon : ∀ x ∈ h, Once k x) (hp1 : Silent k p) (hq1 : Silent k q)
    (s : State) (outs : List Out) (o : Out) (hp : polls (start bits others) (h ++ [p] ++ [q]) = some (s, outs ++ [o])) :
    o.block.get? k = none ∧ o.bus.get? k = none := by
  obtain ⟨s2, o12, o3, hp12, hp3, he, _⟩ := polls_append (h ++ [p]) _ _ _ _ hp
  obtain ⟨oq, rfl, hpq⟩ := poll_single _ _ _ _ hp3
  obtain ⟨_, h2⟩ := List.append_inj' he rfl
  have h2 : o = oq := by simpa using h2
  subst h2
  obtain ⟨s1, o1, o2, hph, hp2, rfl, _⟩ := polls_append h _ _ _ _ hp12
  obtain ⟨op, rfl, hpo⟩ := poll_single _ _ _ _ hp2
  have hok := history_ok hb hk h s1 o1 hon hph
  obtain ⟨b, hok2, hnone, _⟩ := silent_poll hk hok hp1 hpo
  obtain ⟨_, _, _, e, hm⟩ := silent_poll hk hok2 hq1 hpq
  rw [hnone] at hm
  exact ⟨hm.2, by rw [e, hm.2]⟩

/-- Names for the example -/
def ttlin : Key := ⟨['T', 'T', 'L', 'I', 'N', '1'], ['V', 'A', 'L']⟩

def pulse : Key := ⟨['P', 'U', 'L', 'S', 'E', '1'], ['D', 'E', 'L', 'A', 'Y']⟩

/-- The bit comes on, makes a pulse within a poll, and another in the next -/
def history : List (List (Key × Raw)) :=
  [[(pulse, .int 3), (ttlin, .int 1)], [(ttlin, .int 1)], [(pulse, .int 4), (ttlin, .int 0)], []]

example : BitName ttlin ∧ (∀ p ∈ history, Once ttlin p) ∧
    (polls (start [ttlin] []) history).map (fun r => r.2.map fun o => o.block.get? ttlin) =
      some [some (.bit true), some (.bit false), some (.bit true), some (.bit false)] := by
  refine ⟨by simp [BitName, ttlin, metadata], ?_, by decide +kernel⟩
  simp [history, Once, ttlin, pulse]

/-! ### C58 -/

/-- The field that a key is shown under, if it is not a bit -/
theorem emit_dest (s : State) (o : Out) (k d : Key) (v : Val) :
    (emit s o k v).block.get? d = if dest k = some d then some v else o.block.get? d := by
  unfold emit
  cases hd : dest k with
  | none => simp
  | some e =>
    simp only [Option.some.injEq]
    by_cases h : e = d
    · subst h; simp
    · rw [if_neg h]; exact Dict.get?_set_ne _ _ h

/-- Reports that are neither bits nor shown under the name of a bit: what the block is told -/
theorem handle_fields (applied : Dict Key Bool) (rs : List (Key × Raw)) (d : Key) :
    ∀ (s s' : State) (o o' : Out), s.bitOuts.get? d = none → (∀ r ∈ rs, dest r.1 = some d → s.bitOuts.get? r.1 = none) →
    (∀ k b, s.bitOuts.get? k = some b → dest k = some k) →
    handleAll applied s o rs = some (s', o') →
    o'.block.get? d = ((rs.reverse.find? fun r => dest r.1 = some d).map fun r => Val.raw r.2).or (o.block.get? d) := by
  induction rs with
  | nil => intro s s' o o' _ _ _ hc; cases Option.some.inj hc; simp
  | cons x rs ih =>
    obtain ⟨k, r⟩ := x
    intro s s' o o' hd hrs hnames hc
    simp only [handleAll] at hc
    cases h1 : handleChange applied s o k r with
    | none => rw [h1] at hc; cases hc
    | some so =>
      obtain ⟨s1, o1⟩ := so
      rw [h1] at hc
      have key : (∀ k', s1.bitOuts.get? k' = none ↔ s.bitOuts.get? k' = none) ∧
          o1.block.get? d = if dest k = some d then some (.raw r) else o.block.get? d := by
        unfold handleChange at h1
        cases hb : s.bitOuts.get? k with
        | none =>
          rw [hb] at h1
          cases Option.some.inj h1
          exact ⟨fun _ => Iff.rfl, emit_dest _ _ _ _ _⟩
        | some cur =>
          have hkd : dest k ≠ some d := by
            intro e
            have := hrs (k, r) (by simp) e
            rw [hb] at this; cases this
          have hset : ∀ v : Bool, ∀ k', (s.bitOuts.set k v).get? k' = none ↔ s.bitOuts.get? k' = none := by
            intro v k'
            rw [Dict.get?_set]
            split
            · rename_i e; rw [← e, hb]; simp
            · rfl
          rw [hb] at h1
          cases r with
          | other x => simp at h1
          | int n =>
            simp only at h1
            rw [if_neg hkd]
            cases h2 : applied.get? k with
            | none =>
              rw [h2] at h1
              simp only at h1
              split at h1
              · cases Option.some.inj h1
                exact ⟨hset _, by rw [emit_dest, if_neg hkd]⟩
              · cases Option.some.inj h1
                exact ⟨hset _, by rw [emit_dest, if_neg hkd]⟩
            | some c =>
              rw [h2] at h1
              simp only at h1
              split at h1
              · cases Option.some.inj h1; exact ⟨fun _ => Iff.rfl, rfl⟩
              · cases Option.some.inj h1; exact ⟨fun _ => Iff.rfl, rfl⟩
      obtain ⟨e1, e2⟩ := key
      have := ih s1 s' o1 o' ((e1 d).2 hd) (fun r hr he => (e1 _).2 (hrs r (by simp [hr]) he)) ?_ hc
      · rw [this, e2]
        simp only [List.reverse_cons, List.find?_append, List.find?_cons, List.find?_nil]
        cases hf : rs.reverse.find? (fun r => dest r.1 = some d) with
        | some y => simp
        | none =>
          by_cases hk : dest k = some d
          · simp [hk]
          · simp [hk]
      · intro k' b hb
        cases hs : s.bitOuts.get? k' with
        | none => rw [(e1 k').2 hs] at hb; cases hb
        | some c => exact hnames k' c hs

theorem pending_keys_bits {applied : Dict Key Bool} (rs : List (Key × Raw)) : ∀ (s s' : State) (o o' : Out),
    (∀ k, s.pending.get? k ≠ none → s.bitOuts.get? k ≠ none) → handleAll applied s o rs = some (s', o') →
    (∀ k, s'.pending.get? k ≠ none → s'.bitOuts.get? k ≠ none) ∧ (∀ k, s'.bitOuts.get? k = none ↔ s.bitOuts.get? k = none) := by
  induction rs with
  | nil => intro s s' o o' h hc; cases Option.some.inj hc; exact ⟨h, fun _ => Iff.rfl⟩
  | cons x rs ih =>
    obtain ⟨k, r⟩ := x
    intro s s' o o' h hc
    simp only [handleAll] at hc
    cases h1 : handleChange applied s o k r with
    | none => rw [h1] at hc; cases hc
    | some so =>
      obtain ⟨s1, o1⟩ := so
      rw [h1] at hc
      have key : (∀ k', s1.bitOuts.get? k' = none ↔ s.bitOuts.get? k' = none) ∧
          (∀ k', s1.pending.get? k' ≠ none → s1.bitOuts.get? k' ≠ none) := by
        unfold handleChange at h1
        cases hb : s.bitOuts.get? k with
        | none =>
          rw [hb] at h1
          cases Option.some.inj h1
          exact ⟨fun _ => Iff.rfl, h⟩
        | some cur =>
          have hset : ∀ v : Bool, ∀ k', (s.bitOuts.set k v).get? k' = none ↔ s.bitOuts.get? k' = none := by
            intro v k'
            rw [Dict.get?_set]
            split
            · rename_i e; rw [← e, hb]; simp
            · rfl
          have hpset : ∀ v : Bool, ∀ k', (s.pending.set k v).get? k' ≠ none → s.bitOuts.get? k' ≠ none := by
            intro v k'
            rw [Dict.get?_set]
            split
            · rename_i e; rw [← e, hb]; simp
            · exact h k'
          rw [hb] at h1
          cases r with
          | other x => simp at h1
          | int n =>
            simp only at h1
            cases h2 : applied.get? k with
            | none =>
              rw [h2] at h1
              simp only at h1
              split at h1
              · cases Option.some.inj h1
                exact ⟨hset _, fun k' hk' => by rw [ne_eq, hset]; exact hpset _ k' hk'⟩
              · cases Option.some.inj h1
                exact ⟨hset _, fun k' hk' => by rw [ne_eq, hset]; exact h k' hk'⟩
            | some c =>
              rw [h2] at h1
              simp only at h1
              split at h1
              · cases Option.some.inj h1; exact ⟨fun _ => Iff.rfl, fun k' hk' => hpset _ k' hk'⟩
              · cases Option.some.inj h1; exact ⟨fun _ => Iff.rfl, h⟩
      obtain ⟨e1, e2⟩ := key
      obtain ⟨f1, f2⟩ := ih s1 s' o1 o' e2 hc
      exact ⟨f1, fun k' => (f2 k').trans (e1 k')⟩

theorem apply_bits (pend : Dict Key Bool) : ∀ so : State × Out, (∀ k, k ∈ Dict.keys pend → so.1.bitOuts.get? k ≠ none) →
    let so' := pend.foldl applyOne so
    so'.1.pending = so.1.pending ∧ (∀ k, so'.1.bitOuts.get? k = none ↔ so.1.bitOuts.get? k = none) ∧
    ∀ d, d ∉ Dict.keys pend → so'.2.block.get? d = so.2.block.get? d := by
  induction pend with
  | nil => intro so _; simp
  | cons x pend ih =>
    obtain ⟨k, v⟩ := x
    intro so h
    have hk := h k (by simp [Dict.keys])
    have hset : ∀ k', (so.1.bitOuts.set k v).get? k' = none ↔ so.1.bitOuts.get? k' = none := by
      intro k'
      rw [Dict.get?_set]
      split
      · rename_i e; subst e; simp [hk]
      · rfl
    obtain ⟨h1, h2, h3⟩ := ih (applyOne so (k, v))
      (fun k' hk' => by
        change ¬ (so.1.bitOuts.set k v).get? k' = none
        rw [hset]; exact h k' (by simp only [Dict.keys, List.map_cons, List.mem_cons]; right; simpa [Dict.keys] using hk'))
    refine ⟨h1, fun k' => (h2 k').trans (hset k'), fun d hd => ?_⟩
    have hd' : d ≠ k ∧ d ∉ Dict.keys pend := by simpa [Dict.keys] using hd
    exact (h3 d hd'.2).trans (Dict.get?_set_ne _ _ (fun e => hd'.1 e.symm))

/-- Which field of which block a report belongs to -/
theorem dest_iff (k d : Key) : dest k = some d ↔ Belongs k d := by
  have hm : "*METADATA".toList = metadata := by decide
  have hl : "LABEL_".toList = labelPrefix := by decide
  have hn : "LABEL".toList = ['L', 'A', 'B', 'E', 'L'] := by decide
  constructor
  · intro h
    unfold dest at h
    split at h
    · rename_i hb
      split at h
      · rename_i hp
        obtain ⟨x, hx⟩ := List.isPrefixOf_iff_prefix.1 hp
        obtain ⟨b, f⟩ := k
        simp only at hb hx
        rw [← Option.some.inj h, ← hx]
        have := Belongs.label x
        rw [hm, hl, hn] at this
        rw [hb]
        exact this
      · cases h
    · rename_i hb
      rw [← Option.some.inj h]
      exact .field k (by rw [hm]; exact hb)
  · intro h
    cases h with
    | field _ h => rw [hm] at h; simp [dest, h]
    | label x =>
      rw [hm, hl, hn]
      simp [dest, labelPrefix]

/-- Between polls, only bits are deferred, and the bits are those there were at the start -/
structure OkAll (bits : List Key) (s : State) : Prop where
  pend : ∀ k, s.pending.get? k ≠ none → s.bitOuts.get? k ≠ none
  bits : ∀ k, s.bitOuts.get? k = none ↔ k ∉ bits

theorem poll_okAll {bits : List Key} {s s' : State} {o : Out} {p : List (Key × Raw)} (h : OkAll bits s)
    (hp : poll s p = some (s', o)) : OkAll bits s' := by
  simp only [poll] at hp
  obtain ⟨h1, h2, _⟩ := apply_bits s.pending ({ s with pending := [] }, {})
    (fun k hk => h.pend k (by rw [ne_eq, Dict.get?_none_iff]; simpa using hk))
  obtain ⟨f1, f2⟩ := pending_keys_bits p _ _ _ _
    (by intro k hk; exfalso; apply hk; rw [show (applyPending s).1.pending = [] from h1]; rfl) hp
  exact ⟨f1, fun k => (f2 k).trans ((h2 k).trans (h.bits k))⟩

theorem history_okAll {bits others : List Key} (h : List (List (Key × Raw))) : ∀ (s : State) (outs : List Out),
    polls (start bits others) h = some (s, outs) → OkAll bits s := by
  induction h using snoc_ind with
  | h0 =>
    intro s outs hp
    cases Option.some.inj hp
    refine ⟨by simp [start], fun k => ?_⟩
    rw [Dict.get?_none_iff]
    simp [start, Dict.keys]
  | h1 h p ih =>
    intro s outs hp
    obtain ⟨s1, o1, o2, hp1, hp2, rfl, _⟩ := polls_append h _ _ _ _ hp
    obtain ⟨o, rfl, hpo⟩ := poll_single _ _ _ _ hp2
    exact poll_okAll (ih s1 o1 hp1) hpo

/-- C58. After any history, in every poll, a field of a block that is not a bit is passed on if and only if the PandA
reports it in this poll, with the last value reported. `dest_iff` says which report belongs to which field of which
block. -/
theorem fields_passed_on {bits others : List Key} (hbits : ∀ b ∈ bits, BitName b) (h : List (List (Key × Raw)))
    (p : List (Key × Raw)) (d : Key) (hd : d ∉ bits)
    (s : State) (outs : List Out) (o : Out) (hp : polls (start bits others) (h ++ [p]) = some (s, outs ++ [o])) :
    o.block.get? d = (p.reverse.find? fun r => dest r.1 = some d).map fun r => Val.raw r.2 := by
  obtain ⟨s1, o1, o2, hp1, hp2, he, _⟩ := polls_append h _ _ _ _ hp
  obtain ⟨o', rfl, hpo⟩ := poll_single _ _ _ _ hp2
  obtain ⟨_, h2⟩ := List.append_inj' he rfl
  have h2 : o = o' := by simpa using h2
  subst h2
  have hok := history_okAll h s1 o1 hp1
  simp only [poll] at hpo
  obtain ⟨a1, a2, a3⟩ := apply_bits s1.pending ({ s1 with pending := [] }, {})
    (fun k hk => hok.pend k (by rw [ne_eq, Dict.get?_none_iff]; simpa using hk))
  have hdp : d ∉ Dict.keys s1.pending := by
    intro hc
    have : s1.pending.get? d ≠ none := by rw [ne_eq, Dict.get?_none_iff]; simpa using hc
    exact hok.pend d this ((hok.bits d).2 hd)
  have hbit : ∀ k, (applyPending s1).1.bitOuts.get? k = none ↔ k ∉ bits := fun k => (a2 k).trans (hok.bits k)
  have := handle_fields s1.pending p d _ _ _ _ ((hbit d).2 hd) ?_ ?_ hpo
  · rw [this, show (applyPending s1).2.block.get? d = none from a3 d hdp]
    simp
  · intro r _ hrd
    rw [hbit]
    intro hc
    rw [dest_bit (hbits r.1 hc)] at hrd
    exact hd (by rw [← Option.some.inj hrd]; exact hc)
  · intro k b hb
    have : k ∈ bits := by
      refine Classical.byContradiction fun hc => ?_
      rw [(hbit k).2 hc] at hb; cases hb
    exact dest_bit (hbits k this)

example : (polls (start [ttlin] []) history).map (fun r => r.2.map fun o => o.block.get? pulse) =
      some [some (.raw (.int 3)), none, some (.raw (.int 4)), none] := by decide +kernel

end Verif.Props.PandAPoll
