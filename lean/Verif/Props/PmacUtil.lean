import Verif.Model.PmacUtil
import Verif.Proofs.PyDict
import Mathlib.Tactic.Linarith
import Mathlib.Tactic.FieldSimp
import Mathlib.Tactic.Ring
/-!
C35: "The coordinate system mapping used for a scan contains exactly the requested axes, each mapped to
one motor, all of them on one port and no two on one axis number; anything else is rejected."

C53: "A turnaround starts with the velocity at which the scan point before it is left and ends with the
velocity at which the next one is entered."

C54: "A duration guessed from the first two points of a scan lets every axis move between them within its
maximum velocity."

C55: "The positions sent for a turnaround are those of the velocity profile of each axis, whatever the
times of the other axes."
-/
set_option linter.unusedVariables false
namespace Verif.Props.PmacUtil
open Verif.PmacUtil

/-! ### C35 -/

theorem splitComma_spec (t a b : Text) : splitComma t = some (a, b) ↔ t = a ++ ',' :: b ∧ ',' ∉ a := by
  induction t generalizing a b with
  | nil => simp [splitComma]
  | cons c cs ih =>
    simp only [splitComma]
    by_cases hc : c = ','
    · subst hc
      rw [if_pos rfl]
      constructor
      · intro h
        simp only [Option.some.injEq, Prod.mk.injEq] at h
        obtain ⟨h1, h2⟩ := h
        subst h1; subst h2
        exact ⟨rfl, by simp⟩
      · rintro ⟨h1, h2⟩
        cases a with
        | nil => simp only [List.nil_append, List.cons.injEq, true_and] at h1; rw [h1]
        | cons x a =>
          simp only [List.cons_append, List.cons.injEq] at h1
          exact absurd (by rw [← h1.1]; simp) h2
    · rw [if_neg hc]
      cases hs : splitComma cs with
      | none =>
        simp only [false_iff, reduceCtorEq]
        rintro ⟨h1, h2⟩
        cases a with
        | nil => simp only [List.nil_append, List.cons.injEq] at h1; exact hc h1.1
        | cons x a =>
          simp only [List.cons_append, List.cons.injEq] at h1
          have := (ih a b).2 ⟨h1.2, fun h => h2 (List.mem_cons_of_mem _ h)⟩
          rw [hs] at this; cases this
      | some r =>
        obtain ⟨a', b'⟩ := r
        obtain ⟨h3, h4⟩ := (ih a' b').1 hs
        constructor
        · intro h
          simp only [Option.some.injEq, Prod.mk.injEq] at h
          obtain ⟨h5, h6⟩ := h
          subst h5; subst h6
          exact ⟨by rw [h3]; rfl, by simp only [List.mem_cons, not_or]; exact ⟨fun h => hc h.symm, h4⟩⟩
        · rintro ⟨h1, h2⟩
          cases a with
          | nil => simp only [List.nil_append, List.cons.injEq] at h1; exact absurd h1.1 hc
          | cons x a =>
            simp only [List.cons_append, List.cons.injEq] at h1
            have := (ih a b).2 ⟨h1.2, fun h => h2 (List.mem_cons_of_mem _ h)⟩
            rw [hs] at this
            simp only [Option.some.injEq, Prod.mk.injEq] at this
            rw [this.1, this.2, h1.1]

/-- A motor that a scan can use as axis `axis` of port `port`: its `cs` says so, the axis is one of the
nine, and it has an acceleration time. -/
def Usable (m : Motor) (port axis : Text) : Prop :=
  m.cs = port ++ ',' :: axis ∧ ',' ∉ port ∧ axis ∈ csAxisNames ∧ m.accelerationTime ≠ 0

theorem motorInfo_ok (m : Motor) (i : MotorInfo) :
    motorInfo m = .ok i ↔ Usable m i.csPort i.csAxis ∧ i.maxVelocity = m.velocity ∧
      i.acceleration = m.velocity / m.accelerationTime := by
  unfold motorInfo Usable
  by_cases ha : m.accelerationTime = 0
  · simp [ha]
  · rw [if_neg ha]
    by_cases hc : m.cs = []
    · rw [if_pos hc]
      simp only
      rw [if_neg (by decide)]
      constructor
      · intro h; cases h
      · rintro ⟨⟨h1, _⟩, _⟩
        rw [hc] at h1
        cases hp : i.csPort <;> rw [hp] at h1 <;> cases h1
    · rw [if_neg hc]
      cases hs : splitComma m.cs with
      | none =>
        simp only
        constructor
        · intro h; cases h
        · rintro ⟨⟨h1, h2, _⟩, _⟩
          have := (splitComma_spec m.cs _ _).2 ⟨h1, h2⟩
          rw [hs] at this; cases this
      | some r =>
        obtain ⟨port, axis⟩ := r
        obtain ⟨h3, h4⟩ := (splitComma_spec _ _ _).1 hs
        simp only
        split
        · rename_i hx
          constructor
          · intro h
            cases h
            exact ⟨⟨h3, h4, hx, ha⟩, rfl, rfl⟩
          · rintro ⟨⟨h1, h2, _⟩, h5, h6⟩
            have := (splitComma_spec m.cs _ _).2 ⟨h1, h2⟩
            rw [hs] at this
            simp only [Option.some.injEq, Prod.mk.injEq] at this
            cases i
            simp only at this h5 h6
            rw [this.1, this.2, h5, h6]
        · rename_i hx
          constructor
          · intro h; cases h
          · rintro ⟨⟨h1, h2, h7, _⟩, h5, h6⟩
            have := (splitComma_spec m.cs _ _).2 ⟨h1, h2⟩
            rw [hs] at this
            simp only [Option.some.injEq, Prod.mk.injEq] at this
            rw [this.2] at hx; exact absurd h7 hx

theorem allSame_iff (l : List Text) : allSame l = true ↔ ∀ a ∈ l, ∀ b ∈ l, a = b := by
  unfold allSame; simp [List.all_eq_true]

theorem noRepeat_iff (l : List Text) : noRepeat l = true ↔ l.Nodup := by
  induction l with
  | nil => simp [noRepeat]
  | cons a l ih => simp [noRepeat, List.nodup_cons, ih]

/-- what the loop over the layout gives -/
theorem collect_ok (axes : List String) (rows : List (String × Motor)) : ∀ (m0 : Dict String MotorInfo) (p0 : List Text) m p,
    (Dict.keys m0).Nodup → collect axes m0 p0 rows = .ok (m, p) →
    (Dict.keys m).Nodup ∧
    (∀ n, Dict.mem m n = true ↔ Dict.mem m0 n = true ∨ (n ∈ axes ∧ n ∈ rows.map Prod.fst)) ∧
    (∀ n i, Dict.get? m n = some i → Dict.get? m0 n = some i ∨
      ∃ mo, (n, mo) ∈ rows ∧ n ∈ axes ∧ motorInfo mo = .ok i ∧ i.csPort ∈ p) ∧
    (∀ q, q ∈ p0 → q ∈ p) ∧ (∀ row ∈ rows, row.1 ∈ axes → ∃ i, motorInfo row.2 = .ok i ∧ i.csPort ∈ p) ∧
    (∀ q ∈ p, q ∈ p0 ∨ ∃ row ∈ rows, row.1 ∈ axes ∧ ∃ i, motorInfo row.2 = .ok i ∧ i.csPort = q) := by
  induction rows with
  | nil =>
    intro m0 p0 m p hn h
    cases h
    exact ⟨hn, by simp, fun n i hi => .inl hi, fun _ hq => hq, (by intro r hr; cases hr), fun q hq => .inl hq⟩
  | cons row rows ih =>
    intro m0 p0 m p hn h
    obtain ⟨name, motor⟩ := row
    simp only [collect] at h
    by_cases hin : name ∈ axes
    · rw [if_pos hin] at h
      cases hm : motorInfo motor with
      | error e => rw [hm] at h; cases h
      | ok info =>
        rw [hm] at h
        obtain ⟨a1, a2, a3, a4, a5, a6⟩ := ih _ _ m p (Dict.nodup_set hn _ _) h
        refine ⟨a1, ?_, ?_, fun q hq => a4 q (List.mem_append_left _ hq), ?_, ?_⟩
        · intro n
          have hset : Dict.mem (Dict.set m0 name info) n = true ↔ n = name ∨ Dict.mem m0 n = true := by
            unfold Dict.mem
            rw [Dict.get?_set]
            split
            · rename_i h; simp [h]
            · rename_i h; simp [Ne.symm h]
          rw [a2 n, hset]
          simp only [List.map_cons, List.mem_cons]
          constructor
          · rintro ((h | h) | h)
            · rw [h]; exact .inr ⟨hin, .inl rfl⟩
            · exact .inl h
            · exact .inr ⟨h.1, .inr h.2⟩
          · rintro (h | ⟨h1, h2 | h2⟩)
            · exact .inl (.inr h)
            · exact .inl (.inl h2)
            · exact .inr ⟨h1, h2⟩
        · intro n i hi
          rcases a3 n i hi with h | ⟨mo, h1, h2, h3, h4⟩
          · rw [Dict.get?_set] at h
            split at h
            · rename_i he
              cases h; subst he
              exact .inr ⟨motor, by simp, hin, hm, a4 _ (by simp)⟩
            · exact .inl h
          · exact .inr ⟨mo, List.mem_cons_of_mem _ h1, h2, h3, h4⟩
        · intro row hr hax
          rcases List.mem_cons.1 hr with h | hr
          · subst h; exact ⟨info, hm, a4 _ (by simp)⟩
          · exact a5 row hr hax
        · intro q hq
          rcases a6 q hq with h | ⟨row, h1, h2, h3⟩
          · rcases List.mem_append.1 h with h | h
            · exact .inl h
            · exact .inr ⟨(name, motor), by simp, hin, info, hm, (List.mem_singleton.1 h).symm⟩
          · exact .inr ⟨row, List.mem_cons_of_mem _ h1, h2, h3⟩
    · rw [if_neg hin] at h
      obtain ⟨a1, a2, a3, a4, a5, a6⟩ := ih _ _ m p hn h
      refine ⟨a1, ?_, ?_, a4, ?_, ?_⟩
      · intro n
        rw [a2 n]
        simp only [List.map_cons, List.mem_cons]
        constructor
        · rintro (h | h)
          · exact .inl h
          · exact .inr ⟨h.1, .inr h.2⟩
        · rintro (h | ⟨h1, h2 | h2⟩)
          · exact .inl h
          · rw [h2] at h1; exact absurd h1 hin
          · exact .inr ⟨h1, h2⟩
      · intro n i hi
        rcases a3 n i hi with h | ⟨mo, h1, h2, h3, h4⟩
        · exact .inl h
        · exact .inr ⟨mo, List.mem_cons_of_mem _ h1, h2, h3, h4⟩
      · intro row hr hax
        rcases List.mem_cons.1 hr with h | hr
        · subst h; exact absurd hax hin
        · exact a5 row hr hax
      · intro q hq
        rcases a6 q hq with h | ⟨row, h1, h2, h3⟩
        · exact .inl h
        · exact .inr ⟨row, List.mem_cons_of_mem _ h1, h2, h3⟩

/-- the loop succeeds if all requested motors do -/
theorem collect_succeeds (axes : List String) (rows : List (String × Motor)) : ∀ (m0 : Dict String MotorInfo) (p0 : List Text),
    (∀ row ∈ rows, row.1 ∈ axes → ∃ i, motorInfo row.2 = .ok i) → ∃ m p, collect axes m0 p0 rows = .ok (m, p) := by
  induction rows with
  | nil => intro m0 p0 _; exact ⟨m0, p0, rfl⟩
  | cons row rows ih =>
    intro m0 p0 h
    obtain ⟨name, motor⟩ := row
    simp only [collect]
    have h' : ∀ row ∈ rows, row.1 ∈ axes → ∃ i, motorInfo row.2 = .ok i := fun r hr => h r (List.mem_cons_of_mem _ hr)
    split
    · rename_i hin
      obtain ⟨i, hi⟩ := h _ List.mem_cons_self hin
      dsimp only at hi
      rw [hi]
      exact ih _ _ h'
    · exact ih _ _ h'

/-- **C35**, soundness: a mapping that is accepted has exactly the requested axes, each once, each mapped
to a motor of the table with that name which is the axis it says of the port it says; all are on one port;
no two are one axis. -/
theorem mapping_sound (axes : List String) (layout : List (String × Motor)) (m : Dict String MotorInfo)
    (h : csAxisMapping axes layout = .ok m) :
    (Dict.keys m).Nodup ∧ (∀ n, n ∈ Dict.keys m ↔ n ∈ axes) ∧
    (∀ n i, Dict.get? m n = some i → ∃ mo, (n, mo) ∈ layout ∧ Usable mo i.csPort i.csAxis ∧ i.maxVelocity = mo.velocity ∧
      i.acceleration = mo.velocity / mo.accelerationTime) ∧
    (∀ n n' i i', Dict.get? m n = some i → Dict.get? m n' = some i' → i.csPort = i'.csPort) ∧
    (∀ n n' i i', Dict.get? m n = some i → Dict.get? m n' = some i' → i.csAxis = i'.csAxis → n = n') := by
  unfold csAxisMapping at h
  cases hc : collect axes [] [] layout with
  | error e => rw [hc] at h; cases h
  | ok r =>
    obtain ⟨m', p⟩ := r
    rw [hc] at h
    dsimp only at h
    split at h
    · cases h
    · rename_i h1
      split at h
      · cases h
      · rename_i h2
        split at h
        · cases h
        · rename_i h3
          cases h
          obtain ⟨a1, a2, a3, a4, a5, a6⟩ := collect_ok axes layout [] [] m p (by simp [Dict.keys]) hc
          simp only [Bool.not_eq_false] at h1 h2 h3
          rw [List.all_eq_true] at h1
          rw [allSame_iff] at h2
          rw [noRepeat_iff] at h3
          refine ⟨a1, ?_, ?_, ?_, ?_⟩
          · intro n
            rw [← Dict.mem_iff]
            constructor
            · intro hn
              rcases (a2 n).1 hn with h | h
              · cases h
              · exact h.1
            · intro hn; exact h1 n hn
          · intro n i hi
            rcases a3 n i hi with h | ⟨mo, g1, g2, g3, g4⟩
            · cases h
            · obtain ⟨k1, k2, k3⟩ := (motorInfo_ok mo i).1 g3
              exact ⟨mo, g1, k1, k2, k3⟩
          · intro n n' i i' hi hi'
            rcases a3 n i hi with h | ⟨_, _, _, _, g4⟩
            · cases h
            rcases a3 n' i' hi' with h | ⟨_, _, _, _, g4'⟩
            · cases h
            exact h2 _ g4 _ g4'
          · intro n n' i i' hi hi' he
            have key : ∀ (d : List (String × MotorInfo)), ((Dict.values d).map MotorInfo.csAxis).Nodup →
                ∀ n n' i i', (n, i) ∈ d → (n', i') ∈ d → i.csAxis = i'.csAxis → n = n' := by
              intro d
              induction d with
              | nil => intro _ n n' i i' hm; cases hm
              | cons kv d ih =>
                intro hnd n n' i i' hm hm' he
                simp only [Dict.values, List.map_cons, List.nodup_cons] at hnd
                have hx : ∀ n i, (n, i) ∈ d → i.csAxis ∈ (d.map Prod.snd).map MotorInfo.csAxis := by
                  intro n i hm
                  exact List.mem_map_of_mem (List.mem_map_of_mem (f := Prod.snd) hm)
                rcases List.mem_cons.1 hm with hm | hm <;> rcases List.mem_cons.1 hm' with hm' | hm'
                · rw [← hm'] at hm; exact (Prod.mk.inj hm).1
                · exfalso; apply hnd.1; rw [← hm]; dsimp only; rw [he]; exact hx n' i' hm'
                · exfalso; apply hnd.1; rw [← hm']; dsimp only; rw [← he]; exact hx n i hm
                · exact ih hnd.2 n n' i i' hm hm' he
            exact key m h3 n n' i i' (Dict.get?_mem hi) (Dict.get?_mem hi') he

/-- **C35**, exactness: with no two rows of one name (parts have different names) a request is accepted if
and only if every requested axis is in the table and can be used, on one port and with no axis twice. -/
theorem mapping_accepted_iff (axes : List String) (layout : List (String × Motor)) (hn : (layout.map Prod.fst).Nodup) :
    (∃ m, csAxisMapping axes layout = .ok m) ↔
      (∃ port, ∃ axisOf : String → Text, (∀ n ∈ axes, ∃ mo, (n, mo) ∈ layout ∧ Usable mo port (axisOf n)) ∧
        ∀ n ∈ axes, ∀ n' ∈ axes, axisOf n = axisOf n' → n = n') := by
  constructor
  · rintro ⟨m, h⟩
    obtain ⟨a1, a2, a3, a4, a5⟩ := mapping_sound axes layout m h
    by_cases he : axes = []
    · subst he; exact ⟨[], fun _ => [], by simp, by simp⟩
    · obtain ⟨n0, hn0⟩ := List.exists_mem_of_ne_nil axes he
      have hget : ∀ n ∈ axes, ∃ i, Dict.get? m n = some i := by
        intro n hn
        cases hg : Dict.get? m n with
        | some i => exact ⟨i, rfl⟩
        | none => exact absurd ((a2 n).2 hn) (Dict.get?_none_iff.1 hg)
      obtain ⟨i0, hi0⟩ := hget n0 hn0
      refine ⟨i0.csPort, fun n => ((Dict.get? m n).map MotorInfo.csAxis).getD [], ?_, ?_⟩
      · intro n hn
        obtain ⟨i, hi⟩ := hget n hn
        obtain ⟨mo, h1, h2, _⟩ := a3 n i hi
        refine ⟨mo, h1, ?_⟩
        dsimp only
        rw [hi, a4 n0 n i0 i hi0 hi]
        exact h2
      · intro n hn n' hn' he
        obtain ⟨i, hi⟩ := hget n hn
        obtain ⟨i', hi'⟩ := hget n' hn'
        simp only [hi, hi', Option.map_some, Option.getD_some] at he
        exact a5 n n' i i' hi hi' he
  · rintro ⟨port, axisOf, h1, h2⟩
    have hrow : ∀ row ∈ layout, row.1 ∈ axes → ∃ i, motorInfo row.2 = .ok i ∧ i.csPort = port ∧ i.csAxis = axisOf row.1 := by
      intro row hr hax
      obtain ⟨mo, hm, hu⟩ := h1 row.1 hax
      have : mo = row.2 := by
        have h3 := Dict.get?_of_mem_nodup (d := layout) hn hm
        have h4 := Dict.get?_of_mem_nodup (d := layout) hn (show (row.1, row.2) ∈ layout from hr)
        rw [h3] at h4; exact Option.some.inj h4
      rw [← this]
      exact ⟨⟨axisOf row.1, port, mo.velocity / mo.accelerationTime, mo.velocity⟩, (motorInfo_ok _ _).2 ⟨hu, rfl, rfl⟩, rfl, rfl⟩
    obtain ⟨m, p, hc⟩ := collect_succeeds axes layout [] [] (fun row hr hax => by
      obtain ⟨i, hi, _⟩ := hrow row hr hax; exact ⟨i, hi⟩)
    obtain ⟨a1, a2, a3, a4, a5, a6⟩ := collect_ok axes layout [] [] m p (by simp [Dict.keys]) hc
    refine ⟨m, ?_⟩
    unfold csAxisMapping
    rw [hc]
    dsimp only
    rw [if_neg, if_neg, if_neg]
    · rw [Bool.not_eq_false, noRepeat_iff]
      have hval : ∀ n i, Dict.get? m n = some i → n ∈ axes ∧ i.csAxis = axisOf n := by
        intro n i hi
        rcases a3 n i hi with h | ⟨mo, g1, g2, g3, g4⟩
        · cases h
        · obtain ⟨i2, k1, k2, k3⟩ := hrow (n, mo) g1 g2
          dsimp only at k1
          rw [g3] at k1; cases k1
          exact ⟨g2, k3⟩
      have key : ∀ (d : List (String × MotorInfo)), (Dict.keys d).Nodup → (∀ kv ∈ d, kv.1 ∈ axes ∧ kv.2.csAxis = axisOf kv.1) →
          ((Dict.values d).map MotorInfo.csAxis).Nodup := by
        intro d
        induction d with
        | nil => intro _ _; simp [Dict.values]
        | cons kv d ih =>
          intro hk hv
          simp only [Dict.keys, List.map_cons, List.nodup_cons] at hk
          simp only [Dict.values, List.map_cons, List.nodup_cons]
          refine ⟨?_, ih hk.2 (fun x hx => hv x (List.mem_cons_of_mem _ hx))⟩
          intro hmem
          obtain ⟨i, hi, he⟩ := List.mem_map.1 hmem
          obtain ⟨kv2, hkv2, hs⟩ := List.mem_map.1 hi
          subst hs
          obtain ⟨b1, b2⟩ := hv kv List.mem_cons_self
          obtain ⟨c1, c2⟩ := hv kv2 (List.mem_cons_of_mem _ hkv2)
          have := h2 kv.1 b1 kv2.1 c1 (by rw [← b2, ← c2, he])
          apply hk.1
          rw [this]
          exact List.mem_map_of_mem hkv2
      exact key m a1 (fun kv hkv => hval kv.1 kv.2 (Dict.get?_of_mem_nodup a1 hkv))
    · rw [Bool.not_eq_false, allSame_iff]
      have hp : ∀ q ∈ p, q = port := by
        intro q hq
        rcases a6 q hq with h | ⟨row, g1, g2, i, g3, g4⟩
        · cases h
        · obtain ⟨i2, k1, k2, _⟩ := hrow row g1 g2
          rw [g3] at k1; cases k1
          rw [← g4, k2]
      intro a ha b hb; rw [hp a ha, hp b hb]
    · rw [Bool.not_eq_false, List.all_eq_true]
      intro n hn
      obtain ⟨mo, hm, _⟩ := h1 n hn
      exact (a2 n).2 (.inr ⟨hn, List.mem_map_of_mem (f := Prod.fst) hm⟩)

/-- two motors on one port are accepted -/
example : (csAxisMapping ["x", "y"] [("x", ⟨['B', '1', ',', 'A'], 2, 1⟩), ("y", ⟨['B', '1', ',', 'B'], 2, 1⟩),
    ("z", ⟨[], 1, 1⟩)]).isOk = true ∧
    (csAxisMapping ["x", "y"] [("x", ⟨['B', '1', ',', 'A'], 2, 1⟩), ("y", ⟨['B', '1', ',', 'A'], 2, 1⟩)]).isOk = false := by
  decide +kernel

/-! ### C53 -/

/-- A motion with constant acceleration through the lower bound at time 0, the position half way through
and the upper bound at the end; `v` and `a` are its velocity at the start and its acceleration. -/
def Parabola (p : AxisPoint) (v a : ℚ) : Prop :=
  p.position = p.lower + v * (p.duration / 2) + a / 2 * (p.duration / 2) ^ 2 ∧
  p.upper = p.lower + v * p.duration + a / 2 * p.duration ^ 2

/-- the velocity computed for the entry of a point is that of the motion at its start -/
theorem entry_velocity (mx : ℚ) (p : AxisPoint) (hd : 0 < p.duration) (v a : ℚ) (hp : Parabola p v a) (w : ℚ)
    (h : pointVelocity mx p true = some w) : w = v := by
  obtain ⟨h1, h2⟩ := hp
  unfold pointVelocity at h
  simp only [if_true] at h
  split at h
  · rw [← Option.some.inj h]
    have hne : p.duration ≠ 0 := ne_of_gt hd
    rw [h1, h2]; field_simp; ring
  · exact absurd h (by simp)

/-- and that computed for the exit is that of the motion at its end -/
theorem exit_velocity (mx : ℚ) (p : AxisPoint) (hd : 0 < p.duration) (v a : ℚ) (hp : Parabola p v a) (w : ℚ)
    (h : pointVelocity mx p false = some w) : w = v + a * p.duration := by
  obtain ⟨h1, h2⟩ := hp
  unfold pointVelocity at h
  simp only [Bool.false_eq_true, if_false] at h
  split at h
  · rw [← Option.some.inj h]
    have hne : p.duration ≠ 0 := ne_of_gt hd
    rw [h1, h2]; field_simp; ring
  · exact absurd h (by simp)

/-- a velocity is only accepted if it is at most a millionth above the maximum -/
theorem velocity_bounded (mx : ℚ) (hm : 0 < mx) (p : AxisPoint) (e : Bool) (w : ℚ) (h : pointVelocity mx p e = some w) :
    |w| < mx * (1 + 1 / 1000000) := by
  unfold pointVelocity at h
  dsimp only at h
  generalize hw : 4 * (if e = true then p.position - p.lower else p.upper - p.position) / p.duration -
    (p.upper - p.lower) / p.duration = w' at h
  split at h
  · rename_i hlt
    rw [Option.some.inj h, div_lt_iff₀ hm] at hlt
    linarith
  · exact absurd h (by simp)

/-- **C53** part: for points whose position is half way between their bounds a turnaround starts with the
velocity at which the point before is left and ends with that at which the next is entered. What is
missing: the velocities used are those of the entry of the point before and of the exit of the next, see
`turnaround_wrong_velocity`. -/
theorem turnaround_velocities_partial (mx : ℚ) (p q : AxisPoint) (hp : p.position - p.lower = p.upper - p.position)
    (hq : q.position - q.lower = q.upper - q.position) :
    turnaroundVelocities mx p q = (match pointVelocity mx p false, pointVelocity mx q true with
      | some v1, some v2 => some (v1, v2)
      | _, _ => none) := by
  have e1 : pointVelocity mx p true = pointVelocity mx p false := by
    unfold pointVelocity; simp only [if_true, Bool.false_eq_true, if_false, hp]
  have e2 : pointVelocity mx q false = pointVelocity mx q true := by
    unfold pointVelocity; simp only [if_true, Bool.false_eq_true, if_false, hq]
  unfold turnaroundVelocities
  rw [e1, e2]
  cases pointVelocity mx p false with
  | none => rfl
  | some v1 => cases pointVelocity mx q true <;> rfl

/-- The defect: a point that is left at velocity 2, followed by one that is entered at velocity 2: the
turnaround is made to start and end at velocity 0. -/
theorem turnaround_wrong_velocity : ∃ p q : AxisPoint, Parabola p 0 2 ∧ Parabola q 2 (-2) ∧
    p.duration = 1 ∧ q.duration = 1 ∧ pointVelocity 10 p false = some 2 ∧ pointVelocity 10 q true = some 2 ∧
    turnaroundVelocities 10 p q = some (0, 0) := by
  refine ⟨⟨0, 1 / 4, 1, 1⟩, ⟨5, 5 + 3 / 4, 6, 1⟩, ?_⟩
  unfold Parabola
  refine ⟨by norm_num, by norm_num, rfl, rfl, ?_, ?_, ?_⟩ <;>
    norm_num [pointVelocity, turnaroundVelocities, abs_of_pos, abs_of_neg]

/-! ### C54 -/

theorem guess_fold (l : List (ℚ × ℚ)) : ∀ d0 : ℚ, d0 ≤ l.foldl (fun d a => if a.1 / a.2 > d then a.1 / a.2 else d) d0 ∧
    ∀ a ∈ l, a.1 / a.2 ≤ l.foldl (fun d a => if a.1 / a.2 > d then a.1 / a.2 else d) d0 := by
  induction l with
  | nil => intro d0; exact ⟨le_refl _, by simp⟩
  | cons x l ih =>
    intro d0
    rw [List.foldl_cons]
    obtain ⟨h1, h2⟩ := ih (if x.1 / x.2 > d0 then x.1 / x.2 else d0)
    have h3 : d0 ≤ (if x.1 / x.2 > d0 then x.1 / x.2 else d0) ∧ x.1 / x.2 ≤ (if x.1 / x.2 > d0 then x.1 / x.2 else d0) := by
      split <;> constructor <;> linarith
    refine ⟨le_trans h3.1 h1, ?_⟩
    intro a ha
    rcases List.mem_cons.1 ha with h | h
    · rw [h]; exact le_trans h3.2 h1
    · exact h2 a h

/-- **C54** part: an axis that moves forwards, or not at all, can move between the first two points in the
guessed duration. What is missing: one that moves backwards, see `guess_backwards`. -/
theorem guess_enough_partial (axes : List (ℚ × ℚ)) (hv : ∀ a ∈ axes, 0 < a.2) (hd : ∀ a ∈ axes, 0 ≤ a.1) :
    0 < guessDuration axes ∧ ∀ a ∈ axes, |a.1| ≤ a.2 * guessDuration axes := by
  unfold guessDuration
  obtain ⟨h1, h2⟩ := guess_fold axes 0
  simp only
  split
  · rename_i h0
    refine ⟨by norm_num [tickS], ?_⟩
    intro a ha
    have := h2 a ha
    rw [h0, div_le_iff₀ (hv a ha), zero_mul] at this
    have hz : a.1 = 0 := le_antisymm this (hd a ha)
    rw [hz, abs_zero]
    exact mul_nonneg (le_of_lt (hv a ha)) (by norm_num [tickS])
  · rename_i h0
    refine ⟨lt_of_le_of_ne h1 (Ne.symm h0), ?_⟩
    intro a ha
    have := h2 a ha
    rw [div_le_iff₀ (hv a ha)] at this
    rw [abs_of_nonneg (hd a ha)]
    linarith

/-- The defect: a scan whose first two points are 5 units backwards on an axis of maximum velocity 1 is
given one microsecond. -/
theorem guess_backwards : ∃ axes : List (ℚ × ℚ), (∀ a ∈ axes, 0 < a.2) ∧
    ¬ ∀ a ∈ axes, |a.1| ≤ a.2 * guessDuration axes := by
  refine ⟨[(-5, 1)], by simp, ?_⟩
  intro h
  have := h (-5, 1) (by simp)
  norm_num [guessDuration, tickS] at this

example : guessDuration [(1, 2), (3, 2), (0, 1)] = 3 / 2 := by decide +kernel

/-! ### C55 -/

/-- The position at time `t` of an axis that starts at `start` and whose velocity goes in straight lines
through the points `(t0, v0), …`: the area under the velocity up to `t`. -/
def posAt : (start t0 v0 : ℚ) → List (ℚ × ℚ) → ℚ → ℚ
  | start, _, _, [], _ => start
  | start, t0, v0, (t1, v1) :: rest, t =>
    if t ≤ t1 then start + v0 * (t - t0) + (v1 - v0) / (t1 - t0) * (t - t0) ^ 2 / 2
    else posAt (start + (v0 + v1) / 2 * (t1 - t0)) t1 v1 rest t

/-- strictly increasing, from `a` -/
def Increasing : ℚ → List ℚ → Prop
  | _, [] => True
  | a, b :: l => a < b ∧ Increasing b l

theorem increasing_lt : ∀ (l : List ℚ) (a : ℚ), Increasing a l → ∀ b ∈ l, a < b := by
  intro l
  induction l with
  | nil => intro a _ b hb; cases hb
  | cons c l ih =>
    intro a h b hb
    rcases List.mem_cons.1 hb with hb | hb
    · rw [hb]; exact h.1
    · exact lt_trans h.1 (ih c h.2 b hb)

theorem axisLoop_spec (ts : List ℚ) : ∀ (rest : List (ℚ × ℚ)) (prevT prevVel pos acc t0 v0 start : ℚ),
    Increasing prevT ts → Increasing t0 (rest.map Prod.fst) →
    (∀ x ∈ rest, x.1 ∈ ts) → (∀ t ∈ ts, ∃ x ∈ rest, t ≤ x.1) →
    (∀ t ∈ ts, ∀ x ∈ rest, isclose t x.1 = true → t = x.1) →
    acc = prevT - t0 → t0 ≤ prevT →
    (∀ t1 v1 r, rest = (t1, v1) :: r → prevVel = v0 + (prevT - t0) / (t1 - t0) * (v1 - v0) ∧
      pos = start + v0 * (prevT - t0) + (v1 - v0) / (t1 - t0) * (prevT - t0) ^ 2 / 2) →
    axisLoop prevT prevVel pos acc t0 v0 rest ts = some (ts.map (posAt start t0 v0 rest)) := by
  induction ts with
  | nil => intro rest prevT prevVel pos acc t0 v0 start _ _ _ _ _ _ _ _; rw [axisLoop]; rfl
  | cons t ts ih =>
    intro rest prevT prevVel pos acc t0 v0 start hts hrest hin hcov hsep hacc hle hst
    cases rest with
    | nil =>
      obtain ⟨x, hx, _⟩ := hcov t List.mem_cons_self
      cases hx
    | cons x rest =>
      obtain ⟨t1, v1⟩ := x
      obtain ⟨hv, hp⟩ := hst t1 v1 rest rfl
      have h01 : t0 < t1 := hrest.1
      have hrest' : Increasing t1 (rest.map Prod.fst) := hrest.2
      have htle : t ≤ t1 := by
        rcases List.mem_cons.1 (hin (t1, v1) List.mem_cons_self) with h | h
        · exact le_of_eq h.symm
        · exact le_of_lt (increasing_lt ts t hts.2 t1 h)
      have hne : t1 - t0 ≠ 0 := by intro h; linarith
      have hpt : prevT < t := hts.1
      rw [axisLoop]
      by_cases hc : isclose t t1 = true
      · have hteq : t = t1 := hsep t List.mem_cons_self (t1, v1) List.mem_cons_self hc
        subst hteq
        rw [if_pos hc]
        have hpos : pos + rampDistance prevVel v1 (t - prevT) = start + (v0 + v1) / 2 * (t - t0) := by
          unfold rampDistance
          rw [hp, hv]; field_simp; ring
        rw [hpos]
        have hmore : ∀ x ∈ rest, x.1 ∈ ts := by
          intro x hx
          rcases List.mem_cons.1 (hin x (List.mem_cons_of_mem _ hx)) with h | h
          · have := increasing_lt _ _ hrest' x.1 (List.mem_map_of_mem (f := Prod.fst) hx)
            rw [h] at this; exact absurd this (lt_irrefl _)
          · exact h
        have hrec := ih rest t v1 (start + (v0 + v1) / 2 * (t - t0)) 0 t v1 (start + (v0 + v1) / 2 * (t - t0)) hts.2 hrest'
          hmore (by
            intro u hu
            obtain ⟨x, hx, hxu⟩ := hcov u (List.mem_cons_of_mem _ hu)
            rcases List.mem_cons.1 hx with h | h
            · have := increasing_lt _ _ hts.2 u hu
              rw [h] at hxu; dsimp only at hxu
              exact absurd this (not_lt.2 hxu)
            · exact ⟨x, h, hxu⟩)
          (fun u hu x hx => hsep u (List.mem_cons_of_mem _ hu) x (List.mem_cons_of_mem _ hx))
          (by ring) (le_refl _) (by intro t2 v2 r _; constructor <;> simp)
        dsimp only
        rw [hrec]
        simp only [Option.map_some, List.map_cons, Option.some.injEq, List.cons.injEq]
        constructor
        · simp only [posAt, le_refl, if_true]; field_simp; ring
        · apply List.map_congr_left
          intro u hu
          have := increasing_lt _ _ hts.2 u hu
          conv_rhs => rw [posAt]
          rw [if_neg (not_le.2 this)]
      · rw [if_neg hc]
        have hlt : t < t1 := by
          rcases lt_or_eq_of_le htle with h | h
          · exact h
          · exfalso; apply hc; rw [h]; unfold isclose; rw [sub_self, abs_zero, decide_eq_true_eq]
            have := abs_nonneg t1; linarith
        have hmore : ∀ x ∈ (t1, v1) :: rest, x.1 ∈ ts := by
          intro x hx
          rcases List.mem_cons.1 (hin x hx) with h | h
          · exfalso
            rcases List.mem_cons.1 hx with hx | hx
            · rw [hx] at h; dsimp only at h; rw [h] at hlt; exact lt_irrefl _ hlt
            · have := increasing_lt _ _ hrest' x.1 (List.mem_map_of_mem (f := Prod.fst) hx)
              rw [h] at this; linarith
          · exact h
        have hacc' : acc + (t - prevT) = t - t0 := by rw [hacc]; ring
        have hrec := ih ((t1, v1) :: rest) t (v0 + (acc + (t - prevT)) / (t1 - t0) * (v1 - v0))
          (pos + rampDistance prevVel (v0 + (acc + (t - prevT)) / (t1 - t0) * (v1 - v0)) (t - prevT)) (acc + (t - prevT)) t0 v0
          start hts.2 hrest hmore (fun u hu => hcov u (List.mem_cons_of_mem _ hu))
          (fun u hu x hx => hsep u (List.mem_cons_of_mem _ hu) x hx) hacc' (by linarith) (by
            intro t2 v2 r he
            cases he
            refine ⟨by rw [hacc'], ?_⟩
            unfold rampDistance
            rw [hacc', hp, hv]; field_simp; ring)
        simp only
        rw [hrec]
        simp only [Option.map_some, List.map_cons, Option.some.injEq, List.cons.injEq, and_true]
        simp only [posAt, htle, if_true]
        unfold rampDistance
        rw [hacc', hp, hv]; field_simp; ring

/-! the combined times -/

/-- sorted without repeats -/
def Sorted : List ℚ → Prop
  | [] => True
  | a :: l => Increasing a l

theorem insertTime_mem (t : ℚ) (l : List ℚ) (x : ℚ) : x ∈ insertTime t l ↔ x = t ∨ x ∈ l := by
  induction l with
  | nil => simp [insertTime]
  | cons a l ih =>
    simp only [insertTime]
    split
    · simp
    · split
      · rename_i h; subst h; simp
      · simp only [List.mem_cons, ih]
        constructor
        · rintro (h | h | h)
          · exact .inr (.inl h)
          · exact .inl h
          · exact .inr (.inr h)
        · rintro (h | h | h)
          · exact .inr (.inl h)
          · exact .inl h
          · exact .inr (.inr h)

theorem insertTime_increasing (t : ℚ) (l : List ℚ) : ∀ a, a < t → Increasing a l → Increasing a (insertTime t l) := by
  induction l with
  | nil => intro a h _; exact ⟨h, trivial⟩
  | cons b l ih =>
    intro a h hi
    simp only [insertTime]
    split
    · rename_i hlt; exact ⟨h, hlt, hi.2⟩
    · rename_i hnlt
      split
      · exact hi
      · rename_i hne
        exact ⟨hi.1, ih b (lt_of_le_of_ne (not_lt.1 hnlt) (Ne.symm hne)) hi.2⟩

theorem insertTime_sorted (t : ℚ) (l : List ℚ) (h : Sorted l) : Sorted (insertTime t l) := by
  cases l with
  | nil => trivial
  | cons a l =>
    simp only [insertTime]
    split
    · rename_i hlt; exact ⟨hlt, h⟩
    · rename_i hnlt
      split
      · exact h
      · rename_i hne
        exact insertTime_increasing t l a (lt_of_le_of_ne (not_lt.1 hnlt) (Ne.symm hne)) h

theorem foldl_insert (ts : List ℚ) : ∀ l, Sorted l → Sorted (ts.foldl (fun l t => insertTime t l) l) ∧
    ∀ x, x ∈ ts.foldl (fun l t => insertTime t l) l ↔ x ∈ ts ∨ x ∈ l := by
  induction ts with
  | nil => intro l h; exact ⟨h, by simp⟩
  | cons t ts ih =>
    intro l h
    rw [List.foldl_cons]
    obtain ⟨h1, h2⟩ := ih (insertTime t l) (insertTime_sorted t l h)
    refine ⟨h1, fun x => ?_⟩
    rw [h2, insertTime_mem, List.mem_cons]
    constructor
    · rintro (h | h | h)
      · exact .inl (.inr h)
      · exact .inl (.inl h)
      · exact .inr h
    · rintro ((h | h) | h)
      · exact .inr (.inl h)
      · exact .inl h
      · exact .inr (.inr h)

/-- A consistent set of profiles, as `profile_between_points` returns: each starts at time 0, has
increasing times and ends at time `total`. -/
def Consistent (total : ℚ) (arrays : List (List (ℚ × ℚ))) : Prop :=
  ∀ a ∈ arrays, ∃ v0 rest, a = (0, v0) :: rest ∧ Increasing 0 (rest.map Prod.fst) ∧ (∃ x ∈ rest, x.1 = total) ∧
    ∀ x ∈ rest, x.1 ≤ total

theorem combined_spec (total : ℚ) (arrays : List (List (ℚ × ℚ))) (hc : Consistent total arrays) (hne : arrays ≠ []) :
    Increasing 0 (combinedTimes arrays) ∧
    ∀ x, x ∈ combinedTimes arrays ↔ ∃ a ∈ arrays, ∃ v0 rest, a = (0, v0) :: rest ∧ x ∈ rest.map Prod.fst := by
  obtain ⟨hs, hm⟩ := foldl_insert (arrays.flatten.map Prod.fst) [] trivial
  have hmem : ∀ x, x ∈ arrays.flatten.map Prod.fst ↔ ∃ a ∈ arrays, x ∈ a.map Prod.fst := by
    intro x
    simp only [List.mem_map, List.mem_flatten]
    constructor
    · rintro ⟨y, ⟨a, ha, hy⟩, rfl⟩; exact ⟨a, ha, y, hy, rfl⟩
    · rintro ⟨a, ha, y, hy, rfl⟩; exact ⟨y, ⟨a, ha, hy⟩, rfl⟩
  have h0 : (0 : ℚ) ∈ (arrays.flatten.map Prod.fst).foldl (fun l t => insertTime t l) [] := by
    obtain ⟨a, ha⟩ := List.exists_mem_of_ne_nil arrays hne
    obtain ⟨v0, rest, e, _⟩ := hc a ha
    rw [hm]
    exact .inl ((hmem 0).2 ⟨a, ha, by rw [e]; simp⟩)
  have hge : ∀ x ∈ (arrays.flatten.map Prod.fst).foldl (fun l t => insertTime t l) [], 0 ≤ x := by
    intro x hx
    rw [hm] at hx
    rcases hx with hx | hx
    · obtain ⟨a, ha, hxa⟩ := (hmem x).1 hx
      obtain ⟨v0, rest, e, hi, _⟩ := hc a ha
      rw [e, List.map_cons, List.mem_cons] at hxa
      rcases hxa with h | h
      · rw [h]
      · exact le_of_lt (increasing_lt _ _ hi x h)
    · cases hx
  unfold combinedTimes
  cases hl : (arrays.flatten.map Prod.fst).foldl (fun l t => insertTime t l) [] with
  | nil => rw [hl] at h0; cases h0
  | cons b l =>
    rw [hl] at hs h0 hge hm
    have hb : b = 0 := by
      rcases List.mem_cons.1 h0 with h | h
      · exact h.symm
      · have h1 := increasing_lt l b hs 0 h
        have h2 := hge b List.mem_cons_self
        exact absurd h1 (not_lt.2 h2)
    subst hb
    simp only [List.drop_succ_cons, List.drop_zero]
    refine ⟨hs, fun x => ?_⟩
    constructor
    · intro hx
      have hpos := increasing_lt l 0 hs x hx
      rcases (hm x).1 (List.mem_cons_of_mem _ hx) with h | h
      · obtain ⟨a, ha, hxa⟩ := (hmem x).1 h
        obtain ⟨v0, rest, e, hi, _⟩ := hc a ha
        rw [e, List.map_cons, List.mem_cons] at hxa
        rcases hxa with h | h
        · exact absurd hpos (by rw [h]; exact lt_irrefl _)
        · exact ⟨a, ha, v0, rest, e, h⟩
      · cases h
    · rintro ⟨a, ha, v0, rest, e, hx⟩
      obtain ⟨v0', rest', e', hi, _⟩ := hc a ha
      rw [e] at e'; cases e'
      have hpos := increasing_lt _ _ hi x hx
      have : x ∈ (0 : ℚ) :: l := (hm x).2 (.inl ((hmem x).2 ⟨a, ha, by rw [e, List.map_cons]; exact List.mem_cons_of_mem _ hx⟩))
      rcases List.mem_cons.1 this with h | h
      · exact absurd hpos (by rw [h]; exact lt_irrefl _)
      · exact h

/-- **C55** part: for any number of axes with consistent profiles whose times are equal or further apart
than `np.isclose` notices, the positions of each axis at the times of all of them are the areas under its
own velocity profile. What is missing: times that are close but not equal, see `close_times_fail`. -/
theorem turnaround_positions_partial (total : ℚ) (arrays : List (List (ℚ × ℚ))) (hc : Consistent total arrays)
    (hsep : ∀ t ∈ combinedTimes arrays, ∀ a ∈ arrays, ∀ x ∈ a, isclose t x.1 = true → t = x.1)
    (start v0 : ℚ) (rest : List (ℚ × ℚ)) (ha : (0, v0) :: rest ∈ arrays) :
    axisPositions arrays start ((0, v0) :: rest) = some ((combinedTimes arrays).map (posAt start 0 v0 rest)) := by
  have hne : arrays ≠ [] := by intro h; rw [h] at ha; cases ha
  obtain ⟨hinc, hmem⟩ := combined_spec total arrays hc hne
  obtain ⟨v0', rest', e, hi, ⟨xl, hxl, hxt⟩, hle⟩ := hc _ ha
  cases e
  unfold axisPositions
  apply axisLoop_spec
  · exact hinc
  · exact hi
  · intro x hx
    exact (hmem x.1).2 ⟨_, ha, v0, rest, rfl, List.mem_map_of_mem (f := Prod.fst) hx⟩
  · intro t ht
    obtain ⟨a, haa, v, r, e, hx⟩ := (hmem t).1 ht
    obtain ⟨v', r', e', _, _, hle'⟩ := hc a haa
    rw [e] at e'; cases e'
    obtain ⟨y, hy, rfl⟩ := List.mem_map.1 hx
    exact ⟨xl, hxl, by rw [hxt]; exact hle' y hy⟩
  · intro t ht x hx
    exact hsep t ht _ ha x (List.mem_cons_of_mem _ hx)
  · ring
  · exact le_refl _
  · intro t1 v1 r _
    constructor <;> simp

/-- the last of them is the end: the axis has moved by the whole area -/
theorem posAt_end (rest : List (ℚ × ℚ)) : ∀ (start t0 v0 : ℚ), Increasing t0 (rest.map Prod.fst) → ∀ tl vl,
    rest.getLast? = some (tl, vl) →
    posAt start t0 v0 rest tl = start + (((t0, v0) :: rest).zip rest).foldl
      (fun s p => s + (p.1.2 + p.2.2) / 2 * (p.2.1 - p.1.1)) 0 := by
  have shift : ∀ (l : List ((ℚ × ℚ) × (ℚ × ℚ))) (c : ℚ),
      l.foldl (fun s p => s + (p.1.2 + p.2.2) / 2 * (p.2.1 - p.1.1)) c =
      c + l.foldl (fun s p => s + (p.1.2 + p.2.2) / 2 * (p.2.1 - p.1.1)) 0 := by
    intro l
    induction l with
    | nil => intro c; simp
    | cons p l ih =>
      intro c
      rw [List.foldl_cons, List.foldl_cons, ih, ih (0 + _)]
      ring
  induction rest with
  | nil => intro start t0 v0 _ tl vl h; cases h
  | cons x rest ih =>
    intro start t0 v0 hi tl vl hl
    obtain ⟨t1, v1⟩ := x
    have h01 : t0 < t1 := hi.1
    have hne : t1 - t0 ≠ 0 := by intro h; linarith
    cases rest with
    | nil =>
      simp only [List.getLast?_singleton, Option.some.injEq, Prod.mk.injEq] at hl
      obtain ⟨rfl, rfl⟩ := hl
      simp only [posAt, le_refl, if_true, List.zip_cons_cons, List.zip_nil_right, List.foldl_cons, List.foldl_nil]
      field_simp; ring
    | cons y rest =>
      have hl' : (y :: rest).getLast? = some (tl, vl) := by rw [List.getLast?_cons_cons] at hl; exact hl
      have htl : t1 < tl := by
        apply increasing_lt _ _ hi.2
        have : (tl, vl) ∈ y :: rest := List.mem_of_getLast? hl'
        exact List.mem_map_of_mem (f := Prod.fst) this
      rw [posAt, if_neg (not_le.2 htl), ih _ _ _ hi.2 tl vl hl']
      conv_rhs => rw [List.zip_cons_cons, List.foldl_cons, shift _ (0 + _)]
      ring

/-- The defect: two profiles that end a billionth of a second apart, as floating point sums may, make the
function look for a point that the axes do not have. -/
theorem close_times_fail : ∃ a b : List (ℚ × ℚ), axisPositions [a, b] 0 a = none ∧ axisPositions [a, b] 0 b = none :=
  ⟨[(0, 1), (1, 1)], [(0, 1), (1 + 1 / 1000000000, 1)], by decide +kernel, by decide +kernel⟩

/-- two axes with different times in between: the hypotheses are met -/
example : combinedTimes [[(0, 1), (1, 3), (4, 1)], [(0, 0), (2, 2), (4, 0)]] = [1, 2, 4] ∧
    axisPositions [[(0, 1), (1, 3), (4, 1)], [(0, 0), (2, 2), (4, 0)]] 10 [(0, 0), (2, 2), (4, 0)] = some [10 + 1 / 2, 12, 14] := by
  decide +kernel

end Verif.Props.PmacUtil
