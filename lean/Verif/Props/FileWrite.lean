import Verif.Props.Steps
import Verif.Spec.FileWrite
/-!
C84 (the file of a scan).
-/
set_option linter.unusedSectionVars false
namespace Verif.Props.FileWrite
open Verif Verif.Steps Verif.FileWrite Verif.Spec.FileWrite Verif.Spec.Steps

variable {A : Type} [DecidableEq A] {P : Type} [DecidableEq P] {D S : Type}

/-! ### Writing a point -/

theorem expand_spec {V : Type} {needs : List Nat} {ds ds' : Ds V} (h : ds.expand needs = some ds') :
    ds'.cells = ds.cells ∧ ds'.maxshape = ds.maxshape ∧ ds'.shape = List.zipWith max needs ds.shape := by
  unfold Ds.expand at h
  simp only at h
  split at h
  · cases h; exact ⟨rfl, rfl, rfl⟩
  · cases h

theorem put_spec {V : Type} {idx : List Nat} {v : V} {ds ds' : Ds V} (h : ds.put idx v = some ds') :
    ds'.cells idx = some v ∧ (∀ j, j ≠ idx → ds'.cells j = ds.cells j) ∧ ds'.maxshape = ds.maxshape ∧ ds'.shape = ds.shape := by
  unfold Ds.put at h
  split at h
  · cases h
    exact ⟨by simp, fun j hj => by simp [hj], rfl, rfl⟩
  · cases h

/-- Writing a point changes the cells of that point and no others. -/
theorem write_spec {total : D → S} {g : Gen D} {h h' : Hdf D S} {i : Nat} {u : Int} (hw : writeData total g h i u = some h') :
    h'.data.cells (g.index i) = some (g.image i) ∧ h'.sum.cells (g.index i) = some (total (g.image i)) ∧
    h'.uid.cells (g.index i) = some u ∧
    ∀ j, j ≠ g.index i → h'.data.cells j = h.data.cells j ∧ h'.sum.cells j = h.sum.cells j ∧ h'.uid.cells j = h.uid.cells j := by
  simp only [writeData, Option.bind_eq_bind, Option.bind_eq_some_iff, Option.pure_def, Option.some.injEq] at hw
  obtain ⟨d1, hd1, s1, hs1, u1, hu1, d2, hd2, s2, hs2, u2, hu2, rfl⟩ := hw
  have ⟨a1, a2, _⟩ := put_spec hd2
  have ⟨b1, b2, _⟩ := put_spec hs2
  have ⟨c1, c2, _⟩ := put_spec hu2
  refine ⟨a1, b1, c1, fun j hj => ⟨?_, ?_, ?_⟩⟩
  · rw [a2 j hj, (expand_spec hd1).1]
  · rw [b2 j hj, (expand_spec hs1).1]
  · rw [c2 j hj, (expand_spec hu1).1]

/-- A dataset that can take every point of the scan -/
structure Roomy {V : Type} (shape : List Nat) (ds : Ds V) : Prop where
  max : ds.maxshape = shape
  len : ds.shape.length = shape.length
  fits : ∀ (k a b : Nat), ds.shape[k]? = some a → shape[k]? = some b → a ≤ b

theorem zipWith_all {f : Nat → Nat → Bool} {l r : List Nat} (h : ∀ (k a b : Nat), l[k]? = some a → r[k]? = some b → f a b = true) :
    (List.zipWith f l r).all id = true := by
  rw [List.all_eq_true]
  intro x hx
  obtain ⟨k, hk, rfl⟩ := List.getElem_of_mem hx
  simp only [List.length_zipWith] at hk
  rw [List.getElem_zipWith]
  exact h k _ _ (List.getElem?_eq_getElem (by omega)) (List.getElem?_eq_getElem (by omega))

theorem zipWith_max {l r : List Nat} {k c : Nat} (h : (List.zipWith max l r)[k]? = some c) :
    ∃ a b, l[k]? = some a ∧ r[k]? = some b ∧ c = max a b := by
  rw [List.getElem?_zipWith] at h
  cases h1 : l[k]? with
  | none => simp [h1] at h
  | some a =>
    cases h2 : r[k]? with
    | none => simp [h1, h2] at h
    | some b => simp [h1, h2] at h; exact ⟨a, b, rfl, rfl, h.symm⟩

theorem expand_ok {V : Type} {shape idx : List Nat} (hl : idx.length = shape.length)
    (hi : ∀ (k a b : Nat), idx[k]? = some a → shape[k]? = some b → a < b) {ds : Ds V} (h : Roomy shape ds) :
    ∃ ds', ds.expand (idx.map (· + 1)) = some ds' ∧ Roomy shape ds' ∧
      ∀ (k a b : Nat), idx[k]? = some a → ds'.shape[k]? = some b → a < b := by
  have hfit : ∀ (k a b : Nat), (List.zipWith max (idx.map (· + 1)) ds.shape)[k]? = some a → shape[k]? = some b → a ≤ b := by
    intro k a b h1 h2
    obtain ⟨x, y, hx, hy, rfl⟩ := zipWith_max h1
    rw [List.getElem?_map] at hx
    obtain ⟨x', hx', rfl⟩ := Option.map_eq_some_iff.1 hx
    have e1 := hi k _ _ hx' h2
    have e2 := h.fits k _ _ hy h2
    omega
  refine ⟨{ ds with shape := List.zipWith max (idx.map (· + 1)) ds.shape }, ?_, ⟨h.max, ?_, hfit⟩, ?_⟩
  · unfold Ds.expand
    rw [if_pos]
    rw [h.max]
    exact zipWith_all fun k a b h1 h2 => decide_eq_true (hfit k a b h1 h2)
  · simp [h.len, hl]
  · intro k a b h1 h2
    obtain ⟨x, y, hx, hy, rfl⟩ := zipWith_max h2
    rw [List.getElem?_map, h1] at hx
    simp only [Option.map_some, Option.some.injEq] at hx
    omega

theorem put_ok {V : Type} {shape idx : List Nat} (hl : idx.length = shape.length) {ds : Ds V} (h : Roomy shape ds)
    (hi : ∀ (k a b : Nat), idx[k]? = some a → ds.shape[k]? = some b → a < b) (v : V) :
    ∃ ds', ds.put idx v = some ds' ∧ Roomy shape ds' := by
  refine ⟨{ ds with cells := fun j => if j = idx then some v else ds.cells j }, ?_, ⟨h.max, h.len, h.fits⟩⟩
  unfold Ds.put
  rw [if_pos]
  exact ⟨by rw [hl, h.len], zipWith_all fun k a b h1 h2 => decide_eq_true (hi k a b h1 h2)⟩

/-- A file that can take every point -/
structure Open (g : Gen D) (h : Hdf D S) : Prop where
  data : Roomy g.shape h.data
  sum : Roomy g.shape h.sum
  uid : Roomy g.shape h.uid

/-- Every point can be written, whatever was written before. -/
theorem write_ok (total : D → S) {g : Gen D} (hg : Proper g) {h : Hdf D S} (ho : Open g h) {i : Nat} (hi : i < g.size) (u : Int) :
    ∃ h', writeData total g h i u = some h' ∧ Open g h' := by
  obtain ⟨hl, hin⟩ := hg.inside i hi
  obtain ⟨d1, hd1, rd1, id1⟩ := expand_ok hl hin ho.data
  obtain ⟨s1, hs1, rs1, is1⟩ := expand_ok hl hin ho.sum
  obtain ⟨u1, hu1, ru1, iu1⟩ := expand_ok hl hin ho.uid
  obtain ⟨d2, hd2, rd2⟩ := put_ok hl rd1 id1 (g.image i)
  obtain ⟨s2, hs2, rs2⟩ := put_ok hl rs1 is1 (total (g.image i))
  obtain ⟨u2, hu2, ru2⟩ := put_ok hl ru1 iu1 u
  exact ⟨⟨d2, s2, u2⟩, by simp [writeData, hd1, hs1, hu1, hd2, hs2, hu2], ⟨rd2, rs2, ru2⟩⟩

theorem create_open {g : Gen D} (hs : ∀ n ∈ g.shape, 0 < n) : Open g (createHdf g : Hdf D S) := by
  have key : ∀ {V : Type}, Roomy g.shape (Ds.create g.shape : Ds V) := by
    intro V
    refine ⟨rfl, by simp [Ds.create], ?_⟩
    intro k a b h1 h2
    simp only [Ds.create, List.getElem?_map, h2, Option.map_some, Option.some.injEq] at h1
    have := hs b (List.mem_of_getElem? h2)
    omega
  exact ⟨key, key, key⟩

/-! ### What others see in the file -/

theorem truthful_write {total : D → S} {g : Gen D} {h h' : Hdf D S} {i : Nat} {u : Int} (ht : Truthful total g h) (hi : i < g.size)
    (hw : writeData total g h i u = some h') : Truthful total g h' := by
  obtain ⟨w1, w2, w3, w4⟩ := write_spec hw
  intro idx v hv
  by_cases he : idx = g.index i
  · exact ⟨i, hi, he.symm, w1, w2, u, w3⟩
  · obtain ⟨e1, e2, e3⟩ := w4 idx he
    rw [e3] at hv
    obtain ⟨j, hj, rfl, k1, k2, k3, k4⟩ := ht idx v hv
    exact ⟨j, hj, rfl, by rw [e1, k1], by rw [e2, k2], k3, by rw [e3, k4]⟩

/-- Ids that can be seen are in the file being written too. -/
def Older (old h : Hdf D S) : Prop := ∀ idx u, old.uid.cells idx = some u → ∃ v, h.uid.cells idx = some v

theorem truthful_flush {total : D → S} {g : Gen D} (hg : Proper g) {h disk : Hdf D S} (hd : Truthful total g disk) (hh : Truthful total g h)
    (ho : Older disk h) : ∀ x ∈ flushes h disk, Truthful total g x := by
  have key : ∀ idx u, disk.uid.cells idx = some u → ∃ i, i < g.size ∧ g.index i = idx ∧ Stored total g disk i ∧ Stored total g h i := by
    intro idx u hu
    obtain ⟨i, hi, rfl, st⟩ := hd idx u hu
    obtain ⟨v, hv⟩ := ho _ _ hu
    obtain ⟨j, hj, he, st'⟩ := hh _ _ hv
    cases hg.own i j hi hj he.symm
    exact ⟨i, hi, rfl, st, st'⟩
  intro x hx
  simp only [flushes, List.mem_cons, List.not_mem_nil, or_false] at hx
  rcases hx with rfl | rfl | rfl
  · intro idx u hu
    obtain ⟨i, hi, he, st, st'⟩ := key idx u hu
    exact ⟨i, hi, he, st'.1, st.2.1, st.2.2⟩
  · intro idx u hu
    obtain ⟨i, hi, he, st, st'⟩ := key idx u hu
    exact ⟨i, hi, he, st'.1, st'.2.1, st.2.2⟩
  · exact hh

/-- The invariant: every state of the file that was seen is truthful, and so is the one being written. -/
structure Honest (total : D → S) (g : Gen D) (s : Sys P D S) : Prop where
  seen : ∀ x ∈ s.seen, Truthful total g x
  disk : Truthful total g s.disk
  mem : ∀ h, s.part.hdf = some h → Truthful total g h ∧ Older s.disk h

theorem honest_fail {total : D → S} {g : Gen D} {s : Sys P D S} (h : Honest total g s) : Honest total g s.fail := ⟨h.seen, h.disk, h.mem⟩

theorem honest_flush {total : D → S} {g : Gen D} (hg : Proper g) {s : Sys P D S} (h : Honest total g s) {f : Hdf D S}
    (hf : s.part.hdf = some f) : Honest total g (s.flush f) := by
  obtain ⟨h1, h2⟩ := h.mem f hf
  refine ⟨?_, h1, ?_⟩
  · intro x hx
    rcases List.mem_append.1 hx with hx | hx
    · exact h.seen x hx
    · exact truthful_flush hg h.disk h1 h2 x hx
  · intro f' hf'
    have : s.part.hdf = some f' := hf'
    rw [hf] at this; cases this
    exact ⟨h1, fun _ u hu => ⟨u, hu⟩⟩

theorem honest_step {total : D → S} {g : Gen D} (hg : Proper g) {s : Sys P D S} (h : Honest total g s) (e : FileWrite.Ev P) :
    Honest total g (s.step total g e) := by
  cases e with
  | run => simp only [Sys.step]; split <;> exact ⟨h.seen, h.disk, h.mem⟩
  | resume => simp only [Sys.step]; split <;> exact ⟨h.seen, h.disk, h.mem⟩
  | progress p n => exact ⟨h.seen, h.disk, h.mem⟩
  | pause lg =>
    simp only [Sys.step, Sys.pause]
    split
    · exact h
    · split
      · exact h
      · split <;> exact ⟨h.seen, h.disk, h.mem⟩
  | abort =>
    simp only [Sys.step, Sys.abort]
    split
    · exact honest_fail h
    · rename_i f hf
      obtain ⟨h1, h2⟩ := h.mem f hf
      refine ⟨?_, h1, fun f' hf' => by cases hf'⟩
      intro x hx
      rcases List.mem_append.1 hx with hx | hx
      · exact h.seen x hx
      · rw [List.mem_singleton.1 hx]; exact h1
  | done =>
    simp only [Sys.step, Sys.done]
    split
    · refine ⟨h.seen, h.disk, ?_⟩
      intro f hf
      apply h.mem f
      rw [← hf]
      cases postRun s.scan.scan with
      | error _ => rfl
      | ok r => rcases r with ⟨_, _ | w⟩ <;> rfl
    · exact h
  | leave =>
    simp only [Sys.step, Sys.leave]
    split
    · split
      · exact h
      · split
        · exact honest_fail h
        · rename_i f hf
          have := honest_flush hg h hf
          exact ⟨this.seen, this.disk, this.mem⟩
    · exact h
  | write b =>
    simp only [Sys.step, Sys.write]
    split
    · rename_i pos stop hl
      split
      · split
        · exact honest_fail h
        · rename_i f hf
          split
          · rename_i hpos
            split
            · exact honest_fail h
            · rename_i f' hw
              obtain ⟨h1, h2⟩ := h.mem f hf
              have t := truthful_write h1 (by omega) hw
              have o : Older s.disk f' := by
                intro idx u hu
                obtain ⟨v, hv⟩ := h2 idx u hu
                obtain ⟨-, -, w3, w4⟩ := write_spec hw
                by_cases he : idx = g.index pos.toNat
                · exact ⟨_, he ▸ w3⟩
                · exact ⟨v, by rw [(w4 idx he).2.2, hv]⟩
              have key : Honest total g (s.wrote f' pos stop (pos + s.part.offset + 1)) := by
                refine ⟨h.seen, h.disk, ?_⟩
                intro f'' hf''; cases hf''
                exact ⟨t, o⟩
              cases b
              · exact key
              · exact honest_flush hg key rfl
          · exact honest_fail h
      · exact h
    · exact h

theorem honest_run {total : D → S} {g : Gen D} (hg : Proper g) : ∀ (evs : List (FileWrite.Ev P)) {s : Sys P D S}, Honest total g s →
    Honest total g (s.run total g evs)
  | [], _, h => h
  | e :: es, _, h => honest_run hg es (honest_step hg h e)

theorem honest_start (total : D → S) (g : Gen D) (m : Machine (Option P)) : Honest total g (start g m : Sys P D S) := by
  have t : Truthful total g (createHdf g : Hdf D S) := fun idx u hu => by cases hu
  refine ⟨?_, t, ?_⟩
  · intro x hx
    rw [List.mem_singleton.1 hx]; exact t
  · intro h hh; cases hh
    exact ⟨t, fun _ u hu => ⟨u, hu⟩⟩

/-- C84: whatever happens to a scan, whoever looks at its file at any time finds, wherever there is an id, a point of the
scan in its place with its whole data. -/
theorem ids_come_last (total : D → S) {g : Gen D} (hg : Proper g) (m : Machine (Option P)) (evs : List (FileWrite.Ev P)) :
    ∀ x ∈ ((start g m : Sys P D S).run total g evs).seen, Truthful total g x :=
  (honest_run hg evs (honest_start total g m)).seen

/-! ### Ids and completed steps -/

/-- What the scan sees of an event -/
def seenAs : FileWrite.Ev P → Option (Steps.Ev (Option P))
  | .pause lg => some (.pause lg)
  | .progress p n => some (.progress (some p) n)
  | _ => none

/-- As for C09: other parts report while the scan is running and never more than the steps configured; `run()` in progress
is only paused at the steps completed, or at a step of that run. -/
def Orderly (parts : List Int) (s : Sys P D S) (e : FileWrite.Ev P) : Prop :=
  ∀ e', seenAs e = some e' → Steps.Allowed parts s.scan e'

def OrderlyHistory (total : D → S) (g : Gen D) (parts : List Int) : Sys P D S → List (FileWrite.Ev P) → Prop
  | _, [] => True
  | s, e :: es => Orderly parts s e ∧ OrderlyHistory total g parts (s.step total g e) es

/-- Where the next id is counted from -/
def cursor (s : Sys P D S) : Int :=
  match s.loop with
  | .going pos _ => pos + s.part.offset
  | .ended => s.part.completed + s.part.steps + s.part.offset
  | .idle => if s.scan.phase = .finished then s.part.completed + s.part.steps + s.part.offset else s.part.completed + s.part.offset

/-- The part does what the scan wants. -/
structure Link (parts : List Int) (g : Gen D) (s : Sys P D S) : Prop where
  good : ∃ j, Steps.Good parts s.scan j
  size : s.scan.scan.total = g.size
  file : ∃ h, s.part.hdf = some h ∧ Open g h
  first : 0 ≤ s.part.completed
  steps : 0 < s.part.steps
  win : s.scan.phase ≠ .finished → (s.part.completed, s.part.steps) = s.scan.window
  loop : match s.loop with
    | .idle => ∀ l, s.scan.phase ≠ .running l
    | .going pos stop => (∃ l, s.scan.phase = .running l) ∧ s.part.completed ≤ pos ∧ pos ≤ stop ∧ stop = s.part.completed + s.part.steps
    | .ended => ∃ l, s.scan.phase = .running l
  ids : ∀ e ∈ s.log, e.2 ≤ cursor s

theorem Link.stop {parts : List Int} {g : Gen D} {s : Sys P D S} (h : Link parts g s) (hf : s.scan.phase ≠ .finished) :
    s.part.completed + s.part.steps = s.scan.scan.configured := by
  obtain ⟨j, hj⟩ := h.good
  have := (hj.notfin hf).1
  rw [← h.win hf] at this
  exact this

/-- A pause goes to a step of the scan, and the part is told. -/
theorem pause_told {parts : List Int} {m : Machine P} {j : Nat} (h : Steps.Good parts m j) (lg t : Int)
    (ha : Steps.Allowed parts m (.pause lg)) (ht : pauseTarget m.scan m.phase lg = some t) :
    ∃ s' w, doPause m.scan t = .ok (s', w) ∧ (m.step (.pause lg)).window = w ∧ (m.step (.pause lg)).scan = s' ∧
      w.1 = t ∧ 0 ≤ t ∧ 0 < w.2 ∧ s'.completed = t ∧ s'.progress = m.scan.progress ∧ s'.total = m.scan.total ∧
      (m.step (.pause lg)).phase ≠ .finished ∧ ∀ l, (m.step (.pause lg)).phase ≠ .running l := by
  have hnoop : ¬ (lg < 0 ∧ m.phase = .finished) := by
    intro hn
    simp [pauseTarget, hn.1, hn.2] at ht
  have hc0 := Steps.sum_take_nonneg h.wf.pos j
  have h00 := h.c0
  have hle : m.scan.completed ≤ m.scan.configured := by
    by_cases hf : m.phase = .finished
    · obtain ⟨a, b, -⟩ := h.fin hf; omega
    · exact (h.notfin hf).2.2.2
  have hlg : 0 ≤ lg ∨ m.scan.completed < m.scan.total ∨ ∃ last, m.phase = .running last := by
    by_cases hl : 0 ≤ lg
    · exact Or.inl hl
    · right
      cases hp : m.phase with
      | finished => exact absurd ⟨by omega, hp⟩ hnoop
      | fault => exact absurd hp h.nofault
      | running l => exact Or.inr ⟨l, rfl⟩
      | armed => left; have := h.strict (Or.inl hp); have := h.wf.cfg_le; omega
      | paused l => left; have := h.strict (Or.inr ⟨l, hp⟩); have := h.wf.cfg_le; omega
  obtain ⟨p, e, hp0, hp1, hseg, hw, hc, hcfg, hph, -⟩ := Steps.pause_goes_to_segment h.wf (by omega) h.nofault lg hlg hle hnoop
  have hpt : t = p := by
    have hstep : (m.step (.pause lg)).scan.completed = t := by
      cases hdp : doPause m.scan t with
      | error x =>
        exfalso
        have : (m.step (.pause lg)).phase = .fault := by
          cases hp : m.phase <;> (first | exact absurd hp h.nofault | (rw [hp] at ht; simp [Machine.step, hp, ht, hdp]))
        rw [this] at hph
        cases hp : m.phase <;> rw [hp] at hph <;> cases hph
      | ok r =>
        have hcomp : r.1.completed = t := by
          unfold doPause at hdp
          repeat' split at hdp
          all_goals first | (cases hdp; rfl) | cases hdp
        cases hp : m.phase <;> (first | exact absurd hp h.nofault | (rw [hp] at ht; simp [Machine.step, hp, ht, hdp, hcomp]))
    omega
  subst hpt
  obtain ⟨e', s', j', hd, hseg', hwf', hcfg', hcomp', hprog', -⟩ := doPause_spec h.wf hp0 hp1
  have hst : (m.step (.pause lg)).window = (t, e' - t) ∧ (m.step (.pause lg)).scan = s' := by
    cases hp : m.phase <;> (first | exact absurd hp h.nofault | (rw [hp] at ht; simp [Machine.step, hp, ht, hd]))
  obtain ⟨before, size, after, hparts, hb1, hb2, rfl⟩ := hseg'
  refine ⟨s', _, hd, hst.1, hst.2, rfl, hp0, ?_, hcomp', hprog', ?_, ?_, ?_⟩
  · show 0 < _ - t; omega
  · rw [hwf'.total, h.wf.total]
  · rw [hph]; cases m.phase <;> simp
  · intro l; rw [hph]; cases m.phase <;> simp

/-- Either the scan has failed, and the part does no more, or the part does what the scan wants. -/
def Inv (parts : List Int) (g : Gen D) (s : Sys P D S) : Prop :=
  (s.scan.phase = .fault ∧ s.loop = .idle) ∨ Link parts g s

theorem fault_step {total : D → S} {g : Gen D} {s : Sys P D S} (h : s.scan.phase = .fault ∧ s.loop = .idle) (e : FileWrite.Ev P) :
    (s.step total g e).scan.phase = .fault ∧ (s.step total g e).loop = .idle ∧ (s.step total g e).log = s.log := by
  obtain ⟨h1, h2⟩ := h
  cases e with
  | run => simp [Sys.step, h1, h2]
  | resume => simp [Sys.step, h1, h2]
  | pause lg => simp [Sys.step, Sys.pause, h1, h2]
  | write b => simp [Sys.step, Sys.write, h1, h2]
  | leave => simp [Sys.step, Sys.leave, h1, h2]
  | done => simp [Sys.step, Sys.done, h1, h2]
  | progress p n => exact ⟨h1, h2, rfl⟩
  | abort =>
    simp only [Sys.step, Sys.abort]
    split <;> exact ⟨rfl, rfl, rfl⟩

theorem notfin_run {m : Machine P} {l : Bool} (h : m.phase = .running l) : m.phase ≠ .finished := by rw [h]; simp

theorem link_begin {parts : List Int} {g : Gen D} {s : Sys P D S} (h : Link parts g s) (hl : s.loop = .idle) (hf : s.scan.phase ≠ .finished)
    {m : Machine (Option P)} (hg : ∃ j, Steps.Good parts m j) (h1 : ∃ l, m.phase = .running l) (h2 : m.window = s.scan.window)
    (h3 : m.scan = s.scan.scan) : Link parts g { s with scan := m, loop := s.part.loop } := by
  refine ⟨hg, by rw [← h.size, h3], h.file, h.first, h.steps, fun _ => (h.win hf).trans h2.symm, ⟨h1, Int.le_refl _, ?_, rfl⟩, ?_⟩
  · have := h.steps; show s.part.completed ≤ s.part.completed + s.part.steps; omega
  · intro e he
    have := h.ids e he
    simpa [cursor, hl, hf, Part.loop] using this

theorem link_run {total : D → S} {parts : List Int} {g : Gen D} {s : Sys P D S} (h : Link parts g s) (e : FileWrite.Ev P) (he : e = .run ∨ e = .resume) :
    Link parts g (s.step total g e) := by
  obtain ⟨j, hj⟩ := h.good
  rcases he with rfl | rfl
  · simp only [Sys.step]
    cases hph : s.scan.phase with
    | armed =>
      have hl : s.loop = .idle := by
        have := h.loop
        cases hlo : s.loop with
        | idle => rfl
        | going pos stop => rw [hlo] at this; obtain ⟨⟨l, hl⟩, -⟩ := this; rw [hph] at hl; cases hl
        | ended => rw [hlo] at this; obtain ⟨l, hl⟩ := this; rw [hph] at hl; cases hl
      refine link_begin h hl (by rw [hph]; simp) (Steps.good_step hj .run trivial)
        ⟨!decide (s.scan.scan.configured < s.scan.scan.total), ?_⟩ ?_ ?_ <;> simp [Machine.step, hph]
    | _ => exact h
  · simp only [Sys.step]
    cases hph : s.scan.phase with
    | paused l =>
      have hl : s.loop = .idle := by
        have := h.loop
        cases hlo : s.loop with
        | idle => rfl
        | going pos stop => rw [hlo] at this; obtain ⟨⟨l, hl⟩, -⟩ := this; rw [hph] at hl; cases hl
        | ended => rw [hlo] at this; obtain ⟨l, hl⟩ := this; rw [hph] at hl; cases hl
      refine link_begin h hl (by rw [hph]; simp) (Steps.good_step hj .resume trivial) ?_ ?_ ?_ <;> simp [Machine.step, hph]
    | _ => exact h

theorem cursor_le {parts : List Int} {g : Gen D} {s : Sys P D S} (h : Link parts g s) :
    cursor s ≤ s.part.completed + s.part.steps + s.part.offset := by
  have h1 := h.steps
  have h2 := h.loop
  unfold cursor
  cases hl : s.loop with
  | idle => simp only; split <;> omega
  | going pos stop => rw [hl] at h2; obtain ⟨-, -, a, b⟩ := h2; simp only; omega
  | ended => exact Int.le_refl _

theorem link_pause {parts : List Int} {g : Gen D} {s : Sys P D S} (h : Link parts g s) (lg : Int)
    (ha : Steps.Allowed parts s.scan (.pause lg)) : Link parts g (s.pause lg) := by
  obtain ⟨j, hj⟩ := h.good
  have key : ∀ t, pauseTarget s.scan.scan s.scan.phase lg = some t →
      ∀ s' w, doPause s.scan.scan t = .ok (s', w) → Link parts g { s with scan := s.scan.step (.pause lg), loop := .idle, part := s.part.onSeek w } := by
    intro t ht s' w hd
    obtain ⟨s'', w', hd', h1, h2, h3, h4, h5, h6, h7, h8, h9, h10⟩ := pause_told hj lg t ha ht
    rw [hd] at hd'
    cases hd'
    refine ⟨Steps.good_step hj _ ha, ?_, h.file, ?_, h5, ?_, h10, ?_⟩
    · show (s.scan.step (.pause lg)).scan.total = _; rw [h2, h8, h.size]
    · show 0 ≤ w.1; omega
    · intro _; exact h1.symm
    · intro e he
      have := Int.le_trans (h.ids e he) (cursor_le h)
      simp only [cursor, h9, if_false, Part.onSeek]
      omega
  have bad : ∀ t, pauseTarget s.scan.scan s.scan.phase lg = some t → ∀ x, doPause s.scan.scan t ≠ .error x := by
    intro t ht x hx
    obtain ⟨s'', w', hd', -⟩ := pause_told hj lg t ha ht
    rw [hx] at hd'; cases hd'
  unfold Sys.pause
  cases hph : s.scan.phase with
  | fault => exact absurd hph hj.nofault
  | _ =>
    simp only
    rw [hph] at key bad
    split
    · exact h
    · rename_i t ht
      split
      · rename_i x hx; exact absurd hx (bad t ht x)
      · rename_i s' w hd; exact key t ht s' w hd

theorem link_progress {parts : List Int} {g : Gen D} {s : Sys P D S} (h : Link parts g s) (q : Option P) (n : Int)
    (ha : Steps.Allowed parts s.scan (.progress q n)) : Link parts g { s with scan := s.scan.step (.progress q n) } := by
  obtain ⟨j, hj⟩ := h.good
  exact ⟨Steps.good_step hj _ ha, (updateCompleted_frame s.scan.scan q n).1.trans h.size, h.file, h.first, h.steps, h.win, h.loop, h.ids⟩

theorem link_leave {parts : List Int} {g : Gen D} {s : Sys P D S} (h : Link parts g s) : Link parts g s.leave := by
  obtain ⟨f, hf, ho⟩ := h.file
  unfold Sys.leave
  cases hl : s.loop with
  | idle => exact h
  | ended => exact h
  | going pos stop =>
    simp only
    have h2 := h.loop
    rw [hl] at h2
    obtain ⟨hr, h3, h4, h5⟩ := h2
    split
    · exact h
    · rw [hf]
      refine ⟨h.good, h.size, h.file, h.first, h.steps, h.win, hr, ?_⟩
      intro e he
      have := h.ids e he
      simp only [cursor, hl] at this
      simp only [cursor, Sys.flush]
      omega

theorem link_done {parts : List Int} {g : Gen D} {s : Sys P D S} (h : Link parts g s) : Link parts g s.done := by
  obtain ⟨j, hj⟩ := h.good
  unfold Sys.done
  cases hl : s.loop with
  | idle => exact h
  | going pos stop => exact h
  | ended =>
    simp only
    have h2 := h.loop
    rw [hl] at h2
    obtain ⟨l, hr⟩ := h2
    have hnf := notfin_run hr
    have hst := h.stop hnf
    have hlast := hj.last l (Or.inl hr)
    by_cases hlt : s.scan.scan.configured < s.scan.scan.total
    · have hl' : l = false := by
        cases l with
        | false => rfl
        | true => have := hlast.1 rfl; omega
      subst hl'
      obtain ⟨hi, s', hp, hwf', hcmp, hcfg, -⟩ := postRun_more hj.wf hlt
      rw [hp]
      have hm : s.scan.step .runHooksDone = {
          scan := s', phase := .armed, window := (s.scan.scan.configured, parts[j + 1]),
          ran := s.scan.ran ++ [s.scan.window], start := s.scan.start } := by simp [Machine.step, hr, hp]
      have hpos := hj.wf.pos _ (List.getElem_mem hi)
      have hcp := hj.wf.cfg_pos
      refine ⟨Steps.good_step hj .runHooksDone trivial, ?_, h.file, ?_, hpos, ?_, ?_, ?_⟩
      · rw [hm]; show s'.total = _; rw [hwf'.total, ← hj.wf.total, h.size]
      · show 0 ≤ s.scan.scan.configured; omega
      · intro _; rw [hm]; rfl
      · intro l; rw [hm]; simp
      · intro e he
        have := h.ids e he
        simp only [cursor, hl] at this
        simp only [cursor, hm, reduceCtorEq, if_false, Part.onSeek]
        omega
    · have hl' : l = true := hlast.2 (by have := hj.wf.cfg_le; omega)
      subst hl'
      rw [postRun_last hlt]
      have hm : (s.scan.step .runHooksDone).phase = .finished := by simp [Machine.step, hr, postRun_last hlt]
      refine ⟨Steps.good_step hj .runHooksDone trivial, ?_, h.file, h.first, h.steps, ?_, ?_, ?_⟩
      · simp only [Machine.step, hr, postRun_last hlt]; exact h.size
      · intro hn; exact absurd hm hn
      · intro l; rw [hm]; simp
      · intro e he
        have := h.ids e he
        simp only [cursor, hl] at this
        simp only [cursor, hm, if_true]
        exact this

/-- A turn of the loop writes the point and reports it, and does not fail. -/
theorem write_eq {total : D → S} {parts : List Int} {g : Gen D} (hg : Proper g) {s : Sys P D S} (h : Link parts g s) {pos stop : Int} (b : Bool)
    (hl : s.loop = .going pos stop) (hlt : pos < stop) {f : Hdf D S} (hf : s.part.hdf = some f) :
    ∃ f', writeData total g f pos.toNat (pos + s.part.offset + 1) = some f' ∧ Open g f' ∧ 0 ≤ pos ∧ pos < g.size ∧
      s.write total g b = if b then (s.wrote f' pos stop (pos + s.part.offset + 1)).flush f' else s.wrote f' pos stop (pos + s.part.offset + 1) := by
  have h2 := h.loop
  rw [hl] at h2
  obtain ⟨⟨l, hr⟩, h3, h4, h5⟩ := h2
  have hst := h.stop (notfin_run hr)
  obtain ⟨j, hj⟩ := h.good
  have hcl := hj.wf.cfg_le
  have h0 := h.first
  have hsz := h.size
  obtain ⟨f0, hf0, ho⟩ := h.file
  rw [hf] at hf0; cases hf0
  obtain ⟨f', hw, ho'⟩ := write_ok total hg ho (i := pos.toNat) (by omega) (pos + s.part.offset + 1)
  refine ⟨f', hw, ho', by omega, by omega, ?_⟩
  unfold Sys.write
  rw [hl]
  simp only [hlt, if_true, hf, hw]
  rw [if_pos ⟨by omega, by omega⟩]

theorem link_wrote {parts : List Int} {g : Gen D} {s : Sys P D S} (h : Link parts g s) {pos stop : Int}
    (hl : s.loop = .going pos stop) (hlt : pos < stop) {f' : Hdf D S} (ho : Open g f') :
    Link parts g (s.wrote f' pos stop (pos + s.part.offset + 1)) := by
  have h2 := h.loop
  rw [hl] at h2
  obtain ⟨⟨l, hr⟩, h3, h4, h5⟩ := h2
  have hst := h.stop (notfin_run hr)
  obtain ⟨j, hj⟩ := h.good
  refine ⟨Steps.good_step hj (.progress none (pos + 1)) ⟨⟨l, hr⟩, by omega⟩, (updateCompleted_frame s.scan.scan none (pos + 1)).1.trans h.size,
    ⟨f', rfl, ho⟩, h.first, h.steps, h.win, ⟨⟨l, hr⟩, ?_, ?_, h5⟩, ?_⟩
  · show s.part.completed ≤ pos + 1; omega
  · show pos + 1 ≤ stop; omega
  · intro e he
    simp only [cursor, Sys.wrote]
    rcases List.mem_append.1 he with he | he
    · have := h.ids e he
      simp only [cursor, hl] at this
      omega
    · rw [List.mem_singleton.1 he]; show pos + s.part.offset + 1 ≤ _; omega

theorem link_write {total : D → S} {parts : List Int} {g : Gen D} (hg : Proper g) {s : Sys P D S} (h : Link parts g s) (b : Bool) :
    Link parts g (s.write total g b) := by
  cases hl : s.loop with
  | idle => simp only [Sys.write, hl]; exact h
  | ended => simp only [Sys.write, hl]; exact h
  | going pos stop =>
    by_cases hlt : pos < stop
    · obtain ⟨f, hf, -⟩ := h.file
      obtain ⟨f', -, ho, -, -, he⟩ := write_eq (total := total) hg h b hl hlt hf
      rw [he]
      have := link_wrote h hl hlt ho
      cases b
      · exact this
      · exact ⟨this.good, this.size, this.file, this.first, this.steps, this.win, this.loop, this.ids⟩
    · simp only [Sys.write, hl, hlt, if_false]; exact h

theorem link_step {total : D → S} {parts : List Int} {g : Gen D} (hg : Proper g) {s : Sys P D S} (h : Link parts g s) (e : FileWrite.Ev P)
    (ha : Orderly parts s e) (hne : e ≠ .abort) : Link parts g (s.step total g e) := by
  cases e with
  | run => exact link_run h _ (Or.inl rfl)
  | resume => exact link_run h _ (Or.inr rfl)
  | pause lg => exact link_pause h lg (ha _ rfl)
  | write b => exact link_write hg h b
  | leave => exact link_leave h
  | done => exact link_done h
  | progress p n => exact link_progress h _ n (ha _ rfl)
  | abort => exact absurd rfl hne

theorem inv_step {total : D → S} {parts : List Int} {g : Gen D} (hg : Proper g) {s : Sys P D S} (h : Inv parts g s) (e : FileWrite.Ev P)
    (ha : Orderly parts s e) : Inv parts g (s.step total g e) := by
  rcases h with h | h
  · exact Or.inl ⟨(fault_step h e).1, (fault_step h e).2.1⟩
  · by_cases hne : e = .abort
    · subst hne
      left
      simp only [Sys.step, Sys.abort]
      split <;> exact ⟨rfl, rfl⟩
    · exact Or.inr (link_step hg h e ha hne)

theorem inv_run {total : D → S} {parts : List Int} {g : Gen D} (hg : Proper g) : ∀ (evs : List (FileWrite.Ev P)) {s : Sys P D S},
    Inv parts g s → OrderlyHistory total g parts s evs → Inv parts g (s.run total g evs)
  | [], _, h, _ => h
  | e :: es, _, h, ha => inv_run hg es (inv_step hg h e ha.1) ha.2

/-- What is written where -/
theorem log_step {total : D → S} {g : Gen D} (s : Sys P D S) (e : FileWrite.Ev P) :
    ((s.step total g e).log = s.log ∧ ((s.step total g e).part.hdf = s.part.hdf ∨ (s.step total g e).part.hdf = none)) ∨
    ∃ pos stop f f', s.loop = .going pos stop ∧ pos < stop ∧ s.part.hdf = some f ∧ 0 ≤ pos ∧ pos < g.size ∧
      writeData total g f pos.toNat (pos + s.part.offset + 1) = some f' ∧
      (s.step total g e).log = s.log ++ [(pos, pos + s.part.offset + 1)] ∧ (s.step total g e).part.hdf = some f' := by
  cases e with
  | run => left; simp only [Sys.step]; split <;> exact ⟨rfl, Or.inl rfl⟩
  | resume => left; simp only [Sys.step]; split <;> exact ⟨rfl, Or.inl rfl⟩
  | pause lg => left; simp only [Sys.step, Sys.pause]; repeat' split
                all_goals exact ⟨rfl, Or.inl rfl⟩
  | progress p n => exact Or.inl ⟨rfl, Or.inl rfl⟩
  | abort =>
    left
    simp only [Sys.step, Sys.abort]
    split
    · exact ⟨rfl, Or.inl rfl⟩
    · exact ⟨rfl, Or.inr rfl⟩
  | leave =>
    left
    simp only [Sys.step, Sys.leave]
    repeat' split
    all_goals exact ⟨rfl, Or.inl rfl⟩
  | done =>
    left
    simp only [Sys.step, Sys.done]
    split
    · refine ⟨rfl, Or.inl ?_⟩
      cases postRun s.scan.scan with
      | error _ => rfl
      | ok r => rcases r with ⟨_, _ | w⟩ <;> rfl
    · exact ⟨rfl, Or.inl rfl⟩
  | write b =>
    simp only [Sys.step, Sys.write]
    cases hl : s.loop with
    | idle => exact Or.inl ⟨rfl, Or.inl rfl⟩
    | ended => exact Or.inl ⟨rfl, Or.inl rfl⟩
    | going pos stop =>
      simp only
      split
      · rename_i hlt
        cases hf : s.part.hdf with
        | none => left; exact ⟨rfl, Or.inl hf⟩
        | some f =>
          simp only
          split
          · rename_i hpos
            cases hw : writeData total g f pos.toNat (pos + s.part.offset + 1) with
            | none => left; exact ⟨rfl, Or.inl hf⟩
            | some f' =>
              right
              refine ⟨pos, stop, f, f', rfl, hlt, rfl, hpos.1, hpos.2, hw, ?_⟩
              cases b <;> exact ⟨rfl, rfl⟩
          · left; exact ⟨rfl, Or.inl hf⟩
      · exact Or.inl ⟨rfl, Or.inl rfl⟩

theorem inc_step {total : D → S} {parts : List Int} {g : Gen D} {s : Sys P D S} (h : Inv parts g s)
    (hi : s.log.Pairwise fun a b => a.2 < b.2) (e : FileWrite.Ev P) : (s.step total g e).log.Pairwise fun a b => a.2 < b.2 := by
  rcases log_step (total := total) (g := g) s e with ⟨h1, -⟩ | ⟨pos, stop, f, f', hl, -, -, -, -, -, h1, -⟩
  · rw [h1]; exact hi
  · rw [h1]
    rcases h with h | h
    · rw [h.2] at hl; cases hl
    · rw [List.pairwise_append]
      refine ⟨hi, by simp, ?_⟩
      intro a ha b hb
      rw [List.mem_singleton.1 hb]
      have := h.ids a ha
      simp only [cursor, hl] at this
      show a.2 < pos + s.part.offset + 1
      omega

theorem inc_run {total : D → S} {parts : List Int} {g : Gen D} (hg : Proper g) : ∀ (evs : List (FileWrite.Ev P)) {s : Sys P D S},
    Inv parts g s → OrderlyHistory total g parts s evs → (s.log.Pairwise fun a b => a.2 < b.2) →
    (s.run total g evs).log.Pairwise fun a b => a.2 < b.2
  | [], _, _, _, hi => hi
  | e :: es, _, h, ha, hi => inc_run hg es (inv_step hg h e ha.1) ha.2 (inc_step h hi e)

theorem inv_start {dims : List (Dim A)} (hd : Steps.AxedGenerator dims) {axesToMove : List A} {bps : List Int} (hpos : ∀ b ∈ bps, 0 < b)
    {s0 : Scan (Option P)} {m : Machine (Option P)} (hm : configured s0 dims axesToMove bps = .ok m) {g : Gen D}
    (hs : ∀ n ∈ g.shape, 0 < n) (hn : g.size = genSize dims) :
    ∃ parts, Steps.Segments (genSize dims) bps parts ∧ Link parts g (start g m : Sys P D S) ∧ m.scan.progress = [] ∧ m.scan.completed = 0 := by
  obtain ⟨parts, first, rest, hseg, hcons, hwf, hc, htot, hw, hph, -, -⟩ := Steps.configured_spec hd hpos hm
  obtain ⟨parts', hseg', hgood, -⟩ := Steps.good_configured hd hpos hm
  have hpp : m.scan.progress = [] := by
    unfold configured doConfigure at hm
    cases hp : getStepsPerRun dims axesToMove bps with
    | error e => simp [hp] at hm
    | ok plan =>
      simp only [hp] at hm
      cases h0 : plan.steps[0]? with
      | none => simp [h0] at hm
      | some todo => simp only [h0, Except.ok.injEq] at hm; subst hm; rfl
  refine ⟨parts', hseg', ⟨⟨0, hgood⟩, ?_, ⟨createHdf g, rfl, create_open hs⟩, ?_, ?_, fun _ => rfl, ?_, ?_⟩, hpp, hc⟩
  · rw [hn]; exact htot
  · show 0 ≤ m.window.1; rw [hw]; exact Int.le_refl _
  · show 0 < m.window.2; rw [hw]; exact hwf.pos first (by rw [hcons]; simp)
  · intro l; show m.phase ≠ _; rw [hph]; simp
  · intro e he; cases he

/-- C84: ids go up from one write to the next, however the scan is paused, rewound and resumed: no two are the same. As for
C09, `run()` in progress is only paused at the steps completed or within that run; `ids_reused` shows what happens
otherwise. -/
theorem ids_increase_partial (total : D → S) {g : Gen D} (hg : Proper g) (hs : ∀ n ∈ g.shape, 0 < n) {dims : List (Dim A)}
    (hd : Steps.AxedGenerator dims) {axesToMove : List A} {bps : List Int} (hpos : ∀ b ∈ bps, 0 < b)
    {s0 : Scan (Option P)} {m : Machine (Option P)} (hm : configured s0 dims axesToMove bps = .ok m) (hn : g.size = genSize dims) :
    ∃ parts, Steps.Segments (genSize dims) bps parts ∧ ∀ evs, OrderlyHistory total g parts (start g m : Sys P D S) evs →
      ((start g m : Sys P D S).run total g evs).log.Pairwise fun a b => a.2 < b.2 := by
  obtain ⟨parts, hseg, hl, -⟩ := inv_start (P := P) (S := S) hd hpos hm hs hn
  exact ⟨parts, hseg, fun evs ha => inc_run hg evs (Or.inr hl) ha List.Pairwise.nil⟩

/-- The id that a step was written with last -/
def lastId (log : List (Int × Int)) (i : Nat) : Option Int := ((log.filter fun e => e.1 = (i : Int)).getLast?).map (·.2)

theorem lastId_append (log : List (Int × Int)) (pos u : Int) (i : Nat) :
    lastId (log ++ [(pos, u)]) i = if pos = (i : Int) then some u else lastId log i := by
  unfold lastId
  rw [List.filter_append]
  by_cases h : pos = (i : Int)
  · simp [h]
  · simp [h]

theorem newest_step {total : D → S} {g : Gen D} (hg : Proper g) {s : Sys P D S}
    (h : ∀ f, s.part.hdf = some f → ∀ i, i < g.size → f.uid.cells (g.index i) = lastId s.log i) (e : FileWrite.Ev P) :
    ∀ f, (s.step total g e).part.hdf = some f → ∀ i, i < g.size → f.uid.cells (g.index i) = lastId (s.step total g e).log i := by
  intro f hf i hi
  rcases log_step (total := total) (g := g) s e with ⟨h1, h2⟩ | ⟨pos, stop, f0, f', hl, -, hf0, hp0, hp1, hw, h1, h2⟩
  · rw [h1]
    rcases h2 with h2 | h2
    · rw [h2] at hf; exact h f hf i hi
    · rw [h2] at hf; cases hf
  · rw [h2] at hf; cases hf
    obtain ⟨-, -, w3, w4⟩ := write_spec hw
    rw [h1, lastId_append]
    split
    · rename_i he
      have : pos.toNat = i := by omega
      rw [← this]; exact w3
    · rename_i he
      rw [(w4 (g.index i) (fun hx => by have := hg.own _ _ hi (by omega) hx; omega)).2.2]
      exact h f0 hf0 i hi

theorem newest_run {total : D → S} {g : Gen D} (hg : Proper g) : ∀ (evs : List (FileWrite.Ev P)) {s : Sys P D S},
    (∀ f, s.part.hdf = some f → ∀ i, i < g.size → f.uid.cells (g.index i) = lastId s.log i) →
    ∀ f, (s.run total g evs).part.hdf = some f → ∀ i, i < g.size → f.uid.cells (g.index i) = lastId (s.run total g evs).log i
  | [], _, h => h
  | e :: es, _, h => newest_run hg es (newest_step hg h e)

/-- C84: the id of each point in the file is the one it was written with last, for every history. -/
theorem id_is_newest (total : D → S) {g : Gen D} (hg : Proper g) (m : Machine (Option P)) (evs : List (FileWrite.Ev P)) (f : Hdf D S)
    (hf : ((start g m : Sys P D S).run total g evs).part.hdf = some f) (i : Nat) (hi : i < g.size) :
    f.uid.cells (g.index i) = lastId ((start g m : Sys P D S).run total g evs).log i := by
  refine newest_run hg evs ?_ f hf i hi
  intro f hf i hi
  cases hf
  rfl

/-! ### Completed steps are in the file -/

/-- The scan is not sent forward, and other parts report after this one has reported for the first time. -/
def Steady (s : Sys P D S) (e : FileWrite.Ev P) : Prop :=
  (∀ lg, e = .pause lg → ∀ t, pauseTarget s.scan.scan s.scan.phase lg = some t → t ≤ s.scan.scan.completed) ∧
  (∀ p n, e = .progress p n → Dict.get? s.scan.scan.progress none ≠ none)

def SteadyHistory (total : D → S) (g : Gen D) : Sys P D S → List (FileWrite.Ev P) → Prop
  | _, [] => True
  | s, e :: es => Steady s e ∧ SteadyHistory total g (s.step total g e) es

/-- The first `n` points are in the file. -/
def FirstStored (total : D → S) (g : Gen D) (h : Hdf D S) (n : Int) : Prop := ∀ i : Nat, (i : Int) < n → Stored total g h i

theorem FirstStored.mono {total : D → S} {g : Gen D} {h : Hdf D S} {n n' : Int} (hs : FirstStored total g h n) (hle : n' ≤ n) :
    FirstStored total g h n' := fun i hi => hs i (by omega)

theorem stored_write {total : D → S} {g : Gen D} (hg : Proper g) {h h' : Hdf D S} {pos u : Int} (h0 : 0 ≤ pos) (h1 : pos < g.size)
    (hw : writeData total g h pos.toNat u = some h') {n : Int} (hs : FirstStored total g h n) (hn : n ≤ g.size) :
    FirstStored total g h' n ∧ Stored total g h' pos.toNat := by
  obtain ⟨w1, w2, w3, w4⟩ := write_spec hw
  have hp : Stored total g h' pos.toNat := ⟨w1, w2, u, w3⟩
  refine ⟨?_, hp⟩
  intro i hi
  by_cases he : i = pos.toNat
  · rw [he]; exact hp
  · obtain ⟨e1, e2, e3⟩ := w4 (g.index i) (fun hx => he (hg.own _ _ (by omega) (by omega) hx))
    obtain ⟨k1, k2, k3, k4⟩ := hs i hi
    exact ⟨by rw [e1, k1], by rw [e2, k2], k3, by rw [e3, k4]⟩

theorem completed_min (s : Scan P) (p q : P) (n k : Int) (hk : Dict.get? (Dict.set s.progress p n) q = some k) :
    (updateCompleted s p n).completed = s.completed ∨ (updateCompleted s p n).completed ≤ k := by
  unfold updateCompleted
  simp only
  split
  · exact Or.inl rfl
  · rename_i m hm
    split
    · right
      exact (listMin_spec hm).2 k (List.mem_map.2 ⟨(q, k), Dict.get?_mem hk, rfl⟩)
    · exact Or.inl rfl

theorem progress_set (s : Scan P) (p : P) (n : Int) : (updateCompleted s p n).progress = Dict.set s.progress p n := by
  unfold updateCompleted
  simp only
  split
  · rfl
  · split <;> rfl

/-- What the scan believes to be done is in the file. -/
structure Kept (total : D → S) (g : Gen D) (s : Sys P D S) (h : Hdf D S) : Prop where
  hdf : s.part.hdf = some h
  completed : FirstStored total g h s.scan.scan.completed
  reported : ∀ n, Dict.get? s.scan.scan.progress none = some n → n ≤ g.size ∧ FirstStored total g h n
  here : match s.loop with
    | .going pos _ => FirstStored total g h pos
    | .ended => FirstStored total g h (s.part.completed + s.part.steps) ∧ s.disk = h
    | .idle => (s.scan.phase ≠ .finished → FirstStored total g h s.part.completed) ∧ (s.scan.phase = .finished → s.disk = h)

theorem Link.completed_le {parts : List Int} {g : Gen D} {s : Sys P D S} (h : Link parts g s) : s.scan.scan.completed ≤ g.size := by
  obtain ⟨j, hj⟩ := h.good
  rw [← h.size]
  by_cases hf : s.scan.phase = .finished
  · rw [(hj.fin hf).1]; exact Int.le_refl _
  · have := (hj.notfin hf).2.2.2; have := hj.wf.cfg_le; omega

theorem kept_step {total : D → S} {parts : List Int} {g : Gen D} (hg : Proper g) {s : Sys P D S} (hl : Link parts g s) {h : Hdf D S}
    (hk : Kept total g s h) (e : FileWrite.Ev P) (ha : Orderly parts s e) (hs : Steady s e) (hne : e ≠ .abort) :
    ∃ h', Kept total g (s.step total g e) h' := by
  have hloop := hl.loop
  have hhere := hk.here
  obtain ⟨j, hj⟩ := hl.good
  cases e with
  | abort => exact absurd rfl hne
  | run =>
    simp only [Sys.step]
    cases hph : s.scan.phase with
    | armed =>
      have hli : s.loop = .idle := by
        cases hlo : s.loop with
        | idle => rfl
        | going pos stop => rw [hlo] at hloop; obtain ⟨⟨l, hx⟩, -⟩ := hloop; rw [hph] at hx; cases hx
        | ended => rw [hlo] at hloop; obtain ⟨l, hx⟩ := hloop; rw [hph] at hx; cases hx
      rw [hli] at hhere
      have hm : (s.scan.step .run).scan = s.scan.scan := by simp [Machine.step, hph]
      exact ⟨h, hk.hdf, by simp only [hm]; exact hk.completed, by simp only [hm]; exact hk.reported, hhere.1 (by rw [hph]; simp)⟩
    | _ => exact ⟨h, hk⟩
  | resume =>
    simp only [Sys.step]
    cases hph : s.scan.phase with
    | paused l =>
      have hli : s.loop = .idle := by
        cases hlo : s.loop with
        | idle => rfl
        | going pos stop => rw [hlo] at hloop; obtain ⟨⟨l, hx⟩, -⟩ := hloop; rw [hph] at hx; cases hx
        | ended => rw [hlo] at hloop; obtain ⟨l, hx⟩ := hloop; rw [hph] at hx; cases hx
      rw [hli] at hhere
      have hm : (s.scan.step .resume).scan = s.scan.scan := by simp [Machine.step, hph]
      exact ⟨h, hk.hdf, by simp only [hm]; exact hk.completed, by simp only [hm]; exact hk.reported, hhere.1 (by rw [hph]; simp)⟩
    | _ => exact ⟨h, hk⟩
  | progress p n =>
    refine ⟨h, hk.hdf, ?_, ?_, ?_⟩
    · show FirstStored total g h (updateCompleted s.scan.scan (some p) n).completed
      cases hr : Dict.get? s.scan.scan.progress none with
      | none => exact absurd hr (hs.2 p n rfl)
      | some k =>
        have hr' : Dict.get? (Dict.set s.scan.scan.progress (some p) n) none = some k := by
          rw [Dict.get?_set_ne _ _ (by simp), hr]
        rcases completed_min s.scan.scan (some p) none n k hr' with hc | hc
        · rw [hc]; exact hk.completed
        · exact (hk.reported k hr).2.mono hc
    · intro k hk'
      have hk'' : Dict.get? (updateCompleted s.scan.scan (some p) n).progress none = some k := hk'
      rw [progress_set, Dict.get?_set_ne _ _ (by simp)] at hk''
      exact hk.reported k hk''
    · exact hhere
  | leave =>
    simp only [Sys.step, Sys.leave]
    cases hlo : s.loop with
    | idle => exact ⟨h, hk⟩
    | ended => exact ⟨h, hk⟩
    | going pos stop =>
      rw [hlo] at hloop hhere
      simp only [hk.hdf]
      split
      · exact ⟨h, hk⟩
      · exact ⟨h, hk.hdf, hk.completed, hk.reported, hhere.mono (by obtain ⟨-, -, a, b⟩ := hloop; show s.part.completed + s.part.steps ≤ pos; omega), rfl⟩
  | done =>
    simp only [Sys.step, Sys.done]
    cases hlo : s.loop with
    | idle => exact ⟨h, hk⟩
    | going pos stop => exact ⟨h, hk⟩
    | ended =>
      rw [hlo] at hloop hhere
      obtain ⟨l, hr⟩ := hloop
      have hst := hl.stop (notfin_run hr)
      have hlast := hj.last l (Or.inl hr)
      simp only
      rw [hst] at hhere
      by_cases hlt : s.scan.scan.configured < s.scan.scan.total
      · have hl' : l = false := by
          cases l with
          | false => rfl
          | true => have := hlast.1 rfl; omega
        subst hl'
        obtain ⟨hi, s', hp, hwf', hcmp, hcfg, hpr⟩ := postRun_more hj.wf hlt
        rw [hp]
        have hm : (s.scan.step .runHooksDone).scan = s' ∧ (s.scan.step .runHooksDone).phase = .armed := by simp [Machine.step, hr, hp]
        refine ⟨h, hk.hdf, ?_, ?_, ?_⟩
        · simp only [hm.1, hcmp]; exact hhere.1
        · simp only [hm.1, hpr]; exact hk.reported
        · exact ⟨fun _ => hhere.1, fun hx => by rw [hm.2] at hx; cases hx⟩
      · rw [postRun_last hlt]
        have hl' : l = true := hlast.2 (by have := hj.wf.cfg_le; omega)
        subst hl'
        have hm : (s.scan.step .runHooksDone).scan = { s.scan.scan with completed := s.scan.scan.configured } ∧
            (s.scan.step .runHooksDone).phase = .finished := by simp [Machine.step, hr, postRun_last hlt]
        refine ⟨h, hk.hdf, ?_, ?_, ?_⟩
        · simp only [hm.1]; exact hhere.1
        · simp only [hm.1]; exact hk.reported
        · exact ⟨fun hx => absurd hm.2 hx, fun _ => hhere.2⟩
  | pause lg =>
    have hal := ha _ rfl
    simp only [Sys.step]
    have key : ∀ t, pauseTarget s.scan.scan s.scan.phase lg = some t → ∀ s' w, doPause s.scan.scan t = .ok (s', w) →
        Kept total g { s with scan := s.scan.step (.pause lg), loop := .idle, part := s.part.onSeek w } h := by
      intro t ht s' w hd
      obtain ⟨s'', w', hd', h1, h2, h3, h4, h5, h6, h7, h8, h9, h10⟩ := pause_told hj lg t hal ht
      rw [hd] at hd'
      cases hd'
      have hle := hs.1 lg rfl t ht
      refine ⟨hk.hdf, ?_, ?_, ?_, fun hx => absurd hx h9⟩
      · simp only [h2, h6]; exact hk.completed.mono hle
      · simp only [h2, h7]; exact hk.reported
      · intro _; show FirstStored total g h w.1; rw [h3]; exact hk.completed.mono hle
    have bad : ∀ t, pauseTarget s.scan.scan s.scan.phase lg = some t → ∀ x, doPause s.scan.scan t ≠ .error x := by
      intro t ht x hx
      obtain ⟨s'', w', hd', -⟩ := pause_told hj lg t hal ht
      rw [hx] at hd'; cases hd'
    unfold Sys.pause
    cases hph : s.scan.phase with
    | fault => exact absurd hph hj.nofault
    | _ =>
      simp only
      rw [hph] at key bad
      split
      · exact ⟨h, hk⟩
      · rename_i t ht
        split
        · rename_i x hx; exact absurd hx (bad t ht x)
        · rename_i s' w hd; exact ⟨h, key t ht s' w hd⟩
  | write b =>
    simp only [Sys.step]
    cases hlo : s.loop with
    | idle => simp only [Sys.write, hlo]; exact ⟨h, hk⟩
    | ended => simp only [Sys.write, hlo]; exact ⟨h, hk⟩
    | going pos stop =>
      by_cases hlt : pos < stop
      · obtain ⟨f', hw, ho, hp0, hp1, he⟩ := write_eq (total := total) hg hl b hlo hlt hk.hdf
        rw [hlo] at hhere
        have st : ∀ n, n ≤ (g.size : Int) → FirstStored total g h n → FirstStored total g f' n :=
          fun n hn hs => (stored_write hg hp0 hp1 hw hs hn).1
        have hpos : FirstStored total g f' (pos + 1) := by
          intro i hi
          by_cases hx : (i : Int) < pos
          · exact st pos (by omega) hhere i hx
          · have : i = pos.toNat := by omega
            rw [this]; exact (stored_write hg hp0 hp1 hw hhere (by omega)).2
        have keep : Kept total g (s.wrote f' pos stop (pos + s.part.offset + 1)) f' := by
          refine ⟨rfl, ?_, ?_, hpos⟩
          · show FirstStored total g f' (updateCompleted s.scan.scan none (pos + 1)).completed
            rcases completed_min s.scan.scan none none (pos + 1) (pos + 1) (Dict.get?_set_self ..) with hc | hc
            · rw [hc]; exact st _ hl.completed_le hk.completed
            · exact hpos.mono hc
          · intro k hk'
            have hk'' : Dict.get? (updateCompleted s.scan.scan none (pos + 1)).progress none = some k := hk'
            rw [progress_set, Dict.get?_set_self] at hk''
            cases hk''
            exact ⟨by omega, hpos⟩
        rw [he]
        cases b
        · exact ⟨f', keep⟩
        · exact ⟨f', keep.hdf, keep.completed, keep.reported, keep.here⟩
      · simp only [Sys.write, hlo, hlt, if_false]; exact ⟨h, hk⟩

theorem kept_run {total : D → S} {parts : List Int} {g : Gen D} (hg : Proper g) : ∀ (evs : List (FileWrite.Ev P)) {s : Sys P D S} {h : Hdf D S},
    Link parts g s → Kept total g s h → OrderlyHistory total g parts s evs → SteadyHistory total g s evs → FileWrite.Ev.abort ∉ evs →
    Link parts g (s.run total g evs) ∧ ∃ h', Kept total g (s.run total g evs) h'
  | [], _, h, hl, hk, _, _, _ => ⟨hl, h, hk⟩
  | e :: es, s, h, hl, hk, ha, hs, hne => by
    obtain ⟨h', hk'⟩ := kept_step hg hl hk e ha.1 hs.1 (by rintro rfl; simp at hne)
    have hl' := link_step (total := total) hg hl e ha.1 (by rintro rfl; simp at hne)
    exact kept_run hg es hl' hk' ha.2 hs.2 (fun hx => hne (List.mem_cons_of_mem _ hx))

/-- C84: whenever the scan says that `n` steps are completed, the first `n` points are in the file that is being written;
and when it is finished every point of the scan is in the file as others see it. It does not fail. For scans that are not
aborted or sent forward, in which run() in progress is only paused at the steps completed or within that run, and in which
other parts report after the first report of this one; `frame_lost` shows what happens otherwise. -/
theorem completed_in_file_partial (total : D → S) {g : Gen D} (hg : Proper g) (hs : ∀ n ∈ g.shape, 0 < n) {dims : List (Dim A)}
    (hd : Steps.AxedGenerator dims) {axesToMove : List A} {bps : List Int} (hpos : ∀ b ∈ bps, 0 < b)
    {s0 : Scan (Option P)} {m : Machine (Option P)} (hm : configured s0 dims axesToMove bps = .ok m) (hn : g.size = genSize dims) :
    ∃ parts, Steps.Segments (genSize dims) bps parts ∧ ∀ evs, OrderlyHistory total g parts (start g m : Sys P D S) evs →
      SteadyHistory total g (start g m : Sys P D S) evs → FileWrite.Ev.abort ∉ evs →
      let s := (start g m : Sys P D S).run total g evs
      s.scan.phase ≠ .fault ∧
      (∃ h, s.part.hdf = some h ∧ ∀ i : Nat, (i : Int) < s.scan.scan.completed → Stored total g h i) ∧
      (s.scan.phase = .finished → ∀ i, i < g.size → Stored total g s.disk i) := by
  obtain ⟨parts, hseg, hl, hp0, hc0⟩ := inv_start (P := P) (S := S) hd hpos hm hs hn
  refine ⟨parts, hseg, ?_⟩
  intro evs ha hst hna
  have hk : Kept total g (start g m : Sys P D S) (createHdf g) := by
    refine ⟨rfl, ?_, ?_, ?_, fun _ => rfl⟩
    · intro i hi; have : (i : Int) < m.scan.completed := hi; omega
    · intro n hx
      have : Dict.get? m.scan.progress none = some n := hx
      rw [hp0] at this; cases this
    · intro hf i hi
      have hw := hl.win hf
      obtain ⟨parts', first, rest, -, -, -, -, -, hw', -⟩ := Steps.configured_spec hd hpos hm
      have : (i : Int) < m.window.1 := hi
      rw [hw'] at this
      simp at this
      omega
  obtain ⟨hl', h', hk'⟩ := kept_run hg evs hl hk ha hst hna
  obtain ⟨j, hj⟩ := hl'.good
  refine ⟨hj.nofault, ⟨h', hk'.hdf, hk'.completed⟩, ?_⟩
  intro hf i hi
  have hli : ((start g m : Sys P D S).run total g evs).loop = .idle := by
    have hloop := hl'.loop
    cases hlo : ((start g m : Sys P D S).run total g evs).loop with
    | idle => rfl
    | going pos stop => rw [hlo] at hloop; obtain ⟨⟨l, hx⟩, -⟩ := hloop; rw [hf] at hx; cases hx
    | ended => rw [hlo] at hloop; obtain ⟨l, hx⟩ := hloop; rw [hf] at hx; cases hx
  have hh := hk'.here
  rw [hli] at hh
  rw [hh.2 hf]
  apply hk'.completed
  rw [(hj.fin hf).1, hl'.size]
  omega

/-! ### Cases -/

/-- Two rows of three points, the second from right to left; an image is a number here. -/
def snake : Gen Nat :=
  { size := 6, shape := [2, 3], index := fun i => if i < 3 then [0, i] else [1, 5 - i], image := fun i => 10 + i }

def snakeDims : List (Dim String) := [⟨["y"], 2⟩, ⟨["x"], 3⟩]

theorem snake_proper : Proper snake := by
  constructor
  · intro i hi
    have hi : i < 6 := hi
    show (if i < 3 then [0, i] else [1, 5 - i]).length = 2 ∧ ∀ (k a b : Nat), (if i < 3 then [0, i] else [1, 5 - i])[k]? = some a → [2, 3][k]? = some b → a < b
    split
    · refine ⟨rfl, ?_⟩
      intro k a b h1 h2
      match k with
      | 0 => simp at h1 h2; omega
      | 1 => simp at h1 h2; omega
      | k + 2 => simp at h1
    · refine ⟨rfl, ?_⟩
      intro k a b h1 h2
      match k with
      | 0 => simp at h1 h2; omega
      | 1 => simp at h1 h2; omega
      | k + 2 => simp at h1
  · intro i j hi hj h
    have hi : i < 6 := hi
    have hj : j < 6 := hj
    have h : (if i < 3 then [0, i] else [1, 5 - i]) = (if j < 3 then [0, j] else [1, 5 - j]) := h
    split at h <;> split at h <;> simp at h <;> omega

theorem snakeDims_axed : Steps.AxedGenerator snakeDims := by
  constructor
  · decide
  · decide
  · decide

/-- The scan of the examples: `x` is moved inside, so there are two runs of three points. -/
def snakeScan : Machine (Option String) :=
  { scan := { total := 6, completed := 0, configured := 3, spr := [3] }, phase := .armed, window := (0, 3) }

theorem snakeScan_configured : configured ({} : Scan (Option String)) snakeDims ["x"] [] = .ok snakeScan := rfl

/-- A pause in the first run, and both runs to their ends -/
def rewound : List (FileWrite.Ev String) :=
  [.run, .write false, .progress "motion" 1, .write true, .pause (-1), .resume, .write false, .write false, .leave, .done,
   .run, .write false, .write false, .write false, .leave, .done]

-- the hypotheses of the theorems hold of it, and it ends finished with one point written twice
example : OrderlyHistory (id : Nat → Nat) snake [3, 3] (start snake snakeScan : Sys String Nat Nat) rewound ∧
    SteadyHistory (id : Nat → Nat) snake (start snake snakeScan : Sys String Nat Nat) rewound ∧ FileWrite.Ev.abort ∉ rewound ∧
    ((start snake snakeScan : Sys String Nat Nat).run id snake rewound).scan.phase = .finished ∧
    ((start snake snakeScan : Sys String Nat Nat).run id snake rewound).log = [(0, 1), (1, 2), (1, 4), (2, 5), (3, 6), (4, 7), (5, 8)] := by
  refine ⟨?_, ?_, by decide, by decide +kernel, by decide +kernel⟩
  · simp only [rewound, OrderlyHistory, Orderly, seenAs, reduceCtorEq, false_implies, implies_true, true_and, and_true, Option.some.injEq, forall_eq']
    exact ⟨⟨⟨false, by decide +kernel⟩, by decide +kernel⟩, fun _ => Or.inl (by decide)⟩
  · simp only [rewound, SteadyHistory, Steady, reduceCtorEq, false_implies, implies_true, true_and, and_true]
    refine ⟨fun _ _ _ => by decide +kernel, ?_⟩
    intro lg h t ht
    cases h
    exact Int.le_of_eq (Option.some.inj (ht.symm.trans (by decide +kernel)))

/-- C84 is false of the code if another part is the first to report: the motion has done the first point, the detector has
not. The scan is paused there, at one completed step, and goes on with the second point: at the end it says that all six
points are completed, and the first is not in the file. -/
theorem frame_lost : ∃ evs : List (FileWrite.Ev String),
    let s := (start snake snakeScan : Sys String Nat Nat).run id snake evs
    s.scan.phase = .finished ∧ s.scan.scan.completed = 6 ∧ s.disk.data.cells (snake.index 0) = none ∧
      s.log = [(1, 4), (2, 5), (3, 6), (4, 7), (5, 8)] :=
  ⟨[.run, .progress "motion" 1, .pause (-1), .resume, .write false, .write false, .leave, .done,
    .run, .write false, .write false, .write false, .leave, .done], by decide +kernel⟩

/-- C84 is false of the code if the scan is sent to a later run while it is running: the block is Armed again with its last
points to do, and does them again with the ids they have already. -/
theorem ids_reused : ∃ evs : List (FileWrite.Ev String),
    let s := (start snake snakeScan : Sys String Nat Nat).run id snake evs
    s.log = [(4, 4), (5, 5), (4, 4), (5, 5)] :=
  ⟨[.run, .pause 4, .resume, .write false, .write false, .leave, .done, .run, .write false, .write false], by decide +kernel⟩

end Verif.Props.FileWrite
