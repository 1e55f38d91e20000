import Verif.Proofs.TrajGlue
import Verif.Props.TrajLoop
/-!
The part follows the loop of `TrajLoop`, and what it holds and has sent are the points of the trajectory.
-/
set_option linter.unusedVariables false
namespace Verif.Proofs.TrajSend
open Verif.Trajectory Verif.Props.Trajectory Verif.TrajSend Verif.Spec.TrajSend Verif.Proofs.TrajGlue

/-- the same scan in `TrajLoop` -/
def absCfg (c : Cfg) (first L : Nat) : TrajLoop.Cfg :=
  { profilePoints := c.profilePoints, batchPoints := c.batchPoints
    grow := fun i => npts (c.ops i (decide (i + 1 = L)))
    added := c.added
    runUp := 1
    tailOff := size (c.tail L).1 }

/-- the requests so far -/
def history (c : Cfg) (first : Nat) (t : TrajLoop.St) : List Op :=
  runUpOp c first :: t.visited.flatMap (fun i => c.ops i (decide (i + 1 = t.upTo))) ++
    (if t.tails = 0 then [] else [tailOp c t.upTo])

structure Rel (c : Cfg) (first L : Nat) (x : Chunk) (s : St) (t : TrajLoop.St) : Prop where
  pend : t.pending = s.traj.time.length
  total : t.total = s.traj.lookup.length
  ends : t.endIndex = s.endIndex
  up : t.upTo = L
  up' : s.upTo = L
  tail : t.tailAdded = s.tailAdded
  al : Aligned s.traj
  map : s.traj.mapping = c.mapping
  keys : s.traj.axes.keys = (Trajectory.start c.mapping).axes.keys
  whole : (Trajectory.start c.mapping).run 0 (history c first t) = some (glue x s.traj)

variable {c : Cfg} {first L : Nat} {x : Chunk}

theorem mapOk (hf : Fits c first (L - first)) : MapOk c.mapping := ⟨hf.axes, hf.csAxes⟩

/-- adding points that are in the history of the other loop -/
theorem run_sim (hf : Fits c first (L - first)) {s : St} {t : TrajLoop.St} (hr : Rel c first L x s t)
    (hp : 0 < t.pending) (ops : List Op) (hw : NoWrite ops) :
    ∃ tr, s.traj.run c.profilePoints ops = some tr ∧ tr.time.length = t.pending + npts ops ∧
      tr.lookup.length = t.total + npts ops ∧ Aligned tr ∧ tr.mapping = c.mapping ∧
      tr.axes.keys = (Trajectory.start c.mapping).axes.keys ∧
      (Trajectory.start c.mapping).run 0 (history c first t ++ ops) = some (glue x tr) := by
  have hne : s.traj.time ≠ [] := by
    intro h; have := hr.pend; rw [h] at this; simp at this; omega
  have hm : MapOk s.traj.mapping := by rw [hr.map]; exact mapOk hf
  obtain ⟨tr, h⟩ := run_ok c.profilePoints ops hw s.traj hr.al hm hne
  obtain ⟨a1, a2, a3, a4, a5, a6, a7⟩ := run_spec c.profilePoints x ops hw s.traj tr hr.al hm h
  refine ⟨tr, h, by rw [hr.pend]; exact a4, ?_, a1, a2.trans hr.map, a5.trans hr.keys, ?_⟩
  · have h1 := a1.lookup
    have h2 := hr.al.lookup
    rw [hr.total, h1, h2, a3, a4]; omega
  · rw [run_append, hr.whole]; exact a7 0

theorem visit_sim (hf : Fits c first (L - first)) {s : St} {t : TrajLoop.St} (hr : Rel c first L x s t)
    (hp : 0 < t.pending) (ht : t.tails = 0) (i : Nat) :
    ∃ s', visit c s i (decide (i + 1 = L)) = some s' ∧ Rel c first L x s' (TrajLoop.visit (absCfg c first L) t i) ∧
      s'.pmac = s.pmac ∧ s'.reports = s.reports := by
  obtain ⟨tr, h, h1, h2, h3, h4, h5, h6⟩ := run_sim hf hr hp (c.ops i (decide (i + 1 = L))) (hf.noWrite i _)
  unfold visit
  rw [h]
  refine ⟨_, rfl, ⟨h1.symm, h2.symm, hr.ends, hr.up, hr.up', hr.tail, h3, h4, h5, ?_⟩, rfl, rfl⟩
  rw [← h6]
  congr 1
  unfold history
  simp only [TrajLoop.visit, ht, if_true, List.append_nil, hr.up, List.flatMap_append, List.flatMap_cons, List.flatMap_nil,
    List.cons_append]

theorem exceeds_sim {s : St} {t : TrajLoop.St} (hr : Rel c first L x s t) (i : Nat) :
    exceeds c s i = TrajLoop.exceeds (absCfg c first L) t i := by
  unfold exceeds TrajLoop.exceeds
  rw [hr.pend]; rfl

theorem endIndex_sim {s : St} {t : TrajLoop.St} (hr : Rel c first L x s t) (i : Nat) :
    Rel c first L x { s with endIndex := i } { t with endIndex := i } :=
  ⟨hr.pend, hr.total, rfl, hr.up, hr.up', hr.tail, hr.al, hr.map, hr.keys, hr.whole⟩

theorem batchLoop_sim (hf : Fits c first (L - first)) (n : Nat) : ∀ (i : Nat) (s : St) (t : TrajLoop.St),
    Rel c first L x s t → 0 < t.pending → t.tails = 0 → i + n < L →
    ∃ s', batchLoop c n i s = some (s', (TrajLoop.batchLoop (absCfg c first L) n i t).2) ∧
      Rel c first L x s' (TrajLoop.batchLoop (absCfg c first L) n i t).1 ∧ s'.pmac = s.pmac ∧ s'.reports = s.reports := by
  induction n with
  | zero => intro i s t hr _ _ _; exact ⟨s, rfl, hr, rfl, rfl⟩
  | succ n ih =>
    intro i s t hr hp ht hi
    obtain ⟨s1, h1, h2, h3, h4⟩ := visit_sim hf hr hp ht i
    have hd : decide (i + 1 = L) = false := decide_eq_false (by omega)
    rw [hd] at h1
    simp only [batchLoop, h1, TrajLoop.batchLoop]
    rw [exceeds_sim h2]
    split
    · exact ⟨_, rfl, endIndex_sim h2 _, h3, h4⟩
    · obtain ⟨s', e1, e2, e3, e4⟩ := ih (i + 1) s1 _ h2 (by simp only [TrajLoop.visit]; omega)
        (by simp only [TrajLoop.visit]; exact ht) (by omega)
      exact ⟨s', e1, e2, e3.trans h3, e4.trans h4⟩

theorem create_sim (hf : Fits c first (L - first)) (k : Nat) : ∀ (start : Nat) (s : St) (t : TrajLoop.St), L - start = k →
    start ≤ L → Rel c first L x s t → (start < L → 0 < t.pending ∧ t.tails = 0) →
    ∀ t' b, TrajLoop.create (absCfg c first L) start t = some (t', b) →
    ∃ s', create c start s = some (s', b) ∧ Rel c first L x s' t' ∧ s'.pmac = s.pmac ∧ s'.reports = s.reports := by
  induction k using Nat.strongRecOn with
  | ind k ih =>
    intro start s t hk hle hr hpre t' b h
    rw [TrajLoop.create] at h
    rw [create]
    by_cases h0 : start = L
    · rw [if_pos (by rw [hr.up]; exact h0)] at h
      rw [if_pos (by rw [hr.up']; exact h0)]
      cases h
      exact ⟨s, rfl, hr, rfl, rfl⟩
    · have hlt : start < L := by omega
      obtain ⟨hp, ht⟩ := hpre hlt
      rw [if_neg (by rw [hr.up]; exact h0)] at h
      rw [if_neg (by rw [hr.up']; exact h0)]
      have hnum : TrajLoop.numPoints (absCfg c first L) start t.upTo = numPoints c start s.upTo := by
        unfold TrajLoop.numPoints numPoints; rw [hr.up, hr.up']; rfl
      have hnum2 : 0 < numPoints c start s.upTo ∧ start + numPoints c start s.upTo ≤ L := by
        unfold numPoints; rw [hr.up']
        split <;> omega
      obtain ⟨s1, e1, e2, e3, e4⟩ := batchLoop_sim hf (numPoints c start s.upTo - 1) start s t hr hp ht (by omega)
      obtain ⟨t1, j, r, f1, f2, f3, f4, f5, f6, f7, f8⟩ := Props.TrajLoop.batchLoop_spec (absCfg c first L)
        (numPoints c start s.upTo - 1) start t
      have hb : TrajLoop.batch (absCfg c first L) start t = (t1, j, r) := by
        unfold TrajLoop.batch; rw [hnum]; exact f1
      rw [f1] at e1 e2
      rw [hb] at h
      rw [e1]
      dsimp only at h e2 ⊢
      cases r with
      | true =>
        dsimp only
        simp only [if_true, Option.some.injEq, Prod.mk.injEq] at h
        obtain ⟨ha, hb'⟩ := h
        subst ha; subst hb'
        exact ⟨s1, rfl, e2, e3, e4⟩
      | false =>
        obtain ⟨g1, g2, g3⟩ := f8 rfl
        simp only [Bool.false_eq_true, if_false] at h
        dsimp only
        rw [hnum, hr.up] at h
        by_cases hl : start + numPoints c start s.upTo = L
        · rw [if_pos hl] at h
          rw [if_pos (hl.trans hr.up'.symm)]
          have hj : j + 1 = L := by omega
          obtain ⟨s2, v1, v2, v3, v4⟩ := visit_sim hf e2 (by omega) (by rw [f4]; exact ht) j
          rw [decide_eq_true hj] at v1
          rw [v1]
          dsimp only
          rw [exceeds_sim v2]
          by_cases hx : TrajLoop.exceeds (absCfg c first L) (TrajLoop.visit (absCfg c first L) t1 j) j = true
          · rw [if_pos hx] at h ⊢
            cases h
            exact ⟨_, rfl, endIndex_sim v2 _, v3.trans e3, v4.trans e4⟩
          · rw [if_neg hx] at h ⊢
            rw [if_pos (by rw [v2.up]; exact hj)] at h
            rw [if_pos (by rw [v2.up']; exact hj)]
            cases h
            exact ⟨_, rfl, v2, v3.trans e3, v4.trans e4⟩
        · rw [if_neg hl] at h
          rw [if_neg (fun hh => hl (hh.trans hr.up'))]
          rw [e2.up] at h
          by_cases hj : j = L
          · omega
          · rw [if_neg hj] at h
            rw [if_neg (by rw [e2.up']; exact hj)]
            split at h
            · rename_i hd
              rw [dif_pos ⟨hd.1, by rw [e2.up']; exact hd.2.1, by rw [e2.up', hr.up']⟩]
              obtain ⟨s', i1, i2, i3, i4⟩ := ih (L - j) (by omega) j s1 t1 rfl (by omega) e2
                (fun _ => ⟨by omega, by rw [f4]; exact ht⟩) t' b h
              exact ⟨s', i1, i2, i3.trans e3, i4.trans e4⟩
            · cases h

theorem calculate_sim (hf : Fits c first (L - first)) {s : St} {t : TrajLoop.St} (hr : Rel c first L x s t)
    (start : Nat) (hle : start ≤ L) (hpend : start < L ∨ t.tailAdded = false → 0 < t.pending)
    (htails : t.tails = if t.tailAdded then 1 else 0) (hta : t.tailAdded = true → start = L)
    {t' : TrajLoop.St} (h : TrajLoop.calculate (absCfg c first L) start t = some t') :
    ∃ s', calculate c start false s = some s' ∧ Rel c first L x s' t' ∧ s'.pmac = s.pmac ∧ s'.reports = s.reports := by
  unfold TrajLoop.calculate at h
  cases hc : TrajLoop.create (absCfg c first L) start t with
  | none => rw [hc] at h; cases h
  | some r =>
    obtain ⟨t1, b⟩ := r
    rw [hc] at h
    dsimp only at h
    have ht0 : t.tailAdded = false → t.tails = 0 := by intro hx; rw [htails, hx]; rfl
    obtain ⟨s1, e1, e2, e3, e4⟩ := create_sim hf _ start s t rfl hle hr (fun hlt => ⟨hpend (.inl hlt), ht0 (by
      cases hx : t.tailAdded with
      | false => rfl
      | true => have := hta hx; omega)⟩) t1 b hc
    obtain ⟨t2, b2, g, g1, g2, g3, g4, _⟩ := Props.TrajLoop.create_spec (absCfg c first L) hf.batch _ start t
      (by rw [hr.up]; exact hle) rfl
    rw [hc] at g
    simp only [Option.some.injEq, Prod.mk.injEq] at g
    obtain ⟨ga, gb⟩ := g
    subst ga; subst gb
    unfold calculate
    simp only [Bool.false_eq_true, if_false]
    rw [show ({ s with traj := s.traj } : St) = s from rfl, e1]
    dsimp only
    rw [e2.tail] at h
    split
    · rename_i hb
      rw [if_pos hb] at h
      cases h
      have hta' : t.tailAdded = false := by rw [← g2, e2.tail]; exact hb.2
      have hp : 0 < t1.pending := by have := hpend (.inr hta'); omega
      obtain ⟨tr, k1, k2, k3, k4, k5, k6, k7⟩ := run_sim hf e2 hp [tailOp c L] (by
        intro o ho; rw [List.mem_singleton.1 ho]; unfold tailOp; intro hh; cases hh)
      unfold addTailOff
      rw [e2.up']
      have hk1 : s1.traj.run c.profilePoints [.add (c.tail L).1 3 c.tailProg L (c.tail L).2] = some tr := k1
      rw [hk1]
      have hn : npts [tailOp c L] = size (c.tail L).1 := by simp [npts, tailOp]
      refine ⟨_, rfl, ⟨by rw [← hn] at *; exact k2.symm, ?_, ?_, e2.up, rfl, rfl, k4, k5, k6, ?_⟩, e3, e4⟩
      · show t1.total + size (c.tail L).1 = _; rw [← hn]; exact k3.symm
      · exact e2.up
      · rw [← k7]
        congr 1
        have h0 : t1.tails = 0 := by rw [g3]; exact ht0 hta'
        unfold history
        simp [TrajLoop.addTailOff, h0, e2.up]
    · rename_i hb
      rw [if_neg hb] at h
      cases h
      exact ⟨s1, rfl, e2, e3, e4⟩


/-! ### what is sent -/

theorem get?_filterMap (g : String → Option ℚ) (use : List String) (k : String) :
    Dict.get? (use.filterMap (fun a => (g a).map (fun y => (a, y)))) k = if k ∈ use then g k else none := by
  induction use with
  | nil => rfl
  | cons a use ih =>
    rw [List.filterMap_cons]
    cases hg : g a with
    | none =>
      simp only [Option.map_none]
      rw [ih]
      by_cases hk : k = a
      · subst hk; simp [hg]
      · simp [hk]
    | some y =>
      simp only [Option.map_some]
      rw [Dict.get?_cons]
      by_cases hk : a = k
      · subst hk; simp [hg]
      · rw [if_neg hk, ih]
        have : k ≠ a := fun h => hk h.symm
        simp [this]

theorem get?_update {V : Type} (d2 : Dict String V) : ∀ (d : Dict String V) (k : String), d2.keys.Nodup →
    Dict.get? (Dict.update d d2) k = match Dict.get? d2 k with
      | some v => some v
      | none => Dict.get? d k := by
  induction d2 with
  | nil => intro d k _; rfl
  | cons kv d2 ih =>
    intro d k hn
    obtain ⟨a, v⟩ := kv
    have hn' : a ∉ Dict.keys d2 ∧ (Dict.keys d2).Nodup := by
      simp only [Dict.keys, List.map_cons, List.nodup_cons] at hn; exact hn
    have : Dict.update d ((a, v) :: d2) = Dict.update (Dict.set d a v) d2 := rfl
    rw [this, ih _ _ hn'.2, Dict.get?_cons]
    by_cases hk : a = k
    · subst hk
      rw [Dict.get?_none_iff.2 hn'.1, if_pos rfl, Dict.get?_set_self]
    · rw [if_neg hk, Dict.get?_set_ne _ _ hk]

theorem start_keys (m : Dict String String) : (Trajectory.start m).axes.keys.Nodup ∧
    ∀ a, a ∈ (Trajectory.start m).axes.keys ↔ a ∈ m.values := by
  have key : ∀ (css : List String) (d : Dict String (List ℚ)), d.keys.Nodup →
      (css.foldl (fun d cs => Dict.set d cs []) d).keys.Nodup ∧
      ∀ a, a ∈ (css.foldl (fun d cs => Dict.set d cs []) d).keys ↔ a ∈ d.keys ∨ a ∈ css := by
    intro css
    induction css with
    | nil => intro d h; exact ⟨h, fun a => by simp⟩
    | cons cs css ih =>
      intro d h
      rw [List.foldl_cons]
      obtain ⟨h1, h2⟩ := ih (Dict.set d cs []) (Dict.nodup_set h _ _)
      refine ⟨h1, fun a => ?_⟩
      rw [h2, Dict.keys_set]
      split
      · rename_i hc
        constructor
        · rintro (h | h)
          · exact .inl h
          · exact .inr (List.mem_cons_of_mem _ h)
        · rintro (h | h)
          · exact .inl h
          · rcases List.mem_cons.1 h with h | h
            · subst h; exact .inl hc
            · exact .inr h
      · rw [List.mem_append, List.mem_singleton, List.mem_cons, or_assoc]
  obtain ⟨h1, h2⟩ := key m.values [] List.nodup_nil
  exact ⟨h1, fun a => by rw [show (Trajectory.start m).axes = m.values.foldl (fun d cs => Dict.set d cs []) [] from rfl, h2]; simp [Dict.keys]⟩

theorem ticks_length (l : List ℚ) : ∀ o, (ticks o l).length = l.length := by
  induction l with
  | nil => intro o; rfl
  | cons t l ih => intro o; simp only [ticks]; split <;> simp [ih]

/-- the points that are written next -/
def chunkOf (n : Nat) (tr : Traj) : Chunk :=
  { time := tr.time.take n, mode := tr.mode.take n, prog := tr.prog.take n
    axes := fun a => ((Dict.get? tr.axes a).getD []).take n }

def Chunk.append (x y : Chunk) : Chunk :=
  { time := x.time ++ y.time, mode := x.mode ++ y.mode, prog := x.prog ++ y.prog, axes := fun a => x.axes a ++ y.axes a }

theorem glue_write (n : Nat) (x : Chunk) (tr : Traj) (hn : tr.axes.keys.Nodup) :
    glue (Chunk.append x (chunkOf n tr)) (Trajectory.write n tr) = glue x tr := by
  have hax : mapK (Chunk.append x (chunkOf n tr)).axes (tr.axes.map (fun kv => (kv.1, kv.2.drop n))) = mapK x.axes tr.axes := by
    unfold mapK
    rw [List.map_map]
    apply List.map_congr_left
    intro kv hk
    simp only [Function.comp, Chunk.append, chunkOf]
    rw [Dict.get?_of_mem_nodup hn hk]
    simp
  unfold glue Trajectory.write
  simp only [hax]
  simp [Chunk.append, chunkOf]

/-- the controller has been given the points of `x` -/
structure Sent (c : Cfg) (x : Chunk) (p : Pmac) : Prop where
  version : 2 ≤ p.version
  use : p.use = axisNames.filter (fun a => decide (a ∈ c.mapping.values))
  total : p.total = x.time.length
  xmode : x.mode.length = x.time.length
  xprog : x.prog.length = x.time.length
  xaxes : ∀ a ∈ c.mapping.values, (x.axes a).length = x.time.length
  modes : p.buffer.map (·.mode) = x.mode
  progs : p.buffer.map (·.prog) = x.prog
  pos : ∀ a ∈ c.mapping.values, p.buffer.map (fun q => Dict.get? q.pos a) = (x.axes a).map some
  axes : ∀ q ∈ p.buffer, ∀ a, Dict.mem q.pos a = true → a ∈ c.mapping.values
  times : ∃ chunks : List (List ℚ), chunks.flatten = x.time ∧ (∀ ch ∈ chunks, ch.length ≤ c.profilePoints) ∧
    p.buffer.map (·.ticks) = allTicks (chunks.map (·.map (· / c.tickS)))

theorem map_range_getD {α : Type} (l : List α) (d : α) (n : Nat) (h : l.length = n) :
    (List.range n).map (fun k => l.getD k d) = l := by
  subst h
  apply List.ext_getElem
  · simp
  · intro i h1 h2
    simp only [List.getElem_map, List.getElem_range]
    rw [List.getD_eq_getElem?_getD, List.getElem?_eq_getElem h2]; rfl

theorem map_range_get? {α : Type} (l : List α) (n : Nat) (h : l.length = n) :
    (List.range n).map (fun k => l[k]?) = l.map some := by
  subst h
  apply List.ext_getElem
  · simp
  · intro i h1 h2
    simp only [List.getElem_map, List.getElem_range]
    rw [List.getElem?_eq_getElem]

/-- the arguments of `write_profile_points` -/
def argsOf (c : Cfg) (csPort : Option String) (tr : Traj) : Args :=
  { csPort := csPort
    time := ticks 0 ((tr.time.take c.profilePoints).map (· / c.tickS))
    mode := some (tr.mode.take c.profilePoints)
    prog := some (tr.prog.take c.profilePoints)
    axes := tr.axes.map (fun kv => (kv.1, kv.2.take c.profilePoints)) }

/-- the controller once the points are to replace what it has -/
def reset (c : Cfg) (csPort : Option String) (tr : Traj) (p : Pmac) : Pmac := newBuild p (argsOf c csPort tr)

theorem write_sent (hf : Fits c first (L - first)) (csPort : Option String) (tr : Traj) (ha : Aligned tr)
    (hm : tr.mapping = c.mapping) (hk : tr.axes.keys = (Trajectory.start c.mapping).axes.keys) (p : Pmac)
    (hv : 2 ≤ p.version) (x : Chunk) (hs : Sent c x (reset c csPort tr p)) :
    ∃ p', writeProfile p (argsOf c csPort tr) = some p' ∧ Sent c (Chunk.append x (chunkOf c.profilePoints tr)) p' := by
  obtain ⟨hn, hmem⟩ := start_keys c.mapping
  rw [← hk] at hn hmem
  have hak : (argsOf c csPort tr).axes.keys = tr.axes.keys := by
    simp [argsOf, Dict.keys, List.map_map, Function.comp_def]
  have hnames : ¬ ∃ k ∈ (argsOf c csPort tr).axes.keys, k ∉ axisNames := by
    rintro ⟨k, h1, h2⟩
    rw [hak] at h1
    exact h2 (hf.names k ((hmem k).1 h1))
  obtain ⟨n, hn0⟩ : ∃ n, n = (tr.time.take c.profilePoints).length := ⟨_, rfl⟩
  have htl : (argsOf c csPort tr).time.length = n := by
    simp [argsOf, ticks_length, hn0]
  have hml : (tr.mode.take c.profilePoints).length = n := by
    rw [hn0, List.length_take, List.length_take, ha.mode]
  have hpl : (tr.prog.take c.profilePoints).length = n := by
    rw [hn0, List.length_take, List.length_take, ha.prog]
  have hax : ∀ a ∈ c.mapping.values, ∃ l, Dict.get? tr.axes a = some l ∧ (l.take c.profilePoints).length = n ∧
      ∀ d, Dict.get? (Dict.update d (argsOf c csPort tr).axes) a = some (l.take c.profilePoints) := by
    intro a h
    obtain ⟨kv, h1, h2⟩ := List.mem_map.1 h
    rw [← hm] at h1
    obtain ⟨l, h3, h4⟩ := ha.axes kv h1
    rw [h2] at h3
    refine ⟨l, h3, by rw [hn0, List.length_take, List.length_take, h4], fun d => ?_⟩
    rw [get?_update _ _ _ (by rw [hak]; exact hn)]
    have : Dict.get? (argsOf c csPort tr).axes a = some (l.take c.profilePoints) := by
      show Dict.get? (tr.axes.map (fun kv => (kv.1, kv.2.take c.profilePoints))) a = _
      rw [get?_mapValues, h3]; rfl
    rw [this]
  unfold writeProfile
  rw [if_neg (by omega), if_neg hnames]
  rw [show newBuild p (argsOf c csPort tr) = reset c csPort tr p from rfl]
  simp only [htl]
  rw [show (argsOf c csPort tr).mode = some (tr.mode.take c.profilePoints) from rfl,
    show (argsOf c csPort tr).prog = some (tr.prog.take c.profilePoints) from rfl]
  simp only [zerosOr, hml, hpl, if_true]
  refine ⟨_, rfl, ?_⟩
  obtain ⟨pts, hpts⟩ : ∃ pts, pts = (List.range n).map (pointAt (reset c csPort tr p).use
    (Dict.update (reset c csPort tr p).arrays (argsOf c csPort tr).axes) (argsOf c csPort tr).time
    (tr.mode.take c.profilePoints) (tr.prog.take c.profilePoints)) := ⟨_, rfl⟩
  rw [← hpts]
  have p1 : pts.map (·.mode) = tr.mode.take c.profilePoints := by
    rw [hpts, List.map_map]; exact map_range_getD _ 0 n hml
  have p2 : pts.map (·.prog) = tr.prog.take c.profilePoints := by
    rw [hpts, List.map_map]; exact map_range_getD _ 0 n hpl
  have p3 : pts.map (·.ticks) = ticks 0 ((tr.time.take c.profilePoints).map (· / c.tickS)) := by
    rw [hpts, List.map_map]; exact map_range_getD _ 0 n htl
  have hpos : ∀ k a, Dict.get? (pointAt (reset c csPort tr p).use
      (Dict.update (reset c csPort tr p).arrays (argsOf c csPort tr).axes) (argsOf c csPort tr).time
      (tr.mode.take c.profilePoints) (tr.prog.take c.profilePoints) k).pos a =
      if a ∈ (reset c csPort tr p).use then
        (Dict.get? (Dict.update (reset c csPort tr p).arrays (argsOf c csPort tr).axes) a).bind (·[k]?) else none := by
    intro k a
    exact get?_filterMap (fun a => (Dict.get? (Dict.update (reset c csPort tr p).arrays (argsOf c csPort tr).axes) a).bind (·[k]?)) _ _
  have p4 : ∀ a ∈ c.mapping.values, pts.map (fun q => Dict.get? q.pos a) = ((chunkOf c.profilePoints tr).axes a).map some := by
    intro a h
    obtain ⟨l, h1, h2, h3⟩ := hax a h
    rw [hpts, List.map_map, show (chunkOf c.profilePoints tr).axes a = l.take c.profilePoints by
      simp only [chunkOf, h1]; rfl, ← map_range_get? _ n h2]
    apply List.map_congr_left
    intro k hk
    simp only [Function.comp]
    rw [hpos, if_pos, h3]
    · rfl
    · rw [hs.use]
      exact List.mem_filter.2 ⟨hf.names a h, by simpa using h⟩
  refine ⟨hs.version, hs.use, ?_, ?_, ?_, ?_, ?_, ?_, ?_, ?_, ?_⟩
  · show (reset c csPort tr p).total + n = _
    rw [hs.total, hn0]; simp [Chunk.append, chunkOf]
  · have := hs.xmode
    simp only [Chunk.append, chunkOf, List.length_append]; omega
  · have := hs.xprog
    simp only [Chunk.append, chunkOf, List.length_append]; omega
  · intro a h
    have := hs.xaxes a h
    obtain ⟨l, h1, h2, _⟩ := hax a h
    simp only [Chunk.append, chunkOf, List.length_append, h1, Option.getD_some]; omega
  · show ((reset c csPort tr p).buffer ++ pts).map _ = _
    rw [List.map_append, hs.modes, p1]; rfl
  · show ((reset c csPort tr p).buffer ++ pts).map _ = _
    rw [List.map_append, hs.progs, p2]; rfl
  · intro a h
    show ((reset c csPort tr p).buffer ++ pts).map _ = _
    rw [List.map_append, hs.pos a h, p4 a h]
    simp [Chunk.append]
  · intro q hq a hqa
    have hq : q ∈ (reset c csPort tr p).buffer ++ pts := hq
    rcases List.mem_append.1 hq with hq | hq
    · exact hs.axes q hq a hqa
    · rw [hpts] at hq
      obtain ⟨k, _, rfl⟩ := List.mem_map.1 hq
      unfold Dict.mem at hqa
      rw [hpos] at hqa
      split at hqa
      · rename_i hu
        rw [hs.use] at hu
        simpa using (List.mem_filter.1 hu).2
      · cases hqa
  · obtain ⟨chunks, h1, h2, h3⟩ := hs.times
    refine ⟨chunks ++ [tr.time.take c.profilePoints], ?_, ?_, ?_⟩
    · rw [List.flatten_append, h1]; simp [Chunk.append, chunkOf]
    · intro ch hch
      rcases List.mem_append.1 hch with h | h
      · exact h2 ch h
      · rw [List.mem_singleton.1 h, List.length_take]; omega
    · show ((reset c csPort tr p).buffer ++ pts).map _ = _
      rw [List.map_append, h3, p3]
      simp [allTicks]

/-- nothing sent -/
theorem reset_sent (csPort : String) (tr : Traj) (hk : tr.axes.keys = (Trajectory.start c.mapping).axes.keys) (p : Pmac)
    (hv : 2 ≤ p.version) : Sent c {} (reset c (some csPort) tr p) := by
  obtain ⟨hn, hmem⟩ := start_keys c.mapping
  rw [← hk] at hn hmem
  refine ⟨hv, ?_, rfl, rfl, rfl, fun _ _ => rfl, rfl, rfl, fun _ _ => rfl, fun q hq => (by cases hq), ⟨[], rfl, fun ch h => (by cases h), rfl⟩⟩
  show axisNames.filter _ = _
  apply List.filter_congr
  intro a _
  rw [Bool.eq_iff_iff, Dict.mem_iff]
  have hak : (argsOf c (some csPort) tr).axes.keys = tr.axes.keys := by
    simp [argsOf, Dict.keys, List.map_map, Function.comp_def]
  rw [hak, hmem]; simp

/-- writing points, in the part and in the other loop -/
theorem write_sim (hf : Fits c first (L - first)) {s : St} {t : TrajLoop.St} (hr : Rel c first L x s t)
    (csPort : Option String) (hv : 2 ≤ s.pmac.version) (hs : Sent c x (reset c csPort s.traj s.pmac)) :
    ∃ s' x', writePoints c csPort s = some s' ∧ Rel c first L x' s' (TrajLoop.write (absCfg c first L) t) ∧
      Sent c x' s'.pmac ∧ s'.reports = s.reports ∧
      s'.pmac.total = x.time.length + min c.profilePoints t.pending := by
  obtain ⟨p', h1, h2⟩ := write_sent hf csPort s.traj hr.al hr.map hr.keys s.pmac hv x hs
  have h1' : writeProfile s.pmac
      { csPort := csPort
        time := ticks 0 ((s.traj.time.take c.profilePoints).map (· / c.tickS))
        mode := some (s.traj.mode.take c.profilePoints)
        prog := some (s.traj.prog.take c.profilePoints)
        axes := s.traj.axes.map (fun kv => (kv.1, kv.2.take c.profilePoints)) } = some p' := h1
  unfold writePoints
  rw [h1']
  refine ⟨_, Chunk.append x (chunkOf c.profilePoints s.traj), rfl, ⟨?_, hr.total, hr.ends, hr.up, hr.up', hr.tail,
    write_aligned _ _ hr.al, hr.map, ?_, ?_⟩, h2, rfl, ?_⟩
  · show t.pending - c.profilePoints = (s.traj.time.drop c.profilePoints).length
    rw [List.length_drop, hr.pend]
  · show (s.traj.axes.map (fun kv => (kv.1, kv.2.drop c.profilePoints))).map (·.1) = _
    rw [List.map_map, ← hr.keys]; rfl
  · rw [glue_write _ _ _ (by rw [hr.keys]; exact (start_keys c.mapping).1)]
    exact hr.whole
  · show p'.total = _
    rw [h2.total, hr.pend]
    simp [Chunk.append, chunkOf]

end Verif.Proofs.TrajSend
