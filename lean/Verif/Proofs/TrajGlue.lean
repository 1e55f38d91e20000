import Verif.Props.Trajectory
import Verif.Proofs.PyDict
import Verif.Spec.TrajSend
/-!
Profiles with and without the points already sent.
-/
set_option linter.unusedVariables false
namespace Verif.Proofs.TrajGlue
open Verif.Trajectory Verif.Props.Trajectory Verif.TrajSend Verif.Spec.TrajSend

/-- points that were sent, as arrays -/
structure Chunk where
  time : List ℚ := []
  mode : List Nat := []
  prog : List Nat := []
  axes : String → List ℚ := fun _ => []

/-- the points sent put back in front -/
def mapK (f : String → List ℚ) (d : Dict String (List ℚ)) : Dict String (List ℚ) :=
  d.map (fun kv => (kv.1, f kv.1 ++ kv.2))

def glue (x : Chunk) (s : Traj) : Traj :=
  { s with time := x.time ++ s.time, mode := x.mode ++ s.mode, prog := x.prog ++ s.prog,
           axes := mapK x.axes s.axes, sent := [] }

theorem get?_mapK (f : String → List ℚ) (d : Dict String (List ℚ)) (k : String) :
    Dict.get? (mapK f d) k = (Dict.get? d k).map (f k ++ ·) := by
  induction d with
  | nil => rfl
  | cons kv d ih =>
    unfold mapK at *
    rw [List.map_cons, Dict.get?_cons, Dict.get?_cons]
    split
    · rename_i h; subst h; rfl
    · exact ih

theorem set_mapK (f : String → List ℚ) (d : Dict String (List ℚ)) (k : String) (v : List ℚ) :
    Dict.set (mapK f d) k (f k ++ v) = mapK f (Dict.set d k v) := by
  induction d with
  | nil => rfl
  | cons kv d ih =>
    obtain ⟨a, b⟩ := kv
    unfold mapK at *
    simp only [List.map_cons, Dict.set]
    split
    · rename_i h; subst h; rfl
    · rw [ih]; rfl

theorem modAxes_glue (f : List ℚ → ℚ → Option (List ℚ)) (x : String → List ℚ)
    (hf : ∀ (y l : List ℚ) v l', f l v = some l' → f (y ++ l) v = some (y ++ l'))
    (mapping : Dict String String) (pts : List (String × ℚ)) : ∀ (axes axes' : Dict String (List ℚ)),
    modAxes f mapping axes pts = some axes' → modAxes f mapping (mapK x axes) pts = some (mapK x axes') := by
  induction pts with
  | nil => intro axes axes' h; cases h; rfl
  | cons p pts ih =>
    intro axes axes' h
    simp only [modAxes] at h ⊢
    cases hm : Dict.get? mapping p.1 with
    | none => rw [hm] at h; cases h
    | some cs =>
      rw [hm] at h
      dsimp only at h ⊢
      rw [get?_mapK]
      cases ha : Dict.get? axes cs with
      | none => rw [ha] at h; cases h
      | some l =>
        rw [ha] at h
        dsimp only [Option.map_some] at h ⊢
        cases hl : f l p.2 with
        | none => rw [hl] at h; cases h
        | some l' =>
          rw [hl] at h
          rw [hf _ _ _ _ hl]
          dsimp only at h ⊢
          rw [set_mapK]
          exact ih _ _ h

theorem append_glue (y l : List ℚ) (v : ℚ) (l' : List ℚ) (h : (fun l v => some (l ++ [v])) l v = some l') :
    (fun l v => some (l ++ [v])) (y ++ l) v = some (y ++ l') := by
  cases h; simp

theorem between_glue (n : Nat) (y l : List ℚ) (v : ℚ) (l' : List ℚ) (h : between n l v = some l') :
    between n (y ++ l) v = some (y ++ l') := by
  unfold between at *
  cases hl : l.getLast? with
  | none => rw [hl] at h; cases h
  | some last =>
    rw [hl] at h
    cases h
    rw [List.getLast?_append, hl]
    simp

theorem addPoint_glue (x : Chunk) (s s' : Traj) (t : ℚ) (mode prog step : Nat) (pts : List (String × ℚ))
    (h : addPoint s t mode prog step pts = some s') :
    addPoint (glue x s) t mode prog step pts = some (glue x s') := by
  unfold addPoint at *
  split at h
  · rename_i ht
    rw [if_pos ht]
    split at h
    · cases h
    · rename_i hne
      rw [if_neg (by
        show ¬ (x.time ++ s.time = []); intro hc; exact hne (List.append_eq_nil_iff.1 hc).2)]
      simp only [stretchAxes_eq, appendAxes_eq] at h ⊢
      show (match modAxes (between (nsplitOf t)) s.mapping (mapK x.axes s.axes) pts with
        | none => none
        | some axes => _) = _
      cases h1 : modAxes (between (nsplitOf t)) s.mapping s.axes pts with
      | none => rw [h1] at h; cases h
      | some a1 =>
        rw [h1] at h
        rw [modAxes_glue _ x.axes (between_glue _) _ _ _ _ h1]
        dsimp only at h ⊢
        show (match s.lookup.getLast? with
          | none => none
          | some last => _) = _
        cases h2 : s.lookup.getLast? with
        | none => rw [h2] at h; cases h
        | some last =>
          rw [h2] at h
          dsimp only at h ⊢
          show (match modAxes (fun l v => some (l ++ [v])) s.mapping (mapK x.axes a1) pts with
            | none => none
            | some axes => _) = _
          cases h3 : modAxes (fun l v => some (l ++ [v])) s.mapping a1 pts with
          | none => rw [h3] at h; cases h
          | some a2 =>
            rw [h3] at h
            rw [modAxes_glue _ x.axes append_glue _ _ _ _ h3]
            cases h
            simp [glue]
  · rename_i ht
    rw [if_neg ht]
    simp only [appendAxes_eq] at h ⊢
    show (match modAxes (fun l v => some (l ++ [v])) s.mapping (mapK x.axes s.axes) pts with
      | none => none
      | some axes => _) = _
    cases h3 : modAxes (fun l v => some (l ++ [v])) s.mapping s.axes pts with
    | none => rw [h3] at h; cases h
    | some a2 =>
      rw [h3] at h
      rw [modAxes_glue _ x.axes append_glue _ _ _ _ h3]
      cases h
      simp [glue]

/-- the loop at the end of insert_gap -/
def fixAxes (lower : String → ℚ) (m : List (String × String)) (axes : Dict String (List ℚ)) : Dict String (List ℚ) :=
  m.foldl (fun axes kv =>
      match Dict.get? axes kv.2 with
      | none => axes
      | some l => Dict.set axes kv.2 (l.dropLast ++ [lower kv.1])) axes

theorem fixAxes_glue (x : String → List ℚ) (lower : String → ℚ) (m : List (String × String)) :
    ∀ (axes : Dict String (List ℚ)), (∀ kv ∈ m, ∀ l, Dict.get? axes kv.2 = some l → l ≠ []) →
      fixAxes lower m (mapK x axes) = mapK x (fixAxes lower m axes) := by
  induction m with
  | nil => intro axes _; rfl
  | cons kv m ih =>
    intro axes h
    unfold fixAxes at *
    rw [List.foldl_cons, List.foldl_cons, get?_mapK]
    cases hl : Dict.get? axes kv.2 with
    | none => exact ih axes (fun k hk => h k (List.mem_cons_of_mem _ hk))
    | some l =>
      have hne := h kv List.mem_cons_self l hl
      dsimp only [Option.map_some]
      rw [show (x kv.2 ++ l).dropLast ++ [lower kv.1] = x kv.2 ++ (l.dropLast ++ [lower kv.1]) by
        rw [List.dropLast_append_of_ne_nil hne, List.append_assoc], set_mapK]
      apply ih
      intro k hk l2 h2
      by_cases hc : kv.2 = k.2
      · rw [hc, Dict.get?_set_self] at h2; cases h2; simp
      · rw [Dict.get?_set_ne _ _ hc] at h2
        exact h k (List.mem_cons_of_mem _ hk) l2 h2

theorem fixLast_glue (x : Chunk) (s s' : Traj) (ha : Aligned s) (lower : String → ℚ) (prog : Nat)
    (h : Trajectory.fixLast s lower prog = some s') : Trajectory.fixLast (glue x s) lower prog = some (glue x s') := by
  unfold Trajectory.fixLast at *
  split at h
  · cases h
  · rename_i hne
    cases h
    have hlen : 0 < s.time.length := List.length_pos_iff.2 hne
    have h1 : s.mode ≠ [] := by intro hc; have := ha.mode; rw [hc] at this; simp at this; omega
    have h2 : s.prog ≠ [] := by intro hc; have := ha.prog; rw [hc] at this; simp at this; omega
    rw [if_neg (by show ¬ (x.time ++ s.time = []); intro hc; exact hne (List.append_eq_nil_iff.1 hc).2)]
    have := fixAxes_glue x.axes lower s.mapping s.axes (by
      intro kv hk l hl
      obtain ⟨l', e1, e2⟩ := ha.axes kv hk
      rw [hl] at e1; cases e1
      intro hc; rw [hc] at e2; simp at e2; omega)
    simp only [glue, List.dropLast_append_of_ne_nil h1, List.dropLast_append_of_ne_nil h2, List.append_assoc]
    congr 2

/-- no point is sent -/
def NoWrite (ops : List Op) : Prop := ∀ o ∈ ops, o ≠ .write

theorem size_pos (t : ℚ) : 0 < size t := by
  unfold size
  split
  · rename_i h; exact (nsplit_spec t h).1
  · decide

theorem npts_append (a b : List Op) : npts (a ++ b) = npts a + npts b := by
  induction a with
  | nil => simp [npts]
  | cons o a ih => cases o <;> simp [npts, ih] ; omega

theorem addPoint_len (s s' : Traj) (t : ℚ) (mode prog step : Nat) (pts : List (String × ℚ))
    (h : addPoint s t mode prog step pts = some s') :
    s'.time.length = s.time.length + size t ∧ s'.axes.keys = s.axes.keys ∧
      s'.lookup = s.lookup ++ List.replicate (size t - 1) (s.lookup.getLast?.getD 0) ++ [step] := by
  have keys : ∀ (f : List ℚ → ℚ → Option (List ℚ)) (mapping : Dict String String) (pts : List (String × ℚ))
      (axes axes' : Dict String (List ℚ)), modAxes f mapping axes pts = some axes' → axes'.keys = axes.keys := by
    intro f mapping pts
    induction pts with
    | nil => intro axes axes' h; cases h; rfl
    | cons p pts ih =>
      intro axes axes' h
      simp only [modAxes] at h
      split at h
      · cases h
      · split at h
        · cases h
        · rename_i cs _ l hl
          split at h
          · cases h
          · rw [ih _ _ h, Dict.keys_set, if_pos]
            exact List.mem_map_of_mem (Dict.get?_mem hl)
  unfold addPoint at h
  split at h
  · rename_i ht
    split at h
    · cases h
    · simp only [stretchAxes_eq, appendAxes_eq] at h
      split at h
      · cases h
      · rename_i a1 h1
        split at h
        · cases h
        · rename_i last hl
          split at h
          · cases h
          · rename_i a2 h2
            cases h
            refine ⟨by simp [size, ht], ?_, by simp [size, ht, hl]⟩
            show a2.keys = _
            rw [keys _ _ _ _ _ h2, keys _ _ _ _ _ h1]
  · rename_i ht
    simp only [appendAxes_eq] at h
    split at h
    · cases h
    · rename_i a2 h2
      cases h
      exact ⟨by simp [size, ht], keys _ _ _ _ _ h2, by simp [size, ht]⟩

theorem fixLast_keys (s s' : Traj) (lower : String → ℚ) (prog : Nat)
    (h : Trajectory.fixLast s lower prog = some s') : s'.axes.keys = s.axes.keys ∧ s'.lookup = s.lookup := by
  unfold Trajectory.fixLast at h
  split at h
  · cases h
  · cases h
    refine ⟨?_, rfl⟩
    have key : ∀ (m : List (String × String)) (axes : Dict String (List ℚ)), (fixAxes lower m axes).keys = axes.keys := by
      intro m
      induction m with
      | nil => intro axes; rfl
      | cons kv m ih =>
        intro axes
        unfold fixAxes at *
        rw [List.foldl_cons, ih]
        split
        · rfl
        · rename_i l hl
          rw [Dict.keys_set, if_pos]
          exact List.mem_map_of_mem (Dict.get?_mem hl)
    exact key s.mapping s.axes

/-- the completed steps of the points that are added after `last` -/
def steps : Nat → List Op → List Nat
  | _, [] => []
  | last, .add t _ _ step _ :: ops => List.replicate (size t - 1) last ++ step :: steps step ops
  | last, _ :: ops => steps last ops

/-- everything about adding points, when it works -/
theorem run_spec (max : Nat) (x : Chunk) (ops : List Op) (hw : NoWrite ops) : ∀ (s s' : Traj), Aligned s → MapOk s.mapping →
    s.run max ops = some s' →
    Aligned s' ∧ s'.mapping = s.mapping ∧ s'.sent = s.sent ∧ s'.time.length = s.time.length + npts ops ∧
      s'.axes.keys = s.axes.keys ∧ s'.lookup = s.lookup ++ steps (s.lookup.getLast?.getD 0) ops ∧
      ∀ max', (glue x s).run max' ops = some (glue x s') := by
  induction ops with
  | nil => intro s s' ha hm h; cases h; exact ⟨ha, rfl, rfl, rfl, rfl, by simp [steps], fun _ => rfl⟩
  | cons op ops ih =>
    intro s s' ha hm h
    simp only [Traj.run] at h
    cases hs : s.step max op with
    | none => rw [hs] at h; cases h
    | some s1 =>
      rw [hs] at h
      dsimp only at h
      have hw' : NoWrite ops := fun o ho => hw o (List.mem_cons_of_mem _ ho)
      cases op with
      | write => exact absurd rfl (hw _ List.mem_cons_self)
      | add t mode prog step pos =>
        simp only [Traj.step] at hs
        obtain ⟨e1, e2, e3⟩ := addPoint_len _ _ _ _ _ _ _ hs
        have hfirst : ¬ (t > maxMoveTime ∧ s.time = []) := by
          intro hc
          unfold addPoint at hs
          rw [if_pos hc.1, if_pos hc.2] at hs; cases hs
        obtain ⟨s2, new, a1, a2, a3, a4, _⟩ := add_spec s hm ha t mode prog step pos hfirst
        rw [a1] at hs; cases hs
        obtain ⟨b1, b2, b3, b4, b5, b6, b7⟩ := ih hw' s1 s' a2 (by rw [a3]; exact hm) h
        refine ⟨b1, b2.trans a3, b3.trans a4, ?_, b5.trans e2, ?_, ?_⟩
        · simp only [npts]; omega
        · rw [b6, e3]; simp [steps]
        · intro max'
          simp only [Traj.run, Traj.step]
          rw [show (glue x s).mapping = s.mapping from rfl, addPoint_glue x s s1 _ _ _ _ _ a1]
          exact b7 max'
      | fixLast lower prog =>
        simp only [Traj.step] at hs
        obtain ⟨a1, a2, a3, a4⟩ := fixLast_aligned s ha lower prog s1 hs
        obtain ⟨e1, e2⟩ := fixLast_keys _ _ _ _ hs
        obtain ⟨b1, b2, b3, b4, b5, b6, b7⟩ := ih hw' s1 s' a1 (by rw [a4]; exact hm) h
        refine ⟨b1, b2.trans a4, b3.trans a3, ?_, b5.trans e1, ?_, ?_⟩
        · simp only [npts]; rw [b4, a2]
        · rw [b6, e2]; simp [steps]
        · intro max'
          simp only [Traj.run, Traj.step]
          rw [fixLast_glue x s s1 ha lower prog hs]
          exact b7 max'

/-- adding points to a profile that has one always works -/
theorem run_ok (max : Nat) (ops : List Op) (hw : NoWrite ops) : ∀ (s : Traj), Aligned s → MapOk s.mapping → s.time ≠ [] →
    ∃ s', s.run max ops = some s' := by
  induction ops with
  | nil => intro s _ _ _; exact ⟨s, rfl⟩
  | cons op ops ih =>
    intro s ha hm hne
    have hw' : NoWrite ops := fun o ho => hw o (List.mem_cons_of_mem _ ho)
    simp only [Traj.run]
    cases op with
    | write => exact absurd rfl (hw _ List.mem_cons_self)
    | add t mode prog step pos =>
      obtain ⟨s2, new, a1, a2, a3, a4, a5, a6, _⟩ := add_spec s hm ha t mode prog step pos (fun hc => hne hc.2)
      simp only [Traj.step, a1]
      exact ih hw' s2 a2 (by rw [a3]; exact hm) (by rw [a5]; simp [a6])
    | fixLast lower prog =>
      have : ∃ s1, Trajectory.fixLast s lower prog = some s1 := by
        unfold Trajectory.fixLast; rw [if_neg hne]; exact ⟨_, rfl⟩
      obtain ⟨s1, hs⟩ := this
      obtain ⟨a1, a2, a3, a4⟩ := fixLast_aligned s ha lower prog s1 hs
      simp only [Traj.step, hs]
      exact ih hw' s1 a1 (by rw [a4]; exact hm) (by rw [a2]; exact hne)

theorem run_append (max : Nat) (a b : List Op) : ∀ (s : Traj), s.run max (a ++ b) = (s.run max a).bind (·.run max b) := by
  induction a with
  | nil => intro s; rfl
  | cons o a ih =>
    intro s
    simp only [List.cons_append, Traj.run]
    cases s.step max o with
    | none => rfl
    | some s1 => exact ih s1

end Verif.Proofs.TrajGlue
