import Verif.Model.Odin
import Mathlib.Tactic.FieldSimp
import Mathlib.Tactic.Ring
import Mathlib.Tactic.Linarith
/-!
C49: "The number of frames expected in each of the Odin writer's files adds up to the number of frames
in the scan and follows round-robin block distribution."
-/
namespace Verif.Props.Odin
open Verif.Odin

/-- The frames of file `i` when blocks of `bs` frames are given to `fc` files in turn. -/
def share (frames bs fc i : Nat) : Nat := ((List.range frames).filter (fun f => (f / bs) % fc = i)).length

/-- the share in closed form -/
theorem share_closed (bs fc i : Nat) (hb : 0 < bs) (hi : i < fc) (frames : Nat) :
    share frames bs fc i = frames / (fc * bs) * bs + min bs (frames % (fc * bs) - i * bs) := by
  have hP : 0 < fc * bs := Nat.mul_pos (by omega) hb
  induction frames with
  | zero => simp [share]
  | succ n ih =>
    unfold share at ih ⊢
    rw [List.range_succ, List.filter_append, List.length_append, ih]
    have hdm := Nat.div_add_mod n (fc * bs)
    have hr := Nat.mod_lt n hP
    generalize hq : n / (fc * bs) = q at *
    generalize hrr : n % (fc * bs) = r at *
    have hib : i * bs + bs ≤ fc * bs := by
      have := Nat.mul_le_mul_right bs (show i + 1 ≤ fc from hi)
      rw [Nat.add_mul, Nat.one_mul] at this; exact this
    have hmod : n / bs % fc = r / bs := by
      have e : n = r + bs * (fc * q) := by rw [← hdm]; ring
      rw [e, Nat.add_mul_div_left _ _ hb, Nat.add_mul_mod_self_left]
      exact Nat.mod_eq_of_lt (Nat.div_lt_of_lt_mul (by rw [Nat.mul_comm]; exact hr))
    have hlen : (List.filter (fun f => decide (f / bs % fc = i)) [n]).length =
        if i * bs ≤ r ∧ r < i * bs + bs then 1 else 0 := by
      rw [List.filter_cons, List.filter_nil, hmod]
      have : (r / bs = i) ↔ (i * bs ≤ r ∧ r < i * bs + bs) := by
        rw [Nat.div_eq_iff hb]; omega
      by_cases h : r / bs = i
      · rw [if_pos (this.1 h)]; simp [h]
      · rw [if_neg (fun hc => h (this.2 hc))]; simp [h]
    rw [hlen]
    by_cases hlast : r + 1 = fc * bs
    · have e : n + 1 = fc * bs * (q + 1) := by rw [← hdm, Nat.mul_add]; omega
      rw [e, Nat.mul_div_cancel_left _ hP, Nat.mul_mod_right, Nat.add_mul]
      split <;> omega
    · have e : n + 1 = (r + 1) + fc * bs * q := by omega
      rw [e, Nat.add_mul_div_left _ _ hP, Nat.add_mul_mod_self_left, Nat.div_eq_of_lt (by omega),
        Nat.mod_eq_of_lt (by omega), Nat.zero_add]
      split <;> omega

theorem rangeDown_get (start step i : Nat) (hs : 0 < step) :
    (rangeDown start step)[i]? = if i * step < start then some (start - i * step) else none := by
  induction i generalizing start with
  | zero =>
    rw [rangeDown]
    split
    · rename_i h
      rw [if_neg (by omega)]; rfl
    · rename_i h; rw [if_pos (by omega)]; simp
  | succ i ih =>
    rw [rangeDown]
    split
    · rename_i h
      rw [if_neg (by omega)]; rfl
    · rw [List.getElem?_cons_succ, ih, Nat.add_mul, Nat.one_mul]
      by_cases h : i * step + step < start
      · rw [if_pos (by omega), if_pos h]; congr 1; omega
      · rw [if_neg (by omega), if_neg h]

/-- What `files_shape` gives to file `i`: its share and, by the division, `remainder / fileCount`. -/
theorem filesShape_get (frames bs fc i : Nat) (hb : 0 < bs) (hi : i < fc) :
    (filesShape frames bs fc)[i]? = some ((share frames bs fc i + frames % (fc * bs) / fc : Nat) : Int) := by
  have hf : 0 < fc := by omega
  have hP : 0 < fc * bs := Nat.mul_pos hf hb
  unfold filesShape
  dsimp only
  rw [List.getElem?_map, List.getElem?_range hi, Option.map_some]
  congr 1
  have hrem : ((List.map (fun remains => if remains > bs then bs else remains) (rangeDown (frames % (fc * bs)) bs) ++
      List.replicate (fc - (List.map (fun remains => if remains > bs then bs else remains)
        (rangeDown (frames % (fc * bs)) bs)).length) 0)[i]?).getD 0 = min bs (frames % (fc * bs) - i * bs) := by
    rw [List.getElem?_append]
    split
    · rename_i h
      rw [List.getElem?_map, rangeDown_get _ _ _ hb]
      split
      · simp only [Option.map_some, Option.getD_some]; split <;> omega
      · rename_i h2; simp only [Option.map_none, Option.getD_none]; omega
    · rename_i h
      have hnone : (List.map (fun remains => if remains > bs then bs else remains)
          (rangeDown (frames % (fc * bs)) bs))[i]? = none := List.getElem?_eq_none (by omega)
      rw [List.getElem?_map, rangeDown_get _ _ _ hb] at hnone
      have hge : ¬ i * bs < frames % (fc * bs) := by
        intro hc; rw [if_pos hc] at hnone; cases hnone
      have : min bs (frames % (fc * bs) - i * bs) = 0 := by omega
      rw [this, List.getElem?_replicate]
      split <;> rfl
  rw [hrem, share_closed bs fc i hb hi]
  have hdm := Nat.div_add_mod frames (fc * bs)
  generalize hq : frames / (fc * bs) = q at *
  generalize hrr : frames % (fc * bs) = r at *
  have hx : ((frames : ℚ) / ((fc * bs : Nat) : ℚ)) * bs = (q * bs : Nat) + (r : ℚ) / fc := by
    rw [← hdm]
    push_cast
    have h1 : (fc : ℚ) ≠ 0 := by exact_mod_cast hf.ne'
    have h2 : (bs : ℚ) ≠ 0 := by exact_mod_cast hb.ne'
    field_simp
  rw [hx]
  have e : ((q * bs : Nat) : ℚ) + (r : ℚ) / fc + ((min bs (r - i * bs) : Nat) : ℚ) =
      (r : ℚ) / fc + ((q * bs + min bs (r - i * bs) : Nat) : ℚ) := by push_cast; ring
  rw [e, Int.floor_add_natCast]
  have : ⌊(r : ℚ) / (fc : ℚ)⌋ = ((r / fc : Nat) : Int) := by
    rw [Rat.floor_natCast_div_natCast]; rfl
  rw [this]
  push_cast
  ring

/-- The shares add up to the number of frames (a fact about `share` alone). -/
theorem share_sum (frames bs fc : Nat) (hf : 0 < fc) :
    ((List.range fc).map (share frames bs fc)).sum = frames := by
  induction frames with
  | zero =>
    have : (List.range fc).map (share 0 bs fc) = List.replicate fc 0 := by
      rw [List.eq_replicate_iff]; simp [share]
    rw [this]; simp
  | succ n ih =>
    have hstep : ∀ i, share (n + 1) bs fc i = share n bs fc i + (if n / bs % fc = i then 1 else 0) := by
      intro i
      unfold share
      rw [List.range_succ, List.filter_append, List.length_append, List.filter_cons, List.filter_nil]
      by_cases h : n / bs % fc = i <;> simp [h]
    have hone : ∀ m k, k < m → ((List.range m).map (fun i => if k = i then 1 else 0)).sum = 1 := by
      intro m
      induction m with
      | zero => intro k hk; omega
      | succ m ihm =>
        intro k hk
        rw [List.range_succ, List.map_append, List.sum_append]
        by_cases h : k = m
        · subst h
          have hz : (List.range k).map (fun i => if k = i then 1 else 0) = List.replicate k 0 := by
            rw [List.eq_replicate_iff]
            refine ⟨by simp, ?_⟩
            intro b hb
            obtain ⟨i, hi, rfl⟩ := List.mem_map.1 hb
            rw [List.mem_range] at hi
            rw [if_neg (by omega)]
          rw [hz]; simp
        · rw [ihm k (by omega)]; simp [h]
    have hadd : ∀ (l : List Nat) (f g : Nat → Nat), (l.map (fun i => f i + g i)).sum = (l.map f).sum + (l.map g).sum := by
      intro l f g
      induction l with
      | nil => rfl
      | cons a l ihl => simp only [List.map_cons, List.sum_cons, ihl]; omega
    have : (List.range fc).map (share (n + 1) bs fc) =
        (List.range fc).map (fun i => share n bs fc i + (if n / bs % fc = i then 1 else 0)) :=
      List.map_congr_left (fun i _ => hstep i)
    rw [this, hadd, ih, hone fc _ (Nat.mod_lt _ hf)]

theorem filesShape_eq (frames bs fc : Nat) (hb : 0 < bs) :
    filesShape frames bs fc =
      (List.range fc).map (fun i => ((share frames bs fc i + frames % (fc * bs) / fc : Nat) : Int)) := by
  apply List.ext_getElem?
  intro i
  by_cases hi : i < fc
  · rw [filesShape_get frames bs fc i hb hi, List.getElem?_map, List.getElem?_range hi]; rfl
  · rw [List.getElem?_eq_none (by simp [filesShape]; omega), List.getElem?_eq_none (by simp; omega)]

/-- **C49** part: if the frames left over after all full rounds are fewer than the files, then the shape
of each file is the round-robin share. That is so if the block size is 1, and if there are only full
rounds. What is missing: other numbers of frames, see `sum_of_shapes` and `shapes_too_large`. -/
theorem shapes_round_robin_partial (frames bs fc : Nat) (hb : 0 < bs) (hr : frames % (fc * bs) < fc) :
    filesShape frames bs fc = (List.range fc).map (fun i => (share frames bs fc i : Int)) := by
  rw [filesShape_eq frames bs fc hb]
  apply List.map_congr_left
  intro i _
  rw [Nat.div_eq_of_lt hr, Nat.add_zero]

/-- block size 1: the hypothesis of `shapes_round_robin_partial` always holds -/
theorem block_size_one (frames fc : Nat) (hf : 0 < fc) : frames % (fc * 1) < fc := by
  rw [Nat.mul_one]; exact Nat.mod_lt _ hf

/-- **C49**: what the shapes add up to, exactly: there are `fileCount * (remainder / fileCount)` too many. -/
theorem sum_of_shapes (frames bs fc : Nat) (hb : 0 < bs) (hf : 0 < fc) :
    (filesShape frames bs fc).sum = frames + fc * (frames % (fc * bs) / fc) := by
  rw [filesShape_eq frames bs fc hb]
  have hcast : ∀ (l : List Nat) (k : Nat) (f : Nat → Nat),
      (l.map (fun i => ((f i + k : Nat) : Int))).sum = (((l.map f).sum + l.length * k : Nat) : Int) := by
    intro l k f
    induction l with
    | nil => simp
    | cons a l ih =>
      simp only [List.map_cons, List.sum_cons, ih, List.length_cons, Nat.add_mul]
      push_cast; ring
  rw [hcast, share_sum frames bs fc hf, List.length_range]
  push_cast; ring

/-- **C49**: they add up to the number of frames if and only if the left over frames are fewer than the
files. -/
theorem shapes_add_up_iff (frames bs fc : Nat) (hb : 0 < bs) (hf : 0 < fc) :
    (filesShape frames bs fc).sum = frames ↔ frames % (fc * bs) < fc := by
  rw [sum_of_shapes frames bs fc hb hf]
  constructor
  · intro h
    by_contra hc
    have h1 : 1 ≤ frames % (fc * bs) / fc := (Nat.one_le_div_iff hf).2 (by omega)
    have : (0 : Int) < fc * ((frames % (fc * bs) / fc : Nat) : Int) := by
      have : 0 < fc * (frames % (fc * bs) / fc) := Nat.mul_pos hf h1
      exact_mod_cast this
    push_cast at this h
    linarith
  · intro h
    rw [show ((frames : Int) % ((fc : Int) * bs) / fc) = ((frames % (fc * bs) / fc : Nat) : Int) by push_cast; rfl,
      Nat.div_eq_of_lt h]
    simp

/-- The negation of the full property: 30 frames in blocks of 10 to two files are expected as 25 and 15,
not 20 and 10. -/
theorem shapes_too_large : filesShape 30 10 2 = [25, 15] ∧ (List.range 2).map (share 30 10 2) = [20, 10] := by
  refine ⟨?_, by decide +kernel⟩
  rw [filesShape_eq 30 10 2 (by decide)]
  decide +kernel

/-- The number of raw datasets told of is one more than that of the links made, which are the numbers
1 to the number of files. -/
theorem one_raw_dataset_too_many (n : Nat) : (rawDatasets n).length = (rawLinks n).length + 1 ∧
    rawDatasets n = rawLinks n ++ [n + 1] := by
  unfold rawDatasets rawLinks
  refine ⟨by simp, ?_⟩
  rw [List.range_succ]; simp

example : filesShape 31 10 3 = [11, 10, 10] ∧ filesShape 7 1 3 = [3, 2, 2] := by
  rw [filesShape_eq 31 10 3 (by decide), filesShape_eq 7 1 3 (by decide)]; decide +kernel

end Verif.Props.Odin
