import Verif.Model.Launch
/-!
What a user of imalcolm expects: what the arguments mean, when all functions have returned, and what a process started from
arguments has.
-/
namespace Verif.Spec.Launch
open Verif.Launch

/-- The file `n.ext`, or `pre.n.ext`, in some directory or in none -/
def FileOf (y n : Text) : Prop :=
  ∃ dir pre ext : Text, y = dir ++ (pre ++ (n ++ '.' :: ext)) ∧ (dir = [] ∨ ∃ d, dir = d ++ ['/']) ∧
    (pre = [] ∨ ∃ p, pre = p ++ ['.']) ∧ '.' ∉ n ∧ '.' ∉ ext ∧ '/' ∉ pre ∧ '/' ∉ n ∧ '/' ∉ ext

/-- What a client argument means -/
def ClientOf (arg : Text) (k : Comms) : Prop :=
  (∃ h p : Text, arg = "ws://".toList ++ (h ++ ':' :: p) ∧ ':' ∉ h ∧ p ≠ [] ∧ (∀ c ∈ p, c.isDigit) ∧ k = .ws h p) ∨
  (arg = "pva".toList ∧ k = .pva)

/-- The arguments make a process with this name and these blocks: those of the YAML file in order, then the client -/
def Makes (a : Args) (w : World) (n : Text) (mris : List Text) : Prop :=
  ∃ ys cs, mris = ys ++ cs ∧ mris.Nodup ∧
    ((a.yaml = none ∧ n = "Process".toList ∧ ys = []) ∨
      ∃ y, a.yaml = some y ∧ FileOf y n ∧ w.load = some (ys, false)) ∧
    ((a.client = none ∧ cs = []) ∨ ∃ c k, a.client = some c ∧ ClientOf c k ∧ cs = [k.mri])

/-- All have ended at this time -/
def AllBy (t : Nat) (ends : List (Option Nat)) : Prop := ∀ e ∈ ends, ∃ s, e = some s ∧ s ≤ t

/-- All take this long at most -/
def Within (d : Nat) (durations : List (Option Nat)) : Prop := ∀ e ∈ durations, ∃ s, e = some s ∧ s ≤ d

/-- One never returns -/
def OneNever (ends : List (Option Nat)) : Prop := none ∈ ends

/-- After an interrupt comes a call of abort of the same block -/
def AbortedAfter (mri : Text) (ends : List CallEnd) (calls : List (Text × Text)) : Prop :=
  ∀ i, ends[i]? = some .interrupted → (∀ j < i, ends[j]? = some .interrupted) → calls[i + 1]? = some (mri, "abort".toList)

end Verif.Spec.Launch
