import Verif.Model.PvaCall
import Verif.Spec.Pva
/-!
What calling a method over pvAccess should come to, and which channels there should be.
-/
namespace Verif.Spec.PvaCall
open Verif Verif.Pva Verif.PvaCall Verif.Spec.Pva

/-- A result that is a map -/
def isMap (v : Py) : Prop := ∃ t fs, v = .dict t fs

/-- A value packed `n` times into a map of one element -/
def packed : Nat → Py → Py
  | 0, v => v
  | n + 1, v => .dict none [("return", packed n v)]

/-- What is known of validating parameters: it gives a map that can be sent, and that stays as it is when it is validated at the
other end (C17) -/
def Lawful (m : Meth) : Prop :=
  ∀ p q, m.validate p = some q → (∃ fs, q = .dict none fs) ∧ sendable q ∧ m.validate (plain q) = some q

/-- The channel of a block, or of a field of it -/
def Named (ch mri : Text) (field : Option Text) : Prop :=
  (field = none ∧ ch = mri) ∨ ∃ f, field = some f ∧ '.' ∉ f ∧ ch = mri ++ '.' :: f

/-- The PVs there are -/
def Live (s : Srv) (mri : Text) (field : Option Text) (pv : Nat) : Prop :=
  ∃ fs, Dict.get? s.pvs mri = some fs ∧ Dict.get? fs field = some pv

end Verif.Spec.PvaCall
