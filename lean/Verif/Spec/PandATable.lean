import Verif.Model.PandATable
/-!
What C38 means: which layouts and values it is about, and where each bit of a value belongs.
-/
namespace Verif.Spec.PandATable
open Verif.PandATable

/-- A field of at least one bit that lies in one 32-bit word -/
def InWord (f : Field) : Prop := f.lo ≤ f.hi ∧ f.hi / 32 = f.lo / 32

/-- Two fields that share no bit -/
def Apart (f g : Field) : Prop := f.hi < g.lo ∨ g.hi < f.lo

/-- A layout: fields each in one word, no two of which share a bit. Labels of an enum are distinct and fit -/
structure Layout (fs : List Field) : Prop where
  inWord : ∀ f ∈ fs, InWord f
  apart : fs.Pairwise Apart
  labels : ∀ f ∈ fs, f.labels.length ≤ 2 ^ (f.hi + 1 - f.lo)

/-- The number that the bits of the field hold for this cell, if the cell is a value of the field -/
inductive Holds (f : Field) : Cell → Nat → Prop
  | choice (i : Nat) (l : String) (h : f.labels[i]? = some l) (hfirst : ∀ j, j < i → f.labels[j]? ≠ some l) :
      Holds f (.choice l) i
  | bool (b : Bool) (h : f.labels = []) (h1 : f.hi = f.lo) : Holds f (.bool b) (if b then 1 else 0)
  | pos (v : Nat) (h : f.labels = []) (h1 : f.lo < f.hi) (hv : v < 2 ^ (f.hi + 1 - f.lo))
      (hs : f.signed = true → v < 2 ^ (f.hi - f.lo)) : Holds f (.num v) v
  | neg (v : Nat) (h : f.labels = []) (h1 : f.lo < f.hi) (hs : f.signed = true) (h0 : 0 < v)
      (hv : v ≤ 2 ^ (f.hi - f.lo)) : Holds f (.num (-v)) (2 ^ (f.hi + 1 - f.lo) - v)

/-- The number of bits of a field -/
def width (f : Field) : Nat := f.hi + 1 - f.lo

/-- The column is not shifted out of the numpy type it is held in: it is an enum, a single bit, wider than 16 bits,
or far enough down in its word -/
def FitsType (f : Field) : Prop :=
  f.labels ≠ [] ∨ f.hi = f.lo ∨ 16 < width f ∨
  (f.signed = false ∧ f.lo % 32 + width f ≤ if width f ≤ 8 then 8 else 16) ∨
  (f.signed = true ∧ (width f = 16 ∨ (width f = 8 ∧ f.lo % 32 < 8) ∨
    (f.lo % 32 + width f < if width f ≤ 8 then 8 else 16)))

/-- A negative value is only read back from a field that is exactly as wide as an integer type -/
def SignKept (f : Field) : Cell → Prop
  | .num v => 0 ≤ v ∨ width f = 8 ∨ width f = 16 ∨ width f = 32
  | _ => True

/-- The highest bit of the layout is not the first of a word -/
def TopOk (fs : List Field) : Prop := ∃ g ∈ fs, (∀ f ∈ fs, f.hi ≤ g.hi) ∧ g.hi % 32 ≠ 0

/-- Bit `p` of a row of 32-bit words -/
def rowBit (row : List Nat) (p : Nat) : Bool := ((row[p / 32]?).getD 0).testBit (p % 32)

/-- The cells of a row are values of the fields, and `vals` the numbers they hold -/
def RowHolds : List Field → List Cell → List Nat → Prop
  | [], [], [] => True
  | f :: fs, c :: cs, v :: vs => Holds f c v ∧ RowHolds fs cs vs
  | _, _, _ => False

end Verif.Spec.PandATable
