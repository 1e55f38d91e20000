import Verif.Model.LutIcon
/-!
What a LUT computes, and what an icon of one says that it computes.
-/
namespace Verif.Spec.LutIcon
open Verif.LutIcon

/-- The values at the inputs of a LUT -/
abbrev Levels := Inp → Bool

/-- A LUT looks up the bit of its function that its inputs, as a number with A the most significant bit, are the index of -/
def index (v : Levels) : Nat := 16 * (v .A).toNat + 8 * (v .B).toNat + 4 * (v .C).toNat + 2 * (v .D).toNat + (v .E).toNat
def output (fnum : Nat) (v : Levels) : Bool := fnum.testBit (index v)

def seen (icon : List Drawn) (e : El) : Bool := icon.any (fun d => d.el = e)

/-- What arrives at the gate of an icon from an input -/
def arrives (icon : List Drawn) (v : Levels) (i : Inp) : Bool := if seen icon (.circle i) then !v i else v i

/-- The inputs that an icon has -/
def drawn (icon : List Drawn) : List Inp := [Inp.A, .B, .C, .D, .E].filter (fun i => seen icon (.line i))

/-- What an icon says to be the output: the box of a LUT says nothing -/
def says (icon : List Drawn) (v : Levels) : Option Bool :=
  if seen icon .and then some ((drawn icon).all (arrives icon v))
  else if seen icon .or then some ((drawn icon).any (arrives icon v))
  else if seen icon .not then some (!(drawn icon).any (arrives icon v))
  else none

/-- The first inputs of a LUT -/
def first (n : Nat) : List Inp := [Inp.A, .B, .C, .D, .E].take n

/-- The gates that there are icons for: AND and OR of the first inputs, at least two, any of them negated, and NOT of one -/
inductive Gate
  | and (n : Nat) (negated : Inp → Bool)
  | or (n : Nat) (negated : Inp → Bool)
  | not (i : Inp)

def Gate.value (v : Levels) : Gate → Bool
  | .and n negated => (first n).all (fun i => v i != negated i)
  | .or n negated => (first n).any (fun i => v i != negated i)
  | .not i => !v i

def Gate.Ok : Gate → Prop
  | .and n _ | .or n _ => 2 ≤ n ∧ n ≤ 5
  | .not _ => True

/-- An icon of a gate: that gate and no other, the lines of its inputs and of no other, and circles on those that are negated -/
def Gate.Shown (icon : List Drawn) : Gate → Prop
  | .and n negated => seen icon .and ∧ ¬ seen icon .or ∧ ¬ seen icon .not ∧ ¬ seen icon .lut ∧ drawn icon = first n ∧
      ∀ i, seen icon (.circle i) ↔ i ∈ first n ∧ negated i
  | .or n negated => seen icon .or ∧ ¬ seen icon .and ∧ ¬ seen icon .not ∧ ¬ seen icon .lut ∧ drawn icon = first n ∧
      ∀ i, seen icon (.circle i) ↔ i ∈ first n ∧ negated i
  | .not i => seen icon .not ∧ ¬ seen icon .and ∧ ¬ seen icon .or ∧ ¬ seen icon .lut ∧ drawn icon = [i] ∧ ∀ j, ¬ seen icon (.circle j)

/-- What a type of an input says about the edges that the LUT looks at: none, the rising or the falling ones, or both -/
inductive Edges
  | level | rising | falling | both
  deriving DecidableEq, Repr

/-- `word` is somewhere in `text` -/
def Within (word text : List Char) : Prop := ∃ a b, text = a ++ word ++ b

/-- The edges that the text of a type speaks of: case does not matter, and a type that is not there is a level -/
def Speaks (text : Option (List Char)) : Edges → Prop
  | .level => text = none ∨ ∃ t, text = some t ∧ Within "level".toList (t.map Char.toLower)
  | .rising => ∃ t, text = some t ∧ ¬ Within "level".toList (t.map Char.toLower) ∧ Within "rising".toList (t.map Char.toLower)
  | .falling => ∃ t, text = some t ∧ ¬ Within "level".toList (t.map Char.toLower) ∧ ¬ Within "rising".toList (t.map Char.toLower) ∧
      Within "falling".toList (t.map Char.toLower)
  | .both => ∃ t, text = some t ∧ ¬ Within "level".toList (t.map Char.toLower) ∧ ¬ Within "rising".toList (t.map Char.toLower) ∧
      ¬ Within "falling".toList (t.map Char.toLower)

end Verif.Spec.LutIcon
