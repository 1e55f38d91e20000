import Verif.Model.PyDict
/-!
The icon of a LUT block of a PandA: malcolm/modules/pandablocks/parts/pandaluticonpart.py and `SVGIcon` (builtin/util.py 204-252)
as far as it is used there, with malcolm/modules/pandablocks/icons/LUT.svg.

An icon is the list of its elements that have an id. A field value is the list of its characters, and `lower` changes ASCII only.
-/
namespace Verif.LutIcon
open Verif

inductive Inp
  | A | B | C | D | E
  deriving DecidableEq, Repr

/-- The ids of LUT.svg: the gates, the line of an input, the circle on it and the arrow on it, and the line of the output -/
inductive El
  | and | or | not | lut
  | line (i : Inp) | circle (i : Inp) | edge (i : Inp)
  | out
  deriving DecidableEq, Repr

/-- An element of an icon and whether it has a marker at its start and one at its end -/
structure Drawn where
  el : El
  start : Bool := false
  stop : Bool := false
  deriving DecidableEq, Repr

/-- icons/LUT.svg 10-33: what has an id -/
def svg : List Drawn :=
  [⟨.line .A, false, false⟩, ⟨.line .B, false, false⟩, ⟨.line .C, false, false⟩, ⟨.line .D, false, false⟩, ⟨.line .E, false, false⟩,
   ⟨.out, false, false⟩, ⟨.lut, false, false⟩, ⟨.not, false, false⟩, ⟨.or, false, false⟩, ⟨.and, false, false⟩,
   ⟨.edge .E, true, true⟩, ⟨.edge .D, true, true⟩, ⟨.edge .C, true, true⟩, ⟨.edge .B, true, true⟩, ⟨.edge .A, true, true⟩,
   ⟨.circle .A, false, false⟩, ⟨.circle .B, false, false⟩, ⟨.circle .C, false, false⟩, ⟨.circle .D, false, false⟩,
   ⟨.circle .E, false, false⟩]

/-- pandaluticonpart.py 8-10 `LUT_CONSTANTS` -/
def const : Inp → Nat
  | .A => 0xFFFF0000 | .B => 0xFF00FF00 | .C => 0xF0F0F0F0 | .D => 0xCCCCCCCC | .E => 0xAAAAAAAA

/-- `~x & (2**32 - 1)` for an `x` of 32 bits -/
def inv (x : Nat) : Nat := 0xFFFFFFFF - x

/-- pandaluticonpart.py 23-36: `enumerate("EDCBA")` from the i-th. The character of `format(permutation, "05b")` at i is the bit
4 - i of the permutation, as that has at most five bits. -/
def visibility (nargs permutation : Nat) : Nat → List Inp → List El × List Nat → List El × List Nat
  | _, [], acc => acc
  | i, inp :: inps, (invis, args) =>
    visibility nargs permutation (i + 1) inps
      (if 5 - i > nargs then (invis ++ [.line inp, .circle inp, .edge inp], args)
       else if permutation.testBit (4 - i) then (invis, args ++ [inv (const inp)])
       else (invis ++ [.circle inp], args ++ [const inp]))

/-- pandaluticonpart.py 13-42 `_calc_visibility`; `invis` is what is left of the four gates at 18-19, and there are at least two
arguments -/
def calcVisibility (invis : List El) (op : Nat → Nat → Nat) (nargs permutation : Nat) : Nat × List El :=
  let r := visibility nargs permutation 0 [.E, .D, .C, .B, .A] (invis, [])
  (match r.2 with
    | a :: b :: rest => rest.foldl op (op a b)
    | _ => 0, r.1)

/-- pandaluticonpart.py 49-55 -/
def general (invis : List El) (op : Nat → Nat → Nat) : List (Nat × List El) :=
  [2, 3, 4, 5].flatMap (fun nargs => (List.range (2 ^ nargs)).map (fun permutation => calcVisibility invis op nargs permutation))

def inputs : List Inp := [.A, .B, .C, .D, .E]

/-- pandaluticonpart.py 56-64 -/
def notInvis (ninp : Inp) : List El :=
  [.and, .or, .lut] ++ inputs.flatMap (fun inp => (if inp ≠ ninp then [.line inp, .edge inp] else []) ++ [.circle inp])

/-- pandaluticonpart.py 65-69, 75 `LUT_INVIS` -/
def lutInvis : List El := [.and, .or, .not] ++ inputs.map .circle

/-- pandaluticonpart.py 44-70 `_generate_lut_elements` -/
def lutElements : Dict Nat (List El) :=
  Dict.update []
    (general [.or, .lut, .not] (· &&& ·) ++ general [.and, .lut, .not] (· ||| ·) ++
     inputs.map (fun ninp => (inv (const ninp), notInvis ninp)) ++ [(0, lutInvis)])

/-- pandaluticonpart.py 78-79 `get_lut_icon_elements` -/
def invisible (fnum : Nat) : List El := (Dict.get? lutElements fnum).getD lutInvis

/-- builtin/util.py 221-224 `remove_elements`; none is the AttributeError if there is no such element -/
def removeElements : List El → List Drawn → Option (List Drawn)
  | [], icon => some icon
  | e :: es, icon => if icon.any (fun d => d.el = e) then removeElements es (icon.eraseP (fun d => d.el = e)) else none

/-- `word in text` -/
def contains (word : List Char) : List Char → Bool
  | [] => word.isEmpty
  | c :: cs => word.isPrefixOf (c :: cs) || contains word cs

/-- builtin/util.py 235-248 `update_edge_arrow`; none is the KeyError of a marker that is not there -/
def updateEdgeArrow (e : El) (edge : List Char) (icon : List Drawn) : Option (List Drawn) :=
  let edge := edge.map Char.toLower
  match icon.find? (fun d => d.el = e) with
  | none => some icon
  | some child =>
    if contains "level".toList edge then some (icon.eraseP (fun d => d.el = e))
    else if contains "rising".toList edge then
      if child.stop then some (icon.map (fun d => if d.el = e then { d with stop := false } else d)) else none
    else if contains "falling".toList edge then
      if child.start then some (icon.map (fun d => if d.el = e then { d with start := false } else d)) else none
    else some icon

/-- pandaluticonpart.py 85-93 `update_icon`, without the text; `types` are the values of the fields TYPEA to TYPEE, where there are
such fields -/
def updateIcon (fnum : Nat) (types : Inp → Option (List Char)) : Option (List Drawn) :=
  inputs.foldlM (fun icon inp => updateEdgeArrow (.edge inp) ((types inp).getD "level".toList) icon)
    =<< removeElements (invisible fnum) svg

end Verif.LutIcon
