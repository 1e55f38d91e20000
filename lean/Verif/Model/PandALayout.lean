import Verif.Model.PyDict
/-!
The layout of the blocks of a PandA, which Malcolm keeps on the PandA itself as lines of JSON in `*METADATA.LAYOUT`, so that it is
there after a restart and others can show or change it: malcolm/modules/pandablocks/controllers/pandamanagercontroller.py 239-286, 314-335,
with malcolm/modules/builtin/controllers/managercontroller.py 143-192 and malcolm/modules/builtin/parts/childpart.py 181-207.

Simplified: the blocks do not change (they come from the PandA at the start); what is wired to what only counts for whether a block that no layout
speaks of is shown at first (`guess`; cutting the wires of what is hidden is in Model.Layout); JSON is a list of tokens, and block names have no
comma in them.
-/
namespace Verif.PandALayout
open Verif

/-- pandamanagercontroller.py 74: a position is a pair of floats; `same` is their `==` -/
structure Ext (P : Type) where
  zero : P
  same : P → P → Bool

variable {P : Type}

/-! ### the text -/

/-- pandamanagercontroller.py 278, 334: what JSON text consists of here -/
inductive Tok (P : Type)
  | opening | closing | colon | comma | space
  | str (s : String)
  | num (x : P)
  deriving DecidableEq, Repr

/-- pandamanagercontroller.py 74: `_json_layout`, what is visible and where -/
abbrev Json (P : Type) := Dict String (P × P)

/-- pandamanagercontroller.py 334 `json.dumps` of one entry -/
def dumpEntry (k : String) (p : P × P) : List (Tok P) :=
  [.str k, .colon, .space, .opening, .str "x", .colon, .space, .num p.1, .comma, .space, .str "y", .colon, .space, .num p.2, .closing]

/-- pandamanagercontroller.py 334 `json.dumps`: the entries with `, ` between them -/
def dumpEntries : Json P → List (Tok P)
  | [] => []
  | [(k, p)] => dumpEntry k p
  | (k, p) :: rest => dumpEntry k p ++ [.comma, .space] ++ dumpEntries rest

/-- pandamanagercontroller.py 334 `json.dumps` -/
def dump (j : Json P) : List (Tok P) := [.opening] ++ dumpEntries j ++ [.closing]

/-- pandamanagercontroller.py 334 `(?!"y")`: whether the text starts with `"y"` -/
def startsY : List (Tok P) → Bool
  | .str s :: _ => s == "y"
  | _ => false

/-- pandamanagercontroller.py 334 `re.split(r'(?<=,) (?!"y")', ...)`: at a space that comes after a comma and not before `"y"`. `after` is whether a comma
was before, `line` what the line has so far. -/
def splitFrom (after : Bool) (line : List (Tok P)) : List (Tok P) → List (List (Tok P))
  | [] => [line]
  | .space :: rest => if after && !startsY rest then line :: splitFrom false [] rest else splitFrom false (line ++ [.space]) rest
  | .comma :: rest => splitFrom true (line ++ [.comma]) rest
  | t :: rest => splitFrom false (line ++ [t]) rest

/-- pandamanagercontroller.py 333-335: the lines that are written -/
def lines (j : Json P) : List (List (Tok P)) := splitFrom false [] (dump j)

/-- pandamanagercontroller.py 278 `json.loads`: whether a token counts -/
def solid : Tok P → Bool
  | .space => false
  | _ => true

/-- pandamanagercontroller.py 278 `json.loads`: the entries, without the spaces, and what is left. Simplification: an entry must have `x` and `y`
in this order and nothing else; otherwise the code may raise later (322-323). -/
def loadEntries : List (Tok P) → Json P → Option (Json P)
  | .str k :: .colon :: .opening :: .str "x" :: .colon :: .num x :: .comma :: .str "y" :: .colon :: .num y :: .closing :: .comma :: rest, j =>
    loadEntries rest (Dict.set j k (x, y))
  | [.str k, .colon, .opening, .str "x", .colon, .num x, .comma, .str "y", .colon, .num y, .closing, .closing], j =>
    some (Dict.set j k (x, y))
  | _, _ => none

/-- pandamanagercontroller.py 278 `json.loads("".join(v))`; none is an exception -/
def loads (v : List (List (Tok P))) : Option (Json P) :=
  match v.flatten.filter solid with
  | [.opening, .closing] => some []
  | .opening :: rest => loadEntries rest []
  | _ => none

/-! ### the layout -/

/-- childpart.py 107-122: where the part of a block is, and whether it is visible, None at first -/
structure Place (P : Type) where
  x : P
  y : P
  visible : Option Bool
  deriving DecidableEq, Repr

/-- a row of a LayoutTable, builtin/util.py 87-100, without the mri -/
structure Row (P : Type) where
  name : String
  x : P
  y : P
  visible : Bool
  deriving DecidableEq, Repr

/-- pandamanagercontroller.py 39-88 and the PandA itself -/
structure World (P : Type) where
  /-- the blocks, and after the first layout the layout attribute -/
  parts : Dict String (Place P)
  /-- the layout attribute has been set -/
  laidOut : Bool
  json : Json P
  /-- on the PandA: the lines of `*METADATA.LAYOUT`, and whether there is something new in them for Malcolm -/
  table : List (List (Tok P))
  unread : Bool
  /-- the poll loop or the start has failed -/
  fault : Bool
  /-- how often Malcolm has written the table -/
  writes : Nat

/-- managercontroller.py 177: the names in the layout attribute -/
def World.names (w : World P) : List String := if w.laidOut then Dict.keys w.parts else []

/-- pandamanagercontroller.py 315-324: the rows if no layout is given. Simplification: the order, which is that of a set, does not count. -/
def fromJson (e : Ext P) (names : List String) (j : Json P) : List (Row P) :=
  (names ++ (Dict.keys j).filter (fun k => decide (k ∉ names))).map (fun n =>
    match Dict.get? j n with
    | some p => { name := n, x := p.1, y := p.2, visible := true }
    | none => { name := n, x := e.zero, y := e.zero, visible := false })

/-- childpart.py 185-197: one row, for one part -/
def onRow (n : String) (p : Place P) (r : Row P) : Place P :=
  if r.name = n then { x := r.x, y := r.y, visible := some r.visible } else p

/-- childpart.py 181-207 `on_layout` -/
def onLayout (guess : String → Bool) (rows : List (Row P)) (n : String) (p : Place P) : Place P :=
  let q := rows.foldl (onRow n) p
  { q with visible := some (q.visible.getD (guess n)) }

/-- pandamanagercontroller.py 315-325: the parts are given the layout, and the layout attribute is set (managercontroller.py 159-179) -/
def World.place (e : Ext P) (guess : String → Bool) (w : World P) (rows : List (Row P)) : World P :=
  let rows := if rows.isEmpty then fromJson e w.names w.json else rows
  { w with parts := w.parts.map (fun c => (c.1, onLayout guess rows c.1 c.2)), laidOut := true }

/-- pandamanagercontroller.py 327-331 -/
def record (parts : Dict String (Place P)) (j : Json P) : Json P :=
  parts.foldl (fun j c => if c.2.visible = some true then Dict.set j c.1 (c.2.x, c.2.y) else Dict.erase j c.1) j

/-- pandamanagercontroller.py 332: whether `b` has what `a` has -/
def within (e : Ext P) (a b : Json P) : Bool :=
  (Dict.keys a).all (fun k => match Dict.get? a k, Dict.get? b k with
    | some p, some q => e.same p.1 q.1 && e.same p.2 q.2
    | _, _ => false)

/-- pandamanagercontroller.py 332: `==` of dictionaries -/
def sameJson (e : Ext P) (a b : Json P) : Bool := within e a b && within e b a

/-- pandamanagercontroller.py 326-335: written if there is a change; the PandA then reports it as it does any other -/
def World.store (e : Ext P) (w : World P) : World P :=
  let j := record w.parts w.json
  if sameJson e j w.json then { w with json := j }
  else { w with json := j, table := lines j, unread := true, writes := w.writes + 1 }

/-- pandamanagercontroller.py 314-335 `set_layout` -/
def World.setLayout (e : Ext P) (guess : String → Bool) (w : World P) (rows : List (Row P)) : World P :=
  (w.place e guess rows).store e

/-- pandamanagercontroller.py 275-281: `v` is what the PandA has reported for the table; an exception ends in Fault (148-150) -/
def World.heard (e : Ext P) (guess : String → Bool) (w : World P) (v : List (List (Tok P))) : World P :=
  if v.isEmpty then w
  else
    match loads v with
    | none => { w with fault := true }
    | some j =>
      let w := { w with json := j }
      if w.names.isEmpty then w else w.setLayout e guess []

/-- pandamanagercontroller.py 140 and 288-312: a poll, of which only the layout counts here -/
def World.poll (e : Ext P) (guess : String → Bool) (w : World P) : World P :=
  if w.unread then ({ w with unread := false } : World P).heard e guess w.table else w

/-- pandamanagercontroller.py 39-88 `__init__`: Malcolm has been started again, before it has heard anything; the first poll reports everything -/
def World.fresh (e : Ext P) (w : World P) : World P :=
  { parts := w.parts.map (fun c => (c.1, { x := e.zero, y := e.zero, visible := none })), laidOut := false, json := [],
    table := w.table, unread := true, fault := false, writes := w.writes }

/-- pandamanagercontroller.py 90-94 `do_init`, 208-209 and managercontroller.py 150-157: the first poll, and then a blank layout -/
def World.restart (e : Ext P) (guess : String → Bool) (w : World P) : World P :=
  let w := (w.fresh e).poll e guess
  if w.fault then w else w.setLayout e guess []

/-- pandamanagercontroller.py 90-94, 116-150, 314: what happens -/
inductive Ev (P : Type)
  /-- a client puts a layout -/
  | put (rows : List (Row P))
  | poll
  /-- somebody else writes the table on the PandA -/
  | foreign (table : List (List (Tok P)))
  | restart

/-- pandamanagercontroller.py 239-286, 314-335: one event; in Fault neither a put nor a poll does anything -/
def World.step (e : Ext P) (guess : String → Bool) (w : World P) : Ev P → World P
  | .put rows => if w.fault then w else w.setLayout e guess rows
  | .poll => if w.fault then w else w.poll e guess
  | .foreign t => { w with table := t, unread := true }
  | .restart => w.restart e guess

/-- any history -/
def World.run (e : Ext P) (guess : String → Bool) (w : World P) (es : List (Ev P)) : World P := es.foldl (World.step e guess) w

end Verif.PandALayout
