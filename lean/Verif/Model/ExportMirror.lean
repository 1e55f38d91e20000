import Verif.Model.PyDict
/-!
An exported field: malcolm/modules/builtin/controllers/managercontroller.py 342-392 (`_make_export_field`), how the field of
the child changes and what its subscribers are told (malcolm/core/models.py 131-141, 158-185, 289-407, 1287-1320), and how the exported
one is put and posted to (malcolm/core/controller.py 70-89, 183-280, modules/builtin/controllers/statefulcontroller.py 147-148, 170-189).

Simplifications: values, columns, alarms and times are numbers; of the meta of a field the tags, label and writeable flag
are kept, all else it says (description, choices, limits, elements) is `kind`; an alarm is the same object just if it is
equal; a value that the child holds passes validation in the exported field and is the same afterwards;
a meta is told as it was when it was set, where the code has it as it is when the squash ends, and so with what is told next.
-/
namespace Verif.ExportMirror

/-- The value of an attribute: core/models.py 346, 388: a table or something else -/
inductive Val
  | scalar (n : Int)
  | table (columns : Dict String Int)
  deriving DecidableEq, Repr

/-- core/models.py 158-185 `Meta` -/
structure Meta where
  kind : Int
  tags : List String
  writeable : Bool
  label : String
  deriving DecidableEq, Repr

/-- core/models.py 289-310 `AttributeModel` -/
structure Attr where
  value : Val
  alarm : Int
  time : Int
  info : Meta
  deriving DecidableEq, Repr

/-- A change as told to a subscriber to the field, with the path from the field: core/notifier.py 84-101 -/
inductive Change
  | field (a : Attr)
  | gone
  | value (v : Val)
  | column (name : String) (c : Int)
  | alarm (n : Int)
  | time (n : Int)
  | info (m : Meta)
  | kind (n : Int)
  | tags (l : List String)
  | writeable (b : Bool)
  | label (s : String)
  deriving DecidableEq, Repr

/-! ### the child -/

/-- What the child can do to the field: the setters of core/models.py 173-185, 312-373 and 388-407, and of a block 1287-1320 -/
inductive Op
  | setValue (v : Val) (alarm time : Int)
  | setColumns (new : Dict String Int) (alarm time : Int)
  | setAlarm (n : Int)
  | setTime (n : Int)
  | setMeta (m : Meta)
  | setKind (n : Int)
  | setTags (l : List String)
  | setWriteable (b : Bool)
  | setLabel (s : String)
  | remove
  | put (a : Attr)
  deriving DecidableEq, Repr

/-- core/models.py 352-354, 403-405 -/
def alarmChange (old new : Int) : List Change := if new = old then [] else [.alarm new]

/-- core/models.py 124-128, 346-373, 388-407, 1287-1320: the field, and what is told to those who have subscribed to it.
A table of which only some columns are new gives a change for each column. -/
def childStep (f : Option Attr) : Op → Option Attr × List Change
  | .put a => (some a, [.field a])
  | .remove => match f with
    | some _ => (none, [.gone])
    | none => (none, [])
  | .setValue v al t => match f with
    | none => (none, [])
    | some a => (some { a with value := v, alarm := al, time := t }, .value v :: alarmChange a.alarm al ++ [.time t])
  | .setColumns new al t => match f with
    | none => (none, [])
    | some a =>
      match a.value with
      | .scalar _ => (some a, [])
      | .table cols =>
        let v := new.foldl (fun d x => d.set x.1 x.2) cols
        (some { a with value := .table v, alarm := al, time := t },
          (if new.keys.length = v.keys.length then [Change.value (.table v)] else new.map (fun x => .column x.1 x.2)) ++
            alarmChange a.alarm al ++ [.time t])
  | .setAlarm n => match f with
    | none => (none, [])
    | some a => (some { a with alarm := n }, [.alarm n])
  | .setTime n => match f with
    | none => (none, [])
    | some a => (some { a with time := n }, [.time n])
  | .setMeta m => match f with
    | none => (none, [])
    | some a => (some { a with info := m }, [.info m])
  | .setKind n => match f with
    | none => (none, [])
    | some a => (some { a with info := { a.info with kind := n } }, [.kind n])
  | .setTags l => match f with
    | none => (none, [])
    | some a => (some { a with info := { a.info with tags := l } }, [.tags l])
  | .setWriteable b => match f with
    | none => (none, [])
    | some a => (some { a with info := { a.info with writeable := b } }, [.writeable b])
  | .setLabel s => match f with
    | none => (none, [])
    | some a => (some { a with info := { a.info with label := s } }, [.label s])

/-- What is done within one `changes_squashed` of the child is told at once: core/notifier.py 103-120 -/
def childSteps (f : Option Attr) : List Op → Option Attr × List Change
  | [] => (f, [])
  | o :: os =>
    let r := childStep f o
    let rest := childSteps r.1 os
    (rest.1, r.2 ++ rest.2)

/-! ### the exported field -/

/-- core/tags.py 111, 165 -/
def stripped (tag : String) : Bool := "group:".toList.isPrefixOf tag.toList || "config:".toList.isPrefixOf tag.toList

/-- managercontroller.py 353-379, and core/controller.py 77-89: the setter is always there, so it is made writeable -/
def firstCall (label : String) (a : Attr) : Attr :=
  { a with info := { a.info with tags := a.info.tags.filter (fun t => !stripped t), label := label, writeable := true } }

/-- core/models.py 131-141, 375-379 `apply_change` of an attribute; `none` is an exception: for an empty path, and for a
column, as a Table has no `apply_change` -/
def applyChange (a : Attr) : Change → Option Attr
  | .field _ => none
  | .gone => none
  | .column _ _ => none
  | .value v => some { a with value := v }
  | .alarm n => some { a with alarm := n }
  | .time n => some { a with time := n }
  | .info m => some { a with info := m }
  | .kind n => some { a with info := { a.info with kind := n } }
  | .tags l => some { a with info := { a.info with tags := l } }
  | .writeable b => some { a with info := { a.info with writeable := b } }
  | .label s => some { a with info := { a.info with label := s } }

/-- managercontroller.py 380-384: the changes up to the first that raises, and whether none did -/
def applyAll (a : Attr) : List Change → Attr × Bool
  | [] => (a, true)
  | c :: cs =>
    match applyChange a c with
    | none => (a, false)
    | some b => applyAll b cs

/-- The child's field and the exported one, `ret["export"]` of managercontroller.py 346-379 -/
structure World where
  child : Option Attr
  shown : Attr
  /-- whether each of the squashes of the child went without an exception, the last first: core/notifier.py 118-128 -/
  fine : List Bool := []

/-- What happens: the child changes its field, or the manager goes to a state in which fields are writeable or not
(statefulcontroller.py 147-148, 187-189) -/
inductive Event
  | child (os : List Op)
  | state (writeable : Bool)

/-- managercontroller.py 348-352, 380-384. Nothing is told if nothing has changed: core/notifier.py 142-175 -/
def step (w : World) : Event → World
  | .child os =>
    let r := childSteps w.child os
    let s := applyAll w.shown r.2
    { child := r.1, shown := s.1, fine := s.2 :: w.fine }
  | .state b => { w with shown := { w.shown with info := { w.shown.info with writeable := b } } }

/-- One after the other: managercontroller.py 348-384 -/
def run (w : World) (es : List Event) : World := es.foldl step w

/-- managercontroller.py 386-392 -/
def exported (label : String) (a : Attr) : World := { child := some a, shown := firstCall label a }

/-! ### puts and posts -/

/-- How a request ends: core/controller.py 175-177, 193-212, 250-280 -/
inductive Outcome
  | notWriteable
  | invalid
  | failed
  | done (result : Option Int)
  deriving DecidableEq, Repr

/-- core/controller.py 183-212 `_handle_put` of the child: the values its put function is called with, and the outcome.
`validate` depends on what the meta says. -/
def childPut (validate : Int → Val → Option Val) (a : Attr) (ok : Val → Bool) (v : Val) : List Val × Outcome :=
  if a.info.writeable then
    match validate a.info.kind v with
    | none => ([], .invalid)
    | some x => ([x], if ok x then .done none else .failed)
  else ([], .notWriteable)

/-- The same for the exported field, whose put function is the setter of managercontroller.py 358-360 -/
def exportPut (validate : Int → Val → Option Val) (w : World) (ok : Val → Bool) (v : Val) : List Val × Outcome :=
  if w.shown.info.writeable then
    match validate w.shown.info.kind v with
    | none => ([], .invalid)
    | some x =>
      match w.child with
      | none => ([], .failed)
      | some a =>
        match childPut validate a ok x with
        | (calls, .done _) => (calls, .done none)
        | (calls, _) => (calls, .failed)
  else ([], .notWriteable)

/-- Parameters of a method, by name: core/controller.py 256 -/
abbrev Params := List (String × Int)

/-- core/controller.py 240-280 `_handle_post` of a method whose function is `f`, for parameters that are valid: the calls and
the outcome -/
def childPost (writeable : Bool) (f : Params → Option Int) (ps : Params) : List Params × Outcome :=
  if writeable then ([ps], match f ps with | some r => .done (some r) | none => .failed) else ([], .notWriteable)

/-- The same for an exported method, whose function is `setter_star_args` (managercontroller.py 371-373): it takes no
parameter by name, and returns nothing. core/controller.py 262 passes all by name. -/
def exportPost (shown writeable : Bool) (f : Params → Option Int) (ps : Params) : List Params × Outcome :=
  if shown then
    if ps = [] then
      match childPost writeable f [] with
      | (calls, .done _) => (calls, .done none)
      | (calls, _) => (calls, .failed)
    else ([], .failed)
  else ([], .notWriteable)

end Verif.ExportMirror
