import Verif.Model.PyDict
/-!
A Process: malcolm/core/process.py.

`start`, `stop` run hooks in other threads and wait for them, so each is two steps here and controllers
may be added in between. The hooks themselves are in Verif.Model.Hooks: `_run_hook` (142-158) waits for
all of them and swallows errors.
-/
namespace Verif.Process
open Verif

/-- A controller: its mri, the `mri` of those of its parts that have one (process.py 112-113), and
whether its `setup` succeeds. -/
structure Ctl where
  id : Nat
  mri : String
  parts : List String := []
  setupOk : Bool := true
  deriving DecidableEq, Repr

/-- process.py 21-24 -/
inductive Phase
  | stopped | starting | started | stopping
  deriving DecidableEq, Repr

abbrev Ctls := Dict String Ctl
/-- process.py 105 `tree`: the children of each block. The values are shared dictionaries that refer
to each other; here they are lists of names. -/
abbrev Tree := Dict String (List String)

/-- process.py 115, 117: `children[part_mri] = ...` -/
def setChild (tree : Tree) (m p : String) : Tree :=
  match Dict.get? tree m with
  | some cs => if p ∈ cs then tree else Dict.set tree m (cs ++ [p])
  | none => tree

/-- process.py 111-117: one part of the loop in `add_controller`; `rec` is the recursive call. -/
def addPartOf (ctls : Ctls) (rec : String → Tree × List String → Tree × List String) (m : String)
    (s : Tree × List String) (p : String) : Tree × List String :=
  let s := (s.1, p :: s.2)
  if Dict.mem s.1 p then (setChild s.1 m p, s.2)
  else if Dict.mem ctls p then
    let s := rec p s
    (setChild s.1 m p, s.2)
  else s

/-- process.py 108-118 `add_controller`, on the pair of `tree` and `is_child`. Each recursive call is
for a block not yet in the tree, so as much fuel as there are controllers is enough (proved). -/
def addController (ctls : Ctls) : Nat → String → Tree × List String → Tree × List String
  | 0, _, s => s
  | n + 1, m, s =>
    match Dict.get? ctls m with
    | none => s
    | some c => c.parts.foldl (addPartOf ctls (addController ctls n) m) (Dict.set s.1 m [], s.2)

/-- process.py 120-122 -/
def buildTree (ctls : Ctls) : Tree × List String :=
  ctls.keys.foldl (fun s m => if m ∈ s.2 then s else addController ctls ctls.length m s) ([], [])

/-- process.py 133-134: `if v: to_do.append(v)` -/
def toDo (todo : List (List String)) : Option (List String) → List (List String)
  | some (c :: cs) => todo ++ [c :: cs]
  | _ => todo

/-- process.py 127-134: the first loop of `walk`: the published list and what is to be walked next -/
def walkLevel (tree : Tree) (unpublished skip : List String) :
    List String → List String × List (List String) → List String × List (List String)
  | [], s => s
  | k :: d, s =>
    if k ∈ skip then walkLevel tree unpublished skip d s
    else
      let published := if k ∉ s.1 ∧ k ∉ unpublished then s.1 ++ [k] else s.1
      walkLevel tree unpublished skip d (published, toDo s.2 (Dict.get? tree k))

/-- process.py 126-136 `walk`; the fuel stands for Python's recursion limit. -/
def walk (tree : Tree) (unpublished : List String) : Nat → List String → List String → List String → List String
  | 0, _, _, published => published
  | n + 1, skip, d, published =>
    let s := walkLevel tree unpublished skip d (published, [])
    s.2.foldl (fun pub v => walk tree unpublished n [] v pub) s.1

/-- process.py 104-140 `_publish_controllers`: the list given to the publish hook -/
def publishList (fuel : Nat) (ctls : Ctls) (unpublished : List String) : List String :=
  let t := buildTree ctls
  walk t.1 unpublished fuel t.2 t.1.keys []

/-- process.py 63-73. `startLog`: mris whose start hook has been run since the process was last
stopped; `stopLog`: those whose stop hook has. -/
structure Proc where
  phase : Phase := .stopped
  ctls : Ctls := []
  unpublished : List String := []
  startLog : List String := []
  stopLog : List String := []
  /-- lists given to the publish hook -/
  publishLog : List (List String) := []
  deriving DecidableEq, Repr

/-- process.py 224-229: the loop of `add_controllers`; the flag says that it finished. A controller
whose `setup` raises has been put in the dictionary already. -/
def addLoop : Ctls → List Ctl → Ctls × Bool
  | ctls, [] => (ctls, true)
  | ctls, c :: cs =>
    if Dict.mem ctls c.mri then (ctls, false)
    else
      let ctls := Dict.set ctls c.mri c
      if c.setupOk then addLoop ctls cs else (ctls, false)

/-- process.py 94-102 after the hooks: `infos` are the mris that the start hooks said are not to be
published -/
def afterStart (fuel : Nat) (s : Proc) (count : Nat) (infos : List String) (mayPublish : Bool) : Proc :=
  let new := infos.eraseDups
  let s := { s with unpublished := s.unpublished ++ new.filter (· ∉ s.unpublished) }
  if count > new.length ∧ mayPublish then
    { s with publishLog := s.publishLog ++ [publishList fuel s.ctls s.unpublished] }
  else s

inductive Op
  /-- 75-84 `start`, to where the hooks are started -/
  | startBegin
  /-- the rest of `start`, given what the hooks returned -/
  | startEnd (infos : List String)
  /-- 214-233 `add_controllers` -/
  | add (cs : List Ctl) (infos : List String)
  /-- 160-170 `stop`, to where the hooks are started -/
  | stopBegin
  /-- the rest of `stop`; `timeout`: a spawned function did not finish (177-182) -/
  | stopEnd (timeout : Bool)
  deriving DecidableEq, Repr

/-- One step; the flag is false if an assertion fails. `startEnd` and `stopEnd` do nothing unless the
call they are the second half of is going on. -/
def Proc.step (fuel : Nat) (s : Proc) : Op → Proc × Bool
  | .startBegin =>
    if s.phase = .stopped then
      ({ s with phase := .starting, startLog := s.startLog ++ s.ctls.keys }, true)
    else (s, false)
  | .startEnd infos =>
    if s.phase = .starting then
      ({ afterStart fuel s s.ctls.length infos true with phase := .started }, true)
    else (s, false)
  | .add cs infos =>
    let r := addLoop s.ctls cs
    let s := { s with ctls := r.1 }
    if r.2 then
      if s.phase = .stopped then (s, true)
      else
        let s := { s with startLog := s.startLog ++ cs.map (·.mri) }
        (afterStart fuel s cs.length infos (s.phase = .started), true)
    else (s, false)
  | .stopBegin =>
    if s.phase = .started then
      ({ s with phase := .stopping, stopLog := s.stopLog ++ s.ctls.keys }, true)
    else (s, false)
  | .stopEnd timeout =>
    if s.phase = .stopping ∧ timeout = false then
      ({ s with phase := .stopped, ctls := [], unpublished := [], startLog := [], stopLog := [] }, true)
    else (s, false)

def Proc.run (fuel : Nat) (s : Proc) (ops : List Op) : Proc := ops.foldl (fun s op => (s.step fuel op).1) s

end Verif.Process
