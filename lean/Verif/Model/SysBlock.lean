import Verif.Model.PyDict
/-!
The block that stands for the process itself: malcolm/modules/system/controllers/ProcessController.py and
malcolm/modules/system/defines.py, with the registering of functions for hooks of malcolm/core/hook.py 37-93.
-/
namespace Verif.SysBlock

abbrev Text := List Char

/-! ### Hooks -/

/-- core/hook.py 37-51 `make_args_gen`: a function that takes arguments must say their types. `none`: TypeError. -/
def makeArgsGen (needs types : List String) : Option (List String) :=
  if needs ≠ [] ∧ types = [] then none else some types

/-- A call of `register_hooked` (core/hook.py 60-81): for these hooks, this function, which takes these arguments and says the types of those. -/
structure Reg (H F : Type) where
  hooks : List H
  func : F
  needs : List String := []
  types : List String := []

/-- core/hook.py 60-81 `register_hooked`. `hooked` is a dictionary with one function for each hook. -/
def registerHooked {H F : Type} [DecidableEq H] (d : Dict H (F × List String)) (r : Reg H F) : Option (Dict H (F × List String)) :=
  (makeArgsGen r.needs r.types).map (fun a => r.hooks.foldl (fun d h => d.set h (r.func, a)) d)

/-- core/hook.py 60-81, several registrations in order -/
def registerAll {H F : Type} [DecidableEq H] : List (Reg H F) → Dict H (F × List String) → Option (Dict H (F × List String))
  | [], d => some d
  | r :: rs, d => (registerHooked d r).bind (registerAll rs)

/-- core/hook.py 83-93 `on_hook`: the function that is called, if any -/
def onHook {H F : Type} [DecidableEq H] (d : Dict H (F × List String)) (h : H) : Option F := (d.get? h).map (·.1)

/-! ### Which IOCs -/

/-- `re.match` for a pattern that is a sequence of sets of characters (system/defines.py 23): what is left after it -/
def matchPat : List (Char → Bool) → Text → Option Text
  | [], t => some t
  | _ :: _, [] => none
  | f :: fs, c :: t => if f c then matchPat fs t else none

/-- `re.findall` (system/defines.py 23), `skip` characters belong to the last match -/
def findall (pat : List (Char → Bool)) : Nat → Text → List Text
  | _, [] => []
  | n + 1, _ :: t => findall pat n t
  | 0, c :: t =>
    match matchPat pat (c :: t) with
    | some _ => (c :: t).take pat.length :: findall pat (pat.length - 1) t
    | none => findall pat 0 t

/-- `[A-Z]` of system/defines.py 23 -/
def upper (c : Char) : Bool := 'A' ≤ c && c ≤ 'Z'

/-- `[0-9]` of system/defines.py 23 -/
def digit (c : Char) : Bool := '0' ≤ c && c ≤ '9'

/-- the pattern of system/defines.py 23 without the space at its end. The beamline is taken literally (no special characters in it). -/
def iocPat (beamline : Text) : List (Char → Bool) :=
  beamline.map (fun x c => c == x) ++
    [(· == '-'), upper, upper, (· == '-'), (· == 'I'), (· == 'O'), (· == 'C'), (· == '-'), digit, digit]

/-- system/defines.py 20: `yamlname.split("-")[0]` -/
def beamlineOf (yamlname : Text) : Text := yamlname.takeWhile (· ≠ '-')

/-- system/defines.py 14-27 `redirector_iocs` -/
def redirectorIocs (yamlname table : Text) : Text :=
  (findall (iocPat (beamlineOf yamlname) ++ [(· == ' ')]) 0 table).flatten

/-- `split(" ")` (ProcessController.py 81) -/
def splitSpaces : Text → List Text
  | [] => [[]]
  | c :: t =>
    if c = ' ' then [] :: splitSpaces t
    else match splitSpaces t with
      | [] => [[c]]
      | w :: ws => (c :: w) :: ws

/-- ProcessController.py 81-83: one empty name at the end is left out -/
def iocNames (iocList : Text) : List Text :=
  let l := splitSpaces iocList
  if l.getLast? = some [] then l.dropLast else l

/-! ### What it tells about itself -/

/-- `strip(b"\n")` (ProcessController.py 188) -/
def stripNewlines (t : Text) : Text := ((t.dropWhile (· = '\n')).reverse.dropWhile (· = '\n')).reverse

/-- ProcessController.py 178-189 `parse_yaml_version`; `git` is what git describe prints in the directory of the file, if it succeeds (191-201) -/
def yamlVersion (path work prod : Text) (git : Option Text) : Text :=
  if work.isPrefixOf path then "work".toList
  else if prod.isPrefixOf path then
    match git with
    | none => "Prod (unknown version)".toList
    | some v => stripNewlines v
  else "unknown".toList

/-- ProcessController.py 98-100 -/
def shownHost (name : Text) : Text := if name.length < 39 then name else name.take 35 ++ "...".toList

/-- Where the block rests: statefulcontroller.py 94-114 -/
inductive State | disabled | ready | fault
  deriving DecidableEq, Repr

/-- What can be wrong, as health tells it: ProcessController.py 133-136, statefulcontroller.py 138-144; `ok` if nothing is -/
inductive Health | ok | nonProd | failed | disabled
  deriving DecidableEq, Repr

/-- severity: core/alarm.py `AlarmSeverity` 7-12 -/
def Health.severity : Health → Nat
  | .ok => 0
  | .nonProd => 1
  | .failed => 2
  | .disabled => 3

/-- basiccontroller.py 30-48 with the faults of ProcessController.py 133-136 (reporter `""`) and of statefulcontroller.py 138-144 (reporter the controller) -/
def health (version : Text) (s : State) : Health :=
  let a := if version = "work".toList ∨ version = "unknown".toList then [Health.nonProd] else []
  let b := match s with
    | .disabled => [Health.disabled]
    | .fault => [Health.failed]
    | .ready => []
  (a ++ b).foldl (fun x y => if x.severity ≤ y.severity then y else x) .ok

/-! ### Its life -/

/-- The hooks of a process: core/process.py 50-61 -/
inductive PHook | start | stop
  deriving DecidableEq, Repr

/-- The functions registered for them: statefulcontroller.py 78-92, ProcessController.py 142-146, 164-167 -/
inductive Fn | init | halt | stopIoc
  deriving DecidableEq, Repr

/-- statefulcontroller.py 54-55, then ProcessController.py 138-140: `self.init` is that of ProcessController both times -/
def registrations : List (Reg PHook Fn) :=
  [{ hooks := [.start], func := .init }, { hooks := [.stop], func := .halt }, { hooks := [.start], func := .init }, { hooks := [.stop], func := .stopIoc }]

/-- What the world does: EPICS_BASE is defined, the program starts, and the hooks of the parts succeed. -/
structure Env where
  base : Bool := true
  popen : Bool := true
  hooks : Bool := true
  deriving DecidableEq, Repr

/-- core/process.py 66-73 as far as it matters: not yet started, started, stopped -/
inductive Proc | fresh | started | stopped
  deriving DecidableEq, Repr

/-- The process, the block, and the programs it started. `blocks` are the mris in the process, `ioc` whether `self.ioc` is set, `running` the number of
softIoc programs running, `halted` whether the parts had their HaltHook. -/
structure Sys where
  proc : Proc := .fresh
  blocks : List Text
  parts : List Text
  state : State := .disabled
  ioc : Bool := false
  running : Nat := 0
  halted : Bool := false
  deriving DecidableEq, Repr

/-- ProcessController.py 43-60 `start_ioc` and 143-144; `none`: it raises -/
def launch (e : Env) (s : Sys) : Option Sys :=
  if s.ioc then some s
  else if e.base && e.popen then some { s with ioc := true, running := s.running + 1 }
  else none

/-- core/process.py 214-229 `add_controllers`, up to the first one whose mri is taken -/
def addBlocks : List Text → Sys → Sys × Bool
  | [], s => (s, true)
  | m :: ms, s => if m ∈ s.blocks then (s, false) else addBlocks ms { s with blocks := s.blocks ++ [m] }

/-- ProcessController.py 175-176 with core/controller.py 63-68 `add_part`, up to the first one whose name is taken -/
def addParts : List Text → Sys → Sys × Bool
  | [], s => (s, true)
  | n :: ns, s => if n ∈ s.parts then (s, false) else addParts ns { s with parts := s.parts ++ [n] }

/-- ProcessController.py 204-230 `make_ioc_status`, 174-176: the mri of the block of an IOC -/
def statusMri (ioc : Text) : Text := ioc ++ ":STATUS".toList

/-- ProcessController.py 142-146 `init` with `get_ioc_list`, and statefulcontroller.py 78-85. When something raises before the last line
the state of the block is left as it is. -/
def initBlock (names : List Text) (e : Env) (s : Sys) : Sys :=
  match launch e s with
  | none => s
  | some s =>
    let a := addBlocks (names.map statusMri) s
    if a.2 then
      let b := addParts names a.1
      if b.2 then { b.1 with state := if e.hooks then .ready else .fault } else b.1
    else a.1

/-- ProcessController.py 164-167 `stop_ioc` -/
def stopIoc (s : Sys) : Sys := if s.ioc then { s with ioc := false, running := s.running - 1 } else s

/-- statefulcontroller.py 87-92 `halt`: HaltHook, then `disable` -/
def haltBlock (e : Env) (s : Sys) : Sys :=
  { s with halted := e.hooks, state := if e.hooks then .disabled else .fault }

/-- core/hook.py 83-93: the function registered for the hook is run -/
def runFn (names : List Text) (e : Env) (s : Sys) : Option Fn → Sys
  | none => s
  | some .init => initBlock names e s
  | some .halt => haltBlock e s
  | some .stopIoc => stopIoc s

/-- What can happen: the process is started or stopped, a user calls disable() or reset(), the softIoc ends by itself. -/
inductive Op
  | start (e : Env)
  | stop (e : Env)
  | disable (hooks : Bool)
  | reset (hooks : Bool)
  | iocEnds
  deriving DecidableEq, Repr

/-- One step. core/process.py 75-87 `start`, 160-188 `stop`, statefulcontroller.py 94-110 `disable` and `reset` (which is writeable when Disabled or in Fault: 50-52).
Calls only get through while the process is started (core/process.py 201). What is done is done one after the other here. -/
def step (d : Dict PHook (Fn × List String)) (names : List Text) (s : Sys) : Op → Sys
  | .start e => if s.proc = .fresh then { runFn names e s (onHook d .start) with proc := .started } else s
  | .stop e => if s.proc = .started then { runFn names e s (onHook d .stop) with proc := .stopped, blocks := [] } else s
  | .disable ok => if s.proc = .started then { s with state := if ok then .disabled else .fault } else s
  | .reset ok => if s.proc = .started ∧ s.state ≠ .ready then { s with state := if ok then .ready else .fault } else s
  | .iocEnds => { s with running := 0 }

/-- A history of the block that ProcessController.py 70-140 makes for this list of IOCs in a process with these blocks, and with these parts -/
def run (iocList : Text) (blocks parts : List Text) (ops : List Op) : Sys :=
  ops.foldl (step ((registerAll registrations []).getD []) (iocNames iocList)) { blocks := blocks, parts := parts }

end Verif.SysBlock
