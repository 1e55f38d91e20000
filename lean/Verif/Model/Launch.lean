/-!
Starting and stopping the whole program: malcolm/imalcolm.py 145-291, with how long `start` and `stop` of
malcolm/core/process.py 75-102, 140-158 and 160-187 take (core/hook.py 185-242).

Times are milliseconds since the program was started. A function that never returns has no time.

Simplified: putting a result in a queue takes no time, nor does anything else that is not waiting; what `start` and `stop` of a
process change is in Model/Process.lean; the YAML file is loaded as in Model/Compose.lean, here it gives blocks and parts or raises.
-/
namespace Verif.Launch

abbrev Text := List Char

/-- How a wait ends: core/process.py 176-182, core/hook.py 203 -/
inductive Res
  | done (at_ : Nat)
  | raised (at_ : Nat)
  | never
  deriving DecidableEq, Repr

/-- core/hook.py 200-207: `wait_hooks` without checking exceptions, given when the functions return. The queue is waited for
without a timeout (203). -/
def waitHooks (now : Nat) : List (Option Nat) → Res
  | [] => .done now
  | none :: _ => .never
  | some t :: ts => waitHooks (max now t) ts

/-- What takes time in a process: core/process.py 142-158 -/
structure Times where
  /-- when the function for ProcessStartHook of each block returns, if it was called at 0 -/
  start : List (Option Nat)
  /-- whether all blocks said they are not to be published: core/process.py 95-102 -/
  hidden : Bool
  /-- the same for ProcessPublishHook -/
  publish : List (Option Nat)

/-- The functions are called now: core/process.py 147-151 -/
def from_ (now : Nat) (ts : List (Option Nat)) : List (Option Nat) := ts.map (·.map (now + ·))

/-- core/process.py 75-87 `start`. Lines 93, 140 and 152-154 hand on the timeout. -/
def start (_timeout : Option Nat) (x : Times) (now : Nat) : Res :=
  match waitHooks now (from_ now x.start) with
  | .done t => if x.hidden then .done t else waitHooks t (from_ t x.publish)
  | r => r

/-- core/process.py 171-182 of `stop`: for each spawned function, given when it ends -/
def waitSpawned (timeout : Nat) (now : Nat) : List (Option Nat) → Res
  | [] => .done now
  | e :: es =>
    match e with
    | some t => if t ≤ now + timeout then waitSpawned timeout (max now t) es else .raised (now + timeout)
    | none => .raised (now + timeout)

/-- core/process.py 160-187 `stop`, given how long the functions for ProcessStopHook take and when the spawned functions end -/
def stop (timeout : Nat) (hooks spawned : List (Option Nat)) (now : Nat) : Res :=
  match waitHooks now (from_ now hooks) with
  | .done t => waitSpawned timeout t spawned
  | r => r

/-! The arguments -/

/-- `s.split(sep)` of one character, imalcolm.py 150, 167 -/
def split (sep : Char) : Text → List Text
  | [] => [[]]
  | c :: cs =>
    if c = sep then [] :: split sep cs
    else
      match split sep cs with
      | [] => [[c]]
      | p :: ps => (c :: p) :: ps

/-- `os.path.basename`, imalcolm.py 150 -/
def basename (p : Text) : Text := (split '/' p).getLastD []

/-- imalcolm.py 150: the name of the process. none is an IndexError. -/
def procName (yaml : Text) : Option Text :=
  match (split '.' (basename yaml)).reverse with
  | _ :: n :: _ => some n
  | _ => none

/-- What the client is: imalcolm.py 163-176 -/
inductive Comms
  | ws (host port : Text)
  | pva
  deriving DecidableEq, Repr

/-- imalcolm.py 169, 174: the name of the block of the client -/
def Comms.mri : Comms → Text
  | .ws h p => h ++ ':' :: p
  | .pva => "pva".toList

/-- `int(port)` works: imalcolm.py 169. (It also takes spaces, a sign and underscores, which are left out.) -/
def isInt (p : Text) : Bool := p ≠ [] && p.all (·.isDigit)

/-- imalcolm.py 164-176. none is a ValueError. -/
def client (arg : Text) : Option Comms :=
  if "ws://".toList.isPrefixOf arg then
    match split ':' (arg.drop 5) with
    | [h, p] => if isInt p then some (.ws h p) else none
    | _ => none
  else if arg = "pva".toList then some .pva else none

/-- imalcolm.py 40-58; an argument that is empty is none (149, 163) -/
structure Args where
  yaml : Option Text
  client : Option Text

/-- What the files and blocks do: imalcolm.py 152, 178 -/
structure World where
  /-- how long loading the YAML file takes -/
  loading : Nat
  /-- the blocks it makes and whether it makes parts; none if it raises -/
  load : Option (List Text × Bool)
  times : Times

/-- How preparing ended: with a process with a name and blocks, or raising; imalcolm.py 187-193 -/
inductive Prep
  | ok (at_ : Nat) (name : Text) (mris : List Text)
  | fail (at_ : Nat)
  | never
  deriving DecidableEq, Repr

/-- imalcolm.py 154-155, with core/process.py 225-228: each block is added, unless there is one of that name -/
def addAll (have_ : List Text) : List Text → Option (List Text)
  | [] => some have_
  | m :: ms => if m ∈ have_ then none else addAll (have_ ++ [m]) ms

/-- imalcolm.py 145-158: the process with the blocks of the YAML file. none if it raises. -/
def fromYaml (w : World) : Option Text → Option (Text × List Text)
  | none => some ("Process".toList, [])
  | some y =>
    match procName y, w.load with
    | some n, some (mris, parts) => if parts then none else (addAll [] mris).map (n, ·)
    | _, _ => none

/-- imalcolm.py 163-177: with the client -/
def withClient (have_ : List Text) : Option Text → Option (List Text)
  | none => some have_
  | some c => (client c).bind (fun k => addAll have_ [k.mri])

/-- imalcolm.py 145-179 `prepare_locals` -/
def prepare (a : Args) (w : World) : Prep :=
  let t := if a.yaml.isSome then w.loading else 0
  match fromYaml w a.yaml with
  | none => .fail t
  | some (n, mris) =>
    match withClient mris a.client with
    | none => .fail t
    | some mris =>
      match start (some 60000) w.times t with
      | .done t => .ok t n mris
      | .raised t => .fail t
      | .never => .never

/-- How the program ends. The thread that hosts the process is no daemon (imalcolm.py 223), and ends only when it
raised or was told to quit (imalcolm.py 188-194). -/
inductive Ended
  | exit (code : Nat)
  | hangs
  deriving DecidableEq, Repr

/-- imalcolm.py 222-228: what the main thread has, which is the process if there is a prompt -/
def prompt (a : Args) (w : World) : Option (Text × List Text) :=
  match prepare a w with
  | .ok t n mris => if t ≤ 65000 then some (n, mris) else none
  | _ => none

/-- imalcolm.py 197-291 `main`: `stops` is what `stop` comes to when the user leaves the prompt (290) -/
def main (a : Args) (w : World) (stops : Res) : Ended :=
  match prepare a w with
  | .fail _ => .exit 1
  | .never => .hangs
  | .ok t _ _ =>
    if t ≤ 65000 then
      match stops with
      | .done _ => .exit 0
      | _ => .hangs
    else .hangs

/-! Interrupts -/

/-- How a call in the prompt ends: it gives a result, or the user presses ctrl-C; imalcolm.py 239-242 -/
inductive CallEnd
  | result (r : Nat)
  | interrupted
  deriving DecidableEq, Repr

/-- imalcolm.py 237-242 `UserContext.post`: the calls that are made (block, method) given how they end, and what the user gets:
nothing if there was an interrupt -/
def userPost (mri method : Text) : List CallEnd → List (Text × Text) × Option Nat
  | [] => ([(mri, method)], none)
  | .result r :: _ => ([(mri, method)], some r)
  | .interrupted :: ends => ((mri, method) :: (userPost mri "abort".toList ends).1, none)

end Verif.Launch
