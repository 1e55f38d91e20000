import Verif.Model.States
/-!
The calls of a runnable block, running at the same time:
malcolm/modules/scanning/controllers/runnablecontroller.py 418-756 with
malcolm/modules/builtin/controllers/statefulcontroller.py 71-168, malcolm/modules/builtin/hooks.py 21-37,
malcolm/core/hook.py 185-240 and the stops of malcolm/core/context.py 98-105, 364-420.

A world is the block with the calls that were made on it, each at some point of its code. A step takes one call to its
next point. What lies between two points runs without being interrupted: a `with self._lock`, or code that does not wait.
Whatever waits (a hook, a queue, the lock) is a point of its own, so all orders in which the calls can go on are here.

What parts do in their hooks is not known: the `Choice` of a step says how they end. The contexts that `configure` makes
for the parts are numbered; `stops` counts how often those of each number were stopped. A hook ignores the stops that
came before it started (hooks.py 31-35), so it can only see one if the count is higher than when it started. `selfStops`
counts those that the block itself has not seen and does not ignore.

Left out: the numbers of steps (see Verif.Model.Steps), whether there are more steps after a run is a choice; the
arguments of calls; that a call is refused when its method is not writeable (Verif.Props.Stateful), here every call can be
made at any time; messages of a TypeError or of a failed assertion.
-/
namespace Verif.Runnable
open Verif

abbrev Msg := String

/-- The calls that go through `try_stateful_function`: statefulcontroller.py 78-110, managercontroller.py 413-415, 502-504 -/
inductive Kind
  | init | reset | save | load | disable
  deriving DecidableEq, Repr

/-- statefulcontroller.py 79, 95, 104; managercontroller.py 415, 504: the first state -/
def Kind.start : Kind → St
  | .init | .reset => .resetting
  | .save => .saving
  | .load => .loading
  | .disable => .disabling

/-- The same lines: the last state -/
def Kind.finish : Kind → St
  | .disable => .disabled
  | _ => .ready

/-- The calls that go through `try_aborting_function`: runnablecontroller.py 610, 694, with the last state of a pause -/
inductive Abort
  | abort
  | pause (next : St)
  deriving DecidableEq, Repr

def Abort.start : Abort → St
  | .abort => .aborting
  | .pause _ => .seeking

def Abort.finish : Abort → St
  | .abort => .aborted
  | .pause next => next

/-- How a call ended -/
inductive Result
  | returned
  | raised (m : Msg)
  | aborted  -- AbortedError
  deriving DecidableEq, Repr

/-- The points at which a call can be -/
inductive Pc
  -- statefulcontroller.py 152-168
  | sBegin (k : Kind)                    -- before 154
  | sStop                                -- runnablecontroller.py 747-750
  | sHook (k : Kind)                     -- in the hooks of `func`
  | sEnd (k : Kind)                      -- before 156
  -- runnablecontroller.py 430-516
  | cValidate                            -- in 447
  | cRead                                -- before 448
  | cBegin (finished : Bool)             -- before 450
  | cReset                               -- in the hooks of 466-469
  | cContexts                            -- before 471
  | cBetween (k : Nat)                   -- before the hooks of 481, 495, 503, 508, before 511
  | cHook (k : Nat) (g n : Nat)          -- in these hooks, with contexts of number `g`, stopped `n` times before
  | cEnd                                 -- before 452
  -- runnablecontroller.py 519-589
  | rBegin (finished : Bool)             -- before 534
  | rBetween (finished : Bool) (k : Nat) -- before the hooks of 565, 567, before 568, the hooks of 574, of 578 or 587
  | rHook (finished : Bool) (k : Nat) (g n : Nat)
  | rEnd (finished : Bool)               -- before 540
  | rWait (finished : Bool) (q : Nat)    -- in 546, with the resume queue of number `q`
  -- runnablecontroller.py 603-721
  | pFirst (given : Bool)                -- before 676
  | pSecond                              -- before 685
  | aBegin (a : Abort)                   -- before 625
  | aWait (a : Abort)                    -- in 634
  | aIgnore (a : Abort)                  -- before 637
  | aFresh (a : Abort)                   -- in the hooks of 616 or 701, with contexts made for them
  | aBetween (a : Abort) (k : Nat)       -- before the hooks of 713, 717
  | aHook (a : Abort) (k : Nat) (g n : Nat)
  | aEnd (a : Abort)                     -- before 645
  | aPut                                 -- before 612
  -- runnablecontroller.py 734-743
  | resumeBegin                          -- before 740
  | resumePut                            -- before 741
  -- runnablecontroller.py 753-756, statefulcontroller.py 112-114
  | failing (m : Msg)
  | faulting (m : Msg)
  | done (r : Result)
  deriving DecidableEq, Repr

/-- The members of the block that the calls share -/
structure World where
  /-- `state.value`; the constructor leaves it so -/
  state : St := .disabled
  /-- The message of the alarm of the state -/
  message : Msg := "Disabled"
  /-- How often `part_contexts` was made: 0 is the empty dict of the constructor -/
  gen : Nat := 0
  stops : Nat → Nat := fun _ => 0
  selfStops : Nat := 0
  /-- Whether `abort_queue` is not None -/
  abortQ : Bool := false
  /-- How often `resume_queue` was made: 0 is None -/
  rq : Nat := 0
  /-- The contents of each resume queue -/
  queues : Nat → List Bool := fun _ => []
  threads : List Pc := []

/-- What is not determined by the code -/
inductive Choice
  | ok
  | other
  | failed (m : Msg)
  | aborted
  deriving DecidableEq, Repr

def World.setPc (w : World) (i : Nat) (p : Pc) : World := { w with threads := w.threads.set i p }

/-- statefulcontroller.py 123-150 `transition`; `none` is the TypeError -/
def World.transition (w : World) (s : St) (m : Msg := "") : Option World :=
  if runnableStates.transitionAllowed w.state s = some true then
    some { w with state := s, message := if s = .disabled then "Disabled" else if s = .fault then m else "" }
  else none

def typeError : Msg := "Cannot transition"

/-- runnablecontroller.py 629-630, 747-748: all contexts of `part_contexts` are stopped -/
def World.stopAll (w : World) : World :=
  if w.gen = 0 then w
  else { w with stops := fun g => if g = w.gen then w.stops g + 1 else w.stops g, selfStops := w.selfStops + 1 }

/-- `resume_queue.put` if there is one -/
def World.put (w : World) (b : Bool) : World :=
  if w.rq = 0 then w
  else { w with queues := fun q => if q = w.rq then w.queues q ++ [b] else w.queues q }

inductive Outcome
  | ok (w : World)
  | aborted (w : World)
  | typeError

/-- runnablecontroller.py 418-425 `abortable_transition`: `sleep(0)` raises AbortedError at the first stop, which is then
gone -/
def World.abortable (w : World) (s : St) : Outcome :=
  if w.selfStops ≠ 0 then .aborted { w with selfStops := w.selfStops - 1 }
  else
    match w.transition s with
    | some w => .ok w
    | none => .typeError

/-- hook.py 229-233: when a hook fails the contexts of all parts are stopped -/
def World.stopHooks (w : World) (g : Nat) : World :=
  { w with stops := fun h => if h = g then w.stops h + 1 else w.stops h }

/-- runnablecontroller.py 541-553: AbortedError while running -/
def World.runAborted (w : World) (i : Nat) (finished : Bool) : World :=
  if !w.abortQ then w.setPc i (.failing "No abort queue")
  else if w.rq = 0 then w.setPc i (.failing "No resume queue")
  else w.setPc i (.rWait finished w.rq)

/-- runnablecontroller.py 453-456: AbortedError while configuring. A failed assertion leaves `configure` as it is raised
inside of the handler -/
def World.configureAborted (w : World) (i : Nat) : World :=
  if !w.abortQ then w.setPc i (.done (.raised "No abort queue")) else w.setPc i (.done .aborted)

/-- One step of the call `i`, which is at the point `p` -/
def World.stepAt (w : World) (i : Nat) (ch : Choice) : Pc → World
  | .sBegin k =>
    match w.transition k.start with
    | some w => w.setPc i (if k = .disable then .sStop else .sHook k)
    | none => w.setPc i (.failing typeError)
  | .sStop => (w.stopAll.put false).setPc i (.sHook .disable)
  | .sHook k =>
    match ch with
    | .failed m => w.setPc i (.failing m)
    | .aborted => w.setPc i (.failing "Aborted")
    | _ => w.setPc i (.sEnd k)
  | .sEnd k =>
    match w.transition k.finish with
    | some w => w.setPc i (.done .returned)
    | none => w.setPc i (.failing typeError)
  | .cValidate =>
    match ch with
    | .failed m => w.setPc i (.done (.raised m))
    | .aborted => w.setPc i (.done .aborted)
    | _ => w.setPc i .cRead
  | .cRead => w.setPc i (.cBegin (w.state = .finished))
  | .cBegin finished =>
    match w.transition .configuring with
    | some w => w.setPc i (if finished then .cReset else .cContexts)
    | none => w.setPc i (.failing typeError)
  | .cReset =>
    match ch with
    | .failed m => w.setPc i (.failing m)
    | .aborted => w.configureAborted i
    | _ => w.setPc i .cContexts
  | .cContexts => { w with gen := w.gen + 1, selfStops := 0 }.setPc i (.cBetween 0)
  | .cBetween k =>
    match ch with
    | .failed m => w.setPc i (.failing m)
    | _ =>
      if k < 4 then w.setPc i (.cHook k w.gen (w.stops w.gen))
      else { w with rq := w.rq + 1, queues := fun q => if q = w.rq + 1 then [] else w.queues q }.setPc i .cEnd
  | .cHook k g _ =>
    match ch with
    | .failed m => (w.stopHooks g).setPc i (.failing m)
    | .aborted => w.configureAborted i
    | _ => w.setPc i (.cBetween (k + 1))
  | .cEnd =>
    match w.abortable .armed with
    | .ok w => w.setPc i (.done .returned)
    | .aborted w => w.configureAborted i
    | .typeError => w.setPc i (.failing typeError)
  | .rBegin finished =>
    match w.transition .running with
    | some w => w.setPc i (.rBetween finished 0)
    | none => w.setPc i (.failing typeError)
  | .rBetween finished k =>
    if k = 2 then
      match w.abortable .postrun with
      | .ok w => w.setPc i (.rBetween finished 3)
      | .aborted w => w.runAborted i finished
      | .typeError => w.setPc i (.failing typeError)
    else
      match ch with
      | .failed m => w.setPc i (.failing m)
      | .other => w.setPc i (.rHook finished (if k = 3 then 4 else k) w.gen (w.stops w.gen))
      | _ => w.setPc i (.rHook finished k w.gen (w.stops w.gen))
  | .rHook finished k g _ =>
    match ch with
    | .failed m => (w.stopHooks g).setPc i (.failing m)
    | .aborted => w.runAborted i finished
    | _ => w.setPc i (if k < 4 then .rBetween finished (k + 1) else .rEnd finished)
  | .rEnd finished =>
    match w.abortable (if finished then .finished else .armed) with
    | .ok w => w.setPc i (.done .returned)
    | .aborted w => w.runAborted i finished
    | .typeError => w.setPc i (.failing typeError)
  | .rWait finished q =>
    match w.queues q with
    | [] => w
    | b :: rest =>
      { w with queues := fun p => if p = q then rest else w.queues p }.setPc i
        (if b then .rBetween finished 0 else .done .aborted)
  | .pFirst given => if !given ∧ w.state = .finished then w.setPc i (.done .returned) else w.setPc i .pSecond
  | .pSecond =>
    w.setPc i (.aBegin (.pause (if w.state = .armed ∨ w.state = .finished then .armed else .paused)))
  | .aBegin a =>
    match ({ w with abortQ := true } : World).transition a.start with
    | some w' =>
      w'.stopAll.setPc i (if w.state ∈ [St.ready, .armed, .paused, .finished] then .aIgnore a else .aWait a)
    | none => ({ w with abortQ := true } : World).setPc i (.failing typeError)
  | .aWait a => w.setPc i (.aIgnore a)
  | .aIgnore a => { w with selfStops := 0 }.setPc i (.aFresh a)
  | .aFresh a =>
    match ch with
    | .failed m => w.setPc i (.failing m)
    | .aborted => w.setPc i (.done .aborted)
    | _ => w.setPc i (if a = .abort then .aEnd a else .aBetween a 0)
  | .aBetween a k =>
    match ch with
    | .failed m => w.setPc i (.failing m)
    | _ => w.setPc i (.aHook a k w.gen (w.stops w.gen))
  | .aHook a k g _ =>
    match ch with
    | .failed m => (w.stopHooks g).setPc i (.failing m)
    | .aborted => w.setPc i (.done .aborted)
    | _ => w.setPc i (if k = 0 then .aBetween a 1 else .aEnd a)
  | .aEnd a =>
    match w.abortable a.finish with
    | .ok w => w.setPc i (if a = .abort then .aPut else .done .returned)
    | .aborted w => w.setPc i (.done .aborted)
    | .typeError => w.setPc i (.failing typeError)
  | .aPut => (w.put false).setPc i (.done .returned)
  | .resumeBegin =>
    match w.transition .running with
    | some w => w.setPc i .resumePut
    | none => w.setPc i (.done (.raised typeError))
  | .resumePut =>
    if w.rq = 0 then w.setPc i (.done (.raised "No resume queue")) else (w.put true).setPc i (.done .returned)
  | .failing m => (w.put false).setPc i (.faulting m)
  | .faulting m =>
    if w.state = .fault then w.setPc i (.done (.raised m))
    else
      match w.transition .fault m with
      | some w => w.setPc i (.done (.raised m))
      | none => w.setPc i (.done (.raised typeError))
  | .done _ => w

/-- The calls of the block -/
inductive Call
  | stateful (k : Kind)
  | configure
  /-- whether this is the last run: runnablecontroller.py 529-532 -/
  | run (finished : Bool)
  | abort
  /-- whether a step is given: runnablecontroller.py 673-687 -/
  | pause (given : Bool)
  | resume
  deriving DecidableEq, Repr

def Call.begin : Call → Pc
  | .stateful k => .sBegin k
  | .configure => .cValidate
  | .run finished => .rBegin finished
  | .abort => .aBegin .abort
  | .pause given => .pFirst given
  | .resume => .resumeBegin

inductive Event
  | call (c : Call)
  | step (i : Nat) (ch : Choice)
  deriving DecidableEq, Repr

def World.event (w : World) : Event → World
  | .call c => { w with threads := w.threads ++ [c.begin] }
  | .step i ch =>
    match w.threads[i]? with
    | some p => w.stepAt i ch p
    | none => w

def World.run (w : World) (es : List Event) : World := es.foldl World.event w

end Verif.Runnable
