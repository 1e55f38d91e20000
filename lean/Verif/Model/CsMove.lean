import Verif.Model.PyDict
/-!
Coordinated moves: malcolm/modules/pmac/parts/cspart.py 40-85 `CSPart.on_init` and `CSPart.move`.

A demand is a number that is only compared and passed on. What the controller does, which is not part of the repository: a demand that
arrives while moves are deferred waits, one that arrives else starts at once; what waits starts, all together, when moves are no longer
deferred. Then the attribute of the demand shows what arrived.
-/
namespace Verif.CsMove
open Verif

abbrev Text := List Char

/-- an axis by its index in CS_AXIS_NAMES, pmac/util.py 19: A B C U V W X Y Z -/
abbrev Axis := Fin 9

/-- A demand for an axis -/
abbrev Demand := Axis × Int

/-- The CS block, and the controller behind it -/
structure Child where
  /-- `deferMoves` -/
  deferred : Bool := false
  /-- `csMoveTime` -/
  time : Int := 0
  /-- the values of `demandA` and so on -/
  shown : Axis → Int := fun _ => 0
  /-- demands that wait -/
  queue : List Demand := []
  /-- what was started, each time all together -/
  started : List (List Demand) := []

/-- The points at which a call of `move` can be -/
inductive Pc
  | deferring                    -- before cspart.py 69
  | timing                       -- before 71
  | putting                      -- before 78
  | waiting (rest : List Demand) -- in the loop of 80
  | releasing                    -- before 83
  | ending                       -- in 85
  | done
  | failed
  deriving DecidableEq, Repr

/-- A call of `move`. `inflight` are the puts of 78 that have not arrived. -/
structure Mover where
  /-- `a` to `z` -/
  args : Axis → Option Int
  /-- `moveTime`, in seconds -/
  moveTime : Int
  pc : Pc := .deferring
  inflight : List Demand := []

/-- cspart.py 73-77: the demands that are given, in the order of the axes, which is also that of `sorted` in 80 and in
core/views.py 172 -/
def Mover.demands (m : Mover) : List Demand := (List.finRange 9).filterMap (fun a => (m.args a).map (fun v => (a, v)))

structure World where
  child : Child := {}
  movers : List Mover := []

/-- a demand arrives at the controller -/
def Child.receive (c : Child) (d : Demand) : Child :=
  let c := { c with shown := fun a => if a = d.1 then d.2 else c.shown a }
  if c.deferred then { c with queue := c.queue ++ [d] } else { c with started := c.started ++ [[d]] }

/-- `deferMoves` is put -/
def Child.defer (c : Child) (b : Bool) : Child :=
  if b then { c with deferred := true }
  else { c with deferred := false, queue := [], started := if c.queue = [] then c.started else c.started ++ [c.queue] }

/-- One step of a call: cspart.py 69-85. A wait whose value does not match goes on. -/
def stepMover (c : Child) (m : Mover) : Child × Mover :=
  match m.pc with
  | .deferring => (c.defer true, { m with pc := .timing })
  | .timing => ({ c with time := m.moveTime * 1000 }, { m with pc := .putting })
  | .putting => (c, { m with pc := .waiting m.demands, inflight := m.demands })
  | .waiting [] => (c, { m with pc := .releasing })
  | .waiting (d :: rest) => if c.shown d.1 = d.2 then (c, { m with pc := .waiting rest }) else (c, m)
  | .releasing => (c.defer false, { m with pc := .ending })
  | .ending => if m.inflight = [] then (c, { m with pc := .done }) else (c, m)
  | .done => (c, m)
  | .failed => (c, m)

inductive Event
  /-- a call is begun -/
  | call (args : Axis → Option Int) (moveTime : Int)
  /-- a call goes on -/
  | step (i : Nat)
  /-- the `k`-th of the puts in flight arrives -/
  | arrive (i k : Nat)
  /-- a call gets an exception: a put fails, or a wait takes too long -/
  | fail (i : Nat)

def World.event (w : World) : Event → World
  | .call args moveTime => { w with movers := w.movers ++ [{ args, moveTime }] }
  | .step i =>
    match w.movers[i]? with
    | none => w
    | some m => ⟨(stepMover w.child m).1, w.movers.set i (stepMover w.child m).2⟩
  | .arrive i k =>
    match w.movers[i]? with
    | none => w
    | some m =>
      match m.inflight[k]? with
      | none => w
      | some d => ⟨w.child.receive d, w.movers.set i { m with inflight := m.inflight.eraseIdx k }⟩
  | .fail i =>
    match w.movers[i]? with
    | none => w
    | some m => if m.pc = .done then w else { w with movers := w.movers.set i { m with pc := .failed } }

def World.run (w : World) (es : List Event) : World := es.foldl World.event w

/-- cspart.py 40-48 `on_init`: whether the port is accepted -/
def portAccepted (cs : Nat) (port : Text) : Bool := (Nat.toDigits 10 cs).isSuffixOf port

end Verif.CsMove
