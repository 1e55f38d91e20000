import Verif.Model.PyDict
import Verif.Model.Exposure
/-!
How the parts that make a PandA trigger a scan find the blocks they use and check their wiring:
ADPandABlocks/parts/pandaseqtriggerpart.py 263-541 and ADPandABlocks/parts/pandapulsetriggerpart.py 99-203. The rows of
the sequencer tables are in `Verif.Seq`, the values of the pulses in `Verif.Exposure`.

Simplifications: the source of an export is a pair of a part name and a field name (part names have no dots); the layout
has only names and mris; values of blocks are strings, and `none` where the block or the attribute is not there.
-/
namespace Verif.TrigWiring
open Verif

/-- a row of the exports table: `((part, field), export)` (pandaseqtriggerpart.py 268, pandapulsetriggerpart.py 141) -/
abbrev Export := (String × String) × String

/-- What is read of a row of the positions table of the PandA: pandaseqtriggerpart.py 385-401 -/
structure Position where
  name : String
  datasetName : String
  scale : Int
  offset : Int
  deriving DecidableEq, Repr

/-- What is read of the PandA: pandaseqtriggerpart.py 266-287, 376-401, pandapulsetriggerpart.py 141-168 -/
structure PandA where
  exports : List Export
  layout : List (String × String)
  positions : List Position
  /-- mri and attribute -/
  value : String → String → Option String

/-! ### the two sequencers -/

/-- pandaseqtriggerpart.py 267-273: the loop over the exports; `none` is the failed assertion -/
def seqParts : List Export → Dict String String → Option (Dict String String)
  | [], d => some d
  | ((part, field), export_) :: l, d =>
    if export_ = "seqTableA" ∨ export_ = "seqTableB" then
      if field = "table" then seqParts l (d.set part export_) else none
    else seqParts l d

/-- pandaseqtriggerpart.py 279-282: the loop over the layout -/
def seqMris (parts : Dict String String) : List (String × String) → Dict String String → Dict String String
  | [], d => d
  | (name, mri) :: l, d =>
    match parts.get? name with
    | some e => seqMris parts l (d.set e mri)
    | none => seqMris parts l d

/-- pandaseqtriggerpart.py 263-288 `_get_blocks`: the mris of the two sequencers; `none` is a failed assertion. Sorted
values equal to the two names are the two names in one order or the other; after that the sorted keys are these names if
both are keys, as no others can be. -/
def getBlocks (p : PandA) : Option (String × String) :=
  match seqParts p.exports [] with
  | none => none
  | some parts =>
    if parts.values = ["seqTableA", "seqTableB"] ∨ parts.values = ["seqTableB", "seqTableA"] then
      match (seqMris parts p.layout []).get? "seqTableA", (seqMris parts p.layout []).get? "seqTableB" with
      | some a, some b => some (a, b)
      | _, _ => none
    else none

/-- What is known of an axis that is compared: pandaseqtriggerpart.py 400-404, the resolution and offset of the axis and
the two trigger conditions -/
structure Compared where
  resolution : Int
  offset : Int
  increasing : String
  decreasing : String
  deriving DecidableEq, Repr

/-- pandaseqtriggerpart.py 373-381: which input of the sequencers a position is wired to; `none` is the failed assertion
or an attribute that is not there -/
def seqPos (p : PandA) (a b : String) : List (String × String) → Dict String String → Option (Dict String String)
  | [], d => some d
  | (field, trig) :: l, d =>
    match p.value a field, p.value b field with
    | some x, some y => if x = y then seqPos p a b l (d.set x trig) else none
    | _, _ => none

/-- pandaseqtriggerpart.py 374-377, 381: the names for "a", "b" and "c" -/
def inputs : List (String × String) := [("posa", "POSA"), ("posb", "POSB"), ("posc", "POSC")]

/-- pandaseqtriggerpart.py 386-404: the loop over the positions; `axes` are the axes that move -/
def compare (seqPos : Dict String String) (axes : List String) : List Position → Dict String Compared → Dict String Compared
  | [], d => d
  | r :: l, d =>
    match seqPos.get? r.name with
    | none => compare seqPos axes l d
    | some pos =>
      if r.datasetName ∈ axes then
        compare seqPos axes l
          (d.set r.datasetName ⟨r.scale, r.offset, pos ++ ">=POSITION", pos ++ "<=POSITION"⟩)
      else compare seqPos axes l d

/-- What `on_configure` leaves for the rows: pandaseqtriggerpart.py 453-472 -/
inductive Triggers
  | none                                  -- nothing moves
  | compare (d : Dict String Compared)    -- 466
  | gate (axes : List String)             -- 468-472, on the signal of bit A
  deriving DecidableEq, Repr

/-- pandaseqtriggerpart.py 368-410 `setup_pcomp_dicts` -/
def setupPcomp (p : PandA) (a b : String) (axes : List String) : Option Triggers :=
  match seqPos p a b inputs [] with
  | none => none
  | some sp =>
    let d := compare sp axes p.positions []
    if d = [] then none else some (.compare d)

/-- pandaseqtriggerpart.py 424-478 `on_configure` up to the rows: the mris of the sequencers and the triggers; `none` is
an exception. `axes` are those of `cs_axis_mapping`, the ones that move; `rowTrigger` is the value of that attribute. -/
def seqConfigure (p : PandA) (rowTrigger : String) (axes : List String) : Option (String × String × Triggers) :=
  match getBlocks p with
  | none => none
  | some (a, b) =>
    if axes = [] then some (a, b, .none)
    else if rowTrigger = "Position Compare" then
      match setupPcomp p a b axes with
      | none => none
      | some t => some (a, b, t)
    else
      match p.value a "bita", p.value b "bita" with
      | some x, some y => if x = y ∧ y ≠ "ZERO" then some (a, b, .gate axes) else none
      | _, _ => none

/-! ### the gate of the sequencers -/

/-- The hooks of the part, pandaseqtriggerpart.py 337-350. `axes` says whether the scan moves something that the part
knows of. -/
inductive Hook
  | configure (axes : Bool)   -- ConfigureHook and SeekHook
  | preRun
  | run
  | reset
  | abort                     -- AbortHook and PauseHook
  | postInner (axes : Bool)   -- PostRunArmedHook
  deriving DecidableEq, Repr

/-- The part and the SRGATE block in front of the sequencers, pandaseqtriggerpart.py 304-305 -/
structure Gate where
  /-- the sequencers are enabled -/
  opened : Bool
  /-- `axis_mapping` is not empty -/
  axes : Bool := false
  /-- the PandA has a method exported as `seqReset` -/
  hasReset : Bool := true
  /-- for each time the tables were written, whether the sequencers were enabled -/
  writes : List Bool := []
  /-- for each time the run was begun, whether there were axes, whether the sequencers were enabled before and whether they
  were after -/
  runs : List (Bool × Bool × Bool) := []
  deriving DecidableEq, Repr

/-- pandaseqtriggerpart.py 518-526 `on_abort` with `reset_seq` of 412-419 and the errors of 521 -/
def Gate.shut (g : Gate) : Gate := if g.hasReset then { g with opened := false } else g

/-- pandaseqtriggerpart.py 455-472 and 489-492 -/
def Gate.load (g : Gate) (axes : Bool) : Gate := { g with axes := axes, writes := g.writes ++ [g.opened] }

/-- pandaseqtriggerpart.py 494-541: a hook that does not fail -/
def Gate.hook (g : Gate) : Hook → Gate
  | .configure axes => g.load axes                                       -- 424-492
  | .preRun => if g.axes then { g with opened := true } else g           -- 500-501
  | .run =>                                                              -- 507-508
    let g' : Gate := if g.axes then g else { g with opened := true }
    { g' with runs := g.runs ++ [(g.axes, g.opened, g'.opened)] }
  | .reset => g.shut                                                     -- 513-515
  | .abort => g.shut                                                     -- 518-526
  | .postInner axes => g.shut.load axes                                  -- 538-541

/-- What a RunnableController is doing, runnablecontroller.py 430-756 with the states of scanning/util.py 168-210 -/
inductive Doing
  | configuring | running | seeking | aborting | resetting
  deriving DecidableEq, Repr

/-- scanning/util.py 168-210: the states, with the hooks still to be run in those that do something -/
inductive Ctrl
  | ready | armed | paused | finished | aborted | fault | disabled
  | busy (doing : Doing) (rest : List Hook) (final : Ctrl)
  deriving DecidableEq, Repr

/-- What can happen to the controller: runnablecontroller.py 188-223 -/
inductive Call
  | configure (axes : Bool)
  | run (next : Option Bool)    -- of the last part of the scan, or with the axes of the next part
  | resume (next : Option Bool)
  | pause (axes : Bool)
  | abort
  | reset
  | disable
  | fail                        -- some part raises an error
  | next                        -- the next hook is run, or the call ends
  deriving DecidableEq, Repr

/-- runnablecontroller.py 561-589: the hooks of a run -/
def runHooks : Option Bool → List Hook
  | some axes => [.preRun, .run, .postInner axes]
  | none => [.preRun, .run]

/-- runnablecontroller.py 529-532: where the run ends -/
def runFinal : Option Bool → Ctrl
  | some _ => .armed
  | none => .finished

structure World where
  ctrl : Ctrl
  gate : Gate
  deriving DecidableEq, Repr

/-- runnablecontroller.py 430-756: `none` where the call is not allowed. Simplification: a hook is run as a whole, and an
abort, a pause, an error or a disable comes between two hooks. -/
def step (w : World) : Call → Option World
  | .configure axes =>
    match w.ctrl with
    | .ready => some { w with ctrl := .busy .configuring [.configure axes] .armed }                -- 446-452
    | .finished => some { w with ctrl := .busy .configuring [.reset, .configure axes] .armed }     -- 464-469
    | _ => none
  | .run next =>
    match w.ctrl with
    | .armed => some { w with ctrl := .busy .running (runHooks next) (runFinal next) }             -- 529-540
    | _ => none
  | .resume next =>
    match w.ctrl with
    | .paused => some { w with ctrl := .busy .running (runHooks next) (runFinal next) }            -- 546-549, 734-742
    | _ => none
  | .pause axes =>
    match w.ctrl with
    | .armed | .finished => some { w with ctrl := .busy .seeking [.abort, .configure axes] .armed }  -- 685-687
    | .paused | .busy .running _ _ =>
      some { w with ctrl := .busy .seeking [.abort, .configure axes] .paused }                       -- 688-692
    | _ => none
  | .abort =>
    match w.ctrl with
    | .ready | .armed | .paused | .finished => some { w with ctrl := .busy .aborting [.abort] .aborted }
    | .busy .configuring _ _ | .busy .running _ _ | .busy .seeking _ _ =>
      some { w with ctrl := .busy .aborting [.abort] .aborted }
    | _ => none
  | .reset =>
    match w.ctrl with
    | .armed | .finished | .aborted | .fault | .disabled => some { w with ctrl := .busy .resetting [.reset] .ready }
    | _ => none
  | .disable => some { w with ctrl := .disabled }
  | .fail =>
    match w.ctrl with
    | .busy _ _ _ => some { w with ctrl := .fault }
    | _ => none
  | .next =>
    match w.ctrl with
    | .busy _ [] final => some { w with ctrl := final }
    | .busy d (h :: rest) final => some { w with ctrl := .busy d rest final, gate := w.gate.hook h }
    | _ => none

/-- runnablecontroller.py 188-223: calls one after the other; those that are not allowed do nothing -/
def steps : World → List Call → World
  | w, [] => w
  | w, c :: l => steps ((step w c).getD w) l

/-! ### the pulse block of a detector -/

/-- What is read of a row of the detectors table: pandapulsetriggerpart.py 120 -/
structure DetRow where
  enable : Bool
  mri : String
  frames : Int
  deriving DecidableEq, Repr

/-- pandapulsetriggerpart.py 118-134: the frames per step for this detector; `none` is an exception -/
def framesPerStep (mri : String) : List DetRow → Option Nat
  | [] => none
  | r :: l =>
    if r.mri = mri then
      if r.enable then if r.frames > 0 then some r.frames.toNat else none
      else some 0
    else framesPerStep mri l

/-- pandapulsetriggerpart.py 139: the exports that are needed, in an order -/
def expected (name : String) : List String := [name ++ "Pulses", name ++ "Width", name ++ "Step", name ++ "Delay"]

/-- pandapulsetriggerpart.py 137-154: the part that all the exports come from, "" at first; `none` is a failed assertion -/
def pulsePart : List Export → String → List String → Option String
  | [], pulse, exp => if exp = [] then some pulse else none
  | ((part, _), e) :: l, pulse, exp =>
    if e ∈ exp then
      if pulse ≠ "" then
        if part = pulse then pulsePart l pulse (exp.erase e) else none
      else pulsePart l part (exp.erase e)
    else pulsePart l pulse exp

/-- pandapulsetriggerpart.py 157-162: the last row of that name -/
def pulseMri (part : String) : List (String × String) → String → Option String
  | [], mri => if mri = "" then none else some mri
  | (n, m) :: l, mri => pulseMri part l (if n = part then m else mri)

/-- pandapulsetriggerpart.py 165-175 -/
def unitsOk (p : PandA) (mri : String) : Bool :=
  ["width", "step", "delay"].all (fun s => decide (p.value mri (s ++ "Units") = some "s"))

/-- pandapulsetriggerpart.py 99-175 `on_configure`: the frames per step; `none` is an exception -/
def pulseConfigure (p : PandA) (name : String) (detector : String) (duration : ℚ) (rows : List DetRow) : Option Nat :=
  if duration > 0 then
    match framesPerStep detector rows with
    | none => none
    | some frames =>
      match pulsePart p.exports "" (expected name) with
      | none => none
      | some part =>
        match pulseMri part p.layout "" with
        | none => none
        | some mri => if unitsOk p mri then some frames else none
  else none

/-- The fields of the parts of the PandA that have been set; what a put to an exported attribute does, which is to put to
the field it is exported from (pandapulsetriggerpart.py 203) -/
def putExport (exports : List Export) (fields : Dict (String × String) ℚ) (e : String) (v : ℚ) : Dict (String × String) ℚ :=
  match exports.find? (fun x => decide (x.2 = e)) with
  | some (src, _) => fields.set src v
  | none => fields

/-- pandapulsetriggerpart.py 177-203 `on_post_configure`, with `state` that of the detector and `exposure` its exposure if
it has one: the fields afterwards; `none` is a failed assertion -/
def pulsePost (p : PandA) (name : String) (duration : ℚ) (frames : Nat) (state : String) (exposure : Option ℚ)
    (zeroDelay : Bool) (fields : Dict (String × String) ℚ) : Option (Dict (String × String) ℚ) :=
  if frames > 0 then
    if state = "Armed" then
      match Exposure.pulses duration frames exposure zeroDelay with
      | none => none
      | some v =>
        some (putExport p.exports (putExport p.exports (putExport p.exports (putExport p.exports fields
          (name ++ "Step") v.step) (name ++ "Width") v.width) (name ++ "Delay") v.delay) (name ++ "Pulses") v.pulses)
    else none
  else some fields

end Verif.TrigWiring
