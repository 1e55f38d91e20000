import Verif.Model.Validate
import Verif.Model.Steps
/-!
The parts of a runnable block whose only work is to look at the parameters of `configure`:
malcolm/modules/scanning/parts/unrollingpart.py, simultaneousaxespart.py and
doubletriggerpart.py, asked by the loop of `Model/Validate.lean`.

Simplified: times are integers in units of some smallest step.
-/
namespace Verif.ValParts
open Verif Verif.Validate

/-- What is used of a scanpointgenerator `CompoundGenerator`: its dimensions (with all its excluders taken into
account), the axes of each of its `SquashingExcluder`s, and its duration. -/
structure Gen where
  dims : List (Steps.Dim String)
  squashed : List (List String)
  duration : Int
  deriving DecidableEq, Repr

/-- scanpointgenerator: two dimensions joined into one, the outer one given first -/
def mergeDims (ds : List (Steps.Dim String)) : Steps.Dim String :=
  ⟨ds.flatMap (·.axes), Steps.genSize ds⟩

/-- does a dimension have one of these axes? -/
def touches (axes : List String) (d : Steps.Dim String) : Bool := d.axes.any (fun a => decide (a ∈ axes))

/-- scanpointgenerator: what `SquashingExcluder(axes)` does to the dimensions: all dimensions from the first to the
last that has one of the axes become one. Simplified: axes that no dimension has, and dimensions that may not be joined
because some alternate and others do not, are refused by scanpointgenerator when the generator is prepared. -/
def squashDims (axes : List String) (dims : List (Steps.Dim String)) : List (Steps.Dim String) :=
  let pre := dims.takeWhile (fun d => !touches axes d)
  let rest := (dims.dropWhile (fun d => !touches axes d)).reverse
  let post := (rest.takeWhile (fun d => !touches axes d)).reverse
  let mid := (rest.dropWhile (fun d => !touches axes d)).reverse
  if mid = [] then dims else pre ++ mergeDims mid :: post

/-- Python `set(a) == set(b)` -/
def sameSet (a b : List String) : Bool := a.all (fun x => decide (x ∈ b)) && b.all (fun x => decide (x ∈ a))

/-- unrollingpart.py 47-52: the generator with one more `SquashingExcluder` -/
def squash (axes : List String) (g : Gen) : Gen :=
  { g with dims := squashDims axes g.dims, squashed := g.squashed ++ [axes] }

/-- A row of the DetectorTable (scanning/util.py 146-161), without name and exposure -/
structure Row where
  enable : Bool
  mri : String
  frames : Int
  deriving DecidableEq, Repr

/-- The value of a parameter of `configure`. `dets none` is `None`. -/
inductive Val
  | gen (g : Gen)
  | axes (l : List String)
  | dets (t : Option (List Row))
  | other (n : Int)
  deriving DecidableEq, Repr

abbrev Params := Dict String Val

/-- The parts of the block, as far as the ValidateHook is concerned. -/
inductive Part
  /-- an UnrollingPart, with its `visible` -/
  | unroll (visible : Bool)
  /-- a SimultaneousAxesPart, with the value of its attribute -/
  | simultaneous (axes : List String)
  /-- a DoubleTriggerPart, with the value of `detector` of its child -/
  | doubleTrigger (mri : String)
  /-- a part that guesses the duration where none is given, as PmacChildPart (pmacchildpart.py 158-190, with no
  trigger for every point) and ExposureDeadtimePart (exposuredeadtimepart.py 87-101, with the exposure given) do -/
  | guess (d : Int)
  /-- any other part; the first argument counts how often it was asked -/
  | other (f : Nat → Params → Except Err (List (Tweak String Val)))

/-- unrollingpart.py 30-53 `on_validate` -/
def unrollValidate (visible : Bool) (g : Gen) (axes : List String) : List (Tweak String Val) :=
  if visible = false then []
  else if axes.length = 0 ∨ axes.length = 1 then []
  else if g.squashed.any (fun e => sameSet e axes) then []
  else [⟨"generator", .gen (squash axes g)⟩]

/-- simultaneousaxespart.py 34-40 `on_validate`; false is the AssertionError -/
def simultaneousValidate (allowed axes : List String) : Bool :=
  (axes.filter (fun a => decide (a ∉ allowed))).isEmpty

/-- doubletriggerpart.py 47-63 `on_validate`; false is the AssertionError or the ValueError. A DetectorTable is true
as a condition, whether it has rows or not. -/
def doubleValidate (mri : String) : Option (List Row) → Bool
  | none => false
  | some rows => rows.all (fun r => !(decide (r.mri = mri) && (r.enable && decide (r.frames ≠ 2))))

/-- What one part answers to the ValidateHook given the parameters it asks for by name (hook.py: a missing parameter
is an error unless it has a default, doubletriggerpart.py 50). -/
def answer (r : Nat) (p : Params) : Part → Except Err (List (Tweak String Val))
  | .unroll v =>
    match Dict.get? p "generator", Dict.get? p "axesToMove" with
    | some (.gen g), some (.axes l) => .ok (unrollValidate v g l)
    | _, _ => .error .partRaised
  | .simultaneous allowed =>
    match Dict.get? p "axesToMove" with
    | some (.axes l) => if simultaneousValidate allowed l then .ok [] else .error .partRaised
    | _ => .error .partRaised
  | .doubleTrigger mri =>
    match Dict.get? p "detectors" with
    | some (.dets t) => if doubleValidate mri t then .ok [] else .error .partRaised
    | none => if doubleValidate mri none then .ok [] else .error .partRaised
    | _ => .error .partRaised
  | .guess d =>
    match Dict.get? p "generator" with
    | some (.gen g) => if g.duration = 0 then .ok [⟨"generator", .gen { g with duration := d }⟩] else .ok []
    | _ => .error .partRaised
  | .other f => f r p

/-- runnablecontroller.py 381-387: all parts are asked; the tweaks are in the order of the parts (hook.py 195-197,
240); one exception makes the whole call fail -/
def askAll (r : Nat) (p : Params) : List Part → Except Err (List (Tweak String Val))
  | [] => .ok []
  | pt :: pts =>
    match answer r p pt, askAll r p pts with
    | .ok a, .ok b => .ok (a ++ b)
    | .error e, _ => .error e
    | _, .error e => .error e

def durationOf : Val → Int
  | .gen g => g.duration
  | _ => 0

def withDurationOf : Val → Int → Val
  | .gen g, d => .gen { g with duration := d }
  | v, _ => v

/-- The block: its parts asked by `RunnableController.validate`. The metas of the parameters take the values the parts
make (scanning/util.py 78-86 `PointGeneratorMeta.validate` returns a CompoundGenerator as it is). -/
def env (parts : List Part) : Env String Val where
  ask := fun r p => askAll r p parts
  deserialize := fun _ v => some v
  generator := "generator"
  duration := durationOf
  withDuration := withDurationOf

/-- scanning/util.py 57-60: no `axesToMove` means all axes of the generator -/
def fillAxes (p : Params) : Params :=
  match Dict.get? p "axesToMove", Dict.get? p "generator" with
  | none, some (.gen g) => Dict.set p "axesToMove" (.axes (g.dims.flatMap (·.axes)))
  | _, _ => p

/-- runnablecontroller.py 354-416 `validate` of this block -/
def validate (parts : List Part) (kwargs : Params) : Except Err Params :=
  (Validate.validate (env parts) (fillAxes kwargs) []).1

/-- how often the parts are asked -/
def asked (parts : List Part) (kwargs : Params) : Nat :=
  (Validate.validate (env parts) (fillAxes kwargs) []).2.length

end Verif.ValParts
