import Verif.Model.TrigWiring
/-!
What someone who wires up a PandA for a scan relies on.
-/
namespace Verif.Spec.TrigWiring
open Verif Verif.TrigWiring

/-- No two exports and no two parts of the PandA have the same name. -/
def WellFormed (p : PandA) : Prop := (p.exports.map (·.2)).Nodup ∧ (p.layout.map (·.1)).Nodup

/-- Block `mri` is that of part `part`, whose table is exported under the name. -/
def SeqAt (p : PandA) (export_ part mri : String) : Prop :=
  ((part, "table"), export_) ∈ p.exports ∧ (part, mri) ∈ p.layout

/-- The three position inputs of a sequencer, as a field of the block and as it is called in trigger conditions. -/
inductive Input : String → String → Prop
  | a : Input "posa" "POSA"
  | b : Input "posb" "POSB"
  | c : Input "posc" "POSC"

/-- The position is wired to this input of both sequencers. -/
def Wired (p : PandA) (a b field position : String) : Prop :=
  p.value a field = some position ∧ p.value b field = some position

/-- The sequencers can see where axis `s` is: `r` is the row of the positions of the PandA for it. -/
def Visible (p : PandA) (a b : String) (s : String) (r : Position) (trig : String) : Prop :=
  r ∈ p.positions ∧ r.datasetName = s ∧ ∃ field, Input field trig ∧ Wired p a b field r.name

/-- The conditions are those for this input, and the counts are worked out with the numbers of this position. -/
def ComparesWith (c : Compared) (r : Position) (trig : String) : Prop :=
  c.resolution = r.scale ∧ c.offset = r.offset ∧ c.increasing = trig ++ ">=POSITION" ∧ c.decreasing = trig ++ "<=POSITION"

/-- The four exports for the pulses of a detector all come from this part. -/
def PulseExports (p : PandA) (name part : String) : Prop :=
  ∀ s ∈ ["Pulses", "Width", "Step", "Delay"], ∃ field, ((part, field), name ++ s) ∈ p.exports

/-- Each of them comes from the field of that name. -/
def PulseFields (p : PandA) (name part : String) : Prop :=
  ((part, "pulses"), name ++ "Pulses") ∈ p.exports ∧ ((part, "width"), name ++ "Width") ∈ p.exports ∧
  ((part, "step"), name ++ "Step") ∈ p.exports ∧ ((part, "delay"), name ++ "Delay") ∈ p.exports

/-- All times of this pulse block are in seconds. -/
def InSeconds (p : PandA) (mri : String) : Prop :=
  p.value mri "widthUnits" = some "s" ∧ p.value mri "stepUnits" = some "s" ∧ p.value mri "delayUnits" = some "s"

/-- The first row of the table for this detector says so many frames per step, none if it is not enabled. -/
def Asked (rows : List DetRow) (mri : String) (frames : Nat) : Prop :=
  ∃ (before : List DetRow) (r : DetRow) (after : List DetRow), rows = before ++ r :: after ∧ (∀ x ∈ before, x.mri ≠ mri) ∧ r.mri = mri ∧
    ((r.enable = true ∧ 0 < r.frames ∧ r.frames = frames) ∨ (r.enable = false ∧ frames = 0))

end Verif.Spec.TrigWiring
