import Verif.Model.DataTable
/-!
What the table of datasets of a scan should say, in terms of the parameters of configure() and of what the parts write.
-/
namespace Verif.Spec.DataTable
open Verif.DataTable

/-- The detector takes part: a row with its name is enabled. -/
def TakesPart (rows : List Row) (name : Text) : Prop := ∃ r ∈ rows, r.name = name ∧ r.enable = true

instance (rows : List Row) (name : Text) : Decidable (TakesPart rows name) := by unfold TakesPart; infer_instance

/-- What a detector is to write: what its parts write when given the directory and template of the scan, and the name of the detector. -/
def detectorWrites (a : Args) (d : Det) : List Ds :=
  d.writes.flatMap (· { fileDir := a.fileDir, template := a.template, format := d.name })

/-- What is to be written: for each part in order, what it writes itself, or what its detector writes if it takes part. -/
def toBeWritten (a : Args) (parts : List Part) : List Ds :=
  parts.flatMap (fun
    | .writes f => f a
    | .det d => if TakesPart a.rows d.name then detectorWrites a d else [])

/-- The scan is configured: Armed, running, paused or Finished. -/
def Configured (s : Scan) : Prop := s.state = .armed ∨ s.state = .finished

/-- Neither configure() nor reset() of the scan -/
def Quiet : Op → Prop
  | .configure .. => False
  | .reset .. => False
  | _ => True

/-- Nobody else uses the detectors. -/
def Undisturbed : Op → Prop
  | .alone .. => False
  | .aloneReset .. => False
  | _ => True

/-- `s` can come about from `s0` by steps that are allowed, and `x` are the parameters of the last configure() it accepted, if it was not
reset after that. -/
inductive After (allowed : Op → Prop) (s0 : Scan) : Option Args → Scan → Prop
  | start : After allowed s0 none s0
  | configure {x : Option Args} {s : Scan} (a : Args) (ro : Nat → ROut) (o : Nat → Out) (h : How) : After allowed s0 x s →
      (s.state = .ready ∨ s.state = .finished) → After allowed s0 (some a) (step s (.configure a ro o h))
  | refused {x : Option Args} {s : Scan} (a : Args) (ro : Nat → ROut) (o : Nat → Out) (h : How) : After allowed s0 x s →
      ¬ (s.state = .ready ∨ s.state = .finished) → After allowed s0 x (step s (.configure a ro o h))
  | reset {x : Option Args} {s : Scan} (ro : Nat → ROut) (st : Bad) : After allowed s0 x s →
      s.state ≠ .ready → After allowed s0 none (step s (.reset ro st))
  | resetRefused {x : Option Args} {s : Scan} (ro : Nat → ROut) (st : Bad) : After allowed s0 x s →
      s.state = .ready → After allowed s0 x (step s (.reset ro st))
  | other {x : Option Args} {s : Scan} (op : Op) : After allowed s0 x s → allowed op → Quiet op → After allowed s0 x (step s op)

/-- As the process starts it: nothing is listed. -/
def Fresh (s : Scan) : Prop :=
  s.state = .ready ∧ s.table = [] ∧ ∀ d, .det d ∈ s.parts → d.table = []

/-- A part that writes one file, named by the template as Python fills it in. -/
def NamedByTemplate (f : Args → List Ds) : Prop := ∀ a, ∀ ds ∈ f a, fill a.template (some a.format) = some ds.file

end Verif.Spec.DataTable
