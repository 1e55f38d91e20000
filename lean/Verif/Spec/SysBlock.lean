import Verif.Model.SysBlock
/-!
What the block that stands for the process should do.
-/
namespace Verif.Spec.SysBlock
open Verif.SysBlock

/-- `f` is what was registered last for the hook `h` -/
def LastFor {H F : Type} (rs : List (Reg H F)) (h : H) (f : F) : Prop :=
  ∃ pre r post, rs = pre ++ r :: post ∧ h ∈ r.hooks ∧ r.func = f ∧ ∀ q ∈ post, h ∉ q.hooks

/-- The name of an IOC of a beamline, such as `TS01I-EA-IOC-01` -/
def IocOf (beamline name : Text) : Prop :=
  ∃ a b c d : Char, ('A' ≤ a ∧ a ≤ 'Z') ∧ ('A' ≤ b ∧ b ≤ 'Z') ∧ ('0' ≤ c ∧ c ≤ '9') ∧ ('0' ≤ d ∧ d ≤ '9') ∧
    name = beamline ++ ['-', a, b, '-', 'I', 'O', 'C', '-', c, d]

/-- One word: no spaces, no line breaks -/
def Word (t : Text) : Prop := ' ' ∉ t ∧ '\n' ∉ t

/-- A redirect table: on each line the name of something, a space, and where it is -/
def tableText (lines : List (Text × Text)) : Text := (lines.map (fun l => l.1 ++ ' ' :: (l.2 ++ ['\n']))).flatten

/-- The name does not merely end with the name of an IOC of the beamline -/
def NoLonger (beamline name : Text) : Prop := ∀ m, m <:+ name → IocOf beamline m → m = name

/-- The names separated by spaces, as a user writes them -/
def spaced (names : List Text) : Text := List.intercalate [' '] names

/-- The names can be monitored in a process with these blocks, by a block with these parts -/
structure Free (names blocks parts : List Text) : Prop where
  once : names.Nodup
  blocks : ∀ n ∈ names, n ++ ":STATUS".toList ∉ blocks
  parts : ∀ n ∈ names, n ∉ parts

/-- Everything goes well -/
def Fine (e : Env) : Prop := e.base = true ∧ e.popen = true ∧ e.hooks = true

end Verif.Spec.SysBlock
