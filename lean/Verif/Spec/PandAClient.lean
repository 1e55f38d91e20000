import Verif.Model.PandAClient
/-!
What C39 means: how a PandA writes its replies, and how many of them have come in.
-/
namespace Verif.Spec.PandAClient
open Verif.PandAClient

/-- A text without newlines -/
def OneLine (l : List Char) : Prop := '\n' ∉ l

/-- What a PandA may reply: one line that is not taken for something else, an error, or any number of lines -/
def Valid : Resp → Prop
  | .line l => OneLine l ∧ ¬ ['!'] <+: l ∧ l ≠ ['.'] ∧ ¬ ['E', 'R', 'R'] <+: l
  | .error l => OneLine l ∧ ['E', 'R', 'R'] <+: l
  | .lines ls => ∀ l ∈ ls, OneLine l

/-- The lines of a reply with several lines, each after a `!` -/
def banged (ls : List Line) : List Char := ls.flatMap fun l => '!' :: l ++ ['\n']

/-- How a reply is written: several lines end with a line that is a dot -/
def render : Resp → List Char
  | .line l => l ++ ['\n']
  | .error l => l ++ ['\n']
  | .lines ls => banged ls ++ ['.', '\n']

/-- How many of the replies are complete when this many characters have come in -/
def complete : List Resp → Nat → Nat
  | [], _ => 0
  | r :: rs, n => if (render r).length ≤ n then complete rs (n - (render r).length) + 1 else 0

/-- The requests sent, in order -/
def sent {Id : Type} (ops : List (Op Id)) : List Id := ops.filterMap fun
  | .send i => some i
  | _ => none

/-- The text received, if every piece of it can be decoded -/
def received {Id : Type} : List (Op Id) → Option (List Char)
  | [] => some []
  | .recv bytes :: ops =>
    match decode bytes, received ops with
    | some t, some u => some (t ++ u)
    | _, _ => none
  | _ :: ops => received ops

/-- UTF-8: the bytes of a character -/
def utf8 (c : Char) : List Nat :=
  if c.toNat < 0x80 then [c.toNat]
  else if c.toNat < 0x800 then [0xC0 + c.toNat / 64, 0x80 + c.toNat % 64]
  else if c.toNat < 0x10000 then [0xE0 + c.toNat / 4096, 0x80 + c.toNat / 64 % 64, 0x80 + c.toNat % 64]
  else [0xF0 + c.toNat / 262144, 0x80 + c.toNat / 4096 % 64, 0x80 + c.toNat / 64 % 64, 0x80 + c.toNat % 64]

/-- Neither a failing send nor the end of the connection -/
def Healthy {Id : Type} (ops : List (Op Id)) : Prop := ∀ o ∈ ops, (∀ i, o ≠ .sendFails i) ∧ o ≠ .recv []

/-- No reply is complete before its request was sent -/
def Causal {Id : Type} (rs : List Resp) (ops : List (Op Id)) : Prop :=
  ∀ pre t, pre <+: ops → received pre = some t → complete rs t.length ≤ (sent pre).length

end Verif.Spec.PandAClient
