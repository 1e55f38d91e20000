import Verif.Model.Ca
/-!
What it means that an attribute shows its PV.
-/
namespace Verif.Spec.Ca
open Verif.Ca

variable {M V : Type}

/-- A value that a meta has made is kept or refused by any meta, as those of Malcolm do: a choice that is still one,
a number of the same type -/
def Canonical (validate : M → V → Option V) : Prop :=
  ∀ m m' v w u, validate m v = some w → validate m' w = some u → u = w

/-- The reading that an event brings: of the first PV asked for, of a monitor that is open, of the readback after a put -/
def reading (s : Caa M V) : Ev V → Option (Reading V)
  | .disable => none
  | .monitor _ r => if s.monitor then some r else none
  | .put _ (some (some r)) => some r
  | .put _ _ => none
  | .reconnect _ none => none
  | .reconnect _ (some (r, _)) => some r

/-- The readings that were brought to the attribute without an exception, oldest first, each with the meta that then
was there -/
def taken (c : Conf M V) (s : Caa M V) : List (Ev V) → List (M × Reading V)
  | [] => []
  | e :: es =>
    (match reading s e with
      | some r => if (step c s e).2 then [((step c s e).1.vmeta, r)] else []
      | none => []) ++ taken c (step c s e).1 es

/-- The alarm that says what a reading says -/
def Says (alarm : Alarm) : Reading V → Prop
  | .gone => alarm = .disconnected
  | .got _ 0 _ => alarm = .ok
  | .got _ (n + 1) _ => alarm = .record (n + 1)

/-- The last of the readings that has a value -/
def lastValue : List (M × Reading V) → Option (M × V)
  | [] => none
  | (m, r) :: l =>
    match lastValue l with
    | some x => some x
    | none => match r with
      | .got v _ _ => some (m, v)
      | .gone => none

/-- Times of callbacks: each is no sooner than the one before has returned -/
def Serial (minDelta after free : Int) (ts : List Int) : Prop := (paceAll minDelta after free ts).isSome

/-- What was last given for a column -/
def latest (name : String) : List (String × Reading (List Int)) → Option (Reading (List Int))
  | [] => none
  | (n, r) :: l =>
    match latest name l with
    | some x => some x
    | none => if n = name then some r else none

end Verif.Spec.Ca
