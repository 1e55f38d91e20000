/-!
Driver versions: malcolm/modules/ADCore/util.py 115-127 `check_driver_version` with the parts of
`packaging.version.Version` that it uses.
-/
namespace Verif.Version

/-- `packaging.version.Version`: the release numbers. Epoch, pre-, post-, development releases and
local versions are parsed by the real class but not looked at by `check_driver_version`; here they are
whatever `suffix` is. -/
structure Version where
  release : List Nat
  suffix : String := ""
  deriving DecidableEq, Repr

/-- `Version.major`, `minor` and `micro`: missing numbers are 0 -/
def Version.major (v : Version) : Nat := v.release[0]?.getD 0
def Version.minor (v : Version) : Nat := v.release[1]?.getD 0
def Version.micro (v : Version) : Nat := v.release[2]?.getD 0

/-- ADCore/util.py 115-127: true if it does not raise IncompatibleError -/
def checkDriverVersion (driver required : Version) : Bool :=
  if required.major ≠ driver.major ∨ driver.minor < required.minor then false else true

/-- Reading the digits of a number, most significant first. -/
def digits : List Char → Option Nat
  | [] => none
  | cs => if cs.all Char.isDigit then some (cs.foldl (fun n c => 10 * n + (c.toNat - '0'.toNat)) 0) else none

/-- Splitting at each "." -/
def splitDots : List Char → List Char × List (List Char)
  | [] => ([], [])
  | c :: cs =>
    let r := splitDots cs
    if c = '.' then ([], r.1 :: r.2) else (c :: r.1, r.2)

/-- `Version(text)` for texts that are release numbers only ("3.10.2"): `none` for InvalidVersion.
Texts with an epoch, a "v" in front, or a suffix are not modelled. -/
def parse (text : List Char) : Option Version :=
  let parts := splitDots text
  ((parts.1 :: parts.2).mapM digits).map (fun r => { release := r })

/-- ADCore/util.py 115-127 on the texts: `none` if one of them is not a version -/
def checkTexts (driver required : List Char) : Option Bool :=
  match parse driver with
  | none => none
  | some d =>
    match parse required with
    | none => none
    | some r => some (checkDriverVersion d r)

end Verif.Version
