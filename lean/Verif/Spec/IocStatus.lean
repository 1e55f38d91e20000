import Verif.Model.IocStatus
import Verif.Props.Yaml
/-!
What a RELEASE file says, and what the PVs of an IOC say.
-/
namespace Verif.Spec.IocStatus
open Verif.IocStatus
open Verif.Yaml (Text dollar)
open Verif.Props.Yaml (Tok render)

/-- A text with references `$(NAME)`: a `$` is only there to begin one -/
def Plain (ts : List Tok) : Prop :=
  ∀ t ∈ ts, match t with
    | .chr c => c ≠ '$'
    | .ref n => '$' ∉ n ∧ ')' ∉ n

/-- A line of a RELEASE file, as its reader sees it -/
inductive Line
  /-- any line that starts with # -/
  | comment (t : Text)
  /-- `NAME = path` -/
  | define (name : Text) (path : List Tok)
  /-- a line that defines nothing: empty, or an include -/
  | other (t : Text)

/-- How a line can be written: with any spaces -/
def Line.Written : Line → Text → Prop
  | .comment t, l => l = '#' :: t
  | .define n ts, l => ∃ l', l = l' ++ ['\n'] ∧ '\n' ∉ l' ∧ ¬ ['#'] <+: l' ∧ withoutSpaces l' = n ++ '=' :: render ts
  | .other t, l => l = t ++ ['\n'] ∧ '\n' ∉ t ∧ '=' ∉ t ∧ ¬ ['#'] <+: t

/-- What is needed of a definition to be read -/
def Line.Fine : Line → Prop
  | .define n ts => ')' ∉ n ∧ '=' ∉ n ∧ '=' ∉ render ts ∧ Plain ts
  | _ => True

/-- The definitions in a file -/
def defs (file : List Line) : List (Text × List Tok) :=
  file.filterMap (fun l => match l with | .define n ts => some (n, ts) | _ => none)

/-- What a name is defined as: the last definition counts -/
def defOf (file : List Line) (n : Text) : Option (List Tok) := ((defs file).reverse.find? (fun d => d.1 = n)).map (·.2)

/-- A text when the names have the values `ρ`; a name that the file doesn't define stays as it is written -/
def value (file : List Line) (ρ : Text → Text) (ts : List Tok) : Text :=
  ts.flatMap (fun t => match t with
    | .chr c => [c]
    | .ref n => if (defOf file n).isSome then ρ n else dollar n)

/-- The values that the definitions ask for -/
def Solves (file : List Line) (ρ : Text → Text) : Prop := ∀ n ts, defOf file n = some ts → ρ n = value file ρ ts

/-- No name is defined by itself, directly or by way of others -/
def Acyclic (file : List Line) : Prop :=
  ∃ rank : Text → Nat, ∀ n ts, defOf file n = some ts → ∀ m, Tok.ref m ∈ ts → (defOf file m).isSome → rank m < rank n

/-- Each name once, in the order in which they first come -/
def firsts : List Text → List Text
  | [] => []
  | n :: ns => n :: (firsts ns).filter (· ≠ n)

/-- The names that a file defines, in the order in which they come in the file -/
def names (file : List Line) : List Text := firsts ((defs file).map (·.1))

/-- The last thing that a PV said -/
def lastVersion (evs : List Ev) : Option (Option Text) :=
  evs.reverse.findSome? (fun e => match e with | .version v => some v | _ => none)
def lastDir1 (evs : List Ev) : Option Text :=
  evs.reverse.findSome? (fun e => match e with | .dir1 v => v | _ => none)
def lastDir2 (evs : List Ev) : Option Text :=
  evs.reverse.findSome? (fun e => match e with | .dir2 v => v | _ => none)
/-- procServ is there: the last that its PV said -/
def lastStatus (evs : List Ev) : Bool :=
  (evs.reverse.findSome? (fun e => match e with | .status b => some b | _ => none)).getD false

/-- The versions of IOCs that don't run from a production area, in capitals or not -/
def fromWork (v : Text) : Prop := v.map Char.toLower = "work".toList ∨ v.map Char.toLower = "other".toList
instance (v : Text) : Decidable (fromWork v) := by unfold fromWork; infer_instance

/-- What the health should be: by whether the IOC is there, and procServ is -/
def healthOf (version : Option (Option Text)) (procserv : Bool) : Health :=
  match version with
  | some (some v) => if fromWork v then .nonProd else .ok
  | _ => if procserv then .stopped else .absent

end Verif.Spec.IocStatus
