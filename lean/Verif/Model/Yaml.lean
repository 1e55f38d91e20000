import Verif.Model.PyDict
/-!
Block definitions in YAML: malcolm/yamlutil.py 20-70, 114-134, 164-173, 234-237, 288-318.
Texts are lists of characters.
-/
namespace Verif.Yaml

abbrev Text := List Char

/-- `text.replace(pat, rep)` for a non-empty `pat`: occurrences are found from the left and do not
overlap. `skip` characters belong to an occurrence already replaced. -/
def replaceGo (pat rep : Text) : Nat → Text → Text
  | _, [] => []
  | skip + 1, _ :: cs => replaceGo pat rep skip cs
  | 0, c :: cs =>
    if pat.isPrefixOf (c :: cs) then rep ++ replaceGo pat rep (pat.length - 1) cs
    else c :: replaceGo pat rep 0 cs

def replace (pat rep text : Text) : Text := replaceGo pat rep 0 text

/-- f"$({s})" -/
def dollar (s : Text) : Text := '$' :: '(' :: (s ++ [')'])

/-- A value in a section: a string, a list, or anything else (numbers, booleans, and also dictionaries) -/
inductive Val
  | str (t : Text)
  | list (vs : List Val)
  | other (n : Nat)

mutual
  /-- yamlutil.py 312-318 `replace_substitutions` -/
  def replaceSubstitutions (subst : Dict Text Text) : Val → Val
    | .str t => .str (subst.foldl (fun t kv => replace (dollar kv.1) kv.2 t) t)
    | .list vs => .list (replaceSubstitutionsList subst vs)
    | .other n => .other n
  def replaceSubstitutionsList (subst : Dict Text Text) : List Val → List Val
    | [] => []
    | v :: vs => replaceSubstitutions subst v :: replaceSubstitutionsList subst vs
end

/-- what is done to a string -/
def substText (subst : Dict Text Text) (t : Text) : Text :=
  subst.foldl (fun t kv => replace (dollar kv.1) kv.2 t) t

/-- The sections of a YAML file that make substitutions; parts, blocks, includes and the controller
only use them. Values are texts: numbers are written as text when they are substituted (371). -/
inductive Section
  /-- builtin.parameters.*: name and default -/
  | parameter (name : Text) (default : Option Text)
  /-- builtin.defines.*: name and value -/
  | define (name value : Text)
  | user
  deriving DecidableEq, Repr

/-- yamlutil.py 22-24: the parameter a section declares -/
def Section.parameter? : Section → Option (Text × Option Text)
  | .parameter n d => some (n, d)
  | _ => none

/-- yamlutil.py 20-28 `_create_takes_arguments`: the parameters as they are written, those without a
default first -/
def takes (sections : List Section) : List (Text × Option Text) :=
  let all := sections.filterMap Section.parameter?
  all.filter (fun p => p.2 = none) ++ all.filter (fun p => p.2 ≠ none)

/-- the value of one parameter in a call -/
def bindOne (given : Dict Text Text) (p : Text × Option Text) : Option (Text × Text) :=
  match Dict.get? given p.1 with
  | some v => some (p.1, v)
  | none =>
    match p.2 with
    | some d => some (p.1, d)
    | none => none

/-- yamlutil.py 235-237 with MapMeta.validate (models.py 1023-1045), and yamlutil.py 122-124: the call of the
creator with `given` and the `locals()` that the generated function passes on; `none` if it is refused.
The parameters' types are left out. -/
def bindArgs (sections : List Section) (given : Dict Text Text) : Option (Dict Text Text) :=
  if given.keys.any (fun k => decide (k ∉ (takes sections).map (·.1))) then none
  else (takes sections).mapM (bindOne given)

/-- yamlutil.py 59-63: the defaults -/
def addDefault (d : Dict Text Text) : Section → Dict Text Text
  | .parameter n (some v) => Dict.set d (substText d n) (substText d v)
  | _ => d

/-- yamlutil.py 66-69: the defines -/
def addDefine (d : Dict Text Text) : Section → Dict Text Text
  | .define n v => Dict.set d (substText d n) (substText d v)
  | _ => d

/-- yamlutil.py 53-70 `_create_defines` -/
def createDefines (sections : List Section) (yamlname yamldir : Text) (params : Dict Text Text) : Dict Text Text :=
  let d : Dict Text Text := [("yamlname".toList, yamlname), ("yamldir".toList, yamldir), ("docstring".toList, [])]
  let d := sections.foldl addDefault d
  let d := Dict.update d params
  sections.foldl addDefine d

end Verif.Yaml
