import Verif.Model.PyDict
/-!
`RunnableController.validate`: malcolm/modules/scanning/controllers/runnablecontroller.py 354-416
and `resolve_generator_tweaks`: malcolm/modules/scanning/util.py 213-227.
-/
namespace Verif.Validate
open Verif

/-- scanning/infos.py `ParameterTweakInfo`: a parameter name and the value a part wants for it. -/
structure Tweak (K V : Type) where
  parameter : K
  value : V
  deriving DecidableEq, Repr

/-- How `validate` can fail: a part raised, a value was refused by its meta (or the parameter is not
one of configure's), or the tries ran out (line 416). -/
inductive Err
  | partRaised | badTweak | inconsistent
  deriving DecidableEq, Repr

/-- What `validate` is run against. `ask r p` is the outcome of the `r`-th call of `run_hooks` with
`ValidateHook`s given parameters `p`: every tweak of every part (`ParameterTweakInfo.filter_values`),
or a failure.  It depends on `r` because parts are arbitrary code that may answer differently each
time.  Simplification: the `ReportStatusHook` call (374-376) is part of `ask`. -/
structure Env (K V : Type) where
  ask : Nat → Dict K V → Except Err (List (Tweak K V))
  /-- `takes.elements[k].validate(v)`; failing for an unknown `k` is the KeyError -/
  deserialize : K → V → Option V
  /-- the key "generator" -/
  generator : K
  /-- `value.duration` of a generator, in units of the smallest time step -/
  duration : V → Int
  /-- the generator with `duration` replaced -/
  withDuration : V → Int → V

variable {K V : Type} [DecidableEq K]

/-- scanning/util.py 213-227 `resolve_generator_tweaks`; `none` for an empty list is Python's
IndexError, which the caller excludes. -/
def resolveGenerator (env : Env K V) : List (Tweak K V) → Option (Tweak K V)
  | [] => none
  | [t] => some t
  | t :: ts =>
    let largest := (t :: ts).foldl (fun m t => if env.duration t.value > m then env.duration t.value else m) 0
    some ⟨env.generator, env.withDuration t.value largest⟩

/-- runnablecontroller.py 405-409 (and 398-401 for a single tweak): store validated values. -/
def applyTweaks (env : Env K V) : Dict K V → List (Tweak K V) → Except Err (Dict K V)
  | params, [] => .ok params
  | params, t :: ts =>
    match env.deserialize t.parameter t.value with
    | none => .error .badTweak
    | some v => applyTweaks env (Dict.set params t.parameter v) ts

/-- runnablecontroller.py 389-412: what one round of tweaks does to the parameters. -/
def applyRound (env : Env K V) (params : Dict K V) (tweaks : List (Tweak K V)) :
    Except Err (Dict K V) :=
  let gens := tweaks.filter (fun t => t.parameter = env.generator)
  match resolveGenerator env gens with
  | some g => applyTweaks env params [g]
  | none => applyTweaks env params tweaks

/-- runnablecontroller.py 377-416, the `while` loop with `fuel` iterations left; `round` counts the
calls made. The second component is the log of the parameters the parts were asked about. -/
def loop (env : Env K V) : Nat → Nat → Dict K V → Except Err (Dict K V) × List (Dict K V)
  | 0, _, _ => (.error .inconsistent, [])
  | fuel + 1, round, params =>
    match env.ask round params with
    | .error e => (.error e, [params])
    | .ok [] => (.ok params, [params])
    | .ok (t :: ts) =>
      match applyRound env params (t :: ts) with
      | .error e => (.error e, [params])
      | .ok params' =>
        let r := loop env fuel (round + 1) params'
        (r.1, params :: r.2)

/-- runnablecontroller.py 366-370: `kwargs.setdefault(k, default)` for every default. -/
def withDefaults (kwargs defaults : Dict K V) : Dict K V :=
  defaults.foldl (fun d kv => if Dict.mem d kv.1 then d else Dict.set d kv.1 kv.2) kwargs

/-- runnablecontroller.py 354-416 `validate` -/
def validate (env : Env K V) (kwargs defaults : Dict K V) :
    Except Err (Dict K V) × List (Dict K V) :=
  loop env 10 0 (withDefaults kwargs defaults)

end Verif.Validate
