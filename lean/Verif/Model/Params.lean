import Verif.Model.PyDict
/-!
The parameters that parts add to `configure`: malcolm/modules/scanning/controllers/runnablecontroller.py 58-118
`update_configure_model`, 296-335 `update_configure_params`, 337-352 `_part_params`, 365-371 of `validate`,
scanning/util.py 39-64 `ConfigureParams`, and core/hook.py 126-148 `Hook.__call__`.
-/
namespace Verif.Params

/-- What is used of metas and values. `M` are metas, `V` values, `R` rows of tables. -/
structure Ext (M V R : Type) where
  /-- `meta.validate(value)`, none is an exception -/
  validate : M → V → Option V
  /-- a TableMeta with a column that is not writeable (94-96) -/
  merged : M → Bool
  rows : V → List R
  fromRows : List R → V
  /-- `set_writeable(False)` -/
  readonly : M → M

variable {M V R : Type}

/-- scanning/infos.py 42-59 ConfigureParamsInfo -/
structure Info (M V : Type) where
  metas : Dict String M
  required : List String
  defaults : Dict String V

/-- What is used of a MethodMeta -/
structure Model (M V : Type) where
  elements : Dict String M
  required : List String
  defaults : Dict String V
  returns : Dict String M
  returnsRequired : List String
  deriving DecidableEq

/-- 63: the names in `ConfigureHook.call_types` (scanning/hooks.py 126-136) -/
def ignored : List String :=
  ["part", "context", "completed_steps", "steps_to_do", "part_info", "generator", "axesToMove", "breakpoints"]

/-- 72-74; none is a KeyError -/
def baseRequired (elements : Dict String M) : List String → List String × Dict String M → Option (List String × Dict String M)
  | [], s => some s
  | k :: ks, (req, metas) =>
    match Dict.get? elements k with
    | none => none
    | some m => baseRequired elements ks (req ++ [k], Dict.set metas k m)

/-- 76-80 for one info -/
def infoRequired (metasOf : Dict String M) : List String → List String × Dict String M → Option (List String × Dict String M)
  | [], s => some s
  | k :: ks, (req, metas) =>
    if k ∈ req ++ ignored then infoRequired metasOf ks (req, metas)
    else
      match Dict.get? metasOf k with
      | none => none
      | some m => infoRequired metasOf ks (req ++ [k], Dict.set metas k m)

/-- 75-80 -/
def allRequired : List (Info M V) → List String × Dict String M → Option (List String × Dict String M)
  | [], s => some s
  | i :: is, s =>
    match infoRequired i.metas i.required s with
    | none => none
    | some s => allRequired is s

/-- 83-85 -/
def baseOptional (req : List String) : Dict String M → Dict String M → Dict String M
  | [], metas => metas
  | (k, m) :: rest, metas => baseOptional req rest (if k ∈ req then metas else Dict.set metas k m)

/-- 91-104: the default of one parameter of one info -/
def addDefault (e : Ext M V R) (i : Info M V) (k : String) (m : M) (defaults : Dict String V) : Dict String V :=
  match Dict.get? i.defaults k with
  | none => defaults
  | some d =>
    if e.merged m then
      let rows := (match Dict.get? defaults k with | some v => e.rows v | none => []) ++ e.rows d
      Dict.set defaults k (e.fromRows rows)
    else Dict.set defaults k d

/-- 87-104 for one info -/
def infoOptional (e : Ext M V R) (req : List String) (i : Info M V) :
    Dict String M → Dict String M × Dict String V → Dict String M × Dict String V
  | [], s => s
  | (k, m) :: rest, (metas, defaults) =>
    if k ∈ req ++ ignored then infoOptional e req i rest (metas, defaults)
    else infoOptional e req i rest (Dict.set metas k m, addDefault e i k m defaults)

/-- 86-104 -/
def allOptional (e : Ext M V R) (req : List String) : List (Info M V) → Dict String M × Dict String V → Dict String M × Dict String V
  | [], s => s
  | i :: is, s => allOptional e req is (infoOptional e req i i.metas s)

/-- core/models.py 1082-1090 `set_defaults`; none is an exception -/
def setDefaults (e : Ext M V R) (elements : Dict String M) : Dict String V → Option (Dict String V)
  | [] => some []
  | (k, v) :: rest =>
    match Dict.get? elements k with
    | none => none
    | some m =>
      match e.validate m v, setDefaults e elements rest with
      | some w, some r => some ((k, w) :: r)
      | _, _ => none

/-- 58-118 `update_configure_model`: `base` has the elements and the required ones of `configure` itself -/
def update (e : Ext M V R) (base : Dict String M × List String) (infos : List (Info M V)) : Option (Model M V) :=
  match baseRequired base.1 base.2 ([], []) with
  | none => none
  | some s =>
    match allRequired infos s with
    | none => none
    | some (req, metas) =>
      let r := allOptional e req infos (baseOptional req base.1 metas, [])
      match setDefaults e r.1 r.2 with
      | none => none
      | some defaults =>
        some { elements := r.1, required := req, defaults := defaults,
               returns := r.1.map (fun c => (c.1, e.readonly c.2)), returnsRequired := req }

/-! ### the controller -/

/-- What a RunnableController has of this: the infos by part (`part_configure_params`), and what is published, the same
for `configure` and `validate` -/
structure State (M V : Type) where
  infos : Dict String (Info M V)
  published : Option (Model M V)
  /-- `self.process` is there -/
  process : Bool

/-- 307-316: the infos of the parts in the order of the parts -/
def partInfos (parts : List String) (infos : Dict String (Info M V)) : List (Info M V) :=
  parts.filterMap (fun p => Dict.get? infos p)

/-- 296-331 `update_configure_params` without a part; the Bool is whether there was no exception. An exception comes
before anything is put on the block (`set_took` and `set_returned` are taken to succeed). -/
def refresh (e : Ext M V R) (base : Dict String M × List String) (parts : List String) (s : State M V) : State M V × Bool :=
  if s.process then
    match update e base (partInfos parts s.infos) with
    | none => (s, false)
    | some m => ({ s with published := some m }, true)
  else (s, true)

/-- 296-331 with a part -/
def report (e : Ext M V R) (base : Dict String M × List String) (parts : List String) (s : State M V) (part : String)
    (i : Info M V) : State M V × Bool :=
  refresh e base parts { s with infos := Dict.set s.infos part i }

/-! ### a call -/

/-- core/models.py 1035-1040 -/
def validateLoop (e : Ext M V R) (given : Dict String V) : Dict String M → Option (Dict String V)
  | [] => some []
  | (k, m) :: rest =>
    match Dict.get? given k with
    | none => validateLoop e given rest
    | some v =>
      match e.validate m v, validateLoop e given rest with
      | some w, some r => some ((k, w) :: r)
      | _, _ => none

/-- core/models.py 1023-1045 `MapMeta.validate` -/
def validateCall (e : Ext M V R) (m : Model M V) (given : Dict String V) : Option (Dict String V) :=
  if (Dict.keys given).all (fun k => decide (k ∈ Dict.keys m.elements)) then
    match validateLoop e given m.elements with
    | none => none
    | some args => if m.required.all (fun k => decide (k ∈ Dict.keys args)) then some args else none
  else none

/-- 368-369: `kwargs.setdefault` of each default -/
def setdefault (kwargs : Dict String V) : Dict String V → Dict String V
  | [] => kwargs
  | (k, d) :: rest => setdefault (if k ∈ Dict.keys kwargs then kwargs else Dict.set kwargs k d) rest

/-- 368-371, 337-352 and scanning/util.py 49-64: what each part is offered at `configure`, of the arguments of an accepted
call: the defaults filled in, then the three parameters of `configure` itself (here by their names: they are always
there) and what the hook adds -/
def offered (m : Model M V) (args : Dict String V) : List String × Dict String V := (ignored, setdefault args m.defaults)

/-- hook.py 136-143: what is passed to the function of the part, of what it demands; none is the AssertionError.
The parameters of `configure` itself and of the hook are not in the result. -/
def passed (offer : List String × Dict String V) (demanded : List String) : Option (Dict String V) :=
  if demanded.all (fun k => decide (k ∈ offer.1 ++ Dict.keys offer.2)) then
    some (demanded.filterMap (fun k => (Dict.get? offer.2 k).map (fun v => (k, v))))
  else none

/-- hooks.py 151-166 `create_info` of a function: each of its parameters with its meta and default, where `none` is no
default and `some none` is None -/
def createInfo (sig : List (String × M × Option (Option V))) : Info M V :=
  let own := sig.filter (fun p => decide (p.1 ∉ ignored))
  { metas := own.foldl (fun d p => Dict.set d p.1 p.2.1) []
    required := own.filterMap (fun p => match p.2.2 with | none => some p.1 | _ => none)
    defaults := own.foldl (fun d p => match p.2.2 with | some (some v) => Dict.set d p.1 v | _ => d) [] }

end Verif.Params
