import Verif.Model.Metas
/-!
Handling one request: malcolm/core/controller.py 124-281, malcolm/core/request.py,
malcolm/core/models.py 1058-1247 (MethodMeta).

The user's put and post functions run with the lock released, so other threads may change the block
meanwhile: a function is an arbitrary map from the block before to the block after and an outcome.
-/
namespace Verif.Controller
open Verif Verif.Meta

/-- The part of an AttributeModel that requests look at. -/
structure Attr where
  vmeta : VMeta
  value : Val
  writeable : Bool
  deriving DecidableEq, Repr

/-- The part of a MethodModel that requests look at (models.py 1058-1095, 1213-1247): `unpacked` is the tag
`method:return:unpacked`; `took`/`returned` the logged values. -/
structure Method where
  takes : MapMeta
  returns : MapMeta
  defaults : Dict String Val := []
  unpacked : Bool := false
  writeable : Bool
  took : Dict String Val := []
  returned : Dict String Val := []
  deriving DecidableEq, Repr

/-- What `block[name]` can be: an Attribute, a Method, or something else (the block's `meta`). -/
inductive Field
  | attr (a : Attr)
  | method (m : Method)
  | other
  deriving DecidableEq, Repr

def Field.writeable : Field → Bool
  | .attr a => a.writeable
  | .method m => m.writeable
  | .other => false

abbrev Block := Dict String Field

/-- What a post function returns. -/
inductive Ret
  | none
  | value (v : Val)
  | map (d : Dict String Val)
  deriving DecidableEq, Repr

/-- A node of the serialized block. -/
inductive Obj
  | leaf (v : Val)
  | node (typeid : String) (children : List (String × Obj))

/-- What the controller is built from. -/
structure Env where
  ext : Ext
  /-- `_write_functions[name]` as used by Put (controller.py 180-181) -/
  putFn : String → Option (Block → Val → Block × Except Err Val)
  /-- `_write_functions[name]` as used by Post (controller.py 214-215) -/
  postFn : String → Option (Block → Dict String Val → Block × Except Err Ret)
  /-- the block as nested dictionaries, for Get -/
  tree : Block → Obj

/-- A call of a user function. -/
inductive Call
  | put (name : String) (v : Val)
  | post (name : String) (params : Dict String Val)
  deriving DecidableEq, Repr

/-- request.py: `cb` identifies the callback; a path has at least one element (84-88). `other` is
any Request of another class. -/
inductive Request
  | get (id cb : Nat) (path : List String)
  | put (id cb : Nat) (path : List String) (value : Val) (get : Bool)
  | post (id cb : Nat) (path : List String) (params : Dict String Val)
  | other (id cb : Nat)

def Request.id : Request → Nat
  | .get i _ _ | .put i _ _ _ _ | .post i _ _ _ | .other i _ => i

def Request.cb : Request → Nat
  | .get _ c _ | .put _ c _ _ _ | .post _ c _ _ | .other _ c => c

inductive Payload
  | obj (o : Obj)
  | val (v : Val)
  | ret (r : Ret)

inductive Response
  | ret (id : Nat) (p : Payload)
  | error (id : Nat) (e : Err)

def none' : Val := .col (.scalar .none)

/-- controller.py 159-172: walking down the path; a value with no items raises TypeError, which is
an Error response as well. -/
def Obj.walk : Obj → List String → Except Err Obj
  | o, [] => .ok o
  | .leaf _, _ :: _ => .error .type
  | .node _ cs, e :: p =>
    match Dict.get? cs e with
    | .none => .error .unexpected
    | some o => o.walk p

/-- controller.py 155-174 `_handle_get` -/
def handleGet (env : Env) (b : Block) (path : List String) : Except Err Payload :=
  match (env.tree b).walk path.tail with
  | .error e => .error e
  | .ok o => .ok (.obj o)

/-- controller.py 200-210: what the Return of a Put carries -/
def putResult (b : Block) (name : String) (get : Bool) (result : Val) : Except Err Payload :=
  if get ∧ result = none' then
    match Dict.get? b name with
    | some (.attr a) => .ok (.val a.value)
    | some _ => .error .attribute
    | .none => .error .key
  else if get then .ok (.val result)
  else .ok (.val none')

/-- controller.py 183-212 `_handle_put` (with 176-178): the block afterwards, the call of the put
function if there was one, and the outcome. -/
def handlePut (env : Env) (b : Block) (path : List String) (value : Val) (get : Bool) :
    Block × List Call × Except Err Payload :=
  match path with
  | _ :: name :: _ =>
    match Dict.get? b name with
    | .none => (b, [], .error .field)
    | some (.attr a) =>
      if a.writeable then
        match env.putFn name with
        | .none => (b, [], .error .key)
        | some f =>
          match env.ext.validate a.vmeta value with
          | .error e => (b, [], .error e)
          | .ok v =>
            match f b v with
            | (b', .error e) => (b', [.put name v], .error e)
            | (b', .ok r) => (b', [.put name v], putResult b' name get r)
      else (b, [], .error .notWriteable)
    | some _ => (b, [], .error .assertion)
  | _ => (b, [], .error .index)

/-- controller.py 262-270: the map that is logged as returned. Simplification: a method with the
`unpacked` tag that returns a map is refused (models.py 1147-1149 give the tag only to functions
returning a single value). -/
def returnedValue (m : Method) : Ret → Except Err (Dict String Val)
  | .none => if m.unpacked then .ok [("return", none')] else .ok []
  | .value v => if m.unpacked then .ok [("return", v)] else .error .type
  | .map d => if m.unpacked then .error .type else .ok d

/-- controller.py 221-227: `took` of the method in the block is set. If the user function has replaced the method the
log goes to the old object, which is no longer in the block. -/
def setTook (b : Block) (name : String) (t : Dict String Val) : Block :=
  match Dict.get? b name with
  | some (.method m') => Dict.set b name (.method { m' with took := t })
  | _ => b

/-- controller.py 228-238: and `returned` -/
def setReturned (b : Block) (name : String) (r : Dict String Val) : Block :=
  match Dict.get? b name with
  | some (.method m') => Dict.set b name (.method { m' with returned := r })
  | _ => b

/-- controller.py 217-238 `update_method_logs`: the block afterwards, and the exception if there is one; `took` is set before
what was returned is looked at. Simplification: a user function that describes its own method anew is left to Model.CallLog. -/
def updateLogs (env : Env) (b : Block) (name : String) (m : Method) (took : Dict String Val)
    (returned : Except Err (Dict String Val)) : Block × Option Err :=
  match env.ext.validateMap m.takes took true with
  | .error e => (b, some e)
  | .ok t =>
    match returned with
    | .error e => (setTook b name t, some e)
    | .ok d =>
      match env.ext.validateMap m.returns d true with
      | .error e => (setTook b name t, some e)
      | .ok r => (setReturned (setTook b name t) name r, .none)

/-- controller.py 240-281 `_handle_post`. An error in the `finally` block replaces the outcome. -/
def handlePost (env : Env) (b : Block) (path : List String) (params : Dict String Val) :
    Block × List Call × Except Err Payload :=
  match path with
  | _ :: name :: _ =>
    match Dict.get? b name with
    | .none => (b, [], .error .field)
    | some (.method m) =>
      if m.writeable then
        match env.postFn name with
        | .none => (b, [], .error .key)
        | some f =>
          match env.ext.validateMap m.takes params false with
          | .error e => (b, [], .error e)
          | .ok took =>
            match f b took with
            | (b', .error e) =>
              match updateLogs env b' name m took (.ok []) with
              | (b'', some e2) => (b'', [.post name took], .error e2)
              | (b'', .none) => (b'', [.post name took], .error e)
            | (b', .ok r) =>
              match updateLogs env b' name m took (returnedValue m r) with
              | (b'', some e2) => (b'', [.post name took], .error e2)
              | (b'', .none) => (b'', [.post name took], .ok (.ret r))
      else (b, [], .error .notWriteable)
    | some _ => (b, [], .error .assertion)
  | _ => (b, [], .error .index)

/-- What comes of one request: the block, the calls made, the responses with the callback each is
given to, and whether the thread ended with an exception. -/
structure Outcome where
  block : Block
  calls : List Call
  responses : List (Nat × Response)
  raised : Bool

/-- controller.py 145-148: the Return, or the Error for what the handler raised (request.py 55-64) -/
def respond (id : Nat) : Except Err Payload → Response
  | .ok p => .ret id p
  | .error e => .error id e

/-- controller.py 129-153 `_handle_request`, for the requests this file models (Subscribe and
Unsubscribe are in Verif.Model.Notifier). A callback that raises is not modelled. -/
def handle (env : Env) (b : Block) : Request → Outcome
  | .get i c path =>
    { block := b, calls := [], responses := [(c, respond i (handleGet env b path))], raised := false }
  | .put i c path value get =>
    let r := handlePut env b path value get
    { block := r.1, calls := r.2.1, responses := [(c, respond i r.2.2)], raised := false }
  | .post i c path params =>
    let r := handlePost env b path params
    { block := r.1, calls := r.2.1, responses := [(c, respond i r.2.2)], raised := false }
  | .other _ _ => { block := b, calls := [], responses := [], raised := true }

/-- models.py 323-344 `AttributeModel.set_value`, used as the put function of an attribute that has
no special one: validates again and stores. -/
def setValue (ext : Ext) (name : String) (b : Block) (v : Val) : Block × Except Err Val :=
  match Dict.get? b name with
  | some (.attr a) =>
    match ext.validate a.vmeta v with
    | .error e => (b, .error e)
    | .ok w => (Dict.set b name (.attr { a with value := w }), .ok w)
  | _ => (b, .error .attribute)

/-! ### Methods made from functions (models.py 1097-1158) -/

/-- A parameter of a decorated function: its name, its meta, and its default: none (NO_DEFAULT),
`None`, or a value. -/
structure Param where
  name : String
  vmeta : VMeta
  dflt : Option (Option Val)
  deriving DecidableEq, Repr

/-- models.py 1126-1138: the `takes` of the method -/
def fromCallable (sig : List Param) : MapMeta :=
  { elements := sig.map (fun p => (p.name, p.vmeta)),
    required := (sig.filter (fun p => p.dflt = Option.none)).map (·.name) }

/-- The Python call `func(**args)`: every parameter gets its argument or its own default; TypeError
if one has neither, or if there is an argument that is no parameter. -/
def bindLoop (args : Dict String Val) : List Param → Except Err (Dict String Val)
  | [] => .ok []
  | p :: ps =>
    match Dict.get? args p.name, p.dflt with
    | some v, _ =>
      match bindLoop args ps with
      | .error e => .error e
      | .ok d => .ok ((p.name, v) :: d)
    | .none, some dv =>
      match bindLoop args ps with
      | .error e => .error e
      | .ok d => .ok ((p.name, dv.getD none') :: d)
    | .none, .none => .error .type

def bind (sig : List Param) (args : Dict String Val) : Except Err (Dict String Val) :=
  if args.keys.any (fun k => !decide (k ∈ sig.map (·.name))) then .error .type
  else bindLoop args sig

end Verif.Controller
