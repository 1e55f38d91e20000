import Verif.Model.Pva
import Verif.Model.PyDict
/-!
Methods called over pvAccess: `BlockHandler.rpc` of malcolm/modules/pva/controllers/pvaservercomms.py 42-112, the channels of
`PvaServerComms` (265-362), `send_post` of pvaclientcomms.py 150-166, `ProxyController` of builtin/controllers/proxycontroller.py
and `_handle_post` of malcolm/core/controller.py 240-281.

p4p enters in three places. A handler that raises has its operation answered with the error. `NTURI.wrap` puts the parameters
in the query, as they are. `makeChannel` is only called for a name for which `testChannel` said yes,
with nothing published in between.

Simplified: the connection is there for the whole call (there is no timeout); a parameter is not called `typeid`; what an
exception says is text.
-/
namespace Verif.PvaCall
open Verif Verif.Pva

/-- The name of a block, a field or a channel -/
abbrev Text := List Char

/-- That the function of a method of some block was called, with which parameters -/
abbrev Call := Text × Py

/-- What is used of a MethodModel and the function behind it -/
structure Meth where
  /-- core/models.py 1148: it returns one value which is not a map -/
  unpacked : Bool
  /-- core/controller.py 176-178 -/
  writeable : Bool
  /-- `meta.takes.validate`, none is an exception -/
  validate : Py → Option Py
  /-- core/controller.py 262: the functions that are called in the end, and what comes back -/
  run : Py → List Call × Except String Py

/-- A field of a block -/
inductive Fld
  | attr
  | method (m : Meth)

/-- A block that is served -/
structure Blk where
  mri : Text
  fields : Dict Text Fld

/-- core/controller.py 240-281 `_handle_post`, with 144-147 for the errors: what is called, and the Response. Taking the lock and
keeping the log of the method (274-277) are left out. -/
def handlePost (b : Blk) (name : Text) (params : Py) : List Call × Except String Py :=
  match Dict.get? b.fields name with
  | none => ([], .error "FieldError")
  | some .attr => ([], .error "AssertionError")
  | some (.method m) =>
    if m.writeable = false then ([], .error "NotWriteableError")
    else
      match m.validate params with
      | none => ([], .error "ValueError")
      | some took => m.run took

/-- What a client sends: pvaservercomms.py 44 -/
inductive Sent
  | uri (scheme path : Text) (query : Pv)
  | plain (v : Pv)

/-- p4p `ServerOperation`: the value, and `pvRequest().get("method")` -/
structure Op where
  value : Sent
  request : Option Text

/-- pvaservercomms.py 47-51: the rest of the path behind the name of the block and a dot -/
def behind : Text → Text → Option Text
  | [], path => some path
  | c :: pre, d :: path => if c = d then behind pre path else none
  | _ :: _, [] => none

/-- pvaservercomms.py 43-63 of `rpc`: the method and the parameters. none is an AssertionError. -/
def target (mri : Text) (field : Option Text) (op : Op) : Option (Text × Py) :=
  match op.value with
  | .uri scheme path query =>
    if scheme = "pva".toList then (behind (mri ++ ['.']) path).map (·, back query) else none
  | .plain v =>
    match field with
    | some f => some (f, back v)
    | none =>
      match op.request with
      | some (c :: cs) => some (c :: cs, back v)
      | _ => none

/-- pvaconvert.py 118-128 `convert_dict_to_value` -/
def toValue (v : Py) : Option Pv := asObj v (conv v)

/-- pvaservercomms.py 78-109 `handle_post_response` -/
def answer (unpacked : Bool) : Except String Py → Except String Pv
  | .error m => .error m
  | .ok v =>
    match toValue (if unpacked then .dict none [("return", v)] else v) with
    | some w => .ok w
    | none => .error "TypeError"

/-- pvaservercomms.py 42-112 `rpc`: what is called, and how the operation is answered -/
def rpc (b : Blk) (field : Option Text) (op : Op) : List Call × Except String Pv :=
  match target b.mri field op with
  | none => ([], .error "AssertionError")
  | some (name, params) =>
    match Dict.get? b.fields name with
    | none => ([], .error "KeyError")
    | some .attr => ([], .error "AssertionError")
    | some (.method m) => ((handlePost b name params).1, answer m.unpacked (handlePost b name params).2)

/-- pvaclientcomms.py 150-166 `send_post` to the server of the block -/
def sendPost (b : Blk) (name : Text) (params : Py) : List Call × Except String Py :=
  match conv params with
  | none => ([], .error "TypeError")
  | some q =>
    let r := rpc b none { value := .uri "pva".toList (b.mri ++ ['.'] ++ name) q, request := none }
    (r.1, r.2.map back)

/-- builtin/controllers/proxycontroller.py 52-53, 58-60: a method of the local copy. The metas come from the server (C76), and
whether it is writeable is left to the server. -/
def copyMeth (b : Blk) (name : Text) (m : Meth) : Meth where
  unpacked := m.unpacked
  writeable := true
  validate := m.validate
  run := sendPost b name

/-- proxycontroller.py 52-53: a field of the local copy -/
def copyField (b : Blk) (f : Text × Fld) : Text × Fld :=
  match f.2 with
  | .attr => (f.1, .attr)
  | .method m => (f.1, .method (copyMeth b f.1 m))

/-- builtin/controllers/proxycontroller.py 27-53: the local copy of a block that is served, which can be served itself -/
def copy (b : Blk) : Blk where
  mri := b.mri
  fields := b.fields.map (copyField b)

/-- A copy of a copy and so on, each in its own process (proxycontroller.py 46-50, with `publish`) -/
def copies (b : Blk) : Nat → Blk
  | 0 => b
  | n + 1 => copy (copies b n)

/-! The channels -/

/-- `rsplit(".", 1)` if there is a dot: pvaservercomms.py 283-285, 305-307 -/
def rsplit (t : Text) : Option (Text × Text) :=
  let f := t.reverse.takeWhile (· ≠ '.')
  match t.reverse.dropWhile (· ≠ '.') with
  | [] => none
  | _ :: m => some (m.reverse, f.reverse)

/-- pvaservercomms.py 279-289 `testChannel` -/
def testChannel (published : List Text) (ch : Text) : Bool :=
  if ch ∈ published then true
  else
    match rsplit ch with
    | some (mri, _) => decide (mri ∈ published)
    | none => false

/-- pvaservercomms.py 301-309: which block and field -/
def chanOf (published : List Text) (ch : Text) : Option (Text × Option Text) :=
  if ch ∈ published then some (ch, none)
  else (rsplit ch).map (fun r => (r.1, some r.2))

/-- `PvaServerComms`. PVs have numbers; `closed` are those closed for good. -/
structure Srv where
  up : Bool
  published : List Text
  pvs : Dict Text (Dict (Option Text) Nat)
  next : Nat
  closed : List Nat

/-- pvaservercomms.py 268-273 -/
def Srv.init : Srv := { up := false, published := [], pvs := [], next := 0, closed := [] }

/-- pvaservercomms.py 311-325. The process has a controller for each published block. -/
def pvFor (s : Srv) (mri : Text) (field : Option Text) : Srv × Nat :=
  let fs := (Dict.get? s.pvs mri).getD []
  match Dict.get? fs field with
  | some pv => (s, pv)
  | none => ({ s with pvs := Dict.set s.pvs mri (Dict.set fs field s.next), next := s.next + 1 }, s.next)

/-- pvaservercomms.py 356-362 `disconnect_pv_clients` for one block -/
def disconnect1 (s : Srv) (mri : Text) : Srv :=
  { s with pvs := Dict.erase s.pvs mri, closed := s.closed ++ ((Dict.get? s.pvs mri).getD []).map (·.2) }

/-- pvaservercomms.py 356-362 `disconnect_pv_clients` -/
def disconnectAll (s : Srv) (mris : List Text) : Srv := mris.foldl disconnect1 s

/-- What happens to the server -/
inductive Event
  /-- a client asks for a channel -/
  | ask (ch : Text)
  | publish (published : List Text)
  | up
  | down

/-- pvaservercomms.py 279-354, one event; with the PV a client is given -/
def serve (s : Srv) : Event → Srv × Option Nat
  | .ask ch =>
    if s.up = true ∧ testChannel s.published ch = true then
      match chanOf s.published ch with
      | some (mri, field) => ((pvFor s mri field).1, some (pvFor s mri field).2)
      | none => (s, none)
    else (s, none)
  | .publish l =>
    let s := { s with published := l }
    (if s.up then disconnectAll s ((Dict.keys s.pvs).filter (· ∉ l)) else s, none)
  | .up => ({ s with up := true }, none)
  | .down => (if s.up then { disconnectAll s (Dict.keys s.pvs) with up := false } else s, none)

/-- pvaservercomms.py 265-362: the server after what happened -/
def runs (s : Srv) : List Event → Srv
  | [] => s
  | e :: es => runs (serve s e).1 es

end Verif.PvaCall
