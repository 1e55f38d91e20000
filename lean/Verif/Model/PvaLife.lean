import Verif.Model.PyDict
/-!
Starting, disabling and resetting what connects Malcolm to pvAccess: the server, malcolm/modules/pva/controllers/pvaservercomms.py
265-362, and the client, pvaclientcomms.py 14-83 and 124-165, with the calls of builtin/controllers/statefulcontroller.py 78-110, 152-168.

Simplified: a call (init, reset, disable) is one event, the states during it are left out; what the hooks of parts do is only whether they
raise. p4p is taken from its documentation: a server that has been stopped serves nobody, a context that has been closed sends nothing, a
monitor that has been closed calls nobody.
-/
namespace Verif.PvaLife
open Verif

/-- builtin/util.py 137-141, without those during a call -/
inductive St
  | disabled | ready | fault
  deriving DecidableEq, Repr

/-! ### the server -/

/-- pvaservercomms.py 265-273 -/
structure Server where
  state : St
  /-- `_pva_server` is not None -/
  ref : Bool
  /-- there is a server that runs -/
  serving : Bool
  deriving DecidableEq, Repr

/-- statefulcontroller.py 38-55, pvaservercomms.py 268-271 -/
def Server.new : Server := { state := .disabled, ref := false, serving := false }

/-- statefulcontroller.py 78-110: the calls, with what goes well in them -/
inductive SEv
  /-- statefulcontroller.py 78-79: the process starts. `hooks`: those of the parts; `start`: making the Server -/
  | init (hooks start : Bool)
  /-- 94-95. `clients`: closing their channels (pvaservercomms.py 362) -/
  | disable (hooks clients : Bool)
  /-- 103-104 -/
  | reset (hooks : Bool)
  deriving DecidableEq, Repr

/-- pvaservercomms.py 327-346 in statefulcontroller.py 78-110, 152-168. builtin/util.py 149-160: from Ready there is no way to Resetting, which ends
in Fault; from Disabled none to Disabling. A reset may be called in Disabled and Fault only (statefulcontroller.py 50-52), a disable not in
Disabled (170-190). -/
def Server.step (s : Server) : SEv → Server
  | .init hooks start =>
    if s.state = .ready then { s with state := .fault }
    else if !hooks then { s with state := .fault }
    else if s.ref then { s with state := .ready }
    else if start then { state := .ready, ref := true, serving := true }
    else { s with state := .fault }
  | .disable hooks clients =>
    if s.state = .disabled then s
    else if !hooks then { s with state := .fault }
    else if !s.ref then { s with state := .disabled }
    else if clients then { state := .disabled, ref := false, serving := false }
    else { state := .fault, ref := true, serving := false }
  | .reset hooks =>
    if s.state = .ready then s
    else if hooks then { s with state := .ready }
    else { s with state := .fault }

/-- any history -/
def Server.run (s : Server) (es : List SEv) : Server := es.foldl Server.step s

/-! ### the client -/

/-- pvaclientcomms.py 18, 23, 32: the context -/
inductive Ctxt
  | none | opened | closed
  deriving DecidableEq, Repr

/-- The local copy of a block: its value, and whether its health says that it is connected (pvaclientcomms.py 68-71) -/
structure Copy (V : Type) where
  value : V
  ok : Bool
  deriving DecidableEq, Repr

/-- pvaclientcomms.py 14-25, with the blocks of the server and whether they can be reached -/
structure Client (V : Type) where
  state : St
  ctxt : Ctxt
  /-- the monitors, none before the first init (17) -/
  monitors : Option (List String)
  copies : Dict String (Copy V)
  /-- the blocks of the server -/
  remote : String → V
  /-- whether the server can be reached -/
  up : Bool

/-- statefulcontroller.py 38-55, pvaclientcomms.py 17-19 -/
def Client.new {V : Type} (remote : String → V) : Client V :=
  { state := .disabled, ctxt := .none, monitors := none, copies := [], remote := remote, up := true }

/-- pvaclientcomms.py 21-83: what happens -/
inductive CEv (V : Type)
  | init (hooks context : Bool)
  | disable (hooks : Bool)
  | reset (hooks : Bool)
  /-- proxycontroller.py 46: a proxy asks for its block -/
  | sync (mri : String)
  /-- a block changes on the server -/
  | change (mri : String) (v : V)
  /-- the server cannot be reached, and can be reached again -/
  | lost
  | back

/-- pvaclientcomms.py 81-82: whether what the server sends for a block gets to its copy -/
def Client.hears {V : Type} (c : Client V) (mri : String) : Bool :=
  decide (c.ctxt = .opened) && (match c.monitors with
    | some l => decide (mri ∈ l)
    | none => false)

/-- pvaclientcomms.py 62-79: what every monitored copy is told -/
def Client.tellAll {V : Type} (c : Client V) (f : String → Copy V → Copy V) : Client V :=
  { c with copies := c.copies.map (fun x => (x.1, if c.hears x.1 then f x.1 x.2 else x.2)) }

/-- pvaclientcomms.py 21-32, 50-83 in statefulcontroller.py 78-110, 152-168; the Bool is whether the call raised. `for m in None` (30) is a TypeError.
A block that cannot be reached in time (83) has its monitor, so it gets its value later; its health is that of a block that is not connected. A second init drops the monitors of the first.
-/
def Client.step {V : Type} (c : Client V) : CEv V → Client V × Bool
  | .init hooks context =>
    if c.state = .ready then ({ c with state := .fault }, true)
    else if hooks && context then ({ c with state := .ready, ctxt := .opened, monitors := some [] }, false)
    else ({ c with state := .fault }, true)
  | .disable hooks =>
    if c.state = .disabled then (c, true)
    else if !hooks then ({ c with state := .fault }, true)
    else match c.monitors with
      | none => ({ c with state := .fault }, true)
      | some _ => ({ c with state := .disabled, ctxt := .closed }, false)
  | .reset hooks =>
    if c.state = .ready then (c, true)
    else if hooks then ({ c with state := .ready }, false)
    else ({ c with state := .fault }, true)
  | .sync mri =>
    match c.monitors with
    | some l =>
      if c.ctxt = .opened then
        ({ c with monitors := some (l ++ [mri]), copies := Dict.set c.copies mri { value := c.remote mri, ok := c.up } }, !c.up)
      else (c, true)
    | none => (c, true)
  | .change mri v =>
    let c := { c with remote := fun n => if n = mri then v else c.remote n }
    (if c.up then c.tellAll (fun n x => { x with value := c.remote n }) else c, false)
  | .lost => ({ c with up := false }.tellAll (fun _ x => { x with ok := false }), false)
  | .back => ({ c with up := true }.tellAll (fun n _ => { value := c.remote n, ok := true }), false)

/-- any history -/
def Client.run {V : Type} (c : Client V) (es : List (CEv V)) : Client V := es.foldl (fun c e => (c.step e).1) c

/-- pvaclientcomms.py 139, 165: whether a put or a call can be sent -/
def Client.sends {V : Type} (c : Client V) : Bool := decide (c.ctxt = .opened) && c.up

end Verif.PvaLife
