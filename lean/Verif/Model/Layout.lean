import Verif.Model.PyDict
import Verif.Model.Tags
/-!
The layout of the children of a manager block:
malcolm/modules/builtin/parts/childpart.py 181-207, 368-456 (`on_layout`, `sever_sink_ports`,
`calculate_part_visibility`) and malcolm/modules/builtin/controllers/managercontroller.py 159-192 (`set_layout`).

Simplifications: every part of the manager is a child part; coordinates are integers; the values of ports are strings; a put
to an attribute of a child stores the value; the hooks of the parts, which run at the same time, touch only their own part
and its child, so they are run one after another; when one of them raises, the model gives no result.
-/
namespace Verif.Layout
open Verif.Tags (Port)

abbrev Name := String

/-- builtin/infos.py 29-73: `SinkPortInfo` and `SourcePortInfo` -/
inductive PortInfo
  | sink (name : Name) (port : Port) (disconnected value : String)
  | source (name : Name) (port : Port) (connected : String)
  deriving DecidableEq, Repr

/-- managercontroller.py 85, `port_info`: the ports of every part -/
abbrev Ports := Dict Name (List PortInfo)

/-- `ports.get(name, [])`, childpart.py 370, 398 -/
def Ports.of (ports : Ports) (name : Name) : List PortInfo := (ports.get? name).getD []

/-- What is read of an attribute of the child: its value and whether it is writeable -/
structure Attr where
  value : String
  writeable : Bool
  deriving DecidableEq, Repr

/-- childpart.py 107-122: a part, with the child it stands for. `others` is `part_visibility` -/
structure Part where
  name : Name
  mri : String
  x : Int := 0
  y : Int := 0
  visible : Option Bool
  others : Dict Name Bool := []
  child : Dict Name Attr
  deriving DecidableEq, Repr

/-- A row of a LayoutTable, builtin/util.py 87-100, without its mri, which nobody reads -/
structure Row where
  name : Name
  x : Int
  y : Int
  visible : Bool
  deriving DecidableEq, Repr

/-- builtin/infos.py 76-90 -/
structure LayoutInfo where
  mri : String
  x : Int
  y : Int
  visible : Bool
  deriving DecidableEq, Repr

/-- childpart.py 368-373, `_get_flowgraph_ports(ports, SinkPortInfo)`: port and disconnected value by name -/
def sinkPorts (infos : List PortInfo) : Dict Name (Port × String) :=
  infos.foldl (fun d i => match i with
    | .sink n t off _ => d.set n (t, off)
    | .source .. => d) []

/-- childpart.py 375-380, `_source_port_lookup` -/
def sourceLookup (infos : List PortInfo) : Dict String Port :=
  infos.foldl (fun d i => match i with
    | .source _ t v => d.set v t
    | .sink .. => d) []

/-- childpart.py 394-400, 410-415: whether to cut a sink of type `t` and value `v`. Without a part, or with an empty name,
`source_port_lookup` is True -/
def hit (ports : Ports) (connectedTo : Option Name) (v : String) (t : Port) : Bool :=
  match connectedTo with
  | none => true
  | some q => if q = "" then true else (sourceLookup (ports.of q)).get? v = some t

/-- childpart.py 408-417: `attribute_values`, here with the whole new attribute. `none` is the exception of an attribute
the child does not have -/
def cuts (ports : Ports) (connectedTo : Option Name) (child : Dict Name Attr) :
    Dict Name (Port × String) → Option (Dict Name Attr)
  | [] => some []
  | (n, t, off) :: rest =>
    match child.get? n with
    | none => none
    | some a =>
      match cuts ports connectedTo child rest with
      | none => none
      | some m => some (if hit ports connectedTo a.value t && a.writeable then (n, { a with value := off }) :: m else m)

/-- childpart.py 382-419. Nothing is looked at if `source_port_lookup` is the empty dictionary -/
def sever (ports : Ports) (connectedTo : Option Name) (p : Part) : Option Part :=
  match connectedTo with
  | some q =>
    if q ≠ "" ∧ (sourceLookup (ports.of q)).isEmpty then some p
    else (cuts ports connectedTo p.child (sinkPorts (ports.of p.name))).map
      fun m => { p with child := p.child.update m }
  | none => (cuts ports none p.child (sinkPorts (ports.of p.name))).map fun m => { p with child := p.child.update m }

/-- childpart.py 427-439: the part and type of every source -/
def sourceParts (ports : Ports) : Dict String (Name × Port) :=
  ports.foldl (fun d pi => pi.2.foldl (fun d i => match i with
    | .source _ t v => d.set v (pi.1, t)
    | .sink .. => d) d) []

/-- `if name not in self.part_visibility: self.part_visibility[name] = True`, childpart.py 453-456 -/
def show? (d : Dict Name Bool) (n : Name) : Dict Name Bool := if d.mem n then d else d.set n true

/-- childpart.py 441-456 -/
def calculateVisibility (ports : Ports) (others : Dict Name Bool) : Dict Name Bool :=
  ports.foldl (fun d pi => pi.2.foldl (fun d i => match i with
    | .sink _ t off v =>
      if v ≠ off then
        match (sourceParts ports).get? v with
        | some (q, t2) => if q ≠ "" ∧ t2 = t then show? (show? d q) pi.1 else d
        | none => d
      else d
    | .source .. => d) d) others

/-- One row in `on_layout`, childpart.py 185-197 -/
def onRow (ports : Ports) (p : Part) (r : Row) : Option Part :=
  if r.name = p.name then
    (if p.visible = some true ∧ r.visible = false then sever ports none p else some p).map
      fun p => { p with x := r.x, y := r.y, visible := some r.visible }
  else
    (if (p.others.get? r.name).getD false = true ∧ r.visible = false then sever ports (some r.name) p else some p).map
      fun p => { p with others := p.others.set r.name r.visible }

/-- All the rows, childpart.py 185-197 -/
def onRows (ports : Ports) : Part → List Row → Option Part
  | p, [] => some p
  | p, r :: rs => match onRow ports p r with
    | none => none
    | some p => onRows ports p rs

/-- `on_layout`, childpart.py 181-207, with the part after it -/
def onLayout (ports : Ports) (rows : List Row) (p : Part) : Option Part :=
  (onRows ports p rows).map fun p1 =>
    let p2 := if p.others.isEmpty then { p1 with others := calculateVisibility ports p1.others } else p1
    match p2.visible with
    | some _ => p2
    | none => { p2 with visible := some ((p2.others.get? p2.name).getD false) }

/-- childpart.py 206: what `on_layout` returns -/
def Part.info (p : Part) : LayoutInfo := ⟨p.mri, p.x, p.y, p.visible.getD false⟩

/-- The part of the manager that is about layout -/
structure Manager where
  parts : List Part
  ports : Ports := []
  layout : List (Name × LayoutInfo) := []
  deriving DecidableEq, Repr, Inhabited

/-- All the hooks of `run_hooks`, managercontroller.py 163-166 -/
def layoutHooks (ports : Ports) (rows : List Row) : List Part → Option (List Part)
  | [] => some []
  | p :: ps => match onLayout ports rows p, layoutHooks ports rows ps with
    | some p, some ps => some (p :: ps)
    | _, _ => none

/-- managercontroller.py 159-178: the hooks, and the table from what they return -/
def Manager.setLayout (m : Manager) (rows : List Row) : Option Manager :=
  (layoutHooks m.ports rows m.parts).map fun ps =>
    { m with parts := ps, layout := ps.map fun p => (p.name, p.info) }

/-- managercontroller.py 247-254, `update_exportable`: a part tells its ports -/
def Manager.report (m : Manager) (part : Name) (infos : List PortInfo) : Manager :=
  { m with ports := m.ports.set part infos }

/-- A client, or the device, gives an attribute of a child another value -/
def Manager.rewire (m : Manager) (part : Name) (n : Name) (v : String) : Manager :=
  { m with parts := m.parts.map fun p =>
      if p.name = part then { p with child := p.child.map fun na => if na.1 = n then (na.1, { na.2 with value := v }) else na }
      else p }

/-- What can happen to the layout of a manager -/
inductive Op
  | layout (rows : List Row)
  | report (part : Name) (infos : List PortInfo)
  | rewire (part n : Name) (v : String)
  deriving Repr

def Manager.op (m : Manager) : Op → Option Manager
  | .layout rows => m.setLayout rows
  | .report p infos => some (m.report p infos)
  | .rewire p n v => some (m.rewire p n v)

/-- A history. Simplification: it ends when a hook raises -/
def Manager.ops : Manager → List Op → Option Manager
  | m, [] => some m
  | m, o :: os => match m.op o with
    | none => none
    | some m => m.ops os

end Verif.Layout
