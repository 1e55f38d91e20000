import Verif.Model.Layout
/-!
The words of C30 in terms of the ports a manager knows and the attributes of the children.
-/
namespace Verif.Layout
open Verif.Tags (Port)

/-- The part of this name -/
def Manager.part? (m : Manager) (n : Name) : Option Part := m.parts.find? fun p => p.name = n

/-- The attribute of the child of a part, as a client reads it -/
def Manager.attr? (m : Manager) (p s : Name) : Option Attr := (m.part? p).bind fun p => p.child.get? s

/-- The row of the layout table for a part, as a client reads it -/
def Manager.row? (m : Manager) (n : Name) : Option LayoutInfo := Dict.get? m.layout n

/-- The part offers a source port of this type, under this value -/
def Offers (m : Manager) (q : Name) (t : Port) (v : String) : Prop := ∃ n, PortInfo.source n t v ∈ m.ports.of q

/-- The part has a sink port of this name and type, whose value without a wire is `off` -/
def HasSink (m : Manager) (p : Name) (s : Name) (t : Port) (off : String) : Prop :=
  ∃ v, PortInfo.sink s t off v ∈ m.ports.of p

/-- Port `s` of part `p`, without a wire `off`, is a sink wired to a source of part `q` -/
def Wired (m : Manager) (p s : Name) (off : String) (q : Name) : Prop :=
  ∃ t a, HasSink m p s t off ∧ m.attr? p s = some a ∧ Offers m q t a.value

/-- The rows ask for the part to be hidden -/
def Hides (rows : List Row) (n : Name) : Prop := ∃ r ∈ rows, r.name = n ∧ r.visible = false

def PortInfo.name : PortInfo → Name
  | .sink n .. => n
  | .source n .. => n

/-- The ports of a part have different names, and two sources of a part that are called the same have one type -/
def GoodPorts (infos : List PortInfo) : Prop :=
  (infos.map PortInfo.name).Nodup ∧
  ∀ n1 n2 t1 t2 v, PortInfo.source n1 t1 v ∈ infos → PortInfo.source n2 t2 v ∈ infos → t1 = t2

/-- The last thing the rows say about a part -/
def asked (rows : List Row) (n : Name) : Option Row := (rows.filter fun r => r.name = n).getLast?

/-- At the time of the first layout: a sink of `ports` has, according to them, a value that is not its value without a wire,
and its source is a port of `n`, or it is a port of `n` itself -/
def WiredFirst (ports : Ports) (n : Name) : Prop :=
  ∃ p infos s t off v q, (p, infos) ∈ ports ∧ PortInfo.sink s t off v ∈ infos ∧ v ≠ off ∧
    (sourceParts ports).get? v = some (q, t) ∧ q ≠ "" ∧ (n = q ∨ n = p)

/-- Just before the first layout: the parts have different names, none has seen a layout, and the ports are good -/
def Fresh (m : Manager) : Prop :=
  (m.parts.map Part.name).Nodup ∧ (∀ p ∈ m.parts, p.others = []) ∧ ∀ n, GoodPorts (m.ports.of n)

/-- A part that is made visible when the part is made is named by the first layout, or it is wired -/
def Announced (m : Manager) (rows : List Row) : Prop :=
  ∀ p ∈ m.parts, p.visible = some true → (asked rows p.name).isSome ∨ WiredFirst m.ports p.name

/-- The parts report good ports -/
def GoodOp : Op → Prop
  | .report _ infos => GoodPorts infos
  | _ => True

end Verif.Layout
