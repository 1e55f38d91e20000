import Verif.Model.Metas
/-! What it means for a value to be of the type a meta declares. -/
namespace Verif.Meta
open Verif

/-- An Array whose declared element type and whose elements are those of the meta. -/
def ColOk (m : ArrMeta) : Col → Prop
  | .arr t _ xs =>
    t = m.typ ∧ (∀ x ∈ xs, x.hasTyp t = true) ∧
    match m with
    | .choice c => ∀ x ∈ xs, x ∈ c.values
    | _ => True
  | _ => False

/-- The value is of the type the meta declares. -/
def Conforms : VMeta → Val → Prop
  | .bool, v => ∃ b, v = .col (.scalar (.bool b))
  | .num d, v => ∃ bits, v = .col (.scalar (.num d bits))
  | .str, v => ∃ s, v = .col (.scalar (.str s))
  | .choice c, v => ∃ x ∈ c.values, v = .col (.scalar x)
  | .arr m, v => ∃ c, v = .col c ∧ ColOk m c
  | .table elements, v => ∃ cols, v = .table cols ∧ cols.keys = elements.keys ∧
      (∀ k m c, (k, m) ∈ elements → Dict.get? cols k = some c → ColOk m c) ∧
      ∃ n, ∀ c ∈ cols.values, c.length = n

/-- A numpy array holds elements of its dtype. -/
def Col.WF : Col → Prop
  | .nd t xs => ∀ x ∈ xs, x.hasTyp t = true
  | .arr t true xs => ∀ x ∈ xs, x.hasTyp t = true
  | _ => True

def Val.WF : Val → Prop
  | .col c => c.WF
  | .dict d => ∀ c ∈ d.values, c.WF
  | .table d => ∀ c ∈ d.values, c.WF

/-- Not a bare value nor a bare numpy array: `None`, a string, a list or an Array. -/
def Col.Plain : Col → Prop
  | .scalar .none => True
  | .scalar (.str _) => True
  | .scalar _ => False
  | .nd _ _ => False
  | _ => True

/-- What is given to an array meta, or each column given to a table meta, is plain. -/
def PlainFor : VMeta → Val → Prop
  | .arr _, .col c => c.Plain
  | .table _, .dict d => ∀ c ∈ d.values, c.Plain
  | .table _, .table d => ∀ c ∈ d.values, c.Plain
  | _, _ => True

/-- Every choice meta has at least one choice. -/
def ArrMeta.HasChoices : ArrMeta → Prop
  | .choice c => c.values ≠ []
  | _ => True

def VMeta.HasChoices : VMeta → Prop
  | .choice c => c.values ≠ []
  | .arr m => m.HasChoices
  | .table elements => ∀ km ∈ elements, km.2.HasChoices
  | _ => True

/-- The value without the record of whether an Array wraps a numpy array or a list. -/
def Col.forget : Col → Col
  | .arr t _ xs => .arr t false xs
  | c => c

def Val.forget : Val → Val
  | .col c => .col c.forget
  | .dict d => .dict (d.map (fun kc => (kc.1, kc.2.forget)))
  | .table d => .table (d.map (fun kc => (kc.1, kc.2.forget)))

end Verif.Meta
