import Verif.Model.Modified
/-!
The words of C28: what the design last saved or loaded says, and what the manager has now.
-/
namespace Verif.Modified

/-- The value of a setting of the child of a part, as a client reads it -/
def Manager.value (m : Manager) (n k : Name) : Option Val := (m.part? n).bind fun p => p.settings.get? k

/-- The part is visible -/
def Manager.Visible (m : Manager) (n : Name) : Prop := (n, true) ∈ m.layout

/-- The visible column of the layout table -/
def Manager.column (m : Manager) : List Bool := m.layout.map (·.2)

/-- What a design says -/
structure Design where
  setting : Name → Name → Option Val
  column : List Bool
  exports : List (String × Name)

/-- What a save of the manager as it is now writes -/
def Manager.snapshot (m : Manager) : Design := ⟨m.value, m.column, m.exports⟩

/-- The design after an operation: a save writes one, a load reads one, for the parts that there are -/
def Design.next (d : Design) (m : Manager) : Op → Design
  | .save => m.snapshot
  | .load vis e c =>
    ⟨fun n k => if n ∈ m.parts.map (·.name) then (c.get? n).bind fun s => s.get? k else none,
      m.layout.map fun nv => vis nv.1, e⟩
  | _ => d

/-- The design last saved or loaded in a history -/
def Design.last (d : Design) (m : Manager) : List Op → Design
  | [] => d
  | o :: os => (d.next m o).last (m.op o) os

/-- A visible part has a setting that is not as the design says -/
def Differs (d : Design) (m : Manager) (n k : Name) : Prop := m.value n k ≠ none ∧ m.value n k ≠ d.setting n k

/-- A save or a load -/
def Op.cleans : Op → Bool
  | .save => true
  | .load .. => true
  | _ => false

/-- A setting that was different from the design when something was saved or loaded, and that has had the same value since -/
def Left (m : Manager) (os : List Op) (n k : Name) : Prop :=
  ∃ os1 o os2, os = os1 ++ o :: os2 ∧ o.cleans = true ∧ Differs (m.snapshot.last m os1) (m.ops os1) n k ∧
    ∀ os3 os4, os2 = os3 ++ os4 → (m.ops (os1 ++ o :: os3)).value n k = (m.ops os1).value n k

/-- A setting that is a table, and that a design that was loaded named -/
def LoadedTable (m : Manager) (os : List Op) (n k : Name) : Prop :=
  (∃ t, (m.ops os).value n k = some (.table t)) ∧
  ∃ vis e c, Op.load vis e c ∈ os ∧ ((c.get? n).bind fun s => s.get? k) ≠ none

/-- A design names a setting once -/
def GoodOp : Op → Prop
  | .load _ _ c => ∀ s ∈ c.values, s.keys.Nodup
  | _ => True

end Verif.Modified
