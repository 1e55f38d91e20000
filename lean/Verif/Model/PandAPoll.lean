import Verif.Model.PyDict
/-!
What a poll of the PandA does: malcolm/modules/pandablocks/controllers/pandamanagercontroller.py 239-312.

Simplifications. A field is named by its block and the rest of its name: the part before and after the first dot.
`block_changes` is one dictionary by block and field instead of a dictionary of dictionaries. The effect of a layout
in the metadata (277-284) on the layout table is left out: nothing is passed to a block for it.
-/
namespace Verif.PandAPoll

abbrev Text := List Char

/-- `"BLOCK.FIELD"`, split at the first dot -/
structure Key where
  block : Text
  field : Text
  deriving DecidableEq, Repr

/-- What the PandA reports for a field: something that `int()` takes, or anything else (a string, the lines of a
table, or None for a table that is still to come) -/
inductive Raw
  | int (n : Int)
  | other (s : Option (List Text))
  deriving DecidableEq, Repr

/-- What is passed on: a boolean for a bit, what was reported for anything else -/
inductive Val
  | bit (b : Bool)
  | raw (r : Raw)
  deriving DecidableEq, Repr

/-- pandamanagercontroller.py 60-68: `_bit_outs`, `_bit_out_changes`, `_bus_fields` -/
structure State where
  bitOuts : Dict Key Bool := []
  pending : Dict Key Bool := []
  busFields : List Key := []

/-- pandamanagercontroller.py 290-293: `bus_changes` and `block_changes` -/
structure Out where
  bus : Dict Key Val := []
  block : Dict Key Val := []

/-- "LABEL_" -/
def labelPrefix : Text := ['L', 'A', 'B', 'E', 'L', '_']

/-- "*METADATA" -/
def metadata : Text := ['*', 'M', 'E', 'T', 'A', 'D', 'A', 'T', 'A']

/-- pandamanagercontroller.py 271-286: the block and field that are told. `"LABEL_X".split("_", 1)` is LABEL and X -/
def dest (k : Key) : Option Key :=
  if k.block = metadata then
    if labelPrefix.isPrefixOf k.field then some ⟨k.field.drop 6, ['L', 'A', 'B', 'E', 'L']⟩ else none
  else some k

/-- pandamanagercontroller.py 265-286: tell the busses and the block -/
def emit (s : State) (o : Out) (k : Key) (v : Val) : Out :=
  { bus := (if k ∈ s.busFields then o.bus.set k v else o.bus)
    block := (match dest k with
      | some d => o.block.set d v
      | none => o.block) }

/-- pandamanagercontroller.py 239-286, `_handle_change`; `applied` is the argument `bit_out_changes`. `int(v)` raises
ValueError for a bit that is not a number: none -/
def handleChange (applied : Dict Key Bool) (s : State) (o : Out) (k : Key) (r : Raw) : Option (State × Out) :=
  match s.bitOuts.get? k with
  | some cur =>
    match r with
    | .other _ => none
    | .int n =>
      let v := decide (n ≠ 0)
      match applied.get? k with
      | none =>
        if v = cur then
          some ({ s with pending := s.pending.set k v, bitOuts := s.bitOuts.set k (!v) }, emit s o k (.bit (!v)))
        else some ({ s with bitOuts := s.bitOuts.set k v }, emit s o k (.bit v))
      | some c => if c ≠ v then some ({ s with pending := s.pending.set k v }, o) else some (s, o)
  | none => some (s, emit s o k (.raw r))

/-- pandamanagercontroller.py 298-302: a bit that was deferred at the last poll -/
def applyOne (so : State × Out) (kv : Key × Bool) : State × Out :=
  ({ so.1 with bitOuts := so.1.bitOuts.set kv.1 kv.2 },
   { bus := so.2.bus.set kv.1 (.bit kv.2), block := so.2.block.set kv.1 (.bit kv.2) })

/-- pandamanagercontroller.py 295-302: all bits that were deferred at the last poll -/
def applyPending (s : State) : State × Out := s.pending.foldl applyOne ({ s with pending := [] }, {})

/-- pandamanagercontroller.py 304-306 -/
def handleAll (applied : Dict Key Bool) : State → Out → List (Key × Raw) → Option (State × Out)
  | s, o, [] => some (s, o)
  | s, o, (k, r) :: rest =>
    match handleChange applied s o k r with
    | none => none
    | some (s', o') => handleAll applied s' o' rest

/-- pandamanagercontroller.py 288-312, `handle_changes`: the new state, and what the busses and the blocks are told -/
def poll (s : State) (reports : List (Key × Raw)) : Option (State × Out) :=
  let (s', o) := applyPending s
  handleAll s.pending s' o reports

/-- Poll after poll: pandamanagercontroller.py 116-150. Ends with the first exception -/
def polls : State → List (List (Key × Raw)) → Option (State × List Out)
  | s, [] => some (s, [])
  | s, p :: ps =>
    match poll s p with
    | none => none
    | some (s', o) =>
      match polls s' ps with
      | none => none
      | some (s'', os) => some (s'', o :: os)

/-- pandamanagercontroller.py 198-205: all bits off, nothing deferred -/
def start (bits : List Key) (others : List Key) : State :=
  { bitOuts := bits.map (·, false), pending := [], busFields := others ++ bits }

end Verif.PandAPoll
