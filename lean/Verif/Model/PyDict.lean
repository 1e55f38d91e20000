/-!
Python insertion-ordered dictionaries (`dict`, `OrderedDict`) as association lists.

`malcolm/compat.py` re-exports `OrderedDict`; the code relies on insertion order and on
"assigning an existing key keeps its place".  These are the operations the modelled code uses.
-/
namespace Verif

/-- An insertion-ordered dictionary.  Simplification: an association list; keys are kept unique by
the operations below, not by the type. -/
abbrev Dict (K V : Type) := List (K × V)

namespace Dict
variable {K V : Type} [DecidableEq K]

/-- `d[k]` / `d.get(k)`; `none` is the `KeyError`/`None` case. -/
def get? : Dict K V → K → Option V
  | [], _ => none
  | (k', v) :: d, k => if k' = k then some v else get? d k

/-- `k in d` -/
def mem (d : Dict K V) (k : K) : Bool := (get? d k).isSome

/-- `d[k] = v`: keeps the place of an existing key, appends a new one. -/
def set : Dict K V → K → V → Dict K V
  | [], k, v => [(k, v)]
  | (k', v') :: d, k, v => if k' = k then (k', v) :: d else (k', v') :: set d k v

/-- `d.pop(k, None)` / `del d[k]`, the remaining dictionary. -/
def erase : Dict K V → K → Dict K V
  | [], _ => []
  | (k', v') :: d, k => if k' = k then d else (k', v') :: erase d k

/-- `list(d)` -/
def keys (d : Dict K V) : List K := d.map (·.1)

/-- `list(d.values())` -/
def values (d : Dict K V) : List V := d.map (·.2)

/-- `d.update(d2)` -/
def update (d d2 : Dict K V) : Dict K V := d2.foldl (fun acc kv => set acc kv.1 kv.2) d

end Dict
end Verif
