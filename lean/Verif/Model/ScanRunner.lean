import Verif.Model.PyDict
/-!
The scan runner: malcolm/modules/scanning/parts/scanrunnerpart.py 60-66, 190-195, 204-238, 271-428.

What the files, the scan block and concurrent calls of `abort` do is the environment: `Env`.
-/
namespace Verif.ScanRunner

/-- scanrunnerpart.py 60-66: a scan of a set; the generator is left out -/
structure ScanSet where
  name : String
  repeats : Int := 1
  deriving DecidableEq, Repr

/-- ScanOutcome (50-57) of the call of `run` of the scan block -/
inductive Outcome | success | timeout | notWriteable | aborted | fail | misconfigured | other
  deriving DecidableEq, Repr

/-- What the outside does for one scan -/
structure Env where
  /-- the directory of the scan can be made (360) -/
  dirOk : Bool := true
  /-- waiting for the block to have aborted (363-364) and resetting it (367-368) does not raise: a
  `reset` can fail, and both raise AbortedError if `abort` of the runner has stopped the context -/
  resetOk : Bool := true
  /-- `configure` of the scan block does not raise (373) -/
  configureOk : Bool := true
  /-- what `run` of the scan block does (385-405); used if configure did not raise -/
  runOutcome : Outcome := .success
  /-- the line of the report can be written (412) -/
  reportOk : Bool := true
  deriving DecidableEq, Repr

/-- The three counters: scansCompleted, scansSuccessful, scansFailed -/
structure Counters where
  completed : Nat := 0
  successes : Nat := 0
  failures : Nat := 0
  deriving DecidableEq, Repr

/-- `attempts`: the scans for which `configure` of the scan block was called, with their outcomes;
`seen`: all values of the counters that a client can see, in order. -/
structure Runner where
  counters : Counters := {}
  attempts : List (String × Nat × Outcome) := []
  seen : List Counters := []
  deriving DecidableEq, Repr

def Runner.set (r : Runner) (c : Counters) : Runner := { r with counters := c, seen := r.seen ++ [c] }

/-- scanrunnerpart.py 419-421 and 427-428 -/
def Runner.incrementSuccesses (r : Runner) : Runner :=
  let r := r.set { r.counters with successes := r.counters.successes + 1 }
  r.set { r.counters with completed := r.counters.completed + 1 }

/-- scanrunnerpart.py 423-425 and 427-428 -/
def Runner.incrementFailures (r : Runner) : Runner :=
  let r := r.set { r.counters with failures := r.counters.failures + 1 }
  r.set { r.counters with completed := r.counters.completed + 1 }

/-- scanrunnerpart.py 370-405: the outcome of a scan -/
def outcome (e : Env) : Outcome := if e.configureOk then e.runOutcome else .misconfigured

/-- scanrunnerpart.py 347-417 `run_scan`; the flag says that it did not raise -/
def runScan (r : Runner) (name : String) (number : Nat) (e : Env) : Runner × Bool :=
  if e.dirOk = false then (r, false)
  else if e.resetOk = false then (r, false)
  else
    let r := { r with attempts := r.attempts ++ [(name, number, outcome e)] }
    if e.reportOk = false then (r, false)
    else if outcome e = .success then (r.incrementSuccesses, true)
    else (r.incrementFailures, true)

/-- The world: whether the directory of a set can be made (323), and what happens in each scan -/
structure World where
  setDirOk : String → Bool
  env : String → Nat → Env

/-- scanrunnerpart.py 326-334: the loop over the scans `number, number + 1, ...` of a set -/
def runScans (w : World) (name : String) : Runner → List Nat → Runner × Bool
  | r, [] => (r, true)
  | r, n :: ns =>
    let x := runScan r name n (w.env name n)
    if x.2 then runScans w name x.1 ns else (x.1, false)

/-- scanrunnerpart.py 312-334 `run_scan_set`: `range(1, repeats + 1)` -/
def runScanSet (w : World) (r : Runner) (s : ScanSet) : Runner × Bool :=
  if w.setDirOk s.name then runScans w s.name r (List.range' 1 s.repeats.toNat) else (r, false)

/-- scanrunnerpart.py 298-301 -/
def runSets (w : World) : Runner → List ScanSet → Runner × Bool
  | r, [] => (r, true)
  | r, s :: ss =>
    let x := runScanSet w r s
    if x.2 then runSets w x.1 ss else (x.1, false)

/-- scanrunnerpart.py 271-305 `run`: `none` if it raises before the counters are cleared (no scan sets,
no directory) -/
def run (w : World) (old : Counters) (sets : List ScanSet) (subDirOk : Bool) : Option (Runner × Bool) :=
  if sets = [] then none
  else if subDirOk = false then none
  else
    let r : Runner := { counters := old }
    let r := r.set { r.counters with completed := 0 }
    let r := r.set { r.counters with successes := 0 }
    let r := r.set { r.counters with failures := 0 }
    some (runSets w { r with seen := [] } sets)

/-- scanrunnerpart.py 190-195, 215-226: the scan sets made from the entries of the file. They are kept
in a dictionary by name. -/
def loadFile (entries : List ScanSet) : Dict String ScanSet :=
  entries.foldl (fun d s => Dict.set d s.name s) []

/-- scanrunnerpart.py 234-238 `update_scans_configured` -/
def scansConfigured (sets : Dict String ScanSet) : Int := (sets.values.map (·.repeats)).sum

end Verif.ScanRunner
