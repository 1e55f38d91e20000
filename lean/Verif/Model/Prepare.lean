/-!
What two parts do before a scan: the one that makes a driver run all the time, malcolm/modules/ADEthercat/parts/ethercatdriverpart.py 13-39, and the
one that asks the monitor of a file server whether it is happy, malcolm/modules/scanning/parts/directorymonitorpart.py 13-39.
-/
namespace Verif.Prepare

/-- ethercatdriverpart.py 19, 21: the attributes of the driver, `imageMode` being "Continuous" or something else -/
structure Driver where
  acquiring : Bool
  continuous : Bool
deriving Repr, DecidableEq

/-- ethercatdriverpart.py 25, 29, 30: what the part tells the driver -/
inductive Cmd where
  | stop
  | setMode
  | start
deriving Repr, DecidableEq

/-- ethercatdriverpart.py 15-31: where the part is -/
inductive Pc where
  /-- 19: before `acquiring` is looked at -/
  | begin
  /-- 21: it was True -/
  | running
  /-- 26: waiting for False -/
  | stopping
  /-- 29: before the put of the mode -/
  | free
  /-- 30: before the start -/
  | ready
  /-- 31: waiting for True -/
  | starting
  /-- 22 or the end -/
  | done
  /-- a wait has taken too long -/
  | failed
deriving Repr, DecidableEq

/-- ethercatdriverpart.py 15-31: the driver, the part and what it has told the driver so far -/
structure World where
  driver : Driver
  pc : Pc
  sent : List Cmd
deriving Repr, DecidableEq

/-- ethercatdriverpart.py 33-35: configure begins -/
def World.start (d : Driver) : World := { driver := d, pc := .begin, sent := [] }

/-- ethercatdriverpart.py 15-31: what may happen, in any order. The attributes of the driver are taken to be those of the hardware. -/
inductive Ev where
  /-- the next line of the part -/
  | part
  /-- 26, 31: DEFAULT_TIMEOUT is over -/
  | timeout
  /-- the driver starts or stops, because it was told to or for any other reason -/
  | acquires (b : Bool)
  /-- somebody else puts the mode -/
  | mode (b : Bool)
deriving Repr, DecidableEq

/-- ethercatdriverpart.py 15-31 -/
def World.step (w : World) : Ev → World
  | .part =>
    match w.pc with
    | .begin => if w.driver.acquiring then { w with pc := .running } else { w with pc := .free }
    | .running => if w.driver.continuous then { w with pc := .done } else { w with pc := .stopping, sent := w.sent ++ [.stop] }
    | .stopping => if w.driver.acquiring then w else { w with pc := .free }
    | .free => { w with pc := .ready, driver := { w.driver with continuous := true }, sent := w.sent ++ [.setMode] }
    | .ready => { w with pc := .starting, sent := w.sent ++ [.start] }
    | .starting => if w.driver.acquiring then { w with pc := .done } else w
    | .done => w
    | .failed => w
  | .timeout =>
    match w.pc with
    | .stopping => { w with pc := .failed }
    | .starting => { w with pc := .failed }
    | _ => w
  | .acquires b => { w with driver := { w.driver with acquiring := b } }
  | .mode b => { w with driver := { w.driver with continuous := b } }

/-- any history -/
def World.run (w : World) (es : List Ev) : World := es.foldl World.step w

/-- ethercatdriverpart.py 25, 30: a driver that does what it was last told, if it was told anything -/
def World.obey (w : World) : World :=
  match w.sent.getLast? with
  | some .start => w.step (.acquires true)
  | some .stop => w.step (.acquires false)
  | _ => w

/-! ### the monitor of the file server -/

/-- directorymonitorpart.py 31: how `managerCheck()` ends. An AssertionError is what a PV that says that it is not well gives
(ca/util.py, caactionpart.py). -/
inductive Check where
  | good
  | assertion
  | other (e : String)
deriving Repr, DecidableEq

/-- directorymonitorpart.py 28-39: what the part raises, with what it writes to the log -/
inductive Raised where
  | value (s : String)
  | other (e : String)
deriving Repr, DecidableEq

/-- directorymonitorpart.py 34-36 -/
def badStatus (mri host : String) : String := mri ++ ": bad directory monitor status for server " ++ host

/-- directorymonitorpart.py 28-39 -/
def checkDirectories (mri host : String) (errorOnFail : Bool) : Check → Option Raised × List String
  | .good => (none, [])
  | .assertion => (if errorOnFail then some (.value (badStatus mri host)) else none, [badStatus mri host])
  | .other e => (some (.other e), [])

end Verif.Prepare
