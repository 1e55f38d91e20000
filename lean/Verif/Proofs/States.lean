import Verif.Model.States
/-! Normal forms of the state sets (computed once, so that later proofs do not re-run the
construction). -/
namespace Verif

def statefulNF : StateSet :=
  { allowed := [(.resetting, [.ready, .fault, .disabling]),
     (.ready, [.fault, .disabling]),
     (.fault, [.resetting, .disabling]),
     (.disabling, [.fault, .disabled]),
     (.disabled, [.resetting])], possible := [.ready, .resetting, .fault, .disabling, .disabled] }

theorem statefulStates_eq : statefulStates = statefulNF := by decide +kernel

def managerNF : StateSet :=
  { allowed := [(.resetting, [.ready, .fault, .disabling]),
     (.ready, [.saving, .loading, .fault, .disabling]),
     (.saving, [.ready, .fault, .disabling]),
     (.loading, [.ready, .fault, .disabling]),
     (.fault, [.resetting, .disabling]),
     (.disabling, [.fault, .disabled]),
     (.disabled, [.resetting])], possible := [.ready, .resetting, .saving, .loading, .fault, .disabling, .disabled] }

theorem managerStates_eq : managerStates = managerNF := by decide +kernel

def runnableNF : StateSet :=
  { allowed := [(.resetting, [.ready, .fault, .disabling]),
     (.ready, [.saving, .loading, .configuring, .aborting, .fault, .disabling]),
     (.saving, [.ready, .fault, .disabling]),
     (.loading, [.ready, .fault, .disabling]),
     (.configuring, [.armed, .aborting, .fault, .disabling]),
     (.armed, [.running, .seeking, .resetting, .aborting, .fault, .disabling]),
     (.running, [.postrun, .seeking, .aborting, .fault, .disabling]),
     (.postrun, [.finished, .armed, .seeking, .aborting, .fault, .disabling]),
     (.finished, [.seeking, .resetting, .configuring, .aborting, .fault, .disabling]),
     (.seeking, [.armed, .paused, .finished, .aborting, .fault, .disabling]),
     (.paused, [.seeking, .running, .aborting, .fault, .disabling]),
     (.aborting, [.aborted, .fault, .disabling]),
     (.aborted, [.resetting, .fault, .disabling]),
     (.fault, [.resetting, .disabling]),
     (.disabling, [.fault, .disabled]),
     (.disabled, [.resetting])], possible := [.ready, .resetting, .saving, .loading, .configuring, .armed, .running, .seeking, .postrun, .finished, .paused, .aborting, .aborted, .fault, .disabling, .disabled] }

theorem runnableStates_eq : runnableStates = runnableNF := by decide +kernel

end Verif
