# Formal model of pymalcolm in Lean 4

## Layout

* `lean/Verif/Model/*.lean`: the model. Total, computable functions over lists, dictionaries, numbers and plain structures; each
  definition cites the file and lines of `/repo` it models and says where it simplifies. Files import only other `Model` files.
* `lean/Verif/Spec/*.lean`: the small specifications that the property theorems are stated against, for the properties whose words
  need definitions of their own. They define what the English words mean (what "visible", "the last report", "the pulses" are)
  without the helpers of the model; where they read a state of the model they do so through its fields. Properties without a Spec file have
  their specification at the head of the Props file.
* `lean/Verif/Props/*.lean`: the property theorems. Beside each is an `example` in which a concrete case meets its hypotheses, and,
  where the code breaks the property, a theorem that shows it on a concrete history.
* `lean/Verif/Proofs/*.lean`: lemmas and invariants. (Proofs/Design imports Props/Layout, whose theorems it uses.)
* `properties.jsonl`, `MANIFEST.json`: the properties, and which theorems settle which.
* `seeded/LOG.jsonl`: wrong programs tried against the theorems.

## Trusted base

* The kernel of Lean 4.33.0, and of its axioms at most `propext`, `Classical.choice` and `Quot.sound`: which theorem rests on which is
  below, as printed by `#print axioms`. No axioms of our own, no `sorry`, no `native_decide`, no `bv_decide`. Concrete histories are
  settled by `decide` or `decide +kernel`, which the kernel evaluates.
* Mathlib, for the rational numbers and `ring`/`linarith`-like tactics on them, imported module by module. Its theorems are checked by
  the same kernel.
* The reading of the Python: the code is not run here. That a definition says what the lines that it cites say is by inspection.
* What stands for the world outside the code:
  * floats are exact rationals, so nothing is said about rounding; Python integers are `Int` or `Nat`; numpy integers have a width where
    the property is about words (C38) and none elsewhere;
  * exceptions are values: a function that may raise gives an `Option`, an `Except` or a flag; messages are kept where a property
    speaks of them;
  * a thread is cut where it waits, takes or releases a lock, and what lies between runs without interruption; a schedule is any list of steps, so a
    theorem is about all of them. Two threads that touch the same data outside a lock within one step are not interleaved: where that matters
    it is said in the model;
  * time limits: a wait may end by its time limit at any time where the model has time limits (C21, C39), else it does not;
  * sockets, EPICS, files, h5py, tornado, cothread, `scanpointgenerator`, `annotypes`, `numpy`, `packaging`, `vdsgen` and the hardware
    enter as parameters: an arbitrary function, an arbitrary list of outcomes, or a structure of functions with stated laws (`Ext` in
    Model/Metas).

## What is modelled and what is not

| code | model | not modelled |
|------|-------|--------------|
| core/stateset.py, builtin/util.py and scanning/util.py state sets | States | |
| core/tags.py, builtin/util.py `set_tags` | Tags | widget tags other than by their text |
| core/camel.py, core/part.py, core/controller.py fields | Fields | descriptions and notes of parts |
| core/models.py metas, core/table.py | Metas | numpy's own conversions (laws in `Ext`), NTUnion, displays, time stamps |
| core/models.py blocks, core/notifier.py, core/serializable.py `apply_change` | Notifier, Proxy | threads of the notifier other than by its lock |
| core/controller.py requests, core/request.py, core/models.py methods | Controller | logging, `ValueError` texts |
| core/context.py, core/future.py | Context | weak references, `__del__`, time limits |
| core/hook.py, core/controller.py hooks | Hooks | |
| core/process.py | Process | thread pools and their sizes |
| core/views.py | Design (`put_attribute_values`) | views made for attributes and methods |
| core/spawned.py, core/queue.py, core/rlock.py, core/alarm.py, core/timestamp.py, core/loggable.py, core/moduleutil.py, core/define.py | | taken as given |
| builtin basiccontroller, statefulcontroller | Stateful, Runnable | |
| builtin managercontroller | Layout, Exports, Modified, Design | git, `initial_design` and template designs, old file format |
| builtin childpart | Layout, Modified, Design | `on_init` and its subscriptions, ports published in the layout |
| builtin proxycontroller | Proxy | |
| other builtin parts and blocks | | thin wrappers of attributes |
| scanning runnablecontroller | Runnable, Steps, Validate, Params | |
| scanning infos, exposuredeadtimepart, detectorchildpart | Exposure, DetStep | `detectorchildpart` file patterns |
| scanning scanrunnerpart | ScanRunner | |
| ADCore detectordriverpart, positionlabellerpart, hdfwriterpart | Detector | pools of attributes |
| ADCore infos 92-127, statspluginpart 48-72, detectordriverpart (extra attributes), ADPandABlocks pandadatasetbussespart | Datasets | descriptions, the XML text, the other columns of the tables |
| pandablocks pandaluticonpart, builtin util SVGIcon | LutIcon | XML text, the text on the icon, geometry |
| pmac rawmotorsinkportspart, compoundmotorsinkportspart, cssourceportspart | MotorPorts | channel access itself, spaces other than blanks, disconnecting |
| pmac cspart 40-85 | CsMove | the controller is a description; demands are numbers that are compared; arrival and display of a demand are one step |
| pmac beamselectorpart, util 333-383 | BeamSelector | one static generator; the generator of the motion is a description; floats are rationals; `add_tail_off` |
| demo filewritepart 52-223 | FileWrite | datasets of set points, infos; images are a function of the point; HDF5 shows what was flushed; a hook runs to its end or its next sleep |
| demo motionchildpart 13-119, countermovepart 34-50 | Motion | one axis at a time; rational time; the exception step and the sleeps are left out, the clock takes any values that do not go back |
| ADCore detectordriverpart 105-184, 336-493; xmapdriverpart, eigerdriverpart, tetrammdriverpart 50-74 | DetArm | a frame is there with its trigger; the driver stops by itself after its images |
| ADCore detectordriverpart 105-147, 265-301; ADAndor andordriverpart 52-173; adUtil reframepluginpart 39-118; tetrammdriverpart 36-48 | FrameTime | rational times; what the camera answers to a put is a parameter |
| system dirparsepart 83-188 (health, directories, RELEASE) | IocStatus | the PVs themselves, other systems parts, the icon |
| scanning attributeprerunpart 23-61 | Shutter | names of attributes, values, what is saved |
| core/context.py 235-270, 427-469, core/views.py 188-204 | Model/When.lean | timeouts, event timeouts, callbacks that wait, descriptions of futures |
| core/views.py, controller.py 109-122 | View | names with two underscores, `__iter__`, `__repr__`, the waits of `put_attribute_values` (C13), when_value_matches (C90) |
| core/concurrency.py 23-97, process.py 160-212 | Spawned | stack sizes, the clock of Queue.get, exceptions that are not Exception, cothread itself |
| scanning unrollingpart, simultaneousaxespart, doubletriggerpart | ValParts | scanpointgenerator's joining of dimensions is a description, with no refusals; parts that guess a duration guess a fixed one |
| xspress3 xspresswriterpart | Xspress | the directory; paths are kinds and numbers; the arrays of vdsgen; waiting for the child |
| `ADPandABlocks/parts/kinematicssavupart.py` 95-412, `pmac/util.py` 112-138 | `Model/Kinematics.lean` | file names, program lines, process list, set points |
| `web/parts/restfulserverpart.py` 16-65, `web/controllers/httpservercomms.py` 79-88, `web/util.py` 34-36 | `Model/Rest.lean` | tornado's own parsing and errors of the connection |
| ADPandABlocks pandaseqtriggerpart 263-541, pandapulsetriggerpart 99-203 | TrigWiring | interrupting a hook in the middle, the PandA changing its design, the rows of the tables (in Seq) |
| pandablocks pandablocksclient 15-18, 181-372 | PandATalk | Unicode blanks, the log, timeouts (in PandAClient) |
| builtin managercontroller 342-392, core models 131-141, 346-407 | ExportMirror | changes of methods other than calls, changes made at the same time by two threads |
| builtin childpart 268-366 | ChildWatch | overlapping updates, halting |
| ADCore hdfwriterpart 523-532, 586-591, 617-712 | WriterStall | aborting, the health reported |
| core info 22-84, pmac util 27-50, 301-346, pmacchildpart 130-267, 329-440 | TakePart | the profile itself, how the move to the start is made |
| ADOdin odinwriterpart 35-94, 114-301, 348-426, 447-480 | OdinFile | the arrays laid out by vdsgen, attributes of the nodes, waiting of on_run |
| yamlutil 31-50, 89-110, 137-248, imalcolm 145-156, core controller 63-68, process 214-229 | Compose | failing defines and parameters, setup of parts, python source lines in messages |
| scanning datasettablepart 29-48, detectorchildpart 121-136, 254-343, runnablecontroller 430-516, core info 22-58 | DataTable | two parts for the same detector, a detector busy while the scan configures it |
| system ProcessController, defines 14-27, core hook 37-93 | SysBlock | the PVs written to the softIoc (25-40), its macros, beamlines with special characters in the pattern, calls while the process starts or stops |
| pva pvaservercomms 42-112, 265-362, pvaclientcomms 150-166, proxycontroller, core controller 240-281 | PvaCall | losing the connection during a call, parameters called typeid, the log of a method |
| imalcolm 145-291, core process 75-102, 140-187, hook 185-207 | Launch | the IPython console and the profiler, logging, time taken other than by waiting, what is written to the terminal |
| web websocketserverpart 72-78, 127-160, web util 34-36, core notifier 108-128, controller 148-153 | WebFlow | one block only, subscriptions fixed, unsubscribing for a client that has gone (WebServer), Error instead of Update when a change makes the path vanish |
| builtin statefulcontroller 47-56, 78-114, 123-190, managercontroller 413-415, 502-504, pandablocks pandamanagercontroller 90-158 | Overlap | what the hooks do, runnable blocks (Runnable), a failing transition in update_health |
| scanning runnablecontroller 448-470, 519-553, 603-608, 613-651, 726-756 | Runnable | (as for C05) |
| web websocketclientcomms 155-191 over a connection | WebChain | the subscription is there from the start of the server's history; responses have the numbers of their Deltas for bodies |
| builtin managercontroller 143-155, 411-421, 445-500, 502-517, 552-564 | DesignFiles | access rights, links, full disks, impossible names; puts of the index of a design; an initial design |
| core/context.py 270-331, 368-388, core/future.py, core/concurrency.py 72-97 | WaitTime | negative timeouts, fractions of a tick of the clock, futures whose context has gone |
| core/notifier.py 58-128, core/controller.py 129-153 | Deliver | one field only (paths in Notifier), Get, Put and Post, the lock |
| scanning/parts/detectorchildpart.py 72-81, 120-137, 254-271, 306-390, builtin/parts/childpart.py 160-171, 259-266 | Stopping | calls of the scan at the same time (Runnable, Overlap), contexts and timeouts, steps (DetStep) |
| core/process.py 75-99, 142-158, builtin/controllers/managercontroller.py 143-154, builtin/parts/childpart.py 146-158, builtin/util.py 117-130 | Startup | blocks that add others while they start (PandALife), calls while blocks start, publishing (Process) |
| builtin/parts/childpart.py 160-171, builtin/controllers/managercontroller.py 394-407, statefulcontroller.py 94-110 | Family | blocks with two parents, calls at the same time (Overlap), parts that reset their child in another way (Stopping) |
| core/process.py 142-174, builtin/controllers/statefulcontroller.py 87-101, builtin/parts/childpart.py 160-178 | Halt | RunnableControllers (Runnable), calls of clients meanwhile (Overlap), the wait for spawned functions (Spawned) |
| core/controller.py 217-281, core/models.py 302-378, 1023-1045, 1170-1247, core/timestamp.py | CallLog | rounding of floats, the notification of subscribers (Notifier) |
| pandablocks/controllers/pandamanagercontroller.py 239-286 (layout), 314-335, builtin/controllers/managercontroller.py 143-179, builtin/parts/childpart.py 181-207 | PandALayout | the text of numbers, entries with other keys |
| pva/controllers/pvaclientcomms.py 50-83, 124-148 | PvaExports | p4p itself; what is in the fields (PvaClient) |
| pva/controllers/pvaservercomms.py 327-346, 362; pvaclientcomms.py 14-32, 50-83; builtin/controllers/statefulcontroller.py 78-110, 152-168 | PvaLife | p4p itself; the halt of the process (Halt) |
| ADEthercat/parts/ethercatdriverpart.py 13-39; scanning/parts/directorymonitorpart.py 13-39 | Prepare | attributes that lag behind the hardware |
| builtin/parts/childpart.py 134-171; scanning/parts/attributeprerunpart.py 45-61; builtin/controllers/statefulcontroller.py 94-110, 152-190 | ShutterChild | states during a call; grandchildren (Family) |
| core/models.py 45-65, 1279-1320; builtin/controllers/managercontroller.py 194-203, 275-283 | FieldNames | parts that are shown or not; CAMEL_RE itself (Exports) |
| ADCore hdfwriterpart 38-391, 511-610 (layout, dataset infos, dimensions), infos | Hdf | the XML text, attributes of datasets other than units |
| ADCore util version check | Version | |
| ca util 64-369, parts caactionpart, cachoicepart | Ca | catools itself, display limits, user callbacks |
| ADOdin odinwriterpart | Odin | VDS files |
| ADPandABlocks doublebuffer, pandaseqtriggerpart, pandapulsetriggerpart | Seq, Exposure | wiring checks of the sequencers |
| pandablocks client, managercontroller, bussespart, tablepart, blockcontroller, fieldpart, labelpart, actionpart | PandAClient, PandAPoll, PandABusses, PandATable, PandABlock, PandALife | the drawing of icons, doc urls of blocks |
| pmac util, infos, pmacchildpart, pmactrajectorypart | PmacUtil, Trajectory, TrajLoop, TrajSend, Sparse, RunUp | CS ports and brick output triggers, calculate_generator_duration |
| web websocketserverpart, httpservercomms, websocketclientcomms | WebServer, Proxy, WebClient | RESTful part, GUI files |
| yamlutil.py | Yaml | include files, the Python classes made |
| pva pvaconvert, pvaservercomms `BlockHandler` | Pva | RPC, the channels of single fields but for puts, p4p (its assignment is modelled, its conversions are a parameter) |
| pva pvaclientcomms | PvaClient | RPC, p4p's monitor queue, the setters of Models (a parameter) |
| demo, other detectors (Zebra, Xspress3, Excalibur, ...) | | EPICS |


## Per property

For each property: what is modelled, how it is proved, the theorems (namespace `Verif` left out) with the axioms each rests on in brackets - p = `propext`, c = `Classical.choice`, q = `Quot.sound`, - = none - and what is missing.

### C01 Published states only follow the block's state set - proved

Modelled: state sets built by the same `set_allowed` calls; the runnable block with any calls running at the same time, cut into steps, hooks ending in any way. Proved: each step leaves the state or follows an edge of a table written independently; induction over the steps.

All histories of calls of a runnable block running at the same time, all orders of their steps and all outcomes of hooks; progress reports do not touch the state and are not events of this model.

* `Props.Runnable.shown_follow_edges` [pcq] whatever calls are made on a new block, in whatever order they go on and however the hooks of the parts end, each state that the block shows is followed by itself or by a state to which the published table has an edge. The first one is Disabled.
* `Props.Runnable.shown_first` [p]
* `Props.Runnable.stepAt_edge` [pcq] Each step leaves the state or follows an edge
* `Props.States.runnable_transition_iff` [p] the runnable state set allows exactly the documented edges, and no state is missing (the lookup never fails its assertion).
* `Props.States.manager_transition_iff` [p] The manager state set is the restriction of the documented edges to its states.
* `Props.States.stateful_transition_iff` [p] The stateful state set is the restriction of the documented edges to its states.
* `Props.States.possible_states_exact` [p] `possible_states` (the choices of the state attribute) has exactly the states of the set.

### C02 Fault and disable are always reachable and recoverable - proved

Modelled: the three state sets. Proved: over the complete finite tables, lifted to every state.

* `Props.States.fault_and_disable_always_allowed` [p] in every state set, in every live state (all but Disabled) Fault and Disabling are allowed targets (from anywhere but themselves).
* `Props.States.disabled_only_via_disabling` [p] Disabled is only entered from Disabling, and can only be left by a reset.
* `Props.States.fault_and_disabled_recoverable` [p] Fault can always be left by a reset, which can then reach Ready.
* `Props.States.ready_reachable` [p] Ready is reachable from every state of every state set.

### C03 Fields are writeable exactly in their declared states - proved

Modelled: `set_writeable_in`, `add_block_field`, `transition`. Proved: invariant over histories of declarations and transitions.

holds from the first transition after the declaration; before it a freshly added field is writeable whatever the state (added_field_writeable_too_early)

* `Props.Stateful.declared_field_writeable_iff` [pq] In any reachable controller, once a field has declared its states (`set_writeable_in`) and the block has since made one successful transition, then after *any* further history that does not re-declare, re-add or remove that field, the field is marked writeable exactly when the current state is one of the declared ones.
* `Props.Stateful.undeclared_field_writeable_iff` [pq] fields that do not declare their states: adding a field that has a write function and was never declared makes it behave as if it had declared every state but Disabling and Disabled.
* `Props.Stateful.read_only_field_never_writeable` [pq] a field added without a write function and never declared is never writeable.
* `Props.Stateful.added_field_writeable_too_early` [p] the gap: `add_block_field` marks a field writeable at once, whatever the current state. A field that declared only Ready is writeable in Disabled from `setup` until the first transition.

### C04 Health shows the worst outstanding fault - proved

Modelled: `update_health` with its dictionary of faults. Proved: invariant: what is shown is a maximum of what is outstanding.

* `Props.Stateful.health_is_worst_outstanding` [pcq] after any history of reports from any number of reporters, `health` is OK if nothing is outstanding; otherwise it shows the message and alarm of some outstanding alarm, and no outstanding alarm is more severe than it.
* `Props.Stateful.controller_health` [pq] on whole controllers: for every history of declarations, transitions and part reports, the health attribute of the controller is the one `health_is_worst_outstanding` speaks about, for the reports made by the parts and by the controller's own state changes.
* `Props.Stateful.fault_shows_in_health` [pq] whenever the block is in Fault its health is at least a major alarm; whenever Disabled, at least invalid.

### C05 Any hook failure lands the block in Fault, an abort lands it in Aborted - partial

Modelled: `try_stateful_function`, `abortable_transition`, all calls of the runnable block as in C01. Proved: invariants that follow one call through the steps of the others; for liveness, an invariant of tame histories and the absence of steps to take.

Failures end in Fault and calls end as documented, for all histories. That no transitional state is left behind is proved for tame histories only; the witnesses show that the code does leave the block in Configuring or Running otherwise. A part that fails in validate leaves the state as it is. An abort while a configure of a Finished block resets its parts reaches nothing: it returns Aborted while the configure goes on, or both end in Fault (abort_during_reset, abort_during_reset_faults); the cause in general is contexts_forget.

* `Props.RunnableEnds.failure_ends_in_fault` [pcq] if a part fails with the error `m` in any hook of any call `i`, then, whatever goes on until the call ends, it ends with this error and the block in Fault, with this error as its message unless it already was in Fault; or else, if the block was Disabled in the meantime, it stays so and the call ends with an error.
* `Props.RunnableEnds.failure_ends` [pcq] A failed call that goes on ends after two steps, so the theorem above speaks of all failures
* `Props.RunnableEnds.ends` [pcq] every call that ends, ends as `Ending` says, whatever calls were made before on a new block, in whatever order they went on and however the hooks of the parts ended.
* `Props.RunnableLive.transitional_moves_partial` [pcq] for tame histories: whatever calls are made on a new block, in whatever order they go on and however the hooks end: when the block is in a state in which it may not stay, some call can go on (it is not over, and does not wait for another call).
* `Props.RunnableLive.finished_calls_rest_partial` [pcq] for tame histories: when all calls are over, or wait for a resume that nobody has called, then the block is in a state in which it may stay: no finished call leaves it in a transitional state.
* `Props.RunnableWitness.spurious_abort_configuring` [p] A part raises AbortedError in a configure that nobody aborts: configure ends with an error and the block stays Configuring.
* `Props.RunnableWitness.spurious_abort_running` [p] The same in a run, after a pause in Armed: run waits for ever and the block stays Running.
* `Props.RunnableWitness.late_pause` [p] A pause has seen that the block is Running, but the run finishes before the pause begins. The block becomes Paused without a run; a resume then returns and leaves it Running for ever.
* `Props.RunnableWitness.late_abort_put` [p] An abort has taken the block to Aborted but has not yet told the run not to resume. The block is reset and configured, and now the abort tells the next run. When this is paused it ends; a resume then leaves the block Running for ever.
* `Props.RunnableWitness.resume_in_armed` [p] A resume that gets through in Armed leaves the block Running for ever.
* `Props.RunnableWitness.old_configure_arms` [p] A configure whose parts go on after a disable takes the block to Armed, while the next configure still goes on. That one then takes the block to Fault.
* `Props.RunnableWitness.disable_faults` [p] A disable during a run, on a block that was never aborted or paused: the run has no abort queue to answer to, fails and takes the block to Fault, where the disable fails.
* `Props.RunnableWitness.overtaken_pause_faults` [p] An abort overtakes a pause that waits for the run: the run answers to the queue of the abort, which returns with the block Aborted. The pause waits on its own queue until it times out and takes the block to Fault.
* `Props.RunnableWitness.second_pause_faults` [p] A second pause while the first goes on takes the block to Fault.
* `Props.RunnableWitness.early_pause_ignored` [p] A pause that stops the parts before the resumed run has started its hooks: the hooks ignore stops that came before. The pause waits until it times out and returns with the block Paused, while the run goes on. It fails at its end.
* `Props.RunnableStops.failure_reaches` [pcq] After any history of calls: a hook that fails tells every other hook that goes on with the same contexts to stop.
* `Props.RunnableStops.abort_reaches` [pcq] After any history of calls: an abort or a pause that is allowed tells every hook that goes on with the contexts of the last configure to stop.
* `Props.RunnableStops.disable_reaches` [pcq] and so does a disable
* `Props.RunnableStops.told_stays` [pcq] Once told, a hook stays told to stop, whatever other calls do
* `Props.RunnableWitness.abort_during_reset` [p] An abort while a configure of a Finished block resets its parts: the contexts of these hooks are not stopped, the contexts of the hooks that come are made after the stop. If the abort gives up waiting it returns with the block Aborted while the configure goes on with its parts, in a hook that was told nothing (the stops of its contexts, 0, are those when it was begun). At its end the configure takes the block to Fault.
* `Props.RunnableWitness.abort_during_reset_faults` [p] If the configure is over before the abort gives up, the block is in Fault when the abort wants to take it to Aborted: both fail.
* `Props.RunnableStops.contexts_forget` [p] Whatever was stopped before a configure makes its contexts is forgotten: neither the next transition nor the next hook is told to stop.

### C06 Breakpoints partition the scan - partial

Modelled: `get_steps_per_run`, `_get_outer_steps`, `do_configure`. Proved: list arithmetic by induction.

proved for positive breakpoints when every dimension has an axis; the two other theorems show the property is false otherwise

* `Props.Steps.steps_per_run_without_breakpoints` [pq] no breakpoints: every run does the same number of steps, and a whole number of runs makes up the scan.
* `Props.Steps.steps_per_run_with_breakpoints` [pq] with breakpoints: the steps per run add up to the scan, they are the breakpoints given (completed with what they leave of the inner scan, if anything) repeated a whole number of times, and they are positive if the breakpoints given are.
* `Props.Steps.configured_spec` [pq] A configured scan is cut into segments, and waits at the start of the first.
* `Props.Steps.runs_cover_scan` [pq] for an accepted configuration, the runs that `run()` performs when left alone are exactly the segments, in order: the block stays Armed after each but the last, is Finished after the last, and the windows run cover every step of the scan once.
* `Props.Steps.breakpoints_miscount_axisless_dimension` [p] fails for a generator with a dimension that has no axes (a StaticPointGenerator): such a dimension counts both as inner and as outer, so the steps add up to more than the scan.
* `Props.Steps.nonpositive_breakpoints_accepted` [p] needs the breakpoints to be positive: `configure` accepts others.

### C07 completedSteps is the slowest part and only moves forward in a run - proved

Modelled: `update_completed_steps`, `_on_seek` bookkeeping. Proved: invariant over reports: the published value is the least of the last reports.

within one run; a report left from before a seek counts after it (last theorem)

* `Props.Steps.completed_steps_follow_reports` [pcq] for a freshly configured scan and any interleaving of reports, each report leaves `completedSteps` where it is, or moves it up to the smallest of the parts' latest reports; and it never lags behind that smallest report.
* `Props.Steps.completed_steps_monotone_and_bounded` [pcq] it never decreases, and stays within `0..total` if the reports do.
* `Props.Steps.stale_report_counts_after_seek` [p] a limit of what is reported: parts that have not reported yet do not count, and a rewind does not forget old reports. Here part 2 was at step 10 before a seek back to 2; a report of 8 by part 1 moves `completedSteps` to 8 although part 2 has reported nothing since the seek.

### C08 Seeking is confined to the scan and re-plans to the end of the right run - partial

Modelled: `pause`, `do_pause`, `get_breakpoint_index`. Proved: arithmetic of prefix sums of the breakpoints.

holds for the pause itself; the run that was interrupted keeps its old plan for what state to go to next (last theorem)

* `Props.Steps.pause_goes_to_segment` [pcq] an accepted `pause(lastGoodStep)` on a scan cut into `parts`. If the step asked for is explicit, or the steps completed are not already the whole scan, then the scan goes to a step `p` inside `0..total`, and the parts are told to do the steps from `p` to the end of the segment containing `p`. The step is the one asked for, brought into range (the number of completed steps if negative, the last step if beyond the end), or one less if a run is in progress and it is the end of that run.
* `Props.Steps.forward_pause_arms_past_the_end` [p] and C09 are false of the code in the other direction too: the first run is paused at a step of the second and resumed; the block ends Armed with nothing left to do, and pausing it then seeks past the end of the scan.

### C09 Every step of the scan is commanded - partial

Modelled: `do_configure`, `do_run`, `do_pause` with a log of what the parts are told. Proved: invariant over histories of runs and pauses.

true when a seek stays in the segment being run; false of the code otherwise (witnesses)

* `Props.Steps.no_step_skipped_partial` [pcq] for histories in which a run in progress is only paused within that run (see `Allowed`; pauses of an Armed, or Finished block may go anywhere). After any such history of run, pause, resume and progress reports the block is never in Fault, and whenever it is Finished the windows run since the last configure or seek follow each other without gap or overlap from where that put the scan to the end of the scan. What is missing for the full C09: a run in progress paused at a step of another run; `rewind_loses_steps` shows that C09 is then false of the code.
* `Props.Steps.rewind_loses_steps` [p] is false of the code in general: two runs of 5 steps; the second is paused at step 2 (of the first) and resumed. The block goes to Finished with steps 5..9 not done again: the windows run since the seek end at step 5, not 10.
* `Props.Steps.forward_pause_arms_past_the_end` [p] and C09 are false of the code in the other direction too: the first run is paused at a step of the second and resumed; the block ends Armed with nothing left to do, and pausing it then seeks past the end of the scan.

### C10 validate returns parameters every part accepts - proved

Modelled: the `validate` loop with arbitrary parts. Proved: induction over the iterations.

* `Props.Validate.validate_returns_consistent` [pcq] if `validate` returns parameters, then the last thing it did was to ask every part about exactly those parameters, and no part wanted a tweak; it asked at most ten times.
* `Props.Validate.validate_fixpoint` [pcq] for parts whose answer depends only on the parameters: what `validate` returns is a fixed point, asking again gives no tweak.
* `Props.Validate.validate_gives_up_after_ten` [pcq] it gives up with "Could not get a consistent set" only after asking ten times, each time but the last having got tweaks.
* `Props.Validate.untweaked_parameter_unchanged` [pq] a parameter that no part ever asks to change comes back as it was given.
* `Props.Validate.untweaked_comes_back` [pq]
* `Props.Validate.longest_duration_taken` [pq] if several parts ask for another generator, the round takes the first with the longest of the durations they ask for: each of them gets at least the duration it needs, and no longer one than one of them needs.

### C11 Replaying deltas reproduces the block - partial

Modelled: the notifier tree with its nodes, requests and squashing; `freeze`; the setters of models. Proved: invariant: a subscriber's replayed view is the block, for every history of setters and subscriptions.

proved except on paths into dict-valued fields and at or below a table of which single columns are replaced; the code breaks the property there (the other two theorems)

* `Props.Notifier.delta_replay_partial` [pcq] A client that starts from nothing and applies every stanza it received holds the value of the block at its path, whenever no squash is open. Partial: not for paths into dict-valued fields, nor at or below a table of which only some columns are replaced; `second_subscriber_sees_stale_table` and `below_a_dict_is_never_seen` show that the full statement fails there.
* `Props.Notifier.second_subscriber_sees_stale_table` [p] The disagreement with C11 (and C14): a Delta subscriber that joins another one after one column was replaced starts from the old table and never gets the new column; without the other one it would have had it.
* `Props.Notifier.below_a_dict_is_never_seen` [p] The disagreement with C11 below a dict-valued field: the subscriber is given None.

### C12 Update subscriptions always show the current value - partial

Modelled: as C11. Proved: as C11.

same exceptions as C11; the second theorem shows the code sends the old table

* `Props.Notifier.last_update_is_current_partial` [pcq] The last Update received is the value of the block at the path, whenever no squash is open (so a flush that changes the value always sends one). Partial: same exceptions as C11.
* `Props.Notifier.table_update_is_stale` [p] The disagreement with C12: the Update sent after one column is replaced carries the old table.

### C13 Changes inside a squash are delivered as one message - partial

Modelled: as C11, `changes_squashed`. Proved: invariant over what is done inside a squash.

all but one case: leaving an empty squash sends a redundant message to subscribers of the whole block (last theorem)

* `Props.Notifier.squash_is_silent` [pcq] while a squash is open nothing is sent, whatever is done, until the outermost one is left.
* `Props.Notifier.squash_keeps_order` [pq] changes made while a squash is open are kept in the order they were made.
* `Props.Notifier.squash_delivers_once` [pcq] when the outermost squash is left, a live subscription whose path some change touches gets exactly one message, which for a Delta has its changes in the order they were made. A subscription that no change touches gets nothing, unless it is to the whole block.
* `Props.Notifier.empty_squash_notifies_block_subscribers` [p] The disagreement with C13: leaving a squash in which nothing changed sends a (redundant) message to subscribers to the whole block.

### C14 Unsubscribe is exact - partial

Modelled: as C11, `handle_unsubscribe`. Proved: case analysis, and independence of the others from the tree.

independence of other subscriptions has the exceptions of C11

* `Props.Notifier.unsubscribe_is_exact` [pcq] unsubscribing a live id sends exactly one Return, to it and nobody else, and no Error; and however the history goes on without subscribing it again, it never receives anything more.
* `Props.Notifier.unsubscribe_unknown` [p] unsubscribing an id that is not live is answered by an Error and changes nothing else.
* `Props.Notifier.others_unaffected_partial` [pcq] a subscriber receives exactly what it would have received had another id never been used. Partial: same exceptions as C11.
* `Props.Notifier.second_subscriber_sees_stale_table` [p] The disagreement with C11 (and C14): a Delta subscriber that joins another one after one column was replaced starts from the old table and never gets the new column; without the other one it would have had it.

### C15 One terminal response per request - partial

Modelled: request dispatch with an arbitrary user function. Proved: case analysis of the dispatch.

Get, Put and Post get exactly one Return or Error with their id, whatever the handler does; a request of any other class gets no response (unknown_request_unanswered), so the last clause is false of the code

* `Props.Controller.one_response_partial` [pcq] every Get, Put and Post is answered by exactly one Return or Error, with its id, to its own callback, and the thread that handles it does not raise - whatever the path, value, parameters, block and user functions. (`unknown_request_unanswered`: a request of another class gets nothing, so this is not the full English claim.)
* `Props.Controller.unknown_request_unanswered` [pcq] What the code does not do: a request of an unknown class makes the thread raise and is never answered.
* `Props.Controller.put_function_raises` [pcq] if the user function raises, the answer is an Error with that exception (for a Post: unless the arguments it was given cannot be logged, when it is an Error all the same).
* `Props.Controller.put_answer` [pcq] what a Put answers with when its put function returned: nothing unless asked for, else what the function returned, and if that is nothing, the value that the attribute has now.

### C16 Put validates before it acts - partial

Modelled: `_handle_put`, views and attribute models. Proved: case analysis; equivalence of acceptance and a specification.

path elements after the attribute name are ignored by Put (put_ignores_rest_of_path), so 'names the value' is false of the code; the rest is proved

* `Props.Controller.put_called_iff_partial` [pcq] the put function is called exactly when the path has a second element that names a writeable attribute with a put function, and the value is accepted; it is called once, with the validated value.
* `Props.Controller.put_refused` [pcq] a Put that does not reach the put function leaves the block alone and is answered by an Error.
* `Props.Controller.put_ignores_rest_of_path` [pcq] What the code does not do: the rest of the path is not looked at, so a Put to any endpoint of an attribute, or of something below it that does not exist, is a Put of its value.
* `Props.Controller.put_stores_validated` [pcq] a Put of an attribute without a special setter that is answered by a Return has stored the validated value (up to an Array now being wrapped in a numpy array).
* `Props.Controller.put_default_setter_succeeds` [pcq] and such a Put never fails once the value has been accepted.

### C17 Method parameters are validated, defaulted and complete - partial

Modelled: `_handle_post`, `MapMeta.validate`, methods made from functions. Proved: list induction over the parameters.

defaults published in the MethodMeta are not filled in by the request (published_default_not_filled); those of the Python call are (python_call_complete)

* `Props.Controller.validateMap_sound` [pcq]
* `Props.Controller.validateMap_complete` [pcq]
* `Props.Controller.post_called_only_with_valid` [pcq] if a Post calls the method then it does so once, on a writeable method, with arguments that are declared, validated, and include all the required ones.
* `Props.Controller.post_refused` [pcq] otherwise the answer is an Error and nothing changes.
* `Props.Controller.post_called_if_valid` [pcq] and good parameters do reach the method.
* `Props.Controller.python_call_complete` [pcq] for a method made from a decorated function, arguments that pass `takes` always make a complete Python call: each parameter gets the validated value given for it, or its own default.
* `Props.Controller.published_default_not_filled` [pcq] A default published in the MethodMeta is not filled in by the request: the method above has one for `b`, a Post without `b` does not pass it. (The Python function's own default applies.)
* `Props.Controller.post_error_after_success` [pcq] A method whose result cannot be logged is answered by an Error although it ran.
* `Props.Controller.post_answer` [pcq] when a method was called with `args` and returned `r`, and what it returned is as declared, the answer is a Return of exactly `r`, and the method in the block has logged the arguments and the values returned, validated.
* `Props.Controller.logged_values` [pcq] what is logged for each declared name: the value given, validated, or what the type makes of no value; nothing else is, and values that are not declared are refused.
* `Props.Controller.post_raised` [pcq] when the method raised, the answer is an Error with that, and the method in the block has logged the arguments and nothing returned (the defaults).
* `Props.Controller.post_bad_result` [pcq] when what the method returned is not as declared, the answer is an Error, and the arguments are logged beside what an earlier call returned.

### C18 Futures resolve once and to their own response - partial

Modelled: `Context` futures, the queue of responses, `wait_all_futures` with callbacks that may wait themselves. Proved: invariant over the events of a context; witnesses for nested waits.

resolution and 'returns only when done' hold for every history; 'raises if one failed' needs that no callback waits, and is refuted otherwise (nested_wait_hides_error)

* `Props.Context.resolves_to_first_response` [pq] Whatever happened before a request was made and whatever happens after it, its future has the result given by the first Return or Error with its id taken from the queue since, and no result if there was none.
* `Props.Context.resolved_once` [pq] A future that is done never changes.
* `Props.Context.wait_returns_when_done` [pcq] For every history of the context and every sequence of events during the wait (requests and responses by others, nested waits inside callbacks, stray responses): when `wait_all_futures` returns, all the futures are done.
* `Props.Context.wait_raises_own_error` [pcq] If it raises an error then one of the futures failed with that error.
* `Props.Context.wait_returned_none_failed_partial` [pcq] in part: when only this wait takes responses from the queue (no callback waits), a wait that returns has seen no failure. Missing: callbacks that wait themselves, for which it is false (`nested_wait_hides_error`).
* `Props.Context.wait_waits_for_something_partial` [pcq] in part: a wait for distinct futures that has neither returned nor raised is waiting for one that is not done. Missing: callbacks that wait (`nested_wait_hangs`) and repeated futures (`repeated_future_hangs`), for which it is false.
* `Props.Context.nested_wait_hides_error` [pq] Disagreement with C18: a callback that waits can take the Error of a future that an outer wait is waiting for; the outer wait then returns as if nothing had failed.
* `Props.Context.nested_wait_hangs` [pq] Disagreement with C18: after a callback that waited, the futures that are done are removed from a list while it is iterated over, so of two neighbours one stays, and the wait goes on although both are done.
* `Props.Context.repeated_future_hangs` [pq] Disagreement with C18: waiting for the same future twice does not end when it is done.
* `Props.Context.stray_response_raises` [pq] Disagreement with C18: a response for a future that is done already raises KeyError in whichever wait takes it.

### C19 stop() aborts the waits it should - proved

Modelled: `stop`, `ignore_stops_before_now`, waits. Proved: invariant relating the queue to the events since.

ignore_stops_before_now is taken as one step: its assignment and its put are not separated

* `Props.Context.queue_in_order` [pq] What is put in the queue is taken from it in the order in which it was put, each item once: what has been taken followed by what is left is the history, and only grows at its end.
* `Props.Context.stop_aborts_unless_ignored` [pcq] Take any history, then `stop()`, then any further operations, until the item that will be taken next is that stop (everything put before it has been taken, and nothing else). Then the wait that takes it is aborted if `ignore_stops_before_now` was not called after the stop, and goes on if it was.
* `Props.Context.only_stop_aborts` [pq] Only a stop aborts: a wait is aborted by an item only if that item is a stop.
* `Props.Context.aborted_ends_wait` [pq] A wait whose turn takes an item with outcome `aborted` ends with AbortedError.
* `Props.Context.stop_aborts_one_wait` [pq] A stop aborts one wait: the next wait on the same context is not aborted by it.

### C20 unsubscribe_all leaves no subscription behind - proved

Modelled: `subscribe`, `unsubscribe`, `unsubscribe_all`. Proved: invariant over requests sent and responses received.

the last clause assumes that a controller sends no Update after the response that ends the subscription; 'sent' means requested, and goes to the controller if it still exists

* `Props.Context.at_most_one_unsubscribe` [pq] For every history, no subscription is sent more than one Unsubscribe.
* `Props.Context.unsubscribe_all_leaves_none` [pcq] For every history, after `unsubscribe_all` every subscription made through the context that has not been ended by its controller (with a Return or Error already received) has been sent exactly one Unsubscribe.
* `Props.Context.only_subscriptions_unsubscribed` [pq] Only subscriptions are unsubscribed.
* `Props.Context.subscribe_is_made` [pq] every Subscribe request is recorded as made
* `Props.Context.no_callback_after_unsubscribe_all` [pcq] After `unsubscribe_all` no callback is called, whatever is still in the queue and whatever arrives, until a new subscription is made; assuming that controllers send no Update after the response that ends a subscription.
* `Props.Context.no_callback_after_unsubscribe` [pcq] After `unsubscribe` of a subscription its callback is not called again.

### C21 Hooks gather every part's result or its failure - proved

Modelled: hooked functions in their threads, `wait_hooks`. Proved: invariant over schedules of completions.

a hook that does not stop in time after a failure is given up on (hooks_timedOut)

* `Props.Hooks.hooks_returned` [pcq] success: whatever the order in which the hooked functions finish, if `run_hooks` returns then every one of them has finished and succeeded, and the result has exactly one entry per part with a hooked function, in the order the hooks were given, holding what that part returned.
* `Props.Hooks.hooks_raised` [pcq] failure: if `run_hooks` raises the failure of a part then it is the first failure in order of completion, every hooked function has finished, and unless the failure was an abort every hooked function was told to stop.
* `Props.Hooks.hooks_timedOut` [pcq] the only other way to end: a function that was told to stop (or a child of which was aborted) does not finish in time after another one failed.
* `Props.Hooks.hooks_progress` [pcq] no deadlock. When all hooked functions have finished the waiter can always make progress: as long as it has neither returned nor raised, taking from the queue or joining changes the state.

### C22 Block fields are unique, well named and in registration order - partial

Modelled: `FieldRegistry`, `Controller.setup`, the camelCase pattern. Proved: invariant over registrations; the pattern against a description of the strings.

The pattern lets a trailing newline through; a field called meta breaks the block; a part refused for its name has already registered its fields. Outside these the statement is proved for every sequence of registrations.

* `Props.Fields.camel_pattern_partial` [pq] The pattern accepts exactly the camelCase names, and those followed by one newline.
* `Props.Fields.registration_accepted_iff` [pcq] A registration is accepted exactly if the name matches the pattern and no owner has a field of that name; a rejected registration leaves the registry as it was.
* `Props.Fields.registry_is_accepted_in_order` [pcq] After every history of registrations the registry holds exactly the accepted ones, grouped by owner and in the order of registration; no name occurs twice, for one owner or for two; every name matches the pattern.
* `Props.Fields.owner_fields` [pcq] So the fields of one owner are its accepted names in the order it registered them.
* `Props.Fields.block_fields_partial` [pcq] The block that `setup` makes has each registered field once, owner by owner in the order of registration, provided no field is called `meta`, `notifier` or `path`.
* `Props.Fields.part_name_used_once` [pcq] A second part with a name in use is refused and changes nothing.
* `Props.Fields.get_field_finds` [pcq] `get_field` finds the owner of a registered field and nothing else.
* `Props.Fields.trailing_newline_accepted` [pcq] Disagreement with C22: a name with a newline at its end is accepted.
* `Props.Fields.meta_field_breaks_setup` [pcq] Disagreement with C22: the registry accepts a field called `meta`, and then the block cannot be set up.
* `Props.Fields.refused_part_leaves_fields` [pcq] Disagreement with C22 for parts as a whole: a part that is refused because of its second field leaves its first field behind in the registry, and the block gets it.

### C23 A process runs each controller once - partial

Modelled: the process: adding, starting, publishing, stopping. Proved: invariant over histories.

Controllers before the failing one of a refused add are kept but never started, a controller added during stop is dropped without its stop hook, and blocks in a cycle of children are never published; the rest holds for every history.

* `Props.Process.mri_unique` [pq] part: after every history no two controllers have one mri, and each is under its own.
* `Props.Process.duplicate_refused` [pq] part: adding a controller whose mri is taken is refused, and none of the controllers given with it is started.
* `Props.Process.started_once_in_order` [pq] part: no start hook is run twice between two stops, whatever the history, and the start hooks are run in the order in which the controllers were added.
* `Props.Process.all_started_partial` [pq] part: if no addition was refused, a process that is not stopped has run the start hooks of all its controllers. What is missing: see `failed_add_not_started`.
* `Props.Process.start_stop_alternate` [p] part: a process can be started only when stopped, and stopped only when started; otherwise the call is refused and nothing changes. After a stop nothing is left of the old controllers.
* `Props.Process.publish_sound` [pq] part: the list given to the publish hook has each mri once, only mris of the process's controllers, and none of a controller that said it is not to be published.
* `Props.Process.publish_is_current` [pq] What a step adds to the publish log is the list for the controllers it has then, without those said to be unpublished.
* `Props.Process.unpublished_remembered` [pq] The mris that the start hooks said are not to be published are remembered, so no later publish list of the same run of the process has them.
* `Props.Process.publish_complete_partial` [pcq] part: if blocks are not children of themselves, directly or through others, then every block not said to be unpublished is published. `rank` witnesses the absence of cycles; `fuel` is the depth of recursion Python allows. What is missing: with a cycle, see `cyclic_children_not_published`.
* `Props.Process.failed_add_not_started` [p] A failing `add_controllers` leaves the controllers before the failing one in the process, but they are never started.
* `Props.Process.added_while_stopping` [p] A controller added while the process is stopping is started, and then dropped without its stop hook being run.
* `Props.Process.cyclic_children_not_published` [p] Two blocks that are children of each other are not published, whatever they say.
* `Props.Process.published_when` [pcq] When the publish hook is run: when starting ends with more controllers than the start hooks called unpublished, and when controllers more than their start hooks called unpublished are added to a started process, never else: not while it starts, stops or is stopped.

### C24 Validated attribute values are canonical - partial

Modelled: the `validate` of each meta. Proved: case analysis over values and metas.

numpy casts are a parameter with stated laws; a choice meta with no choices and a number meta given a list are exceptions (last theorems)

* `Props.Metas.validated_has_type_partial` [pcq] (type): an accepted value comes out with the declared type. `hnum`: a number meta given a sequence hands back a numpy array (`number_meta_accepts_list`).
* `Props.Metas.conforming_accepted` [pcq] A value of the declared type is accepted unchanged (but perhaps for an Array being wrapped in a numpy array).
* `Props.Metas.validate_idempotent_partial` [pcq] (idempotence): validating a validated value changes nothing.
* `Props.Metas.choice_is_declared` [pcq] a validated choice is one of the declared choices.
* `Props.Metas.undeclared_choice_rejected` [pcq] a string that is not a declared choice is rejected.
* `Props.Metas.none_is_accepted` [pcq] Every meta has a default: `None` is accepted (a table needs at least one column).
* `Props.Metas.no_choices_not_canonical` [pcq] A meta with no choices turns `None` into the empty string, which it then rejects.
* `Props.Metas.number_meta_accepts_list` [pcq] A number meta given a list hands back a numpy array, not a number.
* `Props.Metas.number_array_of_bare_value` [pcq] If annotypes wraps bare values then a number array meta given one stores it without a cast.
* `Props.Metas.choice_by_index` [pcq] A choice can be given by its index: index `i` selects the `i`-th declared choice, and an index that is out of range is rejected.
* `Props.Metas.bool_of_string` [pcq] A string given to a boolean is false exactly if it is empty or one of the ways of writing "no": 0, False, false, FALSE, No, no, NO.
* `Props.Metas.bool_of_enum` [pcq] A member of an enumeration given to a boolean is true, also one whose value is empty or zero.
* `Props.Metas.bool_of_int` [pcq] A number given to a boolean is false exactly if it is zero.

### C25 Tables convert between rows and columns without loss - partial

Modelled: `Table` from and to rows, `TableMeta.validate`. Proved: list induction.

rows longer than the columns are cut (long_row_is_cut); a table meta with no elements rejects every table (empty_table_rejects_all)

* `Props.Metas.table_accepted_iff` [pcq] a table meta accepts exactly the dictionaries (or Tables) that have its columns and no other (the key `typeid` aside), whose columns are each accepted, and come out with one common length; and what comes out has the declared columns in the declared order.
* `Props.Metas.rows_round_trip_partial` [pcq] rows put into a table come back out.
* `Props.Metas.columns_round_trip` [pcq] the rows of a table whose columns have one length are its cells, and building a table from them gives its columns back.
* `Props.Metas.row_at` [pcq] `table[i]` is row `i` of `table.rows()`.
* `Props.Metas.long_row_is_cut` [p] What the code does not do: a row with too many cells loses them without an error.
* `Props.Metas.empty_table_rejects_all` [pcq] A table meta with no columns rejects every value, the default included.

### C26 Port tags survive encoding - partial

Modelled: port, config and iteration tags, `set_tags`. Proved: string splitting by induction over characters.

Values with a colon make the reader raise and values with a line end are cut, for every such value; a sink port tag hides a source port tag that is added later. The rest is proved.

* `Props.Tags.port_read_back_partial` [pq] partial. The port tag that is written is read back as the same direction, type and value, among any other tags: those before it that are not port tags and any after it. Missing: values with a colon or a line end, see `colon_rejected` and `line_end_cuts`.
* `Props.Tags.colon_rejected` [pq] Every value with a colon on its first line makes the reader raise, so a block with a colon in its name cannot be the source of a port
* `Props.Tags.line_end_cuts` [pq] A value is cut at its first line end
* `Props.Tags.with_source` [pcq] Replacing the source port tag: the other tags are there as before, in their order, and there is one source port tag
* `Props.Tags.with_source_read` [pq] … and it is what is read, if there is no sink port tag
* `Props.Tags.sink_hides_source` [pcq] With a sink port tag in the list that is read instead of the new tag
* `Props.Tags.iteration_read_back` [pcq] the iteration that is written in a config tag is read back
* `Props.Tags.config_found` [pq] a config tag that was added to tags without one is found
* `Props.Tags.without_config` [pq] removing the config tags leaves none, and the others as they were, in their order
* `Props.Tags.config_replaced` [pcq] replacing the config tag: then there is one, and its iteration is the given one
* `Props.Tags.setTags_port` [pq] the sink port that was asked for is read back from the tags of the attribute, and no other
* `Props.Tags.setTags_config` [pcq] an attribute is saved in the iteration asked for if it is writeable and one was asked for
* `Props.Tags.show_nat` [pq] The text of a number that is not negative has no sign.

### C27 A saved design restores the block - partial

Modelled: `do_save`, `do_load`, `on_save`, `on_load`, `put_attribute_values`, files. Proved: composition: what a save writes, what a load puts; simulation over parts and iterations.

Proved for all parts, layouts, exports and settings under the conditions in the statement (exported fields exported once and still exportable, own config attributes of visible parts, puts of saved values store them and disturb only later iterations). Without them the property is false of the code, as the four named histories show.

* `Design.design_restored_partial` [pcq] a design of the manager as it is in `m` is loaded when it is as in `m'`. Then the layout, the exports, the own config attributes and every saved setting are as they were in `m`; the other settings are as the layout that is put first leaves them; and a save writes the same design. Missing: what must be assumed. An exported field is exported once (`same_source_lost`) and can still be exported (`lost_export_fails`), the own config attributes that were saved belong to parts that were visible (`hidden_own_fails`), the layout can be put, and the children can be given what they had.
* `Design.design_kept` [pq] the file: a design is read as it was last saved under its name, whatever is saved under other names, if no name contains ".json"
* `Design.hidden_own_fails` [pcq] A config attribute of a part that is hidden is saved, and then the design cannot be loaded, not even into the block as it was saved
* `Design.same_source_lost` [pcq] A field that is exported twice is exported once after a save and a load
* `Design.lost_export_fails` [pcq] A field that was exported and cannot be exported any more: nothing is loaded
* `Design.json_name_overwrites` [p] Saving a design whose name contains ".json" can overwrite another design

### C28 The modified flag is truthful - partial

Modelled: `update_modified`, messages of parts, saves and loads. Proved: invariant relating what a manager remembers to the last design.

Proved for every history in which operations follow one another: not modified implies every setting the design speaks of, the visible column and the exports are as the design last saved or loaded. Modified implies a difference, or a setting left over from a save or load made while it differed, or a table named by a loaded design; equivalence when there are none. The full equivalence is false of the code: stale_message and loaded_table are histories on which a block is as saved and says it is modified; change_while_saving is a change during a save that is not seen.

* `Modified.unmodified_is_saved` [pcq] one direction: a manager that says it is not modified is as the design last saved or loaded says
* `Modified.modified_differs_partial` [pcq] the other direction in part: a manager that says it is modified has a visible part with a setting that is not as the design last saved or loaded says, or that was not when something was saved or loaded and has had the same value since, or that is a table named by a design that was loaded, or its visible column or its exports are not as the design says. Missing: the settings of the second and third kind may be as saved, and then the manager should not say it is modified because of them (`stale_message`, `loaded_table`).
* `Modified.modified_iff_partial` [pcq] As long as nothing is saved or loaded while a setting differs, and no design with tables is loaded, a manager says it is modified exactly when it is
* `Modified.stale_message` [p] A setting is changed, the design is saved, and another setting is changed and changed back. Every setting, the layout and the exports are as saved, and the manager says it is modified: the message of the first setting is told again, as a part keeps its messages when it is saved.
* `Modified.loaded_table` [pcq] A design with a table is loaded, the table is changed and changed back. Everything is as the design says, and the manager says it is modified: a table is never equal to what is read for it from the file.
* `Modified.change_while_saving` [pcq] A setting is changed after a part has given what is saved and before the save is over: the manager says it is not modified, and the setting is not as saved.
* `Modified.puts_iff` [pq] What a load puts to a child: each setting of the design that the child has with another value, and each table that the child has; nothing that the child does not have.
* `Modified.unsaved_is_modified` [pq] A setting that is not in the design counts as changed as soon as it is told: the message says what it is.

### C29 Exports are exactly the export table - partial

Modelled: `set_exports`, `update_exportable`, `_update_block_endpoints`, block fields. Proved: invariant over operations: the fields are a function of table and parts.

For every history of layouts, puts to exports, part reports and loads whose tables ask for different names that are free: the fields of the block are its own, those of parts not hidden and one per row of a visible part that has the field, in order; a put is accepted exactly if its rows name fields of parts and camelCase names, and otherwise changes nothing. False as stated: own_field_lost, same_name_stuck, meta_stuck, blank_rejected, export_too_early.

* `Exports.fields_are_exports_partial` [pcq] after any history of layouts, puts to exports, reports and loads, also those that fail, the fields of the block are, in order, its own, those of the parts that are not hidden and one for each row of the export table whose part is visible and has the field, under the name of the row, or that of the field if the row has none. Partial: the names a table asks for are different, also from those of the other fields, and none is "meta". Without that it is false: `own_field_lost`, `same_name_stuck`, `meta_stuck`.
* `Exports.exports_accepted_partial` [pcq] a put to exports is accepted exactly if every row names a field that its part has and a camelCase name; then it is the table, and otherwise nothing changes
* `Exports.own_field_lost` [pcq] A row may take the name of a field of the block itself. The field is replaced, and when the row is taken away it is gone for ever
* `Exports.same_name_stuck` [pcq] Two rows of one name: the put succeeds with one field for both, and no later table is shown
* `Exports.same_name_stuck_for_ever` [pcq] After two rows of one name no put to exports ever succeeds again, whatever its table, and nothing is shown but the fields of the block itself
* `Exports.meta_stuck` [pcq] A row called "meta" is accepted as a name, but cannot be a field; the fields after it are lost and no later table is shown
* `Exports.blank_rejected` [pcq] A put with a row without a name is rejected, although a design with that row loads and shows the field under its own name
* `Exports.export_too_early` [pcq] A design that exports a field that its child only gets while the design loads does not load

### C30 Hiding a child cuts its wires and nothing else - partial

Modelled: `set_layout`, `on_layout`, `sever_sink_ports`, `calculate_part_visibility`. Proved: invariant over layouts and rewirings, and what one layout changes.

For every history of layouts, port reports and rewirings after the first layout: wires to and of hidden parts are cut, nothing else changes, the table is as asked. False as stated: hidden_wire_kept (a part visible from the start that the first layout does not name keeps its wires when it is hidden), empty_name_cuts. A sink that is not writeable keeps its wire in the code, as nothing_else_cut shows.

* `Layout.hidden_source_cut_partial` [pcq] the sources: after the first layout, whatever has happened, rows that hide a visible part set every writeable sink of another part that is wired to one of its sources to its value without a wire. Partial: the parts that are visible from the start are named by the first layout or wired (`Announced`, see `hidden_wire_kept`), and a sink that is not writeable keeps its wire.
* `Layout.hidden_sink_cut` [pcq] the sinks: rows that hide a visible part set every writeable sink of it to its value without a wire
* `Layout.nothing_else_cut` [pcq] nothing else: an attribute of a child that a layout changes is a writeable sink, it gets its value without a wire, and either the rows hide its own part, which was visible, or they hide a part whose source it was wired to
* `Layout.table_as_asked` [pcq] the layout table: the parts named by the rows are where and as visible as the rows say, and the others are as they were
* `Layout.hidden_wire_kept` [p] A part that is visible from the start, neither wired nor named by the first layout, and wired later: hiding it leaves the wire
* `Layout.empty_name_cuts` [p] A row without a name that is shown and then hidden cuts all wires, although nothing is hidden

### C31 Trajectory times round without drift - partial

Modelled: profile arrays and conversion to ticks with the overflow. Proved: induction over points: error bound.

Within one chunk the cumulative error is at most half a tick at every point; the rounding remainder is dropped at each chunk boundary, so over n chunks the bound is n/2 (and chunks_drift shows half a tick is exceeded).

* `Props.Trajectory.ticks_half_partial` [pcq] part: in one chunk, at every point, the sum of the ticks differs from the sum of the times by at most half a tick. What is missing: the overflow is dropped between chunks, see `chunks_drift`.
* `Props.Trajectory.ticks_chunks_partial` [pcq] part: over chunk boundaries the difference is at most half a tick for each chunk written.
* `Props.Trajectory.chunks_drift` [pcq] The negation of the full property: two full chunks of any length, the first point of each taking 1.4 ticks and the others one, end 0.8 ticks early.

### C32 Trajectory profile arrays stay aligned - proved

Modelled: `add_profile_point` with splitting, `write_profile_points`. Proved: invariant over operations.

For every history of adding points, writing and correcting the last point.

* `Props.Trajectory.profile_consistent` [pcq] whatever points are added, written and corrected in any order and number, as long as no exception is raised: all arrays have one entry per point, no point takes longer than the limit, and the times written and still to be written add up to the times asked for.
* `Props.Trajectory.add_spec` [pcq] What adding a point does: it is refused only if it is longer than the limit and the profile is empty; the arrays stay aligned; the new times are within the limit and add up to the time asked for; the last entries are those asked for.
* `Props.Trajectory.add_straight` [pcq] The points in between are on the straight line: when a point is added after `last` and is split in `n`, the `i`th new position of each axis is `i / n` of the way from the last one, and the steps completed stay those of the last one until the point itself is reached.
* `Props.Trajectory.refused_only_first` [pcq] the only point that is refused is one longer than the limit with nothing before it in the arrays.

### C33 Sparse trajectories keep the total time - proved

Modelled: sparse trajectories. Proved: simulation against the scan with no point left out.

For every list of points and every pattern of stops when the profile is full.

* `Props.Sparse.retained_on_time` [pcq] for every list of scan points, whenever the profile gets full and production stops and goes on: the trajectory reaches each point it keeps (a middle, an upper bound, or the end of a turnaround) at the time at which the scan with no points left out reaches it.
* `Props.Sparse.stops_harmless` [pcq] that stopping changes nothing
* `Props.Sparse.upper_kept` [pcq] what may be left out: the upper bound of a point is kept unless it is joined to the next one which has the same velocity.
* `Props.Sparse.mid_left_out` [pcq] what may be left out: the middle of a point is left out only if the next point is joined to it with the same velocity, or it ends a row and the point before is joined to it with the same velocity.

### C34 Scan points are visited once each in batches - partial

Modelled: batches of the trajectory; batches of the sequencer rows. Proved: invariant over updates.

PMAC trajectories for every batch size and history of updates, and the batches of the PandA sequencer. all_visited needs steps that make fewer points than are written at a time; big_step_stalls shows why.

* `Props.TrajLoop.visited_once` [pcq] whatever the batch size, however many profile points the steps make, whatever the scan before left, and whatever updates come: the steps visited are those from the first to the end index, once each and in order, and the end index never passes the last step; when all the points are written (nothing pending and the end index reached) every step of the window was visited and the tail-off was added once.
* `Props.TrajLoop.all_visited` [pcq] with steps that make fewer points than are written at a time, each time the controller has finished what was written more is written, until after at most two more updates than there are steps every step of the window was visited, once and in order, the tail-off was added once and nothing is left to write.
* `Props.TrajLoop.big_step_stalls` [pq] The defect: a step that makes more points than are written twice (a point of several hours is split into moves of at most 4 s) leaves more points than the controller may be ahead, so no update ever loads the next ones: the controller stops with steps left.
* `Props.Seq.batches_cover` [pq] For every range and batch size, the batches the sequencer rows are made from have every point of the range as a new point exactly once and in order
* `Props.Seq.batches_overlap` [pcq] and each batch after the first begins with the last point of the one before, has a new point and at most one point more than the batch size

### C35 Axis mapping is one motor per scannable and one port - proved

Modelled: `cs_axis_mapping`, `check_motion`. Proved: soundness and exactness over all tables.

Every layout table; exactness for tables with distinct names.

* `Props.PmacUtil.mapping_sound` [pcq] soundness: a mapping that is accepted has exactly the requested axes, each once, each mapped to a motor of the table with that name which is the axis it says of the port it says; all are on one port; no two are one axis.
* `Props.PmacUtil.mapping_accepted_iff` [pcq] exactness: with no two rows of one name (parts have different names) a request is accepted if and only if every requested axis is in the table and can be used, on one port and with no axis twice.

### C36 The sequencer emits one trigger per scan step - partial

Modelled: rows of a scan: `seq_entries`. Proved: pulses as a specification; induction over batches and steps.

live_total counts the live triggers for every scan, counting an endless row as none. That the pulses themselves are the required ones needs fewer than 4096 equal steps in a row, as long_row_loops shows.

* `Props.Seq.rows_exact_partial` [pcq] The rows made for steps `a` to `b` of any scan, in batches of any size, make exactly the pulses each step needs, in order, then the final ones. Missing: scans with 4096 or more equal steps in a scan row, for which see `long_row_loops`; and from which point the turnaround before a dead pulse starts, for which see C56.
* `Props.Seq.live_count_partial` [pcq] There are as many live pulses as steps
* `Props.Seq.live_total` [pcq] For every scan, step range and batch size the repeats of the live rows add up to the number of steps, and the rows end with the final dead pulse and loop
* `Props.SeqFit.repeats_fit` [pcq] no row that is made for any scan is to be repeated more than 4096 times.
* `Props.Seq.rows_made` [pcq] The rows are made for every scan without position compare; with it, if in every point some axis moves and the time to be blind can be found
* `Props.Seq.tables_live_partial` [pcq] The tables loaded for a scan, switched one after the other, make one live pulse per step
* `Props.Seq.long_row_loops` [pcq] A scan of 4096 equal steps with no motion makes a live pulse that is repeated for ever
* `Props.Seq.nearest_ticks` [pcq] A half of a point is the nearest whole number of ticks, and of two that are as near the even one.

### C37 Double buffering neither loses nor reorders rows - partial

Modelled: `DoubleBuffer` and the rows it cuts. Proved: induction over rows; invariant over reports of the sequencers.

For every stream of rows in which only the last row is endless; loop_in_the_middle_fails, multiple_loops and short_pulse_negative show the cases in which the code breaks the property.

* `Props.DoubleBuffer.tables_same_partial` [pcq] The tables cut from any stream of rows that ends in a continuous loop, and has no other, fit in the sequencer, make the same pulses in the same order (the last pulse of a table being completed by the switch to the next one), and all but the last are full or last longer than the minimum. Missing: streams with another continuous loop, which `add_seq_entry` makes for counts that are multiples of 4096.
* `Props.DoubleBuffer.tables_duration_partial` [pcq] The total duration is the same: the ticks of the tables, and six for each switch
* `Props.DoubleBuffer.tables_in_range_partial` [pcq] The times and repeats of the tables fit in their columns if those of the rows do and no second phase is shorter than the switch
* `Props.SeqFit.table_repeats_fit` [pcq] nor does one in any table that is loaded, whatever its size and duration.
* `Props.DoubleBuffer.loads_exact` [pq] Whatever the sequencers report, the first two tables go to A and B before the scan and each later one, in order, to the sequencer that has just stopped
* `Props.DoubleBuffer.loads_one` [p] With one table nothing is loaded later
* `Props.DoubleBuffer.loads_alternate` [pq] If the sequencers stop in turn, tables are loaded alternately, starting with A
* `Props.DoubleBuffer.multiple_loops` [pcq] Adding a multiple of 4096 pulses appends a row that the sequencer repeats for ever
* `Props.DoubleBuffer.loop_in_the_middle_fails` [pcq] and the cutting of the tables fails when such a row is the 4096th of more
* `Props.DoubleBuffer.short_pulse_negative` [pcq] A pulse with a second phase shorter than the switch gets a negative time, which does not fit
* `Props.DoubleBuffer.loads_none` [p] Without tables nothing is ever loaded

### C38 PandA tables survive packing into words - partial

Modelled: packing into and unpacking from 32-bit words with numpy's types. Proved: bit by bit.

Proved where every field lies inside the words of a row and fits its column type; the three negations show the code fails outside that.

* `Props.PandATable.bits_placed_partial` [pcq] Where every bit goes: in a row of words, the bits of a field are those of the value of its cell, and all other bits are zero. Missing: layouts whose highest bit is the first of a word and columns that do not fit, for which see `top_word_missing` and `shifted_out`.
* `Props.PandATable.round_trip_partial` [pcq] For every layout and every table of values of its fields, writing gives words that read back as the table. Missing: layouts whose highest bit is the first of a word (`top_word_missing`), columns shifted out of their numpy type (`shifted_out`) and negative values of fields narrower than their type (`sign_lost`).
* `Props.PandATable.top_word_missing` [pq] Not every layout can be written: if the highest bit of the fields is the first of a word, no room is made for that word, and every row raises IndexError, whatever its values.
* `Props.PandATable.shifted_out` [pq] An unsigned column of 8 bits or less that lies above the first 8 bits of its word is written as zero, whatever its value: it is shifted out of its uint8 array.
* `Props.PandATable.sign_lost` [pq] A negative value of a signed field that is narrower than its integer type is read back as another one

### C39 PandA replies go to the request that caused them - partial

Modelled: the send and receive loops and the line of requests. Proved: invariance under cutting of the stream.

For ASCII replies in any pieces, for any replies in pieces of whole characters, and sends that succeed; the negations show what happens otherwise: a character split between two pieces ends the loop.

* `Props.PandAClient.matched_partial` [pcq] Let a PandA write any replies, cut in any pieces, mixed with any requests so that no reply comes before its request: then what has been delivered is the n-th complete reply to the n-th request, for all complete replies, and nothing else. Missing: failing sends (see `failed_send_slips`) and pieces that cut a character in two, so that they cannot be decoded (see `cut_character_ends`).
* `Props.PandAClient.ascii_decodes` [pq] Pieces of plain ASCII can always be decoded, so C39 holds in full for a PandA that only writes ASCII
* `Props.PandAClient.matched_ascii` [pcq]
* `Props.PandAClient.failed_send_slips` [p] A request that could not be sent still waits in line: the reply to the next one is delivered to it, and so on for ever
* `Props.PandAClient.cut_character_ends` [p] A piece that ends within a character ends the loop: the reply is never delivered, although all of it comes in. Here the reply is a micro sign, in two pieces.
* `Props.PandAClient.decode_iff` [pcq] What is decoded is UTF-8: bytes are taken for a text exactly if they are how it is written in UTF-8.
* `Props.PandAClient.matched_text_partial` [pcq] for any text: let each piece that comes in be whole characters, in UTF-8.
* `Props.PandAClient.stray_reply_ends` [p] A reply that nobody waits for ends the loop, and so does a line that does not belong to a reply of several lines: nothing is delivered from then on.

### C40 Bit outputs never hide a pulse - proved

Modelled: `handle_changes` with bit outputs. Proved: invariant over polls.

Each bit is reported at most once in a poll, as the PandA does.

* `Props.PandAPoll.every_report_is_an_edge` [pq] In every poll that reports a bit, whatever value is reported and whatever came before, the block and the table of bits are told the opposite of what the block showed: there is an edge.
* `Props.PandAPoll.settles` [pcq] If the last report for a bit was `n`, then after at least one more poll, and for as long as nothing more is reported for it, its block shows whether `n` is not zero.
* `Props.PandAPoll.no_spurious_edge` [pq] A bit for which nothing was reported in the last two polls does not move.

### C41 Scaled position equals raw*scale+offset - partial

Modelled: the table of positions. Proved: invariant over reports.

Proved for any history of polls, and after any report whatever happened before; a written scale leaves the value stale until then (witness).

* `Props.PandABusses.scaled_partial` [pcq] After any number of polls, with reports in any order, the value of every position is the raw position last reported for it times the scale last reported plus the offset last reported, and these are the scale and the offset the table shows. Missing: tables that a user has written to, for which see `written_scale_stale` and `report_brings_up_to_date`; and polls that raise, after which the PandA is in its fault state.
* `Props.PandABussesSet.report_brings_up_to_date` [pcq] the rest. Whatever has happened to the tables, a poll that reports anything for a position leaves its value equal to its raw position times the scale plus the offset that the table shows.
* `Props.PandABits.written_scale_stale` [pcq] the negation of the full statement: when a user writes a scale, the value in the table stays as it was, until the PandA reports something for that position.

### C42 Web requests keep clients apart - proved

Modelled: server part, connections and controllers. Proved: invariant over messages and responses.

Each response goes to the connection whose message it answers, with its id; each message gets at most one value or error, and exactly one unless it is still with a controller; an id is never free again while the client is connected, which is stronger than the statement and a disagreement (unsubscribed_id_rejected, failed_id_rejected).

* `Props.WebServer.answered_to_sender` [pcq] first part. Each response that is written to a connection answers a message that came in on that connection, and carries the id of that message; an update answers a message that asks for a subscription.
* `Props.WebServer.answered_once` [pcq] first part, the other way round. As long as a client stays connected, each of its messages that does not end a subscription is either still with a controller, or a subscription that is alive, or has been answered, by a value or an error, and it has been answered only once.
* `Props.WebServer.nothing_after_the_end` [pcq] after the value or the error that answers a message, nothing more is written for it; in particular no update comes after the end of a subscription.
* `Props.WebClients.duplicate_rejected` [pcq] second part. Once a client has asked for a subscription with an id, a further one with the same id is turned down, as long as it stays connected: it is answered by an error, to the same client, and the subscriptions there are, and the requests under way, stay as they are.
* `Props.WebClients.clients_apart` [pq] third part. What one client does, and what is done for it, changes nothing of another: neither its requests under way, nor its subscriptions, nor what it has been sent.
* `Props.WebClients.unsubscribed_id_rejected` [p] The id of a subscription that has ended stays taken: a client that has unsubscribed cannot subscribe again with the same id, although the controller has forgotten it.
* `Props.WebClients.failed_id_rejected` [p] So does the id of a subscription to a block that does not exist, once it exists.
* `Props.WebClients.unsubscribe_overtakes` [p] An Unsubscribe handled before the Subscribe that it ends: the client is told of an error, and gets updates for ever.

### C43 A proxy mirrors the remote block - partial

Modelled: client comms update, composed with the notifier of C11. Proved: refinement: the local tree is the remote one.

The proxy equals the remote block after the first whole update and any changes of values below its fields, also composed with the notifier of the remote block. False of the code for fields added or removed later and for single columns of a table: witnesses.

* `Props.Proxy.mirror_partial` [pcq] partial. After the block as a whole, and any changes of what is below its fields, in any number of messages, the local block is the same as the remote one, everywhere, whatever the local block was before. Missing: fields added and removed, and single columns of tables (`added_field_missing`, `removed_field_stays`, `column_lost` in Verif.Props.ProxyRemote; a case that meets the hypotheses is `later_follows` there).
* `Props.Proxy.regenerate_exact` [pcq] Taking a whole block makes the block here the same as it
* `Props.ProxyRemote.proxy_follows_partial` [pcq] from end to end, partial. A block is changed in any way, then a proxy subscribes to it, then it is changed further, with values of the shape of what was there; whenever no changes are held back, the proxy that has handled all Deltas equals it. Missing: the same as in `mirror_partial`.
* `Props.ProxyRemote.later_follows` [pcq]
* `Props.ProxyRemote.added_field_missing` [pcq] The other fields of C43: one added later never appears in the proxy, and what is changed along with it is lost
* `Props.ProxyRemote.removed_field_stays` [pcq] One removed stays
* `Props.ProxyRemote.column_lost` [pcq] A table of which one column is replaced keeps the old one, and what comes after it in the same message is lost: alarm and time of the table

### C44 Exposure and readout fit the step - partial

Modelled: exposure and readout arithmetic. Proved: algebra over rationals.

The exposure fits in the frame duration unless the minimum exposure does not, in which case it is used all the same (min_exposure_can_exceed).

* `Props.Exposure.exposure_fits_partial` [pcq] part: the exposure never exceeds the time available, provided the detector's minimum exposure fits in it. What is missing: `min_exposure_can_exceed`.
* `Props.Exposure.min_exposure_can_exceed` [pcq] What is missing from `exposure_fits_partial`: where the minimum exposure does not fit it is used all the same.
* `Props.Exposure.requested_exposure_kept` [pcq] part: a requested exposure that the detector can do and that fits is used as it is.
* `Props.Exposure.zero_asks_for_longest` [pcq] part: an exposure of zero asks for the longest that fits.
* `Props.Exposure.minimum_duration_inverse` [pcq] part: the minimum duration is the inverse of the available time, and so an exposure fits in a duration if and only if the duration is at least the minimum duration for that exposure.
* `Props.Exposure.maximum_exposure_of_minimum_duration` [pcq] part: the longest exposure for the minimum duration of an exposure is that exposure.

### C45 Detector unique ids are never reused and labels stay in step - proved

Modelled: driver, labeller, writer. Proved: invariant over windows, pauses and seeks.

Driver, labeller and HDF writer over every history of windows, pauses and seeks of a scan.

* `Props.Detector.ids_never_reused` [pq] the ids of the frames of a scan are never used again: each is larger than the one before, whatever windows, pauses and seeks there are.
* `Props.Detector.labels_in_step` [pq] the position with the id of a frame is the position of the step the frame was taken for.
* `Props.Detector.progress_is_true` [pcq] and the completed steps that the driver and the file writer report with each frame are the steps the hardware has done; the value each waits for is reached when the window is done.

### C46 Every step's position is labelled once - proved

Modelled: position labeller loop. Proved: invariant over updates and completions.

For every schedule of queue updates and completions of puts.

* `Props.Detector.positions_once_in_order` [pcq] whatever updates of the queue length come, in whatever order with the completion of puts, the positions sent since the plugin was set up at `first` are `first, first + 1, ...`, each once and in order, up to the end index, which is at most the size of the scan.
* `Props.Detector.position_ids` [pcq] and so the id that the plugin gives to the position of step `s` is `idStart + (s - first)`: ids are consecutive. `Labeller.stepOf` of C45 is the inverse.
* `Props.Detector.all_positions_sent` [pcq] all positions are sent, if often enough the plugin says that its queue is short: each such update with no put going on sends up to 5000 more.
* `Props.Detector.no_load_while_loading` [pq] an update that comes while a put is going on, or that says the queue is long, sends nothing

### C47 Scan runner counters add up - partial

Modelled: scan runner. Proved: induction over the scans, with a trace of the counters.

Between the two updates of a scan the counters differ by one; a scan whose report line cannot be written is not counted; abort does not stop the runner.

* `Props.ScanRunner.finished_run_partial` [pcq] part: a run that ends without an exception, whatever the outcomes of the scans: the counters are the numbers of scans attempted, of those configured and run without an error, and of the others; each scan of each set is attempted, in order, from 1 to its number of repeats.
* `Props.ScanRunner.smooth_run_finishes` [pcq] part: a run ends without an exception if nothing but the scans goes wrong.
* `Props.ScanRunner.counters_partial` [pcq] part: at every moment of every run, ended or not, with or without an exception: scansSuccessful + scansFailed is scansCompleted or one more (for the moment between the two updates), and never more than the number of scans attempted; the scans attempted are the first of all scans, in order. What is missing: see `counters_differ_for_a_moment` and `attempt_not_counted`.
* `Props.ScanRunner.counters_start_at_zero` [-] The counters start at zero, whatever a run before left.
* `Props.ScanRunner.completed_is_configured` [pcq] part: after a run without an exception scansCompleted is scansConfigured.
* `Props.ScanRunner.all_entries_loaded` [pq] The entries of the file that have different names are all kept, in order.
* `Props.ScanRunner.counters_differ_for_a_moment` [p] A client can see counters that do not add up: the outcome is counted before the completion.
* `Props.ScanRunner.attempt_not_counted` [-] A scan whose line in the report cannot be written is not counted, and the run ends.
* `Props.ScanRunner.goes_on_after_abort` [-] A scan that was aborted is counted as failed and does not stop the runner: the others are run, although it was `abort` of the runner that aborted it.
* `Props.ScanRunner.same_name_lost` [-] Of two entries with the same name the first is not run.

### C48 YAML substitution is exact - partial

Modelled: substitution, parameters and defines. Proved: induction over characters.

Exact for texts and values in which $ only begins references; values with references are substituted again or not depending on the order.

* `Props.Yaml.substitution_exact_partial` [pcq] part: in a text in which `$` only begins references, with values that have no `$`, exactly the references to known names are replaced by the values and all else is kept. What is missing: a value with a `$` may be substituted again, see `substituted_again`; so may a name put together by substitutions, see `name_from_substitution`.
* `Props.Yaml.text_without_dollar_kept` [p] whatever the values are, text without `$` is left as it is, also values that are not text.
* `Props.Yaml.other_kept` [-]
* `Props.Yaml.list_itemwise` [-] The items of a list are substituted each for itself.
* `Props.Yaml.refused_iff` [pq] a call is refused if and only if a parameter is given that is not declared, or one declared without a default is not given.
* `Props.Yaml.parameter_bound` [pq] what a call that is accepted passes on for a declared parameter: the value given, else the default.
* `Props.Yaml.parameter_substitution` [pcq] part: the substitutions of a definition have, for a parameter, the value the call passes on, unless a define has its name.
* `Props.Yaml.define_substitution` [pcq] and the define that is last has, as its value, its text with the substitutions made so far.
* `Props.Yaml.substituted_again` [pcq] A value with a reference is substituted again, or not, depending on the order of the names.
* `Props.Yaml.name_from_substitution` [pcq] A name can be put together by a substitution.
* `Props.Yaml.default_not_substituted` [pcq] The default of a parameter is substituted when the defines are made, but then replaced by the one without substitutions, so that a reference to the parameter leaves a reference in the text.

### C49 Frames are shared exactly between writer files - partial

Modelled: `files_shape`, raw datasets. Proved: arithmetic.

Holds if and only if the frames left over are fewer than the files; else too many frames are expected. Floats are modelled as rationals.

* `Props.Odin.shapes_round_robin_partial` [pcq] part: if the frames left over after all full rounds are fewer than the files, then the shape of each file is the round-robin share. That is so if the block size is 1, and if there are only full rounds. What is missing: other numbers of frames, see `sum_of_shapes` and `shapes_too_large`.
* `Props.Odin.block_size_one` [-] block size 1: the hypothesis of `shapes_round_robin_partial` always holds
* `Props.Odin.sum_of_shapes` [pcq] what the shapes add up to, exactly: there are `fileCount * (remainder / fileCount)` too many.
* `Props.Odin.shapes_add_up_iff` [pcq] they add up to the number of frames if and only if the left over frames are fewer than the files.
* `Props.Odin.shapes_too_large` [pcq] The negation of the full property: 30 frames in blocks of 10 to two files are expected as 25 and 15, not 20 and 10.
* `Props.Odin.one_raw_dataset_too_many` [p] The number of raw datasets told of is one more than that of the links made, which are the numbers 1 to the number of files.

### C50 Driver version check is an order - partial

Modelled: `check_driver_version` and parsing. Proved: decision logic.

The patch number is not compared (patch_ignored).

* `Props.Version.accepted_iff_partial` [pcq] part: every driver that is compatible is accepted; a driver that is accepted is compatible if the requirement has no patch number, or a 0 as the patch number, or the minor number is larger than the required one. What is missing: the patch number is not compared, see `patch_ignored`.
* `Props.Version.accepted_iff_minor` [pcq] What is checked: the major numbers are the same and the minor one is at least the required.
* `Props.Version.other_major_refused` [pcq] A driver with another major number, newer or older, is refused.
* `Props.Version.patch_ignored` [p] The negation of the full property: driver 3.10.1 is accepted where 3.10.2 is required.
* `Props.Version.parse_release` [pq] The text "n.n.n" of release numbers is parsed to those numbers, so `accepted_iff_partial` is about texts as well.
* `Props.Version.bad_text_is_error` [p] A text that is not a version is an error, not an acceptance.
* `Props.Version.texts_checked` [pcq] part, of the texts: a driver whose version is written with the numbers `d` is accepted where `r` is required exactly if the first numbers are the same and the second is at least the required one.

### C51 Detector table validation makes frames fit - partial

Modelled: validation of detector tables. Proved: algebra, as C44.

Rows fit unless the minimum exposure is accepted though it does not fit; a duration of 0 with several frames per step changes the scan.

* `Props.Exposure.untweaked_row_fits_partial` [pcq] part: if validation of an enabled row asks for nothing, for a step of positive duration, then the row has at least one frame per step, each with an exposure the detector can do, and the frames fit in the step, provided the detector's minimum exposure does. What is missing: `min_exposure_accepted` (the minimum exposure is accepted although it does not fit) and `zero_duration_multiplies_scan` (steps of duration zero).
* `Props.Exposure.tweaked_row_settles_partial` [pcq] part: a tweaked row when validated again needs no further tweak, for a step of positive duration.
* `Props.Exposure.other_rows_kept` [pq] What the table says when validation is finished: the row has the name of the detector, everything else in the table is as it was.
* `Props.Exposure.min_exposure_accepted` [pcq] What is missing from `untweaked_row_fits_partial`: a row with the detector's minimum exposure is accepted although it is longer than the step.
* `Props.Exposure.zero_duration_multiplies_scan` [pcq] With a step duration of zero and several frames per step, validation asks for the generator that was multiplied out for the detector to become the generator of the whole scan, which has twice as many steps as asked for.

### C52 Pulse triggers fit in the step - partial

Modelled: pulse trigger arithmetic. Proved: algebra, as C44.

A detector without exposure in a slot shorter than the readout margin gets a negative width.

* `Props.Exposure.pulses_fit_partial` [pcq] part: where the code sets a pulse train, it is one pulse per frame, each as wide as the exposure, in its own slot of the step and centred there unless no delay is wanted; pulses do not overlap, and all of them are in the step. What is missing: `negative_width` (a detector without an exposure in slots under a microsecond).
* `Props.Exposure.too_wide_refused` [pcq] part: an exposure that leaves no gap between the pulses is refused.
* `Props.Exposure.negative_width` [pcq] What is missing from `pulses_fit_partial`: for a detector without an exposure, in slots of less than a microsecond, the width put to the PandA is negative.

### C53 Turnarounds match the velocities of the points around them - partial

Modelled: velocities at entry and exit of points, turnarounds. Proved: algebra.

False of the code for points whose position is not half way between their bounds: entry and exit are swapped.

* `Props.PmacUtil.entry_velocity` [pcq] the velocity computed for the entry of a point is that of the motion at its start
* `Props.PmacUtil.exit_velocity` [pcq] and that computed for the exit is that of the motion at its end
* `Props.PmacUtil.velocity_bounded` [pcq] a velocity is only accepted if it is at most a millionth above the maximum
* `Props.PmacUtil.turnaround_velocities_partial` [pcq] part: for points whose position is half way between their bounds a turnaround starts with the velocity at which the point before is left and ends with that at which the next is entered. What is missing: the velocities used are those of the entry of the point before and of the exit of the next, see `turnaround_wrong_velocity`.
* `Props.PmacUtil.turnaround_wrong_velocity` [pcq] The defect: a point that is left at velocity 2, followed by one that is entered at velocity 2: the turnaround is made to start and end at velocity 0.

### C54 A guessed duration is long enough - partial

Modelled: guessed durations. Proved: algebra.

False of the code for an axis that moves backwards.

* `Props.PmacUtil.guess_enough_partial` [pcq] part: an axis that moves forwards, or not at all, can move between the first two points in the guessed duration. What is missing: one that moves backwards, see `guess_backwards`.
* `Props.PmacUtil.guess_backwards` [pcq] The defect: a scan whose first two points are 5 units backwards on an axis of maximum velocity 1 is given one microsecond.

### C55 Turnaround positions follow the velocity profiles - partial

Modelled: positions of a turnaround from velocity profiles. Proved: induction over the times.

For profiles whose times are equal or distinguishable by np.isclose; times closer than that raise an exception.

* `Props.PmacUtil.turnaround_positions_partial` [pcq] part: for any number of axes with consistent profiles whose times are equal or further apart than `np.isclose` notices, the positions of each axis at the times of all of them are the areas under its own velocity profile. What is missing: times that are close but not equal, see `close_times_fail`.
* `Props.PmacUtil.posAt_end` [pcq] the last of them is the end: the axis has moved by the whole area
* `Props.PmacUtil.close_times_fail` [pcq] The defect: two profiles that end a billionth of a second apart, as floating point sums may, make the function look for a point that the axes do not have.

### C56 Each dead pulse covers the turnaround it precedes - partial

Modelled: as C36. Proved: as C36.

turnaround_partial: scans of which no scan row goes over the end of a batch. turnaround_same_row, for every scan: the dead pulse is that of a turnaround from a point of the scan row that has ended, which can be the last point of an earlier batch instead of the last point of the row. stale_turnaround shows such a scan, whose dead pulse is that of another turnaround.

* `Props.Seq.turnaround_partial` [pcq] in part. In a scan of which no scan row goes over the end of a batch, each dead pulse is that of the turnaround from the point before its scan row. This includes any scan that is made in one batch. Missing: other scans, for which see `stale_turnaround`.
* `Props.Seq.turnaround_same_row` [pcq] In any scan, however it is cut in batches, each dead pulse is that of a turnaround from a point of the scan row that has just ended: the point before, or else the last point of a batch that ended within that scan row.
* `Props.Seq.stale_turnaround` [pcq] In a longer scan the turnaround before the first scan row that starts in a later batch is taken from the last point of the batch before, although that point is in the middle of a scan row

### C57 The sequencer is blind exactly while the axis moves the wrong way - proved

Modelled: the blind time in a turnaround. Proved: induction over the velocity profile.

For every profile, direction and resolution.

* `Props.Seq.blind_exact` [pcq] The sequencer is blind until the last time in the turnaround at which the axis stands still or moves the wrong way: at every later time of the profile it moves the right way. If it moves the right way all along, until the start. The only error is that it does not move the right way at the end.

### C58 Reported changes reach the block of the field - proved

Modelled: as C40. Proved: case analysis of names, induction over reports.

* `Props.PandAPoll.fields_passed_on` [pcq] After any history, in every poll, a field of a block that is not a bit is passed on if and only if the PandA reports it in this poll, with the last value reported. `dest_iff` says which report belongs to which field of which block.
* `Props.PandAPoll.dest_iff` [pcq] Which field of which block a report belongs to

### C59 Written positions are shown and sent - proved

Modelled: writing the table of positions. Proved: fold over rows.

Rows of the written table have distinct names.

* `Props.PandABussesSet.rows_written` [pcq] the table.
* `Props.PandABussesSet.changes_sent` [pcq] the PandA: each setting that the new table shows and the old one does not is sent, and all that is sent is what the new table shows.
* `Props.PandABussesSet.refused_keeps` [p] if the PandA refuses a setting, the table stays as it was.

### C60 Captured bits - partial

Modelled: the table of bits. Proved: invariant over reports; fold over rows.

Reports: full. Writing: for tables that list every bit once and nothing else; the negations show what goes wrong otherwise.

* `Props.PandABits.bits_follow` [pcq] reports. After any number of polls a bit shows the value last reported for it, and it shows as captured exactly if the last report for the field that captures it was not "No".
* `Props.PandABits.capture_written_partial` [pcq] writing the table. If the user lists every bit, once, and something changes, then the table shows the captures they ask for, and each field that holds bits is sent to the PandA, as captured exactly if one of its bits is. Missing: tables that leave out bits (`left_out_bit_lost`) or that hold other rows (`other_row_fails`).
* `Props.PandABits.left_out_bit_lost` [pcq] the negation of the full statement: a table that leaves out a bit that is captured makes the PandA stop capturing the field, while the table goes on to show the bit as captured.
* `Props.PandABits.other_row_fails` [pq] a row with a name that is not a bit is ignored if nothing else changes, but makes the write fail if something does.

### C61 Web clients that may write - proved

Modelled: writeable clients. Proved: bits of addresses; invariant of C42.

IPv4 addresses as 32 bit words.

* `Props.WebClients.may_write_iff` [pq] first part. A client may write if no interfaces were found to check against, or if its address is in the network of one of them.
* `Props.WebClients.read_only_client` [pcq] second part. No Put and no Post of a client that may not write ever reaches a block.
* `Props.WebClients.write_checked` [pcq] third part. Each of them is answered by an error, and so is not one of a client that may, to a block that exists.

### C62 A web client's requests get their own replies - partial

Modelled: the client comms with the threads of tornado and cothread, connections, requests and callbacks. Proved: invariants over all events; for the last part a phase of the client and what each request was given.

That each reply goes to its own request and ends it at most once is proved for every history and any server. That every request that was written is answered is proved for servers that answer what they are asked and clients that are not reset or disabled after an unexpected loss. The rest is false of the code: the five histories.

* `Props.WebClient.numbered` [pcq] requests are numbered 1, 2, ... in the order in which they are sent, over all connections, so no two have the same id
* `Props.WebClient.own_reply` [pcq] whatever a server sends, and however connections come and go, what the callback of a caller is called with is a response to a request of this caller: its id is the one that was given for it, and as ids are different, for no other
* `Props.WebClient.from_server` [pcq] and it is either a message that came from the server with this id, or the error that says that the connection was lost
* `Props.WebClient.ended_once` [pcq] no request is ended twice, whatever the server sends
* `Props.WebClient.answered_partial` [pcq] partial. If the server only answers what it was asked, once, and the client is neither reset nor disabled after it has lost a connection unexpectedly, then each request that was written to a connection is given exactly the messages with its id, in the order in which they came; and if its connection is lost before one of them ends it, then, as the last, the error that says so. So once all callbacks have run a caller is only left waiting on a connection that is there. Missing: requests that were not written, and clients that were reset or disabled after a connection was lost; see `sent_while_disconnected`, `not_encoded`, `disable_overtakes_fault`, `stale_token_hides_fault` and `late_connection_faults`
* `Props.WebClient.sent_while_disconnected` [pq] the negation of the full statement: a put or a post that is sent after a connection was lost, when that has been reported, is never answered. The caller waits for ever, as `send_put` and `send_post` wait without a time limit
* `Props.WebClient.not_encoded` [pq] neither is one that cannot be encoded, although the connection is there
* `Props.WebClient.disable_overtakes_fault` [pq] a client that is disabled just after its connection was lost is Disabled when that is to be reported, which then raises, so that requests that were sent are never answered
* `Props.WebClient.stale_token_hides_fault` [pq] a connection that is lost unexpectedly leaves an item in the queue that tells `reset` of a connection and `disable` of its end. So after a reset, `disable` does not wait for the end, which then cannot be reported: requests are never answered
* `Props.WebClient.late_connection_faults` [pq] a client that gave up waiting for its connection is in Fault; when the connection is made and then lost this cannot be reported, as there is no transition from Fault to Fault

### C63 A web client that is Ready is connected - partial

Modelled: as C62. Proved: the phase invariant of C62.

Proved for any number of proper starts and stops, refused connections, and a last unexpected loss. After a reset that follows an unexpected loss it is false of the code (reset_is_not_enough).

* `Props.WebClient.ready_is_connected_partial` [pcq] partial. In a history in which the client is neither reset nor disabled after it has lost a connection unexpectedly: a client that is Ready, with no fault still to be reported, has one connection and reads from it, and has asked for the list of remote blocks on it, or is about to. Missing: clients that were reset after they lost a connection; see `reset_is_not_enough`
* `Props.WebClient.reset_is_not_enough` [p] the negation of the full statement: a client that is reset after it lost its connection goes on at once, because of the item that was left in the queue, before there is a connection. It is Ready; its request for the list of remote blocks is not written; and when the connection is there, nothing asks for it again

### C64 Datasets announced by an HDF writer are the ones written - partial

Modelled: `create_dataset_infos`, `make_layout_xml`, `set_dimensions`, the additional file and `on_configure`. Proved: membership in the layout tree, induction over dimensions.

Datasets announced are written, unless demand positions go to a file of their own for a Windows server (set_points_elsewhere). That the areaDetector plugin follows its layout and sizes is taken from its documentation. layout_valid needs different names (same_name_twice).

* `Props.Hdf.announced_written_partial` [pcq] part: whatever infos the parts gave, whatever the generator, every dataset that a configured HDF writer part announces will be written at the path it announces in the file it announces, and so will the dataset of unique ids that it names. What is missing: with the demand positions in a file of their own on a detector whose server runs on Windows they are not, see `set_points_elsewhere`; that the plugin does what the layout says is taken from its documentation.
* `Props.Hdf.attribute_announced` [pcq] each NDAttribute that a part says is a useful dataset is announced under its name and type, with the rank of the scan, and the layout fills it from that attribute.
* `Props.Hdf.frames_announced` [pcq] the frames and the statistics of them are announced if a part says that it produces frames, with their ranks; the layout fills them from the detector and the attributes.
* `Props.Hdf.shape_told` [pcq] the shape that the plugin is told is the shape of the scan: it has one index for each dimension, and its indexes are, from the slowest to the fastest, the dimensions of the generator, each called `d` and its number, as the position labels are (C46), and of its size.
* `Props.Hdf.set_points` [pcq] the demand positions. For each axis of dimension `i` there is one dataset with the positions of that axis in order, the group of the frames says that they go with index `i`, and they are as many as that index of the frames is long.
* `Props.Hdf.links_lead` [pcq] each link of the layout is to a dataset of the layout.
* `Props.Hdf.axes_fit` [pcq] the `axes` of the group of the frames has one entry for each index of the frames: for a dimension of one axis it names the dataset of the positions of that axis.
* `Props.Hdf.layout_valid` [pcq] if the parts want datasets of different names, none of them `detector` or `NDAttributes` or that of a dataset of demand positions, then no group of the layout has two things of the same name.
* `Props.Hdf.one_source` [pq] In a valid layout a path leads to one dataset only.
* `Props.Hdf.set_points_elsewhere` [pcq] The negation of the full C64: on Windows, with the demand positions in a file of their own, the part writes that file itself, under the name that the Windows machine has for it. The file that it announces is written by nobody.
* `Props.Hdf.axes_misfit` [pcq] The `axes` of the group of a dataset that is not the frames has an entry for each index of the frames, although the dataset has, as it is announced, the indexes of the scan only.
* `Props.Hdf.same_name_twice` [pcq] Two parts that want a dataset of the same name make a layout that has two groups of one name

### C65 File paths for Windows servers - partial

Modelled: `translate_filepath` with `str.replace`. Proved: induction over the characters of the path.

The prefix must not occur again further on in the path: it is replaced there too (replaced_again).

* `Props.Hdf.translated_partial` [pq] part: with one translator whose prefix is where the path starts and nowhere else in it, the path for Windows is the drive letter, or the network prefix and the prefix, in the place of the prefix, then the rest, with backslashes. What is missing: a prefix that occurs again is replaced again, see `replaced_again`.
* `Props.Hdf.refused_iff` [pq] it is refused if there is not exactly one translator, if the path does not start with the prefix, or if it has a colon.
* `Props.Hdf.replaced_again` [pcq] The negation of the full C65: `/dls/i18/dls` is made into `X:\i18X:`.

### C66 An attribute on a PV shows its PV - partial

Modelled: `CABase`, `CAAttribute`, `WaveformTableAttribute`. Proved: induction over the history, against the list of readings taken.

Full for attributes on one PV. A table of waveforms keeps the worst severity for ever and does not show that a PV is gone (witnesses). What catools gives is taken from its documentation.

* `Props.Ca.alarm_says` [pq] whatever happens, the alarm of the attribute says what the last reading said: no alarm, the severity of the PV, or that the PV is disconnected.
* `Props.Ca.value_shown` [pq] whatever happens, the value of the attribute is the last value read, as the meta of that time makes it, also while the PV is disconnected and after updates that the meta refused; and it is the value that it had at first if none was read.
* `Props.Ca.monitored` [pq] a part that has been initialised or reset without an exception and was not disabled since is monitoring its PV, so that what the PV does next is shown; if the init or reset failed (and the block is in Fault), or since it was disabled, it is not, and nothing but a put changes the attribute.
* `Props.Ca.quiet_when_disabled` [p] while there is no monitor, and no put or reset, nothing changes what is shown.
* `Props.Ca.not_connected_fails` [pq] with `throw`, a part whose PV is not connected fails to initialise.
* `Props.Ca.choice_put` [pcq] the choice that is put is the one at the index written to the PV.
* `Props.Ca.columns_shown_partial` [pcq] part: whatever was read before, after an update of a table of waveforms the table shows in each column what was last read of it, if all PVs are connected and the columns are of one length. What is missing: an update which makes the columns of different lengths is not shown; and the severity of an alarm is kept for ever (`severity_sticks`), that of a PV that disconnects is never shown and freezes the table (`gone_unseen`).
* `Props.Ca.severity_sticks` [-] A PV was in alarm for one update: the table stays in alarm although no PV is.
* `Props.Ca.gone_unseen` [-] A PV disconnects: nothing is shown of it, and the updates of the other column are not shown any more.
* `Props.Ca.put_returns_iff` [p] a put returns without an exception exactly if the PV took it and its readback could be read and is shown now.
* `Props.Ca.connects` [pq] without `throw`, and with values the meta takes, initialising works even if the PV is not connected.

### C67 Updates from a PV are paced - partial

Modelled: the pacing in `_monitor_callback`. Proved: potential argument by induction over callbacks.

At most 2T/min_delta + 4 updates in any time T; that there is at most one in each min_delta is false (three_at_once).

* `Props.Ca.paced_partial` [pcq] part: whatever the times at which the PV changes, in a period of length `T` the attribute is updated by its monitor at most `2 T / min_delta + 4` times. What is missing: the comment in the code says that there is at most one update in each `min_delta`, and that is false, see `three_at_once`.
* `Props.Ca.held_up` [pq] a callback is held up for no longer than `min_delta`, so that no update is.
* `Props.Ca.three_at_once` [-] The negation of the full C67: three updates in 2 ms with a `min_delta` of 50 ms
* `Props.Ca.paced_after_quiet_partial` [pcq] part: after a time of quiet (more than `min_delta` after the time to which updates were held up) there are at most `2 T / min_delta + 2` updates in the next time `T`.
* `Props.Ca.four_at_once` [-] The bound of `paced_partial` cannot be lowered: four updates in 1 ms

### C68 A method on a PV succeeds exactly if the good status is seen in time - proved

Modelled: `wait_for_good_status`, `caput`. Proved: induction over updates.

The caput itself is taken as done; an update is looked at as soon as it comes.

* `Props.Ca.action_iff` [pq] a method on a PV with a status PV returns if and only if the good status is seen by the deadline, whatever statuses come before it and when; without a status PV it returns.

### C69 Parts are given the configure parameters they asked for - partial

Modelled: `update_configure_model`, the reports of parts, the check of a call and what the hook passes to parts. Proved: induction over the parts and over their parameters; what is published is given key by key.

Parameters whose default is None are not supplied when the client leaves them out: none_default_not_supplied is the counterexample, and the theorems require such parameters in the call. When parts publish different types for one parameter only the published one is checked: conflicting_meta_not_checked.

* `Props.Params.takes_all_parameters` [pq] **The parameters that `configure` takes are its own and those of all parts; those required are its own and those that some part cannot do without.** For every set of parts and every order of them.
* `Props.Params.returns_mirror_takes` [pq] **What comes back from `configure` and `validate` has the same fields with the same ones required, and none of them can be written.**
* `Props.Params.agreed_meta_published` [pq] **A parameter that several parts have, all with the same meta, is published with that meta.**
* `Props.Params.last_default_published` [pq] **The published default of a parameter is that of the last part that has one** (checked by the published meta), for a parameter that nobody requires and that is not a table to be merged.
* `Props.Params.default_rows_merged` [pq] **The published default of a table with columns that only the parts write has the rows of the defaults of all parts, in the order of the parts** (checked by the published meta): how the rows of several detectors come to be in one `detectors` table.
* `Props.Params.accepted_call` [pq] **A call is accepted only with all that is required, with nothing that is not known, and with values that the published metas accept; each argument is then the accepted value.**
* `Props.Params.part_gets_its_parameters_partial` [pq] **In an accepted call, a part is given all that its function has asked for: the value of the client as the published meta has accepted it, and otherwise the published default.** `demanded` are the parameters of the function. Missing: a parameter that no part requires and for which no part has a default (in Python, one whose default is None) has to be in the call.
* `Props.Params.unoffered_fails` [pq] **A part that asks for a parameter that nobody has makes the call fail** (hook.py 141-143), and the function is not called with less than it asked for.
* `Props.Params.reporting_part_served_partial` [pq] **A part whose function has reported its own parameters (`ConfigureHook.create_info`) is called with all of them in every accepted call**, as long as each parameter that has None as default is in the call.
* `Props.Params.last_report_counts` [pq] **Of each part the last report counts, whatever the order of the reports.**
* `Props.Params.published_from_last_reports` [pq] **After any reports, the last of which does not fail, what is published is made of the last reports of all parts alone, in the order of the parts: nothing of older reports is left, and the order of the reports does not matter.**
* `Props.Params.failed_report_keeps` [pq] a report that fails leaves what was published
* `Props.Params.none_default_not_supplied` [p] **A parameter with None as its default is not optional after all**: the call without it is accepted, but the part that has it (`k=None`) then fails with an AssertionError instead of being called with None.
* `Props.Params.conflicting_meta_not_checked` [pq] **Two parts with metas that differ for one parameter: the last one is published**, so the part with the narrower one is given a value that its own meta refuses.
* `Props.Params.early_report` [pq] a report before the controller has started is noted and cannot fail

### C70 A scan and its detectors stay in step - partial

Modelled: the generator, axes and breakpoints given to the detector, its runs, resumes and seeks by the hooks of the part, and the progress it reports, with both blocks as machines of the Steps model. Proved: a simulation relation, preserved by every event: either the detector has the frames of the window of the scan, or it is one run ahead.

For one frame in each step all histories with sane pauses are covered. For several frames in each step pauses and breakpoints are excluded, because the detector is given steps of the scan instead of frames: seek_misplaces_frames and breakpoints_misplace_frames are the counterexamples.

* `Props.DetStep.in_step_partial` [pcq] (in part). A scan is configured with a detector that takes `frames` frames in each step, under a name for the frames which is not an axis of the scan, and then run, paused, sought and resumed in any way, while its parts and those of the detector report any progress. Unless the scan has failed, the detector takes or is about to take exactly the frames of the steps that the scan does or is about to do, and takes none when the scan is not running. For several frames in each step it is proved for scans without breakpoints which are not paused: with either it does not hold, see `seek_misplaces_frames` and `breakpoints_misplace_frames`.
* `Props.DetStep.explicit_pause_sane` [pcq] A pause at a step which is given, of a scan with steps of which some are configured, is sane.
* `Props.DetStep.reports_whole_steps` [pq] the progress that the detector reports to the scan is the number of steps of which it has taken every frame.
* `Props.DetStep.progress_is_current` [pq] while both are running, whatever happened before, the progress which the scan has for the detector is the number of steps that the detector has by now taken every frame of.
* `Props.DetStep.seek_misplaces_frames` [p] Two frames in each of 10 steps. The scan is paused at step 4. The scan goes on with its last 6 steps, but the detector goes on at frame 4, which is the first of step 2, and will take 16 frames: it is paused at the step of the scan (detectorchildpart.py 385), not at the frame.
* `Props.DetStep.breakpoints_misplace_frames` [p] Two frames in each of 10 steps, with a breakpoint after 5 steps: the scan does two runs of 5 steps, the detector runs of 5 frames and 15 frames, because the breakpoints are passed on as they are (detectorchildpart.py 290).
* `Props.DetStep.no_axes_refused` [p] A scan that moves no axes itself can be configured, but not with a detector that takes two frames in each step: the new axis is squashed with the last axis of the scan, which the detector then finds is not among its axes to move.

### C71 A pvAccess client sees the data of the block - partial

Modelled: conversion to and from pvAccess values, assignment into them, and the handler of a channel with clients that come and go. Proved: structural induction over values for the round trip; an invariant of the handler over all histories for what is shown.

The channel is proved to show the block for changes that keep types and take no fields away. A field that is taken away from a structure stays in the channel (removed_field_stays), the labels of tables do not follow (labels_go_stale), and None in a list becomes an empty dictionary (none_becomes_empty).

* `Props.Pva.back_conv` [p] what can be sent over pvAccess comes back as the same data.
* `Props.Pva.conv_some` [pq]
* `Props.Pva.channel_shows_block_partial` [pcq] (in part). Whenever the channel of a block is open, whatever clients came and went and whatever changed, what it shows its clients is the data of the block. It is proved for changes that keep the types and do not take fields away where there was something before: a field that is taken away stays in the channel, see `removed_field_stays`.
* `Props.Pva.value_change_shown` [pcq] while a channel is open, a change of a number, a text, a list or an array of the block to another one of its type is shown, and leaves the channel open.
* `Props.Pva.new_client_sees_block` [pq] a client that connects to a block with no clients, whatever happened before, is shown the data of the block, if it can be sent.
* `Props.Pva.closed_by_deletion` [p] a channel is closed by a change that cannot be shown: one that deletes, or puts something where there was nothing.
* `Props.Pva.removed_field_stays` [p] The parameter `exposure` of `configure` is withdrawn: the block has it no more, but the clients of the channel are still shown it, because assignment of a structure leaves the fields that it does not mention.
* `Props.Pva.labels_go_stale` [p] The labels of a table, which pvAccess clients use as headings, do not follow the labels of its columns.
* `Props.Pva.none_becomes_empty` [p] None in a list comes back as an empty dictionary.

### C72 A pvAccess put writes exactly one attribute - proved

Modelled: the choice of what a pvAccess put writes. Proved: an invariant that the puttable paths are those of the fields when the channel was opened, then case analysis.

Every put to the channel of a block, after every history of the block and its channel.

* `Props.Pva.put_writes_one` [pq] whatever happened to a block and its channel, a put to the channel that is not refused writes the `value` of one attribute: it is one of the block, neither a method nor the meta of the block, its value is among what the client changed, it is written with what the client sent for it, and the client changed the value of no other attribute. (`gs` are the fields of the block as they were when the channel was opened.)
* `Props.Pva.put_refused` [p] a put that changes the value of no attribute, or of two, is refused.

### C73 The block of a PandA block has the attributes of its fields and shows what the PandA says - partial

Modelled: the block that stands for a block of a PandA: the attributes, methods and tags that are made for every type of field, and what reports and puts do to them. Proved: what the parts made so far leave as it is, by induction over the fields, against a table of what is documented for each type; then an invariant over reports and puts.

Proved for all field data and histories, as to what is heard of each report. The code differs from the property: a value that an attribute refuses hides the rest of its report (bad_value_hides_others), the answer to a put can hide a newer report (late_put_hides_report), a put leaves the link and the icon until the next report (put_leaves_icon).

* `Props.PandABlock.made` [pcq] A block is made if the types of its fields are known, and the names for them in camel case are names, are not those of the attributes of every block or of groups, and are all different
* `Props.PandABlock.made_as_documented` [pcq] Every field of a block that could be made has the attributes that are documented for its type: under the name of the PandA in camel case, of the right type, writeable if it should be, restored in the right round, in its group, and in the flow graph an output under the name that inputs know it by
* `Props.PandABlock.actions_are_methods` [pcq] An action of the PandA is a method
* `Props.PandABlock.busses_elsewhere` [pcq] What the busses table shows is not taken for the block
* `Props.PandABlock.one_attribute_each` [pcq] An attribute shows one field: what is reported under two names is in two attributes
* `Props.PandABlock.shows_last_told` [pcq] After any history of reports and puts, an attribute shows the last value that it was told: by the PandA, in what was heard of its reports, or by a put that the PandA has accepted; before that it has its first value
* `Props.PandABlock.shows_last_told_partial` [pcq] Every value that the PandA reports and every put that it accepts is shown until the next, if no report has anything that is refused. Missing: a report with a value that is refused (see `bad_value_hides_others`)
* `Props.PandABlock.meaning_stays` [pcq] An attribute stays what it was made: its type, whether it can be put, and all its tags but the links
* `Props.PandABlock.link_follows` [pcq] An input is linked to the output that the PandA last reported for it, and to nothing if that is no output or if nothing was reported
* `Props.PandABlock.link_leads_to_output` [pcq] The link of an input leads to the attribute of the other block that stands for the output
* `Props.PandABlock.health_follows` [pcq] The health of the block is what the PandA last said of it
* `Props.PandABlock.puts_are_sent` [pcq] The PandA is told to set what is put to writeable attributes, in order, and nothing else
* `Props.PandABlock.icon_fields` [pcq] The icon is drawn from the fields for the type of the block, whatever its number
* `Props.PandABlock.icon_drawn` [pcq] A report: the icon is drawn anew if it tells a field of the icon, with the values that are then shown
* `Props.PandABlock.icon_current_partial` [pcq] While the PandA is the only one who changes the block, and no report ends in an exception, the icon that is shown is the one for the values that are shown. Missing: puts and refused values (see `put_leaves_icon`)
* `Props.PandABlock.bad_value_hides_others` [pcq] One value that an attribute refuses hides all that comes after it in the report: PULSES stays as it was although the PandA said that it is 3 now
* `Props.PandABlock.late_put_hides_report` [pcq] The answer to a put that arrives after a newer report hides it: the PandA has 6, the attribute shows 5
* `Props.PandABlock.put_leaves_icon` [pcq] A put is shown at once, but the icon and the link stay until the next report
* `Props.PandABlock.help_field_unmade` [pcq] A field with the name of one of the attributes of all blocks: the block, and with it the PandA, cannot be made
* `Props.PandABlock.every_block_has` [pcq] Every block has an icon, a label and a help; of these only the label can be put, and it alone is saved

### C74 A PandA that is Ready is polled, one that is Disabled is left alone - partial

Modelled: when the manager of a PandA connects, makes its blocks, spawns and stops its loop, step by step, with failures at every step and polls at any time. Proved: one invariant over all histories, and separate ones for histories without the failures that the code does not recover from.

The code does not keep the whole claim: after a failed poll a reset makes the block Ready without polling (ready_not_polled), blocks that could not be made at the start are never made (some_blocks_never_made), and a reset after a failed init leaves out the layout (reset_leaves_out_layout). Proved: without these failures Ready means polled, with all blocks and laid out; at most one loop; Disabled is quiet; disable then reset always recovers polling. init, reset and disable that overlap each other are in C110.

* `Props.PandALife.one_loop` [pcq] However often a PandA is disabled and reset, and wherever it fails, no two loops poll it
* `Props.PandALife.disabled_is_quiet` [pcq] A PandA that is Disabled is not polled, and there is no connection to it
* `Props.PandALife.polled_is_connected` [pcq] What polls a PandA has a connection to it
* `Props.PandALife.ready_has_blocks` [pcq] A PandA that is Ready has made its blocks, or at least some of them
* `Props.PandALife.ready_is_polled_partial` [pcq] If polling has not failed since the PandA was last Disabled, which it is to begin with, then while it is Ready it is polled. What is missing for the whole claim is what follows a failure: see `failed_poll_is_final`.
* `Props.PandALife.failed_poll_is_final` [pcq] Once polling a PandA has failed, it is never polled again until it is disabled: `reset` does not see that the loop has ended
* `Props.PandALife.disable_disables` [pcq] Whatever happened before, a PandA that is disabled while nothing else is going on becomes Disabled, if nothing raises
* `Props.PandALife.disable_then_reset` [pcq] Whatever happened before, a PandA that is disabled and then reset, while nothing else is going on and nothing raises, is Ready, connected and polled. This is how to get one back of which polling failed.
* `Props.PandALife.blocks_made_once` [pq] The blocks of a PandA are made once: whatever happens after, there are no others
* `Props.PandALife.ready_has_all_blocks_partial` [pcq] If making its blocks never failed half way through, a PandA that is Ready has all of them. What is missing for the whole claim: see `some_blocks_never_made`.
* `Props.PandALife.ready_is_laid_out_partial` [pcq] A PandA that is Ready without having been reset has its first layout or its initial design. What is missing for the whole claim: see `reset_leaves_out_layout`.
* `Props.PandALife.ready_not_polled` [pcq] A PandA that lost its connection and was reset is Ready, and is not polled: not now, nor after any number of resets
* `Props.PandALife.some_blocks_never_made` [pq] If one block of a PandA could not be made when the process started, the PandA can be reset, is Ready and is polled, but those of its blocks that come after are missing, and no call brings them back
* `Props.PandALife.reset_leaves_out_layout` [pq] If a PandA could not be reached when the process started, it can be reset when it can: it is then Ready, has its blocks and is polled. But what `init` has left to do (the parts find their blocks, the first layout or the initial design) is not done by then or by any later call, as only the start of the process calls `init`.
* `Props.PandALife.failed_poll_shows` [pcq] When polling fails the block is in Fault, whatever is under way, and stays there until it is next reset or disabled: a `reset` or `disable` that is under way does not hide it

### C75 The motion controller gets exactly the trajectory of the scan, and the steps reported are those it has completed - partial

Modelled: the arrays of the trajectory, the batches in which they are computed, the chunks that are written, the driver's points, the report of progress. Proved: the arrays of a chunked run are a prefix glued to what is left (a homomorphism of the operations), which carries the counting invariant of TrajLoop over to points; a counting argument for the progress.

The code does not keep the claim for every scan: a run-up of more than 4 s is refused when the scan is configured (long_run_up_refused) and a step that makes so many points that the tail-off does not fit beside them stalls (TrajLoop.big_step_stalls), so the theorems assume Fits. Progress is proved for scans with a trigger at every point. Updates that come while an earlier one waits for the controller are covered (overlap_delivered, overlap_progress). Soft limits and the move to the start are not modelled; what the driver does with the arrays is assumed.

* `Props.TrajSend.delivered` [pcq] whatever the window of steps, the number of points in a batch and in a chunk, whatever was in the controller before, and whatever updates of the number of points scanned come: the trajectory exists as one profile, configure works, no update raises, and the controller always holds the first points of that one profile, each once and in order, with the right positions of the right axes.
* `Props.TrajSend.supplied` [pcq] the controller is never left waiting: as long as not all of the trajectory was sent, an update that says that all that was sent has been scanned sends more.
* `Props.TrajSend.through_scan_points` [pcq] the trajectory goes through the scan points: for each step, at the place in the controller that is the end of the step all axes are at the upper bound of its scan point, and half its duration before that at its position, with the trigger programs for these two.
* `Props.TrajSend.progress_true` [pcq] when every point is triggered, each update with some points scanned reports exactly the number of scan steps whose upper bound is among these points.
* `Props.TrajSend.complete_mono` [pcq] What is reported never goes beyond the end of the window, and never back as the controller goes on.
* `Props.TrajSend.finished_complete` [pcq] when the run ends (all that was sent has been scanned, and the update for it sends no more), the whole trajectory was sent and the last report was the end of the window.
* `Props.TrajSend.long_run_up_refused` [pcq] The code does not keep C75 for every scan: a run-up longer than 4 s is refused at configure, because the first point of a profile cannot be split.
* `Props.TrajOverlap.overlap_delivered` [pcq] also when updates come while an earlier one waits for the controller to take more points, the controller always holds the first points of the one profile, no update raises, and the controller is never left waiting.
* `Props.TrajOverlap.overlap_progress` [pcq] also then each update with some points scanned reports exactly the number of scan steps whose upper bound is among these points, in the order in which they come; those that come while another one waits are `a` and `b`.
* `Props.TrajOverlap.silent_otherwise` [pcq] when not every point is triggered nothing is ever reported, also when updates overlap.

### C76 The local copy of a remote block over pvAccess shows the remote block - partial

Modelled: the client's callback, the copy made at connect, the paths it updates, apply_change, the order of the set, the put; composed with the server of C71. Proved: an invariant that ties each path the client updates to the value of the channel (paths are an antichain, so the order does not matter) and says that all else follows from the structure; induction over the history.

Proved of a client with one monitor and of a remote block whose structure and types stay the same while the channel is open (p4p's own conversions keep types, a parameter). As long as no callback has raised. That the callback raises, and the proxy then stays as it is for ever, is proved for a change of a method parameter's metadata, and for a choice that changes with its choices in one order of the set; that meta of the health is never copied at connect is proved too, so 'each value' excludes it. RPC (send_post) is C107.

* `Props.PvaClient.proxy_shows_block_partial` [pcq] **C76.** As long as no callback has raised, a client that monitors an open channel shows the remote block as it is now: after any history of changes, of clients that come and go, and of a channel that closes and opens, whatever the order in which the changes of an update are gone through.
* `Props.PvaClient.disconnect_shown` [pcq] The proxy says so when the channel closes, and the other fields stay.
* `Props.PvaClient.join_shows_block` [pcq] A remote block whose fields are all Models, with a health and settings that are complete, is copied: a client that begins while the channel is open shows it.
* `Props.PvaClient.change_shown` [pcq] Changes of places that are reached through Models only, with values that are accepted, are shown.
* `Props.PvaClient.dead_stays` [p] After a callback has raised, nothing is shown any more: the monitor is closed.
* `Props.PvaClient.put_arrives` [pcq] **C76.** A put of the client reaches the attribute of the remote block, with the data that was put.
* `Props.PvaClient.parameter_change_stops_proxy` [p] The description of a parameter of a method changes. The parameters are in a dictionary, which has no `apply_change`: the callback raises, and whatever the remote block does after that is not shown.
* `Props.PvaClient.order_matters` [p] The choices and the value change together, to a new choice. Whether the proxy survives depends on the order in which a set is gone through.
* `Props.PvaClient.health_meta_not_copied` [p] The label of the health is not copied when the client connects.

### C77 A scan's motors reach the first point at speed, come to rest after the last, and stay within their soft limits - partial

Modelled: point velocities, ramp distances, the move to the start, the run-up, the tail-off, the soft-limit checks and their order in configure. Proved: each function is shown equal to a closed form; that form is shown to have constant acceleration within what the motor can do; a row of points is bounded by induction along it.

The code breaks the full statement: when one axis needs a longer run-up than another, the faster one arrives at less than the speed of the point (slower_at_the_start, exact ratio in speed_at_start); points between the first and the last are not compared with the soft limits (middle_not_checked); in a scan too long for one write the tail-off is checked while the scan runs (tail_off_checked_late). What a motor does between two points of a profile is that of velocity mode 'real, previous to current' of the motion controller, stated in Spec/RunUp. Exact numbers instead of floats.

* `Props.RunUp.within_iff` [pcq]
* `Props.RunUp.moved_iff` [pcq] **C77.** The motors are moved to the start exactly if each of them is allowed to be where it starts and is fast enough, and then to there. If one of them is not, none is moved.
* `Props.RunUp.runUp_iff` [pcq]
* `Props.RunUp.tail_off_iff` [pcq] **C77.** The tail-off is made exactly if each motor is allowed to be where it comes to rest and is fast enough.
* `Props.RunUp.gets_up_to_speed` [pcq] **C77.** From where it starts a motor can get up to the speed of the first point by the time it is at the beginning of that point, gaining speed at a rate it is able to.
* `Props.RunUp.comes_to_rest` [pcq] **C77.** It comes to rest where the tail-off says, losing speed at a rate it is able to.
* `Props.RunUp.at_speed_partial` [pcq] in part: an axis is at the speed of the first point when it gets there, if the run-up lasts as long as this axis needs. What is missing: the run-up of all axes is as long as the longest of them needs, but each starts from where it needs for its own; see `slower_at_the_start`.
* `Props.RunUp.speed_at_start` [pcq] The speed that an axis has, then, is its own multiplied by the part of the run-up that it needs.
* `Props.RunUp.no_faster` [pcq] **C77.** It is no faster than that, if the interval is at least that of `MIN_TIME`, and the motor is able to reach the speed it has.
* `Props.RunUp.row_allowed_partial` [pcq] in part: a motor that moves along one row, in one direction, is always where it is allowed to be if it starts at all, and if the tail-off is made. What is missing: between the first and the last point nothing is checked, see `middle_not_checked`. (The direction that is up stands for both.)
* `Props.RunUp.slower_at_the_start` [pcq] Two axes, of which the second needs 1 s to get up to speed and the first 1/10 s: the first comes to the first point with a tenth of its speed.
* `Props.RunUp.middle_not_checked` [pcq] A scan of three points whose second is far outside of the limits: it is moved to its start, and it has a tail-off.
* `Props.RunUp.tail_off_checked_late` [pcq] A scan that is too long for one write is configured, and then run, although its tail-off will be refused.
* `Props.RunUp.configure_outcome` [pcq] What configure does with the motors: it succeeds exactly if the motors can be moved to the start, the run-up can be made and the tail-off, if it is in the first write, and the motors are asked to move exactly if the start is allowed.

### C78 Validation makes durations fit the servo cycle - partial

Modelled: the alignment to the servo cycle and what on_validate asks for; composed with the exposure part and the validate loop of C10. Proved: floor and ceiling inequalities over the rationals; the refusal by a concrete run of the composed loop.

The code breaks the last clause: the aligned duration can be shorter than the one asked for, and then the exposure part refuses a scan that a longer duration would suit (settling_refused). calculate_generator_duration is an input, any number that is not negative. Exact numbers instead of floats.

* `Props.RunUp.validated_duration` [pcq] **C78.** When each point is triggered, the duration that comes out of validation, whether changed or not, makes the half of a point a whole number of microseconds, just under a whole number of servo ticks, and it is close to what was asked for. When points are not triggered, the duration is left as it is.
* `Props.RunUp.guessed_duration` [pcq] **C78.** Without a duration, what is asked for is what the motors need, aligned in the same way; nothing is asked for if that is not known.
* `Props.RunUp.aligned_to_ticks` [pcq] **C78.** With the aligned duration, the half of a point is a whole number of microseconds, and it is just under a whole number of servo ticks: by no more than the slack and a microsecond.
* `Props.RunUp.aligned_close` [pcq] **C78.** It is the duration that was asked for, but for two servo ticks more, or for two microseconds and four thousandths of a tick less.
* `Props.RunUp.aligned_again` [pcq] **C78.** A duration that has been aligned is not changed again.
* `Props.RunUp.aligned_pos` [pcq]
* `Props.RunUp.content_with_tweak` [pcq] **C78.** Whatever duration is asked for, the part is content with what it asked for instead.
* `Props.RunUp.aligned_shorter` [pcq] 399 microseconds are aligned to 398.
* `Props.RunUp.settling_refused` [pcq] A scan without a duration, with an exposure of 299 microseconds and a readout time of 100: the detector asks for just over 399 microseconds, the motors align that to 398, and then the detector refuses. With an exposure of 300 microseconds the scan is accepted.

### C79 What is captured with the frames is announced, defined and stored under its name - partial

Modelled: what the tables of a PandA, the extra attributes of a driver and the statistics plugins report, and the definitions of the attributes; composed with the layout and infos of C64. Proved: case analysis on the capture modes; distinctness of dataset names by their last characters and the induction over the tables; composition with the layout theorems of C64.

Announced, defined and stored: proved. Each dataset has its value only: proved for tables that give different names; the code does not check that they do (same_dataset_twice). Names are refused if they are not good ones, except for a position of which only the minimum and maximum are captured (bad_name_announced).

* `Props.Datasets.panda_reported_partial` [pcq] a PandA reports what it records, in the order of its tables, and each value once. It does that unless a name that is given to something captured is not a good one: the name of a position of which just the minimum and the maximum are captured is not looked at.
* `Props.Datasets.driver_reported` [pcq] a driver reports its frames, unless told not to, and each of its extra attributes once, in their order. It does that unless the name of one of them is not a good one.
* `Props.Datasets.driver_defined` [pcq] what a driver reports is defined for areaDetector: if there are extra attributes a file of definitions is written, with one definition for each, in their order, of that name, from the source that was asked for and with a type that areaDetector has for that kind of source. A table that has one which areaDetector has no type for is refused.
* `Props.Datasets.stats_defined` [p] a statistic is stored from the attribute that the plugin is told to attach to each frame, and that is the statistic's parameter.
* `Props.Datasets.recorded_announced` [pcq] each value that is recorded is announced, with the rank of the scan, under its name and type, and the dataset that is announced is filled from that value.
* `Props.Datasets.recorded_apart_partial` [pcq] in part: if no two values are given the same name, then no two of them are stored in the same dataset: the dataset of each has it, and nothing else. Missing: that the names are different is not checked (`same_dataset_twice`).
* `Props.Datasets.same_dataset_twice` [pcq] Two values that were given the same name are both announced, and the layout has two groups of that name
* `Props.Datasets.bad_name_announced` [pcq] A name that is refused for a value is not for a minimum and a maximum

### C80 The icon of a LUT says what the LUT computes - proved

Modelled: the generation of the table of icons, the removal of elements from the picture and the arrows, with the elements of LUT.svg; a specification of what a picture of a gate says. Proved: facts about the entries of the generated table by evaluation in the kernel, lookup lemma for all functions, extensionality of numbers by bits for the converse; induction over the inputs for the arrows.

The table of icons is computed by the model as by the code; a fact about its 126 entries is evaluated by the kernel, and carried to all functions by a lemma on looking up.

* `Props.LutIcon.icon_drawn` [pcq] there is an icon for each function and all types of the inputs: nothing that is not there is removed.
* `Props.LutIcon.one_gate` [pcq] an icon has exactly one of the gates, and the line of the output.
* `Props.LutIcon.icon_true` [pcq] if the icon says what the output is then that is the output, for each function of the LUT and all values at its inputs.
* `Props.LutIcon.gate_shown` [pcq] a LUT whose function is that of a gate that there is an icon for gets the icon of that gate: AND or OR of the first inputs, any of them negated, or NOT of one.
* `Props.LutIcon.arrows` [pcq] the arrow of an input is there if and only if the input is there and its type is not a level; and it points as the type says: both ways, or with the mark of a rising or of a falling edge only.

### C81 A motor shows the coordinate system it is assigned to, and a put assigns it - partial

Modelled: the updates of the three PVs of a raw motor, reset and put, the OUT field of raw and compound motors, the tags of a coordinate system's source ports; a record of what was told last. Proved: invariant over histories of events that the state agrees with what was told; splitting lemmas.

Partial because the code does not do it in full: where the first port has a name, a motor that is not assigned makes a reset fail or goes on showing its old assignment (named_zero_refused, named_zero_shown); after a put of nothing that is read back, an invalid alarm is shown (unassigned_invalid); axis number 0 of a compound motor is shown as Z (compound_zero). Proved for all other histories.

* `Props.MotorPorts.shown_told_partial` [pq] A motor shows the port and the axis that its controller last told of, whatever was told before and in what order: by a reconnect, by monitors of each of the three PVs, or read back after a put. What is missing: it is proved if the first port has no name, or if a motor that is not assigned is told by a monitor only, and if a motor that is not assigned has an axis yet. See `named_zero_refused`, `named_zero_shown`, `unassigned_invalid`.
* `Props.MotorPorts.put_assigns` [pcq] A put of a port and an axis sends, once and as the only thing, the number of that port and that axis; and if the controller then reads back what was sent, that is what is shown, without an alarm and without an exception.
* `Props.MotorPorts.put_unassigns` [p] A put of nothing sends port 0.
* `Props.MotorPorts.choices_iff` [pq] What is put is one of the choices the attribute offers, which are these: nothing, and each port but the first with each axis
* `Props.MotorPorts.linked_iff` [pq] The axis of a coordinate system whose source port a motor is linked to, by the values they have, is the port and the axis that the motor was assigned to, and no other: `p` and `b` are the port and the axis of the coordinate system, `old` are tags without a sink port.
* `Props.MotorPorts.out_shown` [pcq] A raw motor shows the port of its controller and the number it has there
* `Props.MotorPorts.compound_shown` [pcq] A compound motor shows the port of its coordinate system and its axis there, A is 1 and Z is 9
* `Props.MotorPorts.compound_refused` [pcq] a number past Z is refused
* `Props.MotorPorts.named_zero_refused` [pcq] Where the first port has a name (ANYTHING in the tests of the repository), a motor that is not assigned and was in axis A before: the reconnect ends with an exception, no monitor is set up, and what is shown is not that it is not assigned
* `Props.MotorPorts.named_zero_shown` [pcq] and after a put of nothing the old assignment is still shown
* `Props.MotorPorts.unassigned_invalid` [pcq] A put of nothing sends an empty axis: where that is read back, a motor that is not assigned is shown with an invalid alarm
* `Props.MotorPorts.compound_zero` [pcq] but number 0, which no axis has, is shown as Z
* `Props.MotorPorts.reset_monitors` [pcq] A reset of a controller with such ports and such an OUT field succeeds, and monitors are set up

### C82 The axes of a coordinated move start together - partial

Modelled: the steps of calls of move, the puts in flight, failures, and a controller that holds demands while moves are deferred. Proved: invariant with three phases over all interleavings of arrivals, steps and failures of a call; a run that returns.

Partial because the code does not do it in full: an axis whose attribute shows the demand already is not waited for and may start late (late_axis); two calls at a time start axes of each other (split_by_other); a call that fails leaves moves deferred, and the next one starts what was left (left_deferred, stale_started); CS 2 accepts the port of CS 12 (port_of_other). Proved for one call at a controller at rest, all orders and failures, and for any number of calls one after the other that return (sequence_started). What the controller does with deferred moves is taken from its description.

* `Props.CsMove.starts_together_partial` [pq] However the puts of a call arrive, and whatever fails: either nothing has been started, or all axes that were given have been started with their demands, all together, after the time for the move had been set; if the call has returned, they have been, and the controller is at rest again. What is missing: an axis whose demand is what its attribute shows already, see `late_axis`; several calls at a time, see `split_by_other`; a controller that is not at rest, see `left_deferred` and `stale_started`.
* `Props.CsMove.returned_started` [pq] A call that has returned has started each axis that was given exactly once, with its demand, and no other
* `Props.CsMove.nothing_started` [pq] As long as moves are deferred, whatever fails, nothing has been started
* `Props.CsMove.returns` [pq] A call whose puts arrive and that nothing fails returns
* `Props.CsMove.port_accepted_iff` [pq] A port is accepted exactly if its name ends with the number
* `Props.CsMove.late_axis` [p] An axis whose attribute shows the demand already, because it was the last demand, though its motor may have been moved since: it is not waited for, and starts on its own after the others
* `Props.CsMove.split_by_other` [p] Two calls at a time: the axes of the one are started by the other before all of them have arrived
* `Props.CsMove.left_deferred` [p] A call that fails while it waits leaves moves deferred: nothing that is put to the axes after it moves them ...
* `Props.CsMove.stale_started` [p] and the next call starts the axes of the one that failed too
* `Props.CsMove.port_of_other` [pcq] so that the port of coordinate system 12 is taken for number 2
* `Props.CsMove.sequence_started` [pq] Any number of calls one after the other: each starts the axes it was given and no others, in the order of the calls, and the controller is at rest after them

### C83 The beam selector gives each detector its time - partial

Modelled: the search in the detector table, the times at the positions, validation and configuration, and the points that are scanned. Proved: induction over the table with what was found so far; algebra of the points two at a time.

Partial because the code does not do it in full: completed steps are not doubled, so a scan that is resumed after an odd number of steps begins with the wrong half of a cycle (resumed_wrong). Proved for the beginning and for even numbers of completed steps. What scanpointgenerator makes of a line of one point is taken from its description.

* `Props.BeamSelector.exposures_iff` [pcq] The exposures are found exactly if both detectors are in the table, each enabled for one frame with an exposure.
* `Props.BeamSelector.same_refused` [pq] The same detector cannot be at both positions
* `Props.BeamSelector.validate_settles` [pcq] Validation settles after one change, and then a scan can be configured with it
* `Props.BeamSelector.configure_iff` [pcq] What needs no change can be configured, and what can be configured needs none
* `Props.BeamSelector.cycles_partial` [pcq] A scan that could be configured, from its beginning or from an even number of completed steps, consists of the cycles that are left: in each the selector moves to the diffraction position and stays there for at least the exposure of that detector, moves back and stays for at least the exposure of the other; each move takes the time of a move, and the cycle takes as long as a point of the scan. What is missing: an odd number of completed steps, see `resumed_wrong`.
* `Props.BeamSelector.resumed_wrong` [pcq] A scan of two cycles that is resumed after the first begins with the second half of a cycle: the points that were done are counted as cycles

### C84 What a scan says is completed is in its file - partial

Modelled: the tutorial detector and its file, cell by cell, together with the step accounting of the scan (Steps). Proved: invariants over all histories: the file is truthful, the part and the scan agree on what to do, what is completed is written.

What readers find and the newest id are proved for every history. The rest is proved for histories in which a run is only paused at the steps completed or within that run, and in which other parts report after the first report of the detector. Otherwise it is false of the code: if another part is the first to report, a pause makes the scan skip a point the detector has not written, and the scan ends as completed (frame_lost); a run sent to a later run ends Armed and does its points again with the same ids (ids_reused). HDF5 is assumed to show what was flushed and nothing else.

* `Props.FileWrite.ids_come_last` [pq] whatever happens to a scan, whoever looks at its file at any time finds, wherever there is an id, a point of the scan in its place with its whole data.
* `Props.FileWrite.id_is_newest` [pq] the id of each point in the file is the one it was written with last, for every history.
* `Props.FileWrite.ids_increase_partial` [pcq] ids go up from one write to the next, however the scan is paused, rewound and resumed: no two are the same. As for C09, `run()` in progress is only paused at the steps completed or within that run; `ids_reused` shows what happens otherwise.
* `Props.FileWrite.completed_in_file_partial` [pcq] whenever the scan says that `n` steps are completed, the first `n` points are in the file that is being written; and when it is finished every point of the scan is in the file as others see it. It does not fail. For scans that are not aborted or sent forward, in which run() in progress is only paused at the steps completed or within that run, and in which other parts report after the first report of this one; `frame_lost` shows what happens otherwise.
* `Props.FileWrite.write_ok` [pq] Every point can be written, whatever was written before.
* `Props.FileWrite.frame_lost` [p] is false of the code if another part is the first to report: the motion has done the first point, the detector has not. The scan is paused there, at one completed step, and goes on with the second point: at the end it says that all six points are completed, and the first is not in the file.
* `Props.FileWrite.ids_reused` [p] is false of the code if the scan is sent to a later run while it is running: the block is Armed again with its last points to do, and does them again with the ids they have already.

### C85 The axes of a tutorial scan travel through every point - partial

Modelled: one axis of the motion part of the tutorial: its calls of `move`, each a thread that goes from one put, or one reading of the clock, to the next, the memory of the last position asked for, the loop over the points and the move to the start (`Model/Motion.lean`). Proved: an invariant over histories says in which stage a point is: not begun, at its lower bound, on the way, at its upper bound. It holds while the call to the lower bound is served before the call to the upper bound; two runs show that otherwise it need not.

Proved for all histories in which, of the two calls made for a point, the one to the lower bound is served first, and a scan is configured only when no call is going on. Without the first the axis may end at the lower bound (served_late); without the second, that is after a pause in the middle of a point, the old call goes on and the axis is not at the start when the scan is (paused_move_goes_on).

* `Props.Motion.points_travelled_partial` [pcq] in any scan that was configured while the axis was at rest, when a point is reported the axis is at its upper bound, having gone there from its lower bound without a step back, in not less than the time for it; or the point has no width and the axis is there. For calls that are served in the order in which they were made and scans that are configured again when no call is left; `served_late` and `paused_move_goes_on` show what happens otherwise.
* `Props.Motion.configured_at_start_partial` [pcq] and when the scan has been configured the axis is at the lower bound of the first point.
* `Props.Motion.move_ends` [pcq] A call that is alone ends, whatever the counter shows, as soon as it is served at a time after its duration.
* `Props.Motion.served_late` [pcq] is false of the code in general: the two calls for a point run at the same time. If the one for the upper bound gets to the counter first the axis ends at the lower bound, and the point is reported.
* `Props.Motion.paused_move_goes_on` [pcq] And a scan that is paused in the middle of a point goes back to the lower bound of the point while the call to its upper bound goes on: the axis is not where the scan is to begin again.

### C86 A detector takes one frame for each step of the scan - partial

Modelled: the driver part of a detector and its driver in a scan: what it is set up and started for by Configure, Seek and PostRunArmed, in hardware and software trigger modes, with and without breakpoints, and the parts that do it differently (`Model/DetArm.lean`), on top of `Model/Steps.lean`. Proved: an invariant links the images left in the driver, its counter and the part's offset to the step the scan is at; it is kept by every event that C09 allows. Two runs show that the xmap and the detectors that are stopped after a run lose the triggers of a second run.

Proved for the standard driver part in every trigger mode, and for the others in scans of one run (the xmap also with breakpoints), for the histories that C09 is proved for. In scans of several runs an xmap, and the detectors that are stopped after each run, lose triggers (witnesses). Latency between trigger and frame is not modelled.

* `Props.DetArm.one_frame_per_step_partial` [pcq] for the histories that C09 is proved for and the scans that suit the detector: whatever is run, paused, resumed and rewound, no trigger finds the detector idle and it is never started while it acquires; since the last configure or seek it has taken one frame for each step, in order; it reports the steps it has frames for; once the triggers of a run have come nothing more is waited for; and when the scan is finished the last step has its frame and the detector has stopped by itself. What is missing: scans with several runs on the detectors of `xmap_loses_triggers` and `stopped_loses_triggers`, of which C86 is false, and the pauses that C09 is false for.
* `Props.DetArm.xmap_loses_triggers` [p] is false of an xmap in a scan with two runs: it is told the pixels of the first when the scan is configured, and nothing after it. The triggers of the second run are lost, and its wait for the frames does not end.
* `Props.DetArm.stopped_loses_triggers` [p] And of the detectors that are stopped after each run, which are not started again: the second run takes no frames, and the scan is finished all the same as far as this part is concerned.
* `Props.DetArm.starts_at_zero` [p] after a configure the detector counts from 0, and is done when it has counted the steps of the first run; it reports the first step

### C87 The frames of a detector fit in their time - partial

Modelled: exposure, acquire period and sample counts of the driver parts: `DetectorDriverPart`, Andor, reframe plugin and TetrAMM, over the rationals (`Model/FrameTime.lean`). Proved: arithmetic on top of the theorems of C44; for the TetrAMM the number is shown to be the least that does it. Concrete durations show what validation lets through.

Proved where the readout fits; the witnesses are durations and exposures that are validated and then refused, cut short or forgotten after the first run. Over the rationals, so without rounding.

* `Props.FrameTime.driver_period_fits` [pcq] for a driver with an `ExposureDeadtimeInfo`: an exposure that fits has room in the acquire period that is put, and that period fits in the duration, also with the frequency accuracy; and the later runs of a scan, for which the exposure is not put again, get a period in which it fits just the same.
* `Props.FrameTime.driver_validated` [pcq] a duration that is validated is one that the driver can keep, and the one that is asked for instead of none is validated.
* `Props.FrameTime.andor_period_fits_partial` [pcq] for an Andor whose readout fits in the duration: the exposure is not negative, it has room with the readout in the acquire period, and that fits in the duration. In frame transfer mode no more is needed than that it could be set up. What is missing: `andor_too_short`.
* `Props.FrameTime.andor_exposure_kept_partial` [pcq] an exposure that fits with all of the readout is the one that is used. What is missing: `andor_exposure_cut`.
* `Props.FrameTime.andor_tweak_accepted` [pcq] the duration that an Andor asks for instead of none is one it then accepts.
* `Props.FrameTime.andor_exposures_same_partial` [pcq] without an exposure, or in frame transfer mode, all runs of a scan have the same. What is missing: `andor_exposure_changes`.
* `Props.FrameTime.reframe_samples` [pcq] for samples: a frame that the software triggers has as many samples as fit in its duration; with start triggers the last sample is over one sample time before the next trigger, and one more would be too many; with a gate none are counted.
* `Props.FrameTime.reframe_validated_partial` [pcq] a duration that was validated gives at least one sample, and for start triggers it can be set up if it is that of two samples. What is missing: `reframe_validated_refused`.
* `Props.FrameTime.reframe_tweak_accepted` [pcq] the duration asked for instead of none is validated and can be set up.
* `Props.FrameTime.tetramm_samples` [pcq] for a TetrAMM: the driver averages over the smallest number of values that it can do for which a frame has no more samples than the target; without a target it is the smallest number of all.
* `Props.FrameTime.andor_too_short` [pcq] is false of an Andor in general: a duration shorter than the readout is accepted, and then the acquire period is longer than the duration.
* `Props.FrameTime.andor_exposure_cut` [pcq] An exposure that was validated is not always the one that is used: the validation knows less of the readout.
* `Props.FrameTime.andor_exposure_changes` [pcq] The exposure that was asked for is only that of the first run: the later runs, set up again, have the longest exposure.
* `Props.FrameTime.reframe_validated_refused` [pcq] is false of start triggers in general: a duration with room for one sample is validated, but configuring fails.

### C88 The status block of an IOC tells the truth - partial

Modelled: the part that reads the RELEASE file and reports the health of an IOC (`Model/IocStatus.lean`), text as lists of characters. Proved: a RELEASE file as tokens (`Spec/IocStatus.lean`), its meaning as the solution of its equations, which exists and is unique if no name is defined by itself; invariant over the names already substituted. Induction over the updates for the health. Runs that show what is not true.

table_expanded: the single pass over the names, in the order they were first defined, expands every reference to a defined name (each name is gone for good once it was substituted). dependencies_partial: after any updates the table is that of the directory now reported, or the alarm is on. The health is right while the version PV is connected. False and shown so: health goes back to OK when procServ reports after the IOC went down (down_but_ok), procServ is never seen to go (procserv_gone), a RELEASE with only comments leaves the old table (stale_table), comments that do not start a line are read as paths or names (comment_kept).

* `Props.IocStatus.table_expanded` [pcq] **The table has the value of each name that the file defines**, in the order in which they come, whatever that order is to the references between them.
* `Props.IocStatus.solvable` [pq] Definitions that don't go in circles have a solution
* `Props.IocStatus.solution_unique` [pq] There is only one solution, so the table has no choice
* `Props.IocStatus.dependencies_partial` [pcq] **The dependencies that are shown are those of the directory that the PVs now give**, all names expanded; if there is nothing at that directory, the attribute is in alarm. Not covered: a RELEASE file that has nothing but comments (`stale_table`), comments that don't start their line (`comment_kept`), and definitions in circles.
* `Props.IocStatus.health_partial` [pcq] **The health is what the PVs say**: always when the version of the IOC is there, and when it isn't then as long as nothing comes of procServ after it went, and procServ itself didn't go. Not covered, because it is false: `down_but_ok`, `procserv_gone`.
* `Props.IocStatus.down_but_ok` [pcq] The IOC went down; when procServ then says how it is, the health is that of the last version: "OK"
* `Props.IocStatus.procserv_gone` [pcq] procServ went, and then the IOC: the health is still that procServ is there
* `Props.IocStatus.stale_table` [pcq] A directory whose RELEASE file defines nothing, and has only comments: the dependencies of the directory before are shown, and there is no alarm
* `Props.IocStatus.comment_kept` [pcq] A comment that doesn't start its line is taken as part of the path, or as a name

### C89 A shutter is open only while a scan runs - partial

Modelled: the hooks of the part with the phases of a runnable block (`Model/Shutter.lean`), transitions by the state sets of C02. Proved: invariant over all events: what is known of the shutter in each phase. Concrete histories for the states in which it is open.

Proved for Ready, Paused, Finished and Aborted, for the first Armed after a configure, and for the run hooks; an abort, reset or seek that goes through closes it from every state. False and shown so: it stays open in Fault, in Disabled, between the runs of a scan with several runs, and in Ready if it was open when the block was started. Calls are one at a time: an abort, pause or disable ends what goes on before its hooks start (timeouts of that wait are in the model of C05).

* `Props.Shutter.shutter_partial` [pq] **The shutter is closed in Ready, Paused, Finished and Aborted, and open whenever the run hooks go on**, whatever calls are made and however their hooks end, if it was closed when the block was started. Not so in Armed, Fault and Disabled: `open_between_runs`, `open_in_fault`, `open_when_disabled`; nor when it was open before: `open_from_the_start`.
* `Props.Shutter.armed_closed` [pq] A block that is armed for its first run, or that was reset, has it closed
* `Props.Shutter.closing_closes` [p] **The shutter gets closed**: from every point, whatever has happened, an abort, a reset or a seek that goes through leaves it closed
* `Props.Shutter.open_between_runs` [p] Between the runs of a scan with several runs the block is Armed and the shutter is open
* `Props.Shutter.open_in_fault` [p] A part fails in a run: the block is in Fault and the shutter is open
* `Props.Shutter.open_when_disabled` [p] The block is disabled in a run: the shutter is open
* `Props.Shutter.open_from_the_start` [p] A shutter that was open when the block was started is open in Ready

### C90 Waiting for a value ends when the value is there - partial

Modelled: the class When and when_matches on top of the context of C18-C20: whens by their futures, one running wait, the log of the waits that ended (`Model/When.lean`). Proved: invariant by induction over the operations: a When that has not decided is subscribed and has had no Return, one that has decided has unsubscribed and the log has its exception exactly if the value is bad; with the invariants of waits of C18.

The synchronous call is exact for one thread. Partial: for the asynchronous one a bad value seen by another wait is raised there and the future then ends as if the wanted value had come (bad_value_raised_elsewhere); when the controller has gone the call never ends (wanted_value_not_noticed). Timeouts and callbacks that wait are not modelled here.

* `Props.When.equals_iff` [p] A condition made from values: good exactly for the wanted value unless it is one of the bad ones, bad exactly for the bad ones.
* `Props.When.wait_for_value_partial` [pcq] in part: when a wait for the future of a When returns, the first value delivered that the condition did not wait past is good, or it is bad and the exception has been raised by a wait (maybe another one). Missing: that it is good. That is false (`bad_value_raised_elsewhere`), except when the future is waited for at once (`when_matches`).
* `Props.When.bad_value_raised_once` [pcq] The exception of a condition is raised by exactly one wait if the first value that the condition did not wait past is bad, and by none otherwise.
* `Props.When.when_matches` [pcq] `when_matches` (and `when_value_matches`), called by a thread that is not waiting for something: whatever happened before and happens meanwhile and after, this call is still waiting, or it ended; if it returned then the first value delivered to it that the condition did not wait past is good; if it raised the exception of its condition then that value is bad.
* `Props.When.waits_while_undecided` [pcq] A call that is still waiting has not been delivered a value that its condition did not wait past, or it has unsubscribed and has not been answered.
* `Props.When.bad_value_raised_elsewhere` [pq] Disagreement with C90: a bad value delivered while the thread waits for something else raises the exception there; the future of the When then ends normally, and a wait for it returns although the value was never the wanted one.
* `Props.When.wanted_value_not_noticed` [pq] Disagreement with C90: if the wanted value is delivered when the controller has gone then the Unsubscribe is not sent, so nothing will answer it, and the call goes on waiting.

### C91 A block view reaches every field and calls methods as Python does - partial

Modelled: `Model/View.lean`: making a view (class properties, instance attributes, async functions), attribute lookup by Python's rules, indexing, `_add_positional_args`, `put_attribute_values_async`; together with `Model/Controller.lean` for the Post.. Proved: induction over the endpoints, the zipped arguments and the items; the Post depends on its parameters only through lookups..

Exactly which blocks can be viewed, which names reach which field, which calls are refused, and that positional arguments have the effect of named ones (through the controller's handling of a Post, C10) are proved. False of the code: a field typeid (or an _async name) makes the view impossible, a late field with the name of a view's function is hidden, a missing item gives a KeyError object, surplus positional arguments are dropped, put_attribute_values may put some values before it refuses.

* `Props.View.view_made_partial` [pcq] in part: a view of a block can be made exactly if no field has the name of one of the four attributes every view has, and no method has an `_async` name that is the name of a field too. Missing: that it can always be made, which is false (`typeid_field`, `async_field`).
* `Props.View.camel_view_made` [pcq] For blocks whose fields have the names that parts may give them (C22) a view can be made exactly if no field is called `typeid`.
* `Props.View.field_got` [p] Every field a block had when the view was made is got by its name, as it is now, whatever its name is; and KeyError if it is no longer there.
* `Props.View.async_got` [pcq] Every method the block had when the view was made has its `_async` function.
* `Props.View.late_field_got_partial` [pcq] in part: a field added to the block after the view was made is got by its name, unless the name is that of something every view has or the `_async` name of a method. Missing: those names, for which it is false (`late_field_hidden`).
* `Props.View.item_got` [p] Indexing gives what `getattr` gives, for names that are there.
* `Props.View.call_by_name` [pq] A call is refused exactly if a name is given both by position and by keyword; otherwise the Post has the arguments under the names they have in the method's signature.
* `Props.View.positional_as_named_partial` [pcq] in part: a call with no more positional arguments than the method takes has the same effect and answer as the call with all of them named. Missing: more arguments, which Python would refuse (`surplus_arguments_dropped`).
* `Props.View.values_put` [pcq] If all the names are fields of the block then `put_attribute_values` puts each of the values given to its attribute, once and nothing else, in the order given or for a plain dictionary in the order of the names.
* `Props.View.typeid_field` [pcq] Disagreement with C91: a field called `typeid`, a name that parts may use, and there is no view of the block.
* `Props.View.async_field` [p] Disagreement with C91: a block (of another server, say) with a method and a field that has the name of its `_async` function cannot be viewed.
* `Props.View.late_field_hidden` [p] Disagreement with C91: a field added later is hidden by a function of the view.
* `Props.View.missing_item_returned` [p] Disagreement with C91: indexing the view of an attribute with a name it does not have gives an object instead of raising.
* `Props.View.surplus_arguments_dropped` [-] Disagreement with C91: arguments beyond those the method takes are left out, and the call goes ahead.
* `Props.View.part_put_before_error` [pcq] Disagreement with C91: a name that is no field is found only when its turn comes: the values before it have been put, and the error is KeyError and not the assertion.

### C92 Whoever waits for a spawned function gets its result, and stop waits for all - partial

Modelled: `Model/Spawned.lean`: one spawned function with any number of threads calling `get`, each step of `catching_function`, `wait` and the queue on its own; the list of functions of a process with `_clear_spawn_list` and the loop of `stop` over the list object.. Proved: invariants by induction over histories; for the witnesses an invariant of the states from which nobody is woken..

What get gives is right in every history; a waiter is woken if threads wait one at a time; stop waits for all if the list of functions is not cleared meanwhile. False of the code: a second thread waiting at the same time is never woken; with a clearing (every 1000 spawns) while stop waits, a function may still run when it returns; after a timeout of stop the process can be neither stopped nor started. Not modelled: exceptions that are not Exception, results whose comparison with an object is not a truth value (numpy arrays).

* `Props.Spawned.get_gives_result` [pq] In every history, whoever waits and however the threads are interleaved: a call of `get` that has ended gave what the function gave (its value, or its exception raised), or timed out; and what the function gave is what it is for good.
* `Props.Spawned.get_after_end` [pq] A call made when the function has finished ends at once with the result.
* `Props.Spawned.waiter_woken_partial` [pcq] in part: if threads call `get` one at a time then once the function has ended a thread that waits does not time out, and its next step gives it the result. Missing: several threads waiting at a time, of which only one is woken (`second_waiter_stuck`).
* `Props.Spawned.stop_waits_partial` [pq] in part: `stop` returns only when every function that was spawned since the process was started, also those spawned while it was stopping, has finished. Missing: it is proved if there is no clearing of the list of functions, which happens at every thousandth spawn, while `stop` waits; it is false otherwise (`running_after_stop`).
* `Props.Spawned.stop_never_passes_running` [pq] In the process of any history, as long as a function runs that the loop of `stop` has in its list, `stop` has not passed it.
* `Props.Spawned.second_waiter_stuck` [pcq] Disagreement with C92: two threads wait, the function ends and one of them is woken; whatever happens afterwards the other one goes on waiting until its time is up, for ever if it gave none.
* `Props.Spawned.running_after_stop` [pcq] Disagreement with C92, for every count at which the list is cleared (it is 1000): that many functions have been spawned and have finished when the process is stopped; a function that is spawned while it stops (a handler of a request, say) spawns another one. `stop` returns with that one running.
* `Props.Spawned.no_stop_after_timeout` [pq] Disagreement with C92: when `stop` has timed out the process can never be stopped or started again, even when the function has finished.

### C93 An accepted scan moves only what may move together, is unrolled, and validation settles - partial

Modelled: the three parts that only look at the parameters, a part that guesses the duration and arbitrary other parts, asked by the loop of Model/Validate; what squashing does to the dimensions. Proved: fixpoint of the loop for what is accepted; a case analysis on which generator is first for convergence; the runs by an induction over the dimensions from the inside.

Missing: scanpointgenerator refusing to join dimensions of which some alternate and others do not (the scan is then refused when the generator is prepared, after validate accepted it); parts that guess a duration guess a fixed one. With breakpoints and a dimension without axes unrolling changes the runs (witness).

* `Props.ValParts.accepted_content` [pcq] when `validate` accepts a set of parameters, after whatever any other parts wanted changed in between, then in the parameters it returns: all axes to be moved may be moved together; with a visible UnrollingPart, all axes that move are squashed into one; with a DoubleTriggerPart there is a table of detectors in which its detector takes two frames, where it is enabled; and with a part that needs a duration there is one.
* `Props.ValParts.unrolled_in_three` [pcq] validation always comes to an end, whatever the order of the parts: with any number of unrolling parts and parts that guess a duration, and parts that have nothing against the axes and the detectors, `validate` accepts after asking the parts at most three times, although of the generators asked for in one round only the first is taken. The parameters it returns are those given, except that the generator is unrolled exactly once where that is wanted, and has the longest of the durations that were guessed, where none was given.
* `Props.ValParts.objection_refused` [pcq] a scan that a part objects to is refused, whatever the other parts answer.
* `Props.ValParts.unrolling_keeps_runs` [pq] unrolling does not change the scan: for a generator whose dimensions have different axes, and that has no dimension without axes, the number of steps and how they are cut into runs, with any breakpoints, are the same as without; and a scan that would be refused is still refused.
* `Props.ValParts.unrolling_keeps_runs_without_breakpoints` [pq] without breakpoints, this is so for dimensions without axes too.
* `Props.ValParts.one_dimension` [pq] after unrolling, all axes to be moved that the generator has are in one dimension.
* `Props.ValParts.unrolling_changes_runs_axisless` [p] fails with breakpoints for a generator with a dimension that has no axes: what is counted twice before is counted once after.
* `Props.ValParts.superset_squashed_again` [p] a generator that already squashes more than the axes to be moved into one dimension is squashed a second time.
* `Props.ValParts.double_trigger_needs_detectors` [pcq] a block with a DoubleTriggerPart refuses every scan for which no table of detectors is given, whatever else is asked for.
* `Props.ValParts.quarrel_given_up` [p] Two parts that want different things of the generator all the time are never content: this is what the limit of ten is for.

### C94 The file of an Xspress detector leads to every channel - partial

Modelled: create_vds, add_nexus_nodes, the announcements and the counting of frames, the file being a dictionary from paths to where they lead. Proved: loops are folds into a dictionary with distinct keys; the counter of files is chan / perFile by induction.

Fails (theorems): with fewer channels than writers every channel leads to the next writer's file; with more, but not shared equally, or more than eight writers, configure fails; the unique ids announced are never made; the images are laid out for more frames than are written; with several pairs the progress goes past the end; pause fails. Missing: the arrays vdsgen lays out, the waits on the child and the template of the file name.

* `Props.Xspress.file_complete` [pcq] when the channels can be shared equally among the writers, the file that `configure` makes is complete: every channel leads to the file of the writer that writes it, and so do the other datasets.
* `Props.Xspress.announced_there` [pcq] every dataset that `configure` announces is in the file it made, and has the rank of the scan and the detector, where there are no more pairs than writers.
* `Props.Xspress.configure_succeeds` [pcq] `configure` succeeds for any number of channels shared equally among up to eight writers, any dimensions of which only the first alternates, and any duration.
* `Props.Xspress.runs_count` [pcq] each run is over exactly when all pairs have captured as many frames as the steps of all runs so far, and what is reported on the way is how many frames were captured.
* `Props.Xspress.chunk_bounds` [pcq] chunks have at least one frame and at most 4096.
* `Props.Xspress.unequal_channels_refused` [pcq] fails where there are more channels than writers and they can not be shared equally: `configure` fails.
* `Props.Xspress.few_channels_shifted` [pcq] fails where there are fewer channels than writers: every channel leads to the file of the writer after the one that writes it.
* `Props.Xspress.nine_writers_refused` [pcq] fails for more than eight writers.
* `Props.Xspress.uniqueid_never_there` [pcq] fails for the unique ids: the dataset that is said to hold them is never made.
* `Props.Xspress.more_pairs_than_writers` [pcq] fails where there are more pairs than writers: the ids of the rest are announced, but not there.
* `Props.Xspress.images_of_frames_not_written` [pcq] fails for the images where the frames do not fill all blocks of all files but one less than a file each: vdsgen is told of more frames than are written.
* `Props.Xspress.progress_past_the_end` [pcq] fails for the progress where there are several pairs: at the end of the scan the part reports more steps than the scan has.
* `Props.Xspress.pause_refused` [-] fails for a rewind: `pause` always fails.
* `Props.Xspress.chunk_one_second` [pq] a chunk holds the frames that end within one second, if these are at least 1 and less than 4000.
* `Props.Xspress.chunk_ends` [pq] it holds 4096 frames if 4000 or more end within one second, and 1 if none does.

### C95 The files for working out where compound motors were lead to the right data - partial

Modelled: on_configure, on_post_configure, check_mres_and_pos, parse_input_variables and the datasets and links made, on top of the modelled cs_axis_mapping. Proved: the Q mapping keeps each motor because letters are distinct (C35); datasets and links are added under fresh names only, so each keeps its row; induction over the variables for the last value given.

Partial because the code does not keep it: min and max are announced before it is known that they are produced (announced_not_there), so announced_there_partial assumes all three kinds are produced; the coordinate system of the first scan is kept for later scans (other_coordinate_system), so raw_of_scan_partial is about a part not configured before; a raw motor that is first in the positions table is refused (first_position_refused); names with a dot are mixed up (dotted_name); the default suffix gives two colons and the status suffix is ignored. Not modelled: file names, the copied process list and program lines, the set point datasets.

* `Props.Kinematics.own_letter` [pcq] **C95 (i)** For every motor of the scan the file leads, for each kind of data, to the row that belongs to the letter of that motor's axis in the coordinate system.
* `Props.Kinematics.announced_iff` [pcq] **C95 (ii)** Announced are the motors of the scan, each with its kinds of data.
* `Props.Kinematics.announced_there_partial` [pcq] **C95 (iii)** What is announced is there, if for each raw motor the least and the greatest are there too.
* `Props.Kinematics.minMax_iff` [pcq] **C95 (iv)** Least and greatest are used exactly when no raw motor's position is captured as a mean or a single value and all three kinds of data of each raw motor are produced.
* `Props.Kinematics.own_data` [pcq] **C95 (v)** Each raw motor of the coordinate system is linked, under its number, to data produced for a position of its name: always the mean or value, and least and greatest when they are used.
* `Props.Kinematics.of_unique` [pcq] names without a dot in them are told apart by what comes before the dot
* `Props.Kinematics.raw_of_scan_partial` [pcq] **C95 (vi)** For a part that has not been told a coordinate system and has not been configured before, the raw motors are those of the coordinate system all motors of the scan are in.
* `Props.Kinematics.scaled_once` [pcq] **C95 (vii)** Where the PandA already scales the position of a raw motor, the resolution of the motor with that number is not applied again; otherwise it is the one that was given.
* `Props.Kinematics.shifted_once` [pcq] **C95 (viii)** Likewise for the offset.
* `Props.Kinematics.other_variables` [pcq] **C95 (ix)** All other variables have the last value they were given.
* `Props.Kinematics.first_position_refused` [p] A raw motor whose position is the first in the table of the PandA is refused, whatever is captured of it.
* `Props.Kinematics.announced_not_there` [pcq] If the PandA announces no least for a raw motor, least and greatest of the compound motor are announced but not made.
* `Props.Kinematics.other_coordinate_system` [pcq] The part keeps the coordinate system of its first scan: a scan of a motor in another one gets the raw motors of the first.
* `Props.Kinematics.dotted_name` [pcq] A name with a dot: data of "j1.b" is linked as data of "j1".
* `Props.Kinematics.default_suffix` [pq] The block the default suffix leads to has two colons in its name.
* `Props.Kinematics.status_suffix_unused` [p] The suffix of the block with the status is not used.
* `Props.Kinematics.accepted_iff` [pcq] **C95 (x)** A scan of motors that can be mapped is accepted exactly when a coordinate system is known and for each raw motor of it a value, a mean or all three are captured at a place of the table that is not the first.

### C96 Each HTTP request gets one reply, its own - partial

Modelled: the handlers with their queues, the callbacks of cothread, the spawned threads in any order and the callbacks of the tornado loop. Proved: invariant: the request of each handler is in exactly one of the queues, or done and replied to; a measure that each step makes smaller shows that it comes to rest.

Partial because the code does not keep it when the process is stopped: a request that comes in then is never replied to (stopped_never_replied). Names with a slash cannot be reached (slash_not_reached). That a controller gives one response to each Get and Post is C15. Tornado and cothread are modelled from their documentation.

* `Props.Rest.path_of_url` [p] **C96 (i)** Every path whose elements have no slash in them can be asked for, by its url.
* `Props.Rest.asked_unique` [p] There is only one request a client can have asked for.
* `Props.Rest.own_reply` [pcq] **C96 (ii)** In every history each HTTP request is given to a controller at most once and replied to at most once. The reply is a plain 500 without anything having been done, or it shows the response of the controller to the very request the client asked for.
* `Props.Rest.only_what_was_asked` [pcq] **C96 (iii)** What is done is what some client asked for.
* `Props.Rest.all_replied` [pcq] **C96 (iv)** While the process runs, once nothing is left to be done every request has one reply.
* `Props.Rest.comes_to_rest` [pcq] **C96 (v)** Unless nothing is left to be done there is a step that does some of it, and each such step leaves less: without new requests the system comes to rest, whatever order things are done in.
* `Props.Rest.slash_not_reached` [pq] A field whose name has a slash in it cannot be asked for.
* `Props.Rest.stopped_never_replied` [pcq] A request that has come in when the process is stopped is never replied to: the client waits for ever.

### C97 A PandA triggers a scan only if it is wired for it, and then with the right wires and numbers - partial

Modelled: the search for the blocks through exports and layout, the check of the wiring, the choice of triggers, the gate in front of the sequencers under all orders of hooks, the pulse block of a detector from its checks to the fields set. Proved: induction over the rows of the tables; an invariant over the calls and hooks saying what the gate must be before each hook still to come; witnesses for what is not checked.

False as stated, with witnesses: nothing checks which fields the exports of a pulse block come from, so width and delay can be crossed (crossed_exports_accepted); a missing seqReset is ignored, so an abort can leave the sequencers enabled (enabled_without_reset); nothing resets them when a process starts, so after a crash the next tables are written while they are enabled (enabled_after_crash). Proved without these: assuming the fields fit their exports, that seqReset is exported and that the sequencers are not enabled at first. A hook is run as a whole, calls and hooks one at a time.

* `Props.TrigWiring.blocks_found` [pq] The first sequencer is that of a part whose table is exported as `seqTableA`, the second that of another part whose table is exported as `seqTableB`.
* `Props.TrigWiring.blocks_iff` [pcq] These are found whenever both tables are exported, from two parts.
* `Props.TrigWiring.compared_right` [pcq] Each axis that is compared is one that moves; the sequencers compare it on the input that its position is wired to, in counts worked out with the numbers of that same position.
* `Props.TrigWiring.compared_all` [pcq] Every axis that moves and that the sequencers can see is compared.
* `Props.TrigWiring.compare_accepted_iff` [pcq] A scan with position compare is accepted just when the two sequencers are wired to the same positions and can see one of the axes that move.
* `Props.TrigWiring.gate_accepted_iff` [p] Otherwise it is accepted just when the two sequencers wait for the same signal and there is one; if nothing moves nothing is asked of the wiring.
* `Props.TrigWiring.enabled_only_in_runs_partial` [pq] Whatever is called in whatever order, the tables are never written while the sequencers are enabled; when a run begins they are already enabled just if they wait for something that moves, and from then on they are; in Ready, Armed and Paused they are not. Assumed: the sequencers were not enabled at first, and the PandA has the method to reset them.
* `Props.TrigWiring.frames_iff` [pq] The frames per step are those of the first row for the detector.
* `Props.TrigWiring.pulse_accepted_iff` [pcq] The scan is accepted just when every point takes the same time, the detector is in the table, all four exports come from one part, and the times of its block are in seconds.
* `Props.TrigWiring.values_reach_partial` [pcq] If each export comes from the field it is named after, then the fields of the pulse block are those of the pulses of the detector, and no other field is touched; a detector that takes no part in the scan changes nothing.
* `Props.TrigWiring.enabled_after_crash` [p] After a crash in the middle of a scan the sequencers are still enabled: the tables of the next one are written while they are, and nothing has reset them when its run begins.
* `Props.TrigWiring.enabled_without_reset` [p] If there is no method exported as `seqReset`, an abort leaves the sequencers enabled, and the next scan is configured while they are.
* `Props.TrigWiring.crossed_exports_accepted` [pcq] Nothing checks which fields the exports come from: with width and delay the wrong way round the scan is accepted and the pulse is as long as its delay should be.

### C98 What a PandA says is what Malcolm takes it to be, and what Malcolm sets is what the PandA is told - partial

Modelled: the parsing of the lists of blocks, fields, bits, tables and changes and the messages that set fields and tables, against a description of a PandA and of how it writes and reads lines. Proved: reading a rendered line gives back its words, by induction over the lines; sorting permutes; the lines of a message read back as the commands meant; witnesses for line ends.

False as stated, with witnesses: a value with a line end in it, such as a label, is sent as two lines, so the PandA carries out the second as a command (label_gives_command), and its reply is taken for the reply to the next request (replies_shifted). Proved for values of one line. What the PandA answers is a function of the request; that each request gets its own reply is C39.

* `Props.PandATalk.blocks_as_described` [pcq] If the PandA says which blocks and fields it has, then that is what the client returns, with the descriptions and labels of each field: the blocks by name, the fields of a block by index.
* `Props.PandATalk.bits_as_described` [pcq] The lists of bits that can be captured are those of the fields of PCAP of that kind, by name.
* `Props.PandATalk.table_as_described` [pcq] The same for the fields of a table, in the order in which the PandA lists them: the bits they are in, labels only for enums, and signed just if they are called int.
* `Props.PandATalk.changes_as_reported` [pcq] Every change that is reported is passed on with its value, in the order of the report; the tables that have changed come again at the end with their rows, as they are when they are asked for.
* `Props.PandATalk.set_as_asked_partial` [pq] The PandA is told to set exactly this field to exactly this value, if the value is one line.
* `Props.PandATalk.all_set_partial` [pcq] All fields are set, in order, whatever the PandA replies; the user is told if one was refused, and which.
* `Props.PandATalk.table_as_asked_partial` [pcq] The PandA is told to set this table to these rows, if none is empty and each is one line; the words of a table are.
* `Props.PandATalk.numbers_one_line` [pcq] The rows that are whole numbers are such.
* `Props.PandATalk.label_gives_command` [pcq] A label with a line end in it makes the PandA do what the second line says.
* `Props.PandATalk.replies_shifted` [pcq] It gets two replies for it, so that the one to the second line goes to the next request, and so on from then on.

### C99 An exported field is the field of the child - partial

Modelled: the child's field under all its setters, what a subscriber is told, the copy that follows, its writeable flag, puts and posts. Proved: induction over the changes and events: the copy shows the field as long as no change raised; a case analysis of the changes that raise; witnesses.

False as stated, with witnesses: a field that can only be read is shown as writeable (readonly_shown_writeable); a change of some columns of a table raises in the child and is not shown (column_not_shown), and so does a field made anew (replaced_not_shown); tags and label of the child come back when it changes them (tags_and_label_come_back); a method with parameters cannot be called (parameters_refused) and its result is lost (result_lost). Proved: the field is shown right as long as none of the changes raised, and none does but these; a whole value is shown even after that; puts reach the child, and so do calls without parameters. The changes come in the order in which they were made.

* `Props.ExportMirror.shown_partial` [pcq] As long as none of the child's changes has raised, the exported field has the value, alarm, time and kind that the field of the child has, whatever was done to it and whatever the states of the manager.
* `Props.ExportMirror.none_raised` [pcq] None has if the child never replaces its field nor sets a table by some of its columns.
* `Props.ExportMirror.shown_again` [p] Even after changes that have raised, a whole value that is set is shown.
* `Props.ExportMirror.label_partial` [pcq] The label is that of the export, if the child does not change the label of its field.
* `Props.ExportMirror.tags_partial` [pcq] It is neither saved with the child's design nor in one of the child's groups, if the child does not change the tags.
* `Props.ExportMirror.shown_writeable_partial` [pcq] Whether it is shown as writeable: it always is at first, whether or not the child's field is; after that it goes by the state of the manager, until the child says something else about its own field.
* `Props.ExportMirror.put_reaches_partial` [pcq] What is put reaches the child as a put of the same value, just if it is shown as writeable: the child's function is called just if the child would call it for that value, and the put succeeds just if that does.
* `Props.ExportMirror.post_reaches_partial` [p] A method without parameters is called once if it is shown as writeable and is.
* `Props.ExportMirror.readonly_shown_writeable` [pcq] Disagreement with C99: a field that can only be read is shown as one that can be written once it is exported.
* `Props.ExportMirror.column_not_shown` [pcq] Disagreement with C99: a table of which one column is changed raises in the child, and the exported table keeps the old column.
* `Props.ExportMirror.replaced_not_shown` [pcq] Disagreement with C99: if the child makes its field anew, as a manager does with all its fields whenever its exports or layout change, that raises in the child, and the old value is shown.
* `Props.ExportMirror.tags_and_label_come_back` [pcq] Disagreement with C99: when the child changes its tags or its label, the exported field takes them as they are: it is saved in designs again, and has the label of the child.
* `Props.ExportMirror.parameters_refused` [p] Disagreement with C99: an exported method cannot be called with parameters, whatever they are.
* `Props.ExportMirror.result_lost` [p] Disagreement with C99: what the method returns is lost.
* `Props.ExportMirror.info_shown_again` [-] What the child makes of its tags, its label, its writeability, its kind or all of them is shown.
* `Props.ExportMirror.put_done_iff` [pq] a put to the exported field is done if and only if the field is writeable, the value passes, the child can be written, the value passes there and the put function of the child accepts it.

### C100 A part knows its child as it is - partial

Modelled: the fields the child has, the subscriptions of the part by id, the ports and messages it keeps, and the notifications of values with None for a field that has gone. Proved: invariants over histories: ids and fields of subscriptions differ, live ones are there and their messages right; a further invariant for steady histories; an invariant that keeps a field that has gone away for good.

False as stated. A setting that has gone once is never watched again, and if it was saved the child stays modified in it with the value None whatever happens (gone_for_good, for every history); when it comes back its port is not reported and its changes are not told (back_not_known); a field that was a port is reported as one after it has been replaced (port_stays, replaced_not_looked_at). Proved for every history: the names reported, nothing is watched that is not there or twice, and what is watched is modified exactly if it is not as saved. Proved while no field comes back or changes its kind: exactly the saved settings are watched, and the ports are those of the child (the value that comes with an input is the one it had when first seen). Updates do not overlap.

* `Props.ChildWatch.names_reported` [pq] 0: the fields reported are those of the child, in their order.
* `Props.ChildWatch.watched_there` [pq] 0: nothing is watched that the child does not have, and nothing twice: there is at most one subscription to a field.
* `Props.ChildWatch.modified_right` [pq] 0: the child is modified in a field that is watched exactly when its value is not the one saved.
* `Props.ChildWatch.watched_partial` [pq] 0, in part: while no field comes back after it has gone, and none changes its kind, the part watches exactly the settings of the child that are saved.
* `Props.ChildWatch.ports_partial` [pq] 0, in part: under the same condition the ports reported are those of the child, in the order of its fields.
* `Props.ChildWatch.gone_for_good` [pq] 0, what is wrong: a field that was watched and has gone once is never watched again, whether it comes back or not; and if it was saved, the child is modified in it from then on, whatever its value, and the message says that it is `None`.
* `Props.ChildWatch.back_not_known` [pcq] 0 fails: an input of the child goes and comes back, as one that is exported by a child that is a manager can. It is not reported as a port again, and changes of it are not told.
* `Props.ChildWatch.port_stays` [p] 0 fails: a field that was an output and is a plain field of the same name now is still reported as an output.
* `Props.ChildWatch.replaced_not_looked_at` [p] 0 fails: a setting of the same name as one that was replaced in the same change is not looked at again: this one was an input and is not one any more.

### C101 A run of a writer ends when its frames are written, and not otherwise - partial

Modelled: time in milliseconds, what the plugin tells in each, how long a flush takes that starts then, and the run as a state that waits for the first array, waits, flushes or has ended. Proved: one invariant over time relating the state to all that was told since the run started; induction on the time left for the theorems that say that the run ends.

False as stated: only the first run waits for its first frame, a later one after a seek is said to have stalled (later_run_hurried); the number of frames must be told exactly, passing it does not end the run (overshoot_stalls); in a scan whose points differ in length 120 s are allowed whatever they take (long_frames_stall); a flush that does not return holds the run up (flush_holds_up). Proved for every sequence of updates and every time a flush takes: the run ends well only if told so, stalled only after a silence longer than allowed, failed only if the start failed; a silence ends the run within a second and a flush of the time allowed; with flushes no longer than the time allowed, being told the number ends the run well. Aborts are not modelled.

* `Props.WriterStall.done_means_all` [pcq] 1: a run that has ended well has been told that all its frames were captured.
* `Props.WriterStall.stalled_means_quiet` [pcq] 1: a run is only ended as stalled if no frame was written for longer than the time allowed, and the run is that old.
* `Props.WriterStall.steady_not_stalled` [pcq] 1: a run in which a frame is written at least once in every `timeout` is never ended as stalled.
* `Props.WriterStall.progress_true` [pcq] 1: what is reported as progress in a run is a number of frames that the plugin has told, less those of before.
* `Props.WriterStall.waits_for_first` [pcq] 1: the first run after configure waits for its first frame for as long as it takes.
* `Props.WriterStall.stall_noticed` [pcq] 1: a run whose first frame was seen by `T`, and of which no frame is written after `T`, is over soon after the time allowed: a second, and the time of a flush.
* `Props.WriterStall.ends_when_reached` [pcq] 1: if flushing takes no longer than the time allowed, a run that is under way ends well when it is told that the frames are captured: at once, or when the flush that is on is over.
* `Props.WriterStall.failure_noticed` [pcq] 1: if the plugin cannot be started the run is over within a second and the time of a flush.
* `Props.WriterStall.failed_means_start` [pcq] 1: a run is only ended as failed if the plugin could not be started.
* `Props.WriterStall.stall_reported` [pcq] 1: a run that is told nothing that could end it well, and whose plugin does not fail, is ended as stalled soon after its frames stop.
* `Props.WriterStall.later_run_hurried` [pcq] 1 does not hold of the frames before the first of a later run: the first run waits for its first frame for as long as it takes, but a later one after a seek is said to have stalled when that takes longer than the time allowed.
* `Props.WriterStall.overshoot_stalls` [pcq] 1 does not hold of a number of frames that is passed without being told: all frames are captured, and more, yet the run is said to have stalled.
* `Props.WriterStall.long_frames_stall` [pcq] 1 does not hold of long frames in a scan whose points do not all take the same time: the time allowed is 120 s whatever the points take.
* `Props.WriterStall.flush_holds_up` [pcq] 1 does not hold if the plugin is slow to flush: the run is not over until the flush is, though all frames are captured.
* `Props.WriterStall.first_run_frames` [pcq] 1: a first run ends well only if as many frames were captured as were asked for.
* `Props.WriterStall.later_run_frames` [pcq] 1: a run after a seek ends well only if as many frames were captured since as were asked for.
* `Props.WriterStall.later_progress` [pcq] 1: the progress reported in a run after a seek is the steps completed before and the frames captured since.
* `Props.WriterStall.on_time_not_stalled` [pcq] 1: a run whose frames take `duration` each and are at most a minute late is never ended as stalled.
* `Props.WriterStall.stall_noticed_in` [pcq] 1: a run of frames of `duration` each that stop coming is over 61 s after the next was due, and the time of a flush.
* `Props.WriterStall.unknown_not_stalled` [pcq] 1: a run whose frames take no known time is not ended as stalled while a frame comes every two minutes.
* `Props.WriterStall.unknown_stall_noticed` [pcq] 1: a run of frames that take no known time, and stop coming, is over two minutes and a second after the last, and the time of a flush.

### C102 The motion controller takes part in a scan exactly if it is needed, in one coordinate system - partial

Modelled: what the parts report, the layout with its motors and other blocks, the choice to take part, the coordinate system chosen, what is done to the motion controller, the guessed duration. Proved: case analysis along the functions; soundness of the axis mapping as proved in PmacUtil; induction on the reports and on the history.

False as stated: with triggers to give and no axis to move, a block in the layout that is not a motor makes the configure fail if it comes before the first motor (other_block_first); a scan of axes in different coordinate systems is validated without a word and refused when configured (validated_not_configured); an axis going backwards counts for nothing in the duration guessed (C54). The rest is proved for all reports, layouts, axes and histories. The profile is C32, C55, C77 and others.

* `Props.TakePart.trigger_asked` [pq] 2: the triggers are those that are asked for, and every point if nobody asks; nobody asks for others.
* `Props.TakePart.two_refused` [pq] 2: if two parts ask for different triggers the scan is refused.
* `Props.TakePart.one_asker` [pcq] 2: a part that is the only one to ask gets the triggers it asks for.
* `Props.TakePart.turnaround_reported` [pcq] 2: the time of a turnaround is that which is reported, and at least 2 ms.
* `Props.TakePart.configured_iff_needed` [pcq] 2: a motion controller that is configured for a scan is sent something exactly if it has axes to move or triggers to give.
* `Props.TakePart.run_iff_needed` [pcq] 2: the motion controller is started and stopped by later runs and aborts exactly if it was needed in the scan that was configured last.
* `Props.TakePart.one_coordinate_system` [pcq] 2: with axes to move, all that is sent goes to one coordinate system, the one that all axes moved are in; the move to the start is made in it, and moves exactly those axes.
* `Props.TakePart.triggers_only` [pcq] 2: without axes to move but with triggers to give, all that is sent goes to one coordinate system, that of some motor.
* `Props.TakePart.guessed_positive` [pcq] 2: a scan without a duration is given one that is positive, if the motion controller is needed and can tell.
* `Props.TakePart.guess_is` [pcq] 2: what is guessed: a microsecond without axes, in a continuous scan the time of the slowest forward axis from the first point to the second, in a step scan the time of a turnaround.
* `Props.TakePart.refused` [pcq] 2: a scan that moves an axis the motion controller does not have, or has a negative duration, is refused.
* `Props.TakePart.other_block_first` [pcq] 2 does not hold of a layout that has another block before the motors: triggers without axes cannot be given, though there is a motor in a coordinate system.
* `Props.TakePart.validated_not_configured` [pcq] 2 does not hold of validation: a scan of axes that are in different coordinate systems is validated, with no word said, and refused when it is configured.
* `Props.TakePart.not_mapped_yet` [pcq] 2: a scan without a duration whose axes can be read, but not mapped as they are now, is let pass with nothing asked for.
* `Props.TakePart.unreadable_refused` [pcq] 2: a scan without a duration none of whose axes can be read is refused, not let pass.

### C103 The file of an Odin detector has everything announced, and leads to the files its writers write - partial

Modelled: names (replace, join, split, splitext as in os.path), the nodes of the file, what is announced, when a run is over. Proved: induction over the nodes put into the file, each put once; lemmas on the last '/' and the last '.' of a text; decimal numbers are read back; induction over the runs.

False as stated: the raw datasets of one writer more than there are are announced (one_writer_too_many); a secondary dataset other than sum and uid is announced and never made (other_secondary_not_there); the raw unique ids are looked for under /uid whatever they are called (uid_links_fixed); a directory in the template is entered twice (directory_twice); formats that differ after a dot share their raw files if the template has no extension (dotted_formats_share); pausing is refused (pause_refused). The rest is proved: everything else announced is there, links are right for templates and formats without directories, files are apart for a template with the format once and an extension after it. How many frames each file has is C49; the arrays vdsgen lays out are not modelled.

* `Props.OdinFile.file_complete` [pcq] 3: the file that `configure` makes is complete: frames, sums and unique ids of all the writers' files, in the shape of the scan, and the positions of every axis beside each of them.
* `Props.OdinFile.announced_there_partial` [pcq] 3: every dataset announced, and where it says its unique ids are, is in the file, except those of a writer that is not there.
* `Props.OdinFile.configure_succeeds` [pcq] 3: `configure` succeeds for any positive number of writers and size of a block, and any dimensions of which only the first alternates, if the file has an extension.
* `Props.OdinFile.snake_refused` [pcq] 3: a scan in which another dimension than the first alternates is refused.
* `Props.OdinFile.links_right_partial` [pcq] 3: with a directory given and neither template nor format leading to another, the file made looks for the frames where the writer writes them.
* `Props.OdinFile.own_file` [pcq] 3: each writer has its own file.
* `Props.OdinFile.not_the_vds` [pcq] 3: no writer writes to the file that leads to all of them.
* `Props.OdinFile.formats_apart_partial` [pcq] 3: detectors with different formats write to different files, for a template that has the format once and an extension after it.
* `Props.OdinFile.runs_count` [pcq] 3: each run is over exactly when as many frames were captured as the steps of all runs so far, and what is reported on the way is how many were captured.
* `Props.OdinFile.one_writer_too_many` [pcq] 3 does not hold of the raw datasets: those of one writer more than there are are announced, and are not in the file.
* `Props.OdinFile.other_secondary_not_there` [pcq] 3 does not hold of a part with another secondary dataset than the sum: it is announced, and is not in the file.
* `Props.OdinFile.uid_links_fixed` [pcq] 3 does not hold of a part with another name for the unique ids: the raw unique ids are still looked for under "/uid".
* `Props.OdinFile.directory_twice` [pcq] 3 does not hold of a template with a directory in it: the frames are looked for in a directory of that name in it.
* `Props.OdinFile.dotted_formats_share` [pcq] 3 does not hold of formats with a "." in them and a template without: the frames of both go to the same file.
* `Props.OdinFile.pause_refused` [-] 3 does not hold of a scan that is to be paused or to go back: it always fails.

### C104 A YAML file makes exactly the blocks and parts it describes, children first - partial

Modelled: sections, files, creators of blocks and includes, the controllers and parts they return, exceptions with the lines put in front, start-up of a process. Proved: refinement in both directions against an inductive relation; induction on depth and on the derivation; determinism as a corollary; induction on the exception's path.

False as stated only for what is told: no line is told of a file without exactly one controller (broken_not_told), of two parts of the same name (duplicate_part_not_told, only the block is told), or of two blocks of the same mri (duplicate_mri_not_told). The rest is proved for all files, in both directions, against a relational description. Filling in is C48; that a part sets up its fields is C22.

* `Props.Compose.made_is_described` [pcq] 4: what a block of a YAML file makes is what the file describes.
* `Props.Compose.described_is_made` [pcq] 4: what a file describes is made, if files may be nested as deep as it is.
* `Props.Compose.one_meaning` [pcq] 4: a file with arguments describes one thing only.
* `Props.Compose.children_first` [pcq] 4: all controllers of a block that is listed somewhere below come before the controller of the file.
* `Props.Compose.no_block_in_itself` [pcq] 4: a block that is in itself is never made.
* `Props.Compose.process_is_described` [pcq] 4: a process that starts has exactly the controllers that its file describes, no two of the same mri.
* `Props.Compose.described_process_starts` [pcq] 4: and a process whose file describes some starts with them.
* `Props.Compose.failure_told` [pcq] 4: a process that does not start is told why: with the lines that lead to a section at fault, or that its own file takes arguments, has parts or controllers, or comes to two controllers of the same mri.
* `Props.Compose.section_accepted_iff` [pcq] 4: a section is accepted exactly if its name is a package, one of the six kinds, and a name in it.
* `Props.Compose.broken_not_told` [pcq] 4 does not hold of a file that is not as it has to be: the exception has no line of it, nor of the section that refers to it.
* `Props.Compose.duplicate_part_not_told` [pcq] 4 does not hold of two parts of the same name: of the lines of these parts none is told.
* `Props.Compose.duplicate_mri_not_told` [pcq] 4 does not hold of two blocks of the same mri: no line is told.

### C105 The datasets a scan lists are those its detectors will write - partial

Modelled: the scan block and its detectors with their tables, states, outcomes of each part's hooks, the detector table, use of detectors by others. Proved: invariant over histories; induction over the parts; injectivity of filling in a template.

The tables are proved for all histories. Different files is proved for parts that fill the name into the template as Python does (HDF and other AreaDetector writers): they raise when the template has no place for the name. It is false for Odin and Xspress, which replace the text %s and write the same file when it is not there (same_file). What each part writes is C78, C95, C103 and others.

* `Props.DataTable.lists_what_is_written` [pq] **C105**: whatever happens, also when others use the detectors: while the scan is configured its table lists exactly what will be written for the parameters it was configured with, for the detectors that take part and in the order of the parts; when it is Ready it lists nothing; and in any other state what it lists is nothing or what was configured last.
* `Props.DataTable.detectors_agree` [pq] **C105**: as long as nobody else uses the detectors, while the scan is configured each detector (that was not faulty when the process started) itself lists what it will write if it takes part, and nothing if it does not; and when the scan is Ready none of them lists anything.
* `Props.DataTable.different_files_partial` [pq] **C105**: the datasets of different detectors are in different files, if their parts fill the template in as Python does.
* `Props.DataTable.same_file` [pcq] but the Odin and Xspress writers replace `%s` in the template wherever it is, and do not mind if it is not there (odinwriterpart.py 374, xspresswriterpart.py 383): two such detectors then have the same file.

### C106 The block of the process monitors the IOCs it is told to, and starts and stops with the process - partial

Modelled: registering and calling functions for hooks; the regular expression and findall; split; the life of process, block and softIoc with everything that can fail. Proved: induction over registrations; induction over the text with the pattern seen as a body and a space; invariants over histories.

False as stated: only the function registered last for a hook is called, so the one that stops the softIoc takes the place of the one that halts the block (not_halted); a block whose softIoc cannot be started is Disabled, and Ready after a reset() without IOC and status blocks (ready_without_ioc); an IOC listed twice stops the block from getting Ready (listed_twice); two spaces in a list make an IOC without a name (two_spaces); names of other beamlines that end alike are taken for the beamline's (other_beamline); directories that begin like the areas are taken for them (other_area). The rest is proved.

* `Props.SysBlock.last_registered` [pq] **C106**: when a hook is run the function that is called is the one registered last for that hook, and no other, whatever was registered in whatever order; registering a function that takes arguments without saying their types is refused.
* `Props.SysBlock.redirected_exactly_partial` [pcq] **C106**: the IOCs monitored with a list made from the redirect table are exactly those of the beamline that the table lists, in order; provided that no name in it merely ends with the name of one.
* `Props.SysBlock.usual_name` [pq] a name of the usual form is never too long
* `Props.SysBlock.listed_exactly_partial` [pq] **C106**: the IOCs monitored with a list that a user wrote, separated by single spaces, are exactly those.
* `Props.SysBlock.health_told` [pcq] **C106**: health is OK exactly if the block is Ready and the YAML file is of a known version; a block that is Disabled or in Fault says so.
* `Props.SysBlock.version_told_partial` [pcq] **C106**: the version told of a file in the work area is `work`, of one in the prod area the tag it is checked out at, of one that is in neither (and no directory whose name begins like them) `unknown`.
* `Props.SysBlock.host_fits` [pcq] **C106**: the host name shown always fits an EPICS string (40 characters with the one at its end), and is the name itself if that fits.
* `Props.SysBlock.one_ioc` [pcq] **C106**: whatever happens there is at most one softIoc running, and none when the process is not started.
* `Props.SysBlock.started_right` [pcq] **C106**: in a process that starts well, and as long as it is started, whatever users do: there is a status block and a part for each IOC in the list, in order after what was there, and the softIoc runs unless it ended by itself; right after the start the block is Ready.
* `Props.SysBlock.other_beamline` [pcq] Finding: an IOC of another beamline whose name ends the same way is taken for one of this beamline, under a name that does not exist.
* `Props.SysBlock.two_spaces` [pcq] Finding: a list with two spaces in a row has an IOC without a name in it.
* `Props.SysBlock.other_area` [pcq] Finding: a file in another directory whose name begins like the work area is told to be in it.
* `Props.SysBlock.not_halted` [pcq] Finding: the function that stops the IOC takes the place of the one that halts the block, so when the process stops the block stays Ready and its parts are not halted.
* `Props.SysBlock.ready_without_ioc` [pcq] Finding: when the softIoc cannot be started the block is left Disabled, not in Fault; and after a reset() it is Ready without IOC and without status blocks.
* `Props.SysBlock.listed_twice` [pcq] Finding: when an IOC is listed twice the block does not get Ready, and the status block of those before it are there but were never started.
* `Props.SysBlock.ready_iff` [pcq] **C106**: the block is Ready after the start just if everything went well and each IOC is listed once, under a name that is not taken.
* `Props.SysBlock.calls_refused` [pcq] **C106**: reset() is refused while the block is Ready, and both calls when the process is not started.

### C107 A method called over pvAccess is called once with what was given, and its outcome comes back - partial

Modelled: rpc, send_post, the methods of a local copy and the Post at the server, with the conversion of C71; the channels and PVs of the server as a state machine. Proved: round trip of C71; induction over the copies; invariant over histories of the server.

False as stated: a method that returns one value gives a map with that value, packed once more by each process in between (greeting_packed, one_value, packed_often), and one that returns nothing gives an empty map (no_value); a result that cannot be sent is an error although the method was called (list_lost, result_lost). A URI can name another method than the channel it is sent to (other_method). The rest is proved. Losing the connection during the call is not modelled.

* `Props.PvaCall.field_called` [pcq] **C107**: a value sent to the channel of a field calls the method of that name with this value.
* `Props.PvaCall.uri_called` [pcq] **C107**: a URI with the name of the block and of a method calls that method, with the query, whatever the channel.
* `Props.PvaCall.uri_refused` [pcq] **C107**: a URI of another scheme or block calls nothing, and is answered with an error.
* `Props.PvaCall.no_method` [pcq] **C107**: without a method of that name nothing is called, and there is an error.
* `Props.PvaCall.as_there_partial` [pcq] **C107** in part: a call with parameters that can be sent does what the same call does at the server, once. An error comes back as that error, and a map that can be sent comes back as the same data. Missing: what is returned and is not a map (`one_value`, `no_value`).
* `Props.PvaCall.one_value` [pcq] A method that returns one value gives a map with that value, when it is called through the network.
* `Props.PvaCall.no_value` [pcq] A method that returns nothing gives an empty map.
* `Props.PvaCall.result_lost` [pcq] A result that cannot be sent is an error, although the method was called.
* `Props.PvaCall.not_called` [pcq] **C107**: parameters that cannot be sent, a method that is not there or not writeable, or parameters that it does not take: nothing is called and there is an error.
* `Props.PvaCall.far_partial` [pcq] **C107** in part: however many processes are in between, a call of the local copy calls what the same call of the block calls, and an error comes back as it is. A map comes back as the same data.
* `Props.PvaCall.packed_often` [pcq] What a method returns as one value is packed once more by each process in between.
* `Props.PvaCall.channels` [pq] **C107**: there are channels for the published blocks and the fields of them, and no other.
* `Props.PvaCall.given_iff` [pq] **C107**: who asks for the channel of a published block, or of a field of it, while the server is up, is given a PV; who asks for anything else is not.
* `Props.PvaCall.closed_or_served` [pq] **C107**: at any later time a PV that a client was given is closed, or it is still that of the block and field, and the block is published. So a client of a block that is no longer published, or of a server that was stopped, is told.
* `Props.PvaCall.same_pv` [pq] **C107**: two clients are given the same PV if and only if they ask for the same block and field, as long as it is not closed.
* `Props.PvaCall.greeting_packed` [pcq] The same call gives the value where the block is, but a map where it is a copy, and a map of a map at the next copy.
* `Props.PvaCall.list_lost` [pcq] A call that went well where the block is gives an error where it is a copy, as a list of numbers cannot be sent.
* `Props.PvaCall.other_method` [pcq] A call sent to the channel of one method calls another, if its URI says so.
* `Props.PvaCall.up_iff` [pq] **C107**: the server is up just if it was brought up and not down since

### C108 imalcolm gives a prompt with what was asked for or exits, and starting and stopping end in time - partial

Modelled: how long wait_hooks, start and stop take as functions of the times the hooked and spawned functions take; the arguments as texts; the main thread and the thread of the process as one outcome. Proved: induction over the hooked and spawned functions; the pieces of a text split at a character.

False as stated: the timeout of start has no effect, and that of stop only on what was spawned, so both can take for ever (start_not_timed, stop_not_timed, start_hangs_iff, stop_hangs_iff). The program stays for ever if starting takes more than 65 s (slow_hangs) or something spawned takes 0.1 s longer than the functions of the blocks (does_not_quit). A name with dots is cut and a file without an ending is refused (dotted_name). The rest is proved.

* `Props.Launch.starts_within` [pq] Starting takes as long as the slowest function of the blocks, and then the slowest that publishes
* `Props.Launch.started` [pq] When it has started, the functions of the blocks have returned, and those that publish if there is something to publish
* `Props.Launch.start_never_raises` [p] It never raises
* `Props.Launch.start_hangs_iff` [pq] It does not return, whatever the timeout, exactly if a function it calls does not
* `Props.Launch.stopped` [pq] When it has stopped, all functions of the blocks have returned and all spawned functions have ended, and it took no longer than that
* `Props.Launch.stop_ends_partial` [pq] If the functions of the blocks return, it ends: not later than a timeout for each spawned function after that
* `Props.Launch.stop_raised` [pq] It raises only if a spawned function has not ended although it waited for the timeout
* `Props.Launch.stops` [pq] It stops if the functions of the blocks return and the spawned functions end within the timeout
* `Props.Launch.stop_hangs_iff` [pq] Stopping with a timeout never ends if a function of a block does not
* `Props.Launch.name_iff` [p] The name of the process
* `Props.Launch.name_partial` [p] A file with one dot in its name gives the name before it
* `Props.Launch.client_iff` [pcq] The client
* `Props.Launch.prompt_has` [pcq] If there is a prompt, the process has the name and the blocks of the arguments and no others, and all of them have started
* `Props.Launch.prompts` [pcq] There is a prompt if the arguments make a process and loading and starting it takes 65 seconds at most
* `Props.Launch.exits_1_iff` [pcq] It exits with an error exactly if the arguments make no process
* `Props.Launch.exits_0_iff` [pcq] It exits normally exactly if there was a prompt and stopping ended well
* `Props.Launch.quits_partial` [pcq] It exits when the user leaves the prompt, if the functions of the blocks return and those that were spawned end in a tenth of a second. Missing: if they do not.
* `Props.Launch.calls_made` [pcq] The first call is the one that was asked for, all others abort the same block, and there is one more call than there were interrupts
* `Props.Launch.interrupted_aborts` [pcq] After each interrupt the block is aborted
* `Props.Launch.result_iff` [pcq] A result is given exactly if the call was not interrupted
* `Props.Launch.start_not_timed` [p] Starting with a timeout of ten seconds takes ten minutes, or never ends
* `Props.Launch.stop_not_timed` [p]
* `Props.Launch.dotted_name` [pcq] With two dots, what is before the first is lost; without a dot, there is no process
* `Props.Launch.does_not_quit` [pcq] What is spawned takes longer to end: the program stays
* `Props.Launch.slow_hangs` [pcq] A minute to load and six seconds to start: no prompt, and the program stays

### C109 Web clients are told of every change once and in order, and telling them does not hold anybody up for ever - partial

Modelled: threads that change the block or answer requests, the responses they hand over until one has to wait, the loop that writes, the tokens of each connection. Proved: invariants: the books of a connection (counted + needed = to write + tokens + lost + tens), what was handed over and what is left is the changes so far; a measure of what is left to do.

False as stated: with two subscriptions and two threads the second subscription is told of a change after the one that followed it and keeps the old value (overtaken), because the tenth caller waits with the rest of its responses in hand and no lock; proved when no change is made before those before it have been handed over, which holds when one thread makes the changes (one_writer, shown_partial). A response that cannot be made into JSON is never answered and its token is lost, so that the tenth caller waits for ever (not_sent); held_iff says exactly when somebody is held up.

* `Props.WebFlow.in_order` [pcq] What a client gets is what was handed over, in order and without a hole but for what cannot be made into JSON
* `Props.WebFlow.all_sent` [pcq] While the client is there, all that was handed over has been written, but for what the loop still has to do
* `Props.WebFlow.backlog` [pcq] At most nine and ten for each thread that waits are left to write for a connection
* `Props.WebFlow.one_each` [pcq] Each thread waits for one thing
* `Props.WebFlow.held_iff` [pcq] When nothing is left to do for a connection, somebody is still held up just if more than the rest were lost
* `Props.WebFlow.less_left` [pcq] Whatever the server or a waiting thread does next, if it does anything, less is left to do
* `Props.WebFlow.goes_on_partial` [pcq] As long as somebody is held up or something is left to write, there is something that can be done, if all can be made into JSON
* `Props.WebFlow.all_released_partial` [pcq] Everybody who is held up gets to go on, and everything is written, in at most so many steps, if all can be made into JSON
* `Props.WebFlow.ten_lost` [pcq] Once ten responses to a client could not be made into JSON, there is always somebody held up when nothing is left to do
* `Props.WebFlow.once` [pcq] Every change is handed over, or is left to be, for every subscription and just once
* `Props.WebFlow.told_in_order_partial` [pcq] A web client is told of the changes in order and without a hole, if no change is made before those before it have been handed over and all can be made into JSON
* `Props.WebFlow.told_all_partial` [pcq] A client that is still there and for which nothing is left to do was told of every change, and in order, under the same conditions
* `Props.WebFlow.told_once_partial` [pcq] Without the condition on the changes, each of them is told just once, in some order
* `Props.WebFlow.one_writer` [pq] If one thread makes all the changes, none is made before those before it have been handed over
* `Props.WebFlow.shown_partial` [pcq] So a block changed by one thread is shown as it is to every client that is there, once all is written
* `Props.WebFlow.overtaken` [p] Against the property: with two subscriptions of a client and two threads, the second is told of a change after the one that followed it, and is left with what is not so any more
* `Props.WebFlow.not_sent` [p] Against the property: a response that cannot be made into JSON is not sent, and nor is anything in its place; the one who hands over the tenth is held up for ever

### C110 Calls of a block that overlap do not undo each other - partial

Modelled: the state, the calls under way with their numbers, how those that ended did; the calls of a PandA as steps of Model/PandALife, any number at a time. Proved: invariant by induction over the history; a simulation by Model/PandALife when calls are made one at a time.

The second half is false: disable() is taken while reset() is under way and does not stop it. The block is then Disabled with hooks running (disabled_but_busy); after another reset() the first makes it Ready too soon and the second, which worked, puts it in Fault (ready_but_busy); if the reset() ends first disable() raises and the block is in Fault (disable_raises); a process that stops during a disable() leaves the block in Fault (halt_faults); a PandA that is Disabled is connected to and polled (polled_while_disabled). It is proved for calls made one at a time. The first half is proved for all histories.

* `Props.Overlap.settles` [pcq] **C110**: a block with no call under way is Ready, Disabled or in Fault: it is never left half way
* `Props.Overlap.says_what` [pcq] **C110**: a state that says that something is under way is that of the call that was begun last
* `Props.Overlap.once` [pcq] **C110**: every call is either under way or has ended once
* `Props.Overlap.returns_iff` [pcq] **C110**: a call whose work is done returns just if the block may go to its last state from where it is, and then it does; if not it raises and leaves the block in Fault or Disabled
* `Props.Overlap.returns_when` [pcq] **C110**: in other words, disable() returns just if the block is still Disabling when its work is done, and the others just if the block is Resetting, Saving or Loading, be it for another call
* `Props.Overlap.stays_disabled` [pq] **C110**: a block that is Disabled stays so until it is reset, whatever else is called or ends
* `Props.Overlap.stays` [pq] **C110**: a block with no call under way stays as it is until something is called or fails
* `Props.Overlap.settled_is_quiet_partial` [pq] **C110** in part: one call at a time, a block that is Ready, Disabled or in Fault has no call under way
* `Props.Overlap.returns_partial` [pcq] **C110** in part: one call at a time, a call whose work is done returns
* `Props.Overlap.panda_quiet_partial` [pcq] **C110** in part: one call at a time, a PandA whose manager is Disabled is not connected to and not polled
* `Props.Overlap.disabled_but_busy` [p] Disabled while the parts are still being reset
* `Props.Overlap.ready_but_busy` [p] Ready while the parts are still being reset: the first reset() makes the block Ready when the second has only begun, which then raises and leaves the block in Fault although everything worked
* `Props.Overlap.disable_raises` [p] disable() raises and leaves the block in Fault, as a reset() that was under way ends before it
* `Props.Overlap.halt_faults` [p] When the process stops while disable() is under way, the block is left in Fault
* `Props.Overlap.polled_while_disabled` [pq] A PandA whose manager is Disabled is connected to and polled, and all calls have ended, after a disable() during a reset()
* `Props.Overlap.begins` [pcq] **C110**: a call is taken or it raises at once; one of a client that is not taken leaves the block as it is, one of the process puts it in Fault unless it is Disabled
* `Props.Overlap.raised` [pcq] **C110**: a call that raises, or something that fails in the background, puts the block in Fault unless it is Disabled; the call has not returned

### C111 A run() that was stopped is told how to go on - partial

Modelled: Model/Runnable: the calls as programs whose steps interleave, the resume queues by number, each with what was put and not taken. Proved: invariant by induction over the history: numbers of calls at each point, messages to end in the queue, the state; what each call does to it.

False of all histories: a run() called in Paused gets through, and of two that wait one abort() ends only one (second_run_waits); a call that failed may put the block into Fault long after it has told the run (late_fault_waits); abort() tells the queue of the next configure if the block is reset and configured before (late_put_waits); a run() whose part stops after abort() gave up waits on the queue of the next configure and takes the resume of the next run (late_hook_waits). Proved for all interleavings of the histories of C05 in which no run() begins in Paused or while a call that failed has not yet put the block into Fault.

* `Props.RunWait.waits_iff_paused_partial` [pcq] 1, for tidy histories: when nothing goes on, a run() waits if and only if the block is Paused.
* `Props.RunWait.one_run_partial` [pcq] 1, for tidy histories: at most one run() goes on or waits.
* `Props.RunWait.resume_goes_on_partial` [pcq] 1, for tidy histories: when nothing goes on and a run() waits, a resume() returns with the block Running, and the run() goes on.
* `Props.RunWait.abort_ends_partial` [pcq] 1, for tidy histories: when nothing goes on and a run() waits, an abort() whose hooks end well returns with the block Aborted, and the run() ends.
* `Props.RunWait.disable_ends_partial` [pcq] 1, for tidy histories: when nothing goes on and a run() waits, a disable() whose hooks end well returns with the block Disabled, and the run() ends.
* `Props.RunWait.waits_to_be_told_partial` [pcq] 1, for tidy histories: while a run() waits and has not been told how to go on, the block is Running, PostRun, Paused, Seeking or Aborting, or an abort or a disable is about to tell it.
* `Props.RunWait.told_to_end_partial` [pcq] 1, for tidy histories: when the block is in Fault, Aborted, Disabled, Ready, Armed or Finished, and no abort or disable is about to tell it, each run() that waits has been told to end.
* `Props.RunWait.second_run_waits` [p] A run() that is called in Paused gets through. When it is paused too, two calls wait. One abort() lets one of them end, the other waits for ever, in Aborted.
* `Props.RunWait.late_fault_waits` [p] A save() that has failed tells no run to end, as there is none yet. Before it puts the block into Fault, the block is disabled, reset, configured, run and paused. Then the run waits for ever, in Fault.
* `Props.RunWait.late_put_waits` [p] An abort() of a paused run() has taken the block to Aborted but has not yet told the run to end. The block is reset and configured, which makes a new queue, and now the abort tells that one. The abort has returned, the block is Armed, and the run waits for ever.
* `Props.RunWait.late_hook_waits` [p] A run() whose part stops only after abort() has given up waiting for it, and after the block was reset and configured: it waits on the new queue, while the block is Armed. When the next run() is paused and resumed, it is the old one that is resumed: the new one waits for ever, in Running.

### C112 A proxy over a websocket follows the remote block from end to end - partial

Modelled: Model/WebChain: what the subscription of a proxy does with the responses it is given, on top of WebFlow (server), WebClient (client), Proxy (Deltas) and Notifier (block). Proved: composition of C107, C62 and C43: what was given is the first so many of what was written, so the Deltas are handled in order; once a request is ended nothing more is given to it, by induction over the events of the client.

False in two ways: with two threads and two subscriptions the mirrored block ends with an old value (overtaken_proxy), and after a lost connection it shows neither that nor anything new ever again, even when the client is Ready with a new connection (frozen, lost_unseen). Proved for servers on which no change is made before those before it have been handed over, blocks that keep their fields (as for C43), and clients and servers as for C62 (Tame, Honest).

* `Props.WebChain.shows_past_partial` [pcq] 2, partial. At any time the proxy shows the remote block as it was at some moment: after as many Deltas as it has been given, none of them left out or exchanged. It does so also after the connection was lost. For servers on which no change is made before those before it have been handed over, and blocks that keep their fields.
* `Props.WebChain.shows_now_partial` [pcq] 2, partial. When the server has written all, the client has read all and run its callbacks, and the connection is there, the proxy shows the remote block as it is.
* `Props.WebChain.end_to_end_partial` [pcq] 2, from end to end, partial: the block and its notifier, the server that writes the Deltas of the subscription, the connection, the client and the proxy. When nothing is on its way any more, the proxy equals the block.
* `Props.WebChain.three_arrive` [pcq] The block of C43 is changed twice, and all arrives: it meets the hypotheses of `end_to_end_partial`
* `Props.WebChain.frozen` [pcq] 2 fails when the connection is lost: once the subscription of a proxy has been told so, the proxy never changes again, whatever the client does - it may be reset and have a new connection - and whatever servers send.
* `Props.WebChain.overtaken_proxy` [pcq] Against the property: two threads change the block at once, and the client has two subscriptions. All has arrived, the connection is there, and the proxy shows what is no longer so.
* `Props.WebChain.lost_unseen` [pcq] Against the property: the proxy does not show that its connection was lost, nor does it after that show anything new: its health is what the remote block said last, and a client that is reset is Ready although the proxy is dead.

### C113 Saved designs are kept, offered and loaded under their names - partial

Modelled: Model/DesignFiles: a disk with files and directories, the walk along a path, the directory listing with sorting, blocks with their design and choices, saves in steps. Proved: invariant over histories: directories stay tidy, what is on offer is what is on the disk, the design that is loaded is there; a save goes to the file of its name and no other.

False as stated: names are not checked, so a save can overwrite designs of other blocks (slash_overwrites), templates and any other file ending in .json (template_overwritten), and a name is cut at .json (cut_overwrites); a file with .json twice is offered under a name without a file (offered_not_there); a stray file among the templates makes each save fail after its file was written (stray_template); a process that ends during a save loses the design, for every design (crash_loses). Proved for names without slash and .json and directories with such designs only, which is then kept by every history. What a design says and what loading does is C27.

* `Props.DesignFiles.saved_kept_partial` [pcq] 3, partial: a save under a good name by a block that is Ready succeeds; the design of the block is then the one saved, and whatever is done after that - to other designs, by other blocks, crashes among it - what was saved is read back, as long as the block does not save under this name again.
* `Props.DesignFiles.offered_partial` [pcq] 3, partial: what a block offers to load is, after any history of saves, loads, resets and crashes of any blocks, "no design", the designs saved for this block and its templates, in order and each once. For good names only.
* `Props.DesignFiles.offered_loads_partial` [pcq] 3, partial: what is on offer is loaded when it is asked for, if it can be put into effect, and it is then the design of the block
* `Props.DesignFiles.others_kept_partial` [pcq] 3, partial: saving, loading and crashing only ever write files of designs of the block they are done for; templates and all other files stay as they are
* `Props.DesignFiles.crash_partial` [pq] 3, partial: a process that ends during a save leaves all other files as they were, and of the design what it was before or a beginning of the new one; all of it once the last step is done
* `Props.DesignFiles.save_refused` [pq] 3: a save without a name of a block with no design, or under the name of a template, changes no file: for all disks and names
* `Props.DesignFiles.not_offered_refused` [p] A name that is not on offer is refused, and nothing changes
* `Props.DesignFiles.crash_loses` [pq] For every design: a process that ends after the first step of a save leaves it empty; what was saved before is lost, and the new is not there
* `Props.DesignFiles.slash_overwrites` [p] A block can overwrite the designs of another: a slash in the name is not refused
* `Props.DesignFiles.template_overwritten` [p] Nor is a name that is a path from the root: so a template is overwritten
* `Props.DesignFiles.cut_overwrites` [p] A name is cut at ".json": a copy kept under such a name takes the place of the design
* `Props.DesignFiles.offered_not_there` [p] A file with ".json" twice is offered under a name for which there is no file: to load it puts the block in Fault
* `Props.DesignFiles.stray_template` [p] A file among the templates that is not called as one: every save writes its file, is refused after that and puts the block in Fault

### C114 A wait ends in time, and not before - partial

Modelled: a clock over the model of the context of C18: time passes, responses come, the thread takes a response or finds that the time is up; the calls of Future and sleep on top. Proved: invariants over every list of events; the responses by refinement to the runs of C18, so that its theorems apply; the wait that never ends by induction on the time.

Never early, nothing missed for waits that have the queue to themselves, in time up to the time that callbacks take, result() always its own. False as a whole: a subscription whose callback is slow keeps a wait with a timeout going for ever, exception() of a call that is going on raises instead of returning, and a callback that raises TimeoutError ends a sleep of any length.

* `Props.WaitTime.never_early` [pq] 4: TimeoutError is not raised before its time: if it is raised then the total time given is over, or nothing has been dealt with for the time given between responses.
* `Props.WaitTime.timed_out_missing_partial` [pcq] 4, in part: if TimeoutError is raised then one of the futures is not done, and no response to it was in the queue when the wait started or has been put there since: whatever came before the time was up has been seen. Missing: waits inside callbacks or of other threads on the same context, and the same future given twice, for which it is false (C18).
* `Props.WaitTime.in_time_partial` [pq] 4, in part: if the thread is woken promptly then a wait with a total time goes on, or raises TimeoutError, no later than a tick after that time, apart from the time that callbacks take. Missing: callbacks that take time, which can keep it going for ever (`never_ends`).
* `Props.WaitTime.quiet_in_time` [pq] 4: if the thread is woken promptly then a wait with a time between responses ends a tick after that time has passed since the last response was dealt with.
* `Props.WaitTime.result_own` [pcq] 4: whatever happens, if `result` returns a value then the call that the future stands for returned it; if it raises the exception of a call then it is that of this one; it never returns without a result.
* `Props.WaitTime.exception_done_partial` [pq] 4, in part: `exception` of a future that is done gives its exception, or None if there is none. Missing: a future that is not done, for which it is false (`exception_raises`).
* `Props.WaitTime.sleep_long_enough_partial` [pq] 4, in part: `sleep` does not return before its time. Missing: callbacks of subscriptions that raise TimeoutError, for which it is false (`sleep_cut_short`).
* `Props.WaitTime.sleep_in_time_partial` [pq] 4, in part: if the thread is woken promptly then `sleep` goes on no longer than a tick after its time, apart from the time that callbacks take.
* `Props.WaitTime.sleep_stopped` [pq] 4: a stop that is taken during a sleep ends it with AbortedError
* `Props.WaitTime.never_ends` [pq] Disagreement with C114: a wait for at most one tick that goes on for ever: a subscription on the same context is updated while its callback deals with the update before, so that there is always something in the queue, and the time is only looked at when there is nothing.
* `Props.WaitTime.exception_never_given` [pcq] Disagreement with C114: called while the call goes on, `exception` never returns the exception (unless somebody else took the response): if it returns then the call has succeeded.
* `Props.WaitTime.exception_raises` [pq] Disagreement with C114: the documentation says that `exception` returns the exception of the call; it raises it.
* `Props.WaitTime.sleep_cut_short` [pq] Disagreement with C114: a callback that raises TimeoutError, for instance from a wait of its own, ends a sleep of any length at once, and nobody is told.
* `Props.WaitTime.wakes` [pq] 4: once the total time is over, or the time between responses, a wait that has nothing in its queue raises TimeoutError when it is woken.
* `Props.WaitTime.sleep_wakes` [pq] 4: once its time is over, a sleep that has nothing in its queue returns when it is woken.

### C115 Subscribers are told everything, in order, whatever the other subscribers do - partial

Modelled: the callbacks that are left to make with their threads, and the changes, subscriptions and calls as events. Proved: permutations kept by every event for the once; equality of lists under the condition for the order; runs of a few events for what goes wrong.

Each thing once, or lost to an exception, for every history; all of it if no callback raises; in order and up to date if nothing is changed before what was before has been told. False as a whole: a change made while a callback waits, or by a callback, is told before the one it follows, so that subscribers are left with an old value; an update can follow the Return of an Unsubscribe; a callback that raises keeps all those after it from being told and makes the change itself raise.

* `Props.Deliver.once_each` [pcq] 5: whatever threads change the field, wait in callbacks, subscribe and unsubscribe, and whichever callbacks raise: what a subscription should be told, it is told once, or will be, or is lost to an exception.
* `Props.Deliver.all_told_partial` [pcq] 5, in part: if no callback raises then no subscription misses anything, and no change raises: once all callbacks have been made each has been told all that it should, in some order. Missing: callbacks that raise (`starved`).
* `Props.Deliver.in_order_partial` [pcq] 5, in part: if nothing is changed, subscribed or unsubscribed before what was before has been told, and no callback raises, then every subscription is told what it should be, in order. Missing: changes while callbacks wait (`overtaken`, `after_the_end`) or by callbacks (`nested`), for which it is false.
* `Props.Deliver.shown_partial` [pcq] 5, in part: under the same conditions, once all callbacks have been made the last that a subscription was told is the value of the field, or that it has ended.
* `Props.Deliver.overtaken` [pq] Disagreement with C115: the callback of the first subscription waits; meanwhile another thread changes the field and tells both; then the second subscription is told of the change before. All is told, and it shows an old value.
* `Props.Deliver.nested` [pq] Disagreement with C115: no second thread is needed: a callback that changes the field in which it is told of a change makes every subscription after it show an old value.
* `Props.Deliver.after_the_end` [pq] Disagreement with C115: a subscription is told of a change after it was told that it has ended.
* `Props.Deliver.starved` [pq] Disagreement with C115: the callback of one subscription raises; the others are never told of the change, and whoever made it gets the exception.

### C116 A scan that is stopped stops its detectors - partial

Modelled: the scan with the hook that goes on, and for each detector the state of its block and what its part has still to do in the hook. Proved: an invariant of every hook that says how far each part is, kept by all events; runs of a few events for what goes wrong.

What is said of a scan that becomes Aborted, Disabled, Armed or Paused, or has ended a run, is proved of all histories; of Ready that none takes frames or is going to, and that all are Ready if nobody was resetting, saving, loading, aborting or disabling one. abort() ends well if all detectors can be aborted at the time. The rest is false: on_abort calls abort() of every detector shown, so one that is in Fault, Disabled or already Aborted, also if it takes no part or is known to be unusable, puts the scan into Fault (abort_refused, faulty_spoils_abort), and so does one that loads its design (abort_while_loading); pause() does if a detector is in PostRun (pause_refused); a scan that fails leaves the other detectors running (runs_on); a Disabled detector that takes no part spoils configure() if a design is saved for it (disabled_spoils_configure); reset() passes over a detector that is Aborting (ready_not_reset). Calls of the scan go on one at a time, see the model.

* `Props.Stopping.aborted` [pq] When a scan becomes Aborted, its detectors are.
* `Props.Stopping.disabled` [pq] When it becomes Disabled, none of them takes frames or is going to: they are Disabled, unless somebody else had begun to disable them.
* `Props.Stopping.ready` [pq] When it becomes Ready, none of those that were not faulty at the start takes frames or is going to.
* `Props.Stopping.armed` [pq] When a configure() makes it Armed, all that take part are Armed.
* `Props.Stopping.run_over` [pq] When a run() has ended well, the runs of all that took part have.
* `Props.Stopping.held` [pq] When a pause() has ended well, all that take part stand still.
* `Props.Stopping.abort_ends_partial` [pcq] If all detectors are in states that can be aborted, and nothing fails, abort() ends with the scan and them Aborted: until then something can go on, and whatever does brings it nearer.
* `Props.Stopping.abort_refused` [pq] A detector that is in Fault, Disabled or Aborted, be it one that takes no part or one that was faulty at the start, keeps abort() from ever ending with the scan Aborted.
* `Props.Stopping.reset_ready_partial` [pq] A scan that a reset() made Ready has all its detectors Ready, unless they were faulty at the start or somebody was resetting, loading, saving, aborting or disabling one; those that were taking frames too.
* `Props.Stopping.left_alone` [pq] A detector that takes no part in a scan is left alone by its runs and pauses.
* `Props.Stopping.runs_on` [p] A scan that fails goes to Fault and its other detectors run on.
* `Props.Stopping.pause_refused` [pq] pause() while a detector is between its run and the end of it puts the scan into Fault.
* `Props.Stopping.faulty_spoils_abort` [pq] abort() of a scan with a detector that takes no part and was faulty at the start puts the scan into Fault, however well all else goes.
* `Props.Stopping.abort_while_loading` [pq] abort() while a detector loads its design puts the scan into Fault, and the detector is Ready in the end.
* `Props.Stopping.disabled_spoils_configure` [pq] A detector that is Disabled and takes no part keeps a scan from being configured, if there is a design for it.
* `Props.Stopping.ready_not_reset` [pq] A scan that is Ready with a detector that is Aborted, and cannot be configured then: the reset() did not wait for an abort().
* `Props.Stopping.run_taken` [pq] A run() of an Armed scan, or a resume() of a Paused one, all of whose detectors that take part are Armed or Paused is not refused by any of them, and while nothing fails the scan does not.
* `Props.Stopping.taken_partly` [pq] A configure() that is accepted has no detector take part that was faulty at the start, and those take part that are to.

### C117 The blocks of a process get going together - partial

Modelled: the blocks with their children as a graph, the queue of what has been spawned, and for each ChildPart whether it has begun, waits or has ended; all the rest happens in any order. Proved: an invariant of all runs, a measure that every event which changes anything lowers, and the inductive predicate Good of the blocks that ought to get going.

Proved but for two things that the code does not do. A child that takes longer to start than 10 s leaves its parent, and all above, in Fault though nothing has failed (slow_child): outcome_partial asks that no part waits for too long. And nothing makes up for an init that has failed (never_made_up): after a reset() the block is Ready, but has no layout, no exports and no designs to choose from, and parts that had not found their child never watch it (ready_without_layout). That no parent takes a child that has not begun for a Disabled one (all_begun) rests on cothreads beginning in the order in which they are spawned.

* `Props.Startup.ready_good` [pq] A block that has become Ready at the start ought to be: its own parts and the rest of its init have succeeded, and so have its children, their children, and so on, whatever the order in which things happen and however long they take.
* `Props.Startup.children_ready` [pq] When a block sets its layout and loads its initial design, all its children are in the process, and Ready if they are waited for; and so they are whenever it is Ready.
* `Props.Startup.ready_laid` [pq] At the start a block is Ready exactly if it has come to the end of its init: no part is forgotten.
* `Props.Startup.circle` [pq] Blocks that are children of each other in a circle never become Ready: of a set of blocks each of which waits for one of the set, none does.
* `Props.Startup.others_left_alone` [pq] The blocks that are not to be started are left alone.
* `Props.Startup.all_begun` [pq] No block takes a child that has not begun to start for one that is Disabled: when the first part looks at its child, all the blocks have begun, in whatever order they are started.
* `Props.Startup.outcome_partial` [pcq] **If no part has to wait for too long, then in the end the blocks that ought to be Ready are Ready and all others are in Fault**, whatever the order in which things happen. What is missing for the whole claim: see `slow_child`.
* `Props.Startup.no_block_left` [pcq] However long parts wait, in the end each block is Ready or in Fault.
* `Props.Startup.start_ends` [pcq] The start comes to an end: there is a bound, given by the blocks and their children alone, to how many things can happen that change anything.
* `Props.Startup.never_made_up` [pq] Neither reset() nor disable(), of whatever block and however often, makes up for an init that has failed: the parts that had not found their child have not, and no layout is set nor design loaded.
* `Props.Startup.slow_child` [pq] Finding: a child that takes longer to start than its parent waits (10 s) is Ready in the end, but the parent is in Fault, and so are those who wait for it, though nothing has failed: each ought to be Ready.
* `Props.Startup.ready_without_layout` [p] Finding: after that reset() makes the detector and the scan Ready, but the detector's part for the driver has never seen its child, and no layout has been set.

### C118 disable() and reset() reach everything that is shown beneath a block - partial

Modelled: a tree of blocks with their states and layouts; a call goes down the tree as ChildPart does; which blocks fail, and which others have been called when they do, is given by an oracle. Proved: induction over the tree, with invariants kept by all calls of the top.

Proved of all trees if only the block at the top is called: then all that is shown is in its state when it is Ready or Disabled, and one good call makes up for everything that went wrong; if its layout changes as well, a disable() and a reset() do. If blocks beneath are called by others it is false: on_reset and on_disable look only at the state of the child itself and pass over one that is Ready or Disabled already, whatever is beneath it (deep_fault, disabled_above). A child in Fault that was hidden is not reset when it is shown, and reset() of the Ready block is refused (shown_later). Blocks with two parents, and calls at the same time, are left out.

* `Props.Family.ends` [p] A call ends in the state aimed at if it returns, and in Fault if it raises.
* `Props.Family.hidden_kept` [p] Whatever is called of a block, and whatever goes wrong, everything that is hidden beneath it stays as it is.
* `Props.Family.in_step_partial` [p] **All the blocks shown are in the state of the block at the top, if it is Ready or Disabled**, when the process was started with all of them Ready and only the top has been called since, whatever went wrong. What is missing for the whole claim: see `deep_fault`, `disabled_above`, `shown_later`.
* `Props.Family.made_up_partial` [p] When nothing goes wrong any more, one disable() or reset() makes up for all that has.
* `Props.Family.disable_reset_partial` [p] If the layout of the top has changed as well, disable() and then reset() make everything shown Ready: once nothing goes wrong any more, after disable() all that is shown is Disabled, after reset() Ready.
* `Props.Family.deep_fault` [p] Finding: a driver that has got into Fault by itself, beneath a detector that is Ready, is passed over by the reset() of a scan in Fault, which is Ready afterwards.
* `Props.Family.disabled_above` [p] Finding: disable() passes over a child that is Disabled already, whose own children need not be: somebody has reset the driver since. The scan is then Disabled with a driver that is Ready.
* `Props.Family.shown_later` [p] Finding: a child that was hidden when the block was disabled and reset, and has been in Fault since before, is not reset when it is shown: the block is Ready, and reset() is refused.

### C119 When a process is stopped every block that was not Disabled has its DisableHooks run and ends Disabled - partial

Modelled: the calls of halt and disable of all blocks as threads, with the steps of the ChildParts: looking whether disable is writeable, calling it, waiting. Proved: invariants over all orders of steps; a measure of the work left for the end.

Proved of all orders: the DisableHooks are started at least once, a Disabled block is left alone, each block ends Disabled or in Fault, and stopping ends. That it ends Disabled, with the hooks run once, is proved if nothing raises and either no ChildPart looks at its block before that has halted, or no call comes upon a block that another is disabling and what a ChildPart has found writeable is so still when it calls; it is false otherwise: a parent disables its child while that halts, and both end in Fault although nothing went wrong (both_fault); with two parents the hooks of a block may be run twice at the same time (twice_at_once); a block one of whose HaltHooks raises is not disabled at all (not_disabled). A block may be Disabled while its child is still Disabling (before_child). Left out: RunnableControllers, calls of clients while the process stops.

* `Props.Halt.transitions` [p] the transitions are those of the state set of the blocks (Model.States), and clients may call `disable` when Model.Overlap says so
* `Props.Halt.at_end` [pcq] When all has ended, a block whose HaltHooks did not raise is Disabled or in Fault.
* `Props.Halt.hooks_run` [pcq] A block that was not Disabled has had its DisableHooks started by the time its call of `halt` has ended, unless its HaltHooks have raised.
* `Props.Halt.disabled_left` [pcq] A block that was Disabled stays so, and its DisableHooks are not run, at any time.
* `Props.Halt.never_stuck` [pcq] As long as something has not ended there is a step to take.
* `Props.Halt.stop_ends` [pcq] The number of steps is bounded, whatever their order and whatever raises, if no block is a child of itself.
* `Props.Halt.all_disabled_partial` [pq] If nothing raises and no ChildPart looks at its block before that has halted, every block ends Disabled, the DisableHooks of those that were not are started once, and just their `halt` returns without an exception.
* `Props.Halt.both_fault` [p] False as stated: both are Ready and nothing raises of itself, but the child is told to disable by its parent while it halts: both are in Fault at the end.
* `Props.Halt.twice_at_once` [p] False as stated: with two parents the DisableHooks of a block may be run twice at the same time.
* `Props.Halt.not_disabled` [p] False as stated: a block one of whose HaltHooks raises is not disabled.
* `Props.Halt.disabled_when` [pq] A block gets Disabled only when everything its DisableHooks do has been done, in one of its calls, without an exception: what its own parts do, and what its ChildParts do.
* `Props.Halt.before_child` [p] A block may be Disabled, its `halt` having returned, while the DisableHooks of its child are still being run.
* `Props.Halt.apart_disabled_partial` [pcq] If nothing raises and nobody is overtaken, in whatever order parents and children come, every block ends Disabled, the DisableHooks of those that were not are started once, and every call a ChildPart has made returns without an exception.

### C120 The record of a method is that of one call, the last to end, and time stamps tell when - partial

Modelled: the record of a method and its calls, each in two steps: the Post, and the end of its function; describing the method anew in between; time stamps over the rational numbers; the ways an attribute is set. Proved: invariant over all histories for the record and for time; the fate of one call from Post to reply by induction over what happens meanwhile.

Proved of all histories as long as no call has its outcome replaced because the record of it could not be made, and told_iff says exactly when that is: if what was given or what came back does not fit the description of the method at the end of the call. It is false then: the record has what the second call was given beside what the first gave (mixed_record); a call that succeeds while a part reports new configure parameters is answered with an error (success_as_error), and the reason of a failure is lost (failure_hidden). Time stamps before 1970 are a second late (before_1970); set_alarm leaves the stamp of the value (change_without_stamp). Hypotheses: validating what has been validated changes nothing, every meta has a default, the clock does not go back. Left out: rounding of floats in time stamps.

* `Props.CallLog.one_call_partial` [pcq] **C120** `took` and `returned` are of one and the same call that is over and was answered with its outcome, or say that there was no call. Missing: if the record of a call could not be made (see `mixed_record`)
* `Props.CallLog.new_method` [pq] a new method says that nobody has called it, and can always be made
* `Props.CallLog.call_recorded` [pcq] **C120** from the Post to the reply: a call that is accepted is recorded when it ends, whatever other calls come, end or run on meanwhile, with what it was given, when it came, what it gave and when it ended, and the caller is told the outcome; if the method is not described anew meanwhile and the result fits its description
* `Props.CallLog.failure_recorded` [pcq] a call that fails is recorded in any case, with the message of its failure and nothing returned
* `Props.CallLog.told_iff` [pcq] **C120** the caller is told the outcome of the function exactly if what it was given and what it gave fit the description of the method at its end; otherwise it gets an error about the record
* `Props.CallLog.answered_once` [pcq] a call is answered once: what has been told stays, whatever happens
* `Props.CallLog.described_anew` [pcq] describing a method anew makes its record that of no call
* `Props.CallLog.ends_after_start_partial` [pcq] **C120** the record never says that a call ended before it came, if the clock does not go back. Missing: as `one_call_partial`
* `Props.CallLog.stamp_near` [pcq] **C120** a time stamp is that of the time, to the nanosecond below it
* `Props.CallLog.stamp_order` [pcq] later times have no earlier stamps
* `Props.CallLog.stamp_again` [pcq] the stamp of the time of a stamp is that stamp
* `Props.CallLog.stamp_of_last_set` [pcq] **C120** whatever was done to an attribute, its time stamp is the one given when its value was last set, or else that of the time it was set
* `Props.CallLog.set_clears_alarm` [pcq] setting a value clears an alarm, unless one is given; and a value that is refused changes nothing
* `Props.CallLog.last_to_end` [pcq] the record is of the last call to end, which need not be the last that came
* `Props.CallLog.mixed_record` [pcq] the record can be of two calls: what the second was given, and what the first gave, at a time before the second came
* `Props.CallLog.success_as_error` [pcq] a call that succeeds with a result as described is answered with an error, and leaves no record, if the method is described anew while it runs
* `Props.CallLog.failure_hidden` [pcq] the reason of a failure is lost in the same way
* `Props.CallLog.before_1970` [pcq] before 1970 the stamp is of a time a second later
* `Props.CallLog.change_without_stamp` [pcq] an alarm, or a value that comes without a time, leaves the time stamp of the value before
* `Props.CallLog.taken_iff` [pcq] A call is taken exactly if the method may be called now and what is given fits its description; a call that is refused leaves no trace, and one that is taken none either before it ends.

### C121 The layout of a PandA is kept on the PandA - partial

Modelled: the table as tokens of JSON cut into lines, the layout attribute, what Malcolm remembers of the table; puts, polls, writing by others and restarts. Proved: round trip of the text by induction over entries; invariant over all histories; witnesses for what is lost.

Proved of all histories as long as others write tables that can be read and are not empty, puts and polls do not overlap, and equality of positions is equality. It is false otherwise: a table that has been cleared is not seen (cleared_not_seen); a put that overlaps with a poll is lost without an error (put_lost); NaN is written again at every poll (nan_written_forever); a table that is not JSON ends in Fault, at every start (unreadable_ends_in_fault). Where a hidden block is gets lost at the next poll (hidden_position_lost), and a hidden block comes back at a restart if the block is one that is shown at first (hidden_comes_back). A put before the next poll overwrites what others have written (foreign_overwritten). Left out: JSON in other shapes than x then y, numbers as text, the deleting of blocks.

* `Props.PandALayout.text_round_trip` [pcq] What is written can be read, however it has been cut into lines.
* `Props.PandALayout.kept_partial` [pq] **Kept on the PandA.** However clients have put layouts, others have written the table, and Malcolm has been started again: whenever there is nothing unread, so after every poll, the layout shows what the PandA has. `_partial`: the tables of others can be read and are not empty (`unreadable_ends_in_fault`, `cleared_not_seen`), no put runs while a poll does (`put_lost`), and positions are not NaN (`nan_written_forever`).
* `Props.PandALayout.poll_settles` [pq] A poll writes nothing, and leaves nothing unread.
* `Props.PandALayout.foreign_shown` [pq] What others write is shown at the next poll, and left as it is.
* `Props.PandALayout.put_shows` [pq] **What a put shows.** The blocks of the rows are as their last rows say, the others as they were.
* `Props.PandALayout.restart_shows_partial` [pq] **Started again.** The next Malcolm shows the blocks that were shown, where they were. `_partial`: those that were hidden come back if `guess` says so (`hidden_comes_back`), and where they were is lost; if none of them come back, the table is left as it is.
* `Props.PandALayout.hidden_position_lost` [p] **Where a hidden block is, is lost**: a client hides B at (3, 4), and after the next poll it is at (0, 0).
* `Props.PandALayout.cleared_not_seen` [p] **A table that has been cleared is not seen**: the layout goes on showing what the PandA has no longer.
* `Props.PandALayout.hidden_comes_back` [p] **A hidden block comes back** at the next start, if `guess` says so, and is then on the PandA too.
* `Props.PandALayout.foreign_overwritten` [p] **What others have written is overwritten unseen** by a put before the next poll.
* `Props.PandALayout.unreadable_ends_in_fault` [p] **An unreadable table ends in Fault**, and so does every start until the table has been changed.
* `Props.PandALayout.nan_written_forever` [pq] **A position that is not equal to itself**, as NaN is, is written at every poll for ever.
* `Props.PandALayout.put_lost` [p] **A put that is lost**: a client's layout has been given to the blocks, and before it has been recorded a poll brings the table, hides what it does not have, and records that; the client's put then finds nothing to record. It returns without an error, and its block is not shown.
* `Props.PandALayout.line_for_each` [pcq] There is a line for each block, as long as no block is called `y`.

### C122 Putting the exports of a block of another Malcolm over pvAccess - partial

Modelled: puts in two or three steps (sent, answered, waiting for the queue), the queue as a number, the monitor telling of disconnects and values, the fields of the block here and there. Proved: counting invariant over all histories between makings of the block, puts that have ended and what is in the queue; witnesses for what goes wrong.

Proved as long as nothing is left over in the queue of the block from an earlier reconnection. It is false otherwise: after one reconnection a put of exports that the server refuses ends well (refused_but_ok), one that is accepted ends before the fields are there (too_early), and of two puts at the same time the refused one may take what the accepted one waits for (swapped). A put whose answer is not cut off does not wait (not_waited_for). Why exports were refused is never told, the client waits ten seconds instead (reason_never_told). That p4p gives a RemoteError for an answer that is cut off is taken from the comments of the code. Left out: what is in the fields (C76), several monitors of a block.

* `Props.PvaExports.one_for_each` [pq] Each making of the block but the first lets one put of exports go on, at once or later, and no more than one: so it has let go as many as have ended well by waiting, and there are as many left over as there are in the queue.
* `Props.PvaExports.new_fields_partial` [pq] **New exports are there when the put ends.** If nothing is left over in the queue when exports are put that the server accepts, and nobody else changes the fields, then whenever the put has ended well after waiting, the block has been made anew since it was sent, and has the new fields. `_partial`: without the first see `refused_but_ok` and `too_early`; a put whose answer is not cut off does not wait (`not_waited_for`).
* `Props.PvaExports.refused_partial` [pq] **Refused exports are not reported as put.** If nothing is left over in the queue and the connection lasts, a put of exports that the server refuses never ends well. `_partial`: with something left over, or after a reconnection, it does (`refused_but_ok`).
* `Props.PvaExports.others_as_answered` [pq] A put of anything but exports ends as the server says, unless the answer is cut off.
* `Props.PvaExports.reason_never_told` [pq] **Why exports were refused is never told**: whatever happens, no put of exports ends with an error of the server.
* `Props.PvaExports.refused_but_ok` [p] **Refused, but reported as put**: once the connection has been lost and come back, the first put of exports that the server refuses ends well at once.
* `Props.PvaExports.too_early` [p] **Reported too early**: likewise a put of exports that the server accepts ends before the block has the new fields.
* `Props.PvaExports.not_waited_for` [p] **Not waited for**: if the answer of the server is not cut off, the put ends before the block has the new fields, and what the block is made anew for is left over for the next put.
* `Props.PvaExports.swapped` [p] **The refusal of one taken for the success of another**: of two puts at the same time the one that was refused takes what the one that was accepted waits for, which then ends with a timeout.
* `Props.PvaExports.made_for_losses` [pq] The block is made anew at most once for each connection that was lost.
* `Props.PvaExports.made_anew` [p] When the connection has been lost, the next value makes the block anew as it is on the server, and those after it do not.

### C123 Disabling and resetting what talks pvAccess - partial

Modelled: the state of the two controllers with what they hold (reference, server, context, monitors), the calls with what goes well in them, the copies and what the server has. Proved: invariants over all histories of calls and changes; witnesses for what a reset does not make again.

Disabled means that nobody is served, always. Ready means that clients are served as long as nobody resets and channels can be closed (ready_serves_partial); after a reset it is false: the server is not made again (never_again, reset_not_served), nor is it after a channel could not be closed in time and the process starts again (restart_not_served). Copies are current until the client is disabled (copies_current_partial); then they never change again while their health stays OK, also when the client is reset and says Ready (disabled_for_good, stale_and_ok), and a client that has never started cannot be disabled (cannot_be_disabled). Left out: p4p itself, the queues of C122, what happens to monitors when the process starts a second time without a disable.

* `Props.PvaLife.disabled_quiet` [p] **Disabled means that nobody is served**, whatever has happened.
* `Props.PvaLife.ready_serves_partial` [pq] **Ready means that clients are served**, as long as nobody resets and the channels of clients can be closed. `_partial`: after a reset it is false (`reset_not_served`), and so it is when the process starts again after the closing of a channel has failed (`restart_not_served`).
* `Props.PvaLife.never_again` [p] **Once it does not serve, nothing but a new start of the process makes it serve**: no reset does, nor any number of them.
* `Props.PvaLife.reset_ready` [p] A reset that goes well ends in Ready all the same.
* `Props.PvaLife.start_serves` [pq] The process starts, or starts again after the server was disabled well: it serves.
* `Props.PvaLife.copies_current_partial` [pq] **A copy whose health is OK shows the block as it is**, for all changes of the server and losses of the connection, and puts can be sent as long as the server can be reached. `_partial`: until the client is disabled (`stale_and_ok`).
* `Props.PvaLife.disabled_for_good` [pq] **Disabled for good**: once the client has been disabled, no copy changes and nothing can be sent, however often it is reset, until the process starts again.
* `Props.PvaLife.cannot_be_disabled` [p] **It cannot be disabled**: if the client has never started well, every disable ends in Fault.
* `Props.PvaLife.reset_not_served` [-] **Ready, and nobody is served**: the server is disabled and reset, or fails to start and is reset.
* `Props.PvaLife.restart_not_served` [-] **Started again, and nobody is served**: the channel of a client was not closed in time when the process stopped.
* `Props.PvaLife.stale_and_ok` [p] **Stale, and OK**: the client is disabled, and reset; it says Ready, the health of the copy is OK, the block has changed and the copy has not.
* `Props.PvaLife.health_true_partial` [pq] **The health of a copy is OK exactly when the server can be reached**, and every block that was asked for has a copy. `_partial`: as above.
* `Props.PvaLife.disable_then_reset` [pq] A client that has started is Disabled when it is disabled, with the context closed, and Ready when it is reset; the copies are as they were.
* `Props.PvaLife.disable_ends` [p] A disable is answered well exactly when the server is Disabled after it: when the hooks go well and, if there is a server, its channels can be closed; otherwise the block says Fault.
* `Props.PvaLife.init_ends` [p] The start ends in Ready exactly when the hooks go well and the server is there or can be made.
* `Props.PvaLife.refused_calls` [p] A disable of what is Disabled, and a reset of what is Ready, change nothing, however they would have gone.

### C124 Preparing a driver that runs all the time, and asking the file server - partial

Modelled: the part line by line as a program counter, the two attributes of the driver, others and timeouts as events; the check as a function of how the call ends. Proved: invariants over all histories of events; a schedule with arbitrary delays for progress; cases for the check.

A driver that obeys ends up acquiring continuously, whatever it did before and however late it obeys (ends); one that already does is left alone (left_alone); what it is told is always a part of stop, mode, start (told). The mode is right if nobody else puts it meanwhile (ends_continuous_partial, changed_meanwhile), and a driver that stops between the two looks at it is taken to be running (ended_meanwhile). The configure goes on exactly when the monitor is well, or says that it is not and errors are not wanted (goes_on_iff); it fails for any other error of the check although errors are not wanted (fails_all_the_same). Left out: that attributes lag behind the hardware.

* `Props.Prepare.ends_acquiring` [pq] **At the moment it ends the driver acquires**, or did when it was looked at first: then nothing was sent.
* `Props.Prepare.ends_continuous_partial` [pq] **It acquires continuously**, if nobody else puts the mode meanwhile. `_partial`: false otherwise (`changed_meanwhile`).
* `Props.Prepare.told` [pcq] **What the driver is told**: nothing, or the mode and then a start, after a stop if it was running; whatever happens meanwhile.
* `Props.Prepare.left_alone` [pq] **A driver that acquires continuously is left alone**: as long as nobody else does anything to it, nothing is ever sent, and the part ends.
* `Props.Prepare.ends` [pq] **It ends, with the driver acquiring continuously**, for a driver that obeys, whatever it did before and however late it obeys: three rounds in which the part gets all its steps are enough.
* `Props.Prepare.goes_on_iff` [p] **The configure goes on exactly when the monitor is well, or is not and errors are not wanted.**
* `Props.Prepare.bad_status_logged` [pq] A bad status is always written to the log, with the block and the server, and is what is raised; nothing else is written.
* `Props.Prepare.changed_meanwhile` [p] **Over, and not continuous**: somebody else puts the mode after the part has.
* `Props.Prepare.ended_meanwhile` [p] **Over, and not acquiring**: the driver came to its end between the two looks at it.
* `Props.Prepare.fails_all_the_same` [p] **Errors are not wanted, and the configure fails**: the check ended with anything but an AssertionError, a timeout for one.
* `Props.Prepare.set_when_stopped` [pq] **The mode is put only when the driver does not run**: as long as nothing starts it meanwhile, a driver that was told a mode had stopped before.
* `Props.Prepare.too_late` [p] **A driver that does not obey in time fails the configure**, for good.

### C125 Resetting a block brings the blocks of its children back - partial

Modelled: the states of the block and of its child, which part it is, the hooks with what goes well in them. Proved: cases over all states for one call, induction over all histories for what stays.

Proved for parts with the hooks of every part for a child. False for AttributePreRunPart, whose on_reset, meant for the end of a run, overrides that of ChildPart: a disable takes its child with it (disable_takes_both), the reset does not reset the child but puts to it, which a Disabled block refuses, so every reset ends in Fault (reset_faults) and the block is never Ready again until somebody resets the child itself (stuck, by_hand); a child in Fault stays so (not_reset). What the override does do, the attribute having its reset value after every reset, is reset_closes. The states during a call and many children are in C118 (Family) and C89 (Shutter).

* `Props.ShutterChild.reset_brings_back_partial` [p] **A reset that goes well brings both back**, whatever happened before, for a part that has only the hooks of every part for a child. `_partial`: false for one that puts an attribute before a run (`not_reset`, `stuck`).
* `Props.ShutterChild.ready_together_partial` [p] **Ready means that the child is Ready**, when nobody but the block calls it and it does not fall over by itself: for a part with only the hooks of every part for a child.
* `Props.ShutterChild.disable_takes_both` [p] A disable that goes well disables both, for either part.
* `Props.ShutterChild.reset_closes` [p] **Ready means that the attribute has its reset value**: after a reset of a block with a part that puts an attribute before a run.
* `Props.ShutterChild.child_stays` [p] A child that was disabled stays so, whatever is called, until it is reset itself.
* `Props.ShutterChild.stuck` [p] **Never Ready again**: a block with a part that puts an attribute before a run, once it has been disabled well, is not Ready after any number of resets, however they go, until somebody resets the child itself.
* `Props.ShutterChild.reset_faults` [p] Every reset of such a block ends in Fault.
* `Props.ShutterChild.by_hand` [p] Somebody who resets the child first gets both back.
* `Props.ShutterChild.not_reset` [-] **Ready, and the child in Fault**: a reset of a block with such a part leaves the child as it is.
* `Props.ShutterChild.reset_ends` [p] **A reset ends in Ready exactly when all the hooks go well**, and in Fault otherwise: for a part for a child, when the child is Ready or its reset goes well; for one that puts an attribute before a run, when the child is not Disabled and the put goes well.
* `Props.ShutterChild.disable_ends` [p] A disable ends in Disabled exactly when all the hooks go well, and in Fault otherwise.

### C126 Any camelCase name will do for an export - partial

Modelled: the object of the block with its path, its notifier, its fields, what meta shows and what was told, the setting and the removal of a field statement by statement with the exceptions, a put as removals and settings until one raises. Proved: induction over the names of a put and over all histories of puts; an invariant of broken blocks.

Proved for all histories of names other than path and notifier. These two are camelCase and are what the block keeps its own path and notifier under: the put fails and shows exports that were not made, and no export can ever be put again (path_breaks, notifier_breaks, broken_for_good); if path is the first field it can be taken away, but then the block has lost its path and nobody hears of its exports (path_deafens). Left out: the rest of the controller (Exports), which exports are of parts that are shown.

* `Props.FieldNames.exports_put_partial` [pq] **Any exports can be put, and put back**: after any history of puts of fine names each of them went well, the block has its own fields and those of the last put, and everything was told under the name of the block. `_partial`: false for the names `path` and `notifier`, which are camelCase too (`path_breaks`, `notifier_breaks`).
* `Props.FieldNames.put_fine` [pq] One put.
* `Props.FieldNames.broken_for_good` [pq] **Broken for good**: whatever exports are put later, all of these puts fail.
* `Props.FieldNames.path_breaks` [p] **An export called `path` breaks the block**, if it is not the first: the put fails, shows the exports that it did not make and no export can be put any more.
* `Props.FieldNames.notifier_breaks` [p] **An export called `notifier` breaks the block**, wherever it is.
* `Props.FieldNames.path_deafens` [p] **If `path` is the first the exports can be put again, but nobody hears of them**: the block has lost its path, so that what is told does not begin with its name.

## Disagreements found

Where the code breaks a property this is proved on a concrete history, or for all cases of a kind, and the property is proved for the rest under the suffix
`_partial`. The theorems, by property:

* C03 Fields are writeable exactly in their declared states
  * `added_field_writeable_too_early`: the gap: `add_block_field` marks a field writeable at once, whatever the current state. A field that declared only Ready is writeable in Disabled from `setup` until the first transition.
* C05 Any hook failure lands the block in Fault, an abort lands it in Aborted
  * `spurious_abort_configuring`: A part raises AbortedError in a configure that nobody aborts: configure ends with an error and the block stays Configuring.
  * `spurious_abort_running`: The same in a run, after a pause in Armed: run waits for ever and the block stays Running.
  * `late_pause`: A pause has seen that the block is Running, but the run finishes before the pause begins. The block becomes Paused without a run; a resume then returns and leaves it Running for ever.
  * `late_abort_put`: An abort has taken the block to Aborted but has not yet told the run not to resume. The block is reset and configured, and now the abort tells the next run. When this is paused it ends; a resume then leaves the block Running for ever.
  * `resume_in_armed`: A resume that gets through in Armed leaves the block Running for ever.
  * `old_configure_arms`: A configure whose parts go on after a disable takes the block to Armed, while the next configure still goes on. That one then takes the block to Fault.
  * `disable_faults`: A disable during a run, on a block that was never aborted or paused: the run has no abort queue to answer to, fails and takes the block to Fault, where the disable fails.
  * `overtaken_pause_faults`: An abort overtakes a pause that waits for the run: the run answers to the queue of the abort, which returns with the block Aborted. The pause waits on its own queue until it times out and takes the block to Fault.
  * `second_pause_faults`: A second pause while the first goes on takes the block to Fault.
  * `early_pause_ignored`: A pause that stops the parts before the resumed run has started its hooks: the hooks ignore stops that came before. The pause waits until it times out and returns with the block Paused, while the run goes on. It fails at its end.
  * `abort_during_reset`: An abort while a configure of a Finished block resets its parts: the contexts of these hooks are not stopped, the contexts of the hooks that come are made after the stop. If the abort gives up waiting it returns with the block Aborted while the configure goes on with its parts, in a hook that was told nothing (the stops of its contexts, 0, are those when it was begun). At its end the configure takes the block to Fault.
  * `abort_during_reset_faults`: If the configure is over before the abort gives up, the block is in Fault when the abort wants to take it to Aborted: both fail.
* C06 Breakpoints partition the scan
  * `breakpoints_miscount_axisless_dimension`: fails for a generator with a dimension that has no axes (a StaticPointGenerator): such a dimension counts both as inner and as outer, so the steps add up to more than the scan.
  * `nonpositive_breakpoints_accepted`: needs the breakpoints to be positive: `configure` accepts others.
* C07 completedSteps is the slowest part and only moves forward in a run
  * `stale_report_counts_after_seek`: a limit of what is reported: parts that have not reported yet do not count, and a rewind does not forget old reports. Here part 2 was at step 10 before a seek back to 2; a report of 8 by part 1 moves `completedSteps` to 8 although part 2 has reported nothing since the seek.
* C08 Seeking is confined to the scan and re-plans to the end of the right run
  * `forward_pause_arms_past_the_end`: and C09 are false of the code in the other direction too: the first run is paused at a step of the second and resumed; the block ends Armed with nothing left to do, and pausing it then seeks past the end of the scan.
* C09 Every step of the scan is commanded
  * `rewind_loses_steps`: is false of the code in general: two runs of 5 steps; the second is paused at step 2 (of the first) and resumed. The block goes to Finished with steps 5..9 not done again: the windows run since the seek end at step 5, not 10.
  * `forward_pause_arms_past_the_end`: and C09 are false of the code in the other direction too: the first run is paused at a step of the second and resumed; the block ends Armed with nothing left to do, and pausing it then seeks past the end of the scan.
* C11 Replaying deltas reproduces the block
  * `second_subscriber_sees_stale_table`: The disagreement with C11 (and C14): a Delta subscriber that joins another one after one column was replaced starts from the old table and never gets the new column; without the other one it would have had it.
  * `below_a_dict_is_never_seen`: The disagreement with C11 below a dict-valued field: the subscriber is given None.
* C12 Update subscriptions always show the current value
  * `table_update_is_stale`: The disagreement with C12: the Update sent after one column is replaced carries the old table.
* C13 Changes inside a squash are delivered as one message
  * `empty_squash_notifies_block_subscribers`: The disagreement with C13: leaving a squash in which nothing changed sends a (redundant) message to subscribers to the whole block.
* C14 Unsubscribe is exact
  * `second_subscriber_sees_stale_table`: The disagreement with C11 (and C14): a Delta subscriber that joins another one after one column was replaced starts from the old table and never gets the new column; without the other one it would have had it.
* C15 One terminal response per request
  * `unknown_request_unanswered`: What the code does not do: a request of an unknown class makes the thread raise and is never answered.
  * `put_function_raises`: if the user function raises, the answer is an Error with that exception (for a Post: unless the arguments it was given cannot be logged, when it is an Error all the same).
* C16 Put validates before it acts
  * `put_ignores_rest_of_path`: What the code does not do: the rest of the path is not looked at, so a Put to any endpoint of an attribute, or of something below it that does not exist, is a Put of its value.
* C17 Method parameters are validated, defaulted and complete
  * `published_default_not_filled`: A default published in the MethodMeta is not filled in by the request: the method above has one for `b`, a Post without `b` does not pass it. (The Python function's own default applies.)
  * `post_error_after_success`: A method whose result cannot be logged is answered by an Error although it ran.
* C18 Futures resolve once and to their own response
  * `nested_wait_hides_error`: Disagreement with C18: a callback that waits can take the Error of a future that an outer wait is waiting for; the outer wait then returns as if nothing had failed.
  * `nested_wait_hangs`: Disagreement with C18: after a callback that waited, the futures that are done are removed from a list while it is iterated over, so of two neighbours one stays, and the wait goes on although both are done.
  * `repeated_future_hangs`: Disagreement with C18: waiting for the same future twice does not end when it is done.
  * `stray_response_raises`: Disagreement with C18: a response for a future that is done already raises KeyError in whichever wait takes it.
* C22 Block fields are unique, well named and in registration order
  * `trailing_newline_accepted`: Disagreement with C22: a name with a newline at its end is accepted.
  * `meta_field_breaks_setup`: Disagreement with C22: the registry accepts a field called `meta`, and then the block cannot be set up.
  * `refused_part_leaves_fields`: Disagreement with C22 for parts as a whole: a part that is refused because of its second field leaves its first field behind in the registry, and the block gets it.
* C23 A process runs each controller once
  * `failed_add_not_started`: A failing `add_controllers` leaves the controllers before the failing one in the process, but they are never started.
  * `added_while_stopping`: A controller added while the process is stopping is started, and then dropped without its stop hook being run.
  * `cyclic_children_not_published`: Two blocks that are children of each other are not published, whatever they say.
* C24 Validated attribute values are canonical
  * `none_is_accepted`: Every meta has a default: `None` is accepted (a table needs at least one column).
  * `no_choices_not_canonical`: A meta with no choices turns `None` into the empty string, which it then rejects.
  * `number_meta_accepts_list`: A number meta given a list hands back a numpy array, not a number.
  * `number_array_of_bare_value`: If annotypes wraps bare values then a number array meta given one stores it without a cast.
  * `bool_of_string`: A string given to a boolean is false exactly if it is empty or one of the ways of writing "no": 0, False, false, FALSE, No, no, NO.
* C25 Tables convert between rows and columns without loss
  * `long_row_is_cut`: What the code does not do: a row with too many cells loses them without an error.
  * `empty_table_rejects_all`: A table meta with no columns rejects every value, the default included.
* C26 Port tags survive encoding
  * `colon_rejected`: Every value with a colon on its first line makes the reader raise, so a block with a colon in its name cannot be the source of a port
  * `line_end_cuts`: A value is cut at its first line end
  * `sink_hides_source`: With a sink port tag in the list that is read instead of the new tag
* C27 A saved design restores the block
  * `hidden_own_fails`: A config attribute of a part that is hidden is saved, and then the design cannot be loaded, not even into the block as it was saved
  * `same_source_lost`: A field that is exported twice is exported once after a save and a load
  * `lost_export_fails`: A field that was exported and cannot be exported any more: nothing is loaded
  * `json_name_overwrites`: Saving a design whose name contains ".json" can overwrite another design
* C28 The modified flag is truthful
  * `stale_message`: A setting is changed, the design is saved, and another setting is changed and changed back. Every setting, the layout and the exports are as saved, and the manager says it is modified: the message of the first setting is told again, as a part keeps its messages when it is saved.
  * `loaded_table`: A design with a table is loaded, the table is changed and changed back. Everything is as the design says, and the manager says it is modified: a table is never equal to what is read for it from the file.
  * `change_while_saving`: A setting is changed after a part has given what is saved and before the save is over: the manager says it is not modified, and the setting is not as saved.
* C29 Exports are exactly the export table
  * `own_field_lost`: A row may take the name of a field of the block itself. The field is replaced, and when the row is taken away it is gone for ever
  * `same_name_stuck`: Two rows of one name: the put succeeds with one field for both, and no later table is shown
  * `same_name_stuck_for_ever`: After two rows of one name no put to exports ever succeeds again, whatever its table, and nothing is shown but the fields of the block itself
  * `meta_stuck`: A row called "meta" is accepted as a name, but cannot be a field; the fields after it are lost and no later table is shown
  * `blank_rejected`: A put with a row without a name is rejected, although a design with that row loads and shows the field under its own name
  * `export_too_early`: A design that exports a field that its child only gets while the design loads does not load
* C30 Hiding a child cuts its wires and nothing else
  * `hidden_wire_kept`: A part that is visible from the start, neither wired nor named by the first layout, and wired later: hiding it leaves the wire
  * `empty_name_cuts`: A row without a name that is shown and then hidden cuts all wires, although nothing is hidden
* C31 Trajectory times round without drift
  * `chunks_drift`: The negation of the full property: two full chunks of any length, the first point of each taking 1.4 ticks and the others one, end 0.8 ticks early.
* C34 Scan points are visited once each in batches
  * `big_step_stalls`: The defect: a step that makes more points than are written twice (a point of several hours is split into moves of at most 4 s) leaves more points than the controller may be ahead, so no update ever loads the next ones: the controller stops with steps left.
* C36 The sequencer emits one trigger per scan step
  * `long_row_loops`: A scan of 4096 equal steps with no motion makes a live pulse that is repeated for ever
* C37 Double buffering neither loses nor reorders rows
  * `multiple_loops`: Adding a multiple of 4096 pulses appends a row that the sequencer repeats for ever
  * `loop_in_the_middle_fails`: and the cutting of the tables fails when such a row is the 4096th of more
  * `short_pulse_negative`: A pulse with a second phase shorter than the switch gets a negative time, which does not fit
* C38 PandA tables survive packing into words
  * `top_word_missing`: Not every layout can be written: if the highest bit of the fields is the first of a word, no room is made for that word, and every row raises IndexError, whatever its values.
  * `shifted_out`: An unsigned column of 8 bits or less that lies above the first 8 bits of its word is written as zero, whatever its value: it is shifted out of its uint8 array.
  * `sign_lost`: A negative value of a signed field that is narrower than its integer type is read back as another one
* C39 PandA replies go to the request that caused them
  * `failed_send_slips`: A request that could not be sent still waits in line: the reply to the next one is delivered to it, and so on for ever
  * `cut_character_ends`: A piece that ends within a character ends the loop: the reply is never delivered, although all of it comes in. Here the reply is a micro sign, in two pieces.
  * `stray_reply_ends`: A reply that nobody waits for ends the loop, and so does a line that does not belong to a reply of several lines: nothing is delivered from then on.
* C41 Scaled position equals raw*scale+offset
  * `written_scale_stale`: the negation of the full statement: when a user writes a scale, the value in the table stays as it was, until the PandA reports something for that position.
* C42 Web requests keep clients apart
  * `unsubscribed_id_rejected`: The id of a subscription that has ended stays taken: a client that has unsubscribed cannot subscribe again with the same id, although the controller has forgotten it.
  * `failed_id_rejected`: So does the id of a subscription to a block that does not exist, once it exists.
  * `unsubscribe_overtakes`: An Unsubscribe handled before the Subscribe that it ends: the client is told of an error, and gets updates for ever.
* C43 A proxy mirrors the remote block
  * `added_field_missing`: The other fields of C43: one added later never appears in the proxy, and what is changed along with it is lost
  * `removed_field_stays`: One removed stays
  * `column_lost`: A table of which one column is replaced keeps the old one, and what comes after it in the same message is lost: alarm and time of the table
* C44 Exposure and readout fit the step
  * `min_exposure_can_exceed`: What is missing from `exposure_fits_partial`: where the minimum exposure does not fit it is used all the same.
* C47 Scan runner counters add up
  * `counters_differ_for_a_moment`: A client can see counters that do not add up: the outcome is counted before the completion.
  * `attempt_not_counted`: A scan whose line in the report cannot be written is not counted, and the run ends.
  * `goes_on_after_abort`: A scan that was aborted is counted as failed and does not stop the runner: the others are run, although it was `abort` of the runner that aborted it.
  * `same_name_lost`: Of two entries with the same name the first is not run.
* C48 YAML substitution is exact
  * `substituted_again`: A value with a reference is substituted again, or not, depending on the order of the names.
  * `name_from_substitution`: A name can be put together by a substitution.
  * `default_not_substituted`: The default of a parameter is substituted when the defines are made, but then replaced by the one without substitutions, so that a reference to the parameter leaves a reference in the text.
* C49 Frames are shared exactly between writer files
  * `shapes_too_large`: The negation of the full property: 30 frames in blocks of 10 to two files are expected as 25 and 15, not 20 and 10.
  * `one_raw_dataset_too_many`: The number of raw datasets told of is one more than that of the links made, which are the numbers 1 to the number of files.
* C50 Driver version check is an order
  * `patch_ignored`: The negation of the full property: driver 3.10.1 is accepted where 3.10.2 is required.
* C51 Detector table validation makes frames fit
  * `min_exposure_accepted`: What is missing from `untweaked_row_fits_partial`: a row with the detector's minimum exposure is accepted although it is longer than the step.
  * `zero_duration_multiplies_scan`: With a step duration of zero and several frames per step, validation asks for the generator that was multiplied out for the detector to become the generator of the whole scan, which has twice as many steps as asked for.
* C52 Pulse triggers fit in the step
  * `negative_width`: What is missing from `pulses_fit_partial`: for a detector without an exposure, in slots of less than a microsecond, the width put to the PandA is negative.
* C53 Turnarounds match the velocities of the points around them
  * `turnaround_wrong_velocity`: The defect: a point that is left at velocity 2, followed by one that is entered at velocity 2: the turnaround is made to start and end at velocity 0.
* C54 A guessed duration is long enough
  * `guess_backwards`: The defect: a scan whose first two points are 5 units backwards on an axis of maximum velocity 1 is given one microsecond.
* C55 Turnaround positions follow the velocity profiles
  * `close_times_fail`: The defect: two profiles that end a billionth of a second apart, as floating point sums may, make the function look for a point that the axes do not have.
* C56 Each dead pulse covers the turnaround it precedes
  * `stale_turnaround`: In a longer scan the turnaround before the first scan row that starts in a later batch is taken from the last point of the batch before, although that point is in the middle of a scan row
* C60 Captured bits
  * `left_out_bit_lost`: the negation of the full statement: a table that leaves out a bit that is captured makes the PandA stop capturing the field, while the table goes on to show the bit as captured.
  * `other_row_fails`: a row with a name that is not a bit is ignored if nothing else changes, but makes the write fail if something does.
* C62 A web client's requests get their own replies
  * `sent_while_disconnected`: the negation of the full statement: a put or a post that is sent after a connection was lost, when that has been reported, is never answered. The caller waits for ever, as `send_put` and `send_post` wait without a time limit
  * `not_encoded`: neither is one that cannot be encoded, although the connection is there
  * `disable_overtakes_fault`: a client that is disabled just after its connection was lost is Disabled when that is to be reported, which then raises, so that requests that were sent are never answered
  * `stale_token_hides_fault`: a connection that is lost unexpectedly leaves an item in the queue that tells `reset` of a connection and `disable` of its end. So after a reset, `disable` does not wait for the end, which then cannot be reported: requests are never answered
  * `late_connection_faults`: a client that gave up waiting for its connection is in Fault; when the connection is made and then lost this cannot be reported, as there is no transition from Fault to Fault
* C63 A web client that is Ready is connected
  * `reset_is_not_enough`: the negation of the full statement: a client that is reset after it lost its connection goes on at once, because of the item that was left in the queue, before there is a connection. It is Ready; its request for the list of remote blocks is not written; and when the connection is there, nothing asks for it again
* C64 Datasets announced by an HDF writer are the ones written
  * `set_points_elsewhere`: The negation of the full C64: on Windows, with the demand positions in a file of their own, the part writes that file itself, under the name that the Windows machine has for it. The file that it announces is written by nobody.
  * `axes_misfit`: The `axes` of the group of a dataset that is not the frames has an entry for each index of the frames, although the dataset has, as it is announced, the indexes of the scan only.
  * `same_name_twice`: Two parts that want a dataset of the same name make a layout that has two groups of one name
* C65 File paths for Windows servers
  * `replaced_again`: The negation of the full C65: `/dls/i18/dls` is made into `X:\i18X:`.
* C66 An attribute on a PV shows its PV
  * `severity_sticks`: A PV was in alarm for one update: the table stays in alarm although no PV is.
  * `gone_unseen`: A PV disconnects: nothing is shown of it, and the updates of the other column are not shown any more.
* C67 Updates from a PV are paced
  * `three_at_once`: The negation of the full C67: three updates in 2 ms with a `min_delta` of 50 ms
  * `four_at_once`: The bound of `paced_partial` cannot be lowered: four updates in 1 ms
* C69 Parts are given the configure parameters they asked for
  * `none_default_not_supplied`: **A parameter with None as its default is not optional after all**: the call without it is accepted, but the part that has it (`k=None`) then fails with an AssertionError instead of being called with None.
  * `conflicting_meta_not_checked`: **Two parts with metas that differ for one parameter: the last one is published**, so the part with the narrower one is given a value that its own meta refuses.
* C70 A scan and its detectors stay in step
  * `seek_misplaces_frames`: Two frames in each of 10 steps. The scan is paused at step 4. The scan goes on with its last 6 steps, but the detector goes on at frame 4, which is the first of step 2, and will take 16 frames: it is paused at the step of the scan (detectorchildpart.py 385), not at the frame.
  * `breakpoints_misplace_frames`: Two frames in each of 10 steps, with a breakpoint after 5 steps: the scan does two runs of 5 steps, the detector runs of 5 frames and 15 frames, because the breakpoints are passed on as they are (detectorchildpart.py 290).
  * `no_axes_refused`: A scan that moves no axes itself can be configured, but not with a detector that takes two frames in each step: the new axis is squashed with the last axis of the scan, which the detector then finds is not among its axes to move.
* C71 A pvAccess client sees the data of the block
  * `removed_field_stays`: The parameter `exposure` of `configure` is withdrawn: the block has it no more, but the clients of the channel are still shown it, because assignment of a structure leaves the fields that it does not mention.
  * `labels_go_stale`: The labels of a table, which pvAccess clients use as headings, do not follow the labels of its columns.
  * `none_becomes_empty`: None in a list comes back as an empty dictionary.
* C73 The block of a PandA block has the attributes of its fields and shows what the PandA says
  * `bad_value_hides_others`: One value that an attribute refuses hides all that comes after it in the report: PULSES stays as it was although the PandA said that it is 3 now
  * `late_put_hides_report`: The answer to a put that arrives after a newer report hides it: the PandA has 6, the attribute shows 5
  * `put_leaves_icon`: A put is shown at once, but the icon and the link stay until the next report
  * `help_field_unmade`: A field with the name of one of the attributes of all blocks: the block, and with it the PandA, cannot be made
* C74 A PandA that is Ready is polled, one that is Disabled is left alone
  * `ready_not_polled`: A PandA that lost its connection and was reset is Ready, and is not polled: not now, nor after any number of resets
  * `some_blocks_never_made`: If one block of a PandA could not be made when the process started, the PandA can be reset, is Ready and is polled, but those of its blocks that come after are missing, and no call brings them back
  * `reset_leaves_out_layout`: If a PandA could not be reached when the process started, it can be reset when it can: it is then Ready, has its blocks and is polled. But what `init` has left to do (the parts find their blocks, the first layout or the initial design) is not done by then or by any later call, as only the start of the process calls `init`.
* C75 The motion controller gets exactly the trajectory of the scan, and the steps reported are those it has completed
  * `long_run_up_refused`: The code does not keep C75 for every scan: a run-up longer than 4 s is refused at configure, because the first point of a profile cannot be split.
* C76 The local copy of a remote block over pvAccess shows the remote block
  * `parameter_change_stops_proxy`: The description of a parameter of a method changes. The parameters are in a dictionary, which has no `apply_change`: the callback raises, and whatever the remote block does after that is not shown.
  * `order_matters`: The choices and the value change together, to a new choice. Whether the proxy survives depends on the order in which a set is gone through.
  * `health_meta_not_copied`: The label of the health is not copied when the client connects.
* C77 A scan's motors reach the first point at speed, come to rest after the last, and stay within their soft limits
  * `slower_at_the_start`: Two axes, of which the second needs 1 s to get up to speed and the first 1/10 s: the first comes to the first point with a tenth of its speed.
  * `middle_not_checked`: A scan of three points whose second is far outside of the limits: it is moved to its start, and it has a tail-off.
  * `tail_off_checked_late`: A scan that is too long for one write is configured, and then run, although its tail-off will be refused.
* C78 Validation makes durations fit the servo cycle
  * `aligned_shorter`: 399 microseconds are aligned to 398.
  * `settling_refused`: A scan without a duration, with an exposure of 299 microseconds and a readout time of 100: the detector asks for just over 399 microseconds, the motors align that to 398, and then the detector refuses. With an exposure of 300 microseconds the scan is accepted.
* C79 What is captured with the frames is announced, defined and stored under its name
  * `same_dataset_twice`: Two values that were given the same name are both announced, and the layout has two groups of that name
  * `bad_name_announced`: A name that is refused for a value is not for a minimum and a maximum
* C81 A motor shows the coordinate system it is assigned to, and a put assigns it
  * `named_zero_refused`: Where the first port has a name (ANYTHING in the tests of the repository), a motor that is not assigned and was in axis A before: the reconnect ends with an exception, no monitor is set up, and what is shown is not that it is not assigned
  * `named_zero_shown`: and after a put of nothing the old assignment is still shown
  * `unassigned_invalid`: A put of nothing sends an empty axis: where that is read back, a motor that is not assigned is shown with an invalid alarm
  * `compound_zero`: but number 0, which no axis has, is shown as Z
* C82 The axes of a coordinated move start together
  * `late_axis`: An axis whose attribute shows the demand already, because it was the last demand, though its motor may have been moved since: it is not waited for, and starts on its own after the others
  * `split_by_other`: Two calls at a time: the axes of the one are started by the other before all of them have arrived
  * `left_deferred`: A call that fails while it waits leaves moves deferred: nothing that is put to the axes after it moves them ...
  * `stale_started`: and the next call starts the axes of the one that failed too
  * `port_of_other`: so that the port of coordinate system 12 is taken for number 2
* C83 The beam selector gives each detector its time
  * `resumed_wrong`: A scan of two cycles that is resumed after the first begins with the second half of a cycle: the points that were done are counted as cycles
* C84 What a scan says is completed is in its file
  * `frame_lost`: is false of the code if another part is the first to report: the motion has done the first point, the detector has not. The scan is paused there, at one completed step, and goes on with the second point: at the end it says that all six points are completed, and the first is not in the file.
  * `ids_reused`: is false of the code if the scan is sent to a later run while it is running: the block is Armed again with its last points to do, and does them again with the ids they have already.
* C85 The axes of a tutorial scan travel through every point
  * `served_late`: is false of the code in general: the two calls for a point run at the same time. If the one for the upper bound gets to the counter first the axis ends at the lower bound, and the point is reported.
  * `paused_move_goes_on`: And a scan that is paused in the middle of a point goes back to the lower bound of the point while the call to its upper bound goes on: the axis is not where the scan is to begin again.
* C86 A detector takes one frame for each step of the scan
  * `xmap_loses_triggers`: is false of an xmap in a scan with two runs: it is told the pixels of the first when the scan is configured, and nothing after it. The triggers of the second run are lost, and its wait for the frames does not end.
  * `stopped_loses_triggers`: And of the detectors that are stopped after each run, which are not started again: the second run takes no frames, and the scan is finished all the same as far as this part is concerned.
* C87 The frames of a detector fit in their time
  * `andor_too_short`: is false of an Andor in general: a duration shorter than the readout is accepted, and then the acquire period is longer than the duration.
  * `andor_exposure_cut`: An exposure that was validated is not always the one that is used: the validation knows less of the readout.
  * `andor_exposure_changes`: The exposure that was asked for is only that of the first run: the later runs, set up again, have the longest exposure.
  * `reframe_validated_refused`: is false of start triggers in general: a duration with room for one sample is validated, but configuring fails.
* C88 The status block of an IOC tells the truth
  * `down_but_ok`: The IOC went down; when procServ then says how it is, the health is that of the last version: "OK"
  * `procserv_gone`: procServ went, and then the IOC: the health is still that procServ is there
  * `stale_table`: A directory whose RELEASE file defines nothing, and has only comments: the dependencies of the directory before are shown, and there is no alarm
  * `comment_kept`: A comment that doesn't start its line is taken as part of the path, or as a name
* C89 A shutter is open only while a scan runs
  * `open_between_runs`: Between the runs of a scan with several runs the block is Armed and the shutter is open
  * `open_in_fault`: A part fails in a run: the block is in Fault and the shutter is open
  * `open_when_disabled`: The block is disabled in a run: the shutter is open
  * `open_from_the_start`: A shutter that was open when the block was started is open in Ready
* C90 Waiting for a value ends when the value is there
  * `bad_value_raised_elsewhere`: Disagreement with C90: a bad value delivered while the thread waits for something else raises the exception there; the future of the When then ends normally, and a wait for it returns although the value was never the wanted one.
  * `wanted_value_not_noticed`: Disagreement with C90: if the wanted value is delivered when the controller has gone then the Unsubscribe is not sent, so nothing will answer it, and the call goes on waiting.
* C91 A block view reaches every field and calls methods as Python does
  * `typeid_field`: Disagreement with C91: a field called `typeid`, a name that parts may use, and there is no view of the block.
  * `async_field`: Disagreement with C91: a block (of another server, say) with a method and a field that has the name of its `_async` function cannot be viewed.
  * `late_field_hidden`: Disagreement with C91: a field added later is hidden by a function of the view.
  * `missing_item_returned`: Disagreement with C91: indexing the view of an attribute with a name it does not have gives an object instead of raising.
  * `surplus_arguments_dropped`: Disagreement with C91: arguments beyond those the method takes are left out, and the call goes ahead.
  * `part_put_before_error`: Disagreement with C91: a name that is no field is found only when its turn comes: the values before it have been put, and the error is KeyError and not the assertion.
* C92 Whoever waits for a spawned function gets its result, and stop waits for all
  * `second_waiter_stuck`: Disagreement with C92: two threads wait, the function ends and one of them is woken; whatever happens afterwards the other one goes on waiting until its time is up, for ever if it gave none.
  * `running_after_stop`: Disagreement with C92, for every count at which the list is cleared (it is 1000): that many functions have been spawned and have finished when the process is stopped; a function that is spawned while it stops (a handler of a request, say) spawns another one. `stop` returns with that one running.
  * `no_stop_after_timeout`: Disagreement with C92: when `stop` has timed out the process can never be stopped or started again, even when the function has finished.
* C93 An accepted scan moves only what may move together, is unrolled, and validation settles
  * `unrolling_changes_runs_axisless`: fails with breakpoints for a generator with a dimension that has no axes: what is counted twice before is counted once after.
  * `superset_squashed_again`: a generator that already squashes more than the axes to be moved into one dimension is squashed a second time.
  * `double_trigger_needs_detectors`: a block with a DoubleTriggerPart refuses every scan for which no table of detectors is given, whatever else is asked for.
* C94 The file of an Xspress detector leads to every channel
  * `unequal_channels_refused`: fails where there are more channels than writers and they can not be shared equally: `configure` fails.
  * `few_channels_shifted`: fails where there are fewer channels than writers: every channel leads to the file of the writer after the one that writes it.
  * `nine_writers_refused`: fails for more than eight writers.
  * `uniqueid_never_there`: fails for the unique ids: the dataset that is said to hold them is never made.
  * `more_pairs_than_writers`: fails where there are more pairs than writers: the ids of the rest are announced, but not there.
  * `images_of_frames_not_written`: fails for the images where the frames do not fill all blocks of all files but one less than a file each: vdsgen is told of more frames than are written.
  * `progress_past_the_end`: fails for the progress where there are several pairs: at the end of the scan the part reports more steps than the scan has.
  * `pause_refused`: fails for a rewind: `pause` always fails.
* C95 The files for working out where compound motors were lead to the right data
  * `first_position_refused`: A raw motor whose position is the first in the table of the PandA is refused, whatever is captured of it.
  * `announced_not_there`: If the PandA announces no least for a raw motor, least and greatest of the compound motor are announced but not made.
  * `other_coordinate_system`: The part keeps the coordinate system of its first scan: a scan of a motor in another one gets the raw motors of the first.
  * `dotted_name`: A name with a dot: data of "j1.b" is linked as data of "j1".
  * `default_suffix`: The block the default suffix leads to has two colons in its name.
  * `status_suffix_unused`: The suffix of the block with the status is not used.
* C96 Each HTTP request gets one reply, its own
  * `slash_not_reached`: A field whose name has a slash in it cannot be asked for.
  * `stopped_never_replied`: A request that has come in when the process is stopped is never replied to: the client waits for ever.
* C97 A PandA triggers a scan only if it is wired for it, and then with the right wires and numbers
  * `enabled_after_crash`: After a crash in the middle of a scan the sequencers are still enabled: the tables of the next one are written while they are, and nothing has reset them when its run begins.
  * `enabled_without_reset`: If there is no method exported as `seqReset`, an abort leaves the sequencers enabled, and the next scan is configured while they are.
  * `crossed_exports_accepted`: Nothing checks which fields the exports come from: with width and delay the wrong way round the scan is accepted and the pulse is as long as its delay should be.
* C98 What a PandA says is what Malcolm takes it to be, and what Malcolm sets is what the PandA is told
  * `label_gives_command`: A label with a line end in it makes the PandA do what the second line says.
  * `replies_shifted`: It gets two replies for it, so that the one to the second line goes to the next request, and so on from then on.
* C99 An exported field is the field of the child
  * `readonly_shown_writeable`: Disagreement with C99: a field that can only be read is shown as one that can be written once it is exported.
  * `column_not_shown`: Disagreement with C99: a table of which one column is changed raises in the child, and the exported table keeps the old column.
  * `replaced_not_shown`: Disagreement with C99: if the child makes its field anew, as a manager does with all its fields whenever its exports or layout change, that raises in the child, and the old value is shown.
  * `tags_and_label_come_back`: Disagreement with C99: when the child changes its tags or its label, the exported field takes them as they are: it is saved in designs again, and has the label of the child.
  * `parameters_refused`: Disagreement with C99: an exported method cannot be called with parameters, whatever they are.
  * `result_lost`: Disagreement with C99: what the method returns is lost.
* C100 A part knows its child as it is
  * `gone_for_good`: 0, what is wrong: a field that was watched and has gone once is never watched again, whether it comes back or not; and if it was saved, the child is modified in it from then on, whatever its value, and the message says that it is `None`.
  * `back_not_known`: 0 fails: an input of the child goes and comes back, as one that is exported by a child that is a manager can. It is not reported as a port again, and changes of it are not told.
  * `port_stays`: 0 fails: a field that was an output and is a plain field of the same name now is still reported as an output.
  * `replaced_not_looked_at`: 0 fails: a setting of the same name as one that was replaced in the same change is not looked at again: this one was an input and is not one any more.
* C101 A run of a writer ends when its frames are written, and not otherwise
  * `later_run_hurried`: 1 does not hold of the frames before the first of a later run: the first run waits for its first frame for as long as it takes, but a later one after a seek is said to have stalled when that takes longer than the time allowed.
  * `overshoot_stalls`: 1 does not hold of a number of frames that is passed without being told: all frames are captured, and more, yet the run is said to have stalled.
  * `long_frames_stall`: 1 does not hold of long frames in a scan whose points do not all take the same time: the time allowed is 120 s whatever the points take.
  * `flush_holds_up`: 1 does not hold if the plugin is slow to flush: the run is not over until the flush is, though all frames are captured.
* C102 The motion controller takes part in a scan exactly if it is needed, in one coordinate system
  * `other_block_first`: 2 does not hold of a layout that has another block before the motors: triggers without axes cannot be given, though there is a motor in a coordinate system.
  * `validated_not_configured`: 2 does not hold of validation: a scan of axes that are in different coordinate systems is validated, with no word said, and refused when it is configured.
* C103 The file of an Odin detector has everything announced, and leads to the files its writers write
  * `one_writer_too_many`: 3 does not hold of the raw datasets: those of one writer more than there are are announced, and are not in the file.
  * `other_secondary_not_there`: 3 does not hold of a part with another secondary dataset than the sum: it is announced, and is not in the file.
  * `uid_links_fixed`: 3 does not hold of a part with another name for the unique ids: the raw unique ids are still looked for under "/uid".
  * `directory_twice`: 3 does not hold of a template with a directory in it: the frames are looked for in a directory of that name in it.
  * `dotted_formats_share`: 3 does not hold of formats with a "." in them and a template without: the frames of both go to the same file.
  * `pause_refused`: 3 does not hold of a scan that is to be paused or to go back: it always fails.
* C104 A YAML file makes exactly the blocks and parts it describes, children first
  * `broken_not_told`: 4 does not hold of a file that is not as it has to be: the exception has no line of it, nor of the section that refers to it.
  * `duplicate_part_not_told`: 4 does not hold of two parts of the same name: of the lines of these parts none is told.
  * `duplicate_mri_not_told`: 4 does not hold of two blocks of the same mri: no line is told.
* C105 The datasets a scan lists are those its detectors will write
  * `same_file`: but the Odin and Xspress writers replace `%s` in the template wherever it is, and do not mind if it is not there (odinwriterpart.py 374, xspresswriterpart.py 383): two such detectors then have the same file.
* C106 The block of the process monitors the IOCs it is told to, and starts and stops with the process
  * `other_beamline`: Finding: an IOC of another beamline whose name ends the same way is taken for one of this beamline, under a name that does not exist.
  * `two_spaces`: Finding: a list with two spaces in a row has an IOC without a name in it.
  * `other_area`: Finding: a file in another directory whose name begins like the work area is told to be in it.
  * `not_halted`: Finding: the function that stops the IOC takes the place of the one that halts the block, so when the process stops the block stays Ready and its parts are not halted.
  * `ready_without_ioc`: Finding: when the softIoc cannot be started the block is left Disabled, not in Fault; and after a reset() it is Ready without IOC and without status blocks.
  * `listed_twice`: Finding: when an IOC is listed twice the block does not get Ready, and the status block of those before it are there but were never started.
* C107 A method called over pvAccess is called once with what was given, and its outcome comes back
  * `result_lost`: A result that cannot be sent is an error, although the method was called.
  * `greeting_packed`: The same call gives the value where the block is, but a map where it is a copy, and a map of a map at the next copy.
  * `list_lost`: A call that went well where the block is gives an error where it is a copy, as a list of numbers cannot be sent.
  * `other_method`: A call sent to the channel of one method calls another, if its URI says so.
* C108 imalcolm gives a prompt with what was asked for or exits, and starting and stopping end in time
  * `start_not_timed`: Starting with a timeout of ten seconds takes ten minutes, or never ends
  * `stop_not_timed`: 
  * `dotted_name`: With two dots, what is before the first is lost; without a dot, there is no process
  * `does_not_quit`: What is spawned takes longer to end: the program stays
  * `slow_hangs`: A minute to load and six seconds to start: no prompt, and the program stays
* C109 Web clients are told of every change once and in order, and telling them does not hold anybody up for ever
  * `overtaken`: Against the property: with two subscriptions of a client and two threads, the second is told of a change after the one that followed it, and is left with what is not so any more
  * `not_sent`: Against the property: a response that cannot be made into JSON is not sent, and nor is anything in its place; the one who hands over the tenth is held up for ever
* C110 Calls of a block that overlap do not undo each other
  * `disabled_but_busy`: Disabled while the parts are still being reset
  * `ready_but_busy`: Ready while the parts are still being reset: the first reset() makes the block Ready when the second has only begun, which then raises and leaves the block in Fault although everything worked
  * `disable_raises`: disable() raises and leaves the block in Fault, as a reset() that was under way ends before it
  * `halt_faults`: When the process stops while disable() is under way, the block is left in Fault
  * `polled_while_disabled`: A PandA whose manager is Disabled is connected to and polled, and all calls have ended, after a disable() during a reset()
* C111 A run() that was stopped is told how to go on
  * `second_run_waits`: A run() that is called in Paused gets through. When it is paused too, two calls wait. One abort() lets one of them end, the other waits for ever, in Aborted.
  * `late_fault_waits`: A save() that has failed tells no run to end, as there is none yet. Before it puts the block into Fault, the block is disabled, reset, configured, run and paused. Then the run waits for ever, in Fault.
  * `late_put_waits`: An abort() of a paused run() has taken the block to Aborted but has not yet told the run to end. The block is reset and configured, which makes a new queue, and now the abort tells that one. The abort has returned, the block is Armed, and the run waits for ever.
  * `late_hook_waits`: A run() whose part stops only after abort() has given up waiting for it, and after the block was reset and configured: it waits on the new queue, while the block is Armed. When the next run() is paused and resumed, it is the old one that is resumed: the new one waits for ever, in Running.
* C112 A proxy over a websocket follows the remote block from end to end
  * `overtaken_proxy`: Against the property: two threads change the block at once, and the client has two subscriptions. All has arrived, the connection is there, and the proxy shows what is no longer so.
  * `lost_unseen`: Against the property: the proxy does not show that its connection was lost, nor does it after that show anything new: its health is what the remote block said last, and a client that is reset is Ready although the proxy is dead.
* C113 Saved designs are kept, offered and loaded under their names
  * `crash_loses`: For every design: a process that ends after the first step of a save leaves it empty; what was saved before is lost, and the new is not there
  * `slash_overwrites`: A block can overwrite the designs of another: a slash in the name is not refused
  * `template_overwritten`: Nor is a name that is a path from the root: so a template is overwritten
  * `cut_overwrites`: A name is cut at ".json": a copy kept under such a name takes the place of the design
  * `offered_not_there`: A file with ".json" twice is offered under a name for which there is no file: to load it puts the block in Fault
  * `stray_template`: A file among the templates that is not called as one: every save writes its file, is refused after that and puts the block in Fault
* C114 A wait ends in time, and not before
  * `never_ends`: Disagreement with C114: a wait for at most one tick that goes on for ever: a subscription on the same context is updated while its callback deals with the update before, so that there is always something in the queue, and the time is only looked at when there is nothing.
  * `exception_never_given`: Disagreement with C114: called while the call goes on, `exception` never returns the exception (unless somebody else took the response): if it returns then the call has succeeded.
  * `exception_raises`: Disagreement with C114: the documentation says that `exception` returns the exception of the call; it raises it.
  * `sleep_cut_short`: Disagreement with C114: a callback that raises TimeoutError, for instance from a wait of its own, ends a sleep of any length at once, and nobody is told.
* C115 Subscribers are told everything, in order, whatever the other subscribers do
  * `overtaken`: Disagreement with C115: the callback of the first subscription waits; meanwhile another thread changes the field and tells both; then the second subscription is told of the change before. All is told, and it shows an old value.
  * `nested`: Disagreement with C115: no second thread is needed: a callback that changes the field in which it is told of a change makes every subscription after it show an old value.
  * `after_the_end`: Disagreement with C115: a subscription is told of a change after it was told that it has ended.
  * `starved`: Disagreement with C115: the callback of one subscription raises; the others are never told of the change, and whoever made it gets the exception.
* C116 A scan that is stopped stops its detectors
  * `abort_refused`: A detector that is in Fault, Disabled or Aborted, be it one that takes no part or one that was faulty at the start, keeps abort() from ever ending with the scan Aborted.
  * `runs_on`: A scan that fails goes to Fault and its other detectors run on.
  * `pause_refused`: pause() while a detector is between its run and the end of it puts the scan into Fault.
  * `faulty_spoils_abort`: abort() of a scan with a detector that takes no part and was faulty at the start puts the scan into Fault, however well all else goes.
  * `abort_while_loading`: abort() while a detector loads its design puts the scan into Fault, and the detector is Ready in the end.
  * `disabled_spoils_configure`: A detector that is Disabled and takes no part keeps a scan from being configured, if there is a design for it.
  * `ready_not_reset`: A scan that is Ready with a detector that is Aborted, and cannot be configured then: the reset() did not wait for an abort().
* C117 The blocks of a process get going together
  * `slow_child`: Finding: a child that takes longer to start than its parent waits (10 s) is Ready in the end, but the parent is in Fault, and so are those who wait for it, though nothing has failed: each ought to be Ready.
  * `ready_without_layout`: Finding: after that reset() makes the detector and the scan Ready, but the detector's part for the driver has never seen its child, and no layout has been set.
* C118 disable() and reset() reach everything that is shown beneath a block
  * `deep_fault`: Finding: a driver that has got into Fault by itself, beneath a detector that is Ready, is passed over by the reset() of a scan in Fault, which is Ready afterwards.
  * `disabled_above`: Finding: disable() passes over a child that is Disabled already, whose own children need not be: somebody has reset the driver since. The scan is then Disabled with a driver that is Ready.
  * `shown_later`: Finding: a child that was hidden when the block was disabled and reset, and has been in Fault since before, is not reset when it is shown: the block is Ready, and reset() is refused.
* C119 When a process is stopped every block that was not Disabled has its DisableHooks run and ends Disabled
  * `both_fault`: False as stated: both are Ready and nothing raises of itself, but the child is told to disable by its parent while it halts: both are in Fault at the end.
  * `twice_at_once`: False as stated: with two parents the DisableHooks of a block may be run twice at the same time.
  * `not_disabled`: False as stated: a block one of whose HaltHooks raises is not disabled.
  * `before_child`: A block may be Disabled, its `halt` having returned, while the DisableHooks of its child are still being run.
* C120 The record of a method is that of one call, the last to end, and time stamps tell when
  * `mixed_record`: the record can be of two calls: what the second was given, and what the first gave, at a time before the second came
  * `success_as_error`: a call that succeeds with a result as described is answered with an error, and leaves no record, if the method is described anew while it runs
  * `failure_hidden`: the reason of a failure is lost in the same way
  * `before_1970`: before 1970 the stamp is of a time a second later
* C121 The layout of a PandA is kept on the PandA
  * `hidden_position_lost`: **Where a hidden block is, is lost**: a client hides B at (3, 4), and after the next poll it is at (0, 0).
  * `cleared_not_seen`: **A table that has been cleared is not seen**: the layout goes on showing what the PandA has no longer.
  * `hidden_comes_back`: **A hidden block comes back** at the next start, if `guess` says so, and is then on the PandA too.
  * `foreign_overwritten`: **What others have written is overwritten unseen** by a put before the next poll.
  * `nan_written_forever`: **A position that is not equal to itself**, as NaN is, is written at every poll for ever.
  * `put_lost`: **A put that is lost**: a client's layout has been given to the blocks, and before it has been recorded a poll brings the table, hides what it does not have, and records that; the client's put then finds nothing to record. It returns without an error, and its block is not shown.
* C122 Putting the exports of a block of another Malcolm over pvAccess
  * `reason_never_told`: **Why exports were refused is never told**: whatever happens, no put of exports ends with an error of the server.
  * `refused_but_ok`: **Refused, but reported as put**: once the connection has been lost and come back, the first put of exports that the server refuses ends well at once.
  * `too_early`: **Reported too early**: likewise a put of exports that the server accepts ends before the block has the new fields.
  * `not_waited_for`: **Not waited for**: if the answer of the server is not cut off, the put ends before the block has the new fields, and what the block is made anew for is left over for the next put.
  * `swapped`: **The refusal of one taken for the success of another**: of two puts at the same time the one that was refused takes what the one that was accepted waits for, which then ends with a timeout.
* C123 Disabling and resetting what talks pvAccess
  * `cannot_be_disabled`: **It cannot be disabled**: if the client has never started well, every disable ends in Fault.
  * `reset_not_served`: **Ready, and nobody is served**: the server is disabled and reset, or fails to start and is reset.
  * `restart_not_served`: **Started again, and nobody is served**: the channel of a client was not closed in time when the process stopped.
  * `stale_and_ok`: **Stale, and OK**: the client is disabled, and reset; it says Ready, the health of the copy is OK, the block has changed and the copy has not.
* C124 Preparing a driver that runs all the time, and asking the file server
  * `changed_meanwhile`: **Over, and not continuous**: somebody else puts the mode after the part has.
  * `ended_meanwhile`: **Over, and not acquiring**: the driver came to its end between the two looks at it.
  * `fails_all_the_same`: **Errors are not wanted, and the configure fails**: the check ended with anything but an AssertionError, a timeout for one.
* C125 Resetting a block brings the blocks of its children back
  * `stuck`: **Never Ready again**: a block with a part that puts an attribute before a run, once it has been disabled well, is not Ready after any number of resets, however they go, until somebody resets the child itself.
  * `reset_faults`: Every reset of such a block ends in Fault.
  * `not_reset`: **Ready, and the child in Fault**: a reset of a block with such a part leaves the child as it is.
* C126 Any camelCase name will do for an export
  * `path_breaks`: **An export called `path` breaks the block**, if it is not the first: the put fails, shows the exports that it did not make and no export can be put any more.
  * `notifier_breaks`: **An export called `notifier` breaks the block**, wherever it is.
  * `path_deafens`: **If `path` is the first the exports can be put again, but nobody hears of them**: the block has lost its path, so that what is told does not begin with its name.

## Seeded errors

`seeded/LOG.jsonl` has one line for each wrong program tried: a definition of the model edited the way a bug would change the code, built in a copy. Edits
that no theorem noticed are there with the theorems that were tightened.
