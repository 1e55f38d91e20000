{"id": "C01", "title": "Published states only follow the block's state set", "statement": "Whatever sequence of method calls (reset, disable, configure, run, pause, resume, abort), part failures and part progress reports a runnable block sees, in whatever interleaving, every change of its `state` attribute is an edge of the published RunnableStates table.", "quantifier": "every finite history of calls, internal thread steps and hook outcomes", "why_tests_cant": "Tests drive a handful of call orders; the claim is about every interleaving of a running scan with pause/abort/disable requests and with failures at any hook.", "anchors": ["malcolm/core/stateset.py:StateSet", "malcolm/modules/scanning/util.py:RunnableStates", "malcolm/modules/builtin/controllers/statefulcontroller.py:StatefulController.transition", "malcolm/modules/scanning/controllers/runnablecontroller.py:RunnableController"]}
{"id": "C02", "title": "Fault and disable are always reachable and recoverable", "statement": "From every state in which a block is live (every state except Disabled) a move to Fault and a move to Disabling is allowed; Fault and Disabled can always be left by reset and Disabled is entered only from Disabling; Ready is reachable from every state.", "quantifier": "every state of the Stateful, Manager and Runnable state sets", "why_tests_cant": "A single missing edge strands a beamline block in a state only a process restart clears; tests never visit every state with every error.", "anchors": ["malcolm/modules/builtin/util.py:StatefulStates.create_error_disable_transitions", "malcolm/modules/builtin/util.py:ManagerStates", "malcolm/modules/scanning/util.py:RunnableStates"]}
{"id": "C03", "title": "Fields are writeable exactly in their declared states", "statement": "After any history of state transitions, a field (method or attribute) that declared the states it is writeable in is marked writeable if and only if the current state is one of them; a Put or Post to a field not marked writeable is answered with an Error and its function is not run.", "quantifier": "every field declaration and every transition history", "why_tests_cant": "Needs every (field, state) pair after every path into the state.", "anchors": ["malcolm/modules/builtin/controllers/statefulcontroller.py:StatefulController.set_writeable_in", "malcolm/modules/builtin/controllers/statefulcontroller.py:StatefulController.transition", "malcolm/core/controller.py:Controller.check_field_writeable"]}
{"id": "C04", "title": "Health shows the worst outstanding fault", "statement": "After any history of health reports from parts and state transitions, the `health` attribute is OK if no reporter has an outstanding alarm; otherwise its alarm is one of the outstanding alarms and no outstanding alarm is more severe.", "quantifier": "every history of reports from any number of reporters", "why_tests_cant": "Ordering and clearing of reports from many parts is a history property.", "anchors": ["malcolm/modules/builtin/controllers/basiccontroller.py:BasicController.update_health"]}
{"id": "C05", "title": "Any hook failure lands the block in Fault, an abort lands it in Aborted", "statement": "If any part raises while the block is resetting, saving, loading, configuring, running, pausing, seeking or aborting then the call ends with the block in Fault with the error as message, unless an abort or disable overtook it; no finished call leaves the block in a transitional state.", "quantifier": "every operation, every hook of that operation, every failure point and overtaking request", "why_tests_cant": "Every crash point of every operation.", "anchors": ["malcolm/modules/builtin/controllers/statefulcontroller.py:StatefulController.try_stateful_function", "malcolm/modules/scanning/controllers/runnablecontroller.py:RunnableController.abort", "malcolm/modules/scanning/controllers/runnablecontroller.py:RunnableController.configure", "malcolm/modules/scanning/controllers/runnablecontroller.py:RunnableController.run"]}
{"id": "C06", "title": "Breakpoints partition the scan", "statement": "When configure accepts a breakpoints list, the list of steps per run adds up to the generator size, each run is a positive whole number of the innermost dimensions that are not split, and the runs done are consecutive segments covering every step once.", "quantifier": "every generator shape, axesToMove and breakpoints list", "why_tests_cant": "Arithmetic over all shapes and lists.", "anchors": ["malcolm/modules/scanning/controllers/runnablecontroller.py:RunnableController.get_steps_per_run", "malcolm/modules/scanning/controllers/runnablecontroller.py:RunnableController._get_outer_steps"]}
{"id": "C07", "title": "completedSteps is the slowest part and only moves forward in a run", "statement": "While a scan runs, for any interleaving of progress reports, completedSteps never decreases, only ever moves to the smallest of the parts' latest reports and never lags behind it, and stays within 0..totalSteps if the parts' reports do.", "quantifier": "every interleaving of progress reports from any number of parts", "why_tests_cant": "Interleavings of many reporters.", "anchors": ["malcolm/modules/scanning/controllers/runnablecontroller.py:RunnableController.update_completed_steps"]}
{"id": "C08", "title": "Seeking is confined to the scan and re-plans to the end of the right run", "statement": "When pause(lastGoodStep) is accepted the block resumes from a step in 0..totalSteps, and the steps still to do run exactly up to the end of the breakpoint segment containing that step; a request out of range is brought into range.", "quantifier": "every state, breakpoint partition and requested step", "why_tests_cant": "Boundary cases of rewinding over breakpoint boundaries.", "anchors": ["malcolm/modules/scanning/controllers/runnablecontroller.py:RunnableController.pause", "malcolm/modules/scanning/controllers/runnablecontroller.py:RunnableController.do_pause", "malcolm/modules/scanning/controllers/runnablecontroller.py:RunnableController.get_breakpoint_index"]}
{"id": "C09", "title": "Every step of the scan is commanded", "statement": "For every history of run, pause, seek and resume that ends Finished/Ready, the (completed_steps, steps_to_do) windows given to the parts between the last rewind and the end are contiguous and end at totalSteps: no step is skipped.", "quantifier": "every history of run/pause/seek/resume", "why_tests_cant": "History property over arbitrary pause points.", "anchors": ["malcolm/modules/scanning/controllers/runnablecontroller.py:RunnableController.do_configure", "malcolm/modules/scanning/controllers/runnablecontroller.py:RunnableController.do_run", "malcolm/modules/scanning/controllers/runnablecontroller.py:RunnableController.do_pause"]}
{"id": "C10", "title": "validate returns parameters every part accepts", "statement": "If validate returns parameters then asking every part to validate exactly those parameters produces no tweak; it asks at most a fixed number of times and otherwise raises; parameters nobody tweaks come back as given.", "quantifier": "every set of part tweak functions", "why_tests_cant": "Parts are arbitrary functions; fixpoint reasoning.", "anchors": ["malcolm/modules/scanning/controllers/runnablecontroller.py:RunnableController.validate", "malcolm/modules/scanning/util.py:resolve_generator_tweaks"]}
{"id": "C11", "title": "Replaying deltas reproduces the block", "statement": "For a subscription with delta=true on any path, starting from nothing and applying every received change stanza in order gives exactly the current serialized value at that path, after every flush, whatever changes are made to the block.", "quantifier": "every block tree, subscription path, sequence and grouping of changes", "why_tests_cant": "All histories of nested changes and deletions.", "anchors": ["malcolm/core/notifier.py:NotifierNode.notify_changes", "malcolm/core/notifier.py:NotifierNode.handle_subscribe", "malcolm/core/notifier.py:freeze"]}
{"id": "C12", "title": "Update subscriptions always show the current value", "statement": "For a subscription with delta=false, the last Update received carries the value the path had at the last flush that touched it, and a flush that changes the value always sends one.", "quantifier": "every block tree, subscription path and sequence of changes", "why_tests_cant": "All histories; in particular partial updates of tables.", "anchors": ["malcolm/core/notifier.py:NotifierNode.notify_changes", "malcolm/core/notifier.py:NotifierNode._update_data", "malcolm/core/models.py:NTTable.set_value_alarm_ts"]}
{"id": "C13", "title": "Changes inside a squash are delivered as one message", "statement": "While any changes_squashed context is open nothing is sent; when the outermost closes each affected subscription gets one message containing its changes in the order they were made, and unaffected subscriptions get none.", "quantifier": "every nesting of squash contexts and changes in them", "why_tests_cant": "Arbitrary nesting depth and order.", "anchors": ["malcolm/core/notifier.py:Notifier.changes_squashed", "malcolm/core/notifier.py:Notifier.__enter__", "malcolm/core/notifier.py:Notifier.__exit__"]}
{"id": "C14", "title": "Unsubscribe is exact", "statement": "Unsubscribing a live id sends exactly one Return on it and it never gets another message; other subscriptions receive exactly what they would have received had it never existed; unsubscribing an unknown id gives an Error.", "quantifier": "every set of subscriptions and every later history of changes", "why_tests_cant": "Non-interference over all later histories.", "anchors": ["malcolm/core/notifier.py:Notifier.handle_unsubscribe", "malcolm/core/notifier.py:NotifierNode.handle_unsubscribe"]}
{"id": "C15", "title": "One terminal response per request", "statement": "Every Get, Put, Post request is answered by exactly one Return or Error bearing its id, whether or not the handler raises; a malformed or unknown request gets an Error.", "quantifier": "every request and every handler outcome", "why_tests_cant": "All handler outcomes including exceptions at any point.", "anchors": ["malcolm/core/controller.py:Controller._handle_request", "malcolm/core/controller.py:Controller._handle_get", "malcolm/core/controller.py:Controller._handle_put", "malcolm/core/controller.py:Controller._handle_post"]}
{"id": "C16", "title": "Put validates before it acts", "statement": "A Put reaches the put function of an attribute only if the path names the value of a writeable attribute, and the function is called with the validated value; after a successful Put of an attribute with no special setter the stored value is the validated one.", "quantifier": "every path, value and attribute", "why_tests_cant": "All paths and all values.", "anchors": ["malcolm/core/controller.py:Controller._handle_put", "malcolm/core/models.py:AttributeModel.set_value"]}
{"id": "C17", "title": "Method parameters are validated, defaulted and complete", "statement": "A Post reaches the method only with parameters that each appear in its takes, each validated, each default filled in unless given, and every required one present; otherwise it gets an Error and the method is not called.", "quantifier": "every method signature and every parameter dictionary", "why_tests_cant": "All dictionaries.", "anchors": ["malcolm/core/models.py:MapMeta.validate", "malcolm/core/models.py:MethodMeta", "malcolm/core/controller.py:Controller._handle_post"]}
{"id": "C18", "title": "Futures resolve once and to their own response", "statement": "For every order in which responses arrive, each future of a Context is resolved at most once, by the first Return/Error that bears its id, and wait_all_futures returns only when all of the futures are done and raises if one failed.", "quantifier": "every set of requests and every arrival order of responses, including stray ones", "why_tests_cant": "Arrival orders.", "anchors": ["malcolm/core/context.py:Context._service_futures", "malcolm/core/context.py:Context.wait_all_futures"]}
{"id": "C19", "title": "stop() aborts the waits it should", "statement": "Each stop() makes exactly one wait on the context raise AbortedError (the wait in progress, or else the next one that has to wait) when that wait reaches the stop in the queue of responses, unless ignore_stops_before_now has been called since the stop; a stop made before ignore_stops_before_now aborts nothing, a stop made after it is not lost, and nothing but a stop aborts a wait.", "quantifier": "every interleaving of stop, ignore and responses", "why_tests_cant": "Interleavings.", "anchors": ["malcolm/core/context.py:Context.stop", "malcolm/core/context.py:Context.ignore_stops_before_now", "malcolm/core/context.py:Context._service_futures"]}
{"id": "C20", "title": "unsubscribe_all leaves no subscription behind", "statement": "After unsubscribe_all on a context every subscription that was made through it and has not been ended by its controller has been sent exactly one Unsubscribe, including ones already unsubscribed by the user, and no callback is called afterwards until a new subscription is made.", "quantifier": "every history of subscribe/unsubscribe on a context", "why_tests_cant": "Histories.", "anchors": ["malcolm/core/context.py:Context.unsubscribe_all", "malcolm/core/context.py:Context.unsubscribe"]}
{"id": "C21", "title": "Hooks gather every part's result or its failure", "statement": "Waiting for a set of hooked functions ends only after every one has finished or been stopped; the infos returned are grouped under exactly the part that returned them; the first failure stops the remaining ones and is what the waiter sees.", "quantifier": "every set of parts and every completion order", "why_tests_cant": "Completion orders.", "anchors": ["malcolm/core/hook.py:wait_hooks", "malcolm/core/hook.py:start_hooks", "malcolm/core/hook.py:Hook._run"]}
{"id": "C22", "title": "Block fields are unique, well named and in registration order", "statement": "Every field of every published block has a camelCase name, no two parts define the same field, and a rejected registration leaves the registry as it was.", "quantifier": "every history of part registrations", "why_tests_cant": "Histories.", "anchors": ["malcolm/core/part.py:FieldRegistry", "malcolm/core/camel.py:CAMEL_RE"]}
{"id": "C23", "title": "A process runs each controller once", "statement": "A Process never holds two controllers with one mri; it starts each of them once, in the order added, publishes only blocks whose use allows it, and can be started again only after stopping.", "quantifier": "every history of add, start, stop", "why_tests_cant": "Histories.", "anchors": ["malcolm/core/process.py:Process"]}
{"id": "C24", "title": "Validated attribute values are canonical", "statement": "For every Meta type, validating any accepted value gives a value of the declared type and validating that again changes nothing; a choice value is always one of the declared choices; rejected values raise.", "quantifier": "every meta and every value", "why_tests_cant": "Domains are infinite.", "anchors": ["malcolm/core/models.py:BooleanMeta.validate", "malcolm/core/models.py:ChoiceMeta.validate", "malcolm/core/models.py:NumberMeta.validate", "malcolm/core/models.py:StringMeta.validate", "malcolm/core/models.py:ChoiceArrayMeta.validate"]}
{"id": "C25", "title": "Tables convert between rows and columns without loss", "statement": "Building a table from rows and reading its rows back gives the same rows; a table accepted by its meta has exactly the declared columns, each validated, all the same length.", "quantifier": "every table shape and content", "why_tests_cant": "All shapes.", "anchors": ["malcolm/core/table.py:Table", "malcolm/core/models.py:TableMeta.validate"]}
{"id": "C26", "title": "Port tags survive encoding", "statement": "The port tags written on an attribute are read back as the same direction, port type and connection value; adding a port/config tag leaves the other tags in place; at most one remains after replacement.", "quantifier": "every tag list, port type and connection value", "why_tests_cant": "All strings.", "anchors": ["malcolm/core/tags.py:Port", "malcolm/core/tags.py:get_config_tag", "malcolm/core/tags.py:without_config_tags"]}
{"id": "C27", "title": "A saved design restores the block", "statement": "Saving a design and loading it later restores layout positions and visibility, exports and every saved attribute of every part, so that save after load writes the same design; values not in the design are left alone.", "quantifier": "every set of parts, every layout, exports and settings", "why_tests_cant": "All configurations.", "anchors": ["malcolm/modules/builtin/controllers/managercontroller.py:ManagerController.do_save", "malcolm/modules/builtin/controllers/managercontroller.py:ManagerController.do_load", "malcolm/modules/builtin/parts/childpart.py:ChildPart.on_load", "malcolm/modules/builtin/parts/childpart.py:ChildPart.on_save"]}
{"id": "C28", "title": "The modified flag is truthful", "statement": "After any history of part value changes, layout/export edits, saves and loads the block's `modified` is true exactly if a saved setting of some part, the layout visibility or the exports differ from the saved design.", "quantifier": "every history of edits, saves and loads", "why_tests_cant": "Histories.", "anchors": ["malcolm/modules/builtin/controllers/managercontroller.py:ManagerController.update_modified", "malcolm/modules/builtin/parts/childpart.py:ChildPart.send_modified_info_if_not_equal"]}
{"id": "C29", "title": "Exports are exactly the export table", "statement": "After setting exports, the fields of the block are its own fields plus exactly one per row of the table under the row's export name (or the camelCase default), in order; a row naming a missing part or field is rejected and the table unchanged.", "quantifier": "every parts' field set and every export table", "why_tests_cant": "All tables.", "anchors": ["malcolm/modules/builtin/controllers/managercontroller.py:ManagerController.set_exports", "malcolm/modules/builtin/controllers/managercontroller.py:ManagerController._get_current_part_fields"]}
{"id": "C30", "title": "Hiding a child cuts its wires and nothing else", "statement": "When parts are hidden, every sink port connected to a source port of a hidden part is set to disconnected, sink ports connected to visible parts keep their connections, and visibility of the other parts is unchanged unless asked.", "quantifier": "every wiring and every set of hidden parts", "why_tests_cant": "All wirings.", "anchors": ["malcolm/modules/builtin/parts/childpart.py:ChildPart.sever_sink_ports", "malcolm/modules/builtin/parts/childpart.py:ChildPart.on_layout", "malcolm/modules/builtin/parts/childpart.py:ChildPart.calculate_part_visibility"]}
{"id": "C31", "title": "Trajectory times round without drift", "statement": "The integer tick times written to the motion controller for a trajectory differ from the requested times by at most half a tick in cumulative sum at every point, over every chunk boundary.", "quantifier": "every list of point times and every chunking", "why_tests_cant": "Cumulative error over arbitrarily long trajectories.", "anchors": ["malcolm/modules/pmac/parts/pmacchildpart.py:PmacChildPart.write_profile_points"]}
{"id": "C32", "title": "Trajectory profile arrays stay aligned", "statement": "Whatever points are added, the time, velocity mode, user program, completed step and every axis array of a profile have one entry per point; no point takes longer than the controller limit and the total time is the requested time.", "quantifier": "every sequence of points added", "why_tests_cant": "Unbounded sequences.", "anchors": ["malcolm/modules/pmac/parts/pmacchildpart.py:PmacChildPart.add_profile_point"]}
{"id": "C33", "title": "Sparse trajectories keep the total time", "statement": "Skipping collinear points in a sparse trajectory never changes when a retained point is reached: total time up to each retained point equals the sum of the durations of the scan points up to it.", "quantifier": "every sequence of generator points", "why_tests_cant": "Unbounded sequences.", "anchors": ["malcolm/modules/pmac/parts/pmacchildpart.py:PmacChildPart.add_sparse_point"]}
{"id": "C34", "title": "Scan points are visited once each in batches", "statement": "Producing a trajectory in batches visits every scan point from the start step to the end step exactly once and in order, whatever the batch size.", "quantifier": "every start, end and batch size", "why_tests_cant": "All sizes.", "anchors": ["malcolm/modules/pmac/parts/pmacchildpart.py:PmacChildPart.get_some_points", "malcolm/modules/pmac/parts/pmacchildpart.py:PmacChildPart.calculate_generator_profile", "malcolm/modules/ADPandABlocks/parts/pandaseqtriggerpart.py:SeqTriggers._overlapping_points_range"]}
{"id": "C35", "title": "Axis mapping is one motor per scannable and one port", "statement": "The coordinate system mapping used for a scan contains exactly the requested axes, each mapped to one motor, all of them on one port and no two on one axis number; anything else is rejected.", "quantifier": "every motor table and every set of axes", "why_tests_cant": "All tables.", "anchors": ["malcolm/modules/pmac/util.py:cs_axis_mapping"]}
{"id": "C36", "title": "The sequencer emits one trigger per scan step", "statement": "The sequencer rows generated for steps [a,b) contain in total b-a live triggers, then a final row, whatever the generator and the way it is cut in batches.", "quantifier": "every generator, step range and batch", "why_tests_cant": "Unbounded generators.", "anchors": ["malcolm/modules/ADPandABlocks/parts/pandaseqtriggerpart.py:SeqTriggers.get_rows", "malcolm/modules/ADPandABlocks/parts/pandaseqtriggerpart.py:SeqTriggers._create_immediate_rows", "malcolm/modules/ADPandABlocks/parts/pandaseqtriggerpart.py:SeqTriggers._create_triggered_rows"]}
{"id": "C37", "title": "Double buffering neither loses nor reorders rows", "statement": "Cutting sequencer rows into tables gives tables that fit in the hardware and whose concatenation expands to the same pulses in the same order with the same total duration; the tables are loaded alternately into the inactive sequencer.", "quantifier": "every row stream and every sequencer activity schedule", "why_tests_cant": "Streams and schedules.", "anchors": ["malcolm/modules/ADPandABlocks/doublebuffer.py:SequencerRows", "malcolm/modules/ADPandABlocks/doublebuffer.py:DoubleBuffer"]}
{"id": "C38", "title": "PandA tables survive packing into words", "statement": "Writing a table to the PandA as 32-bit words and reading it back gives the same table for all field layouts and in-range values.", "quantifier": "every field layout and table content", "why_tests_cant": "All layouts.", "anchors": ["malcolm/modules/pandablocks/parts/pandatablepart.py:PandATablePart.list_from_table", "malcolm/modules/pandablocks/parts/pandatablepart.py:PandATablePart.table_from_list"]}
{"id": "C39", "title": "PandA replies go to the request that caused them", "statement": "However the reply byte stream is chunked by the network and however requests from several threads interleave, the n-th complete reply is delivered to the n-th request sent, multi-line replies as one list.", "quantifier": "every chunking, every sequence of replies", "why_tests_cant": "All chunkings.", "anchors": ["malcolm/modules/pandablocks/pandablocksclient.py:PandABlocksClient._recv_loop", "malcolm/modules/pandablocks/pandablocksclient.py:PandABlocksClient._send_loop", "malcolm/modules/pandablocks/pandablocksclient.py:PandABlocksClient._get_lines"]}
{"id": "C40", "title": "Bit outputs never hide a pulse", "statement": "Each reported change of a bit output produces a visible edge by the next poll even when two changes fall within one poll, and once the PandA stops changing the displayed value equals the last reported one after at most one more poll.", "quantifier": "every sequence of polls and reported values", "why_tests_cant": "Histories.", "anchors": ["malcolm/modules/pandablocks/controllers/pandamanagercontroller.py:PandAManagerController.handle_changes", "malcolm/modules/pandablocks/controllers/pandamanagercontroller.py:PandAManagerController._handle_change"]}
{"id": "C41", "title": "Scaled position equals raw*scale+offset", "statement": "In the positions table every row's value always equals the latest raw value times the latest scale plus the latest offset, for any order of change reports.", "quantifier": "every order of change reports", "why_tests_cant": "Histories.", "anchors": ["malcolm/modules/pandablocks/parts/pandabussespart.py:PandABussesPart"]}
{"id": "C42", "title": "Web requests keep clients apart", "statement": "The web server forwards each response to the client connection that made the request with the client's own id; a second subscription with an id in use by that client is rejected.", "quantifier": "every interleaving of clients' messages", "why_tests_cant": "Interleavings.", "anchors": ["malcolm/modules/web/parts/websocketserverpart.py:MalcWebSocketHandler"]}
{"id": "C43", "title": "A proxy mirrors the remote block", "statement": "After any sequence of change messages from the remote server the local proxy block equals the remote block, including fields added and removed.", "quantifier": "every sequence of remote changes", "why_tests_cant": "Histories.", "anchors": ["malcolm/modules/web/controllers/websocketclientcomms.py:WebsocketClientComms._handle_change"]}
{"id": "C44", "title": "Exposure and readout fit the step", "statement": "The exposure calculated for a frame duration never exceeds the duration less readout and accuracy margin, is the requested exposure when that fits, and the minimum duration for an exposure is exactly the inverse.", "quantifier": "every duration, exposure, readout time and accuracy", "why_tests_cant": "Continuum of values.", "anchors": ["malcolm/modules/scanning/infos.py:ExposureDeadtimeInfo"]}
{"id": "C45", "title": "Detector unique ids are never reused and labels stay in step", "statement": "Over every history of configure, run, pause/seek and resume the unique ids the detector produces are never reused within a scan, and the position labels are attached to the same ids the detector gives the frames of those steps.", "quantifier": "every history of scan segments and rewinds", "why_tests_cant": "Histories over two independently coded parts.", "anchors": ["malcolm/modules/ADCore/parts/detectordriverpart.py:DetectorDriverPart.setup_detector", "malcolm/modules/ADCore/parts/positionlabellerpart.py:PositionLabellerPart", "malcolm/modules/ADCore/parts/hdfwriterpart.py:HDFWriterPart.on_seek"]}
{"id": "C46", "title": "Every step's position is labelled once", "statement": "The position XMLs sent to the labeller cover each step from the start to the end of the scan exactly once, in order, with consecutive ids.", "quantifier": "every scan size and chunk size", "why_tests_cant": "All sizes.", "anchors": ["malcolm/modules/ADCore/parts/positionlabellerpart.py:PositionLabellerPart._make_xml", "malcolm/modules/ADCore/parts/positionlabellerpart.py:PositionLabellerPart.load_more_positions"]}
{"id": "C47", "title": "Scan runner counters add up", "statement": "For every list of scans and every outcome, scansCompleted = scansSuccessful + scansFailed and equals the number of scans attempted so far; each scan set is attempted its number of repeats unless aborted.", "quantifier": "every list of scans and outcome of each", "why_tests_cant": "Histories.", "anchors": ["malcolm/modules/scanning/parts/scanrunnerpart.py:ScanRunnerPart"]}
{"id": "C48", "title": "YAML substitution is exact", "statement": "In a YAML block definition every $(name) of a declared parameter is replaced by its value and all other text is left as it is; missing required parameters and unknown ones are rejected.", "quantifier": "every text and parameter set", "why_tests_cant": "All texts.", "anchors": ["malcolm/yamlutil.py:Section", "malcolm/yamlutil.py"]}
{"id": "C49", "title": "Frames are shared exactly between writer files", "statement": "The number of frames expected in each of the Odin writer's files adds up to the number of frames in the scan and follows round-robin block distribution.", "quantifier": "every frame count, block size and file count", "why_tests_cant": "All sizes.", "anchors": ["malcolm/modules/ADOdin/parts/odinwriterpart.py:files_shape"]}
{"id": "C50", "title": "Driver version check is an order", "statement": "A driver is accepted if and only if its major version equals the required one and its minor (then patch) version is at least the required one.", "quantifier": "every version string", "why_tests_cant": "All strings.", "anchors": ["malcolm/modules/ADCore/util.py:check_driver_version"]}
{"id": "C51", "title": "Detector table validation makes frames fit", "statement": "If validation of a detector row returns no tweak then the exposure of framesPerStep frames fits in the generator duration, and a tweaked row when validated again needs no further tweak.", "quantifier": "every row, duration and detector timing", "why_tests_cant": "Continuum.", "anchors": ["malcolm/modules/scanning/parts/detectorchildpart.py:DetectorChildPart.on_validate"]}
{"id": "C52", "title": "Pulse triggers fit in the step", "statement": "The pulse train set on the PandA for a detector has framesPerStep pulses each of the exposure width, centred in its slot unless zero delay is requested, and the whole train fits in the step duration.", "quantifier": "every duration, frames per step and exposure", "why_tests_cant": "Continuum.", "anchors": ["malcolm/modules/ADPandABlocks/parts/pandapulsetriggerpart.py:PandAPulseTriggerPart.on_post_configure"]}
{"id": "C53", "title": "Turnarounds match the velocities of the points around them", "statement": "A turnaround starts with the velocity at which the scan point before it is left and ends with the velocity at which the next one is entered, and no accepted velocity is more than a millionth above the maximum of the motor.", "quantifier": "every pair of scan points, every motor", "why_tests_cant": "All point shapes; tests use straight lines, for which entry and exit velocity are the same.", "anchors": ["malcolm/modules/pmac/util.py:point_velocities", "malcolm/modules/pmac/util.py:profile_between_points"]}
{"id": "C54", "title": "A guessed duration is long enough", "statement": "A duration guessed from the first two points of a scan lets every axis move between them within its maximum velocity.", "quantifier": "every number of axes, distances and velocities", "why_tests_cant": "All distances, with either sign.", "anchors": ["malcolm/modules/pmac/parts/pmacchildpart.py:PmacChildPart.calculate_duration_from_first_two_points"]}
{"id": "C55", "title": "Turnaround positions follow the velocity profiles", "statement": "The positions sent for a turnaround are those of the velocity profile of each axis, whatever the times of the other axes.", "quantifier": "every number of axes, every set of profiles with any interleaving of times", "why_tests_cant": "All interleavings of times.", "anchors": ["malcolm/modules/pmac/parts/pmacchildpart.py:PmacChildPart.calculate_profile_from_velocities"]}
{"id": "C56", "title": "Each dead pulse covers the turnaround it precedes", "statement": "The dead pulse before each row of a scan lasts as long as the turnaround from the scan point just before that row, as far as the axis moves the wrong way.", "quantifier": "every scan, step range and way it is cut in batches", "why_tests_cant": "All ways a scan can fall across batches.", "anchors": ["malcolm/modules/ADPandABlocks/parts/pandaseqtriggerpart.py:SeqTriggers.get_rows", "malcolm/modules/ADPandABlocks/parts/pandaseqtriggerpart.py:SeqTriggers._create_triggered_rows"]}
{"id": "C57", "title": "The sequencer is blind exactly while the axis moves the wrong way", "statement": "The time for which the sequencer ignores the position during a turnaround ends at the last time at which the axis stands still or moves the wrong way; it fails only if the axis is not moving the right way at the end.", "quantifier": "every velocity profile, direction and resolution", "why_tests_cant": "Profiles of any length.", "anchors": ["malcolm/modules/ADPandABlocks/parts/pandaseqtriggerpart.py:SeqTriggers._how_long_moving_wrong_way"]}
{"id": "C58", "title": "Reported changes reach the block of the field", "statement": "Every change of a field that the PandA reports in a poll is passed in that poll, with the last value reported, to the block the field belongs to, and no block is told of anything else.", "quantifier": "every poll: any number of reports in any order, for any fields", "why_tests_cant": "All mixtures of reports, with fields repeated and shared between blocks.", "anchors": ["malcolm/modules/pandablocks/controllers/pandamanagercontroller.py:PandAManagerController.handle_changes", "malcolm/modules/pandablocks/controllers/pandamanagercontroller.py:PandAManagerController._handle_change"]}
{"id": "C59", "title": "Written positions are shown and sent", "statement": "When a user writes the positions table, the rows they list get the settings they ask for and all other rows and all values stay as they are; the PandA is sent the new setting wherever one changed, and nothing but what the new table shows.", "quantifier": "every state the tables can reach, every table written, every answer of the PandA", "why_tests_cant": "All tables and histories.", "anchors": ["malcolm/modules/pandablocks/parts/pandabussespart.py:PandABussesPart.set_positions", "malcolm/modules/pandablocks/parts/pandabussespart.py:get_column_changes"]}
{"id": "C60", "title": "Captured bits", "statement": "When a user writes the bits table, the PandA is told to capture exactly those fields that hold a bit which is captured in the resulting table; a bit is shown as captured, and on, exactly if the PandA last reported so.", "quantifier": "every layout of bits over fields, every history of polls and writes", "why_tests_cant": "All layouts and histories.", "anchors": ["malcolm/modules/pandablocks/parts/pandabussespart.py:PandABussesPart.set_bits", "malcolm/modules/pandablocks/parts/pandabussespart.py:PandABussesPart.handle_changes", "malcolm/modules/pandablocks/parts/pandabussespart.py:PandABussesPart.create_busses"]}
{"id": "C61", "title": "Web clients that may write", "statement": "A web client may put and post exactly if its address is in the network of one of the interfaces that were up when the server started, or if this check is switched off; any put or post of a client that may not is answered by an error and never reaches a block.", "quantifier": "every set of interfaces, every address, every interleaving of messages", "why_tests_cant": "All addresses and interleavings.", "anchors": ["malcolm/modules/web/parts/websocketserverpart.py:MalcWebSocketHandler.on_message", "malcolm/modules/web/parts/websocketserverpart.py:get_ip_validator"]}
{"id": "C62", "title": "A web client's requests get their own replies", "statement": "Whatever the server sends and however connections come and go, each response given to the caller of a put, post or subscription through a web client answers that caller's own request, each request is ended at most once, and a request whose connection is lost before it is answered is ended by an error, so that no caller waits for ever on a connection that is gone.", "quantifier": "every interleaving of requests, messages from the server, connections made and lost, callbacks, and init, reset and disable of the client", "why_tests_cant": "Depends on the order of events in two threads and on when connections are lost.", "anchors": ["malcolm/modules/web/controllers/websocketclientcomms.py:WebsocketClientComms._send_request", "malcolm/modules/web/controllers/websocketclientcomms.py:WebsocketClientComms.on_message", "malcolm/modules/web/controllers/websocketclientcomms.py:WebsocketClientComms._report_fault", "malcolm/modules/web/controllers/websocketclientcomms.py:WebsocketClientComms.recv_loop"]}
{"id": "C63", "title": "A web client that is Ready is connected", "statement": "A web client block that is Ready, with no loss of its connection still to be reported, has a connection to its server and is subscribed on it to the list of remote blocks, also after it was disabled, lost its connection, or was reset.", "quantifier": "every history of a client: connections made, refused and lost, init, reset, disable, requests and messages", "why_tests_cant": "Depends on the order of events in two threads over several connections.", "anchors": ["malcolm/modules/web/controllers/websocketclientcomms.py:WebsocketClientComms._start_client", "malcolm/modules/web/controllers/websocketclientcomms.py:WebsocketClientComms._stop_client", "malcolm/modules/web/controllers/websocketclientcomms.py:WebsocketClientComms._report_fault"]}
{"id": "C64", "title": "Datasets announced by an HDF writer are the ones written", "statement": "After an HDF writer part has configured, each dataset that it announces (frames, statistics, attributes, demand positions) and each dataset of unique ids it names is written at the announced path of the announced file: the layout given to the plugin has it, or the part has written the file itself. The plugin is told the shape of the scan, the demand positions of an axis are as many as the index they belong to is long, links lead to datasets, and the layout has no two things of one name in a group.", "quantifier": "every set of infos reported by the parts, every generator, directory and file template, on Linux and Windows servers, with and without demand positions in the layout", "why_tests_cant": "The announced list and the layout are made by two functions from the same infos; tests compare them for one detector.", "anchors": ["malcolm/modules/ADCore/parts/hdfwriterpart.py:create_dataset_infos", "malcolm/modules/ADCore/parts/hdfwriterpart.py:make_layout_xml", "malcolm/modules/ADCore/parts/hdfwriterpart.py:set_dimensions", "malcolm/modules/ADCore/parts/hdfwriterpart.py:HDFWriterPart.on_configure"]}
{"id": "C65", "title": "File paths for Windows servers", "statement": "For a server that runs on Windows, a path under the configured prefix is given to it with the drive letter, or the network prefix and the path prefix, in the place of the prefix and the rest of the path unchanged but for backslashes; a path elsewhere, one with a colon, or a missing or second translator is refused.", "quantifier": "every path, prefix, drive and network prefix", "why_tests_cant": "Ranges over all strings.", "anchors": ["malcolm/modules/ADCore/infos.py:FilePathTranslatorInfo.translate_filepath"]}
{"id": "C66", "title": "An attribute on a PV shows its PV", "statement": "Whatever the PV does, an attribute on it shows the last value read from it, in the form its meta gives it, with an alarm that says what the last reading said: none, the severity of the PV, or disconnected (keeping the last value). A part whose init or reset succeeded monitors its PV until it is disabled; a disabled one is changed by nothing but puts. A choice is written as its index. A table of waveform PVs shows the last reading of each.", "quantifier": "every history of readings, disconnections, puts, resets and disables", "why_tests_cant": "Depends on the order of updates, disconnections, puts and resets.", "anchors": ["malcolm/modules/ca/util.py:CABase._update_value", "malcolm/modules/ca/util.py:CABase._monitor_callback", "malcolm/modules/ca/util.py:CAAttribute.reconnect", "malcolm/modules/ca/util.py:CAAttribute.caput", "malcolm/modules/ca/util.py:WaveformTableAttribute", "malcolm/modules/ca/parts/cachoicepart.py:CAChoicePart.caput"]}
{"id": "C67", "title": "Updates from a PV are paced", "statement": "However often a PV changes, its attribute is updated by the monitor at most once in each min_delta, and no update is held up for longer than min_delta.", "quantifier": "every sequence of times at which the PV changes", "why_tests_cant": "Ranges over all timings.", "anchors": ["malcolm/modules/ca/util.py:CABase._monitor_callback"]}
{"id": "C68", "title": "A method on a PV succeeds exactly if the good status is seen in time", "statement": "A method that writes a PV and watches a status PV returns if and only if the status PV shows the good status by the deadline, whatever statuses come before; otherwise it raises.", "quantifier": "every sequence of statuses and times", "why_tests_cant": "Ranges over all timings of status updates.", "anchors": ["malcolm/modules/ca/parts/caactionpart.py:CAActionPart.caput", "malcolm/modules/ca/parts/caactionpart.py:CAActionPart.wait_for_good_status"]}
{"id": "C69", "title": "Parts are given the configure parameters they asked for", "statement": "configure takes its own parameters and those of all parts, and requires those that some part requires; a call is accepted only with all required ones, no unknown ones and values the published types accept; each part function is then called with every parameter it asked for, being the accepted value of the client and otherwise the published default, which merges the rows of table defaults of all parts in order and else is that of the last part; only the last report of each part counts.", "quantifier": "every set and order of parts, all their parameters, types and defaults, every sequence of reports and every call", "why_tests_cant": "Ranges over all combinations of parts with overlapping parameters, all report orders and all calls.", "anchors": ["malcolm/modules/scanning/controllers/runnablecontroller.py:update_configure_model", "malcolm/modules/scanning/controllers/runnablecontroller.py:RunnableController.update_configure_params", "malcolm/modules/scanning/controllers/runnablecontroller.py:RunnableController.validate", "malcolm/modules/scanning/hooks.py:ConfigureHook.create_info", "malcolm/core/hook.py:Hook.__call__"]}
{"id": "C70", "title": "A scan and its detectors stay in step", "statement": "Unless the scan has failed, a detector that takes part in it with a number of frames in each step takes or is about to take exactly the frames of the steps which the scan does or is about to do, however the scan is split into runs, paused, sought and resumed; it takes none while the scan is not running, and it reports to the scan the number of steps it has taken every frame of.", "quantifier": "every generator, axes to move, breakpoints, number of frames in each step, and every history of run, pause, resume, progress and completion of both blocks", "why_tests_cant": "Ranges over all histories and interleavings of two state machines.", "anchors": ["malcolm/modules/scanning/parts/detectorchildpart.py:DetectorChildPart._configure_args", "malcolm/modules/scanning/parts/detectorchildpart.py:DetectorChildPart.on_run", "malcolm/modules/scanning/parts/detectorchildpart.py:DetectorChildPart.on_seek", "malcolm/modules/scanning/parts/detectorchildpart.py:DetectorChildPart.update_completed_steps", "malcolm/modules/scanning/controllers/runnablecontroller.py:RunnableController.do_pause"]}
{"id": "C71", "title": "A pvAccess client sees the data of the block", "statement": "A value that is sent over pvAccess comes back as the same data; while the channel of a block is open, what its clients are shown is the data of the block after all changes so far; a change that cannot be shown closes the channel; and a client that connects anew sees the block as it is.", "quantifier": "every block and value, every history of changes and of clients coming and going", "why_tests_cant": "Ranges over all nested values and all sequences of changes.", "anchors": ["malcolm/modules/pva/controllers/pvaconvert.py:convert_to_type_tuple_value", "malcolm/modules/pva/controllers/pvaconvert.py:convert_value_to_dict", "malcolm/modules/pva/controllers/pvaconvert.py:update_path", "malcolm/modules/pva/controllers/pvaservercomms.py:BlockHandler.handle"]}
{"id": "C72", "title": "A pvAccess put writes exactly one attribute", "statement": "A put to the channel of a block either is refused or writes the value of exactly one attribute, with what the client sent for it; methods and the meta of the block cannot be put, and a put that changes the values of several attributes is refused.", "quantifier": "every block, every history of its channel, every put", "why_tests_cant": "Ranges over all blocks, histories and sets of changed fields.", "anchors": ["malcolm/modules/pva/controllers/pvaservercomms.py:BlockHandler.put", "malcolm/modules/pva/controllers/pvaservercomms.py:BlockHandler._create_initial_value"]}
{"id": "C73", "title": "The block of a PandA block has the attributes of its fields and shows what the PandA says", "statement": "For every block of a PandA whose field names do not collide, Malcolm makes a block that has, for each field, the attributes documented for its type (name, type, whether it can be put, when it is restored, group, port in the flow graph), and a method for each action. After any history of reports and puts each attribute shows the last value reported for it or accepted from a put, each input is linked to the output it was last reported to be connected to, the health and the icon are those last reported, and the PandA is sent exactly what was put to writeable attributes.", "quantifier": "all field data of a PandA block, all histories of reports and puts", "why_tests_cant": "Ranges over all combinations of fields, types and labels and over all interleavings of reports and puts.", "anchors": ["malcolm/modules/pandablocks/controllers/pandablockcontroller.py:PandABlockController", "malcolm/modules/pandablocks/parts/pandafieldpart.py:PandAFieldPart", "malcolm/modules/pandablocks/parts/pandalabelpart.py:PandALabelPart", "malcolm/modules/pandablocks/parts/pandaactionpart.py:PandAActionPart", "malcolm/core/camel.py:snake_to_camel"]}
{"id": "C74", "title": "A PandA that is Ready is polled, one that is Disabled is left alone", "statement": "Whatever the history of starts, resets, disables, failures and polls of a PandA manager: never does more than one loop poll the PandA; when the block is Disabled there is neither a poll nor a connection; when it is Ready the PandA is connected and polled, all of its blocks have been made and the first layout has been done; and from every state a disable and a reset in which nothing fails lead to Ready and polled.", "quantifier": "all histories of init, reset, disable, their failures at any point, and of polls that work or fail at any time, with init, reset and disable not overlapping each other", "why_tests_cant": "Which of the flags that guard the connection, the blocks and the loop are left set depends on where earlier calls failed; tests reset from one failure, not after every history.", "anchors": ["malcolm/modules/pandablocks/controllers/pandamanagercontroller.py: do_init, start_poll_loop, do_disable, do_reset, _poll_loop, stop_poll_loop, _make_child_controllers", "malcolm/modules/builtin/controllers/statefulcontroller.py: try_stateful_function, go_to_error_state"]}
{"id": "C75", "title": "The motion controller gets exactly the trajectory of the scan, and the steps reported are those it has completed", "statement": "However a scan is cut into batches of computation and chunks of points, the motion controller is given exactly the points of the whole trajectory (run-up, all scan points and turnarounds, tail-off), each once and in order, with the positions of the scanned axes and no other axis moved; the trajectory goes through the middle and the upper bound of every scan point; as long as the controller reports that it has used up what it was given and there is more, it is given more; the step count reported at each update is the number of scan points whose end the controller has passed, so it never decreases, never runs ahead and is the number requested when the controller stops.", "quantifier": "all scans, windows of steps, chunk and batch sizes, and all sequences of progress reports of the controller", "why_tests_cant": "Where chunks and batches fall relative to rows, split moves and the tail-off depends on the number and kind of points and on when the controller reports progress; tests run a few scans with one chunk.", "anchors": ["malcolm/modules/pmac/parts/pmacchildpart.py: on_configure, update_step, write_profile_points, calculate_generator_profile, create_generator_profile_every_point, create_generator_profile_sparse, add_tail_off, add_profile_point, add_generator_point_pair, insert_gap", "malcolm/modules/pmac/parts/pmactrajectorypart.py: write_profile, execute_profile"]}
{"id": "C76", "title": "The local copy of a remote block over pvAccess shows the remote block", "statement": "A client that monitors the pvAccess channel of a block keeps a local block. While the channel is open and no update has failed, the local block has exactly the fields of the remote block and each value that an update can set is the remote one, whatever changes were made, in whatever order an update is applied, and however often the channel closed and opened again. When the channel closes, the health of the local block says so and its other fields stay. A complete remote block is copied when the client joins, and a change that reaches its place through Models with an accepted value is shown. A put to an attribute of the local block reaches that attribute of the remote block with the data that was put.", "quantifier": "all blocks, all histories of changes, connections and disconnections, all orders in which the changed paths are applied, all values put", "why_tests_cant": "Whether a path is updated depends on which parents p4p marks, on the type of every object on the way and on what was copied at the last reconnect; tests look at a few attributes after one change.", "anchors": ["malcolm/modules/pva/controllers/pvaclientcomms.py: sync_proxy, _update_settable_fields, _regenerate_block, _update_block, send_put", "malcolm/modules/pva/controllers/pvaservercomms.py: BlockHandler", "malcolm/core/models.py: apply_change, BlockModel"]}
{"id": "C77", "title": "A scan's motors reach the first point at speed, come to rest after the last, and stay within their soft limits", "statement": "When a scan is configured, each motor is moved to the position from which, accelerating at the rate it is capable of, it reaches the lower bound of the first point at the velocity of that point; after the upper bound of the last point it comes to rest in the distance it needs. Neither asks of any motor more than its acceleration or its greatest velocity. A scan whose run-up or tail-off, or any point, would take a motor outside of its soft limits is refused before the scan is run; soft limits that are both zero do not limit.", "quantifier": "all axes, all velocities and accelerations, all soft limits, all first and last points, all rows of points", "why_tests_cant": "The positions depend on the velocities of all the axes together and on which of them takes longest; tests try a few motors with equal accelerations.", "anchors": ["malcolm/modules/pmac/parts/pmacchildpart.py: move_to_start, calculate_generator_profile, add_tail_off", "malcolm/modules/pmac/infos.py: MotorInfo.ramp_distance, MotorInfo.acceleration_time, MotorInfo.check_position_within_soft_limits", "malcolm/modules/pmac/util.py: point_velocities, MIN_TIME"]}
{"id": "C78", "title": "Validation makes durations fit the servo cycle", "statement": "When each point of a scan is to be triggered, the duration that comes out of the motion part's validation makes half of a point a whole number of microseconds, just under a whole number of servo cycles, and differs from the one asked for by less than two servo cycles. When points are not triggered the duration is left as it is; without a duration the one the motors need is asked for. The part is content with what it asked for, so validation settles, and a scan that some duration would suit is not refused.", "quantifier": "all durations, all servo frequencies up to 998 kHz, all exposures and readout times of the other parts", "why_tests_cant": "Rounding to microseconds and to ticks interact differently at every frequency and duration, and the duration passes between the parts that tweak it; tests use a few round numbers.", "anchors": ["malcolm/modules/pmac/parts/pmacchildpart.py: on_validate, get_aligned_duration_with_servo_frequency, calculate_generator_duration", "malcolm/modules/scanning/controllers/runnablecontroller.py: validate", "malcolm/modules/scanning/parts/exposuredeadtimepart.py: on_validate"]}
{"id": "C79", "title": "What is captured with the frames is announced, defined and stored under its name", "statement": "Every bit and position that a PandA is told to capture and that was given a dataset name, every extra attribute of a detector driver and every statistic is announced exactly once, in the order of the tables, under the name and type that the table asks for, and the announced dataset is filled from that value and no other. The attributes that a driver announces are the ones it defines for areaDetector, each from the source asked for and with a type that areaDetector has. What is not captured or has no name is not announced. Names that cannot be dataset names are refused.", "quantifier": "all tables of bits, positions and extra attributes, all statistics, all scans", "why_tests_cant": "A dataset is reached through four tables (rows, infos, definitions and file layout) that must agree for every combination of capture mode, type and name; tests check one table of each.", "anchors": ["malcolm/modules/ADCore/infos.py: NDAttributeDatasetInfo.from_attribute_type", "malcolm/modules/ADPandABlocks/parts/pandadatasetbussespart.py: on_report_status", "malcolm/modules/ADCore/parts/detectordriverpart.py: on_report_status, build_attribute_xml, set_extra_attributes", "malcolm/modules/ADCore/parts/statspluginpart.py: on_report_status, _make_attributes_xml", "malcolm/modules/ADCore/parts/hdfwriterpart.py: make_layout_xml, create_dataset_infos"]}
{"id": "C80", "title": "The icon of a LUT says what the LUT computes", "statement": "For every function that a LUT block of a PandA can be set to, the icon of the block has exactly one gate. If that is an AND, OR or NOT, then for all levels of the five inputs the output of the LUT is what the drawn gate gives for the drawn inputs, with a circle for each negated one. Each function that is an AND or OR of the first two to five inputs, any of them negated, or the NOT of one input, is shown as that; everything else is shown as a box with all inputs. An input that is drawn has an arrow exactly if its type is not a level, marked for the edges that the type names. Drawing never fails, whatever the function and the types.", "quantifier": "all 32 bit functions and all other numbers, all levels of the inputs, all texts of the types", "why_tests_cant": "There are 2^32 functions and the table of icons is generated by bit operations; tests look at a handful of functions.", "anchors": ["malcolm/modules/pandablocks/parts/pandaluticonpart.py: _calc_visibility, _generate_lut_elements, get_lut_icon_elements, PandALutIconPart.update_icon", "malcolm/modules/builtin/util.py: SVGIcon", "malcolm/modules/pandablocks/icons/LUT.svg"]}
{"id": "C81", "title": "A motor shows the coordinate system it is assigned to, and a put assigns it", "statement": "Whatever a controller told of a motor before and in whatever order, by a reset, by monitors or read back after a put: the cs attribute of a raw motor shows the name of the port and the axis that were told last, nothing if the motor is not assigned, and an invalid alarm if either is not known. The choices it offers are nothing and each port of the controller but the first with each axis; putting one sends the number of that port and that axis, and shows it once it is read back. The value shown is the value of the source port of exactly one axis of one coordinate system. The port and number in the OUT field of a raw or compound motor are shown as they are.", "quantifier": "all histories of resets, monitor updates and puts, all port names, axes and OUT fields", "why_tests_cant": "The value is put together from three PVs that change one at a time; tests drive a handful of updates with mocks.", "anchors": ["malcolm/modules/pmac/parts/rawmotorsinkportspart.py: RawMotorSinkPortsPart", "malcolm/modules/pmac/parts/compoundmotorsinkportspart.py: CompoundMotorSinkPortsPart._update_value", "malcolm/modules/pmac/parts/cssourceportspart.py: CSSourcePortsPart.update_tags", "malcolm/core/tags.py: Port"]}
{"id": "C82", "title": "The axes of a coordinated move start together", "statement": "When move is called for a coordinate system with demands for any of its axes, then however the demands arrive and whatever fails, either no axis is started or all axes that were given are started together, with their demands and after the move time was set; no other axis is started. When the call returns, each axis that was given has been started exactly once and the next move finds the controller as this one did. The part of a coordinate system accepts only the port of that coordinate system.", "quantifier": "all sets of demands, all orders in which puts arrive, all points of failure, all interleavings of calls", "why_tests_cant": "The order in which puts arrive and the points of failure are those of the network and of other clients; a test sees one order, with a mock that answers at once.", "anchors": ["malcolm/modules/pmac/parts/cspart.py: CSPart.move, CSPart.on_init", "malcolm/core/views.py: Block.put_attribute_values_async, Block.when_value_matches"]}
{"id": "C83", "title": "The beam selector gives each detector its time", "statement": "A beam selector scan is accepted exactly if both its detectors are in the table, each enabled for one frame with an exposure. Validation gives the scan the duration of a cycle, settles after that one change, and exactly then the scan can be configured. A scan that is configured, or resumed, consists of as many cycles as there are steps left. In each the selector moves to the diffraction position and stays there for at least the exposure of that detector, then back to the imaging position and stays there for at least the exposure of the other, and at least for the minimum turnaround; the cycle takes exactly the duration of a step.", "quantifier": "all detector tables, exposures, turnaround times, move times, durations, numbers of completed steps and steps to do", "why_tests_cant": "The tests compare a handful of profiles with lists of numbers, all from the beginning of a scan.", "anchors": ["malcolm/modules/pmac/parts/beamselectorpart.py: BeamSelectorPart", "malcolm/modules/pmac/util.py: AlternatingDelayAfterMutator, get_min_turnaround"]}
{"id": "C84", "title": "What a scan says is completed is in its file", "statement": "With the file writing detector of the tutorial: at any time, and however the scan is paused, rewound, resumed or aborted, whoever reads the file finds at each place that has an id a point of the scan with its whole data. Ids go up with each write and are never used twice, and the id of a point is the one it was last written with. Whenever the scan says that n steps are completed the first n points have been written, and when it is finished all points are in the file. Writing does not fail.", "quantifier": "all generators, axes to move and breakpoints; all histories of run, pause, seek, resume, abort, writes, flushes and progress reports of other parts", "why_tests_cant": "The tests run a scan through once, or with one pause.", "anchors": ["malcolm/modules/demo/parts/filewritepart.py: FileWritePart", "malcolm/modules/scanning/controllers/runnablecontroller.py: RunnableController.do_run, do_pause, update_completed_steps"]}
{"id": "C85", "title": "The axes of a tutorial scan travel through every point", "statement": "When a scan of the tutorial's motion block has been configured each axis is at the lower bound of the first point to do. When a point is reported as completed each axis is at the upper bound of that point; in between it has gone from the lower to the upper bound without a step back and has taken at least the time that was left for the point.", "quantifier": "every counter value before the scan, every sequence of points and bounds (joined or apart), every time the calls are served", "why_tests_cant": "the tests move one counter with mocked futures; the order in which the two calls of a point are served and the values of the clock range over infinitely many schedules", "anchors": ["malcolm/modules/demo/parts/motionchildpart.py:MaybeMover.maybe_move_async", "malcolm/modules/demo/parts/motionchildpart.py:MotionChildPart.on_configure", "malcolm/modules/demo/parts/motionchildpart.py:MotionChildPart.on_run", "malcolm/modules/demo/parts/countermovepart.py:CounterMovePart.move"]}
{"id": "C86", "title": "A detector takes one frame for each step of the scan", "statement": "Through any history of run, pause, resume and rewind a configured detector is acquiring whenever the trigger of a step comes, is never started while it is still acquiring, takes the steps since the last configure or seek in order with one frame each, reports exactly the steps it has frames for, stops waiting when the triggers of a run have come, and has stopped by itself when the scan is finished.", "quantifier": "every generator, axes to move, breakpoints, trigger mode and driver part; every history of calls, triggers and progress reports", "why_tests_cant": "the tests check the puts of a single configure, seek or post-run with mocks; how many images are left in the driver depends on the whole history of the scan", "anchors": ["malcolm/modules/ADCore/parts/detectordriverpart.py:DetectorDriverPart.setup_detector", "malcolm/modules/ADCore/parts/detectordriverpart.py:DetectorDriverPart.on_post_run_armed", "malcolm/modules/ADCore/parts/detectordriverpart.py:DetectorDriverPart.on_seek", "malcolm/modules/xmap/parts/xmapdriverpart.py:XmapDriverPart.setup_detector", "malcolm/modules/ADEiger/parts/eigerdriverpart.py:EigerDriverPart.on_post_run_armed", "malcolm/modules/ADTetrAMM/parts/tetrammdriverpart.py:TetrAMMDriverPart.on_post_run_armed"]}
{"id": "C87", "title": "The frames of a detector fit in their time", "statement": "If a scan is validated then the detector can be configured for it, an exposure that was asked for is used in all runs of the scan, the acquire period fits in the duration of a frame and has room for the exposure and the readout, and the samples of a frame are over before the next trigger and as many as fit, or as the target allows.", "quantifier": "every duration, exposure, readout time, sample frequency, target and number of runs", "why_tests_cant": "the tests check single values; the claim compares validation and configuration for all times", "anchors": ["malcolm/modules/ADCore/parts/detectordriverpart.py:DetectorDriverPart.on_validate", "malcolm/modules/ADAndor/parts/andordriverpart.py:AndorDriverPart", "malcolm/modules/adUtil/parts/reframepluginpart.py:ReframePluginPart", "malcolm/modules/ADTetrAMM/parts/tetrammdriverpart.py:TetrAMMDriverPart.on_post_configure"]}
{"id": "C88", "title": "The status block of an IOC tells the truth", "statement": "The status block of an IOC shows the health of the IOC as its PVs now say it (not running, running from a work area, or OK), and the dependencies that the RELEASE file of the directory it runs from defines, with every reference to another name of that file expanded, whatever order the lines are in; an alarm is shown if that directory does not exist.", "quantifier": "every sequence of updates of the PVs, every RELEASE file whose definitions are not circular, and every order of its lines", "why_tests_cant": "the test has one file of two lines in the order that makes it easy; the claim is about all files and all orders in which PVs connect and disconnect", "anchors": ["malcolm/modules/system/parts/dirparsepart.py:DirParsePart.parse_release", "malcolm/modules/system/parts/dirparsepart.py:DirParsePart.version_updated", "malcolm/modules/system/parts/dirparsepart.py:DirParsePart.set_procserv_state"]}
{"id": "C89", "title": "A shutter is open only while a scan runs", "statement": "A shutter (or other attribute of a child) that a scan controls has its pre-run value whenever the run hooks of the block go on, and has its reset value in every state in which no scan runs.", "quantifier": "every sequence of calls, every way in which hooks of other parts end or fail, before or after the part has done its put, every number of runs and pauses", "why_tests_cant": "the tests check that each hook does its put; that the shutter is closed after any history is a claim about the calls, failures and interruptions together", "anchors": ["malcolm/modules/scanning/parts/attributeprerunpart.py:AttributePreRunPart", "malcolm/modules/scanning/controllers/runnablecontroller.py:RunnableController.do_run", "malcolm/modules/scanning/controllers/runnablecontroller.py:RunnableController.do_pause"]}
{"id": "C90", "title": "Waiting for a value ends when the value is there", "statement": "A call of when_value_matches (or when_matches) returns only if the first value delivered to it that is either the wanted one or one of the bad ones (for a callable: that it accepts or raises for) is the wanted one; it raises BadValueError only if that value is bad; a bad value is reported exactly once; and it does not go on waiting when the wanted value has been delivered. The same holds of the future of when_value_matches_async when it is waited for later.", "quantifier": "every condition, every history of the context before, during and after the call, every order of updates, returns, errors, stops and other requests, several values waited for at a time", "why_tests_cant": "Updates, answers to the Unsubscribe and other responses share one queue and may be taken by other waits of the same thread; tests deliver a few values in one order.", "anchors": ["malcolm/core/context.py: Context.when_matches, when_matches_async, When, wait_all_futures", "malcolm/core/views.py: Block.when_value_matches, when_value_matches_async"]}
{"id": "C91", "title": "A block view reaches every field and calls methods as Python does", "statement": "A view can be made of every block. Each field of the block is reached through the view by its name, as an attribute and as an item, including fields added later; asking for one that is not there raises. Each method has an _async variant. Calling a method with positional arguments has the same effect as calling it with the arguments named after the method's signature, and is refused when Python would refuse it (an argument given twice, too many arguments). put_attribute_values puts exactly the values given, each once, in order, or refuses without putting any.", "quantifier": "every set of field names, every later change of the fields, every signature and every list of positional and named arguments, every dictionary of values", "why_tests_cant": "Names of fields are chosen by users and by other servers and may coincide with members of the view; tests use a few names and a few calls.", "anchors": ["malcolm/core/views.py: View, Attribute, Method, Block, _make_view_subclass", "malcolm/core/controller.py: Controller.make_view"]}
{"id": "C92", "title": "Whoever waits for a spawned function gets its result, and stop waits for all", "statement": "A call of get() on a spawned function returns its value, or raises the exception it raised, once it has ended, to every thread that asks, before or after the end; TimeoutError is raised only if the function has not ended in time. Process.stop() returns only when every function spawned since the start, including those spawned while it stops, has ended; if it times out it can be called again.", "quantifier": "every number of waiting threads and every interleaving of their steps with those of the function; every history of spawns, ends and stops", "why_tests_cant": "Which thread takes the one token put in the queue, and whether the list of functions is rebuilt while stop goes through it, depends on the schedule and on the number of spawns; tests have one waiter and a few spawns.", "anchors": ["malcolm/core/concurrency.py: Spawned.wait, get, catching_function; Queue.get, put", "malcolm/core/process.py: Process.spawn, _clear_spawn_list, stop"]}
{"id": "C93", "title": "An accepted scan moves only what may move together, is unrolled, and validation settles", "statement": "When validate or configure of a scan block accepts a set of parameters, after whatever any of its parts wanted changed, then in the parameters returned: every axis to be moved is one of those that may be moved together; with a visible unrolling part, exactly the axes that move are squashed into one dimension of the generator; with a double trigger part a table of detectors was given in which its detector, where enabled, takes two frames a step; and parts that need a duration have one. With any number of such parts in any order, a scan that none of them objects to is accepted after asking at most three times, with the generator unrolled once and the longest duration that was guessed, and everything else as given; one that a part objects to is refused. Unrolling does not change the number of steps nor how they are cut into runs.", "quantifier": "every list of parts in every order, with arbitrary other parts for the first claim; every generator, list of axes, table of detectors and list of breakpoints", "why_tests_cant": "The generator asked for by all parts but the first is dropped in each round, so what comes out depends on the order and number of the parts and on how many rounds are needed; tests use one part.", "anchors": ["malcolm/modules/scanning/parts/unrollingpart.py:UnrollingPart.on_validate", "malcolm/modules/scanning/parts/simultaneousaxespart.py:SimultaneousAxesPart.on_validate", "malcolm/modules/scanning/parts/doubletriggerpart.py:DoubleTriggerPart.on_validate", "malcolm/modules/scanning/util.py:resolve_generator_tweaks", "malcolm/modules/scanning/controllers/runnablecontroller.py:RunnableController.validate"]}
{"id": "C94", "title": "The file of an Xspress detector leads to every channel", "statement": "When configure of an Xspress detector succeeds, every dataset it announces is in the file it made, with the rank announced; every channel leads to the file of the writer that writes it, the channels being shared equally among the writers in blocks; the ids, scalars, dead time corrections and images lead to the files of all writers, and the positions of each axis are those of its dimension. Configure succeeds for any number of channels shared equally among one to eight writers and any dimensions of which only the first alternates. Each run is over exactly when all pairs have captured the frames of all steps so far, and what is reported on the way is the number captured.", "quantifier": "every number of channels, writers, pairs, block size and duration, every list of dimensions and every way to cut the scan into runs", "why_tests_cant": "Which channel leads where depends on a counter carried through a loop over all channels; the tests use one number of channels and writers, for which it comes out right.", "anchors": ["malcolm/modules/xspress3/parts/xspresswriterpart.py:create_vds", "malcolm/modules/xspress3/parts/xspresswriterpart.py:add_nexus_nodes", "malcolm/modules/xspress3/parts/xspresswriterpart.py:create_dataset_infos", "malcolm/modules/xspress3/parts/xspresswriterpart.py:create_raw_dataset_infos", "malcolm/modules/xspress3/parts/xspresswriterpart.py:XspressWriterPart.on_configure", "malcolm/modules/xspress3/parts/xspresswriterpart.py:XspressWriterPart.on_post_run_armed"]}
{"id": "C95", "title": "The files for working out where compound motors were lead to the right data", "statement": "After a configure of a scan of compound motors (motors made of others by a coordinate system of a PMAC), the file with the results leads, for each motor of the scan, to the row of the letter of that motor's axis; every dataset announced is in that file; the file with the inputs links each raw motor of the coordinate system, under its number, to the data produced for it; and a scaling or an offset already applied by the PandA is not applied again, while all other variables have the last value they were given.", "quantifier": "every layout of a PMAC, table of positions, list of motors to move, list of datasets announced by other parts, and text of variables; every earlier state of the part", "why_tests_cant": "the tests configure once with one layout in one coordinate system; they cannot range over layouts, capture modes, orders of the table, repeated configures or variables", "anchors": ["malcolm/modules/ADPandABlocks/parts/kinematicssavupart.py:KinematicsSavuPart.on_configure", "malcolm/modules/ADPandABlocks/parts/kinematicssavupart.py:KinematicsSavuPart.on_post_configure", "malcolm/modules/ADPandABlocks/parts/kinematicssavupart.py:KinematicsSavuPart.check_mres_and_pos", "malcolm/modules/ADPandABlocks/parts/kinematicssavupart.py:KinematicsSavuPart.create_vds_file", "malcolm/modules/pmac/util.py:cs_axis_numbers"]}
{"id": "C96", "title": "Each HTTP request gets one reply, its own", "statement": "A GET or POST over HTTP is given to the controller of the block it names at most once and gets at most one reply: a status 500 if nothing was done (no such block, or a body that is not JSON), else the value or the error that the controller gave for exactly the path and parameters of that request. While the process runs each request gets a reply, whatever the order in which the threads run.", "quantifier": "every history of requests, of runs of the spawned threads in any order, of callbacks of the two loops, of changes of the blocks and of a stop of the process; any controllers and any JSON coder", "why_tests_cant": "the tests make one request at a time; replies that cross depend on how threads are scheduled", "anchors": ["malcolm/modules/web/parts/restfulserverpart.py:RestfulHandler", "malcolm/modules/web/controllers/httpservercomms.py:HTTPServerComms.update_request_received", "malcolm/modules/web/util.py:IOLoopHelper.call", "malcolm/core/process.py:Process.spawn"]}
{"id": "C97", "title": "A PandA triggers a scan only if it is wired for it, and then with the right wires and numbers", "statement": "Configuring a scan that a PandA is to trigger fails unless the sequencer tables are exported as seqTableA and seqTableB from two parts and, if something moves, either both sequencers see the same positions and at least one of the axes that move (position compare) or wait for the same signal (otherwise). An axis is then compared on the input its position is wired to, in counts worked out with the scale and offset of that position, and every axis that moves and can be seen is compared. The sequencers are not enabled while their tables are written; when a run begins they are already enabled just if they wait for something that moves. The pulse block of a detector is set up for the frames per step and exposure of that detector, in seconds, and no other field is touched.", "quantifier": "all exports, layouts, positions and wirings of the PandA, all axes; all sequences of configure, run, pause, resume, abort, reset, disable, of errors and of hooks run; all detector tables, exposures and durations", "why_tests_cant": "Which block a name leads to depends on every row of the exports, layout and positions tables, and whether the sequencers are enabled depends on the whole history of calls; tests use one wiring and one order.", "anchors": ["malcolm/modules/ADPandABlocks/parts/pandaseqtriggerpart.py:PandASeqTriggerPart", "malcolm/modules/ADPandABlocks/parts/pandaseqtriggerpart.py:_get_blocks", "malcolm/modules/ADPandABlocks/parts/pandapulsetriggerpart.py:PandAPulseTriggerPart"]}
{"id": "C98", "title": "What a PandA says is what Malcolm takes it to be, and what Malcolm sets is what the PandA is told", "statement": "If a PandA lists its blocks, fields, tables, bits and changes, Malcolm sees exactly these: each block with its number and description, blocks by name and fields by index, with labels just for fields that have them; each field of a table with its bits, labels and sign; each change with its value, in the order reported, and each changed table with its rows. Setting a field tells the PandA to set that field to that value and nothing else, setting several sets all of them in order and fails if one is refused, and setting a table sends exactly its rows.", "quantifier": "all blocks, fields, descriptions, labels and tables a PandA can have, all reports of changes, all values and rows set, all replies", "why_tests_cant": "Tests play one recorded conversation; that every name, order of fields, value with = in it and table survives is a statement about all texts.", "anchors": ["malcolm/modules/pandablocks/pandablocksclient.py:get_blocks_data", "malcolm/modules/pandablocks/pandablocksclient.py:get_pcap_bits_fields", "malcolm/modules/pandablocks/pandablocksclient.py:get_changes", "malcolm/modules/pandablocks/pandablocksclient.py:get_table_fields", "malcolm/modules/pandablocks/pandablocksclient.py:set_fields", "malcolm/modules/pandablocks/pandablocksclient.py:set_table"]}
{"id": "C99", "title": "An exported field is the field of the child", "statement": "A field exported by a manager shows the value, alarm, time stamp and limits that the field of the child has, at all times, under the label of the export and without the tags that would save it twice. It is shown as writeable just if it can be written. A put to it is a put to the field of the child with the same value, and a call of an exported method is a call of the child's method with the same parameters, whose result the caller gets.", "quantifier": "all fields, all histories of changes of the field in the child and of states of the manager, all values put and parameters given", "why_tests_cant": "The copy follows the child by a stream of changes of many kinds; whether it is right depends on every kind that can occur and their order, where tests change a value once or twice.", "anchors": ["malcolm/modules/builtin/controllers/managercontroller.py:_make_export_field", "malcolm/core/models.py:apply_change", "malcolm/core/models.py:NTTable.set_value_alarm_ts", "malcolm/core/controller.py:add_block_field", "malcolm/core/controller.py:_handle_post"]}
{"id": "C100", "title": "A part knows its child as it is", "statement": "A part that stands for a child block reports to the manager exactly the fields and the ports that the child has at the time, and the manager is modified in exactly those settings of the child whose values are not the saved ones: also when fields of the child are added, removed, replaced or come back.", "quantifier": "all histories of changes of the fields of the child and of their values, all sets of settings that are saved and not saved", "why_tests_cant": "What the part knows is built up from one update to the next, so whether it is right depends on the whole history of fields that came and went; tests add the fields of a child once.", "anchors": ["malcolm/modules/builtin/parts/childpart.py:update_part_exportable", "malcolm/modules/builtin/parts/childpart.py:update_part_modified", "malcolm/modules/builtin/parts/childpart.py:send_modified_info_if_not_equal", "malcolm/core/notifier.py:handle_unsubscribe"]}
{"id": "C101", "title": "A run of a writer ends when its frames are written, and not otherwise", "statement": "A run of the HDF writer ends well when the frames asked for have been captured and only then; it ends with an error within a second or so if the plugin cannot be started or no frame is captured for longer than the time allowed, and never while frames keep coming in time; the first run waits for its first frame for as long as it takes; the progress reported is what was captured.", "quantifier": "all sequences of updates of the plugin at all times, all durations of flushes, all scans", "why_tests_cant": "It is about when things are told: an update may come while a flush is on, between a time-out and the check of it, or not at all; a test plays one order with the clock standing still.", "anchors": ["malcolm/modules/ADCore/parts/hdfwriterpart.py:HDFWriterPart.on_run", "malcolm/modules/ADCore/parts/hdfwriterpart.py:HDFWriterPart.on_seek", "malcolm/modules/ADCore/parts/hdfwriterpart.py:HDFWriterPart._has_file_writing_stalled", "malcolm/modules/ADCore/parts/hdfwriterpart.py:HDFWriterPart.update_completed_steps"]}
{"id": "C102", "title": "The motion controller takes part in a scan exactly if it is needed, in one coordinate system", "statement": "When a scan is configured the motion controller is sent something exactly if the scan moves one of its axes or triggers are wanted from it; what it is sent is for one coordinate system, the one that every axis it is to move is in, and the move to the start moves exactly those axes; a later run or abort reaches it exactly if it was needed in the scan configured last. The triggers and the time of turnarounds are those that were asked for. A scan that has no duration gets a positive one if the motion controller is needed and knows its axes, enough for the slowest axis going forward.", "quantifier": "all reports of all parts, all layouts of the motion controller, all axes to move, all scans, all histories of configures, runs and aborts", "why_tests_cant": "It depends on what every other part reports and on how the motors happen to be assigned; a test has one layout and one or two reports.", "anchors": ["malcolm/modules/pmac/parts/pmacchildpart.py:PmacChildPart.on_validate", "malcolm/modules/pmac/parts/pmacchildpart.py:PmacChildPart.on_configure", "malcolm/modules/pmac/parts/pmacchildpart.py:PmacChildPart.get_cs_port", "malcolm/modules/pmac/parts/pmacchildpart.py:PmacChildPart.calculate_generator_duration", "malcolm/modules/pmac/util.py:cs_port_with_motors_in", "malcolm/modules/pmac/util.py:get_motion_trigger", "malcolm/core/info.py:Info.filter_values"]}
{"id": "C103", "title": "The file of an Odin detector has everything announced, and leads to the files its writers write", "statement": "When a scan with an Odin detector is configured, the file it makes has the frames, sums and unique ids of every writer joined in the shape of the scan, the positions of every axis beside them, and one link for each writer; every dataset announced is in it; the files it looks for are the ones the writers write, each writer has its own, none of them is the file itself, and detectors with different formats do not share any. A run is over exactly when as many frames were captured as the steps of all runs so far, and progress is what was captured.", "quantifier": "all directories, templates, formats, numbers of writers and sizes of blocks, all scans, all sequences of runs, all values of the number captured", "why_tests_cant": "Names and numbers of files are made from what users type; a test has one template and one number of writers, and checks the names it expects.", "anchors": ["malcolm/modules/ADOdin/parts/odinwriterpart.py:OdinWriterPart.on_configure", "malcolm/modules/ADOdin/parts/odinwriterpart.py:create_vds", "malcolm/modules/ADOdin/parts/odinwriterpart.py:add_nexus_nodes", "malcolm/modules/ADOdin/parts/odinwriterpart.py:create_dataset_infos", "malcolm/modules/ADOdin/parts/odinwriterpart.py:create_raw_dataset_infos", "malcolm/modules/ADOdin/parts/odinwriterpart.py:OdinWriterPart.on_run", "malcolm/modules/ADOdin/parts/odinwriterpart.py:OdinWriterPart.on_post_run_armed"]}
{"id": "C104", "title": "A YAML file makes exactly the blocks and parts it describes, children first", "statement": "Starting a process with a YAML file gives it exactly the blocks that the file describes, however deep files are nested: for each block listed, in the order of the file and with includes standing for what is in them, everything that block is made of and then the block itself, so that children come before the block that lists them; each block has exactly its parts and those of its includes, in the order written; names filled in for one file have no effect in another. No two blocks have the same mri and no two parts of a block the same name. If anything cannot be made nothing is started, and the exception gives the lines of all the files that lead to the section at fault.", "quantifier": "all files, all nestings of files to any depth, all arguments, all classes of parts and controllers", "why_tests_cant": "It is a property of all trees of files; a test has one or two files, and looks at what comes out for those.", "anchors": ["malcolm/yamlutil.py:make_block_creator", "malcolm/yamlutil.py:make_include_creator", "malcolm/yamlutil.py:_create_blocks_and_parts", "malcolm/yamlutil.py:Section", "malcolm/imalcolm.py:prepare_locals", "malcolm/core/controller.py:Controller.add_part", "malcolm/core/process.py:Process.add_controllers"]}
{"id": "C105", "title": "The datasets a scan lists are those its detectors will write", "statement": "While a scan block is configured, its datasets table lists exactly the datasets that will be written for the parameters it was configured with: for each part in order what the part writes itself or, if it stands for a detector and the detector table enables it, what that detector writes when given the directory and template of the scan and the detector's own name. When the block is Ready it lists nothing; otherwise it lists nothing or what was configured last. Each detector's own table agrees, as long as nobody else uses the detector. Two detectors of different names are never told to write the same file.", "quantifier": "all scan blocks with any detectors and other parts that write, all histories of configure, reset, abort, errors, runs and use of the detectors by others, all directories, templates and detector tables", "why_tests_cant": "It is a property of all histories, with any detector failing at any point; a test configures one fixed scan once.", "anchors": ["malcolm/modules/scanning/parts/datasettablepart.py:DatasetTablePart", "malcolm/modules/scanning/parts/detectorchildpart.py:DetectorChildPart.on_configure", "malcolm/modules/scanning/controllers/runnablecontroller.py:RunnableController.do_configure", "malcolm/core/info.py:Info.filter_values", "malcolm/modules/ADOdin/parts/odinwriterpart.py:OdinWriterPart.on_configure", "malcolm/modules/xspress3/parts/xspresswriterpart.py:XspressWriterPart.on_configure"]}
{"id": "C106", "title": "The block of the process monitors the IOCs it is told to, and starts and stops with the process", "statement": "The block that stands for the process monitors exactly the IOCs in its list, each with a status block and a part, in order; a list made from the redirect table has exactly the IOCs of the beamline that the table lists. Its own softIoc runs exactly while the process is started, never more than one. When the process stops the block is halted and Disabled like any other, and when it cannot start it is in Fault. Health is OK only if the block is Ready and the YAML file has a version; the version told is work for a file in the work area, the tag for one in the prod area, unknown otherwise. For any part or block, every function registered for a hook is called when the hook is run.", "quantifier": "all redirect tables and lists, all histories of starting and stopping the process, disable, reset, and the softIoc ending, all paths and git tags, all sequences of registrations for hooks", "why_tests_cant": "It is about all tables, lists and histories; the tests have one table and start one process without IOCs, and most of them only run where EPICS is installed.", "anchors": ["malcolm/modules/system/controllers/ProcessController.py:ProcessController", "malcolm/modules/system/controllers/ProcessController.py:make_ioc_status", "malcolm/modules/system/defines.py:redirector_iocs", "malcolm/core/hook.py:Hookable.register_hooked", "malcolm/core/hook.py:Hookable.on_hook"]}
{"id": "C107", "title": "A method called over pvAccess is called once with what was given, and its outcome comes back", "statement": "Calling a method of the local copy of a block over pvAccess calls the method of the block once, with the parameters that were given, and gives what the method returned, or the error it raised, however many processes are in between. A call that names no method of the block, or with parameters that cannot be sent or that the method does not take, calls nothing and gives an error. There are channels for the published blocks and the fields of them and for nothing else; all clients of one block or field share one PV, and when the block is no longer published or the server is stopped the PV is closed.", "quantifier": "all blocks, methods, parameters and results, all values and URIs sent to a channel, any number of copies of copies, all histories of publishing, asking for channels, starting and stopping the server", "why_tests_cant": "It is about all methods, parameters and numbers of processes and all histories of the server; the tests call three methods of one server with one kind of parameter, and none through a local copy.", "anchors": ["malcolm/modules/pva/controllers/pvaservercomms.py:BlockHandler.rpc", "malcolm/modules/pva/controllers/pvaservercomms.py:PvaServerComms.testChannel", "malcolm/modules/pva/controllers/pvaservercomms.py:PvaServerComms._make_channel", "malcolm/modules/pva/controllers/pvaservercomms.py:PvaServerComms.publish", "malcolm/modules/pva/controllers/pvaclientcomms.py:PvaClientComms.send_post", "malcolm/modules/builtin/controllers/proxycontroller.py:ProxyController.get_post_function", "malcolm/core/controller.py:Controller._handle_post"]}
{"id": "C108", "title": "imalcolm gives a prompt with what was asked for or exits, and starting and stopping end in time", "statement": "Started with a YAML file and a client, imalcolm gives a prompt with a process named after the file that has exactly the blocks of the file and the client, all of them started; if the file cannot be loaded, defines parts, gives two blocks the same name, or the client cannot be understood, it exits with an error. Starting and stopping a process with a timeout end within it or raise. When the user leaves the prompt the blocks are stopped and the program exits. A call that the user interrupts is followed by an abort of the same block.", "quantifier": "all arguments, files, numbers of blocks and times their functions take, all ways in which calls are interrupted", "why_tests_cant": "It is about all times that functions of blocks can take, including for ever, and all arguments; no test starts imalcolm, and the tests of a process have functions that return at once.", "anchors": ["malcolm/imalcolm.py:prepare_locals", "malcolm/imalcolm.py:try_prepare_locals", "malcolm/imalcolm.py:main", "malcolm/core/process.py:Process.start", "malcolm/core/process.py:Process.stop", "malcolm/core/process.py:Process._run_hook", "malcolm/core/hook.py:wait_hooks"]}
{"id": "C109", "title": "Web clients are told of every change once and in order, and telling them does not hold anybody up for ever", "statement": "Every change of a block is told to every subscription of a connected web client exactly once and in the order of the changes, so that when all is written the last update it got is the current one. Every response handed over is written while the client is there, in the order in which they were handed over. At most nine responses to a client wait to be written, and ten more for each thread that waits. Whoever hands over a response goes on once what was handed over has been written, also when the client has gone.", "quantifier": "all numbers of subscriptions, connections and threads, all histories of changes, answers, writes and clients going, in all orders", "why_tests_cant": "Every tenth caller of the connection waits for ten tokens, and callbacks run after the lock of the block is released: whether anybody is left waiting or is overtaken depends on how threads, loop and connections interleave over any number of messages.", "anchors": ["malcolm/modules/web/parts/websocketserverpart.py:MalcWebSocketHandler.on_response", "malcolm/modules/web/parts/websocketserverpart.py:MalcWebSocketHandler._on_response", "malcolm/modules/web/util.py:IOLoopHelper.call", "malcolm/core/notifier.py:Notifier.__exit__", "malcolm/core/notifier.py:Notifier._callback_responses", "malcolm/core/controller.py:Controller.handle_request"]}
{"id": "C110", "title": "Calls of a block that overlap do not undo each other", "statement": "While reset(), disable(), save() or loading a design is under way, other calls may come. However they overlap: a call that is made ends once; when no call is under way the block is Ready, Disabled or in Fault, and stays so until something is called; a state that says something is under way is that of the call made last; a block that is Disabled stays Disabled until it is reset. When the block is Ready or Disabled no call is under way, disable() of a block whose parts all work leaves it Disabled, and a call all of whose hooks worked returns. A PandA that is Disabled is not connected to and not polled.", "quantifier": "all histories of calls by clients and by the process, all orders in which they end or raise, failures in the background at any time", "why_tests_cant": "Every call is made of two transitions with hooks of unbounded duration between them; which of them wins depends on the order in which any number of calls begin and end, which tests make one after the other.", "anchors": ["malcolm/modules/builtin/controllers/statefulcontroller.py:StatefulController.try_stateful_function", "malcolm/modules/builtin/controllers/statefulcontroller.py:StatefulController.transition", "malcolm/modules/builtin/controllers/statefulcontroller.py:StatefulController.go_to_error_state", "malcolm/modules/builtin/controllers/managercontroller.py:ManagerController.save", "malcolm/modules/builtin/controllers/managercontroller.py:ManagerController.set_design", "malcolm/modules/pandablocks/controllers/pandamanagercontroller.py:PandAManagerController.start_poll_loop"]}
{"id": "C111", "title": "A run() that was stopped is told how to go on", "statement": "A run() that was stopped by pause(), abort(), disable() or a failing call waits to be told whether to go on. When no other call is under way, a run() waits if and only if the block is Paused, and it is only one. A resume() then returns with the block Running and the run() goes on; an abort() returns with the block Aborted, a disable() with the block Disabled, and the run() ends. In Fault, Aborted, Disabled, Ready, Armed and Finished, a run() that waits has been told to end or the abort() or disable() is about to tell it. No run() waits for ever once the block has left Paused.", "quantifier": "all histories of calls of a runnable block by any number of clients, all interleavings of their steps, all outcomes of the hooks of the parts, timeouts of abort() and pause()", "why_tests_cant": "What a run() that waits is told depends on which queue it took, how many messages are in it and which other calls are between their transition and their message; tests make these calls one after the other.", "anchors": ["malcolm/modules/scanning/controllers/runnablecontroller.py:RunnableController.run", "malcolm/modules/scanning/controllers/runnablecontroller.py:RunnableController.abort", "malcolm/modules/scanning/controllers/runnablecontroller.py:RunnableController.resume", "malcolm/modules/scanning/controllers/runnablecontroller.py:RunnableController.do_disable", "malcolm/modules/scanning/controllers/runnablecontroller.py:RunnableController.go_to_error_state", "malcolm/modules/scanning/controllers/runnablecontroller.py:RunnableController.do_configure"]}
{"id": "C112", "title": "A proxy over a websocket follows the remote block from end to end", "statement": "A client that mirrors a block of another server over a websocket shows, at any time, the remote block as it was at some moment: every change up to then, in order, none left out or applied twice. When the changes have been sent, have arrived and have been handled, the mirrored block equals the remote block. When the connection is lost the mirrored block shows that it is stale, and when the client is connected again it shows the remote block again.", "quantifier": "all histories of changes of the remote block by any threads, all schedules of the server's loop and of threads that wait for it, all histories of the client (connections made, refused and lost, resets, callbacks run late), any part of what was written having arrived", "why_tests_cant": "The property composes the notifier of the block, the queue of the server, the connection, the request table and callback queues of the client and the handling of Deltas; tests run one of them with the others mocked and all callbacks run at once.", "anchors": ["malcolm/modules/web/controllers/websocketclientcomms.py:WebsocketClientComms.sync_proxy", "malcolm/modules/web/controllers/websocketclientcomms.py:WebsocketClientComms.on_message", "malcolm/modules/web/controllers/websocketclientcomms.py:WebsocketClientComms._report_fault", "malcolm/modules/web/controllers/websocketclientcomms.py:WebsocketClientComms._handle_response", "malcolm/modules/web/parts/websocketserverpart.py:MalcWebSocketHandler.on_response", "malcolm/core/notifier.py:Notifier"]}
{"id": "C113", "title": "Saved designs are kept, offered and loaded under their names", "statement": "Saving a design of a block under a name writes that design and no other file, whatever the name; without a name it saves the design that is loaded, and a template is never overwritten. What was saved is what is read when the design is loaded later, whatever was done meanwhile to other designs and by other blocks. The block offers exactly no design, the designs saved for it and its templates, each once, in order; each name on offer can be loaded. A process that ends during a save leaves the design as it was or as it was to be saved.", "quantifier": "all histories of saves, loads, resets and crashes of any number of blocks with a common disk, all names and texts, every point at which the process may end", "why_tests_cant": "What a name leads to depends on every character in it, what is on offer on all that was ever saved, and what is left of a file on the point at which the process ended.", "anchors": ["malcolm/modules/builtin/controllers/managercontroller.py:ManagerController.save", "malcolm/modules/builtin/controllers/managercontroller.py:ManagerController.do_save", "malcolm/modules/builtin/controllers/managercontroller.py:ManagerController._set_layout_names", "malcolm/modules/builtin/controllers/managercontroller.py:ManagerController._validated_config_filename", "malcolm/modules/builtin/controllers/managercontroller.py:ManagerController.set_design", "malcolm/modules/builtin/controllers/managercontroller.py:ManagerController._mark_clean"]}
{"id": "C114", "title": "A wait ends in time, and not before", "statement": "A wait for responses that is given a total time, or a longest time between responses, does not raise TimeoutError before that time; when it does, one of the responses waited for has not come; it does not go on, or raise, later than that time. Future.result gives the result of its own call or raises its exception, Future.exception returns the exception or None. Context.sleep returns after the time given and not before, and a stop ends it.", "quantifier": "every history of the context, every set of futures, every pair of timeouts and every order and timing of responses, callbacks, stops and wakings", "why_tests_cant": "the claim is about every timing of responses and callbacks against the clock; a test waits for one, and a wait that should not end cannot be tested to its end", "anchors": ["malcolm/core/context.py: Context.wait_all_futures, Context.sleep, Context._service_futures", "malcolm/core/future.py: Future.result, Future.exception", "malcolm/core/concurrency.py: Queue.get"]}
{"id": "C115", "title": "Subscribers are told everything, in order, whatever the other subscribers do", "statement": "Whoever subscribes to a field is told its value, every change after that, and once that it has ended, each once and in that order, however many threads change the field; once all has been told the last value is that of the field, and nothing is told after the end. A callback that fails, waits or changes the field itself does not change what the other subscribers are told, and whoever changed the field is not told of the failure.", "quantifier": "every number of subscribers and threads, every order of changes, subscriptions, their ends and callbacks, and every choice of callbacks that raise, wait or change the field", "why_tests_cant": "callbacks run after the lock of the block has been released, so what a subscriber sees depends on how the callbacks of all the others interleave with the changes; tests have one thread and callbacks that do nothing", "anchors": ["malcolm/core/notifier.py: Notifier.__exit__, Notifier._callback_responses, Notifier.handle_subscribe, Notifier.handle_unsubscribe", "malcolm/core/controller.py: Controller._handle_request"]}
{"id": "C116", "title": "A scan that is stopped stops its detectors", "statement": "When a scan becomes Aborted, Disabled, Ready, Paused or Armed, or has finished a run, so have its detectors: after abort() they are Aborted, after disable() Disabled, after reset() Ready (those that were unusable when the process started excepted), after configure() those that take part are Armed, after pause() they stand still, after a run their runs are over. abort() of a scan ends with the scan Aborted whatever it was doing, a scan in Fault has no detector that takes frames, and a detector that takes no part neither is touched by the scan nor keeps it from being configured, paused or aborted.", "quantifier": "every number of detectors, every history of calls of the scan and, between them, of the detectors by others, every order in which detectors end or fail what they do", "why_tests_cant": "the outcome depends on the state that each detector is in when the call reaches it; tests have one detector that answers at once", "anchors": ["malcolm/modules/scanning/parts/detectorchildpart.py: DetectorChildPart.on_abort, on_reset, on_seek, on_run, on_post_run, on_configure", "malcolm/modules/builtin/parts/childpart.py: ChildPart.on_reset, on_disable, reload", "malcolm/modules/scanning/controllers/runnablecontroller.py: RunnableController.abort, pause, do_configure, do_run, do_disable"]}
{"id": "C117", "title": "The blocks of a process get going together", "statement": "When a process starts, or blocks are added to one, a block becomes Ready exactly if its own parts and the rest of its initialisation succeed and all its children are there and become Ready; otherwise it is in Fault. Its layout is set and its initial design loaded when all its children are Ready. The order in which the blocks are given, and the time that each takes, make no difference; the start always comes to an end, blocks that were there before are left alone, and a block that is reset after it has failed to start is then as if it had started well.", "quantifier": "every set of blocks with every relation of parents and children, circles included, every choice of which parts fail, every order of events", "why_tests_cant": "each block starts in its own thread and watches its children do so; tests start one or two blocks whose children are Ready at once", "anchors": ["malcolm/core/process.py: Process.start, _start_controllers, _run_hook, add_controllers", "malcolm/modules/builtin/controllers/statefulcontroller.py: StatefulController.init, do_init, reset, disable", "malcolm/modules/builtin/controllers/managercontroller.py: ManagerController.do_init", "malcolm/modules/builtin/parts/childpart.py: ChildPart.on_init", "malcolm/modules/builtin/util.py: wait_for_stateful_block_init"]}
{"id": "C118", "title": "disable() and reset() reach everything that is shown beneath a block", "statement": "After disable() of a block returns, it and everything shown beneath it, its children, their children and so on, is Disabled; after reset() returns everything shown is Ready. If something raises on the way the block is in Fault, and once nothing goes wrong any more one more disable() or reset() puts all of them into the state asked for. What the layouts hide is left alone, and follows when it is shown again.", "quantifier": "every tree of blocks, every history of calls and changes of layouts, every choice of which blocks fail when, and of which others have been called by then", "why_tests_cant": "the outcome depends on the states of all blocks beneath when the call is made; tests have one child and one call", "anchors": ["malcolm/modules/builtin/parts/childpart.py: ChildPart.on_disable, on_reset", "malcolm/modules/builtin/controllers/managercontroller.py: ManagerController.create_part_contexts, set_layout", "malcolm/modules/builtin/controllers/statefulcontroller.py: StatefulController.disable, reset, try_stateful_function"]}
{"id": "C119", "title": "When a process is stopped every block that was not Disabled has its DisableHooks run and ends Disabled", "statement": "When a process is stopped, the DisableHooks of each of its blocks that is not Disabled are run, once, and the block ends Disabled; a block that is Disabled already is left alone. This does not depend on the order in which the blocks halt, nor on which of them are children of others, and stopping comes to an end, whatever raises.", "quantifier": "every set of blocks and every relation of parent and child among them, every choice of which are Ready, Disabled or in Fault, every order of the steps of the threads, every choice of which parts raise", "why_tests_cant": "all blocks halt at the same time in threads of their own, and each tells its children to disable too: the outcome depends on the order of the steps, which tests do not choose", "anchors": ["malcolm/core/process.py: Process.stop, Process._run_hook", "malcolm/modules/builtin/controllers/statefulcontroller.py: StatefulController.halt, disable, try_stateful_function, transition", "malcolm/modules/builtin/parts/childpart.py: ChildPart.on_disable, on_halt"]}
{"id": "C120", "title": "The record of a method is that of one call, the last to end, and time stamps tell when", "statement": "What a client reads of a method is one call: `took` has what that call was given, completed with defaults, which of it was given and when the call came; `returned` has what that same call gave and when it ended, or the message of its failure as an alarm. It is the last call to end, however calls overlap, and it never ends before it came. The caller is told what the method did. The time stamp of an attribute is that of the last time its value was set, to the nanosecond, and later times have no earlier stamps.", "quantifier": "every description of a method, every history of calls that overlap in any way, of results and failures, of the method being described anew or becoming writeable or not; every time; every history of changes of an attribute", "why_tests_cant": "the functions of methods run without the lock, so any number of calls overlap and end in any order, and the description of a method may change while calls run; the record is made at the end of each", "anchors": ["malcolm/core/controller.py: Controller._handle_post, Controller.update_method_logs", "malcolm/core/models.py: MapMeta.validate, MethodLog, MethodModel, AttributeModel", "malcolm/core/timestamp.py: TimeStamp", "malcolm/modules/scanning/controllers/runnablecontroller.py: RunnableController.update_configure_params"]}
{"id": "C121", "title": "The layout of a PandA is kept on the PandA", "statement": "The layout of the blocks of a PandA is kept on the PandA itself, as lines of JSON in a table. After every poll the layout attribute shows exactly the blocks that the table has, each where the table says, whoever wrote it: clients of Malcolm, other programs, or a Malcolm before this one. What a client puts is shown at once. A poll never writes the table. After a restart the blocks that were shown are shown where they were.", "quantifier": "every set of blocks, every layout, every history of puts by clients, polls, tables written by others and restarts", "why_tests_cant": "clients, the poll loop, other programs and earlier Malcolms all change the same table, in any order; each write comes back at the next poll and must neither be written again nor change anything; the text is cut into lines at places a regular expression finds", "anchors": ["malcolm/modules/pandablocks/controllers/pandamanagercontroller.py: PandAManagerController.set_layout, PandAManagerController._handle_change, PandAManagerController.handle_changes, PandAManagerController.do_init", "malcolm/modules/builtin/controllers/managercontroller.py: ManagerController.set_layout, ManagerController.do_init", "malcolm/modules/builtin/parts/childpart.py: ChildPart.on_layout"]}
{"id": "C122", "title": "Putting the exports of a block of another Malcolm over pvAccess", "statement": "A client that puts the exports of a block of another Malcolm over pvAccess gets an answer only when its own block has been made anew with the new fields; if the server refuses the exports the put fails. The put of any other attribute ends as the server says.", "quantifier": "every history of any number of puts at the same time, accepted or refused, with answers that come or are cut off, of lost and new connections, of values, timeouts, and of changes that others make on the server", "why_tests_cant": "new exports change the structure of the channel, so the server closes it while it answers; the client takes an error for the sign of that and waits for any making of the block, which may be an earlier one or that of another put", "anchors": ["malcolm/modules/pva/controllers/pvaclientcomms.py: PvaClientComms.sync_proxy, PvaClientComms.send_put", "malcolm/modules/pva/controllers/pvaservercomms.py: BlockHandler.put, BlockHandler.handle, BlockHandler._update_value"]}
{"id": "C123", "title": "Disabling and resetting what talks pvAccess", "statement": "Malcolm's pvAccess server serves its clients when its block says Ready and serves nobody when it says Disabled. A copy of a block of another Malcolm whose health is OK shows the block as it is there, and puts to it are sent when the client's block says Ready.", "quantifier": "every history of starts of the process, disables and resets, with every hook, the start of the server, the making of the context and the closing of channels going well or not, of proxies asking for their blocks, of changes on the server and of losses of the connection", "why_tests_cant": "what is made when the process starts is taken down by disable and not made again by reset; tests start, use and stop, once and in that order", "anchors": ["malcolm/modules/builtin/controllers/statefulcontroller.py: StatefulController.init, disable, reset, try_stateful_function", "malcolm/modules/pva/controllers/pvaservercomms.py: PvaServerComms.do_init, do_disable", "malcolm/modules/pva/controllers/pvaclientcomms.py: PvaClientComms.do_init, do_disable, sync_proxy"]}
{"id": "C124", "title": "Preparing a driver that runs all the time, and asking the file server", "statement": "When a configure has ended well a driver that is meant to run all the time acquires in Continuous mode; one that did so before is not stopped, set or started. A configure fails if the monitor of a file server says that it is not well, unless errors are not wanted.", "quantifier": "every state of the driver, every interleaving of the part with starts and stops of the driver, with others who put its mode and with timeouts; every outcome of the check of the monitor", "why_tests_cant": "the driver is looked at in two steps and told three things one after the other while it, and others, go on; a test has one driver that obeys at once", "anchors": ["malcolm/modules/ADEthercat/parts/ethercatdriverpart.py: EthercatDriverPart._setup_driver, on_configure", "malcolm/modules/scanning/parts/directorymonitorpart.py: DirectoryMonitorPart.check_directories"]}
{"id": "C125", "title": "Resetting a block brings the blocks of its children back", "statement": "A reset that goes well brings a block and the blocks of its children back to Ready, from Fault and from Disabled, whatever happened before; while nobody else calls the child, a block that says Ready has a child that is Ready.", "quantifier": "every history of disables and resets of the block and of its child, with the child and the other parts doing well or not and the part being cut off or not, of children that fall over by themselves and of puts by anybody", "why_tests_cant": "the reset hook of one part is taken over by a method of the same name that was written for other hooks; its tests do not reset the block with a child that has states", "anchors": ["malcolm/modules/builtin/parts/childpart.py: ChildPart.setup, on_disable, on_reset", "malcolm/modules/scanning/parts/attributeprerunpart.py: AttributePreRunPart.setup, on_reset", "malcolm/modules/builtin/controllers/statefulcontroller.py: StatefulController.disable, reset, add_block_field", "malcolm/core/controller.py: Controller.check_field_writeable"]}
{"id": "C126", "title": "Any camelCase name will do for an export", "statement": "Exports can be put under any names that are camelCase, not those of the block's own fields and each used once, and can be put back: each put goes well, the block has its own fields and those of the last put, and what is told of them is told under the name of the block.", "quantifier": "every history of puts of exports, of any number and with any names", "why_tests_cant": "a field is kept as an attribute of a Python object that has attributes of its own; which names collide, and what a half-made put leaves behind for the next ones, is seen only over all names and histories", "anchors": ["malcolm/core/models.py: BlockModel.set_endpoint_data, BlockModel.remove_endpoint, Model.notifier, Model.path", "malcolm/modules/builtin/controllers/managercontroller.py: ManagerController.set_exports, update_block_endpoints", "malcolm/core/camel.py: CAMEL_RE"]}
