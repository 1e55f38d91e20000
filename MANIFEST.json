{
 "claims": [
  {
   "property": "C01",
   "status": "proved",
   "theorems": [
    "Verif.Props.Runnable.shown_follow_edges",
    "Verif.Props.Runnable.shown_first",
    "Verif.Props.Runnable.stepAt_edge",
    "Verif.Props.States.runnable_transition_iff",
    "Verif.Props.States.manager_transition_iff",
    "Verif.Props.States.stateful_transition_iff",
    "Verif.Props.States.possible_states_exact"
   ],
   "note": "All histories of calls of a runnable block running at the same time, all orders of their steps and all outcomes of hooks; progress reports do not touch the state and are not events of this model."
  },
  {
   "property": "C02",
   "status": "proved",
   "theorems": [
    "Verif.Props.States.fault_and_disable_always_allowed",
    "Verif.Props.States.disabled_only_via_disabling",
    "Verif.Props.States.fault_and_disabled_recoverable",
    "Verif.Props.States.ready_reachable"
   ],
   "note": ""
  },
  {
   "property": "C03",
   "status": "proved",
   "theorems": [
    "Verif.Props.Stateful.declared_field_writeable_iff",
    "Verif.Props.Stateful.undeclared_field_writeable_iff",
    "Verif.Props.Stateful.read_only_field_never_writeable",
    "Verif.Props.Stateful.added_field_writeable_too_early"
   ],
   "note": "holds from the first transition after the declaration; before it a freshly added field is writeable whatever the state (added_field_writeable_too_early)"
  },
  {
   "property": "C04",
   "status": "proved",
   "theorems": [
    "Verif.Props.Stateful.health_is_worst_outstanding",
    "Verif.Props.Stateful.controller_health",
    "Verif.Props.Stateful.fault_shows_in_health"
   ],
   "note": ""
  },
  {
   "property": "C05",
   "status": "partial",
   "theorems": [
    "Verif.Props.RunnableEnds.failure_ends_in_fault",
    "Verif.Props.RunnableEnds.failure_ends",
    "Verif.Props.RunnableEnds.ends",
    "Verif.Props.RunnableLive.transitional_moves_partial",
    "Verif.Props.RunnableLive.finished_calls_rest_partial",
    "Verif.Props.RunnableWitness.spurious_abort_configuring",
    "Verif.Props.RunnableWitness.spurious_abort_running",
    "Verif.Props.RunnableWitness.late_pause",
    "Verif.Props.RunnableWitness.late_abort_put",
    "Verif.Props.RunnableWitness.resume_in_armed",
    "Verif.Props.RunnableWitness.old_configure_arms",
    "Verif.Props.RunnableWitness.disable_faults",
    "Verif.Props.RunnableWitness.overtaken_pause_faults",
    "Verif.Props.RunnableWitness.second_pause_faults",
    "Verif.Props.RunnableWitness.early_pause_ignored",
    "Verif.Props.RunnableStops.failure_reaches",
    "Verif.Props.RunnableStops.abort_reaches",
    "Verif.Props.RunnableStops.disable_reaches",
    "Verif.Props.RunnableStops.told_stays",
    "Verif.Props.RunnableWitness.abort_during_reset",
    "Verif.Props.RunnableWitness.abort_during_reset_faults",
    "Verif.Props.RunnableStops.contexts_forget"
   ],
   "note": "Failures end in Fault and calls end as documented, for all histories. That no transitional state is left behind is proved for tame histories only; the witnesses show that the code does leave the block in Configuring or Running otherwise. A part that fails in validate leaves the state as it is. An abort while a configure of a Finished block resets its parts reaches nothing: it returns Aborted while the configure goes on, or both end in Fault (abort_during_reset, abort_during_reset_faults); the cause in general is contexts_forget."
  },
  {
   "property": "C06",
   "status": "partial",
   "theorems": [
    "Verif.Props.Steps.steps_per_run_without_breakpoints",
    "Verif.Props.Steps.steps_per_run_with_breakpoints",
    "Verif.Props.Steps.configured_spec",
    "Verif.Props.Steps.runs_cover_scan",
    "Verif.Props.Steps.breakpoints_miscount_axisless_dimension",
    "Verif.Props.Steps.nonpositive_breakpoints_accepted"
   ],
   "note": "proved for positive breakpoints when every dimension has an axis; the two other theorems show the property is false otherwise"
  },
  {
   "property": "C07",
   "status": "proved",
   "theorems": [
    "Verif.Props.Steps.completed_steps_follow_reports",
    "Verif.Props.Steps.completed_steps_monotone_and_bounded",
    "Verif.Props.Steps.stale_report_counts_after_seek"
   ],
   "note": "within one run; a report left from before a seek counts after it (last theorem)"
  },
  {
   "property": "C08",
   "status": "partial",
   "theorems": [
    "Verif.Props.Steps.pause_goes_to_segment",
    "Verif.Props.Steps.forward_pause_arms_past_the_end"
   ],
   "note": "holds for the pause itself; the run that was interrupted keeps its old plan for what state to go to next (last theorem)"
  },
  {
   "property": "C09",
   "status": "partial",
   "theorems": [
    "Verif.Props.Steps.no_step_skipped_partial",
    "Verif.Props.Steps.rewind_loses_steps",
    "Verif.Props.Steps.forward_pause_arms_past_the_end"
   ],
   "note": "true when a seek stays in the segment being run; false of the code otherwise (witnesses)"
  },
  {
   "property": "C10",
   "status": "proved",
   "theorems": [
    "Verif.Props.Validate.validate_returns_consistent",
    "Verif.Props.Validate.validate_fixpoint",
    "Verif.Props.Validate.validate_gives_up_after_ten",
    "Verif.Props.Validate.untweaked_parameter_unchanged",
    "Verif.Props.Validate.untweaked_comes_back",
    "Verif.Props.Validate.longest_duration_taken"
   ],
   "note": ""
  },
  {
   "property": "C11",
   "status": "partial",
   "theorems": [
    "Verif.Props.Notifier.delta_replay_partial",
    "Verif.Props.Notifier.second_subscriber_sees_stale_table",
    "Verif.Props.Notifier.below_a_dict_is_never_seen"
   ],
   "note": "proved except on paths into dict-valued fields and at or below a table of which single columns are replaced; the code breaks the property there (the other two theorems)"
  },
  {
   "property": "C12",
   "status": "partial",
   "theorems": [
    "Verif.Props.Notifier.last_update_is_current_partial",
    "Verif.Props.Notifier.table_update_is_stale"
   ],
   "note": "same exceptions as C11; the second theorem shows the code sends the old table"
  },
  {
   "property": "C13",
   "status": "partial",
   "theorems": [
    "Verif.Props.Notifier.squash_is_silent",
    "Verif.Props.Notifier.squash_keeps_order",
    "Verif.Props.Notifier.squash_delivers_once",
    "Verif.Props.Notifier.empty_squash_notifies_block_subscribers"
   ],
   "note": "all but one case: leaving an empty squash sends a redundant message to subscribers of the whole block (last theorem)"
  },
  {
   "property": "C14",
   "status": "partial",
   "theorems": [
    "Verif.Props.Notifier.unsubscribe_is_exact",
    "Verif.Props.Notifier.unsubscribe_unknown",
    "Verif.Props.Notifier.others_unaffected_partial",
    "Verif.Props.Notifier.second_subscriber_sees_stale_table"
   ],
   "note": "independence of other subscriptions has the exceptions of C11"
  },
  {
   "property": "C15",
   "status": "partial",
   "theorems": [
    "Verif.Props.Controller.one_response_partial",
    "Verif.Props.Controller.unknown_request_unanswered",
    "Verif.Props.Controller.put_function_raises",
    "Verif.Props.Controller.put_answer"
   ],
   "note": "Get, Put and Post get exactly one Return or Error with their id, whatever the handler does; a request of any other class gets no response (unknown_request_unanswered), so the last clause is false of the code"
  },
  {
   "property": "C16",
   "status": "partial",
   "theorems": [
    "Verif.Props.Controller.put_called_iff_partial",
    "Verif.Props.Controller.put_refused",
    "Verif.Props.Controller.put_ignores_rest_of_path",
    "Verif.Props.Controller.put_stores_validated",
    "Verif.Props.Controller.put_default_setter_succeeds"
   ],
   "note": "path elements after the attribute name are ignored by Put (put_ignores_rest_of_path), so 'names the value' is false of the code; the rest is proved"
  },
  {
   "property": "C17",
   "status": "partial",
   "theorems": [
    "Verif.Props.Controller.validateMap_sound",
    "Verif.Props.Controller.validateMap_complete",
    "Verif.Props.Controller.post_called_only_with_valid",
    "Verif.Props.Controller.post_refused",
    "Verif.Props.Controller.post_called_if_valid",
    "Verif.Props.Controller.python_call_complete",
    "Verif.Props.Controller.published_default_not_filled",
    "Verif.Props.Controller.post_error_after_success",
    "Verif.Props.Controller.post_answer",
    "Verif.Props.Controller.logged_values",
    "Verif.Props.Controller.post_raised",
    "Verif.Props.Controller.post_bad_result"
   ],
   "note": "defaults published in the MethodMeta are not filled in by the request (published_default_not_filled); those of the Python call are (python_call_complete)"
  },
  {
   "property": "C18",
   "status": "partial",
   "theorems": [
    "Verif.Props.Context.resolves_to_first_response",
    "Verif.Props.Context.resolved_once",
    "Verif.Props.Context.wait_returns_when_done",
    "Verif.Props.Context.wait_raises_own_error",
    "Verif.Props.Context.wait_returned_none_failed_partial",
    "Verif.Props.Context.wait_waits_for_something_partial",
    "Verif.Props.Context.nested_wait_hides_error",
    "Verif.Props.Context.nested_wait_hangs",
    "Verif.Props.Context.repeated_future_hangs",
    "Verif.Props.Context.stray_response_raises"
   ],
   "note": "resolution and 'returns only when done' hold for every history; 'raises if one failed' needs that no callback waits, and is refuted otherwise (nested_wait_hides_error)"
  },
  {
   "property": "C19",
   "status": "proved",
   "theorems": [
    "Verif.Props.Context.queue_in_order",
    "Verif.Props.Context.stop_aborts_unless_ignored",
    "Verif.Props.Context.only_stop_aborts",
    "Verif.Props.Context.aborted_ends_wait",
    "Verif.Props.Context.stop_aborts_one_wait"
   ],
   "note": "ignore_stops_before_now is taken as one step: its assignment and its put are not separated"
  },
  {
   "property": "C20",
   "status": "proved",
   "theorems": [
    "Verif.Props.Context.at_most_one_unsubscribe",
    "Verif.Props.Context.unsubscribe_all_leaves_none",
    "Verif.Props.Context.only_subscriptions_unsubscribed",
    "Verif.Props.Context.subscribe_is_made",
    "Verif.Props.Context.no_callback_after_unsubscribe_all",
    "Verif.Props.Context.no_callback_after_unsubscribe"
   ],
   "note": "the last clause assumes that a controller sends no Update after the response that ends the subscription; 'sent' means requested, and goes to the controller if it still exists"
  },
  {
   "property": "C21",
   "status": "proved",
   "theorems": [
    "Verif.Props.Hooks.hooks_returned",
    "Verif.Props.Hooks.hooks_raised",
    "Verif.Props.Hooks.hooks_timedOut",
    "Verif.Props.Hooks.hooks_progress"
   ],
   "note": "a hook that does not stop in time after a failure is given up on (hooks_timedOut)"
  },
  {
   "property": "C22",
   "status": "partial",
   "theorems": [
    "Verif.Props.Fields.camel_pattern_partial",
    "Verif.Props.Fields.registration_accepted_iff",
    "Verif.Props.Fields.registry_is_accepted_in_order",
    "Verif.Props.Fields.owner_fields",
    "Verif.Props.Fields.block_fields_partial",
    "Verif.Props.Fields.part_name_used_once",
    "Verif.Props.Fields.get_field_finds",
    "Verif.Props.Fields.trailing_newline_accepted",
    "Verif.Props.Fields.meta_field_breaks_setup",
    "Verif.Props.Fields.refused_part_leaves_fields"
   ],
   "note": "The pattern lets a trailing newline through; a field called meta breaks the block; a part refused for its name has already registered its fields. Outside these the statement is proved for every sequence of registrations."
  },
  {
   "property": "C23",
   "status": "partial",
   "theorems": [
    "Verif.Props.Process.mri_unique",
    "Verif.Props.Process.duplicate_refused",
    "Verif.Props.Process.started_once_in_order",
    "Verif.Props.Process.all_started_partial",
    "Verif.Props.Process.start_stop_alternate",
    "Verif.Props.Process.publish_sound",
    "Verif.Props.Process.publish_is_current",
    "Verif.Props.Process.unpublished_remembered",
    "Verif.Props.Process.publish_complete_partial",
    "Verif.Props.Process.failed_add_not_started",
    "Verif.Props.Process.added_while_stopping",
    "Verif.Props.Process.cyclic_children_not_published",
    "Verif.Props.Process.published_when"
   ],
   "note": "Controllers before the failing one of a refused add are kept but never started, a controller added during stop is dropped without its stop hook, and blocks in a cycle of children are never published; the rest holds for every history."
  },
  {
   "property": "C24",
   "status": "partial",
   "theorems": [
    "Verif.Props.Metas.validated_has_type_partial",
    "Verif.Props.Metas.conforming_accepted",
    "Verif.Props.Metas.validate_idempotent_partial",
    "Verif.Props.Metas.choice_is_declared",
    "Verif.Props.Metas.undeclared_choice_rejected",
    "Verif.Props.Metas.none_is_accepted",
    "Verif.Props.Metas.no_choices_not_canonical",
    "Verif.Props.Metas.number_meta_accepts_list",
    "Verif.Props.Metas.number_array_of_bare_value",
    "Verif.Props.Metas.choice_by_index",
    "Verif.Props.Metas.bool_of_string",
    "Verif.Props.Metas.bool_of_enum",
    "Verif.Props.Metas.bool_of_int"
   ],
   "note": "numpy casts are a parameter with stated laws; a choice meta with no choices and a number meta given a list are exceptions (last theorems)"
  },
  {
   "property": "C25",
   "status": "partial",
   "theorems": [
    "Verif.Props.Metas.table_accepted_iff",
    "Verif.Props.Metas.rows_round_trip_partial",
    "Verif.Props.Metas.columns_round_trip",
    "Verif.Props.Metas.row_at",
    "Verif.Props.Metas.long_row_is_cut",
    "Verif.Props.Metas.empty_table_rejects_all"
   ],
   "note": "rows longer than the columns are cut (long_row_is_cut); a table meta with no elements rejects every table (empty_table_rejects_all)"
  },
  {
   "property": "C26",
   "status": "partial",
   "theorems": [
    "Verif.Props.Tags.port_read_back_partial",
    "Verif.Props.Tags.colon_rejected",
    "Verif.Props.Tags.line_end_cuts",
    "Verif.Props.Tags.with_source",
    "Verif.Props.Tags.with_source_read",
    "Verif.Props.Tags.sink_hides_source",
    "Verif.Props.Tags.iteration_read_back",
    "Verif.Props.Tags.config_found",
    "Verif.Props.Tags.without_config",
    "Verif.Props.Tags.config_replaced",
    "Verif.Props.Tags.setTags_port",
    "Verif.Props.Tags.setTags_config",
    "Verif.Props.Tags.show_nat"
   ],
   "note": "Values with a colon make the reader raise and values with a line end are cut, for every such value; a sink port tag hides a source port tag that is added later. The rest is proved."
  },
  {
   "property": "C27",
   "status": "partial",
   "theorems": [
    "Verif.Design.design_restored_partial",
    "Verif.Design.design_kept",
    "Verif.Design.hidden_own_fails",
    "Verif.Design.same_source_lost",
    "Verif.Design.lost_export_fails",
    "Verif.Design.json_name_overwrites"
   ],
   "note": "Proved for all parts, layouts, exports and settings under the conditions in the statement (exported fields exported once and still exportable, own config attributes of visible parts, puts of saved values store them and disturb only later iterations). Without them the property is false of the code, as the four named histories show."
  },
  {
   "property": "C28",
   "status": "partial",
   "theorems": [
    "Verif.Modified.unmodified_is_saved",
    "Verif.Modified.modified_differs_partial",
    "Verif.Modified.modified_iff_partial",
    "Verif.Modified.stale_message",
    "Verif.Modified.loaded_table",
    "Verif.Modified.change_while_saving",
    "Verif.Modified.puts_iff",
    "Verif.Modified.unsaved_is_modified"
   ],
   "note": "Proved for every history in which operations follow one another: not modified implies every setting the design speaks of, the visible column and the exports are as the design last saved or loaded. Modified implies a difference, or a setting left over from a save or load made while it differed, or a table named by a loaded design; equivalence when there are none. The full equivalence is false of the code: stale_message and loaded_table are histories on which a block is as saved and says it is modified; change_while_saving is a change during a save that is not seen."
  },
  {
   "property": "C29",
   "status": "partial",
   "theorems": [
    "Verif.Exports.fields_are_exports_partial",
    "Verif.Exports.exports_accepted_partial",
    "Verif.Exports.own_field_lost",
    "Verif.Exports.same_name_stuck",
    "Verif.Exports.same_name_stuck_for_ever",
    "Verif.Exports.meta_stuck",
    "Verif.Exports.blank_rejected",
    "Verif.Exports.export_too_early"
   ],
   "note": "For every history of layouts, puts to exports, part reports and loads whose tables ask for different names that are free: the fields of the block are its own, those of parts not hidden and one per row of a visible part that has the field, in order; a put is accepted exactly if its rows name fields of parts and camelCase names, and otherwise changes nothing. False as stated: own_field_lost, same_name_stuck, meta_stuck, blank_rejected, export_too_early."
  },
  {
   "property": "C30",
   "status": "partial",
   "theorems": [
    "Verif.Layout.hidden_source_cut_partial",
    "Verif.Layout.hidden_sink_cut",
    "Verif.Layout.nothing_else_cut",
    "Verif.Layout.table_as_asked",
    "Verif.Layout.hidden_wire_kept",
    "Verif.Layout.empty_name_cuts"
   ],
   "note": "For every history of layouts, port reports and rewirings after the first layout: wires to and of hidden parts are cut, nothing else changes, the table is as asked. False as stated: hidden_wire_kept (a part visible from the start that the first layout does not name keeps its wires when it is hidden), empty_name_cuts. A sink that is not writeable keeps its wire in the code, as nothing_else_cut shows."
  },
  {
   "property": "C31",
   "status": "partial",
   "theorems": [
    "Verif.Props.Trajectory.ticks_half_partial",
    "Verif.Props.Trajectory.ticks_chunks_partial",
    "Verif.Props.Trajectory.chunks_drift"
   ],
   "note": "Within one chunk the cumulative error is at most half a tick at every point; the rounding remainder is dropped at each chunk boundary, so over n chunks the bound is n/2 (and chunks_drift shows half a tick is exceeded)."
  },
  {
   "property": "C32",
   "status": "proved",
   "theorems": [
    "Verif.Props.Trajectory.profile_consistent",
    "Verif.Props.Trajectory.add_spec",
    "Verif.Props.Trajectory.add_straight",
    "Verif.Props.Trajectory.refused_only_first"
   ],
   "note": "For every history of adding points, writing and correcting the last point."
  },
  {
   "property": "C33",
   "status": "proved",
   "theorems": [
    "Verif.Props.Sparse.retained_on_time",
    "Verif.Props.Sparse.stops_harmless",
    "Verif.Props.Sparse.upper_kept",
    "Verif.Props.Sparse.mid_left_out"
   ],
   "note": "For every list of points and every pattern of stops when the profile is full."
  },
  {
   "property": "C34",
   "status": "partial",
   "theorems": [
    "Verif.Props.TrajLoop.visited_once",
    "Verif.Props.TrajLoop.all_visited",
    "Verif.Props.TrajLoop.big_step_stalls",
    "Verif.Props.Seq.batches_cover",
    "Verif.Props.Seq.batches_overlap"
   ],
   "note": "PMAC trajectories for every batch size and history of updates, and the batches of the PandA sequencer. all_visited needs steps that make fewer points than are written at a time; big_step_stalls shows why."
  },
  {
   "property": "C35",
   "status": "proved",
   "theorems": [
    "Verif.Props.PmacUtil.mapping_sound",
    "Verif.Props.PmacUtil.mapping_accepted_iff"
   ],
   "note": "Every layout table; exactness for tables with distinct names."
  },
  {
   "property": "C36",
   "status": "partial",
   "theorems": [
    "Verif.Props.Seq.rows_exact_partial",
    "Verif.Props.Seq.live_count_partial",
    "Verif.Props.Seq.live_total",
    "Verif.Props.SeqFit.repeats_fit",
    "Verif.Props.Seq.rows_made",
    "Verif.Props.Seq.tables_live_partial",
    "Verif.Props.Seq.long_row_loops",
    "Verif.Props.Seq.nearest_ticks"
   ],
   "note": "live_total counts the live triggers for every scan, counting an endless row as none. That the pulses themselves are the required ones needs fewer than 4096 equal steps in a row, as long_row_loops shows."
  },
  {
   "property": "C37",
   "status": "partial",
   "theorems": [
    "Verif.Props.DoubleBuffer.tables_same_partial",
    "Verif.Props.DoubleBuffer.tables_duration_partial",
    "Verif.Props.DoubleBuffer.tables_in_range_partial",
    "Verif.Props.SeqFit.table_repeats_fit",
    "Verif.Props.DoubleBuffer.loads_exact",
    "Verif.Props.DoubleBuffer.loads_one",
    "Verif.Props.DoubleBuffer.loads_alternate",
    "Verif.Props.DoubleBuffer.multiple_loops",
    "Verif.Props.DoubleBuffer.loop_in_the_middle_fails",
    "Verif.Props.DoubleBuffer.short_pulse_negative",
    "Verif.Props.DoubleBuffer.loads_none"
   ],
   "note": "For every stream of rows in which only the last row is endless; loop_in_the_middle_fails, multiple_loops and short_pulse_negative show the cases in which the code breaks the property."
  },
  {
   "property": "C38",
   "status": "partial",
   "theorems": [
    "Verif.Props.PandATable.bits_placed_partial",
    "Verif.Props.PandATable.round_trip_partial",
    "Verif.Props.PandATable.top_word_missing",
    "Verif.Props.PandATable.shifted_out",
    "Verif.Props.PandATable.sign_lost"
   ],
   "note": "Proved where every field lies inside the words of a row and fits its column type; the three negations show the code fails outside that."
  },
  {
   "property": "C39",
   "status": "partial",
   "theorems": [
    "Verif.Props.PandAClient.matched_partial",
    "Verif.Props.PandAClient.ascii_decodes",
    "Verif.Props.PandAClient.matched_ascii",
    "Verif.Props.PandAClient.failed_send_slips",
    "Verif.Props.PandAClient.cut_character_ends",
    "Verif.Props.PandAClient.decode_iff",
    "Verif.Props.PandAClient.matched_text_partial",
    "Verif.Props.PandAClient.stray_reply_ends"
   ],
   "note": "For ASCII replies in any pieces, for any replies in pieces of whole characters, and sends that succeed; the negations show what happens otherwise: a character split between two pieces ends the loop."
  },
  {
   "property": "C40",
   "status": "proved",
   "theorems": [
    "Verif.Props.PandAPoll.every_report_is_an_edge",
    "Verif.Props.PandAPoll.settles",
    "Verif.Props.PandAPoll.no_spurious_edge"
   ],
   "note": "Each bit is reported at most once in a poll, as the PandA does."
  },
  {
   "property": "C41",
   "status": "partial",
   "theorems": [
    "Verif.Props.PandABusses.scaled_partial",
    "Verif.Props.PandABussesSet.report_brings_up_to_date",
    "Verif.Props.PandABits.written_scale_stale"
   ],
   "note": "Proved for any history of polls, and after any report whatever happened before; a written scale leaves the value stale until then (witness)."
  },
  {
   "property": "C42",
   "status": "proved",
   "theorems": [
    "Verif.Props.WebServer.answered_to_sender",
    "Verif.Props.WebServer.answered_once",
    "Verif.Props.WebServer.nothing_after_the_end",
    "Verif.Props.WebClients.duplicate_rejected",
    "Verif.Props.WebClients.clients_apart",
    "Verif.Props.WebClients.unsubscribed_id_rejected",
    "Verif.Props.WebClients.failed_id_rejected",
    "Verif.Props.WebClients.unsubscribe_overtakes"
   ],
   "note": "Each response goes to the connection whose message it answers, with its id; each message gets at most one value or error, and exactly one unless it is still with a controller; an id is never free again while the client is connected, which is stronger than the statement and a disagreement (unsubscribed_id_rejected, failed_id_rejected)."
  },
  {
   "property": "C43",
   "status": "partial",
   "theorems": [
    "Verif.Props.Proxy.mirror_partial",
    "Verif.Props.Proxy.regenerate_exact",
    "Verif.Props.ProxyRemote.proxy_follows_partial",
    "Verif.Props.ProxyRemote.later_follows",
    "Verif.Props.ProxyRemote.added_field_missing",
    "Verif.Props.ProxyRemote.removed_field_stays",
    "Verif.Props.ProxyRemote.column_lost"
   ],
   "note": "The proxy equals the remote block after the first whole update and any changes of values below its fields, also composed with the notifier of the remote block. False of the code for fields added or removed later and for single columns of a table: witnesses."
  },
  {
   "property": "C44",
   "status": "partial",
   "theorems": [
    "Verif.Props.Exposure.exposure_fits_partial",
    "Verif.Props.Exposure.min_exposure_can_exceed",
    "Verif.Props.Exposure.requested_exposure_kept",
    "Verif.Props.Exposure.zero_asks_for_longest",
    "Verif.Props.Exposure.minimum_duration_inverse",
    "Verif.Props.Exposure.maximum_exposure_of_minimum_duration"
   ],
   "note": "The exposure fits in the frame duration unless the minimum exposure does not, in which case it is used all the same (min_exposure_can_exceed)."
  },
  {
   "property": "C45",
   "status": "proved",
   "theorems": [
    "Verif.Props.Detector.ids_never_reused",
    "Verif.Props.Detector.labels_in_step",
    "Verif.Props.Detector.progress_is_true"
   ],
   "note": "Driver, labeller and HDF writer over every history of windows, pauses and seeks of a scan."
  },
  {
   "property": "C46",
   "status": "proved",
   "theorems": [
    "Verif.Props.Detector.positions_once_in_order",
    "Verif.Props.Detector.position_ids",
    "Verif.Props.Detector.all_positions_sent",
    "Verif.Props.Detector.no_load_while_loading"
   ],
   "note": "For every schedule of queue updates and completions of puts."
  },
  {
   "property": "C47",
   "status": "partial",
   "theorems": [
    "Verif.Props.ScanRunner.finished_run_partial",
    "Verif.Props.ScanRunner.smooth_run_finishes",
    "Verif.Props.ScanRunner.counters_partial",
    "Verif.Props.ScanRunner.counters_start_at_zero",
    "Verif.Props.ScanRunner.completed_is_configured",
    "Verif.Props.ScanRunner.all_entries_loaded",
    "Verif.Props.ScanRunner.counters_differ_for_a_moment",
    "Verif.Props.ScanRunner.attempt_not_counted",
    "Verif.Props.ScanRunner.goes_on_after_abort",
    "Verif.Props.ScanRunner.same_name_lost"
   ],
   "note": "Between the two updates of a scan the counters differ by one; a scan whose report line cannot be written is not counted; abort does not stop the runner."
  },
  {
   "property": "C48",
   "status": "partial",
   "theorems": [
    "Verif.Props.Yaml.substitution_exact_partial",
    "Verif.Props.Yaml.text_without_dollar_kept",
    "Verif.Props.Yaml.other_kept",
    "Verif.Props.Yaml.list_itemwise",
    "Verif.Props.Yaml.refused_iff",
    "Verif.Props.Yaml.parameter_bound",
    "Verif.Props.Yaml.parameter_substitution",
    "Verif.Props.Yaml.define_substitution",
    "Verif.Props.Yaml.substituted_again",
    "Verif.Props.Yaml.name_from_substitution",
    "Verif.Props.Yaml.default_not_substituted"
   ],
   "note": "Exact for texts and values in which $ only begins references; values with references are substituted again or not depending on the order."
  },
  {
   "property": "C49",
   "status": "partial",
   "theorems": [
    "Verif.Props.Odin.shapes_round_robin_partial",
    "Verif.Props.Odin.block_size_one",
    "Verif.Props.Odin.sum_of_shapes",
    "Verif.Props.Odin.shapes_add_up_iff",
    "Verif.Props.Odin.shapes_too_large",
    "Verif.Props.Odin.one_raw_dataset_too_many"
   ],
   "note": "Holds if and only if the frames left over are fewer than the files; else too many frames are expected. Floats are modelled as rationals."
  },
  {
   "property": "C50",
   "status": "partial",
   "theorems": [
    "Verif.Props.Version.accepted_iff_partial",
    "Verif.Props.Version.accepted_iff_minor",
    "Verif.Props.Version.other_major_refused",
    "Verif.Props.Version.patch_ignored",
    "Verif.Props.Version.parse_release",
    "Verif.Props.Version.bad_text_is_error",
    "Verif.Props.Version.texts_checked"
   ],
   "note": "The patch number is not compared (patch_ignored)."
  },
  {
   "property": "C51",
   "status": "partial",
   "theorems": [
    "Verif.Props.Exposure.untweaked_row_fits_partial",
    "Verif.Props.Exposure.tweaked_row_settles_partial",
    "Verif.Props.Exposure.other_rows_kept",
    "Verif.Props.Exposure.min_exposure_accepted",
    "Verif.Props.Exposure.zero_duration_multiplies_scan"
   ],
   "note": "Rows fit unless the minimum exposure is accepted though it does not fit; a duration of 0 with several frames per step changes the scan."
  },
  {
   "property": "C52",
   "status": "partial",
   "theorems": [
    "Verif.Props.Exposure.pulses_fit_partial",
    "Verif.Props.Exposure.too_wide_refused",
    "Verif.Props.Exposure.negative_width"
   ],
   "note": "A detector without exposure in a slot shorter than the readout margin gets a negative width."
  },
  {
   "property": "C53",
   "status": "partial",
   "theorems": [
    "Verif.Props.PmacUtil.entry_velocity",
    "Verif.Props.PmacUtil.exit_velocity",
    "Verif.Props.PmacUtil.velocity_bounded",
    "Verif.Props.PmacUtil.turnaround_velocities_partial",
    "Verif.Props.PmacUtil.turnaround_wrong_velocity"
   ],
   "note": "False of the code for points whose position is not half way between their bounds: entry and exit are swapped."
  },
  {
   "property": "C54",
   "status": "partial",
   "theorems": [
    "Verif.Props.PmacUtil.guess_enough_partial",
    "Verif.Props.PmacUtil.guess_backwards"
   ],
   "note": "False of the code for an axis that moves backwards."
  },
  {
   "property": "C55",
   "status": "partial",
   "theorems": [
    "Verif.Props.PmacUtil.turnaround_positions_partial",
    "Verif.Props.PmacUtil.posAt_end",
    "Verif.Props.PmacUtil.close_times_fail"
   ],
   "note": "For profiles whose times are equal or distinguishable by np.isclose; times closer than that raise an exception."
  },
  {
   "property": "C56",
   "status": "partial",
   "theorems": [
    "Verif.Props.Seq.turnaround_partial",
    "Verif.Props.Seq.turnaround_same_row",
    "Verif.Props.Seq.stale_turnaround"
   ],
   "note": "turnaround_partial: scans of which no scan row goes over the end of a batch. turnaround_same_row, for every scan: the dead pulse is that of a turnaround from a point of the scan row that has ended, which can be the last point of an earlier batch instead of the last point of the row. stale_turnaround shows such a scan, whose dead pulse is that of another turnaround."
  },
  {
   "property": "C57",
   "status": "proved",
   "theorems": [
    "Verif.Props.Seq.blind_exact"
   ],
   "note": "For every profile, direction and resolution."
  },
  {
   "property": "C58",
   "status": "proved",
   "theorems": [
    "Verif.Props.PandAPoll.fields_passed_on",
    "Verif.Props.PandAPoll.dest_iff"
   ],
   "note": ""
  },
  {
   "property": "C59",
   "status": "proved",
   "theorems": [
    "Verif.Props.PandABussesSet.rows_written",
    "Verif.Props.PandABussesSet.changes_sent",
    "Verif.Props.PandABussesSet.refused_keeps"
   ],
   "note": "Rows of the written table have distinct names."
  },
  {
   "property": "C60",
   "status": "partial",
   "theorems": [
    "Verif.Props.PandABits.bits_follow",
    "Verif.Props.PandABits.capture_written_partial",
    "Verif.Props.PandABits.left_out_bit_lost",
    "Verif.Props.PandABits.other_row_fails"
   ],
   "note": "Reports: full. Writing: for tables that list every bit once and nothing else; the negations show what goes wrong otherwise."
  },
  {
   "property": "C61",
   "status": "proved",
   "theorems": [
    "Verif.Props.WebClients.may_write_iff",
    "Verif.Props.WebClients.read_only_client",
    "Verif.Props.WebClients.write_checked"
   ],
   "note": "IPv4 addresses as 32 bit words."
  },
  {
   "property": "C62",
   "status": "partial",
   "theorems": [
    "Verif.Props.WebClient.numbered",
    "Verif.Props.WebClient.own_reply",
    "Verif.Props.WebClient.from_server",
    "Verif.Props.WebClient.ended_once",
    "Verif.Props.WebClient.answered_partial",
    "Verif.Props.WebClient.sent_while_disconnected",
    "Verif.Props.WebClient.not_encoded",
    "Verif.Props.WebClient.disable_overtakes_fault",
    "Verif.Props.WebClient.stale_token_hides_fault",
    "Verif.Props.WebClient.late_connection_faults"
   ],
   "note": "That each reply goes to its own request and ends it at most once is proved for every history and any server. That every request that was written is answered is proved for servers that answer what they are asked and clients that are not reset or disabled after an unexpected loss. The rest is false of the code: the five histories."
  },
  {
   "property": "C63",
   "status": "partial",
   "theorems": [
    "Verif.Props.WebClient.ready_is_connected_partial",
    "Verif.Props.WebClient.reset_is_not_enough"
   ],
   "note": "Proved for any number of proper starts and stops, refused connections, and a last unexpected loss. After a reset that follows an unexpected loss it is false of the code (reset_is_not_enough)."
  },
  {
   "property": "C64",
   "status": "partial",
   "theorems": [
    "Verif.Props.Hdf.announced_written_partial",
    "Verif.Props.Hdf.attribute_announced",
    "Verif.Props.Hdf.frames_announced",
    "Verif.Props.Hdf.shape_told",
    "Verif.Props.Hdf.set_points",
    "Verif.Props.Hdf.links_lead",
    "Verif.Props.Hdf.axes_fit",
    "Verif.Props.Hdf.layout_valid",
    "Verif.Props.Hdf.one_source",
    "Verif.Props.Hdf.set_points_elsewhere",
    "Verif.Props.Hdf.axes_misfit",
    "Verif.Props.Hdf.same_name_twice"
   ],
   "note": "Datasets announced are written, unless demand positions go to a file of their own for a Windows server (set_points_elsewhere). That the areaDetector plugin follows its layout and sizes is taken from its documentation. layout_valid needs different names (same_name_twice)."
  },
  {
   "property": "C65",
   "status": "partial",
   "theorems": [
    "Verif.Props.Hdf.translated_partial",
    "Verif.Props.Hdf.refused_iff",
    "Verif.Props.Hdf.replaced_again"
   ],
   "note": "The prefix must not occur again further on in the path: it is replaced there too (replaced_again)."
  },
  {
   "property": "C66",
   "status": "partial",
   "theorems": [
    "Verif.Props.Ca.alarm_says",
    "Verif.Props.Ca.value_shown",
    "Verif.Props.Ca.monitored",
    "Verif.Props.Ca.quiet_when_disabled",
    "Verif.Props.Ca.not_connected_fails",
    "Verif.Props.Ca.choice_put",
    "Verif.Props.Ca.columns_shown_partial",
    "Verif.Props.Ca.severity_sticks",
    "Verif.Props.Ca.gone_unseen",
    "Verif.Props.Ca.put_returns_iff",
    "Verif.Props.Ca.connects"
   ],
   "note": "Full for attributes on one PV. A table of waveforms keeps the worst severity for ever and does not show that a PV is gone (witnesses). What catools gives is taken from its documentation."
  },
  {
   "property": "C67",
   "status": "partial",
   "theorems": [
    "Verif.Props.Ca.paced_partial",
    "Verif.Props.Ca.held_up",
    "Verif.Props.Ca.three_at_once",
    "Verif.Props.Ca.paced_after_quiet_partial",
    "Verif.Props.Ca.four_at_once"
   ],
   "note": "At most 2T/min_delta + 4 updates in any time T; that there is at most one in each min_delta is false (three_at_once)."
  },
  {
   "property": "C68",
   "status": "proved",
   "theorems": [
    "Verif.Props.Ca.action_iff"
   ],
   "note": "The caput itself is taken as done; an update is looked at as soon as it comes."
  },
  {
   "property": "C69",
   "status": "partial",
   "theorems": [
    "Verif.Props.Params.takes_all_parameters",
    "Verif.Props.Params.returns_mirror_takes",
    "Verif.Props.Params.agreed_meta_published",
    "Verif.Props.Params.last_default_published",
    "Verif.Props.Params.default_rows_merged",
    "Verif.Props.Params.accepted_call",
    "Verif.Props.Params.part_gets_its_parameters_partial",
    "Verif.Props.Params.unoffered_fails",
    "Verif.Props.Params.reporting_part_served_partial",
    "Verif.Props.Params.last_report_counts",
    "Verif.Props.Params.published_from_last_reports",
    "Verif.Props.Params.failed_report_keeps",
    "Verif.Props.Params.none_default_not_supplied",
    "Verif.Props.Params.conflicting_meta_not_checked",
    "Verif.Props.Params.early_report"
   ],
   "note": "Parameters whose default is None are not supplied when the client leaves them out: none_default_not_supplied is the counterexample, and the theorems require such parameters in the call. When parts publish different types for one parameter only the published one is checked: conflicting_meta_not_checked."
  },
  {
   "property": "C70",
   "status": "partial",
   "theorems": [
    "Verif.Props.DetStep.in_step_partial",
    "Verif.Props.DetStep.explicit_pause_sane",
    "Verif.Props.DetStep.reports_whole_steps",
    "Verif.Props.DetStep.progress_is_current",
    "Verif.Props.DetStep.seek_misplaces_frames",
    "Verif.Props.DetStep.breakpoints_misplace_frames",
    "Verif.Props.DetStep.no_axes_refused"
   ],
   "note": "For one frame in each step all histories with sane pauses are covered. For several frames in each step pauses and breakpoints are excluded, because the detector is given steps of the scan instead of frames: seek_misplaces_frames and breakpoints_misplace_frames are the counterexamples."
  },
  {
   "property": "C71",
   "status": "partial",
   "theorems": [
    "Verif.Props.Pva.back_conv",
    "Verif.Props.Pva.conv_some",
    "Verif.Props.Pva.channel_shows_block_partial",
    "Verif.Props.Pva.value_change_shown",
    "Verif.Props.Pva.new_client_sees_block",
    "Verif.Props.Pva.closed_by_deletion",
    "Verif.Props.Pva.removed_field_stays",
    "Verif.Props.Pva.labels_go_stale",
    "Verif.Props.Pva.none_becomes_empty"
   ],
   "note": "The channel is proved to show the block for changes that keep types and take no fields away. A field that is taken away from a structure stays in the channel (removed_field_stays), the labels of tables do not follow (labels_go_stale), and None in a list becomes an empty dictionary (none_becomes_empty)."
  },
  {
   "property": "C72",
   "status": "proved",
   "theorems": [
    "Verif.Props.Pva.put_writes_one",
    "Verif.Props.Pva.put_refused"
   ],
   "note": "Every put to the channel of a block, after every history of the block and its channel."
  },
  {
   "property": "C73",
   "status": "partial",
   "theorems": [
    "Verif.Props.PandABlock.made",
    "Verif.Props.PandABlock.made_as_documented",
    "Verif.Props.PandABlock.actions_are_methods",
    "Verif.Props.PandABlock.busses_elsewhere",
    "Verif.Props.PandABlock.one_attribute_each",
    "Verif.Props.PandABlock.shows_last_told",
    "Verif.Props.PandABlock.shows_last_told_partial",
    "Verif.Props.PandABlock.meaning_stays",
    "Verif.Props.PandABlock.link_follows",
    "Verif.Props.PandABlock.link_leads_to_output",
    "Verif.Props.PandABlock.health_follows",
    "Verif.Props.PandABlock.puts_are_sent",
    "Verif.Props.PandABlock.icon_fields",
    "Verif.Props.PandABlock.icon_drawn",
    "Verif.Props.PandABlock.icon_current_partial",
    "Verif.Props.PandABlock.bad_value_hides_others",
    "Verif.Props.PandABlock.late_put_hides_report",
    "Verif.Props.PandABlock.put_leaves_icon",
    "Verif.Props.PandABlock.help_field_unmade",
    "Verif.Props.PandABlock.every_block_has"
   ],
   "note": "Proved for all field data and histories, as to what is heard of each report. The code differs from the property: a value that an attribute refuses hides the rest of its report (bad_value_hides_others), the answer to a put can hide a newer report (late_put_hides_report), a put leaves the link and the icon until the next report (put_leaves_icon)."
  },
  {
   "property": "C74",
   "status": "partial",
   "theorems": [
    "Verif.Props.PandALife.one_loop",
    "Verif.Props.PandALife.disabled_is_quiet",
    "Verif.Props.PandALife.polled_is_connected",
    "Verif.Props.PandALife.ready_has_blocks",
    "Verif.Props.PandALife.ready_is_polled_partial",
    "Verif.Props.PandALife.failed_poll_is_final",
    "Verif.Props.PandALife.disable_disables",
    "Verif.Props.PandALife.disable_then_reset",
    "Verif.Props.PandALife.blocks_made_once",
    "Verif.Props.PandALife.ready_has_all_blocks_partial",
    "Verif.Props.PandALife.ready_is_laid_out_partial",
    "Verif.Props.PandALife.ready_not_polled",
    "Verif.Props.PandALife.some_blocks_never_made",
    "Verif.Props.PandALife.reset_leaves_out_layout",
    "Verif.Props.PandALife.failed_poll_shows"
   ],
   "note": "The code does not keep the whole claim: after a failed poll a reset makes the block Ready without polling (ready_not_polled), blocks that could not be made at the start are never made (some_blocks_never_made), and a reset after a failed init leaves out the layout (reset_leaves_out_layout). Proved: without these failures Ready means polled, with all blocks and laid out; at most one loop; Disabled is quiet; disable then reset always recovers polling. init, reset and disable that overlap each other are in C110."
  },
  {
   "property": "C75",
   "status": "partial",
   "theorems": [
    "Verif.Props.TrajSend.delivered",
    "Verif.Props.TrajSend.supplied",
    "Verif.Props.TrajSend.through_scan_points",
    "Verif.Props.TrajSend.progress_true",
    "Verif.Props.TrajSend.complete_mono",
    "Verif.Props.TrajSend.finished_complete",
    "Verif.Props.TrajSend.long_run_up_refused",
    "Verif.Props.TrajOverlap.overlap_delivered",
    "Verif.Props.TrajOverlap.overlap_progress",
    "Verif.Props.TrajOverlap.silent_otherwise"
   ],
   "note": "The code does not keep the claim for every scan: a run-up of more than 4 s is refused when the scan is configured (long_run_up_refused) and a step that makes so many points that the tail-off does not fit beside them stalls (TrajLoop.big_step_stalls), so the theorems assume Fits. Progress is proved for scans with a trigger at every point. Updates that come while an earlier one waits for the controller are covered (overlap_delivered, overlap_progress). Soft limits and the move to the start are not modelled; what the driver does with the arrays is assumed."
  },
  {
   "property": "C76",
   "status": "partial",
   "theorems": [
    "Verif.Props.PvaClient.proxy_shows_block_partial",
    "Verif.Props.PvaClient.disconnect_shown",
    "Verif.Props.PvaClient.join_shows_block",
    "Verif.Props.PvaClient.change_shown",
    "Verif.Props.PvaClient.dead_stays",
    "Verif.Props.PvaClient.put_arrives",
    "Verif.Props.PvaClient.parameter_change_stops_proxy",
    "Verif.Props.PvaClient.order_matters",
    "Verif.Props.PvaClient.health_meta_not_copied"
   ],
   "note": "Proved of a client with one monitor and of a remote block whose structure and types stay the same while the channel is open (p4p's own conversions keep types, a parameter). As long as no callback has raised. That the callback raises, and the proxy then stays as it is for ever, is proved for a change of a method parameter's metadata, and for a choice that changes with its choices in one order of the set; that meta of the health is never copied at connect is proved too, so 'each value' excludes it. RPC (send_post) is C107."
  },
  {
   "property": "C77",
   "status": "partial",
   "theorems": [
    "Verif.Props.RunUp.within_iff",
    "Verif.Props.RunUp.moved_iff",
    "Verif.Props.RunUp.runUp_iff",
    "Verif.Props.RunUp.tail_off_iff",
    "Verif.Props.RunUp.gets_up_to_speed",
    "Verif.Props.RunUp.comes_to_rest",
    "Verif.Props.RunUp.at_speed_partial",
    "Verif.Props.RunUp.speed_at_start",
    "Verif.Props.RunUp.no_faster",
    "Verif.Props.RunUp.row_allowed_partial",
    "Verif.Props.RunUp.slower_at_the_start",
    "Verif.Props.RunUp.middle_not_checked",
    "Verif.Props.RunUp.tail_off_checked_late",
    "Verif.Props.RunUp.configure_outcome"
   ],
   "note": "The code breaks the full statement: when one axis needs a longer run-up than another, the faster one arrives at less than the speed of the point (slower_at_the_start, exact ratio in speed_at_start); points between the first and the last are not compared with the soft limits (middle_not_checked); in a scan too long for one write the tail-off is checked while the scan runs (tail_off_checked_late). What a motor does between two points of a profile is that of velocity mode 'real, previous to current' of the motion controller, stated in Spec/RunUp. Exact numbers instead of floats."
  },
  {
   "property": "C78",
   "status": "partial",
   "theorems": [
    "Verif.Props.RunUp.validated_duration",
    "Verif.Props.RunUp.guessed_duration",
    "Verif.Props.RunUp.aligned_to_ticks",
    "Verif.Props.RunUp.aligned_close",
    "Verif.Props.RunUp.aligned_again",
    "Verif.Props.RunUp.aligned_pos",
    "Verif.Props.RunUp.content_with_tweak",
    "Verif.Props.RunUp.aligned_shorter",
    "Verif.Props.RunUp.settling_refused"
   ],
   "note": "The code breaks the last clause: the aligned duration can be shorter than the one asked for, and then the exposure part refuses a scan that a longer duration would suit (settling_refused). calculate_generator_duration is an input, any number that is not negative. Exact numbers instead of floats."
  },
  {
   "property": "C79",
   "status": "partial",
   "theorems": [
    "Verif.Props.Datasets.panda_reported_partial",
    "Verif.Props.Datasets.driver_reported",
    "Verif.Props.Datasets.driver_defined",
    "Verif.Props.Datasets.stats_defined",
    "Verif.Props.Datasets.recorded_announced",
    "Verif.Props.Datasets.recorded_apart_partial",
    "Verif.Props.Datasets.same_dataset_twice",
    "Verif.Props.Datasets.bad_name_announced"
   ],
   "note": "Announced, defined and stored: proved. Each dataset has its value only: proved for tables that give different names; the code does not check that they do (same_dataset_twice). Names are refused if they are not good ones, except for a position of which only the minimum and maximum are captured (bad_name_announced)."
  },
  {
   "property": "C80",
   "status": "proved",
   "theorems": [
    "Verif.Props.LutIcon.icon_drawn",
    "Verif.Props.LutIcon.one_gate",
    "Verif.Props.LutIcon.icon_true",
    "Verif.Props.LutIcon.gate_shown",
    "Verif.Props.LutIcon.arrows"
   ],
   "note": "The table of icons is computed by the model as by the code; a fact about its 126 entries is evaluated by the kernel, and carried to all functions by a lemma on looking up."
  },
  {
   "property": "C81",
   "status": "partial",
   "theorems": [
    "Verif.Props.MotorPorts.shown_told_partial",
    "Verif.Props.MotorPorts.put_assigns",
    "Verif.Props.MotorPorts.put_unassigns",
    "Verif.Props.MotorPorts.choices_iff",
    "Verif.Props.MotorPorts.linked_iff",
    "Verif.Props.MotorPorts.out_shown",
    "Verif.Props.MotorPorts.compound_shown",
    "Verif.Props.MotorPorts.compound_refused",
    "Verif.Props.MotorPorts.named_zero_refused",
    "Verif.Props.MotorPorts.named_zero_shown",
    "Verif.Props.MotorPorts.unassigned_invalid",
    "Verif.Props.MotorPorts.compound_zero",
    "Verif.Props.MotorPorts.reset_monitors"
   ],
   "note": "Partial because the code does not do it in full: where the first port has a name, a motor that is not assigned makes a reset fail or goes on showing its old assignment (named_zero_refused, named_zero_shown); after a put of nothing that is read back, an invalid alarm is shown (unassigned_invalid); axis number 0 of a compound motor is shown as Z (compound_zero). Proved for all other histories."
  },
  {
   "property": "C82",
   "status": "partial",
   "theorems": [
    "Verif.Props.CsMove.starts_together_partial",
    "Verif.Props.CsMove.returned_started",
    "Verif.Props.CsMove.nothing_started",
    "Verif.Props.CsMove.returns",
    "Verif.Props.CsMove.port_accepted_iff",
    "Verif.Props.CsMove.late_axis",
    "Verif.Props.CsMove.split_by_other",
    "Verif.Props.CsMove.left_deferred",
    "Verif.Props.CsMove.stale_started",
    "Verif.Props.CsMove.port_of_other",
    "Verif.Props.CsMove.sequence_started"
   ],
   "note": "Partial because the code does not do it in full: an axis whose attribute shows the demand already is not waited for and may start late (late_axis); two calls at a time start axes of each other (split_by_other); a call that fails leaves moves deferred, and the next one starts what was left (left_deferred, stale_started); CS 2 accepts the port of CS 12 (port_of_other). Proved for one call at a controller at rest, all orders and failures, and for any number of calls one after the other that return (sequence_started). What the controller does with deferred moves is taken from its description."
  },
  {
   "property": "C83",
   "status": "partial",
   "theorems": [
    "Verif.Props.BeamSelector.exposures_iff",
    "Verif.Props.BeamSelector.same_refused",
    "Verif.Props.BeamSelector.validate_settles",
    "Verif.Props.BeamSelector.configure_iff",
    "Verif.Props.BeamSelector.cycles_partial",
    "Verif.Props.BeamSelector.resumed_wrong"
   ],
   "note": "Partial because the code does not do it in full: completed steps are not doubled, so a scan that is resumed after an odd number of steps begins with the wrong half of a cycle (resumed_wrong). Proved for the beginning and for even numbers of completed steps. What scanpointgenerator makes of a line of one point is taken from its description."
  },
  {
   "property": "C84",
   "status": "partial",
   "theorems": [
    "Verif.Props.FileWrite.ids_come_last",
    "Verif.Props.FileWrite.id_is_newest",
    "Verif.Props.FileWrite.ids_increase_partial",
    "Verif.Props.FileWrite.completed_in_file_partial",
    "Verif.Props.FileWrite.write_ok",
    "Verif.Props.FileWrite.frame_lost",
    "Verif.Props.FileWrite.ids_reused"
   ],
   "note": "What readers find and the newest id are proved for every history. The rest is proved for histories in which a run is only paused at the steps completed or within that run, and in which other parts report after the first report of the detector. Otherwise it is false of the code: if another part is the first to report, a pause makes the scan skip a point the detector has not written, and the scan ends as completed (frame_lost); a run sent to a later run ends Armed and does its points again with the same ids (ids_reused). HDF5 is assumed to show what was flushed and nothing else."
  },
  {
   "property": "C85",
   "status": "partial",
   "theorems": [
    "Verif.Props.Motion.points_travelled_partial",
    "Verif.Props.Motion.configured_at_start_partial",
    "Verif.Props.Motion.move_ends",
    "Verif.Props.Motion.served_late",
    "Verif.Props.Motion.paused_move_goes_on"
   ],
   "note": "Proved for all histories in which, of the two calls made for a point, the one to the lower bound is served first, and a scan is configured only when no call is going on. Without the first the axis may end at the lower bound (served_late); without the second, that is after a pause in the middle of a point, the old call goes on and the axis is not at the start when the scan is (paused_move_goes_on)."
  },
  {
   "property": "C86",
   "status": "partial",
   "theorems": [
    "Verif.Props.DetArm.one_frame_per_step_partial",
    "Verif.Props.DetArm.xmap_loses_triggers",
    "Verif.Props.DetArm.stopped_loses_triggers",
    "Verif.Props.DetArm.starts_at_zero"
   ],
   "note": "Proved for the standard driver part in every trigger mode, and for the others in scans of one run (the xmap also with breakpoints), for the histories that C09 is proved for. In scans of several runs an xmap, and the detectors that are stopped after each run, lose triggers (witnesses). Latency between trigger and frame is not modelled."
  },
  {
   "property": "C87",
   "status": "partial",
   "theorems": [
    "Verif.Props.FrameTime.driver_period_fits",
    "Verif.Props.FrameTime.driver_validated",
    "Verif.Props.FrameTime.andor_period_fits_partial",
    "Verif.Props.FrameTime.andor_exposure_kept_partial",
    "Verif.Props.FrameTime.andor_tweak_accepted",
    "Verif.Props.FrameTime.andor_exposures_same_partial",
    "Verif.Props.FrameTime.reframe_samples",
    "Verif.Props.FrameTime.reframe_validated_partial",
    "Verif.Props.FrameTime.reframe_tweak_accepted",
    "Verif.Props.FrameTime.tetramm_samples",
    "Verif.Props.FrameTime.andor_too_short",
    "Verif.Props.FrameTime.andor_exposure_cut",
    "Verif.Props.FrameTime.andor_exposure_changes",
    "Verif.Props.FrameTime.reframe_validated_refused"
   ],
   "note": "Proved where the readout fits; the witnesses are durations and exposures that are validated and then refused, cut short or forgotten after the first run. Over the rationals, so without rounding."
  },
  {
   "property": "C88",
   "status": "partial",
   "theorems": [
    "Verif.Props.IocStatus.table_expanded",
    "Verif.Props.IocStatus.solvable",
    "Verif.Props.IocStatus.solution_unique",
    "Verif.Props.IocStatus.dependencies_partial",
    "Verif.Props.IocStatus.health_partial",
    "Verif.Props.IocStatus.down_but_ok",
    "Verif.Props.IocStatus.procserv_gone",
    "Verif.Props.IocStatus.stale_table",
    "Verif.Props.IocStatus.comment_kept"
   ],
   "note": "table_expanded: the single pass over the names, in the order they were first defined, expands every reference to a defined name (each name is gone for good once it was substituted). dependencies_partial: after any updates the table is that of the directory now reported, or the alarm is on. The health is right while the version PV is connected. False and shown so: health goes back to OK when procServ reports after the IOC went down (down_but_ok), procServ is never seen to go (procserv_gone), a RELEASE with only comments leaves the old table (stale_table), comments that do not start a line are read as paths or names (comment_kept)."
  },
  {
   "property": "C89",
   "status": "partial",
   "theorems": [
    "Verif.Props.Shutter.shutter_partial",
    "Verif.Props.Shutter.armed_closed",
    "Verif.Props.Shutter.closing_closes",
    "Verif.Props.Shutter.open_between_runs",
    "Verif.Props.Shutter.open_in_fault",
    "Verif.Props.Shutter.open_when_disabled",
    "Verif.Props.Shutter.open_from_the_start"
   ],
   "note": "Proved for Ready, Paused, Finished and Aborted, for the first Armed after a configure, and for the run hooks; an abort, reset or seek that goes through closes it from every state. False and shown so: it stays open in Fault, in Disabled, between the runs of a scan with several runs, and in Ready if it was open when the block was started. Calls are one at a time: an abort, pause or disable ends what goes on before its hooks start (timeouts of that wait are in the model of C05)."
  },
  {
   "property": "C90",
   "status": "partial",
   "theorems": [
    "Verif.Props.When.equals_iff",
    "Verif.Props.When.wait_for_value_partial",
    "Verif.Props.When.bad_value_raised_once",
    "Verif.Props.When.when_matches",
    "Verif.Props.When.waits_while_undecided",
    "Verif.Props.When.bad_value_raised_elsewhere",
    "Verif.Props.When.wanted_value_not_noticed"
   ],
   "note": "The synchronous call is exact for one thread. Partial: for the asynchronous one a bad value seen by another wait is raised there and the future then ends as if the wanted value had come (bad_value_raised_elsewhere); when the controller has gone the call never ends (wanted_value_not_noticed). Timeouts and callbacks that wait are not modelled here."
  },
  {
   "property": "C91",
   "status": "partial",
   "theorems": [
    "Verif.Props.View.view_made_partial",
    "Verif.Props.View.camel_view_made",
    "Verif.Props.View.field_got",
    "Verif.Props.View.async_got",
    "Verif.Props.View.late_field_got_partial",
    "Verif.Props.View.item_got",
    "Verif.Props.View.call_by_name",
    "Verif.Props.View.positional_as_named_partial",
    "Verif.Props.View.values_put",
    "Verif.Props.View.typeid_field",
    "Verif.Props.View.async_field",
    "Verif.Props.View.late_field_hidden",
    "Verif.Props.View.missing_item_returned",
    "Verif.Props.View.surplus_arguments_dropped",
    "Verif.Props.View.part_put_before_error"
   ],
   "note": "Exactly which blocks can be viewed, which names reach which field, which calls are refused, and that positional arguments have the effect of named ones (through the controller's handling of a Post, C10) are proved. False of the code: a field typeid (or an _async name) makes the view impossible, a late field with the name of a view's function is hidden, a missing item gives a KeyError object, surplus positional arguments are dropped, put_attribute_values may put some values before it refuses."
  },
  {
   "property": "C92",
   "status": "partial",
   "theorems": [
    "Verif.Props.Spawned.get_gives_result",
    "Verif.Props.Spawned.get_after_end",
    "Verif.Props.Spawned.waiter_woken_partial",
    "Verif.Props.Spawned.stop_waits_partial",
    "Verif.Props.Spawned.stop_never_passes_running",
    "Verif.Props.Spawned.second_waiter_stuck",
    "Verif.Props.Spawned.running_after_stop",
    "Verif.Props.Spawned.no_stop_after_timeout"
   ],
   "note": "What get gives is right in every history; a waiter is woken if threads wait one at a time; stop waits for all if the list of functions is not cleared meanwhile. False of the code: a second thread waiting at the same time is never woken; with a clearing (every 1000 spawns) while stop waits, a function may still run when it returns; after a timeout of stop the process can be neither stopped nor started. Not modelled: exceptions that are not Exception, results whose comparison with an object is not a truth value (numpy arrays)."
  },
  {
   "property": "C93",
   "status": "partial",
   "theorems": [
    "Verif.Props.ValParts.accepted_content",
    "Verif.Props.ValParts.unrolled_in_three",
    "Verif.Props.ValParts.objection_refused",
    "Verif.Props.ValParts.unrolling_keeps_runs",
    "Verif.Props.ValParts.unrolling_keeps_runs_without_breakpoints",
    "Verif.Props.ValParts.one_dimension",
    "Verif.Props.ValParts.unrolling_changes_runs_axisless",
    "Verif.Props.ValParts.superset_squashed_again",
    "Verif.Props.ValParts.double_trigger_needs_detectors",
    "Verif.Props.ValParts.quarrel_given_up"
   ],
   "note": "Missing: scanpointgenerator refusing to join dimensions of which some alternate and others do not (the scan is then refused when the generator is prepared, after validate accepted it); parts that guess a duration guess a fixed one. With breakpoints and a dimension without axes unrolling changes the runs (witness)."
  },
  {
   "property": "C94",
   "status": "partial",
   "theorems": [
    "Verif.Props.Xspress.file_complete",
    "Verif.Props.Xspress.announced_there",
    "Verif.Props.Xspress.configure_succeeds",
    "Verif.Props.Xspress.runs_count",
    "Verif.Props.Xspress.chunk_bounds",
    "Verif.Props.Xspress.unequal_channels_refused",
    "Verif.Props.Xspress.few_channels_shifted",
    "Verif.Props.Xspress.nine_writers_refused",
    "Verif.Props.Xspress.uniqueid_never_there",
    "Verif.Props.Xspress.more_pairs_than_writers",
    "Verif.Props.Xspress.images_of_frames_not_written",
    "Verif.Props.Xspress.progress_past_the_end",
    "Verif.Props.Xspress.pause_refused",
    "Verif.Props.Xspress.chunk_one_second",
    "Verif.Props.Xspress.chunk_ends"
   ],
   "note": "Fails (theorems): with fewer channels than writers every channel leads to the next writer's file; with more, but not shared equally, or more than eight writers, configure fails; the unique ids announced are never made; the images are laid out for more frames than are written; with several pairs the progress goes past the end; pause fails. Missing: the arrays vdsgen lays out, the waits on the child and the template of the file name."
  },
  {
   "property": "C95",
   "status": "partial",
   "theorems": [
    "Verif.Props.Kinematics.own_letter",
    "Verif.Props.Kinematics.announced_iff",
    "Verif.Props.Kinematics.announced_there_partial",
    "Verif.Props.Kinematics.minMax_iff",
    "Verif.Props.Kinematics.own_data",
    "Verif.Props.Kinematics.of_unique",
    "Verif.Props.Kinematics.raw_of_scan_partial",
    "Verif.Props.Kinematics.scaled_once",
    "Verif.Props.Kinematics.shifted_once",
    "Verif.Props.Kinematics.other_variables",
    "Verif.Props.Kinematics.first_position_refused",
    "Verif.Props.Kinematics.announced_not_there",
    "Verif.Props.Kinematics.other_coordinate_system",
    "Verif.Props.Kinematics.dotted_name",
    "Verif.Props.Kinematics.default_suffix",
    "Verif.Props.Kinematics.status_suffix_unused",
    "Verif.Props.Kinematics.accepted_iff"
   ],
   "note": "Partial because the code does not keep it: min and max are announced before it is known that they are produced (announced_not_there), so announced_there_partial assumes all three kinds are produced; the coordinate system of the first scan is kept for later scans (other_coordinate_system), so raw_of_scan_partial is about a part not configured before; a raw motor that is first in the positions table is refused (first_position_refused); names with a dot are mixed up (dotted_name); the default suffix gives two colons and the status suffix is ignored. Not modelled: file names, the copied process list and program lines, the set point datasets."
  },
  {
   "property": "C96",
   "status": "partial",
   "theorems": [
    "Verif.Props.Rest.path_of_url",
    "Verif.Props.Rest.asked_unique",
    "Verif.Props.Rest.own_reply",
    "Verif.Props.Rest.only_what_was_asked",
    "Verif.Props.Rest.all_replied",
    "Verif.Props.Rest.comes_to_rest",
    "Verif.Props.Rest.slash_not_reached",
    "Verif.Props.Rest.stopped_never_replied"
   ],
   "note": "Partial because the code does not keep it when the process is stopped: a request that comes in then is never replied to (stopped_never_replied). Names with a slash cannot be reached (slash_not_reached). That a controller gives one response to each Get and Post is C15. Tornado and cothread are modelled from their documentation."
  },
  {
   "property": "C97",
   "status": "partial",
   "theorems": [
    "Verif.Props.TrigWiring.blocks_found",
    "Verif.Props.TrigWiring.blocks_iff",
    "Verif.Props.TrigWiring.compared_right",
    "Verif.Props.TrigWiring.compared_all",
    "Verif.Props.TrigWiring.compare_accepted_iff",
    "Verif.Props.TrigWiring.gate_accepted_iff",
    "Verif.Props.TrigWiring.enabled_only_in_runs_partial",
    "Verif.Props.TrigWiring.frames_iff",
    "Verif.Props.TrigWiring.pulse_accepted_iff",
    "Verif.Props.TrigWiring.values_reach_partial",
    "Verif.Props.TrigWiring.enabled_after_crash",
    "Verif.Props.TrigWiring.enabled_without_reset",
    "Verif.Props.TrigWiring.crossed_exports_accepted"
   ],
   "note": "False as stated, with witnesses: nothing checks which fields the exports of a pulse block come from, so width and delay can be crossed (crossed_exports_accepted); a missing seqReset is ignored, so an abort can leave the sequencers enabled (enabled_without_reset); nothing resets them when a process starts, so after a crash the next tables are written while they are enabled (enabled_after_crash). Proved without these: assuming the fields fit their exports, that seqReset is exported and that the sequencers are not enabled at first. A hook is run as a whole, calls and hooks one at a time."
  },
  {
   "property": "C98",
   "status": "partial",
   "theorems": [
    "Verif.Props.PandATalk.blocks_as_described",
    "Verif.Props.PandATalk.bits_as_described",
    "Verif.Props.PandATalk.table_as_described",
    "Verif.Props.PandATalk.changes_as_reported",
    "Verif.Props.PandATalk.set_as_asked_partial",
    "Verif.Props.PandATalk.all_set_partial",
    "Verif.Props.PandATalk.table_as_asked_partial",
    "Verif.Props.PandATalk.numbers_one_line",
    "Verif.Props.PandATalk.label_gives_command",
    "Verif.Props.PandATalk.replies_shifted"
   ],
   "note": "False as stated, with witnesses: a value with a line end in it, such as a label, is sent as two lines, so the PandA carries out the second as a command (label_gives_command), and its reply is taken for the reply to the next request (replies_shifted). Proved for values of one line. What the PandA answers is a function of the request; that each request gets its own reply is C39."
  },
  {
   "property": "C99",
   "status": "partial",
   "theorems": [
    "Verif.Props.ExportMirror.shown_partial",
    "Verif.Props.ExportMirror.none_raised",
    "Verif.Props.ExportMirror.shown_again",
    "Verif.Props.ExportMirror.label_partial",
    "Verif.Props.ExportMirror.tags_partial",
    "Verif.Props.ExportMirror.shown_writeable_partial",
    "Verif.Props.ExportMirror.put_reaches_partial",
    "Verif.Props.ExportMirror.post_reaches_partial",
    "Verif.Props.ExportMirror.readonly_shown_writeable",
    "Verif.Props.ExportMirror.column_not_shown",
    "Verif.Props.ExportMirror.replaced_not_shown",
    "Verif.Props.ExportMirror.tags_and_label_come_back",
    "Verif.Props.ExportMirror.parameters_refused",
    "Verif.Props.ExportMirror.result_lost",
    "Verif.Props.ExportMirror.info_shown_again",
    "Verif.Props.ExportMirror.put_done_iff"
   ],
   "note": "False as stated, with witnesses: a field that can only be read is shown as writeable (readonly_shown_writeable); a change of some columns of a table raises in the child and is not shown (column_not_shown), and so does a field made anew (replaced_not_shown); tags and label of the child come back when it changes them (tags_and_label_come_back); a method with parameters cannot be called (parameters_refused) and its result is lost (result_lost). Proved: the field is shown right as long as none of the changes raised, and none does but these; a whole value is shown even after that; puts reach the child, and so do calls without parameters. The changes come in the order in which they were made."
  },
  {
   "property": "C100",
   "status": "partial",
   "theorems": [
    "Verif.Props.ChildWatch.names_reported",
    "Verif.Props.ChildWatch.watched_there",
    "Verif.Props.ChildWatch.modified_right",
    "Verif.Props.ChildWatch.watched_partial",
    "Verif.Props.ChildWatch.ports_partial",
    "Verif.Props.ChildWatch.gone_for_good",
    "Verif.Props.ChildWatch.back_not_known",
    "Verif.Props.ChildWatch.port_stays",
    "Verif.Props.ChildWatch.replaced_not_looked_at"
   ],
   "note": "False as stated. A setting that has gone once is never watched again, and if it was saved the child stays modified in it with the value None whatever happens (gone_for_good, for every history); when it comes back its port is not reported and its changes are not told (back_not_known); a field that was a port is reported as one after it has been replaced (port_stays, replaced_not_looked_at). Proved for every history: the names reported, nothing is watched that is not there or twice, and what is watched is modified exactly if it is not as saved. Proved while no field comes back or changes its kind: exactly the saved settings are watched, and the ports are those of the child (the value that comes with an input is the one it had when first seen). Updates do not overlap."
  },
  {
   "property": "C101",
   "status": "partial",
   "theorems": [
    "Verif.Props.WriterStall.done_means_all",
    "Verif.Props.WriterStall.stalled_means_quiet",
    "Verif.Props.WriterStall.steady_not_stalled",
    "Verif.Props.WriterStall.progress_true",
    "Verif.Props.WriterStall.waits_for_first",
    "Verif.Props.WriterStall.stall_noticed",
    "Verif.Props.WriterStall.ends_when_reached",
    "Verif.Props.WriterStall.failure_noticed",
    "Verif.Props.WriterStall.failed_means_start",
    "Verif.Props.WriterStall.stall_reported",
    "Verif.Props.WriterStall.later_run_hurried",
    "Verif.Props.WriterStall.overshoot_stalls",
    "Verif.Props.WriterStall.long_frames_stall",
    "Verif.Props.WriterStall.flush_holds_up",
    "Verif.Props.WriterStall.first_run_frames",
    "Verif.Props.WriterStall.later_run_frames",
    "Verif.Props.WriterStall.later_progress",
    "Verif.Props.WriterStall.on_time_not_stalled",
    "Verif.Props.WriterStall.stall_noticed_in",
    "Verif.Props.WriterStall.unknown_not_stalled",
    "Verif.Props.WriterStall.unknown_stall_noticed"
   ],
   "note": "False as stated: only the first run waits for its first frame, a later one after a seek is said to have stalled (later_run_hurried); the number of frames must be told exactly, passing it does not end the run (overshoot_stalls); in a scan whose points differ in length 120 s are allowed whatever they take (long_frames_stall); a flush that does not return holds the run up (flush_holds_up). Proved for every sequence of updates and every time a flush takes: the run ends well only if told so, stalled only after a silence longer than allowed, failed only if the start failed; a silence ends the run within a second and a flush of the time allowed; with flushes no longer than the time allowed, being told the number ends the run well. Aborts are not modelled."
  },
  {
   "property": "C102",
   "status": "partial",
   "theorems": [
    "Verif.Props.TakePart.trigger_asked",
    "Verif.Props.TakePart.two_refused",
    "Verif.Props.TakePart.one_asker",
    "Verif.Props.TakePart.turnaround_reported",
    "Verif.Props.TakePart.configured_iff_needed",
    "Verif.Props.TakePart.run_iff_needed",
    "Verif.Props.TakePart.one_coordinate_system",
    "Verif.Props.TakePart.triggers_only",
    "Verif.Props.TakePart.guessed_positive",
    "Verif.Props.TakePart.guess_is",
    "Verif.Props.TakePart.refused",
    "Verif.Props.TakePart.other_block_first",
    "Verif.Props.TakePart.validated_not_configured",
    "Verif.Props.TakePart.not_mapped_yet",
    "Verif.Props.TakePart.unreadable_refused"
   ],
   "note": "False as stated: with triggers to give and no axis to move, a block in the layout that is not a motor makes the configure fail if it comes before the first motor (other_block_first); a scan of axes in different coordinate systems is validated without a word and refused when configured (validated_not_configured); an axis going backwards counts for nothing in the duration guessed (C54). The rest is proved for all reports, layouts, axes and histories. The profile is C32, C55, C77 and others."
  },
  {
   "property": "C103",
   "status": "partial",
   "theorems": [
    "Verif.Props.OdinFile.file_complete",
    "Verif.Props.OdinFile.announced_there_partial",
    "Verif.Props.OdinFile.configure_succeeds",
    "Verif.Props.OdinFile.snake_refused",
    "Verif.Props.OdinFile.links_right_partial",
    "Verif.Props.OdinFile.own_file",
    "Verif.Props.OdinFile.not_the_vds",
    "Verif.Props.OdinFile.formats_apart_partial",
    "Verif.Props.OdinFile.runs_count",
    "Verif.Props.OdinFile.one_writer_too_many",
    "Verif.Props.OdinFile.other_secondary_not_there",
    "Verif.Props.OdinFile.uid_links_fixed",
    "Verif.Props.OdinFile.directory_twice",
    "Verif.Props.OdinFile.dotted_formats_share",
    "Verif.Props.OdinFile.pause_refused"
   ],
   "note": "False as stated: the raw datasets of one writer more than there are are announced (one_writer_too_many); a secondary dataset other than sum and uid is announced and never made (other_secondary_not_there); the raw unique ids are looked for under /uid whatever they are called (uid_links_fixed); a directory in the template is entered twice (directory_twice); formats that differ after a dot share their raw files if the template has no extension (dotted_formats_share); pausing is refused (pause_refused). The rest is proved: everything else announced is there, links are right for templates and formats without directories, files are apart for a template with the format once and an extension after it. How many frames each file has is C49; the arrays vdsgen lays out are not modelled."
  },
  {
   "property": "C104",
   "status": "partial",
   "theorems": [
    "Verif.Props.Compose.made_is_described",
    "Verif.Props.Compose.described_is_made",
    "Verif.Props.Compose.one_meaning",
    "Verif.Props.Compose.children_first",
    "Verif.Props.Compose.no_block_in_itself",
    "Verif.Props.Compose.process_is_described",
    "Verif.Props.Compose.described_process_starts",
    "Verif.Props.Compose.failure_told",
    "Verif.Props.Compose.section_accepted_iff",
    "Verif.Props.Compose.broken_not_told",
    "Verif.Props.Compose.duplicate_part_not_told",
    "Verif.Props.Compose.duplicate_mri_not_told"
   ],
   "note": "False as stated only for what is told: no line is told of a file without exactly one controller (broken_not_told), of two parts of the same name (duplicate_part_not_told, only the block is told), or of two blocks of the same mri (duplicate_mri_not_told). The rest is proved for all files, in both directions, against a relational description. Filling in is C48; that a part sets up its fields is C22."
  },
  {
   "property": "C105",
   "status": "partial",
   "theorems": [
    "Verif.Props.DataTable.lists_what_is_written",
    "Verif.Props.DataTable.detectors_agree",
    "Verif.Props.DataTable.different_files_partial",
    "Verif.Props.DataTable.same_file"
   ],
   "note": "The tables are proved for all histories. Different files is proved for parts that fill the name into the template as Python does (HDF and other AreaDetector writers): they raise when the template has no place for the name. It is false for Odin and Xspress, which replace the text %s and write the same file when it is not there (same_file). What each part writes is C78, C95, C103 and others."
  },
  {
   "property": "C106",
   "status": "partial",
   "theorems": [
    "Verif.Props.SysBlock.last_registered",
    "Verif.Props.SysBlock.redirected_exactly_partial",
    "Verif.Props.SysBlock.usual_name",
    "Verif.Props.SysBlock.listed_exactly_partial",
    "Verif.Props.SysBlock.health_told",
    "Verif.Props.SysBlock.version_told_partial",
    "Verif.Props.SysBlock.host_fits",
    "Verif.Props.SysBlock.one_ioc",
    "Verif.Props.SysBlock.started_right",
    "Verif.Props.SysBlock.other_beamline",
    "Verif.Props.SysBlock.two_spaces",
    "Verif.Props.SysBlock.other_area",
    "Verif.Props.SysBlock.not_halted",
    "Verif.Props.SysBlock.ready_without_ioc",
    "Verif.Props.SysBlock.listed_twice",
    "Verif.Props.SysBlock.ready_iff",
    "Verif.Props.SysBlock.calls_refused"
   ],
   "note": "False as stated: only the function registered last for a hook is called, so the one that stops the softIoc takes the place of the one that halts the block (not_halted); a block whose softIoc cannot be started is Disabled, and Ready after a reset() without IOC and status blocks (ready_without_ioc); an IOC listed twice stops the block from getting Ready (listed_twice); two spaces in a list make an IOC without a name (two_spaces); names of other beamlines that end alike are taken for the beamline's (other_beamline); directories that begin like the areas are taken for them (other_area). The rest is proved."
  },
  {
   "property": "C107",
   "status": "partial",
   "theorems": [
    "Verif.Props.PvaCall.field_called",
    "Verif.Props.PvaCall.uri_called",
    "Verif.Props.PvaCall.uri_refused",
    "Verif.Props.PvaCall.no_method",
    "Verif.Props.PvaCall.as_there_partial",
    "Verif.Props.PvaCall.one_value",
    "Verif.Props.PvaCall.no_value",
    "Verif.Props.PvaCall.result_lost",
    "Verif.Props.PvaCall.not_called",
    "Verif.Props.PvaCall.far_partial",
    "Verif.Props.PvaCall.packed_often",
    "Verif.Props.PvaCall.channels",
    "Verif.Props.PvaCall.given_iff",
    "Verif.Props.PvaCall.closed_or_served",
    "Verif.Props.PvaCall.same_pv",
    "Verif.Props.PvaCall.greeting_packed",
    "Verif.Props.PvaCall.list_lost",
    "Verif.Props.PvaCall.other_method",
    "Verif.Props.PvaCall.up_iff"
   ],
   "note": "False as stated: a method that returns one value gives a map with that value, packed once more by each process in between (greeting_packed, one_value, packed_often), and one that returns nothing gives an empty map (no_value); a result that cannot be sent is an error although the method was called (list_lost, result_lost). A URI can name another method than the channel it is sent to (other_method). The rest is proved. Losing the connection during the call is not modelled."
  },
  {
   "property": "C108",
   "status": "partial",
   "theorems": [
    "Verif.Props.Launch.starts_within",
    "Verif.Props.Launch.started",
    "Verif.Props.Launch.start_never_raises",
    "Verif.Props.Launch.start_hangs_iff",
    "Verif.Props.Launch.stopped",
    "Verif.Props.Launch.stop_ends_partial",
    "Verif.Props.Launch.stop_raised",
    "Verif.Props.Launch.stops",
    "Verif.Props.Launch.stop_hangs_iff",
    "Verif.Props.Launch.name_iff",
    "Verif.Props.Launch.name_partial",
    "Verif.Props.Launch.client_iff",
    "Verif.Props.Launch.prompt_has",
    "Verif.Props.Launch.prompts",
    "Verif.Props.Launch.exits_1_iff",
    "Verif.Props.Launch.exits_0_iff",
    "Verif.Props.Launch.quits_partial",
    "Verif.Props.Launch.calls_made",
    "Verif.Props.Launch.interrupted_aborts",
    "Verif.Props.Launch.result_iff",
    "Verif.Props.Launch.start_not_timed",
    "Verif.Props.Launch.stop_not_timed",
    "Verif.Props.Launch.dotted_name",
    "Verif.Props.Launch.does_not_quit",
    "Verif.Props.Launch.slow_hangs"
   ],
   "note": "False as stated: the timeout of start has no effect, and that of stop only on what was spawned, so both can take for ever (start_not_timed, stop_not_timed, start_hangs_iff, stop_hangs_iff). The program stays for ever if starting takes more than 65 s (slow_hangs) or something spawned takes 0.1 s longer than the functions of the blocks (does_not_quit). A name with dots is cut and a file without an ending is refused (dotted_name). The rest is proved."
  },
  {
   "property": "C109",
   "status": "partial",
   "theorems": [
    "Verif.Props.WebFlow.in_order",
    "Verif.Props.WebFlow.all_sent",
    "Verif.Props.WebFlow.backlog",
    "Verif.Props.WebFlow.one_each",
    "Verif.Props.WebFlow.held_iff",
    "Verif.Props.WebFlow.less_left",
    "Verif.Props.WebFlow.goes_on_partial",
    "Verif.Props.WebFlow.all_released_partial",
    "Verif.Props.WebFlow.ten_lost",
    "Verif.Props.WebFlow.once",
    "Verif.Props.WebFlow.told_in_order_partial",
    "Verif.Props.WebFlow.told_all_partial",
    "Verif.Props.WebFlow.told_once_partial",
    "Verif.Props.WebFlow.one_writer",
    "Verif.Props.WebFlow.shown_partial",
    "Verif.Props.WebFlow.overtaken",
    "Verif.Props.WebFlow.not_sent"
   ],
   "note": "False as stated: with two subscriptions and two threads the second subscription is told of a change after the one that followed it and keeps the old value (overtaken), because the tenth caller waits with the rest of its responses in hand and no lock; proved when no change is made before those before it have been handed over, which holds when one thread makes the changes (one_writer, shown_partial). A response that cannot be made into JSON is never answered and its token is lost, so that the tenth caller waits for ever (not_sent); held_iff says exactly when somebody is held up."
  },
  {
   "property": "C110",
   "status": "partial",
   "theorems": [
    "Verif.Props.Overlap.settles",
    "Verif.Props.Overlap.says_what",
    "Verif.Props.Overlap.once",
    "Verif.Props.Overlap.returns_iff",
    "Verif.Props.Overlap.returns_when",
    "Verif.Props.Overlap.stays_disabled",
    "Verif.Props.Overlap.stays",
    "Verif.Props.Overlap.settled_is_quiet_partial",
    "Verif.Props.Overlap.returns_partial",
    "Verif.Props.Overlap.panda_quiet_partial",
    "Verif.Props.Overlap.disabled_but_busy",
    "Verif.Props.Overlap.ready_but_busy",
    "Verif.Props.Overlap.disable_raises",
    "Verif.Props.Overlap.halt_faults",
    "Verif.Props.Overlap.polled_while_disabled",
    "Verif.Props.Overlap.begins",
    "Verif.Props.Overlap.raised"
   ],
   "note": "The second half is false: disable() is taken while reset() is under way and does not stop it. The block is then Disabled with hooks running (disabled_but_busy); after another reset() the first makes it Ready too soon and the second, which worked, puts it in Fault (ready_but_busy); if the reset() ends first disable() raises and the block is in Fault (disable_raises); a process that stops during a disable() leaves the block in Fault (halt_faults); a PandA that is Disabled is connected to and polled (polled_while_disabled). It is proved for calls made one at a time. The first half is proved for all histories."
  },
  {
   "property": "C111",
   "status": "partial",
   "theorems": [
    "Verif.Props.RunWait.waits_iff_paused_partial",
    "Verif.Props.RunWait.one_run_partial",
    "Verif.Props.RunWait.resume_goes_on_partial",
    "Verif.Props.RunWait.abort_ends_partial",
    "Verif.Props.RunWait.disable_ends_partial",
    "Verif.Props.RunWait.waits_to_be_told_partial",
    "Verif.Props.RunWait.told_to_end_partial",
    "Verif.Props.RunWait.second_run_waits",
    "Verif.Props.RunWait.late_fault_waits",
    "Verif.Props.RunWait.late_put_waits",
    "Verif.Props.RunWait.late_hook_waits"
   ],
   "note": "False of all histories: a run() called in Paused gets through, and of two that wait one abort() ends only one (second_run_waits); a call that failed may put the block into Fault long after it has told the run (late_fault_waits); abort() tells the queue of the next configure if the block is reset and configured before (late_put_waits); a run() whose part stops after abort() gave up waits on the queue of the next configure and takes the resume of the next run (late_hook_waits). Proved for all interleavings of the histories of C05 in which no run() begins in Paused or while a call that failed has not yet put the block into Fault."
  },
  {
   "property": "C112",
   "status": "partial",
   "theorems": [
    "Verif.Props.WebChain.shows_past_partial",
    "Verif.Props.WebChain.shows_now_partial",
    "Verif.Props.WebChain.end_to_end_partial",
    "Verif.Props.WebChain.three_arrive",
    "Verif.Props.WebChain.frozen",
    "Verif.Props.WebChain.overtaken_proxy",
    "Verif.Props.WebChain.lost_unseen"
   ],
   "note": "False in two ways: with two threads and two subscriptions the mirrored block ends with an old value (overtaken_proxy), and after a lost connection it shows neither that nor anything new ever again, even when the client is Ready with a new connection (frozen, lost_unseen). Proved for servers on which no change is made before those before it have been handed over, blocks that keep their fields (as for C43), and clients and servers as for C62 (Tame, Honest)."
  },
  {
   "property": "C113",
   "status": "partial",
   "theorems": [
    "Verif.Props.DesignFiles.saved_kept_partial",
    "Verif.Props.DesignFiles.offered_partial",
    "Verif.Props.DesignFiles.offered_loads_partial",
    "Verif.Props.DesignFiles.others_kept_partial",
    "Verif.Props.DesignFiles.crash_partial",
    "Verif.Props.DesignFiles.save_refused",
    "Verif.Props.DesignFiles.not_offered_refused",
    "Verif.Props.DesignFiles.crash_loses",
    "Verif.Props.DesignFiles.slash_overwrites",
    "Verif.Props.DesignFiles.template_overwritten",
    "Verif.Props.DesignFiles.cut_overwrites",
    "Verif.Props.DesignFiles.offered_not_there",
    "Verif.Props.DesignFiles.stray_template"
   ],
   "note": "False as stated: names are not checked, so a save can overwrite designs of other blocks (slash_overwrites), templates and any other file ending in .json (template_overwritten), and a name is cut at .json (cut_overwrites); a file with .json twice is offered under a name without a file (offered_not_there); a stray file among the templates makes each save fail after its file was written (stray_template); a process that ends during a save loses the design, for every design (crash_loses). Proved for names without slash and .json and directories with such designs only, which is then kept by every history. What a design says and what loading does is C27."
  },
  {
   "property": "C114",
   "status": "partial",
   "theorems": [
    "Verif.Props.WaitTime.never_early",
    "Verif.Props.WaitTime.timed_out_missing_partial",
    "Verif.Props.WaitTime.in_time_partial",
    "Verif.Props.WaitTime.quiet_in_time",
    "Verif.Props.WaitTime.result_own",
    "Verif.Props.WaitTime.exception_done_partial",
    "Verif.Props.WaitTime.sleep_long_enough_partial",
    "Verif.Props.WaitTime.sleep_in_time_partial",
    "Verif.Props.WaitTime.sleep_stopped",
    "Verif.Props.WaitTime.never_ends",
    "Verif.Props.WaitTime.exception_never_given",
    "Verif.Props.WaitTime.exception_raises",
    "Verif.Props.WaitTime.sleep_cut_short",
    "Verif.Props.WaitTime.wakes",
    "Verif.Props.WaitTime.sleep_wakes"
   ],
   "note": "Never early, nothing missed for waits that have the queue to themselves, in time up to the time that callbacks take, result() always its own. False as a whole: a subscription whose callback is slow keeps a wait with a timeout going for ever, exception() of a call that is going on raises instead of returning, and a callback that raises TimeoutError ends a sleep of any length."
  },
  {
   "property": "C115",
   "status": "partial",
   "theorems": [
    "Verif.Props.Deliver.once_each",
    "Verif.Props.Deliver.all_told_partial",
    "Verif.Props.Deliver.in_order_partial",
    "Verif.Props.Deliver.shown_partial",
    "Verif.Props.Deliver.overtaken",
    "Verif.Props.Deliver.nested",
    "Verif.Props.Deliver.after_the_end",
    "Verif.Props.Deliver.starved"
   ],
   "note": "Each thing once, or lost to an exception, for every history; all of it if no callback raises; in order and up to date if nothing is changed before what was before has been told. False as a whole: a change made while a callback waits, or by a callback, is told before the one it follows, so that subscribers are left with an old value; an update can follow the Return of an Unsubscribe; a callback that raises keeps all those after it from being told and makes the change itself raise."
  },
  {
   "property": "C116",
   "status": "partial",
   "theorems": [
    "Verif.Props.Stopping.aborted",
    "Verif.Props.Stopping.disabled",
    "Verif.Props.Stopping.ready",
    "Verif.Props.Stopping.armed",
    "Verif.Props.Stopping.run_over",
    "Verif.Props.Stopping.held",
    "Verif.Props.Stopping.abort_ends_partial",
    "Verif.Props.Stopping.abort_refused",
    "Verif.Props.Stopping.reset_ready_partial",
    "Verif.Props.Stopping.left_alone",
    "Verif.Props.Stopping.runs_on",
    "Verif.Props.Stopping.pause_refused",
    "Verif.Props.Stopping.faulty_spoils_abort",
    "Verif.Props.Stopping.abort_while_loading",
    "Verif.Props.Stopping.disabled_spoils_configure",
    "Verif.Props.Stopping.ready_not_reset",
    "Verif.Props.Stopping.run_taken",
    "Verif.Props.Stopping.taken_partly"
   ],
   "note": "What is said of a scan that becomes Aborted, Disabled, Armed or Paused, or has ended a run, is proved of all histories; of Ready that none takes frames or is going to, and that all are Ready if nobody was resetting, saving, loading, aborting or disabling one. abort() ends well if all detectors can be aborted at the time. The rest is false: on_abort calls abort() of every detector shown, so one that is in Fault, Disabled or already Aborted, also if it takes no part or is known to be unusable, puts the scan into Fault (abort_refused, faulty_spoils_abort), and so does one that loads its design (abort_while_loading); pause() does if a detector is in PostRun (pause_refused); a scan that fails leaves the other detectors running (runs_on); a Disabled detector that takes no part spoils configure() if a design is saved for it (disabled_spoils_configure); reset() passes over a detector that is Aborting (ready_not_reset). Calls of the scan go on one at a time, see the model."
  },
  {
   "property": "C117",
   "status": "partial",
   "theorems": [
    "Verif.Props.Startup.ready_good",
    "Verif.Props.Startup.children_ready",
    "Verif.Props.Startup.ready_laid",
    "Verif.Props.Startup.circle",
    "Verif.Props.Startup.others_left_alone",
    "Verif.Props.Startup.all_begun",
    "Verif.Props.Startup.outcome_partial",
    "Verif.Props.Startup.no_block_left",
    "Verif.Props.Startup.start_ends",
    "Verif.Props.Startup.never_made_up",
    "Verif.Props.Startup.slow_child",
    "Verif.Props.Startup.ready_without_layout"
   ],
   "note": "Proved but for two things that the code does not do. A child that takes longer to start than 10 s leaves its parent, and all above, in Fault though nothing has failed (slow_child): outcome_partial asks that no part waits for too long. And nothing makes up for an init that has failed (never_made_up): after a reset() the block is Ready, but has no layout, no exports and no designs to choose from, and parts that had not found their child never watch it (ready_without_layout). That no parent takes a child that has not begun for a Disabled one (all_begun) rests on cothreads beginning in the order in which they are spawned."
  },
  {
   "property": "C118",
   "status": "partial",
   "theorems": [
    "Verif.Props.Family.ends",
    "Verif.Props.Family.hidden_kept",
    "Verif.Props.Family.in_step_partial",
    "Verif.Props.Family.made_up_partial",
    "Verif.Props.Family.disable_reset_partial",
    "Verif.Props.Family.deep_fault",
    "Verif.Props.Family.disabled_above",
    "Verif.Props.Family.shown_later"
   ],
   "note": "Proved of all trees if only the block at the top is called: then all that is shown is in its state when it is Ready or Disabled, and one good call makes up for everything that went wrong; if its layout changes as well, a disable() and a reset() do. If blocks beneath are called by others it is false: on_reset and on_disable look only at the state of the child itself and pass over one that is Ready or Disabled already, whatever is beneath it (deep_fault, disabled_above). A child in Fault that was hidden is not reset when it is shown, and reset() of the Ready block is refused (shown_later). Blocks with two parents, and calls at the same time, are left out."
  },
  {
   "property": "C119",
   "status": "partial",
   "theorems": [
    "Verif.Props.Halt.transitions",
    "Verif.Props.Halt.at_end",
    "Verif.Props.Halt.hooks_run",
    "Verif.Props.Halt.disabled_left",
    "Verif.Props.Halt.never_stuck",
    "Verif.Props.Halt.stop_ends",
    "Verif.Props.Halt.all_disabled_partial",
    "Verif.Props.Halt.both_fault",
    "Verif.Props.Halt.twice_at_once",
    "Verif.Props.Halt.not_disabled",
    "Verif.Props.Halt.disabled_when",
    "Verif.Props.Halt.before_child",
    "Verif.Props.Halt.apart_disabled_partial"
   ],
   "note": "Proved of all orders: the DisableHooks are started at least once, a Disabled block is left alone, each block ends Disabled or in Fault, and stopping ends. That it ends Disabled, with the hooks run once, is proved if nothing raises and either no ChildPart looks at its block before that has halted, or no call comes upon a block that another is disabling and what a ChildPart has found writeable is so still when it calls; it is false otherwise: a parent disables its child while that halts, and both end in Fault although nothing went wrong (both_fault); with two parents the hooks of a block may be run twice at the same time (twice_at_once); a block one of whose HaltHooks raises is not disabled at all (not_disabled). A block may be Disabled while its child is still Disabling (before_child). Left out: RunnableControllers, calls of clients while the process stops."
  },
  {
   "property": "C120",
   "status": "partial",
   "theorems": [
    "Verif.Props.CallLog.one_call_partial",
    "Verif.Props.CallLog.new_method",
    "Verif.Props.CallLog.call_recorded",
    "Verif.Props.CallLog.failure_recorded",
    "Verif.Props.CallLog.told_iff",
    "Verif.Props.CallLog.answered_once",
    "Verif.Props.CallLog.described_anew",
    "Verif.Props.CallLog.ends_after_start_partial",
    "Verif.Props.CallLog.stamp_near",
    "Verif.Props.CallLog.stamp_order",
    "Verif.Props.CallLog.stamp_again",
    "Verif.Props.CallLog.stamp_of_last_set",
    "Verif.Props.CallLog.set_clears_alarm",
    "Verif.Props.CallLog.last_to_end",
    "Verif.Props.CallLog.mixed_record",
    "Verif.Props.CallLog.success_as_error",
    "Verif.Props.CallLog.failure_hidden",
    "Verif.Props.CallLog.before_1970",
    "Verif.Props.CallLog.change_without_stamp",
    "Verif.Props.CallLog.taken_iff"
   ],
   "note": "Proved of all histories as long as no call has its outcome replaced because the record of it could not be made, and told_iff says exactly when that is: if what was given or what came back does not fit the description of the method at the end of the call. It is false then: the record has what the second call was given beside what the first gave (mixed_record); a call that succeeds while a part reports new configure parameters is answered with an error (success_as_error), and the reason of a failure is lost (failure_hidden). Time stamps before 1970 are a second late (before_1970); set_alarm leaves the stamp of the value (change_without_stamp). Hypotheses: validating what has been validated changes nothing, every meta has a default, the clock does not go back. Left out: rounding of floats in time stamps."
  },
  {
   "property": "C121",
   "status": "partial",
   "theorems": [
    "Verif.Props.PandALayout.text_round_trip",
    "Verif.Props.PandALayout.kept_partial",
    "Verif.Props.PandALayout.poll_settles",
    "Verif.Props.PandALayout.foreign_shown",
    "Verif.Props.PandALayout.put_shows",
    "Verif.Props.PandALayout.restart_shows_partial",
    "Verif.Props.PandALayout.hidden_position_lost",
    "Verif.Props.PandALayout.cleared_not_seen",
    "Verif.Props.PandALayout.hidden_comes_back",
    "Verif.Props.PandALayout.foreign_overwritten",
    "Verif.Props.PandALayout.unreadable_ends_in_fault",
    "Verif.Props.PandALayout.nan_written_forever",
    "Verif.Props.PandALayout.put_lost",
    "Verif.Props.PandALayout.line_for_each"
   ],
   "note": "Proved of all histories as long as others write tables that can be read and are not empty, puts and polls do not overlap, and equality of positions is equality. It is false otherwise: a table that has been cleared is not seen (cleared_not_seen); a put that overlaps with a poll is lost without an error (put_lost); NaN is written again at every poll (nan_written_forever); a table that is not JSON ends in Fault, at every start (unreadable_ends_in_fault). Where a hidden block is gets lost at the next poll (hidden_position_lost), and a hidden block comes back at a restart if the block is one that is shown at first (hidden_comes_back). A put before the next poll overwrites what others have written (foreign_overwritten). Left out: JSON in other shapes than x then y, numbers as text, the deleting of blocks."
  },
  {
   "property": "C122",
   "status": "partial",
   "theorems": [
    "Verif.Props.PvaExports.one_for_each",
    "Verif.Props.PvaExports.new_fields_partial",
    "Verif.Props.PvaExports.refused_partial",
    "Verif.Props.PvaExports.others_as_answered",
    "Verif.Props.PvaExports.reason_never_told",
    "Verif.Props.PvaExports.refused_but_ok",
    "Verif.Props.PvaExports.too_early",
    "Verif.Props.PvaExports.not_waited_for",
    "Verif.Props.PvaExports.swapped",
    "Verif.Props.PvaExports.made_for_losses",
    "Verif.Props.PvaExports.made_anew"
   ],
   "note": "Proved as long as nothing is left over in the queue of the block from an earlier reconnection. It is false otherwise: after one reconnection a put of exports that the server refuses ends well (refused_but_ok), one that is accepted ends before the fields are there (too_early), and of two puts at the same time the refused one may take what the accepted one waits for (swapped). A put whose answer is not cut off does not wait (not_waited_for). Why exports were refused is never told, the client waits ten seconds instead (reason_never_told). That p4p gives a RemoteError for an answer that is cut off is taken from the comments of the code. Left out: what is in the fields (C76), several monitors of a block."
  },
  {
   "property": "C123",
   "status": "partial",
   "theorems": [
    "Verif.Props.PvaLife.disabled_quiet",
    "Verif.Props.PvaLife.ready_serves_partial",
    "Verif.Props.PvaLife.never_again",
    "Verif.Props.PvaLife.reset_ready",
    "Verif.Props.PvaLife.start_serves",
    "Verif.Props.PvaLife.copies_current_partial",
    "Verif.Props.PvaLife.disabled_for_good",
    "Verif.Props.PvaLife.cannot_be_disabled",
    "Verif.Props.PvaLife.reset_not_served",
    "Verif.Props.PvaLife.restart_not_served",
    "Verif.Props.PvaLife.stale_and_ok",
    "Verif.Props.PvaLife.health_true_partial",
    "Verif.Props.PvaLife.disable_then_reset",
    "Verif.Props.PvaLife.disable_ends",
    "Verif.Props.PvaLife.init_ends",
    "Verif.Props.PvaLife.refused_calls"
   ],
   "note": "Disabled means that nobody is served, always. Ready means that clients are served as long as nobody resets and channels can be closed (ready_serves_partial); after a reset it is false: the server is not made again (never_again, reset_not_served), nor is it after a channel could not be closed in time and the process starts again (restart_not_served). Copies are current until the client is disabled (copies_current_partial); then they never change again while their health stays OK, also when the client is reset and says Ready (disabled_for_good, stale_and_ok), and a client that has never started cannot be disabled (cannot_be_disabled). Left out: p4p itself, the queues of C122, what happens to monitors when the process starts a second time without a disable."
  },
  {
   "property": "C124",
   "status": "partial",
   "theorems": [
    "Verif.Props.Prepare.ends_acquiring",
    "Verif.Props.Prepare.ends_continuous_partial",
    "Verif.Props.Prepare.told",
    "Verif.Props.Prepare.left_alone",
    "Verif.Props.Prepare.ends",
    "Verif.Props.Prepare.goes_on_iff",
    "Verif.Props.Prepare.bad_status_logged",
    "Verif.Props.Prepare.changed_meanwhile",
    "Verif.Props.Prepare.ended_meanwhile",
    "Verif.Props.Prepare.fails_all_the_same",
    "Verif.Props.Prepare.set_when_stopped",
    "Verif.Props.Prepare.too_late"
   ],
   "note": "A driver that obeys ends up acquiring continuously, whatever it did before and however late it obeys (ends); one that already does is left alone (left_alone); what it is told is always a part of stop, mode, start (told). The mode is right if nobody else puts it meanwhile (ends_continuous_partial, changed_meanwhile), and a driver that stops between the two looks at it is taken to be running (ended_meanwhile). The configure goes on exactly when the monitor is well, or says that it is not and errors are not wanted (goes_on_iff); it fails for any other error of the check although errors are not wanted (fails_all_the_same). Left out: that attributes lag behind the hardware."
  },
  {
   "property": "C125",
   "status": "partial",
   "theorems": [
    "Verif.Props.ShutterChild.reset_brings_back_partial",
    "Verif.Props.ShutterChild.ready_together_partial",
    "Verif.Props.ShutterChild.disable_takes_both",
    "Verif.Props.ShutterChild.reset_closes",
    "Verif.Props.ShutterChild.child_stays",
    "Verif.Props.ShutterChild.stuck",
    "Verif.Props.ShutterChild.reset_faults",
    "Verif.Props.ShutterChild.by_hand",
    "Verif.Props.ShutterChild.not_reset",
    "Verif.Props.ShutterChild.reset_ends",
    "Verif.Props.ShutterChild.disable_ends"
   ],
   "note": "Proved for parts with the hooks of every part for a child. False for AttributePreRunPart, whose on_reset, meant for the end of a run, overrides that of ChildPart: a disable takes its child with it (disable_takes_both), the reset does not reset the child but puts to it, which a Disabled block refuses, so every reset ends in Fault (reset_faults) and the block is never Ready again until somebody resets the child itself (stuck, by_hand); a child in Fault stays so (not_reset). What the override does do, the attribute having its reset value after every reset, is reset_closes. The states during a call and many children are in C118 (Family) and C89 (Shutter)."
  },
  {
   "property": "C126",
   "status": "partial",
   "theorems": [
    "Verif.Props.FieldNames.exports_put_partial",
    "Verif.Props.FieldNames.put_fine",
    "Verif.Props.FieldNames.broken_for_good",
    "Verif.Props.FieldNames.path_breaks",
    "Verif.Props.FieldNames.notifier_breaks",
    "Verif.Props.FieldNames.path_deafens"
   ],
   "note": "Proved for all histories of names other than path and notifier. These two are camelCase and are what the block keeps its own path and notifier under: the put fails and shows exports that were not made, and no export can ever be put again (path_breaks, notifier_breaks, broken_for_good); if path is the first field it can be taken away, but then the block has lost its path and nobody hears of its exports (path_deafens). Left out: the rest of the controller (Exports), which exports are of parts that are shown."
  }
 ]
}