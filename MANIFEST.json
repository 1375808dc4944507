{
 "claims": [
  {
   "property": "C01",
   "status": "proved",
   "theorems": [
    "Verif.Grants.C01_never_backwards",
    "Verif.Grants.C01_one_answer",
    "Verif.Grants.C01_minimum_step"
   ],
   "note": ""
  },
  {
   "property": "C02",
   "status": "proved",
   "theorems": [
    "Verif.Grants.C02_no_overshoot",
    "Verif.Grants.C02_no_overshoot_iterating"
   ],
   "note": ""
  },
  {
   "property": "C03",
   "status": "proved",
   "theorems": [
    "Verif.Grants.C03_first_grid_time",
    "Verif.Grants.C03_answer_on_grid"
   ],
   "note": ""
  },
  {
   "property": "C04",
   "status": "proved",
   "theorems": [
    "Verif.Causal.C04_limit",
    "Verif.Causal.C04_limit_at_once",
    "Verif.Causal.C04_not_started",
    "Verif.Causal.C04_new_dependency"
   ],
   "note": "per federate, over all its histories"
  },
  {
   "property": "C05",
   "status": "proved",
   "theorems": [
    "Verif.Barrier.C05_before_barrier",
    "Verif.Barrier.C05_earliest",
    "Verif.Barrier.C05_release"
   ],
   "note": "exceptions stated in the theorem: forced grants, the end-of-simulation answer and dynamic joins ignore barriers in the code"
  },
  {
   "property": "C06",
   "status": "proved",
   "theorems": [
    "Verif.Causality.C06_restrictive",
    "Verif.Causality.C06_uninterruptible",
    "Verif.Causality.C06_forward",
    "Verif.Causality.C06_default_fails",
    "Verif.Causality.C06_delay_fails"
   ],
   "note": "Federation model: any number of federates, FIFO channel per ordered pair, arbitrary interleavings (Verif.Model.Net). The two failure theorems show that the policies required are needed."
  },
  {
   "property": "C07",
   "status": "proved",
   "theorems": [
    "Verif.ExecEntry.C07_waits",
    "Verif.ExecEntry.C07_no_iteration",
    "Verif.ExecEntry.C07_wait_for_current",
    "Verif.ExecEntry.C07_enters",
    "Verif.EntryWait.C07_waiting_entry",
    "Verif.EntryWait.C07_others_moved_on"
   ],
   "note": ""
  },
  {
   "property": "C08",
   "status": "proved",
   "theorems": [
    "Verif.Iterations.C08_time_bounded",
    "Verif.Iterations.C08_entry_bounded",
    "Verif.Iterations.C08_forced_unbounded",
    "Verif.Iterations.C08_federate_limit_ignored",
    "Verif.Iterations.C08_joining_unbounded"
   ],
   "note": "Bounds for requests that iterate if needed; the three limits of the claim are shown by concrete histories."
  },
  {
   "property": "C09",
   "status": "proved",
   "theorems": [
    "Verif.Departed.C09_no_delay",
    "Verif.Departed.C09_alone"
   ],
   "note": ""
  },
  {
   "property": "C10",
   "status": "proved",
   "theorems": [
    "Verif.Goodbyes.C10_everybody",
    "Verif.Goodbyes.C10_at_most_once",
    "Verif.Goodbyes.C10_repeat_silent",
    "Verif.Goodbyes.C10_too_many",
    "Verif.Goodbyes.C10_dropped_counterexample"
   ],
   "note": "The answer of a departed federate to a current-time question is a goodbye too and is excluded by hypothesis NotAsked."
  },
  {
   "property": "C11",
   "status": "proved",
   "theorems": [
    "Verif.DepTable.C11_keyed_set",
    "Verif.DepTable.C11_add_reports_new",
    "Verif.DepTable.C11_last_times",
    "Verif.DepTable.C11_last_phase",
    "Verif.DepTable.C11_last_wakeable",
    "Verif.DepTable.C11_live",
    "Verif.DepTable.C11_slowest",
    "Verif.DepTable.C11_same_round"
   ],
   "note": ""
  },
  {
   "property": "C12",
   "status": "proved",
   "theorems": [
    "Verif.DepTable.C12_conflict_iff"
   ],
   "note": ""
  },
  {
   "property": "C13",
   "status": "proved",
   "theorems": [
    "Verif.MinTime.C13_true_minimum",
    "Verif.MinTime.C13_waits_for_start",
    "Verif.MinTime.C13_dependent_event_bound"
   ],
   "note": ""
  },
  {
   "property": "C14",
   "status": "proved",
   "theorems": [
    "Verif.Input.C14_value_is_latest",
    "Verif.Input.C14_nothing_early",
    "Verif.Input.C14_rest_stays_queued",
    "Verif.Input.C14_accepts",
    "Verif.Input.C14_next_iteration_bounds",
    "Verif.Input.C14_next_iteration_can_miss_first",
    "Verif.FedData.C14_after_grant"
   ],
   "note": "All histories of arrivals, exclusive/inclusive updates, new sources and option changes in which no value arrives already passed. The next-iteration update is bounded separately; a theorem records where it departs from its documentation."
  },
  {
   "property": "C15",
   "status": "proved",
   "theorems": [
    "Verif.Input.C15_bytes_exact",
    "Verif.Input.C15_bytes_exact_nat",
    "Verif.Input.C15_bytes_history"
   ],
   "note": "Every history of every call, in 64-bit arithmetic."
  },
  {
   "property": "C16",
   "status": "proved",
   "theorems": [
    "Verif.Input.C16_next_value_time",
    "Verif.Input.C16_next_value_history",
    "Verif.Input.C16_not_interruptible",
    "Verif.FedData.C16_next_message_time",
    "Verif.FedData.C16_federate_next_value",
    "Verif.FedData.C16_late_value_masks_wakeup"
   ],
   "note": "Every history."
  },
  {
   "property": "C17",
   "status": "proved",
   "theorems": [
    "Verif.Input.C17_priority",
    "Verif.Input.C17_no_data"
   ],
   "note": "Every number of sources, times and priority list."
  },
  {
   "property": "C18",
   "status": "proved",
   "theorems": [
    "Verif.Input.C18_change_filter_transparent",
    "Verif.Input.C18_reported_iff_changed",
    "Verif.Input.C18_min_gap",
    "Verif.Input.C18_out_of_order_counterexample",
    "Verif.Input.C18_gap_with_change_filter_counterexample"
   ],
   "note": "Values of one source arriving in order; two theorems record where the rule fails (out-of-order arrival; gap and change filter combined)."
  },
  {
   "property": "C19",
   "status": "proved",
   "theorems": [
    "Verif.Endpoint.C19_no_loss_no_duplication_fifo",
    "Verif.Endpoint.C19_delivered_is_earliest",
    "Verif.Endpoint.C19_delivery_order",
    "Verif.Endpoint.C19_count_is_exact",
    "Verif.Endpoint.C19_read_succeeds_iff_due",
    "Verif.Endpoint.C19_count_bounded",
    "Verif.FedData.C19_after_grant",
    "Verif.Endpoint.C19_late_message_hides_available"
   ],
   "note": "one theorem records a departure: a message arriving with a time already passed can hide the available ones"
  },
  {
   "property": "C20",
   "status": "proved",
   "theorems": [
    "Verif.Wire.C20_round_trip",
    "Verif.Wire.C20_round_trip_reused",
    "Verif.Wire.C20_what_arrives"
   ],
   "note": "limits found: a payload-free message read into a used object keeps the old payload (C20_stale_payload_counterexample); more than 255 strings wrap (C20_string_count_counterexample)"
  },
  {
   "property": "C21",
   "status": "proved",
   "theorems": [
    "Verif.Wire.C21_decode_safe",
    "Verif.Wire.C21_decode_claimed",
    "Verif.Wire.C21_deframe_safe",
    "Verif.Wire.C21_receive_loop_safe"
   ],
   "note": "an empty buffer given directly to the frame reader is read (C21_deframe_empty_counterexample); no caller does that"
  },
  {
   "property": "C22",
   "status": "partial",
   "theorems": [
    "Verif.Wire.C22_stays_inside_partial",
    "Verif.Wire.C22_time_request_iff",
    "Verif.Wire.C22_advertised_size_suffices",
    "Verif.Wire.C22_time_request_counterexample"
   ],
   "note": "false as stated: a time request in a 45..68 byte buffer overflows it; proved for every other message below 4 GiB and exactly characterised for time requests"
  },
  {
   "property": "C23",
   "status": "partial",
   "theorems": [
    "Verif.Wire.C23_cross_endian_partial",
    "Verif.Wire.C23_sequence_counterexample"
   ],
   "note": "false as stated: the sequence number is not swapped; everything else is proved"
  },
  {
   "property": "C24",
   "status": "proved",
   "theorems": [
    "Verif.Wire.C24_frame",
    "Verif.Wire.C24_stream"
   ],
   "note": "messages beyond the 24-bit frame length are lost (C24_oversize_counterexample)"
  },
  {
   "property": "C25",
   "status": "proved",
   "theorems": [
    "Verif.SB.C25_buffer",
    "Verif.SB.C25_memory",
    "Verif.SB.C25_no_leak",
    "Verif.SB.C25_swap_fails",
    "Verif.SB.C25_append_self_fails",
    "Verif.SB.C25_assign_self_fails",
    "Verif.SB.C25_self_move_fails"
   ],
   "note": "memory model with explicit pointers, blocks and undefined behaviour; Legal lists what the caller respects, each exclusion has a counterexample theorem"
  },
  {
   "property": "C26",
   "status": "proved",
   "theorems": [
    "Verif.HM.C26_lookup",
    "Verif.HM.C26_alias",
    "Verif.HM.C26_unique",
    "Verif.HM.C26_refused",
    "Verif.HM.C26_find",
    "Verif.HM.C26_exact",
    "Verif.HM.C26_exact_plain",
    "Verif.HM.fresh_add",
    "Verif.HM.idKey_injective",
    "Verif.HM.C26_refused_leaves_name",
    "Verif.HM.C26_alias_outlives",
    "Verif.HM.C26_join_invalidates",
    "Verif.HM.C26_nameless"
   ],
   "note": "Histories assume identifiers and indices are not reused while live (shown to hold for a core's own numbering by fresh_add); the three last theorems are defects of the code."
  },
  {
   "property": "C27",
   "status": "proved",
   "theorems": [
    "Verif.Broker.C27_exactly_once",
    "Verif.Broker.C27_pending",
    "Verif.Broker.C27_unknowns",
    "Verif.Broker.C27_safe",
    "Verif.Broker.C27_order",
    "Verif.Broker.demo_hist",
    "Verif.Broker.C27_operating_twice",
    "Verif.Broker.C27_filter_not_reconnected",
    "Verif.Broker.C27_sink_order",
    "Verif.Broker.C27_removed_requester",
    "Verif.Broker.C27_alias_order",
    "Verif.Broker.C27_required",
    "Verif.Broker.C27_required_request"
   ],
   "note": "The last five theorems are defects of the code outside the hypotheses of the first."
  },
  {
   "property": "C28",
   "status": "proved",
   "theorems": [
    "Verif.Flags.C28_check",
    "Verif.Flags.C28_set",
    "Verif.Flags.C28_clear",
    "Verif.Flags.C28_toggle",
    "Verif.Flags.C28_history"
   ],
   "note": ""
  },
  {
   "property": "C29",
   "status": "proved",
   "theorems": [
    "Verif.LifeCycle.C29_moves",
    "Verif.LifeCycle.C29_never_back",
    "Verif.LifeCycle.C29_finished_final",
    "Verif.LifeCycle.C29_over",
    "Verif.LifeCycle.C29_causes"
   ],
   "note": "Moves is the whole table of permitted changes; Causes lists the commands that can make each move."
  },
  {
   "property": "C30",
   "status": "proved",
   "theorems": [
    "Verif.FedSettings.C30_flag_reads_back",
    "Verif.FedSettings.C30_flag_isolated",
    "Verif.FedSettings.C30_flag_history",
    "Verif.FedSettings.C30_time_reads_back",
    "Verif.FedSettings.C30_negative_time_refused",
    "Verif.FedSettings.C30_time_isolated",
    "Verif.FedSettings.C30_int_reads_back",
    "Verif.FedSettings.C30_int_isolated",
    "Verif.Input.C30_input_reads_back",
    "Verif.Input.C30_input_isolated",
    "Verif.Pub.C30_publication_reads_back",
    "Verif.Pub.C30_publication_isolated",
    "Verif.Endpoint.C30_endpoint_reads_back",
    "Verif.Endpoint.C30_endpoint_isolated",
    "Verif.HInput.C30_handle_reads_back",
    "Verif.FedSettings.C30_interruptible_counterexample",
    "Verif.FedSettings.C30_profiling_counterexample",
    "Verif.Pub.C30_publication_multiple_counterexample",
    "Verif.Endpoint.C30_endpoint_multiple_counterexample",
    "Verif.HInput.C30_handle_disagrees_counterexample",
    "Verif.FedSettings.C30_roles_exclusive",
    "Verif.FedSettings.C30_index_group",
    "Verif.FedSettings.C30_tolerance",
    "Verif.FedSettings.C30_remote_control"
   ],
   "note": ""
  },
  {
   "property": "C31",
   "status": "proved",
   "theorems": [
    "Verif.Wire.C31_round_trip",
    "Verif.Wire.C31_through_wire",
    "Verif.Wire.C31_fields"
   ],
   "note": ""
  },
  {
   "property": "C32",
   "status": "proved",
   "theorems": [
    "Verif.Wire.C32_container",
    "Verif.Wire.C32_refused",
    "Verif.Wire.C32_strings"
   ],
   "note": "messages flagged for JSON are outside (their text form is a parameter)"
  },
  {
   "property": "C33",
   "status": "proved",
   "theorems": [
    "Verif.FedData.C33_receiveAny_earliest",
    "Verif.FedData.C33_receiveAny_iff_due",
    "Verif.FedData.C33_total_available",
    "Verif.FedData.C33_late_message_blocks_receiveAny",
    "Verif.FedData.C33_receive_from"
   ],
   "note": ""
  },
  {
   "property": "C34",
   "status": "proved",
   "theorems": [
    "Verif.Pub.C34_suppressed_iff",
    "Verif.Pub.C34_without_detection",
    "Verif.Pub.C34_subscribers_current",
    "Verif.Pub.C34_unwatched_counterexample",
    "Verif.Pub.C34_first_empty_counterexample",
    "Verif.Pub.C34_initial_gap_counterexample"
   ],
   "note": ""
  },
  {
   "property": "C35",
   "status": "proved",
   "theorems": [
    "Verif.Pub.C35_subscribers",
    "Verif.Endpoint.C35_endpoint_lists",
    "Verif.Input.C35_sources",
    "Verif.Input.C35_removed_source_is_silent",
    "Verif.Pub.C35_reported_names_counterexample",
    "Verif.Endpoint.C35_endpoint_names_counterexample",
    "Verif.Input.C35_reconnected_type_counterexample",
    "Verif.Pub.C35_subscriber_new"
   ],
   "note": "the reported name strings are cached and go stale (counterexamples)"
  },
  {
   "property": "C36",
   "status": "proved",
   "theorems": [
    "Verif.Filt.filtered_exactly_once",
    "Verif.Filt.filtered_never_more",
    "Verif.Filt.filtering_ends",
    "Verif.Filt.filters_safe",
    "Verif.Filt.held_exactly_while_out",
    "Verif.Filt.dest_held_exactly_while_out",
    "Verif.Filt.requests_kept_in_order",
    "Verif.Filt.nothing_held_at_rest",
    "Verif.Filt.filters_ordered",
    "Verif.Filt.ordered_clones_first",
    "Verif.Filt.bug_lost_return",
    "Verif.Filt.bug_dest_drop_crashes",
    "Verif.Filt.bug_dest_reroute_ignored",
    "Verif.Filt.bug_closed_filter_repeats",
    "Verif.Filt.bug_closed_tail_returns_to_sender",
    "Verif.Filt.bug_clone_without_operator_duplicates",
    "Verif.Filt.bug_local_without_operator_crashes",
    "Verif.Filt.bug_return_time_stuck",
    "Verif.Filt.bug_shared_number",
    "Verif.Filt.expected_answers_bound"
   ],
   "note": "any chains, operators, messages and interleavings, for the endpoints described by Env.Good; each exclusion in Env.Good/EvOk has a bug_ theorem showing what the code does otherwise"
  },
  {
   "property": "C37",
   "status": "proved",
   "theorems": [
    "Verif.Value.same_type",
    "Verif.Value.same_type_ref",
    "Verif.Value.any_type",
    "Verif.Value.json_type",
    "Verif.Value.read_in_bounds",
    "Verif.Value.type_detected",
    "Verif.Value.encVal_length",
    "Verif.Value.bug_negative_zero",
    "Verif.Value.bug_size_wraps",
    "Verif.Value.bug_empty_vector_fault",
    "Verif.Value.bug_any_vector",
    "Verif.Value.bug_any_empty",
    "Verif.Value.bug_json_empty",
    "Verif.Value.bug_read_order",
    "Verif.Value.bug_ref_units"
   ],
   "note": "floating-point arithmetic, number printing/parsing and the JSON library are parameters; the exclusions (negative zero imaginary part, 2^32 elements, any/JSON of empty values) each have a bug_ theorem"
  },
  {
   "property": "C38",
   "status": "proved",
   "theorems": [
    "Verif.DelayQueue.delayed_messages_stay_in_order",
    "Verif.DelayQueue.nothing_left_when_no_source_is_delayed",
    "Verif.DelayQueue.other_sources_not_held_up",
    "Verif.DelayQueue.own_never_set_aside",
    "Verif.DelayQueue.delayed_test",
    "Verif.DelayQueue.callback_can_overtake"
   ],
   "note": "what one message does is left open (any function, any result); callback_can_overtake shows the claim fails for callback federates."
  },
  {
   "property": "C39",
   "status": "proved",
   "theorems": [
    "Verif.CmdQueue.queue_exactly_once",
    "Verif.CmdQueue.queue_fifo",
    "Verif.CmdQueue.queue_priority_first",
    "Verif.CmdQueue.queue_none_means_empty",
    "Verif.CmdQueue.queue_said_empty",
    "Verif.CmdQueue.queue_peek",
    "Verif.CmdQueue.queue_try_pop_ends",
    "Verif.CmdQueue.queue_nothing_lost",
    "Verif.CmdQueue.queue_no_lost_wakeup",
    "Verif.CmdQueue.queue_sleeps_only_when_empty",
    "Verif.CmdQueue.queue_no_deadlock",
    "Verif.CmdQueue.queue_calls_are_short",
    "Verif.CmdQueue.two_takers_lost_wakeup",
    "Verif.CmdQueue.one_taker_needed",
    "Verif.CmdQueue.empty_and_peek_are_one_sided"
   ],
   "note": "interleaved at lock granularity; the wake-up claim is for one taking thread, as the code uses it, and fails for two."
  },
  {
   "property": "C40",
   "status": "proved",
   "theorems": [
    "Verif.Init.start_waits",
    "Verif.Init.root_starts_iff",
    "Verif.Init.start_reaches_everyone",
    "Verif.Init.only_request_starts",
    "Verif.Init.below_starts_only_on_grant",
    "Verif.Init.below_asks_iff",
    "Verif.Init.core_asks_iff",
    "Verif.Init.ready_iff_mayStart",
    "Verif.Init.Cases.late_federate_not_waited_for",
    "Verif.Init.Cases.bug_departure_not_rechecked",
    "Verif.Init.Cases.bug_leaver_blocks_core",
    "Verif.Init.Cases.bug_iterating_leaver_blocks",
    "Verif.Init.Cases.bug_retract_never_repeated",
    "Verif.Init.Cases.bug_retract_names_grandchild",
    "Verif.Init.Cases.bug_request_restarts",
    "Verif.Init.retraction_counts",
    "Verif.Init.core_starts_only_on_grant"
   ],
   "note": "Root broker with any number of cores, FIFO links both ways, arbitrary interleaving. The bug_ theorems show where the converse (nobody waits for ever) fails."
  },
  {
   "property": "C41",
   "status": "proved",
   "theorems": [
    "Verif.Wire.C41_fan_out",
    "Verif.Wire.C41_copies_dest"
   ],
   "note": ""
  },
  {
   "property": "C42",
   "status": "proved",
   "theorems": [
    "Verif.FedData.C42_changed_inputs_are_listed",
    "Verif.FedData.C42_listed_inputs_changed"
   ],
   "note": ""
  },
  {
   "property": "C43",
   "status": "proved",
   "theorems": [
    "Verif.Ready.C43_plain",
    "Verif.Ready.C43_due",
    "Verif.Ready.C43_released",
    "Verif.Ready.C43_at_once",
    "Verif.Ready.C43_iterating",
    "Verif.Ready.check_halted"
   ],
   "note": "Forced iterations (FORCE_ITERATION) share the code path of the iterating case but are outside C43_iterating; the non-granting federate type is excluded."
  },
  {
   "property": "C44",
   "status": "proved",
   "theorems": [
    "Verif.Announce.C44_restrictive",
    "Verif.Announce.C44_uninterruptible",
    "Verif.Announce.C44_grant_told",
    "Verif.Announce.C44_default_announcement"
   ],
   "note": "histories without forced grants, dynamic joins or timing settings changed in executing mode (Calm)"
  },
  {
   "property": "C45",
   "status": "proved",
   "theorems": [
    "Verif.Init.names_unique",
    "Verif.Init.id_is_kept",
    "Verif.Init.ids_unique",
    "Verif.Init.never_too_many",
    "Verif.Init.open_iff_accepts",
    "Verif.Init.refused_after_start",
    "Verif.Init.accepted_ack",
    "Verif.Init.own_id_clash"
   ],
   "note": "own_id_clash shows why ids_unique is about ids handed out by the root."
  },
  {
   "property": "C46",
   "status": "proved",
   "theorems": [
    "Verif.Value.send_follows_table",
    "Verif.Value.read_follows_table",
    "Verif.Value.bug_cvec_to_vector",
    "Verif.Value.bug_bool_to_np",
    "Verif.Value.bug_empty_text",
    "Verif.Value.bug_text_to_int",
    "Verif.Value.bug_list_to_complex",
    "Verif.Value.bug_empty_vector_to_np",
    "Verif.Value.bug_two_texts",
    "Verif.Value.bug_vector_paired",
    "Verif.Value.bug_half_array",
    "Verif.Value.bug_time_ticks",
    "Verif.Value.bug_field_time",
    "Verif.Value.bug_units_twice",
    "Verif.Value.block_follows_table",
    "Verif.Value.stored_follows_table",
    "Verif.Value.json_follows_table"
   ],
   "note": "sendGap/readGap list where the code leaves the table; bug_ theorems show the disagreements"
  },
  {
   "property": "C47",
   "status": "proved",
   "theorems": [
    "Verif.Value.max_of_sources",
    "Verif.Value.min_of_sources",
    "Verif.Value.diff_of_sources",
    "Verif.Value.sum_of_sources",
    "Verif.Value.average_of_sources",
    "Verif.Value.vectorize_sources",
    "Verif.Value.text_sum_of_sources",
    "Verif.Value.and_of_sources",
    "Verif.Value.or_of_sources",
    "Verif.Value.bug_zero_is_true",
    "Verif.Value.bug_vectorize_nothing",
    "Verif.Value.bug_vector_diff"
   ],
   "note": ""
  },
  {
   "property": "C48",
   "status": "proved",
   "theorems": [
    "Verif.Value.sent_iff_changed",
    "Verif.Value.receivers_close",
    "Verif.Value.double_sent_iff",
    "Verif.Value.always_sent",
    "Verif.Value.read_twice",
    "Verif.Value.read_close",
    "Verif.Value.bug_first_value",
    "Verif.Value.bug_nan_not_sent",
    "Verif.Value.bug_text_lost"
   ],
   "note": ""
  },
  {
   "property": "C49",
   "status": "proved",
   "theorems": [
    "Verif.Tree.C49_restrictive",
    "Verif.Tree.C49_uninterruptible",
    "Verif.Tree.C49_delayed_fails"
   ],
   "note": "any route of a tree; hypotheses in Props/TreeSpec. C49_delayed_fails shows the claim fails without the assumption on wait-for-current dependencies."
  },
  {
   "property": "C50",
   "status": "proved",
   "theorems": [
    "Verif.Tree.C50_waits",
    "Verif.Tree.C50_announced",
    "Verif.Tree.C50_delayed_fails"
   ],
   "note": "any tree; hypotheses in Props/TreeEntrySpec (Placed, Fair, Legal). C50_delayed_fails shows the claim fails without the assumption on wait-for-current dependencies."
  },
  {
   "property": "C51",
   "status": "proved",
   "theorems": [
    "Verif.Fwd.C51_parent_informed",
    "Verif.Fwd.C51_children_informed",
    "Verif.Fwd.C51_enters",
    "Verif.Fwd.C51_asks",
    "Verif.Fwd.C51_true_minimum",
    "Verif.Fwd.InformCase.C51_broker_error_fails",
    "Verif.Fwd.InformCase.C51_children_event_fails",
    "Verif.Fwd.InformCase.C51_entry_last",
    "Verif.Fwd.C51_round_numbers",
    "Verif.Fwd.C51_enters_only",
    "Verif.Fwd.C51_nothing_false"
   ],
   "note": "any history after the dependencies are set up, no wait-for-current dependency; hypotheses in Props/InformSpec, met in Props/InformCases.premises"
  },
  {
   "property": "C52",
   "status": "proved",
   "theorems": [
    "Verif.App.C52_refused",
    "Verif.App.C52_accepted",
    "Verif.App.C52_order",
    "Verif.App.C52_modes",
    "Verif.App.C52_one_thread",
    "Verif.App.C52_forward",
    "Verif.App.C52_error_stays",
    "Verif.App.C52_time",
    "Verif.App.C52_iterative",
    "Verif.App.C52_after_end",
    "Verif.App.C52_order_fails",
    "Verif.App.C52_destroy_fails",
    "Verif.App.C52_forward_fails",
    "Verif.App.C52_single_crash"
   ],
   "note": "any core, any history; the order needs the caller not to end or fail the federate while an iteration of the initialization is pending (Careful; C52_order_fails shows why), forwardness excludes finalizeAsync in two pending modes (C52_forward_fails)"
  },
  {
   "property": "C53",
   "status": "proved",
   "theorems": [
    "Verif.App.C53_init",
    "Verif.App.C53_again",
    "Verif.App.C53_exec",
    "Verif.App.C53_exec_start",
    "Verif.App.C53_time",
    "Verif.App.C53_iterative",
    "Verif.App.C53_finalize",
    "Verif.App.C53_finalize_any",
    "Verif.App.C53_time_fails",
    "Verif.App.C53_retrigger_fails",
    "Verif.App.C53_init_fails",
    "Verif.App.C53_init_std_fails",
    "Verif.App.C53_again_fails",
    "Verif.App.C53_exec_fails",
    "Verif.App.C53_finalize_fails",
    "Verif.App.C53_exec_pending_fails"
   ],
   "note": "equality of result and state; the _fails theorems show that each hypothesis is needed"
  },
  {
   "property": "C54",
   "status": "proved",
   "theorems": [
    "Verif.App.C54_story",
    "Verif.App.C54_entry_once",
    "Verif.App.C54_entry_first",
    "Verif.App.C54_end_once",
    "Verif.App.C54_story_fails",
    "Verif.App.C54_finalize_fails",
    "Verif.App.C54_iterate_fails",
    "Verif.App.C54_end_once_fails",
    "Verif.App.C54_time_before_mode"
   ],
   "note": "any history; Plain and OnceOver exclude the uses for which the _fails theorems show a counterexample"
  },
  {
   "property": "C55",
   "status": "proved",
   "theorems": [
    "Verif.Routes.C55_ids_unique",
    "Verif.Routes.C55_ids_stay",
    "Verif.Routes.C55_by_addressee",
    "Verif.Routes.C55_received",
    "Verif.Routes.C55_no_duplicates",
    "Verif.Routes.C55_drains",
    "Verif.Routes.C55_can_move",
    "Verif.Routes.C55_order",
    "Verif.Routes.C55_order_all",
    "Verif.Routes.C55_heard_is_given",
    "Verif.Routes.C55_registered",
    "Verif.Routes.C55_no_stray",
    "Verif.Routes.C55_rejoin_fails",
    "Verif.Routes.C55_order_needs_causal",
    "Verif.Routes.C55_nobody"
   ],
   "note": "any tree, any history in which no federate asks to be reentrant and fewer than 10^8 federates register; the _fails and _needs theorems show counterexamples without the hypotheses"
  },
  {
   "property": "C56",
   "status": "proved",
   "theorems": [
    "Verif.Down.C56_not_before",
    "Verif.Down.C56_returned_called",
    "Verif.Down.C56_all_end",
    "Verif.Down.C56_returns",
    "Verif.Down.C56_global",
    "Verif.Down.C56_drains",
    "Verif.Down.C56_ends",
    "Verif.Down.exAll_meets",
    "Verif.Down.C56_global_early_counterexample",
    "Verif.Down.C56_kill_counterexample",
    "Verif.Down.C56_empty_core_counterexample",
    "Verif.Down.exBare_early"
   ],
   "note": "any tree and any history without disconnections by hand; C56_ends for federations in which every core has a federate; C56_global for federations that operate; the counterexample theorems show that these hypotheses are needed. Errors, time-outs, filters and reentrant federates are not modelled"
  },
  {
   "property": "C57",
   "status": "proved",
   "theorems": [
    "Verif.Query.C57_complete",
    "Verif.Query.C57_once",
    "Verif.Query.C57_answered",
    "Verif.Query.C57_ends",
    "Verif.Query.C57_safe",
    "Verif.Query.C57_drop",
    "Verif.Query.C57_locks_counterexample",
    "Verif.Query.C57_error_counterexample",
    "Verif.Query.C57_direct_counterexample",
    "Verif.Query.C57_named_counterexample",
    "Verif.Query.C57_return_counterexample",
    "Verif.Query.C57_fresh",
    "Verif.Query.C57_stale_counterexample",
    "Verif.Query.C57_drop_waits"
   ],
   "note": "any tree, any history of queries to brokers in which nobody fails and, for queries whose answers are not kept, the locks of federates do not change hands (Steady); C57_drop for one departure. The counterexample theorems show that the hypotheses are needed"
  },
  {
   "property": "C58",
   "status": "proved",
   "theorems": [
    "Verif.Glob.C58_announce",
    "Verif.Glob.C58_told",
    "Verif.Glob.C58_asked",
    "Verif.Glob.C58_progress",
    "Verif.Glob.C58_confirmed",
    "Verif.Glob.C58_record",
    "Verif.Glob.C58_record_own",
    "Verif.Glob.C58_numbers",
    "Verif.Glob.Cases.C58_error_stall_counterexample",
    "Verif.Glob.Cases.C58_stepBack_counterexample",
    "Verif.Glob.Cases.C58_reuse_counterexample"
   ],
   "note": "any number of federates, any history of timing commands; C58_announce needs that round numbers are not reused (NoReuse; C58_numbers gives it for the first 32766 rounds if federates carry back only numbers they were sent), C58_progress that nobody lowers its next time; the counterexample theorems show why"
  },
  {
   "property": "C59",
   "status": "proved",
   "theorems": [
    "Verif.Ping.C59_no_false_alarm",
    "Verif.Ping.C59_noticed",
    "Verif.Ping.C59_everybody",
    "Verif.Ping.C59_blind",
    "Verif.Ping.C59_busy",
    "Verif.Ping.C59_above_no_false_alarm",
    "Verif.Ping.C59_above_noticed",
    "Verif.Ping.C59_above_asked",
    "Verif.Ping.C59_below_unwatched",
    "Verif.Ping.C59_reported",
    "Verif.Ping.C59_left_counterexample",
    "Verif.Ping.C59_busy_counterexample",
    "Verif.Ping.C59_sub_broker_counterexample",
    "Verif.Ping.C59_slow_counterexample"
   ],
   "note": "any members, any history of commands; ticks preceded by another command are not acted upon (C59_busy), one unanswered question stops all further ones (C59_blind), and the counterexample theorems show what escapes the watch"
  },
  {
   "property": "C60",
   "status": "proved",
   "theorems": [
    "Verif.Callback.C60_order",
    "Verif.Callback.C60_times",
    "Verif.Callback.C60_no_spurious",
    "Verif.Callback.C60_answered",
    "Verif.Callback.C60_stop",
    "Verif.Callback.C60_mode",
    "Verif.Callback.C60_end",
    "Verif.Callback.C60_stop_time",
    "Verif.Callback.C60_record",
    "Verif.Callback.C60_not_started",
    "Verif.Callback.C60_iterating",
    "Verif.Callback.C60_halted_counterexample",
    "Verif.Callback.C60_join_counterexample",
    "Verif.Callback.C60_forced_counterexample"
   ],
   "note": "any history of commands in any grouping, any answers; forced grants and iteration before initializing mode excluded by hypothesis (C60_forced_counterexample shows why), C60_mode for federates that do not join a running federation; the counterexample theorems show where the code falls short"
  },
  {
   "property": "C61",
   "status": "proved",
   "theorems": [
    "Verif.Timers.C61_sent",
    "Verif.Timers.C61_not_early",
    "Verif.Timers.C61_at_most",
    "Verif.Timers.C61_all_sent",
    "Verif.Timers.C61_drains",
    "Verif.Timers.C61_progress",
    "Verif.Timers.C61_updateMessage_not_sent"
   ],
   "note": "any history of calls, time and handlers; that a message is handed over is proved for messages given by addTimer and updateTimer (C61_updateMessage_not_sent shows why)"
  },
  {
   "property": "C62",
   "status": "proved",
   "theorems": [
    "Verif.Logs.C62_printed",
    "Verif.Logs.C62_remote",
    "Verif.Logs.C62_remote_only",
    "Verif.Logs.C62_remote_once",
    "Verif.Logs.C62_federate",
    "Verif.Logs.C62_no_echo",
    "Verif.Logs.C62_buffered",
    "Verif.Logs.C62_logged",
    "Verif.Logs.C62_buffer",
    "Verif.Logs.C62_threads",
    "Verif.Logs.C62_raise_lost",
    "Verif.Logs.C62_level_lost",
    "Verif.Logs.C62_stop_dumplog",
    "Verif.Logs.C62_race_unbounded",
    "Verif.Logs.C62_race_empty"
   ],
   "note": "any history of levels, targets, messages and buffer sizes; C62_remote for targets that do not raise their level (C62_raise_lost shows why), C62_threads for threads that push while nobody changes the size (the race theorems show why)"
  },
  {
   "property": "C63",
   "status": "proved",
   "theorems": [
    "Verif.RealTime.C63_not_early",
    "Verif.RealTime.C63_forced",
    "Verif.RealTime.C63_order",
    "Verif.RealTime.C63_not_late",
    "Verif.RealTime.C63_forced_asked",
    "Verif.RealTime.C63_left_over"
   ],
   "note": "any history of calls, clock, timer and grants; C63_forced_asked for calls that find no forced grant left over (C63_left_over shows why)"
  },
  {
   "property": "C64",
   "status": "proved",
   "theorems": [
    "Verif.StdF.C64_delay",
    "Verif.StdF.C64_delay_forward",
    "Verif.StdF.C64_random_delay",
    "Verif.StdF.C64_drop",
    "Verif.StdF.C64_drop_range",
    "Verif.StdF.C64_refused",
    "Verif.StdF.C64_reroute",
    "Verif.StdF.C64_formula",
    "Verif.StdF.C64_clone",
    "Verif.StdF.C64_clone_order",
    "Verif.StdF.C64_clone_refuses",
    "Verif.StdF.C64_clone_as_filter",
    "Verif.StdF.C64_cloning_call",
    "Verif.StdF.C64_listing",
    "Verif.StdF.C64_row",
    "Verif.StdF.C64_delays",
    "Verif.StdF.C64_firewall",
    "Verif.StdF.C64_negative",
    "Verif.StdF.C64_reroute_nowhere",
    "Verif.StdF.C64_dollar"
   ],
   "note": "any history of settings, any message, any number drawn; C64_formula for names without dollar signs (C64_dollar shows why); the firewall, the negative delay and the reroute to nowhere show where the code falls short"
  },
  {
   "property": "C65",
   "status": "proved",
   "theorems": [
    "Verif.Trans.C65_message",
    "Verif.Trans.C65_value",
    "Verif.Trans.C65_only",
    "Verif.Trans.C65_apart",
    "Verif.Trans.C65_later",
    "Verif.Trans.C65_binary",
    "Verif.Trans.C65_close_ignored",
    "Verif.Trans.C65_unconnected_source"
   ],
   "note": "any history of commands for any number of translators; conversions are arbitrary; C65_later for operators that do not compute times of their own"
  },
  {
   "property": "C66",
   "status": "proved",
   "theorems": [
    "Verif.Checks.C66_enters_iff",
    "Verif.Checks.C66_refused",
    "Verif.Checks.C66_message",
    "Verif.Checks.C66_input",
    "Verif.Checks.C66_publication",
    "Verif.Checks.C66_endpoint",
    "Verif.Checks.C66_type_rule",
    "Verif.Checks.C66_unit_rule",
    "Verif.Checks.C66_multiple_inverted",
    "Verif.Checks.C66_removed_source_counts",
    "Verif.Checks.C66_single_without_any",
    "Verif.Checks.C66_retyped",
    "Verif.Checks.C66_one_is_two",
    "Verif.Checks.C66_not_checked",
    "Verif.Checks.C66_types_not_symmetric"
   ],
   "note": "any history of calls on any number of interfaces; units library arbitrary; the counterexample theorems show where the code departs from the documented options"
  },
  {
   "property": "C67",
   "status": "proved",
   "theorems": [
    "Verif.Rename.C67_numbered",
    "Verif.Rename.C67_distinct",
    "Verif.Rename.C67_clean_distinct",
    "Verif.Rename.C67_unique",
    "Verif.Rename.C67_outcome",
    "Verif.Rename.C67_never_duplicate",
    "Verif.Rename.C67_error_word",
    "Verif.Rename.C67_templates_collide",
    "Verif.Rename.C67_plain_takes_number",
    "Verif.Rename.C67_error_monitor"
   ],
   "note": "any texts, any history; the last four theorems are counterexamples or departures of the code"
  },
  {
   "property": "C68",
   "status": "proved",
   "theorems": [
    "Verif.Player.C68_once",
    "Verif.Player.C68_not_early",
    "Verif.Player.C68_complete",
    "Verif.Player.C68_on_time",
    "Verif.Player.C68_ends",
    "Verif.Player.C68_goes_on",
    "Verif.Player.C68_message_hides_iteration",
    "Verif.Player.C68_overshoot_loses",
    "Verif.Player.C68_negative_iteration"
   ],
   "note": "any input and any grants; C68_complete, C68_on_time and C68_ends need plain input (PlainInput), and the last three theorems show what happens without it"
  },
  {
   "property": "C69",
   "status": "proved",
   "theorems": [
    "Verif.Tags.C69_interface",
    "Verif.Tags.C69_info",
    "Verif.Tags.C69_federate",
    "Verif.Tags.C69_federate_query",
    "Verif.Tags.C69_core",
    "Verif.Tags.C69_core_query",
    "Verif.Tags.C69_interface_query",
    "Verif.Tags.C69_refused",
    "Verif.Tags.C69_core_grows",
    "Verif.Tags.C69_empty_value",
    "Verif.Tags.C69_info_is_a_tag"
   ],
   "note": "any history; the queries about interfaces and the core are for the moment when the commands given so far are processed; the last three theorems are departures of the code"
  },
  {
   "property": "C70",
   "status": "proved",
   "theorems": [
    "Verif.Source.C70_on_time",
    "Verif.Source.C70_complete",
    "Verif.Source.C70_in_order",
    "Verif.Source.C70_asks_forward",
    "Verif.Source.C70_ends",
    "Verif.Source.C70_goes_on",
    "Verif.Source.C70_extra_value"
   ],
   "note": "any sources with positive periods; exact integer times; the last theorem is a departure of the code"
  },
  {
   "property": "C71",
   "status": "proved",
   "theorems": [
    "Verif.Recorder.C71_points",
    "Verif.Recorder.C71_messages",
    "Verif.Recorder.C71_first",
    "Verif.Recorder.C71_statistics",
    "Verif.Recorder.C71_playback_order",
    "Verif.Recorder.C71_iteration_restarts"
   ],
   "note": "any calls and grants; C71_playback_order is for grants a federate can get (PlausibleRun); the last theorem is a departure of the code"
  }
 ]
}