{"claims": [
{"property": "C01", "status": "proved", "theorems": ["Verif.Stream.C01_read_exactly", "Verif.Stream.C01_read_exactly_short", "Verif.Stream.C01_segmentation_independent", "Verif.Stream.C01_read_sequence", "Verif.Stream.C01_size_after_read", "Verif.Stream.C01_size_after_eof_violated"], "note": "Full statement proved for every segmentation, offset and read sequence. C01_size_after_eof_violated is a side finding (offset left stale by a failed read makes the size report wrong), it does not touch the data claim."},
{"property": "C02", "status": "partial", "theorems": ["Verif.Stream.C02_read_until_partial", "Verif.Stream.C02_short_boundary_partial", "Verif.Stream.C02_uncut_pair_partial", "Verif.Stream.C02_single_byte_boundary", "Verif.Stream.C02_missing_boundary_partial", "Verif.Stream.C02_held_back_partial", "Verif.Stream.C02_offset_violated", "Verif.Stream.C02_small_segment_violated", "Verif.Stream.C02_exact_end_violated", "Verif.Stream.C02_full_violated"], "note": "The code does not have the property (three witnesses and the negation of the full statement). Proved for all GoodSegments segmentations, for boundaries of at most two bytes read from a segment start, and for single byte boundaries without restriction."},
{"property": "C03", "status": "proved", "theorems": ["Verif.Stream.C03_read_until_eof", "Verif.Stream.C03_after_exact_reads", "Verif.Stream.C03_read_once"], "note": "Proved for every segmentation and after any reads."},
{"property": "C04", "status": "proved", "theorems": ["Verif.WebSocket.C04_round_trip", "Verif.WebSocket.C04_sequence_round_trip", "Verif.WebSocket.C04_head_fields", "Verif.WebSocket.C04_constructed_frame_valid"], "note": "Proved for every payload below 2^64 bytes, every mask, every segmentation and any following bytes; also for sequences of frames."},
{"property": "C05", "status": "proved", "theorems": ["Verif.WebSocket.C05_mask_is_positional_xor", "Verif.WebSocket.C05_mask_pointwise", "Verif.WebSocket.C05_mask_involutive", "Verif.WebSocket.C05_short_key"], "note": "Proved for every key and payload."},
{"property": "C06", "status": "proved", "theorems": ["Verif.WebSocket.C06_wrong_masking_rejected", "Verif.WebSocket.C06_oversized_rejected", "Verif.WebSocket.C06_client_accepts", "Verif.WebSocket.C06_server_accepts", "Verif.WebSocket.C06_truncated_payload", "Verif.WebSocket.C06_truncated_header"], "note": "Proved: wrong mask bit, oversize, truncated and accepted frames."},
{"property": "C07", "status": "proved", "theorems": ["Verif.WebSocket.C07_check_iff", "Verif.WebSocket.C07_check_error"], "note": "Proved as an equivalence with the RFC 6455 rule."},
{"property": "C08", "status": "proved", "theorems": ["Verif.Chunked.C08_round_trip", "Verif.Chunked.C08_round_trip_single_segment", "Verif.Chunked.C08_unfinished_body", "Verif.Chunked.C08_plain_body"], "note": "Proved for every sequence of writes, later calls and following bytes; delivered in one segment, or in any segmentation not cutting a CRLF (see C09)."},
{"property": "C09", "status": "partial", "theorems": ["Verif.Chunked.C09_segmentation_independent_partial", "Verif.Chunked.C09_reader_is_decoder_partial", "Verif.Chunked.C09_violated", "Verif.Chunked.C09_full_violated"], "note": "The code does not have the property (cut inside a CRLF after the first size line). Proved for all segmentations not cutting a CRLF, by refinement to a whole-stream decoder."},
{"property": "C10", "status": "partial", "theorems": ["Verif.Chunked.C10_plain_accepted", "Verif.Chunked.C10_lenient_violated", "Verif.Chunked.C10_full_violated", "Verif.Chunked.C10_reader_violated", "Verif.Chunked.C10_accepted_shape_partial", "Verif.Chunked.C10_rejected_partial"], "note": "The code does not have the property (lenient int(line, 16)). Proved: plain lines accepted with their value, exact shape of accepted lines, rejection of all lines with other bytes or without digits."},
{"property": "C11", "status": "proved", "theorems": ["Verif.Future.C11_future_is_write_once_cell", "Verif.Future.C11_outcome_stable", "Verif.Future.C11_single_completion", "Verif.Task.C11_task_outcome_stable", "Verif.Task.C11_task_result_iff_done"], "note": "Proved by refinement to a write-once cell over all histories."},
{"property": "C12", "status": "partial", "theorems": ["Verif.Future.C12_every_registration_once_partial", "Verif.Future.C12_done_runs_all_partial", "Verif.Future.C12_pending_runs_none", "Verif.Future.C12_ready_only_grows", "Verif.Future.C12_removed_not_run", "Verif.Future.C12_stopped_loop_violated"], "note": "Proved while the loop runs; when the loop is stopped callbacks of a completed future are dropped (witness)."},
{"property": "C13", "status": "partial", "theorems": ["Verif.Task.C13_cancel_delivered_partial", "Verif.Task.C13_cancel_with_delivered_partial", "Verif.Task.C13_step_valid", "Verif.Task.C13_cancelled_outcome", "Verif.Task.C13_cancel_with_exception", "Verif.Task.C13_cancel_with_raises_partial", "Verif.Task.C13_self_cancel", "Verif.Task.C13_cancel_with_violated", "Verif.Task.C13_wait_for_completion_violated"], "note": "Proved for cancel (except while awaiting only completion) and cancel_with (except when the awaited future is already done); both exceptions are witnessed as violations."},
{"property": "C14", "status": "proved", "theorems": ["Verif.Shield.C14_outer_never_affects_inner", "Verif.Shield.C14_outer_mirrors", "Verif.Shield.C14_outer_completes", "Verif.Shield.C14_outer_final", "Verif.Shield.C14_done_unchanged"], "note": "Proved: non-interference, mirroring, completion and finality, over all interleavings of user calls and loop steps."},
{"property": "C15", "status": "proved", "theorems": ["Verif.Lock.C15_at_most_size_holders", "Verif.Lock.C15_mutual_exclusion", "Verif.Lock.C15_no_index_error"], "note": "Lock is the case size = 1. Holders are computed from what the operations returned."},
{"property": "C16", "status": "proved", "theorems": ["Verif.Lock.C16_numbered_by_arrival", "Verif.Lock.C16_served_in_arrival_order", "Verif.Lock.C16_no_barging", "Verif.Lock.C16_only_cancelled_skipped"], "note": "Order among calls that had to wait; a call that gets in at once does so only when nobody waits. For size >= 2 a newcomer may enter while a granted call has not run yet (its slot is reserved)."},
{"property": "C17", "status": "partial", "theorems": ["Verif.Lock.C17_quiet_is_free_partial", "Verif.Lock.C17_lock_becomes_free_partial", "Verif.Lock.C17_cancel_granted_violated", "Verif.Lock.C17_release_before_cancelled_runs_violated"], "note": "The code violates the property in two windows; both witnesses are proved, including that no call ever obtains the lock afterwards. Proved for all histories outside these windows."},
{"property": "C18", "status": "partial", "theorems": ["Verif.AsyncQueue.C18_fifo_partial", "Verif.AsyncQueue.C18_unbounded_fifo_partial", "Verif.AsyncQueue.C18_exactly_once_partial", "Verif.AsyncQueue.C18_never_reordered_partial", "Verif.AsyncQueue.C18_duplicate_violated", "Verif.AsyncQueue.C18_overtaking_violated", "Verif.AsyncQueue.C18_evicted_violated", "Verif.AsyncQueue.C18_waiting_consumer_passed_over_violated"], "note": "Violated by the code for two waiting consumers (same element twice), for two consumers (overtaking) and for bounded queues (evicted element, consumer passed over); all four witnesses proved. Proved for a single consumer (order) and for consumers that do not wait at the same time (exactly once)."},
{"property": "C19", "status": "partial", "theorems": ["Verif.AsyncQueue.C19_at_most_one_lost_partial", "Verif.AsyncQueue.C19_element_lost_violated", "Verif.AsyncQueue.C19_spurious_cancel_violated"], "note": "Violated: an element is lost, later consumers get CancelledError; both proved. Proved: at most one element is lost per cancelled consumer."},
{"property": "C20", "status": "partial", "theorems": ["Verif.AsyncQueue.C20_waits_only_when_full_partial", "Verif.AsyncQueue.C20_no_wait_wakes_partial", "Verif.AsyncQueue.C20_await_deadlock_violated", "Verif.AsyncQueue.C20_lifo_violated", "Verif.AsyncQueue.C20_cancelled_producer_violated"], "note": "Violated for await / get_result (deadlock), AsyncLifoQueue, and a producer cancelled after being woken; proved for the other retrieval methods."},
{"property": "C21", "status": "partial", "theorems": ["Verif.AsyncQueue.C21_lifo_is_stack_partial", "Verif.AsyncQueue.C21_get_result_violated"], "note": "Violated by get_result (inherited FIFO version); proved for the other methods."},
{"property": "C22", "status": "proved", "theorems": ["Verif.Event.C22_waits_iff_not_set", "Verif.Event.C22_set_wakes_all", "Verif.Event.C22_woken_if_set", "Verif.Event.C22_returns_only_if_set"], "note": "All histories of set, clear, waiting calls, cancellations and loop steps."},
{"property": "C23", "status": "partial", "theorems": ["Verif.TaskGroup.C23_never_both", "Verif.TaskGroup.C23_done_iff_completed", "Verif.TaskGroup.C23_never_neither_partial", "Verif.TaskGroup.C23_lost_violated", "Verif.TaskGroup.C23_handed_out_twice"], "note": "Never both, and done = completed, hold for all histories. Never neither holds unless a popping waiter is cancelled and still registered when a completion is processed; then the future is lost (C23_lost_violated). Also two popping waiters receive the same future (C23_handed_out_twice)."},
{"property": "C24", "status": "partial", "theorems": ["Verif.ScarletExecutor.C24_at_most_limit_partial", "Verif.ScarletExecutor.C24_below_limit_on_return_partial", "Verif.ScarletExecutor.C24_violated", "Verif.ScarletExecutor.C24_not_stuck"], "note": "Holds for one adder that does not go on adding after add raised; otherwise violated (C24_violated). Waiting never gets stuck for any adder."},
{"property": "C25", "status": "partial", "theorems": ["Verif.ScarletExecutor.C25_failure_reported_partial", "Verif.ScarletExecutor.C25_dropped_violated", "Verif.ScarletExecutor.C25_body_cancelled_violated"], "note": "Violated: a failure processed before the body ends is dropped when nothing is left to wait for; and one not yet processed when the body is cancelled. The partial theorem says these are the only ways."},
{"property": "C26", "status": "proved", "theorems": ["Verif.EventLoop.C26_in_order", "Verif.EventLoop.C26_at_most_once", "Verif.EventLoop.C26_not_after_cancel", "Verif.EventLoop.C26_no_overtaking", "Verif.EventLoop.C26_reached"], "note": "All histories; callbacks that schedule and cancel are covered, as what they do are operations between two steps of the loop."},
{"property": "C27", "status": "proved", "theorems": ["Verif.EventLoop.C27_not_before", "Verif.EventLoop.C27_earlier_first", "Verif.EventLoop.C27_once_not_cancelled"], "note": "All histories and all clock readings; the timer heap is used only through the least deadline being on top."},
{"property": "C28", "status": "partial", "theorems": ["Verif.EventLoop.C28_due_timers_run_partial", "Verif.EventLoop.C28_starved_violated"], "note": "Holds for timers due when an iteration begins, once that iteration's ready handles are processed; violated in general: the loop drains its ready queue until it is empty, so a callback that keeps scheduling itself starves timers for ever (C28_starved_violated, for every n)."},
{"property": "C29", "status": "partial", "theorems": ["Verif.Cycler.C29_one_timer_partial", "Verif.Cycler.C29_silent_after_cancel_partial", "Verif.Cycler.C29_append", "Verif.Cycler.C29_sorted", "Verif.Cycler.C29_cycle_partial", "Verif.Cycler.C29_cancel_inside_violated", "Verif.Cycler.C29_two_timers_violated", "Verif.Cycler.C29_call_now_inside_violated", "Verif.Cycler.C29_created_by_thread_violated", "Verif.Cycler.C29_order_violated", "Verif.Cycler.C29_skipped_violated"], "note": "The code does not have the property (six witnesses: cancel, reschedule or call_now from a cycle function, a cycler created by another thread, adding or removing functions during a cycle). Proved when cancel, call_now and reschedule are not called by cycle functions and the cycler was created by the loop's thread; the order of the functions held is proved without conditions."},
{"property": "C30", "status": "partial", "theorems": ["Verif.SyncQueue.C30_fifo_partial", "Verif.SyncQueue.C30_not_blocked", "Verif.SyncQueue.C30_cancelled_partial", "Verif.SyncQueue.C30_twice_violated", "Verif.SyncQueue.C30_not_woken_violated", "Verif.SyncQueue.C30_repr_violated"], "note": "The code does not have the property (two blocked consumers obtain the same element, cancel raises AttributeError, repr appends to the queue). Proved for one blocked consumer at a time and a queue that is not formatted; that no consumer is blocked beside a queued element is proved without conditions."},
{"property": "C31", "status": "proved", "theorems": ["Verif.Transport.C31_prefix", "Verif.Transport.C31_rest", "Verif.Transport.C31_writer", "Verif.Transport.C31_drained"], "note": "Proved for every operation sequence, every behaviour of the socket and both variants of _write_ready. Assumes callers do not change a bytearray after passing it to write (the code keeps a reference)."},
{"property": "C32", "status": "proved", "theorems": ["Verif.Transport.C32_alternate", "Verif.Transport.C32_paused_above", "Verif.Transport.C32_resumed_below", "Verif.Transport.C32_not_stuck"], "note": "Proved for every operation sequence. C32_not_stuck adds that a paused protocol always has bytes to come out."},
{"property": "C33", "status": "partial", "theorems": ["Verif.PayloadStream.C33_whole_partial", "Verif.PayloadStream.C33_iterate_prefix_partial", "Verif.PayloadStream.C33_iterate_all_partial", "Verif.PayloadStream.C33_not_blocked_partial", "Verif.PayloadStream.C33_second_await_violated", "Verif.PayloadStream.C33_two_iterators_violated"], "note": "Proved for one consumer, with any interleaving of data, completion, resumption and cancellation. With two consumers the code does not have the property (witnesses: second awaiter gets nothing, two iterators share one chunk)."},
{"property": "C34", "status": "proved", "theorems": ["Verif.PayloadStream.C34_one_state", "Verif.PayloadStream.C34_first", "Verif.PayloadStream.C34_later", "Verif.PayloadStream.C34_no_chunk", "Verif.PayloadStream.C34_callbacks"], "note": "Proved for every operation sequence with any number of consumers."},
{"property": "C35", "status": "proved", "theorems": ["Verif.MultiDict.C35_invariant", "Verif.MultiDict.C35_answers", "Verif.MultiDict.C35_from_pairs"], "note": "Proved for all operation histories: invariant, key-by-key answers and order, construction from pairs."},
{"property": "C36", "status": "partial", "theorems": ["Verif.SortedList.C36_sorted", "Verif.SortedList.C36_contains", "Verif.SortedList.C36_index", "Verif.SortedList.C36_keyed_partial", "Verif.SortedList.C36_pop", "Verif.SortedList.C36_contents", "Verif.SortedList.C36_strict_partial", "Verif.SortedList.C36_duplicates_violated", "Verif.SortedList.C36_extend_self_violated"], "note": "Order, membership, index, pop and contents are proved for all histories over any linear order. Strictness fails: extend keeps equal elements (C36_duplicates_violated); strictness is proved without extend. Keyed lookup is proved for key functions which agree with the order. Extending a list with itself never ends (C36_extend_self_violated)."},
{"property": "C37", "status": "partial", "theorems": ["Verif.MultiDict.C37_spelling_partial", "Verif.MultiDict.C37_answers_partial", "Verif.MultiDict.C37_contains_partial", "Verif.MultiDict.C37_contains_violated", "Verif.MultiDict.C37_not_equal_violated", "Verif.MultiDict.C37_sub_type_violated", "Verif.MultiDict.C37_equal_partial", "Verif.MultiDict.C37_made_from_dict_violated"], "note": "Proved for all overridden operations, any case folding. Membership tests with plain names, !=, comparison with other str sub-types and construction from a dict violate it."},
{"property": "C38", "status": "partial", "theorems": ["Verif.Quoting.C38_partial", "Verif.Quoting.C38_digits_violated", "Verif.Quoting.C38_plus_violated", "Verif.Quoting.C38_query_violated"], "note": "Violated: the digits 8 and 9 of escapes are read back as 0 and 1 (so '\u00e9' comes back as '\u00e1', in every text around it), a '+' which is not quoted comes back as a space, and in queries '+', '&' and '=' come back as escapes. C38_partial: every text of characters outside these cases comes back, for every ASCII safe and protected set and for each pairing of the query flags."},
{"property": "C39", "status": "proved", "theorems": ["Verif.Quoting.C39_output", "Verif.Quoting.C39_returns", "Verif.Quoting.C39_raises"], "note": "All texts, safe and protected sets and both modes. quote returns for ASCII sets (C39_returns); with safe characters which are not ASCII it can raise (C39_raises), then there is no output."},
{"property": "C40", "status": "proved", "theorems": ["Verif.Url.C40_walk", "Verif.Url.C40_no_dots", "Verif.Url.C40_parse"], "note": "All lists of parts. C40_walk gives the whole result: a walk from the root in which '.' stays and '..' goes back but not beyond the root; a '.' at the end leaves an empty last part (the slash at the end), and the root alone is no path. The model keeps the index arithmetic of the in-place deletions and shows that no index error occurs."},
{"property": "C41", "status": "partial", "theorems": ["Verif.Url.C41_encoded_partial", "Verif.Url.C41_decoded_partial", "Verif.Url.C41_key_violated", "Verif.Url.C41_value_violated"], "note": "Violated: '=' in keys is not escaped (every key a=b with value v comes back as key a with value b=v), and values which do not survive quoting change. Partial: every dictionary without '=' in keys, with characters which survive quoting (encoded) or without '&' (not encoded) comes back with the same keys and values; the order of the keys becomes the sorted one."},
{"property": "C42", "status": "partial", "theorems": ["Verif.Url.C42_partial", "Verif.Url.C42_kind_violated", "Verif.Url.C42_transitive_violated"], "note": "Violated: hosts of different kinds always compare equal, and equality is not transitive. Partial: hosts of the same kind are equal exactly if all parts are. Host parts are compared by their decoded text; idna decoding is not modelled."},
{"property": "C43", "status": "proved", "theorems": ["Verif.Dns.C43_round_trip", "Verif.Dns.C43_flags"], "note": "Query building followed by result parsing echoes every field; QueryOk demands 16/32 bit field values and labels of 1..63 bytes, as the format does. build_query_data raises OverflowError beyond."},
{"property": "C44", "status": "partial", "theorems": ["Verif.Dns.C44_pointer_violated", "Verif.Dns.C44_violated", "Verif.Dns.C44_backwards_violated", "Verif.Dns.C44_bound_partial", "Verif.Dns.C44_plain_partial"], "note": "Violated: a compression pointer to itself or back into the same name (C00C at offset 12) makes the parser loop forever, for every such message. Partial: messages without pointer bytes always end, and a message ends within length+1 rounds or never."},
{"property": "C45", "status": "partial", "theorems": ["Verif.Dns.C45_partial", "Verif.Dns.C45_root_partial", "Verif.Dns.C45_at_violated"], "note": "Labels of ASCII bytes without 'xn--' round trip; violated for the single label '@', which is written escaped but parsed as the root. IDNA labels are not modelled."},
{"property": "C46", "status": "proved", "theorems": ["Verif.Dns.C46_v4", "Verif.Dns.C46_v6"], "note": "Every address value; the text forms are those produce_ip_*_string writes."},
{"property": "C47", "status": "proved", "theorems": ["Verif.Dns.C47_permutation", "Verif.Dns.C47_sorted", "Verif.Dns.C47_stable"], "note": "Every list of addresses and every sort list made of elements (see C71)."},
{"property": "C48", "status": "partial", "theorems": ["Verif.Dns.C48_prefix_violated", "Verif.Dns.C48_partial"], "note": "Violated: the search domain is put in front of the name instead of behind it. Partial: which names are tried and how many."},
{"property": "C49", "status": "proved", "theorems": ["Verif.Header.C49_subprotocols", "Verif.Header.C49_connections_layout", "Verif.Header.C49_upgrades_layout", "Verif.Header.C49_extensions_layout", "Verif.Header.C49_extensions"], "note": "Connections, subprotocols, upgrades and extensions, for every layout of the list (spaces, empty elements, quoted values)."},
{"property": "C50", "status": "proved", "theorems": ["Verif.Http.C50_layout", "Verif.Http.C50_request", "Verif.Http.C50_response"], "note": "Strings are their bytes in UTF-8. All layouts of header lines, and what write_http_request and write_http_response write; the cut at the empty line is that of an ideal read_until (C02)."},
{"property": "C51", "status": "proved", "theorems": ["Verif.Pool.C51_exclusive", "Verif.Pool.C51_available"], "note": "Proved over all histories of connect (split at its await), release, close, detach, clean up and closing of the connector, with socket events in between; the identity of protocols is their creation number."},
{"property": "C52", "status": "proved", "theorems": ["Verif.Pool.C52_given", "Verif.Pool.C52_dropped", "Verif.Pool.C52_contents", "Verif.Pool.C52_connect"], "note": "About pop_available_protocol for all contents, and about connect in all histories."},
{"property": "C53", "status": "partial", "theorems": ["Verif.Pool.C53_not_leaked_partial", "Verif.Pool.C53_secure_partial", "Verif.Pool.C53_clean_up_violated", "Verif.Pool.C53_plain_request_violated"], "note": "Violated: the clean up drops expired protocols of connections that are not secure without closing them (C53_clean_up_violated, for every such element; C53_plain_request_violated, a history). Partial: every other step, and the clean up of secure ones."},
{"property": "C54", "status": "partial", "theorems": ["Verif.Cookie.C54_sent_partial", "Verif.Cookie.C54_ip", "Verif.Cookie.C54_shared_violated"], "note": "Partial: for all histories in which every set of cookies comes with a host. Violated for cookies the program sets without one: path and secure flag are ignored."},
{"property": "C55", "status": "proved", "theorems": ["Verif.Rotation.C55_cyclic", "Verif.Rotation.C55_each_once", "Verif.Rotation.C55_starts"], "note": "A rotation is what one generator yields; the start index is stored before anything is yielded."},
{"property": "C56", "status": "partial", "theorems": ["Verif.Dedup.C56_distinct_partial", "Verif.Dedup.C56_distinct_violated", "Verif.Dedup.C56_line_feed_violated", "Verif.Dedup.C56_form"], "note": "Violated for names whose path part ends with something like an index (a (1) (5)) and for names with line feeds. Partial: all sequences of all other names; C56_form: all names."},
{"property": "C57", "status": "partial", "theorems": ["Verif.TaskGroup.C57_waiters_finish_partial", "Verif.TaskGroup.C57_wait_all_not_early", "Verif.TaskGroup.C57_wait_first_n_violated", "Verif.TaskGroup.C57_wait_next_violated", "Verif.TaskGroup.C57_wait_next_result_violated"], "note": "Holds for all waiters but wait_next on a group with nothing pending and wait_first_n with a number above the number of futures; wait_next also propagates None instead of the future."},
{"property": "C58", "status": "proved", "theorems": ["Verif.EventLoop.C58_no_sleep_on_ready", "Verif.EventLoop.C58_no_sleep_past_deadline"], "note": "All histories; what the selector is told to wait is compared with the ready queue and the earliest live timer."},
{"property": "C59", "status": "partial", "theorems": ["Verif.FlowControl.C59_drain_partial", "Verif.FlowControl.C59_blocked_by_reading_violated", "Verif.FlowControl.C59_two_tasks_violated", "Verif.FlowControl.C59_not_blocked_violated", "Verif.FlowControl.C59_lost_not_woken_violated", "Verif.FlowControl.C59_after_lost_violated"], "note": "The code does not have the property: reading and writing share the _paused attribute, there is one drain waiter, and the flag survives connection loss (five witnesses). Proved for histories in which these do not meet (Separate)."},
{"property": "C60", "status": "partial", "theorems": ["Verif.FlowControl.C60_reading_partial", "Verif.FlowControl.C60_never_resumed_violated", "Verif.FlowControl.C60_not_paused_violated"], "note": "The code does not have the property: after a writing pause and resume reading is never resumed (for every continuation), and while writing is paused reading is never paused. Proved when the transport does not pause writing."},
{"property": "C61", "status": "partial", "theorems": ["Verif.MultiDict.C61_violated", "Verif.MultiDict.C61_copy_partial"], "note": "copy() and construction from another dictionary are proved; copy.copy raises for every dictionary which is not empty."},
{"property": "C62", "status": "partial", "theorems": ["Verif.Quoting.C62_plain_partial", "Verif.Quoting.C62_escape_partial", "Verif.Quoting.C62_lost_violated", "Verif.Quoting.C62_truncated_violated", "Verif.Quoting.C62_raises_violated"], "note": "Violated: of several undecodable escapes only the last is kept, a truncated escape is dropped, and a '%' not followed by two hex digits raises. Partial: plain text, and a single undecodable escape within plain text, are kept."},
{"property": "C63", "status": "partial", "theorems": ["Verif.Url.C63_partial", "Verif.Url.C63_slash_violated", "Verif.Url.C63_empty_violated"], "note": "Violated: a slash in a part (from %2F) is not escaped when the path is written, so '..%2F..%2Fb' becomes path traversal on the next parse; an empty first part is lost. Partial: normal paths without slashes in parts and without an empty first part."},
{"property": "C64", "status": "proved", "theorems": ["Verif.Dns.C64_compressed", "Verif.Dns.C64_unique"], "note": "Messages in which every pointer leads backwards to labels; the reading is the one RFC 1035 4.1.4 describes, and it is unique."},
{"property": "C65", "status": "partial", "theorems": ["Verif.Dns.C65_partial", "Verif.Dns.C65_compressed_violated", "Verif.Dns.C65_raises_violated"], "note": "Violated: a compressed name in the record data is read relative to the data instead of the message, and a parsing error raises TypeError. Partial: uncompressed names."},
{"property": "C66", "status": "proved", "theorems": ["Verif.Dns.C66_servers"], "note": "All configurations; sockets and answers are arbitrary."},
{"property": "C67", "status": "proved", "theorems": ["Verif.Dns.C67_v4", "Verif.Dns.C67_v6", "Verif.Dns.C67_injective"], "note": "Every IPv4 and IPv6 address; different addresses have different names."},
{"property": "C68", "status": "partial", "theorems": ["Verif.Dns.C68_partial", "Verif.Dns.C68_any_violated"], "note": "Violated for the address '::' with a zone. Partial: every other address."},
{"property": "C69", "status": "partial", "theorems": ["Verif.Dns.C69_mask", "Verif.Dns.C69_partial", "Verif.Dns.C69_host_bits_violated", "Verif.Dns.C69_parse"], "note": "Violated: an element whose address has bits outside its mask selects nothing. Partial: elements without such bits. Masks of N upper bits are proved bit by bit."},
{"property": "C70", "status": "partial", "theorems": ["Verif.Dns.C70_partial", "Verif.Dns.C70_rest_violated", "Verif.Dns.C70_violated", "Verif.Dns.C70_file_partial"], "note": "Violated: only the first option of a line is read. Partial: lines with one option; what is on behind a file."},
{"property": "C71", "status": "partial", "theorems": ["Verif.Dns.C71_violated", "Verif.Dns.C71_elements_partial"], "note": "Violated: raw strings are put into the sort list and ordering then raises AttributeError. Partial: sort lists made of elements."},
{"property": "C72", "status": "proved", "theorems": ["Verif.Dns.C72_range", "Verif.Dns.C72_value"], "note": "Every file content (lines as lists of words)."},
{"property": "C73", "status": "proved", "theorems": ["Verif.Dns.C73_lists"], "note": "Every file content (lines as lists of words)."},
{"property": "C74", "status": "partial", "theorems": ["Verif.Dns.C74_partial", "Verif.Dns.C74_violated"], "note": "Violated: an improper search domain raises ValueError (on import). Partial: files whose search domains are proper names."},
{"property": "C75", "status": "proved", "theorems": ["Verif.Dns.C75_merge"], "note": "Every pair of configurations."},
{"property": "C76", "status": "proved", "theorems": ["Verif.Dns.C76_last"], "note": "Comment removal and stripping of lines are not modelled."},
{"property": "C77", "status": "partial", "theorems": ["Verif.Dns.C77_longest_partial", "Verif.Dns.C77_first_violated", "Verif.Dns.C77_single_violated"], "note": "Violated: a single zero unit is left out too, and of two equally long sequences the second one is left out when the first is at the start. Partial: as many zeros as possible are left out."},
{"property": "C78", "status": "proved", "theorems": ["Verif.Header.C78_connections", "Verif.Header.C78_upgrades", "Verif.Header.C78_extensions", "Verif.Header.C78_connections_exact", "Verif.Header.C78_upgrades_exact"], "note": "Every header text that is accepted; names are read exactly from the texts which are written as them."},
{"property": "C79", "status": "proved", "theorems": ["Verif.Header.C79_ends"], "note": "Every header text: one round of the loop more than there are characters is enough."},
{"property": "C80", "status": "partial", "theorems": ["Verif.Header.C80_partial", "Verif.Header.C80_tokens_partial", "Verif.Header.C80_violated"], "note": "Violated: a comma and a tab are accepted (the set of separators contains the string ', ' of two characters; a tab is removed twice by the symmetric differences). Partial: everything accepted consists of token characters, commas and tabs, and tokens are accepted."},
{"property": "C81", "status": "partial", "theorems": ["Verif.Header.C81_partial", "Verif.Header.C81_unquoted_partial", "Verif.Header.C81_violated"], "note": "Violated: a semicolon in a value that is not ASCII is not quoted, so a value adds parameters. Partial: values without that, and all values with quote_fields = False."},
{"property": "C82", "status": "partial", "theorems": ["Verif.Header.C82_quoted_partial", "Verif.Header.C82_violated"], "note": "Violated: with quote_fields = False line breaks are copied. Partial: not with quote_fields = True."},
{"property": "C83", "status": "partial", "theorems": ["Verif.Header.C83_violated", "Verif.Header.C83_extended_violated", "Verif.Header.C83_plain_partial"], "note": "Violated: a quoted value never comes back; an extended value comes back wrong as the charset is passed to unquote as its unsafe parameter. Partial: unquoted tokens."},
{"property": "C84", "status": "partial", "theorems": ["Verif.Header.C84_partial", "Verif.Header.C84_violated"], "note": "Violated: from eleven parts on only the first two are joined, as the parts are sorted as text. Partial: up to ten parts in any order."},
{"property": "C85", "status": "partial", "theorems": ["Verif.Http.C85_partial", "Verif.Http.C85_violated"], "note": "Violated for every version whose numbers differ: the major version is written twice, HTTP/1.0 as HTTP/1.1. Partial: versions with equal numbers."},
{"property": "C86", "status": "proved", "theorems": ["Verif.Http.C86_response"], "note": "All versions, statuses, reasons and headers a response can be written with; strings are their bytes."},
{"property": "C87", "status": "partial", "theorems": ["Verif.Http.C87_partial", "Verif.Http.C87_violated", "Verif.Http.C87_empty_violated"], "note": "Violated: blanks in front of the colon belong to the name, and there are headers with an empty name. Partial: no colon and no line break in names, no line break in values."},
{"property": "C88", "status": "partial", "theorems": ["Verif.Http.C88_partial", "Verif.Http.C88_violated", "Verif.Http.C88_reason_partial"], "note": "Violated: method and path may contain line breaks. Partial: they are not empty and have no blanks; reasons are single lines."},
{"property": "C89", "status": "partial", "theorems": ["Verif.Http.C89_partial", "Verif.Http.C89_violated"], "note": "Violated: values with line breaks write further headers. Partial: values without."},
{"property": "C90", "status": "partial", "theorems": ["Verif.Http.C90_partial", "Verif.Http.C90_refused_partial", "Verif.Http.C90_coding_violated", "Verif.Http.C90_lines_violated", "Verif.Http.C90_lengths_violated", "Verif.Http.C90_upgrade_violated", "Verif.Http.C90_request_violated"], "note": "Violated: 'chunked' anywhere in the first transfer coding line counts, of several lines only the first counts, contradicting lengths are not refused, payloads of responses with an upgrade header are not read, requests raise AttributeError. Partial: responses with at most the coding chunked and one length."},
{"property": "C91", "status": "partial", "theorems": ["Verif.Http.C91_partial", "Verif.Http.C91_violated"], "note": "Violated for payloads read to the end of the connection. Partial: chunks and known lengths."},
{"property": "C92", "status": "partial", "theorems": ["Verif.Http.C92_partial", "Verif.Http.C92_lines_violated", "Verif.Http.C92_old_violated"], "note": "Violated: close on a second line is not seen, and any option keeps an HTTP/1.0 connection open. Partial: no option, or the single option close or keep-alive."},
{"property": "C93", "status": "partial", "theorems": ["Verif.Pool.C93_handed_out_partial", "Verif.Pool.C93_handed_out_violated"], "note": "Violated: should_close ignores unread data once the end of the stream was received, so such a protocol is handed out until the connection is told to be lost. Partial: all but the end of the stream."},
{"property": "C94", "status": "partial", "theorems": ["Verif.Cookie.C94_ended_partial", "Verif.Cookie.C94_zero_violated", "Verif.Cookie.C94_expires_violated", "Verif.Cookie.C94_invalid_violated"], "note": "Partial: nothing is sent that ended a second ago or earlier, by Max-Age or by Expires read on the clock of the event loop. Violated: Max-Age=0 is still sent until the second is over; Expires (posix time) is compared with the monotonic clock; an invalid Max-Age hides Expires."},
{"property": "C95", "status": "partial", "theorems": ["Verif.Cookie.C95_kept_partial", "Verif.Cookie.C95_session_violated", "Verif.Cookie.C95_domain_violated", "Verif.Cookie.C95_path_violated", "Verif.Cookie.C95_name_violated"], "note": "Partial, with provisos on earlier settings under the same key. Violated: an old end stays when the cookie is set again without one; an old host-only flag stays when it is set again with a domain; cookies of different paths replace each other; of one name for two domains only one is sent."},
{"property": "C96", "status": "partial", "theorems": ["Verif.Cookie.C96_rfc_partial", "Verif.Cookie.C96_error_violated", "Verif.Cookie.C96_order_violated", "Verif.Cookie.C96_month_violated", "Verif.Cookie.C96_digits_violated", "Verif.Cookie.C96_fixdate"], "note": "Partial: agreement with RFC 6265 5.1.1 for texts whose tokens are of ordinary size and order, and every IMF-fixdate is read back. Violated: ValueError for a day the month does not have; the year in front is taken for the day; full month names are not recognised; too many digits accepted."},
{"property": "C97", "status": "partial", "theorems": ["Verif.ContentType.C97_read_partial", "Verif.ContentType.C97_pair_violated", "Verif.ContentType.C97_apostrophe_violated"], "note": "Holds for media types whose tokens have no apostrophe and whose quoted strings only escape the quote and the backslash (C97_read_partial). Violated: an apostrophe, which is a tchar of RFC 9110, ends a token and is an error (C97_apostrophe_violated); a quoted pair of any other character keeps its backslash (C97_pair_violated)."},
{"property": "C98", "status": "partial", "theorems": ["Verif.ContentType.C98_boundary_partial", "Verif.ContentType.C98_apostrophe_violated"], "note": "Holds for every boundary which is not a token with an apostrophe in it (C98_boundary_partial). Violated for all those: such a boundary is written unquoted, and only what is in front of the apostrophe is read (C98_apostrophe_violated)."},
{"property": "C99", "status": "partial", "theorems": ["Verif.Multipart.C99_size_partial", "Verif.Multipart.C99_known", "Verif.Multipart.C99_nested", "Verif.Multipart.C99_stale_violated", "Verif.Multipart.C99_text_violated"], "note": "Holds if the sizes of the payloads are right (C99_size_partial; C99_known says when there is a size, C99_nested is for writers within writers). Violated: a writer which is extended after it was appended to another (C99_stale_violated), and text files, whose size is the one of the file and not of the encoded text (C99_text_violated)."},
{"property": "C100", "status": "proved", "theorems": ["Verif.Multipart.C100_base64", "Verif.Multipart.C100_chunks"], "note": "For base64, with and without a compressor (a parameter). quoted-printable, which is encoded chunk by chunk, is not modelled."},
{"property": "C101", "status": "partial", "theorems": ["Verif.Multipart.C101_read_partial", "Verif.Multipart.C101_headers", "Verif.Multipart.C101_base64", "Verif.Multipart.C101_read_multipart_violated"], "note": "Holds for _read_single_multipart in a loop, with the boundary as bytes, on received data (C101_read_partial; C101_headers: which headers a part has; C101_base64: base64 never has the boundary in it). Violated: read_multipart passes the boundary as str, so that bytes + str raises TypeError; it never yields a part (C101_read_multipart_violated)."},
{"property": "C102", "status": "partial", "theorems": ["Verif.Redirect.C102_host_partial", "Verif.Redirect.C102_first", "Verif.Redirect.C102_violated", "Verif.Redirect.C102_redirect_violated"], "note": "Violated behind a redirect: the Host header of the first url stays in the headers and is sent to the other host (C102_violated, C102_redirect_violated). Holds for the first request and as long as no Host header was sent before."},
{"property": "C103", "status": "partial", "theorems": ["Verif.Redirect.C103_cookies_partial", "Verif.Redirect.C103_violated"], "note": "Violated behind a redirect: the Cookie header of the first request stays in the headers and is sent to any other host."},
{"property": "C104", "status": "partial", "theorems": ["Verif.Redirect.C104_origin_partial", "Verif.Redirect.C104_request2_violated", "Verif.Redirect.C104_two_violated"], "note": "Violated by _request2, which never removes the header, and by _request if there are two values, since del removes only the first. Holds for _request with at most one value and no user info in urls."},
{"property": "C105", "status": "partial", "theorems": ["Verif.Redirect.C105_bounded_partial", "Verif.Redirect.C105_violated", "Verif.Redirect.C105_negative_violated"], "note": "Violated: of n allowed redirects n - 1 are followed; with a negative number there is no end. Holds: never more than n requests (1 if n is 0)."},
{"property": "C106", "status": "proved", "theorems": ["Verif.Redirect.C106_method", "Verif.Redirect.C106_first"], "note": ""},
{"property": "C107", "status": "partial", "theorems": ["Verif.Redirect.C107_content_partial", "Verif.Redirect.C107_violated", "Verif.Redirect.C107_two_violated"], "note": "Violated: del removes only the first of several values, and 'chunked' is added beside a given coding, so it stays on the request behind the redirect."},
{"property": "C108", "status": "partial", "theorems": ["Verif.Redirect.C108_framing_partial", "Verif.Redirect.C108_length", "Verif.Redirect.C108_violated"], "note": "Violated: another Transfer-Encoding is kept beside the Content-Length."},
{"property": "C109", "status": "partial", "theorems": ["Verif.Redirect.C109_location_partial", "Verif.Redirect.C109_violated"], "note": "Violated for relative references: their scheme is None, which is not among 'http', 'https', ''; an error is raised."},
{"property": "C110", "status": "proved", "theorems": ["Verif.WebSocketSession.C110_received", "Verif.WebSocketSession.C110_exact"], "note": ""},
{"property": "C111", "status": "partial", "theorems": ["Verif.WebSocketSession.C111_bounded", "Verif.WebSocketSession.C111_within_partial", "Verif.WebSocketSession.C111_violated"], "note": "Violated: a control frame between the pieces of a message is measured by the size left for the message (1009). Proved: nothing larger is delivered, and messages in one frame up to max_size are."},
{"property": "C112", "status": "partial", "theorems": ["Verif.WebSocketSession.C112_answered_partial", "Verif.WebSocketSession.C112_closing_violated"], "note": "Violated: a ping received while closing makes transfer_data wait for close_connection, which waits for transfer_data; the Close of the peer is never read. Proved: the exact sequence of what an open connection writes."},
{"property": "C113", "status": "partial", "theorems": ["Verif.WebSocketSession.C113_violated", "Verif.WebSocketSession.C113_client_violated", "Verif.WebSocketSession.C113_server_violated", "Verif.WebSocketSession.C113_unsolicited_partial"], "note": "Violated: clients call set_resultd_if_pending, which does not exist; servers look up a bytearray, which is not hashable: no ping is ever answered. Proved: a client ignores pongs it did not ask for."},
{"property": "C114", "status": "partial", "theorems": ["Verif.WebSocketSession.C114_transferred_partial", "Verif.WebSocketSession.C114_reason_violated", "Verif.WebSocketSession.C114_codes", "Verif.WebSocketSession.C114_documented_violated"], "note": "Violated: reasons of more than 123 bytes are sent and refused by the peer; 1013 is taken although documented otherwise. Proved: transfer and echo of codes and shorter reasons, and no forbidden code is sent in any execution."},
{"property": "C115", "status": "partial", "theorems": ["Verif.WebSocketSession.C115_valid_partial", "Verif.WebSocketSession.C115_violated"], "note": "Violated: pings, pongs with more than 125 bytes (and Close with a long reason) are written. Proved for users who keep the sizes, in all executions."},
{"property": "C116", "status": "partial", "theorems": ["Verif.WebSocketSession.C116_writers_partial", "Verif.WebSocketSession.C116_order", "Verif.WebSocketSession.C116_fail_violated", "Verif.WebSocketSession.C116_last"], "note": "Violated: fail_connection writes its Close without the lock, and a writer which waits for it writes behind it. Proved: in all executions with one writer at a time, and with several unless the connection is failed while one waits."},
{"property": "C117", "status": "partial", "theorems": ["Verif.WebSocketSession.C117_closed_partial", "Verif.WebSocketSession.C117_eof_partial", "Verif.WebSocketSession.C117_client_violated", "Verif.WebSocketSession.C117_abort_violated", "Verif.WebSocketSession.C117_wait_violated"], "note": "Violated: wait_for_connection_lost has its test inverted and always says that the connection is lost, so it is never aborted; a client without ssl never closes behind a received Close. Proved: it is closed in the other cases."},
{"property": "C118", "status": "partial", "theorems": ["Verif.Handshake.C118_agree", "Verif.Handshake.C118_extra_violated"], "note": "Subprotocols agree; additional headers which are added to those of the handshake break it (shown). Without extensions on one side: see C123."},
{"property": "C119", "status": "partial", "theorems": ["Verif.Handshake.C119_accepted_partial", "Verif.Handshake.C119_accepts_partial", "Verif.Handshake.C119_violated", "Verif.Handshake.C119_second_violated"], "note": "Violated: any single name in Upgrade is accepted, method, HTTP version and Host are not looked at; valid requests with another protocol before websocket are refused. What is checked is proved, for every layout of the lists."},
{"property": "C120", "status": "partial", "theorems": ["Verif.Handshake.C120_opened_partial", "Verif.Handshake.C120_opens", "Verif.Handshake.C120_upgrade_violated", "Verif.Handshake.C120_error_violated", "Verif.Handshake.C120_error_partial"], "note": "Violated: any single name in Upgrade is accepted, a missing Upgrade and an empty subprotocol are an IndexError. Everything else is proved in both directions."},
{"property": "C121", "status": "partial", "theorems": ["Verif.Handshake.C121_origin_violated", "Verif.Handshake.C121_kept_violated"], "note": "Violated for all servers and requests: the attribute is overwritten with None, and the header would be looked for in itself."},
{"property": "C122", "status": "partial", "theorems": ["Verif.Handshake.C122_choice_partial", "Verif.Handshake.C122_determined_partial", "Verif.Handshake.C122_order_violated", "Verif.Handshake.C122_preference_violated", "Verif.Handshake.C122_selector_violated"], "note": "Violated: ties are decided by the order of a set, the list of the server is not its preference, the result of a selector is not checked. Proved: in both, least sum of positions, one is chosen if there is one of both."},
{"property": "C123", "status": "partial", "theorems": ["Verif.Handshake.C123_client_partial", "Verif.Handshake.C123_server_violated"], "note": "Violated: a server never accepts an extension (500), and refuses unknown ones (400). The client's side is proved exactly."},
{"property": "C124", "status": "partial", "theorems": ["Verif.Handshake.C124_status_partial", "Verif.Handshake.C124_missing_violated", "Verif.Handshake.C124_shutdown_violated", "Verif.Handshake.C124_abort_violated", "Verif.Handshake.C124_answers_partial"], "note": "Violated: 500 without Upgrade and for malformed lists, shutdown and aborts of the request processor are not answered. Statuses of the other requests are proved."},
{"property": "C125", "status": "partial", "theorems": ["Verif.Handshake.C125_request_partial", "Verif.Handshake.C125_credentials_violated", "Verif.Handshake.C125_host_violated", "Verif.Handshake.C125_encoded_violated"], "note": "Violated: credentials raise AttributeError, a given host is a second one, international hosts are not encoded. Everything else is proved."},
{"property": "C126", "status": "proved", "theorems": ["Verif.Weak.C126_weak_containers_are_dictionaries", "Verif.Weak.C126_a_stored_value_is_found"], "note": "Refinement, for every equality of objects."},
{"property": "C127", "status": "partial", "theorems": ["Verif.Weak.C127_length_partial", "Verif.Weak.C127_length_of_a_map", "Verif.Weak.C127_length_violated", "Verif.Weak.C127_length_of_a_set_violated", "Verif.Weak.C127_foreign_references_violated"], "note": "Right as long as nothing is popped during an iteration and no set with dead references is xor-ed in (always for WeakMap); otherwise wrong, even negative."},
{"property": "C128", "status": "partial", "theorems": ["Verif.Weak.C128_the_dead_are_gone", "Verif.Weak.C128_the_dead_are_gone_from_keys_partial", "Verif.Weak.C128_the_dead_are_gone_violated"], "note": "Proved for WeakSet and WeakMap; WeakKeyDictionary keeps dead keys after a popitem during an iteration, because the loop of _commit_removals returns at a missing key."},
{"property": "C129", "status": "proved", "theorems": ["Verif.Weak.C129_iteration", "Verif.Weak.C129_iteration_order", "Verif.Weak.C129_the_living_are_met"], "note": "Exact, for every schedule of deaths."},
{"property": "C130", "status": "partial", "theorems": ["Verif.Weak.C130_intersection", "Verif.Weak.C130_union", "Verif.Weak.C130_difference", "Verif.Weak.C130_symmetric_difference", "Verif.Weak.C130_in_place", "Verif.Weak.C130_comparison_partial", "Verif.Weak.C130_comparison_violated", "Verif.Weak.C130_difference_with_itself_violated", "Verif.Weak.C130_symmetric_difference_with_itself_violated", "Verif.Weak.C130_reachable_sets"], "note": "New sets and in place with another set are exact; s -= s and s ^= s raise; comparison sees dead references."},
{"property": "C131", "status": "proved", "theorems": ["Verif.Weak.C131_value_dictionaries_are_dictionaries", "Verif.Weak.C131_never_a_dead_object"], "note": "Refinement; what is excepted is C132 and C135."},
{"property": "C132", "status": "partial", "theorems": ["Verif.Weak.C132_length_partial", "Verif.Weak.C132_the_end_of_an_iteration_removes_nothing_violated", "Verif.Weak.C132_length_violated", "Verif.Weak.C132_any_number_violated"], "note": "Right if nothing dies during an iteration; otherwise the end of the iteration never removes anything, because a WeakHasher is compared by identity with the reference."},
{"property": "C133", "status": "partial", "theorems": ["Verif.Weak.C133_item_dictionaries_partial", "Verif.Weak.C133_length_partial", "Verif.Weak.C133_a_living_item_is_lost_violated", "Verif.Weak.C133_equal_keys_violated"], "note": "Exact for distinct keys and no deaths during iterations; otherwise living items are lost or dead ones kept."},
{"property": "C134", "status": "partial", "theorems": ["Verif.Weak.C134_copies_of_keyed_containers", "Verif.Weak.C134_length_of_a_copy", "Verif.Weak.C134_copy_of_an_item_dictionary_violated", "Verif.Weak.C134_a_copy_keeps_the_dead_violated"], "note": "Proved for WeakSet, WeakMap, WeakKeyDictionary; a copy of a WeakItemDictionary is created with the callbacks of the original."},
{"property": "C135", "status": "partial", "theorems": ["Verif.Weak.C135_pop_with_default", "Verif.Weak.C135_pop_with_default_violated", "Verif.Weak.C135_pop_with_default_partial"], "note": "Proved for WeakValueDictionary; HybridValueDictionary raises TypeError for every missing key."},
{"property": "C136", "status": "proved", "theorems": ["Verif.ThreadPool.C136_once_in_order"], "note": "Executor threads: started once, in order, by the thread a call was given to; all interleavings."},
{"property": "C137", "status": "proved", "theorems": ["Verif.ThreadPool.C137_own_outcome"], "note": "Outcome of the own function only; done futures are final."},
{"property": "C138", "status": "proved", "theorems": ["Verif.ThreadPool.C138_no_thread_forgotten", "Verif.ThreadPool.C138_given_back"], "note": "Also: when nothing is left to do, no thread is in use (C138_given_back)."},
{"property": "C139", "status": "partial", "theorems": ["Verif.ThreadPool.C139_free_is_idle_partial", "Verif.ThreadPool.C139_free_is_idle_violated"], "note": "Violated: cancelling a running call (or releasing a ClaimedExecutor whose thread runs one) puts a thread which still runs a function among the free ones; the next call waits behind it. Partial: holds if neither happens."},
{"property": "C140", "status": "partial", "theorems": ["Verif.ThreadPool.C140_given_back_partial", "Verif.ThreadPool.C140_given_back_violated"], "note": "Violated: release raises AttributeError whenever the queue is not empty (_shrink_queue asks pairs for is_done). Partial: empty queue."},
{"property": "C141", "status": "partial", "theorems": ["Verif.ThreadPool.C141_every_call_settled_partial", "Verif.ThreadPool.C141_every_call_settled_violated"], "note": "Violated: a call given to a ClaimedExecutor after release_executors or cancel_executors is never settled. Partial: holds otherwise, with a bound on the steps."},
{"property": "C142", "status": "partial", "theorems": ["Verif.ThreadPool.C142_cancel_executors_partial", "Verif.ThreadPool.C142_cancel_executors_violated"], "note": "Violated: a call which its thread has taken, but not started, is started after cancel_executors. Partial: calls in queues."},
{"property": "C143", "status": "partial", "theorems": ["Verif.ThreadPool.C143_idle_threads_go_partial", "Verif.ThreadPool.C143_idle_threads_go_violated"], "note": "Violated: every second firing does nothing, and a free thread is never released while another one runs and few are to be kept. Partial: all free threads are released after 2n+2 firings if nothing runs."},
{"property": "C144", "status": "proved", "theorems": ["Verif.Timeouts.C144_never_early"], "note": "all runs"},
{"property": "C145", "status": "partial", "theorems": ["Verif.Timeouts.C145_armed_partial", "Verif.Timeouts.C145_in_time_partial", "Verif.Timeouts.C145_violated"], "note": "violated: after the block swallows the interruption the timer is not set again (C145_violated, for all timeouts); C145_armed_partial / C145_in_time_partial: until the timer strikes"},
{"property": "C146", "status": "partial", "theorems": ["Verif.Timeouts.C146_exit_partial", "Verif.Timeouts.C146_outcomes_partial", "Verif.Timeouts.C146_silent_after", "Verif.Timeouts.C146_violated"], "note": "violated: after a swallowed interruption a cancellation by others becomes TimeoutError (C146_violated); the exact condition is C146_exit_partial; C146_silent_after holds fully"},
{"property": "C147", "status": "proved", "theorems": ["Verif.Timeouts.Fut.C147_not_early", "Verif.Timeouts.Fut.C147_ends", "Verif.Timeouts.Fut.C147_zero", "Verif.Timeouts.Fut.C147_first_wins", "Verif.Timeouts.Fut.C147_no_timer_left"], "note": "all runs"},
{"property": "C148", "status": "partial", "theorems": ["Verif.Timeouts.Fut.C148_return", "Verif.Timeouts.Fut.C148_not_early", "Verif.Timeouts.Fut.C148_ends_partial", "Verif.Timeouts.Fut.C148_first_wins", "Verif.Timeouts.Fut.C148_violated"], "note": "violated on a stopped loop, where 1 is answered and nothing set (C148_violated); C148_ends_partial on a running loop"},
{"property": "C149", "status": "partial", "theorems": ["Verif.CrossThread.C149_outcome_partial", "Verif.CrossThread.C149_invalid_state_violated", "Verif.CrossThread.C149_two_outcomes_violated", "Verif.CrossThread.C149_confused_violated", "Verif.CrossThread.C149_done_stays"], "note": "violated: cancel in another thread makes a wait raise InvalidStateError (C149_invalid_state_violated), racing setters give different outcomes (C149_two_outcomes_violated, C149_confused_violated); C149_outcome_partial: if add_done_callback, remove_done_callback, cancel, and check-and-mark are not interleaved (Orderly); C149_done_stays: all runs"},
{"property": "C150", "status": "partial", "theorems": ["Verif.CrossThread.C150_no_lost_wakeup_partial", "Verif.CrossThread.C150_add_violated", "Verif.CrossThread.C150_cancel_violated", "Verif.CrossThread.C150_remove_violated"], "note": "violated in three ways (add, cancel, remove); C150_no_lost_wakeup_partial for Orderly runs"},
{"property": "C151", "status": "partial", "theorems": ["Verif.CrossThread.C151_no_callback_left", "Verif.CrossThread.C151_timed_out_partial", "Verif.CrossThread.C151_violated"], "note": "violated: TimeoutError although the future is done (C151_violated); C151_timed_out_partial: only if the loop has not run the callback; C151_no_callback_left: all runs"},
{"property": "C152", "status": "partial", "theorems": ["Verif.CrossThread.C152_no_index_error_partial", "Verif.CrossThread.C152_wait_violated", "Verif.CrossThread.C152_set_violated"], "note": "violated for wait and for set_result; C152_no_index_error_partial for Orderly runs"},
{"property": "C153", "status": "partial", "theorems": ["Verif.EnterExecutor.C153_not_lost_partial", "Verif.EnterExecutor.C153_entering_violated", "Verif.EnterExecutor.C153_last_section_violated", "Verif.EnterExecutor.C153_leaving_violated", "Verif.EnterExecutor.C153_returned_violated"], "note": "violated: cancelled while entering, in the last section, while leaving, or before returning in the executor the task never ends (C153_*_violated); C153_not_lost_partial: cancelled only while the block waits for a future or after it was given back (Calm)"},
{"property": "C154", "status": "partial", "theorems": ["Verif.EnterExecutor.C154_body_in_executor", "Verif.EnterExecutor.C154_after_on_loop_partial", "Verif.EnterExecutor.C154_violated"], "note": "C154_body_in_executor: all runs; violated for the code behind the block if cancelled before its first await (C154_violated); C154_after_on_loop_partial for Calm runs"},
{"property": "C155", "status": "partial", "theorems": ["Verif.EnterExecutor.C155_waiting_partial", "Verif.EnterExecutor.C155_computing_partial", "Verif.EnterExecutor.C155_first_section_violated", "Verif.EnterExecutor.C155_repeated_violated"], "note": "violated: cancelled before the first await nothing is cancelled (C155_first_section_violated), one cancellation may be thrown any number of times (C155_repeated_violated); C155_waiting_partial, C155_computing_partial"},
{"property": "C156", "status": "partial", "theorems": ["Verif.EnterExecutor.C156_told_partial", "Verif.EnterExecutor.C156_violated"], "note": "violated: _schedule_callbacks is called with the context manager, so a task which ends in the executor never tells its waiters (C156_violated, for all such runs); C156_told_partial for Calm runs"},
{"property": "C157", "status": "proved", "theorems": ["Verif.Zip.C157_round_trip"], "note": "Proved for every deflater; that the stored data inflates to the contents is a property of zlib."},
{"property": "C158", "status": "partial", "theorems": ["Verif.Zip.C158_streamable", "Verif.Zip.C158_within_format_partial", "Verif.Zip.C158_many_files_violated"], "note": "Exact condition proved; more than 65535 files raise struct.error after everything was sent, since the count of the last record is not masked by 0xffff."},
{"property": "C159", "status": "partial", "theorems": ["Verif.Zip.C159_dates_partial", "Verif.Zip.C159_years_violated"], "note": "Years outside 1980-2107 wrap around silently."},
{"property": "C160", "status": "partial", "theorems": ["Verif.Zip.C160_front_partial", "Verif.Zip.C160_front_violated"], "note": "The descriptor has 8 byte sizes, but the local header lacks the zip64 extra field which announces them (APPNOTE 4.3.9.2)."},
{"property": "C161", "status": "proved", "theorems": ["Verif.Frames.C161_frames_conserved", "Verif.Frames.C161_iterated"], "note": ""},
{"property": "C162", "status": "proved", "theorems": ["Verif.Frames.C162_bottom", "Verif.Frames.C162_top"], "note": ""},
{"property": "C163", "status": "proved", "theorems": ["Verif.Frames.C163_groups", "Verif.Frames.C163_no_repeat"], "note": ""},
{"property": "C164", "status": "partial", "theorems": ["Verif.Frames.C164_filter_partial", "Verif.Frames.C164_filter_violated"], "note": "Holds for filters which do not distinguish alike frames; otherwise only the frames of the first round are asked, and all rounds are dropped or kept together."},
{"property": "C165", "status": "partial", "theorems": ["Verif.Ssl.C165_polite_writers_never_leak_partial", "Verif.Ssl.C165_writing_after_the_peer_closed_leaks_violated", "Verif.Ssl.C165_writing_before_the_handshake_leaks_violated"], "note": "Polite writers (not before the connection is made, not while is_closing()) never leak, whatever the engine. Violated otherwise: when the peer's close notify ends the session the pipe goes back to UNWRAPPED but the layer keeps it, so as long as the underlying transport still has bytes buffered, anything written goes out in plaintext; so does what is written before connection_made."},
{"property": "C166", "status": "proved", "theorems": ["Verif.Ssl.C166_writes_are_conserved", "Verif.Ssl.C166_refused_buffers_are_repeated"], "note": "For all runs which do not hang; engines whose write takes all or raises (as the docstring of feed_application_data states)."},
{"property": "C167", "status": "partial", "theorems": ["Verif.Ssl.C167_only_decrypted_bytes_in_order_partial", "Verif.Ssl.C167_everything_decrypted_is_given_partial", "Verif.Ssl.C167_bytes_ahead_of_a_broken_record_are_dropped_violated", "Verif.Ssl.C167_early_data_is_passed_through_violated"], "note": "Prefix always, equality unless aborted, for a calm transport. Violated: an ssl error after successful reads of the same feed_ssl_data drops the chunks already decrypted; data ahead of the first scheduled callback is passed through raw."},
{"property": "C168", "status": "partial", "theorems": ["Verif.Ssl.C168_settled_at_most_once", "Verif.Ssl.C168_settled_after_a_handshake", "Verif.Ssl.C168_settled_after_a_loss", "Verif.Ssl.C168_result_means_handshake_partial", "Verif.Ssl.C168_aborting_the_handshake_reports_success_violated"], "note": "Violated: abort() during the handshake ends in connection_lost(None), which sets the result of the waiter, so the connecting side takes the connection as established."},
{"property": "C169", "status": "proved", "theorems": ["Verif.Ssl.C169_lifecycle", "Verif.Ssl.C169_loss_is_told_to_who_was_connected"], "note": "For call_connection_made = True and a calm transport (made once, data and eof only after the first scheduled callback and not while closing)."},
{"property": "C170", "status": "partial", "theorems": ["Verif.Ssl.C170_willing_engines_get_everything_partial", "Verif.Ssl.C170_scheduled_callbacks_send_everything_partial", "Verif.Ssl.C170_refused_writes_stay_violated"], "note": "For engines which take every write. Violated: a write refused with WANT_READ in the wrapped state is not tried again when data arrives; data_received never looks at the backlog."},
{"property": "C171", "status": "proved", "theorems": ["Verif.Editor.C171_paste_edits_the_text", "Verif.Editor.C171_flat_is_the_text", "Verif.Editor.C171_moves_keep_the_text", "Verif.Editor.C171_left_right", "Verif.Editor.C171_delete_undoes_print"], "note": ""},
{"property": "C172", "status": "proved", "theorems": ["Verif.Editor.C172_plain_keys", "Verif.Editor.C172_enter_indents", "Verif.Editor.C172_tab_goes_to_the_next_stop", "Verif.Editor.C172_up_and_down"], "note": ""},
{"property": "C173", "status": "proved", "theorems": ["Verif.Editor.C173_cursor_in_text", "Verif.Editor.C173_begins_in_text", "Verif.Editor.C173_history_usable"], "note": ""},
{"property": "C174", "status": "partial", "theorems": ["Verif.Editor.C174_tokens_read_back", "Verif.Editor.C174_paste_is_inserted", "Verif.Editor.C174_typed_like_pasted", "Verif.Editor.C174_split_read_violated", "Verif.Editor.C174_unknown_key_violated"], "note": "Whole keys in one read are proved to be read back and processed; a key split over two reads loses its escape character and the rest becomes text (C174_split_read_violated, for every state), and so does an unknown key."},
{"property": "C175", "status": "proved", "theorems": ["Verif.Editor.C175_longest_common_prefix", "Verif.Editor.C175_not_completed", "Verif.Editor.C175_any_order", "Verif.Editor.C175_tab_completes"], "note": ""},
{"property": "C176", "status": "partial", "theorems": ["Verif.Editor.C176_back_is_nearest", "Verif.Editor.C176_forward_is_nearest", "Verif.Editor.C176_back_and_forward", "Verif.Editor.C176_forward_and_back_partial", "Verif.Editor.C176_newest_skipped_violated", "Verif.Editor.C176_walk_shows_every_entry"], "note": "Nearest entries, walk over all entries, back then forward: proved. Forward then back holds unless forward ran past the newest entry: then the cursor stays on the newest while nothing is shown, and going back skips it (C176_newest_skipped_violated, for every history with a newest entry)."},
{"property": "C177", "status": "partial", "theorems": ["Verif.Editor.C177_edits_kept_partial", "Verif.Editor.C177_given_by_the_history", "Verif.Editor.C177_edits_lost_violated"], "note": "Holds for all runs in which no tab is pressed that changes nothing after an edit; execute_tab then clears the mark and home, up replace the text (C177_edits_lost_violated)."},
{"property": "C178", "status": "partial", "theorems": ["Verif.ReuIO.C178_calm_uses_partial", "Verif.ReuIO.C178_reuse", "Verif.ReuIO.C178_negative_amount_violated", "Verif.ReuIO.C178_seek_past_violated", "Verif.ReuIO.C178_seek_end_violated"], "note": "Holds for uses which write at the end or after a read, read amounts which are not negative and move inside what was written; a negative amount or a move past the end shows bytes of an earlier session, and moving to the end does not move."},
{"property": "C179", "status": "partial", "theorems": ["Verif.ReuIO.C179_length_violated", "Verif.ReuIO.C179_length_calm_partial"], "note": "Holds for the same uses; writing over what was written adds to the length although nothing is added."},
{"property": "C180", "status": "partial", "theorems": ["Verif.ReuIO.C180_rewind_partial", "Verif.ReuIO.C180_rewind_lost_violated", "Verif.ReuIO.C180_both_rewind_violated"], "note": "Holds if each read is awaited before the next use; a close while the first read after a close waits is lost, and two reads given after a close both begin at the start."},
{"property": "C181", "status": "partial", "theorems": ["Verif.ReuIO.C181_not_released_twice", "Verif.ReuIO.C181_claimed_released_partial", "Verif.ReuIO.C181_close", "Verif.ReuIO.C181_detached_thread_violated", "Verif.ReuIO.C181_waiting_call_violated"], "note": "Never twice; released at the latest when the object is collected, for claimed executors and if no call waits. A thread started outside of an event loop is not stopped by detach; a file collected while a call waits keeps its executor."},
{"property": "C182", "status": "proved", "theorems": ["Verif.Pipe.C182_prefix", "Verif.Pipe.C182_kept", "Verif.Pipe.C182_closed_is_complete", "Verif.Pipe.C182_failure_is_told"], "note": ""},
{"property": "C183", "status": "proved", "theorems": ["Verif.Pipe.C183_signals", "Verif.Pipe.C183_bound", "Verif.Pipe.C183_not_forgotten", "Verif.Pipe.C183_lost_comes"], "note": ""},
{"property": "C184", "status": "proved", "theorems": ["Verif.Pipe.C184_read_end", "Verif.Pipe.C184_all_told"], "note": ""},
{"property": "C185", "status": "partial", "theorems": ["Verif.Pipe.C185_own_number_partial", "Verif.Pipe.C185_stale_violated"], "note": "Holds if the transport is not aborted; aborting it after its pipe was closed removes the callbacks of its old number."},
{"property": "C186", "status": "partial", "theorems": ["Verif.Process.C186_noticed_partial", "Verif.Process.C186_not_noticed_violated"], "note": "Proved if stdout or stderr is a pipe. Violated if neither is: nothing closes the process, so its end is never noticed and wait never ends."},
{"property": "C187", "status": "proved", "theorems": ["Verif.Process.C187_answers", "Verif.Process.C187_once", "Verif.Process.C187_nobody_waits", "Verif.Process.C187_stopped_not_told"], "note": ""},
{"property": "C188", "status": "partial", "theorems": ["Verif.Process.C188_own_end_partial", "Verif.Process.C188_killed_violated"], "note": "Proved for runs in which the last pipe is lost after the process ended. Violated otherwise: losing the last output closes the process, which kills it."},
{"property": "C189", "status": "partial", "theorems": ["Verif.Process.C189_drain_hangs_violated", "Verif.Process.C189_drain_at_once_partial"], "note": "Calls which do not have to wait end at once. Violated for calls which have to wait: the future is given the process as its loop, which can not schedule the callbacks, so they never end."},
{"property": "C190", "status": "proved", "theorems": ["Verif.Process.C190_readers"], "note": ""},
{"property": "C191", "status": "proved", "theorems": ["Verif.Asyncio.Sem.C191_counts", "Verif.Asyncio.Sem.C191_bounded"], "note": "Every sequence; see Semaphore.lean for the model of the calls."},
{"property": "C192", "status": "proved", "theorems": ["Verif.Asyncio.Sem.C192_nobody_waits", "Verif.Asyncio.Sem.C192_served"], "note": "Every sequence of operations."},
{"property": "C193", "status": "partial", "theorems": ["Verif.Asyncio.Sem.C193_overtaken_violated", "Verif.Asyncio.Sem.C193_starved_violated", "Verif.Asyncio.Sem.C193_in_order_partial"], "note": "Proved for sequences in which calls come only when the loop has nothing to resume. Violated in general: a call which comes between a release and the resumption of the woken one takes what that one was woken for, and this can go on without end."},
{"property": "C194", "status": "proved", "theorems": ["Verif.Asyncio.Streams.C194_conserved"], "note": "One reading task."},
{"property": "C195", "status": "proved", "theorems": ["Verif.Asyncio.Streams.C195_right", "Verif.Asyncio.Streams.C195_end"], "note": "One reading task."},
{"property": "C196", "status": "proved", "theorems": ["Verif.Asyncio.Streams.C196_no_deadlock", "Verif.Asyncio.Streams.C196_resumed", "Verif.Asyncio.Streams.C196_bounded"], "note": "One reading task; the bound needs a transport which delivers nothing while it is paused."},
{"property": "C197", "status": "partial", "theorems": ["Verif.Asyncio.Cond.C197_two_holders_violated", "Verif.Asyncio.Cond.C197_one_holder_partial"], "note": "Proved if no task is cancelled while it waits for the lock. Violated: when a notified call is cancelled while it takes the lock again, a future is added to the lock and the block which is left releases the future of another one, so a third task gets the lock while it is held."},
{"property": "C198", "status": "proved", "theorems": ["Verif.Asyncio.Cond.C198_notify", "Verif.Asyncio.Cond.C198_notify_all", "Verif.Asyncio.Cond.C198_in_order"], "note": "Every state and every sequence."},
{"property": "C199", "status": "proved", "theorems": ["Verif.Asyncio.Bar.C199_nobody_stuck"], "note": "All parties, all sequences including cancellations, resets and aborts."},
{"property": "C200", "status": "proved", "theorems": ["Verif.Asyncio.Bar.C200_who_passes"], "note": "All parties, all sequences including cancellations, resets and aborts."},
{"property": "C201", "status": "partial", "theorems": ["Verif.Asyncio.Bar.C201_unique_violated", "Verif.Asyncio.Bar.C201_unique_partial"], "note": "Proved without cancellations. Violated: a cancelled call lowers the count, so the next one gets an index which is taken."},
{"property": "C202", "status": "partial", "theorems": ["Verif.Asyncio.Gather.C202_order_violated", "Verif.Asyncio.Gather.C202_twice_violated", "Verif.Asyncio.Gather.C202_first_exception_violated", "Verif.Asyncio.Gather.C202_results_partial"], "note": "Proved: the results are those of the different futures, in some order, and an exception is the one of a failed future. Violated: the order of the arguments, the number of results for repeated arguments and the first exception."},
{"property": "C203", "status": "partial", "theorems": ["Verif.Asyncio.Gather.C203_first_exception_violated", "Verif.Asyncio.Gather.C203_sets_partial", "Verif.Asyncio.Gather.C203_returns"], "note": "Proved: the two sets, and that waiting ends. Violated: waiting for the first exception ends at the first future which is done."},
{"property": "C204", "status": "partial", "theorems": ["Verif.Server.C204_early_violated", "Verif.Server.C204_cancelled_violated", "Verif.Server.C204_in_flight_violated", "Verif.Server.C204_told_partial"], "note": "Violated: a call made after close returns at once although connections are open (early); a cancelled waiter makes set_result raise, so the waiters after it are never told (cancelled); a connection of which the task did not run yet is not counted (in_flight). Without cancellations: exactly once, in that moment, for calls made while open."},
{"property": "C205", "status": "proved", "theorems": ["Verif.Server.C205_count"], "note": ""},
{"property": "C206", "status": "proved", "theorems": ["Verif.Server.C206_watched", "Verif.Server.C206_accepted"], "note": "The transports are made by the tasks of the connections; the protocol factory does not fail."},
{"property": "C207", "status": "partial", "theorems": ["Verif.Server.C207_one_retry_violated", "Verif.Server.C207_retry_partial"], "note": "Violated: the loop goes on after the failure, so up to backlog retries are scheduled in one tick."},
{"property": "C208", "status": "partial", "theorems": ["Verif.Server.C208_serving_violated", "Verif.Server.C208_serving_partial"], "note": "Violated: start of a closed server sets serving, then raises TypeError."},
{"property": "C209", "status": "partial", "theorems": ["Verif.Credentials.C209_round_trip_partial", "Verif.Credentials.C209_written", "Verif.Credentials.C209_newline_violated", "Verif.Credentials.C209_encoding_violated"], "note": "Violated for newlines (the dot of the pattern does not match them) and for encodings which do not contain ASCII (the base 64 text is decoded with the encoding). Proved for all encodings which contain ASCII."},
{"property": "C210", "status": "partial", "theorems": ["Verif.Credentials.C210_accepted_partial", "Verif.Credentials.C210_complete", "Verif.Credentials.C210_method_violated", "Verif.Credentials.C210_token_violated"], "note": "Violated: the long s is folded to s; base 64 is not decoded strictly, so anything behind the padding is accepted."},
{"property": "C211", "status": "partial", "theorems": ["Verif.Credentials.KeepAlive.C211_round_trip_partial", "Verif.Credentials.KeepAlive.C211_fraction_violated"], "note": "Violated: the timeout is written without its fraction, so no timeout which is not whole is read back."},
{"property": "C212", "status": "partial", "theorems": ["Verif.Credentials.KeepAlive.C212_parameters_partial", "Verif.Credentials.KeepAlive.C212_flag_violated"], "note": "Violated: the pattern of a key allows commas, so a parameter without a value hides the next one unless a blank is between."},
{"property": "C213", "status": "proved", "theorems": ["Verif.LoopIO.C213_watched", "Verif.LoopIO.C213_removed"], "note": "The registry of the selector refines two independent maps of readers and writers, for every history."},
{"property": "C214", "status": "proved", "theorems": ["Verif.LoopIO.C214_reader_gone", "Verif.LoopIO.C214_writer_gone", "Verif.LoopIO.C214_cancelled", "Verif.LoopIO.C214_reported"], "note": "Removed, replaced and cancelled handles never run; reported events run exactly the live handles in order, if nothing else waits and no descriptor is reported twice (as selectors do)."},
{"property": "C215", "status": "proved", "theorems": ["Verif.LoopIO.C215_bytes", "Verif.LoopIO.C215_calls", "Verif.LoopIO.C215_done"], "note": "Every interleaving of one socket's receive calls."},
{"property": "C216", "status": "partial", "theorems": ["Verif.LoopIO.C216_two_calls_violated", "Verif.LoopIO.C216_one_call_partial"], "note": "Violated: a second call on the same socket replaces the callback of the first, which is never completed. Proved for calls which follow one another."},
{"property": "C217", "status": "partial", "theorems": ["Verif.LoopIO.C217_sent_partial", "Verif.LoopIO.C217_progress_partial", "Verif.LoopIO.C217_lost_violated", "Verif.LoopIO.C217_stuck_violated"], "note": "Violated for memoryviews with items of more than one byte, in two ways. Proved for views of bytes and calls which follow one another."},
{"property": "C218", "status": "partial", "theorems": ["Verif.LoopIO.C218_shutdown_violated", "Verif.LoopIO.C218_finalized_partial"], "note": "Violated: the condition is inverted, so nothing is closed if there is something to close. Proved: closing by the finalizer."},
{"property": "C219", "status": "proved", "theorems": ["Verif.LoopIO.C219_found", "Verif.LoopIO.C219_ends"], "note": "For all graphs and all orders of popping; spec by inductive predicates."},
{"property": "C220", "status": "proved", "theorems": ["Verif.FormData.C220_read", "Verif.FormData.C220_made"], "note": "For every encoding whose bytes are bytes; the reader of the statement is written independently."},
{"property": "C221", "status": "partial", "theorems": ["Verif.FormData.C221_raises", "Verif.FormData.C221_flag_partial", "Verif.FormData.C221_raised_violated"], "note": "Violated by calls which raise after the flag was set (a file with a file name which is not a string). Proved: as long as all calls return, the flag is set exactly if a field needs it; which calls raise."},
{"property": "C222", "status": "partial", "theorems": ["Verif.FormData.C222_parts_partial", "Verif.FormData.C222_mixed_violated", "Verif.FormData.C222_descriptor_violated"], "note": "Violated: numbers and sequences can be sent urlencoded, but not beside a file; files opened by their descriptor cannot be sent although they got a file name. Proved for strings, bytes and other files."},
{"property": "C223", "status": "partial", "theorems": ["Verif.FormData.C223_given_partial", "Verif.FormData.C223_default_partial", "Verif.FormData.C223_file_name_violated"], "note": "Violated: the file name of the field is given to the payload only beside a content type, where it is not needed; so nothing is guessed from it. Proved for given content types, strings and names of files."},
{"property": "C224", "status": "partial", "theorems": ["Verif.FormData.C224_append_violated", "Verif.FormData.C224_append_partial", "Verif.FormData.C224_form"], "note": "Violated by MultipartWriter.append: the default content type stays beside the given one. Proved for the parts of forms."},
{"property": "C225", "status": "proved", "theorems": ["Verif.Highlight.C225_ends", "Verif.Highlight.C225_pieces"], "note": "All contents, any lexer of the words which consumes at least one character; flags of a whole content."},
{"property": "C226", "status": "partial", "theorems": ["Verif.Highlight.C226_places_partial", "Verif.Highlight.C226_end_violated"], "note": "Line and column hold for all tokens. A token which closes what is open at the end of the content is put to the begin of the last token instead of its end."},
{"property": "C227", "status": "partial", "theorems": ["Verif.Highlight.C227_balanced_partial", "Verif.Highlight.C227_format_violated"], "note": "Proved for contents in which no format string begins. In a format string a layer which is left open is never closed and the layer of the code ends at the quote."},
{"property": "C228", "status": "partial", "theorems": ["Verif.Highlight.C228_inside_partial", "Verif.Highlight.C228_found_partial", "Verif.Highlight.C228_missed_violated", "Verif.Highlight.C228_innermost_violated"], "note": "What is found contains the token, and it is found if no layer is in another one. A token after an inner layer is not found, and for three layers the one in the middle is."},
{"property": "C229", "status": "proved", "theorems": ["Verif.Highlight.C229_line", "Verif.Highlight.C229_none"], "note": "All contents and all indexes."},
{"property": "C230", "status": "proved", "theorems": ["Verif.Highlight.Words.C230_longest", "Verif.Highlight.Words.C230_none"], "note": "All lists of words, all strings."},
{"property": "C231", "status": "proved", "theorems": ["Verif.UrlText.C231_query_and_fragment", "Verif.UrlText.C231_end_decides_nothing_else"], "note": "The pattern is run as a backtracking matcher (modelled in Regex.lean, greedy and lazy loops, captures) for every text; which parts a text is cut into after the path is proved from the text alone."},
{"property": "C232", "status": "partial", "theorems": ["Verif.UrlText.C232_host_partial", "Verif.UrlText.C232_network_path_partial", "Verif.UrlText.C232_host_is_path_violated", "Verif.UrlText.C232_mail_violated"], "note": "Proved whenever a host is found at all; violated by names of one label, names with underscores, ports of one digit, 0.0.0.0 (they become part of the path) and mailto urls (witnesses)."},
{"property": "C233", "status": "partial", "theorems": ["Verif.UrlText.C233_relative_partial", "Verif.UrlText.C233_absolute_partial", "Verif.UrlText.C233_user_is_scheme_violated", "Verif.UrlText.C233_path_is_host_violated", "Verif.UrlText.C233_port_violated", "Verif.UrlText.C233_empty_parts_violated"], "note": "Proved for relative urls and for urls with a scheme and a host whose parts read back alone; the code violates it for urls without a scheme, paths whose first part is empty, ports with leading zeros and empty parts (witnesses)."},
{"property": "C234", "status": "partial", "theorems": ["Verif.UrlText.C234_join_partial", "Verif.UrlText.C234_walk_partial", "Verif.UrlText.C234_host_violated", "Verif.UrlText.C234_path_violated", "Verif.UrlText.C234_query_violated"], "note": "Proved for references without scheme and host against bases without a path, and what the code computes in general; violated for every reference with a scheme and another host, for every path behind a path, and for a fragment alone behind a query (families)."},
{"property": "C235", "status": "partial", "theorems": ["Verif.UrlText.C235_read_has_no_dots", "Verif.UrlText.C235_div", "Verif.UrlText.C235_with_name", "Verif.UrlText.C235_with_host", "Verif.UrlText.C235_with_user", "Verif.UrlText.C235_origin_relative", "Verif.UrlText.C235_parent_violated", "Verif.UrlText.C235_with_name_violated"], "note": "Proved of the name, host, user, password, origin and relative part; violated by parent keeping the fragment and with_name keeping query and fragment, contrary to their documentation."},
{"property": "C236", "status": "partial", "theorems": ["Verif.Connect.C236_waiting", "Verif.Connect.C236_one_lookup", "Verif.Connect.C236_remembered", "Verif.Connect.C236_answered_partial", "Verif.Connect.C236_closed_violated"], "note": "Proved for all runs without closing; violated: a task cancelled by closing before its first step never enters its coroutine, its waiters and all later ones of that host wait forever (for all continuations)."},
{"property": "C237", "status": "partial", "theorems": ["Verif.Connect.C237_ip", "Verif.Connect.C237_fresh", "Verif.Connect.C237_unknown", "Verif.Connect.C237_expired", "Verif.Connect.C237_failed", "Verif.Connect.C237_expired_first_violated"], "note": "Proved for each case of what is known; violated for every expired basket: its addresses are tried before those found anew."},
{"property": "C238", "status": "partial", "theorems": ["Verif.Connect.C238_first", "Verif.Connect.C238_causes_violated"], "note": "Proved for all lists if the iteration ends normally; violated if the lookup fails after known addresses were tried (for all such lists)."},
{"property": "C239", "status": "partial", "theorems": ["Verif.Connect.C239_context", "Verif.Connect.C239_fingerprint_partial", "Verif.Connect.C239_verified_partial", "Verif.Connect.C239_fingerprint_length", "Verif.Connect.C239_unverified_violated", "Verif.Connect.C239_proxy_violated", "Verif.Connect.C239_proxy_asked_violated", "Verif.Connect.C239_name_violated"], "note": "Fingerprints proved for direct connections, trust with a verifying context for both; violated without any context, behind proxies, for the proxy itself and for names with a dot at the end."},
{"property": "C240", "status": "partial", "theorems": ["Verif.Connect.C240_direct", "Verif.Connect.C240_proxied_partial", "Verif.Connect.C240_closed_violated"], "note": "Proved for direct connections and for proxies while the connector is open; violated for every failed response of a proxy after the connector was closed."},
{"property": "C241", "status": "partial", "theorems": ["Verif.Connect.Address.C241_first_partial", "Verif.Connect.Address.C241_none_partial", "Verif.Connect.Address.C241_closed", "Verif.Connect.Address.C241_family_violated"], "note": "Proved if sockets can be made; violated by every address for which no socket can be made."},
{"property": "C242", "status": "proved", "theorems": ["Verif.Response.C242_at_most_once", "Verif.Response.C242_given_back", "Verif.Response.C242_closed"], "note": "For every order of events of one exchange, with closings, releases, deletion and detaching."},
{"property": "C243", "status": "partial", "theorems": ["Verif.Response.C243_cancelled_violated", "Verif.Response.C243_unwritten_violated", "Verif.Response.C243_permitted", "Verif.Response.C243_whole_partial"], "note": "Proved: kept only if the message permits it (all orders); without cancelled reads, ends and failures also only after the whole response arrived. Violated: a cancelled read keeps the connection with the rest outstanding, and a response which comes before the request was written keeps it and cancels the writer."},
{"property": "C244", "status": "partial", "theorems": ["Verif.Response.C244_reused_violated", "Verif.Response.C244_reused_partial", "Verif.Response.C244_bodiless_partial"], "note": "Violated: if anything of the body arrives after the head was read the connection is closed, as data_received ends the stream before it clears _payload_stream. Proved where the whole body is there before, or there is none."},
{"property": "C245", "status": "partial", "theorems": ["Verif.Response.C245_body_partial", "Verif.Response.C245_again_partial", "Verif.Response.C245_cancelled_violated", "Verif.Response.C245_failed_violated"], "note": "Proved: bytes given by a read are the body, and reads after one that gave it give it again. Violated: reads after a cancelled or failed one give None."},
{"property": "C246", "status": "partial", "theorems": ["Verif.Response.C246_late_violated", "Verif.Response.C246_late_partial"], "note": "Proved without cancelled reads, ends and failures. Violated after a cancelled read: at_eof is set, so late bytes do not make should_close true."},
{"property": "C247", "status": "partial", "theorems": ["Verif.Response.C247_ended_violated", "Verif.Response.C247_until_violated", "Verif.Response.C247_broken_partial"], "note": "Proved for connections lost with an exception. Violated: an end in the middle of the body, or the end of a body that lasts until the end, keeps the connection."},
{"property": "C248", "status": "partial", "theorems": ["Verif.Life.C248_one_runner", "Verif.Life.C248_returned_partial", "Verif.Life.C248_ends_partial", "Verif.Life.C248_raced_violated", "Verif.Life.C248_stolen_violated"], "note": "Proved: at most one runner; calls return after the loop runs as long as none raised; calls can end as long as .run did not give runner to another thread. Violated by both races."},
{"property": "C249", "status": "partial", "theorems": ["Verif.Life.Pause.C249_alone", "Verif.Life.Pause.C249_paused_partial", "Verif.Life.Pause.C249_again_violated", "Verif.Life.Pause.C249_early_violated"], "note": "Proved for contexts entered once, after the loop runs. Violated by contexts entered again and by blocks entered before the loop runs."},
{"property": "C250", "status": "partial", "theorems": ["Verif.Life.Pause.C250_order", "Verif.Life.Pause.C250_in_partial", "Verif.Life.Pause.C250_stopped_violated", "Verif.Life.Pause.C250_own_violated"], "note": "The order is proved for all executions, getting in as long as the loop is not stopped and does not wait for itself. Violated otherwise."},
{"property": "C251", "status": "partial", "theorems": ["Verif.Life.Pause.C251_order", "Verif.Life.Pause.C251_runs_partial", "Verif.Life.Pause.C251_stop_partial", "Verif.Life.Pause.C251_lost_violated", "Verif.Life.Pause.C251_late_violated"], "note": "The order is proved for all executions; that all can be run as long as it is not stopped, and those accepted before the stop if it is. Violated for those accepted while it ends."},
{"property": "C252", "status": "proved", "theorems": ["Verif.Datagram.C252_every_datagram_has_one_fate", "Verif.Datagram.C252_sent_in_order", "Verif.Datagram.C252_sent_whole"], "note": ""},
{"property": "C253", "status": "proved", "theorems": ["Verif.Datagram.C253_bound_transport_sends_to_its_address", "Verif.Datagram.C253_other_address_refused", "Verif.Datagram.C253_unbound_transport_sends_where_told"], "note": ""},
{"property": "C254", "status": "partial", "theorems": ["Verif.Datagram.C254_unaddressed_send_kills_transport_violated", "Verif.Datagram.C254_unaddressed_datagram_drops_others_violated", "Verif.Datagram.C254_addressed_sends_keep_transport_partial"], "note": "Violated: send_to without an address on an unbound transport closes it (C254_unaddressed_send_kills_transport_violated, for every state with nothing waiting), and when queued it takes the datagrams behind it along. Proved in part: with addresses named and OSErrors only the transport stays open."},
{"property": "C255", "status": "proved", "theorems": ["Verif.Datagram.C255_nothing_after_connection_lost"], "note": ""},
{"property": "C256", "status": "partial", "theorems": ["Verif.Datagram.C256_writer_left_on_closed_socket_violated", "Verif.Datagram.C256_writer_left_after_abort_violated", "Verif.Datagram.C256_reader_removed_partial", "Verif.Datagram.C256_no_callback_left_partial"], "note": "Violated: _force_close removes the writer only if something waits, therefore the failure of the last waiting datagram, or an abort after a refused one, closes the socket with its writer registered (for all continuations without a writable event). Proved in part: the reader is always removed, and the writer too if no waiting datagram failed."},
{"property": "C257", "status": "proved", "theorems": ["Verif.Datagram.C257_close_sends_what_waits", "Verif.Datagram.C257_close_when_nothing_waits"], "note": ""},
{"property": "C258", "status": "partial", "theorems": ["Verif.Datagram.C258_abort_tells_its_reason_partial", "Verif.Datagram.C258_abort_reason_lost_violated"], "note": "Violated: the writer left registered tells connection_lost(None) before the scheduled call with the exception (for all continuations). Proved in part: exact if no waiting datagram failed before."},
{"property": "C259", "status": "proved", "theorems": ["Verif.Datagram.C259_paused_has_writer", "Verif.Datagram.C259_resumed_when_sent", "Verif.Datagram.C259_paused_when_full"], "note": ""},
{"property": "C260", "status": "proved", "theorems": ["Verif.Datagram.Addressed.C260_reader_holds_datagrams_of_its_address", "Verif.Datagram.Addressed.C260_reader_iff_heard"], "note": ""},
{"property": "C261", "status": "partial", "theorems": ["Verif.Datagram.Addressed.C261_wait_ends_with_other_address_violated", "Verif.Datagram.Addressed.C261_wrong_reader_violated", "Verif.Datagram.Addressed.C261_known_address_at_once_partial", "Verif.Datagram.Addressed.C261_answers_were_heard_partial", "Verif.Datagram.Addressed.C261_one_peer_partial"], "note": "Violated: the code compares the received address with itself, so a wait for an address ends with the reader of any other address (every state, every pair of addresses). Proved in part: addresses known before, one peer only, answers were heard from."},
{"property": "C262", "status": "partial", "theorems": ["Verif.Datagram.Addressed.C262_wait_outlives_connection_violated", "Verif.Datagram.Addressed.C262_wait_begun_after_lost_violated", "Verif.Datagram.Addressed.C262_datagram_ends_every_wait_partial", "Verif.Datagram.Addressed.C262_timeout_ends_wait_partial", "Verif.Datagram.Addressed.C262_readers_are_told_partial"], "note": "Violated: connection_lost does not wake waits, and waits begun later wait as well (for all continuations without a datagram or timeout). Proved in part: a datagram or the timeout ends a wait, readers are told."},
{"property": "C263", "status": "proved", "theorems": ["Verif.WsServer.C263_registered_while_running"], "note": ""},
{"property": "C264", "status": "partial", "theorems": ["Verif.WsServer.C264_failed_handler_leaves_connection_open_violated", "Verif.WsServer.C264_closed_when_ended_partial"], "note": "Violated: lifetime_handler writes the exception of a raising handler and returns, leaving the connection open and unregistered. Proved for connections whose handler does not raise."},
{"property": "C265", "status": "partial", "theorems": ["Verif.WsServer.C265_closed_server_has_open_connection_violated", "Verif.WsServer.C265_no_handler_behind_closing_partial", "Verif.WsServer.C265_all_closed_partial", "Verif.WsServer.C265_late_request_refused_partial", "Verif.WsServer.C265_closed_for_good_partial"], "note": "Violated through C264: the server does not know the connection any more. Proved: no handler is left, and everything is closed if no handler raised; late requests are refused; the server is closed for good."},
{"property": "C266", "status": "partial", "theorems": ["Verif.WsServer.C266_handler_started_on_closed_server_violated", "Verif.WsServer.C266_handlers_start_while_serving_partial", "Verif.WsServer.C266_late_handlers_are_waited_for_partial"], "note": "Violated: is_serving is asked before an asynchronous request processor is awaited, and connection_open opens a web socket closed meanwhile. Proved without asynchronous processors; such late handlers are waited for."},
{"property": "C267", "status": "partial", "theorems": ["Verif.WsServer.C267_plain_server_says_secure_violated", "Verif.WsServer.C267_secure_server_says_so_partial"], "note": "Violated: is_ssl compares the deprecated parameter with None, its default is an ellipsis. Proved: a secure server says so."},
{"property": "C268", "status": "proved", "theorems": ["Verif.WrapAsync.C268_result_of_future", "Verif.WrapAsync.C268_waits_agree"], "note": ""},
{"property": "C269", "status": "partial", "theorems": ["Verif.WrapAsync.C269_times_out_on_completed_future_violated", "Verif.WrapAsync.C269_told_wait_does_not_time_out_partial", "Verif.WrapAsync.C269_untimed_wait_does_not_time_out_partial"], "note": "Violated: the timer only looks at its waiter, which is set by a callback on the future's loop; a future completed before the timer is due times out if the callback did not run yet. Proved once the callback has run, and for waits without timeout."},
{"property": "C270", "status": "partial", "theorems": ["Verif.WrapAsync.C270_timer_left_behind_violated", "Verif.WrapAsync.C270_no_timer_partial"], "note": "Violated: the handle is cancelled only when the wait is interrupted. Proved for the other ends."},
{"property": "C271", "status": "partial", "theorems": ["Verif.WrapAsync.C271_waits_for_ever_violated", "Verif.WrapAsync.C271_served_partial", "Verif.WrapAsync.C271_timed_wait_ends_partial", "Verif.WrapAsync.C271_served_unless_raced_partial", "Verif.WrapAsync.C271_told_wait_ends_partial"], "note": "Violated: add_done_callback reads the state and appends in two steps; a future completed in between never calls the callback. Proved for callbacks added in time and for waits with a timeout."},
{"property": "C272", "status": "proved", "theorems": ["Verif.WrapAsync.C272_no_callback_left", "Verif.WrapAsync.C272_answer_stays"], "note": ""},
{"property": "C273", "status": "partial", "theorems": ["Verif.Reading.C273_reader_stays_violated", "Verif.Reading.C273_reader_stays_aborted_violated", "Verif.Reading.C273_no_reader_partial"], "note": "Violated: the constructor schedules loop.add_reader itself, which does not look whether the transport was closed or aborted in connection_made; the reader stays on a closed descriptor for ever. Proved when it is not closed before the reader was added."},
{"property": "C274", "status": "partial", "theorems": ["Verif.Reading.C274_data_after_close_violated", "Verif.Reading.C274_nothing_after_close_partial"], "note": "Violated the same way while something waits to be written. Proved when the reader was added before."},
{"property": "C275", "status": "partial", "theorems": ["Verif.Reading.C275_paused_protocol_is_told_violated", "Verif.Reading.C275_paused_partial", "Verif.Reading.C275_resumed_reads_partial", "Verif.Reading.C275_idempotent_partial"], "note": "Violated: pausing in connection_made is undone by the scheduled add_reader. Proved when paused later; resuming and idempotence proved."},
{"property": "C276", "status": "partial", "theorems": ["Verif.Reading.C276_eof_again_violated", "Verif.Reading.C276_nothing_after_eof_partial"], "note": "Violated: resume_reading adds the reader behind the end of the stream. Proved as long as nothing is resumed."},
{"property": "C277", "status": "proved", "theorems": ["Verif.Reading.C277_story"], "note": ""},
{"property": "C278", "status": "proved", "theorems": ["Verif.Reading.C278_reason_told"], "note": ""},
{"property": "C279", "status": "proved", "theorems": ["Verif.Equality.C279_connection_key", "Verif.Equality.C279_host_info", "Verif.Equality.C279_credentials", "Verif.Equality.C279_keep_alive"], "note": ""},
{"property": "C280", "status": "partial", "theorems": ["Verif.Equality.C280_question", "Verif.Equality.C280_resource_record", "Verif.Equality.C280_query", "Verif.Equality.C280_result", "Verif.Equality.C280_result_hash_constant_violated"], "note": "Equality is exact and respected by the hashes; the hash of a result is the constant True (violated)."},
{"property": "C281", "status": "partial", "theorems": ["Verif.Equality.C281_equal_requests_other_hash_violated", "Verif.Equality.C281_lower_case_requests_partial"], "note": "Violated: names are sorted as written; equal headers differing in case freeze to different orders. Proved for names in lower case."},
{"property": "C282", "status": "partial", "theorems": ["Verif.Equality.C282_stale_hash_violated", "Verif.Equality.C282_hash_stays_partial", "Verif.Equality.C282_lower_case_proxies_partial"], "note": "Violated by the cached hash of changed headers (and by C281's order). Proved for unchanged proxies with names in lower case."},
{"property": "C283", "status": "partial", "theorems": ["Verif.Equality.C283_equal_to_text_of_other_hash_violated", "Verif.Equality.C283_not_transitive_violated", "Verif.Equality.C283_equal_and_not_equal_violated", "Verif.Equality.C283_comparison_raises_violated", "Verif.Equality.C283_among_themselves_partial", "Verif.Equality.C283_symmetric_partial", "Verif.Equality.C283_folded_text_partial"], "note": "Violated: against plain texts the hash law and transitivity fail, != is case sensitive, other objects raise. Proved among strings that ignore case."},
{"property": "C284", "status": "partial", "theorems": ["Verif.Equality.C284_not_comparable_violated", "Verif.Equality.C284_strict_order_partial", "Verif.Equality.C284_equality_partial"], "note": "Violated: <= and >= relate no two different handles due at the same time. Proved for <, >, ==, != and hashes."},
{"property": "C285", "status": "proved", "theorems": ["Verif.Resolve.C285_transports", "Verif.Resolve.C285_tls_only", "Verif.Resolve.C285_remembered"], "note": ""},
{"property": "C286", "status": "partial", "theorems": ["Verif.Resolve.C286_first_answer_partial", "Verif.Resolve.C286_refusing_server_fails_query_violated"], "note": "Violated: a refused connection (or any OSError) of one server fails the query unless TLS is preferred. Proved when the servers before only time out, give nothing or lack TLS."},
{"property": "C287", "status": "partial", "theorems": ["Verif.Resolve.C287_answers_of_one_server_partial", "Verif.Resolve.C287_question_dropped_violated"], "note": "Violated: with questions asked one by one, a question the first answering server leaves open is put to no other. Proved: what is yielded are answers of one server, at least one."},
{"property": "C288", "status": "partial", "theorems": ["Verif.Resolve.C288_permanent_is_permanent_partial", "Verif.Resolve.C288_no_tls_is_permanent_partial", "Verif.Resolve.C288_no_tls_called_temporary_violated", "Verif.Resolve.C288_not_permanent_partial"], "note": "Violated: with fewer attempts than servers a permanent failure is called temporary. Proved otherwise, in both directions."},
{"property": "C289", "status": "proved", "theorems": ["Verif.Resolve.C289_as_asked", "Verif.Resolve.C289_refused", "Verif.Resolve.C289_numeric_asks_nobody"], "note": ""},
{"property": "C290", "status": "partial", "theorems": ["Verif.Resolve.C290_type_narrows_partial", "Verif.Resolve.C290_raw_refused_violated"], "note": "Violated for raw sockets, which are given when any type is asked for and refused by themselves. Proved for datagrams and streams."},
{"property": "C291", "status": "partial", "theorems": ["Verif.Resolve.C291_addresses_are_answers_partial", "Verif.Resolve.C291_all_addresses_partial", "Verif.Resolve.C291_other_name_taken_violated"], "note": "Violated: neither the names of records nor transaction ids are compared. Proved: each address stands in a record of the right type in an answer to a question about a candidate."},
{"property": "C292", "status": "partial", "theorems": ["Verif.Resolve.C292_next_name_partial", "Verif.Resolve.C292_first_name_wins_partial", "Verif.Resolve.C292_silent_candidate_fails_lookup_violated"], "note": "Violated: a candidate for which no server answers fails the lookup. Proved for candidates without addresses."},
{"property": "C293", "status": "partial", "theorems": ["Verif.Resolve.C293_required_name_missing_violated", "Verif.Resolve.C293_first_record_taken_violated", "Verif.Resolve.C293_silent_server_fails_violated", "Verif.Resolve.C293_found_name_is_answer_partial", "Verif.Resolve.C293_no_answers_partial"], "note": "Violated: a name that cannot be read is not an error when required; the first record is taken whatever its type; silence is an error though no name is required. Proved otherwise."},
{"property": "C294", "status": "partial", "theorems": ["Verif.Styling.C294_shown_as_wanted_partial", "Verif.Styling.C294_left_plain", "Verif.Styling.C294_colours_partial", "Verif.Styling.C294_decorations_add_up_violated"], "note": "violated: a transition from one decoration to another emits only the second, so both are drawn (C294_decorations_add_up_violated); right when decorations do not change into others, colours and the end are always right"},
{"property": "C295", "status": "proved", "theorems": ["Verif.Styling.C295_all_text", "Verif.Styling.C295_codes_split_off"], "note": ""},
{"property": "C296", "status": "proved", "theorems": ["Verif.Styling.C296_split", "Verif.Styling.C296_only", "Verif.Styling.C296_all_characters"], "note": ""},
{"property": "C297", "status": "partial", "theorems": ["Verif.Styling.C297_all_characters", "Verif.Styling.C297_like_its_text_partial", "Verif.Styling.C297_single_part_partial", "Verif.Styling.C297_text_taken_for_a_code_violated", "Verif.Styling.C297_highlighted_partial"], "note": "violated: end_block stays set behind a broken code, the next part is then taken for the inside of a code (C297_text_taken_for_a_code_violated); right for whole codes, single parts and highlighted text"},
{"property": "C298", "status": "partial", "theorems": ["Verif.Styling.C298_spans", "Verif.Styling.C298_escaped", "Verif.Styling.C298_reads_as_the_text", "Verif.Styling.C298_reads_as_one", "Verif.Styling.C298_not_escaped_violated", "Verif.Styling.C298_line_break_stays_violated"], "note": "violated: text of types without a detail is not escaped beside html (C298_not_escaped_violated); a line break inside of a text is not <br> (C298_line_break_stays_violated)"},
{"property": "C299", "status": "partial", "theorems": ["Verif.Styling.C299_nearest_partial", "Verif.Styling.C299_not_removed_violated", "Verif.Styling.C299_all_set", "Verif.Styling.C299_not_removed_after_all_violated"], "note": "violated: a detail can not be removed from a type without a parent, nor after set_highlight_html_all"},
{"property": "C300", "status": "proved", "theorems": ["Verif.WinSelect.C300_shards"], "note": ""},
{"property": "C301", "status": "proved", "theorems": ["Verif.WinSelect.C301_few", "Verif.WinSelect.C301_many"], "note": ""},
{"property": "C302", "status": "partial", "theorems": ["Verif.WinSelect.C302_woken_partial", "Verif.WinSelect.C302_not_reported_violated", "Verif.WinSelect.C302_socket_instead_violated"], "note": "violated: with more descriptors than the limit of the system the waking socket is never reported by its descriptor; the socket object is, only when nothing else is ready (C302_not_reported_violated, C302_socket_instead_violated)"},
{"property": "C303", "status": "partial", "theorems": ["Verif.Includes.C303_variables_partial", "Verif.Includes.C303_other_name_violated", "Verif.Includes.C303_exported_again_violated", "Verif.Includes.C303_behind_raising_violated"], "note": "violated: under another variable the placeholder stays (C303_other_name_violated), a second export is not seen (C303_exported_again_violated), nor is one behind a callback which raises (C303_behind_raising_violated)"},
{"property": "C304", "status": "partial", "theorems": ["Verif.Includes.C304_called_once_partial", "Verif.Includes.C304_behind_raising_violated"], "note": "right without raising callbacks; violated behind one which raises (C304_behind_raising_violated)"},
{"property": "C305", "status": "proved", "theorems": ["Verif.Includes.C305_satisfaction"], "note": ""},
{"property": "C306", "status": "proved", "theorems": ["Verif.Trim.C306_scarletio", "Verif.Trim.C306_cpython", "Verif.Trim.C306_pypy"], "note": ""},
{"property": "C307", "status": "partial", "theorems": ["Verif.Trim.C307_left_alone_partial", "Verif.Trim.C307_single_line_partial", "Verif.Trim.C307_ellipsis", "Verif.Trim.C307_ellipsis_lost_violated", "Verif.Trim.C307_ellipsis_line_violated"], "note": "violated: an ellipsis statement in the last line is taken for a prompt and dropped (C307_ellipsis_lost_violated); right for texts with an unprompted line in their middle and single lines which begin with none of dot, greater than, I, space"},
{"property": "C308", "status": "partial", "theorems": ["Verif.Analyzer.C308_parameters_partial", "Verif.Analyzer.C308_keyword_defaults_violated", "Verif.Analyzer.C308_refused"], "note": "violated: keyword only parameters with a default before ones without make analyzing raise KeyError (C308_keyword_defaults_violated)"},
{"property": "C309", "status": "partial", "theorems": ["Verif.Analyzer.C309_range_partial", "Verif.Analyzer.C309_method_violated", "Verif.Analyzer.C309_others_counted_violated"], "note": "violated: reserved parameters are counted when there is a default (C309_method_violated), and so are parameters which are not positional (C309_others_counted_violated)"},
{"property": "C310", "status": "proved", "theorems": ["Verif.Analyzer.C310_counts"], "note": ""},
{"property": "C311", "status": "partial", "theorems": ["Verif.Analyzer.C311_sound", "Verif.Analyzer.C311_complete_partial", "Verif.Analyzer.C311_variable_parameters_violated"], "note": "sound; violated the other way: with variable parameters a type is never told to be instanceable (C311_variable_parameters_violated)"},
{"property": "C312", "status": "proved", "theorems": ["Verif.Naming.C312_nothing_lost", "Verif.Naming.C312_words"], "note": ""},
{"property": "C313", "status": "proved", "theorems": ["Verif.Naming.C313_borders"], "note": ""},
{"property": "C314", "status": "proved", "theorems": ["Verif.Naming.C314_idempotent"], "note": "stable case folding: gives no upper case, keeps being numeric, folds no further"},
{"property": "C315", "status": "partial", "theorems": ["Verif.Naming.C315_same_words_partial", "Verif.Naming.C315_single_letters_violated"], "note": "proved for words of at least two letters; violated for words of a single letter, which are taken for one (C315_single_letters_violated)"},
{"property": "C316", "status": "proved", "theorems": ["Verif.Naming.C316_dedented", "Verif.Naming.C316_greatest"], "note": ""},
{"property": "C317", "status": "partial", "theorems": ["Verif.Attributes.C317_set", "Verif.Attributes.C317_default_partial", "Verif.Attributes.C317_default_violated"], "note": "violated: while no info is set at all, None is given and not the default (C317_default_violated)"},
{"property": "C318", "status": "proved", "theorems": ["Verif.Attributes.C318_present"], "note": ""},
{"property": "C319", "status": "partial", "theorems": ["Verif.Attributes.C319_second_name_partial", "Verif.Attributes.C319_first_name_violated"], "note": "from the alternative name to the first; violated the other way: an info set under its first name is not found under the alternative one (C319_first_name_violated)"},
{"property": "C320", "status": "partial", "theorems": ["Verif.Attributes.C320_once_partial", "Verif.Attributes.C320_ellipsis_violated"], "note": "violated for a getter which gives Ellipsis: it is called at every access (C320_ellipsis_violated)"},
{"property": "C321", "status": "proved", "theorems": ["Verif.Attributes.C321_got", "Verif.Attributes.C321_set"], "note": ""},
{"property": "C322", "status": "proved", "theorems": ["Verif.Attributes.C322_values"], "note": ""},
{"property": "C323", "status": "proved", "theorems": ["Verif.Attributes.C323_dictionaries"], "note": ""},
{"property": "C324", "status": "proved", "theorems": ["Verif.Compiling.C324_empty", "Verif.Compiling.C324_not_compiled"], "note": ""},
{"property": "C325", "status": "proved", "theorems": ["Verif.Compiling.C325_code"], "note": ""},
{"property": "C326", "status": "proved", "theorems": ["Verif.Compiling.C326_sound"], "note": ""},
{"property": "C327", "status": "partial", "theorems": ["Verif.Compiling.C327_refused_partial", "Verif.Compiling.C327_many_partial", "Verif.Compiling.C327_indentation_partial", "Verif.Compiling.C327_different_violated"], "note": "proved if both modes tell the same, or the first finds many statements; violated if they tell different errors: more is waited for (C327_different_violated)"},
{"property": "C328", "status": "partial", "theorems": ["Verif.Compiling.C328_source_partial", "Verif.Compiling.C328_trailing_violated"], "note": "violated: white space at the ends of lines is dropped, also in strings over many lines (C328_trailing_violated)"},
{"property": "C329", "status": "partial", "theorems": ["Verif.Modulize.C329_function_partial", "Verif.Modulize.C329_others", "Verif.Modulize.C329_keyword_defaults_violated"], "note": "violated: defaults of keyword only parameters are lost (C329_keyword_defaults_violated)"},
{"property": "C330", "status": "partial", "theorems": ["Verif.Modulize.C330_inside_partial", "Verif.Modulize.C330_static_violated"], "note": "violated: static methods of types in the type become plain functions (C330_static_violated)"},
{"property": "C331", "status": "partial", "theorems": ["Verif.Modulize.C331_module_partial"], "note": "unless a module named module_path is loaded, see C332"},
{"property": "C332", "status": "partial", "theorems": ["Verif.Modulize.C332_again_violated", "Verif.Modulize.C332_other_modules", "Verif.Modulize.C332_literal_violated"], "note": "violated: the literal module_path is looked up instead of the path, so another module is made (C332_again_violated), or one named so is taken for all types (C332_literal_violated)"},
{"property": "C333", "status": "partial", "theorems": ["Verif.Modulize.C333_group_partial", "Verif.Modulize.C333_none", "Verif.Modulize.C333_single_violated"], "note": "for two or more causes; violated for a single one, which is not validated (C333_single_violated)"},
{"property": "C334", "status": "proved", "theorems": ["Verif.Compound.C334_given"], "note": ""},
{"property": "C335", "status": "partial", "theorems": ["Verif.Compound.C335_methods_partial", "Verif.Compound.C335_mismatch", "Verif.Compound.C335_others_violated"], "note": "Violated: only methods are checked. Of two properties or two class methods the first is taken silently, and a constant hides a method. The partial theorem covers methods whose parameters match."},
{"property": "C336", "status": "partial", "theorems": ["Verif.Compound.C336_order_violated"], "note": "Violated: implementations are transferred for methods and placeholders only, so an expected property in front of its implementation is reported as never implemented, while it works in the other order."},
{"property": "C337", "status": "proved", "theorems": ["Verif.Compound.C337_constants"], "note": ""},
{"property": "C338", "status": "proved", "theorems": ["Verif.Compound.C338_slots"], "note": ""},
{"property": "C339", "status": "partial", "theorems": ["Verif.Compound.C339_placeholder_partial", "Verif.Compound.C339_descriptors_violated", "Verif.Compound.C339_behind"], "note": "Violated for properties and instance attributes: NotImplemented is no get-descriptor, so these are refused as mismatching before the transfer."},
{"property": "C340", "status": "proved", "theorems": ["Verif.Compound.C340_separated"], "note": ""},
{"property": "C341", "status": "partial", "theorems": ["Verif.Compound.C341_over_partial", "Verif.Compound.C341_from_base", "Verif.Compound.C341_theory_violated"], "note": "Violated: a method the type expects with Theory is reported as never implemented though its base type implements it. A constant of the base type cannot be changed, by design."},
{"property": "C342", "status": "proved", "theorems": ["Verif.Rendering.C342_rendered"], "note": ""},
{"property": "C343", "status": "partial", "theorems": ["Verif.Rendering.C343_cycle_violated", "Verif.Rendering.C343_acyclic_partial"], "note": "Violated: the collecting loop remembers nothing, so an exception raised from itself (raise e from e), or any cycle of causes, is followed for ever while the list grows. Exceptions which do not refer to themselves are rendered."},
{"property": "C344", "status": "partial", "theorems": ["Verif.Rendering.C344_groups_partial", "Verif.Rendering.C344_groups_violated"], "note": "Violated: only a group which is the direct cause is expanded. A group rendered itself, one which was being handled, and one inside another group are shown as plain exceptions without their causes."},
{"property": "C345", "status": "proved", "theorems": ["Verif.Rendering.C345_frames", "Verif.Rendering.C345_unique"], "note": ""},
{"property": "C346", "status": "proved", "theorems": ["Verif.Rendering.C346_kept", "Verif.Rendering.C346_disabled"], "note": ""},
{"property": "C347", "status": "proved", "theorems": ["Verif.Rendering.C347_populated", "Verif.Rendering.C347_total"], "note": ""},
{"property": "C348", "status": "proved", "theorems": ["Verif.Contexts.C348_released", "Verif.Contexts.C348_once"], "note": ""},
{"property": "C349", "status": "partial", "theorems": ["Verif.Contexts.C349_again_partial", "Verif.Contexts.C349_left_violated"], "note": "Violated: after leaving, entering gives None without an error."},
{"property": "C350", "status": "partial", "theorems": ["Verif.Contexts.C350_failed_violated", "Verif.Contexts.C350_failed_partial"], "note": "Violated: the coroutine stays in the manager after it failed, so awaiting again raises RuntimeError (cannot reuse already awaited coroutine) instead of the failure."},
{"property": "C351", "status": "proved", "theorems": ["Verif.Contexts.C351_caught"], "note": ""},
{"property": "C352", "status": "partial", "theorems": ["Verif.Contexts.C352_cancelled_violated", "Verif.Contexts.C352_closed_partial"], "note": "Violated: only GeneratorExit is let through, so a cancellation thrown into the task is caught and the task carries on."},
{"property": "C353", "status": "proved", "theorems": ["Verif.Contexts.C353_location"], "note": ""},
{"property": "C354", "status": "proved", "theorems": ["Verif.Contexts.C354_titles", "Verif.Contexts.C354_lists"], "note": ""},
{"property": "C355", "status": "partial", "theorems": ["Verif.Contexts.C355_all_partial", "Verif.Contexts.C355_public_partial", "Verif.Contexts.C355_top_violated"], "note": "Violated: the package of a module at the top is the empty text, not None, so it is taken for a package; without a list of public names none of its variables is there."},
{"property": "C356", "status": "proved", "theorems": ["Verif.Lists.C356_split", "Verif.Lists.C356_insert", "Verif.Lists.C356_within"], "note": ""},
{"property": "C357", "status": "partial", "theorems": ["Verif.Lists.C357_missing_partial", "Verif.Lists.C357_same_partial", "Verif.Lists.C357_up_partial", "Verif.Lists.C357_outside_partial", "Verif.Lists.C357_positions_violated", "Verif.Lists.C357_down_violated"], "note": "Violated: the index is increased before the position is computed, so each other element is told with its present position, and every move to the front raises TypeError, as list.index is called instead of insert."},
{"property": "C358", "status": "proved", "theorems": ["Verif.Lists.C358_difference", "Verif.Lists.C358_same", "Verif.Lists.C358_any"], "note": ""},
{"property": "C359", "status": "partial", "theorems": ["Verif.Lists.C359_pairs_partial", "Verif.Lists.C359_keys_first_violated", "Verif.Lists.C359_constant_partial"], "note": "Violated if the keys are taken first, as CPython does when it merges a mapping which is not a dict (outside of the repository): every key gets the last value."},
{"property": "C360", "status": "partial", "theorems": ["Verif.Lists.C360_values_partial", "Verif.Lists.C360_values_violated", "Verif.Lists.C360_keys_violated"], "note": "Violated: two views are compared by their dictionaries, so keys matter for views of values and values for views of keys."},
{"property": "C361", "status": "proved", "theorems": ["Verif.Lists.C361_any", "Verif.Lists.C361_where"], "note": ""},
{"property": "C362", "status": "proved", "theorems": ["Verif.Loops.C362_get", "Verif.Loops.C362_works"], "note": ""},
{"property": "C363", "status": "partial", "theorems": ["Verif.Loops.C363_stays_partial", "Verif.Loops.C363_starting_violated"], "note": "Violated while a loop is starting: it counts as stopped between its start and its running, and the thread may be linked to another loop for good."},
{"property": "C364", "status": "proved", "theorems": ["Verif.Loops.C364_get_or_create", "Verif.Loops.C364_create"], "note": ""},
{"property": "C365", "status": "partial", "theorems": ["Verif.Loops.C365_same_partial", "Verif.Loops.C365_many_violated"], "note": "Violated: a loop which was not started yet or which is a daemon is not found by other threads, which make further ones."},
{"property": "C366", "status": "proved", "theorems": ["Verif.Loops.C366_woken", "Verif.Loops.C366_failed"], "note": ""},
{"property": "C367", "status": "partial", "theorems": ["Verif.Loops.C367_set_partial", "Verif.Loops.C367_stopped_violated"], "note": "Violated for a loop which is stopped or starting: it is set without an error and never got."},
{"property": "C368", "status": "proved", "theorems": ["Verif.Kinds.C368_called", "Verif.Kinds.C368_awaitable"], "note": ""},
{"property": "C369", "status": "partial", "theorems": ["Verif.Kinds.C369_exclusive_partial", "Verif.Kinds.C369_both_violated"], "note": "Violated for generators made coroutines by to_coroutine, which are both."},
{"property": "C370", "status": "partial", "theorems": ["Verif.Kinds.C370_told_partial", "Verif.Kinds.C370_method_violated"], "note": "Violated: a method of a type, as methodize makes, has no code, so AttributeError is raised."},
{"property": "C371", "status": "proved", "theorems": ["Verif.Kinds.C371_made", "Verif.Kinds.C371_idempotent"], "note": ""},
{"property": "C372", "status": "partial", "theorems": ["Verif.Kinds.C372_like_partial", "Verif.Kinds.C372_instance_violated", "Verif.Kinds.C372_reserved_partial"], "note": "Violated: all types share one set, so every method like is an instance of each of them."},
{"property": "C373", "status": "proved", "theorems": ["Verif.Display.C373_rows", "Verif.Display.C373_none"], "note": "Parts are taken as the highlighter gives them: a line break is a part alone. part[:-2] would lose a character otherwise (example)."},
{"property": "C374", "status": "proved", "theorems": ["Verif.Display.C374_line", "Verif.Display.C374_buffer", "Verif.Display.C374_sum", "Verif.Display.C374_cursor", "Verif.Display.C374_start"], "note": ""},
{"property": "C375", "status": "partial", "theorems": ["Verif.Display.C375_narrower_partial", "Verif.Display.C375_enough_partial", "Verif.Display.C375_narrower_violated"], "note": "A line which fills two or more rows exactly is overcounted: last_line_length is set to line_length instead of content_width. Clearing then erases rows above the input. Proved: right for all other lines, never too few."},
{"property": "C376", "status": "proved", "theorems": ["Verif.Display.C376_vertical", "Verif.Display.C376_horizontal"], "note": ""},
{"property": "C377", "status": "proved", "theorems": ["Verif.Display.C377_clear", "Verif.Display.C377_never"], "note": ""},
{"property": "C378", "status": "proved", "theorems": ["Verif.Display.C378_write"], "note": ""},
{"property": "C379", "status": "proved", "theorems": ["Verif.Display.C379_row"], "note": ""},
{"property": "C380", "status": "proved", "theorems": ["Verif.Display.C380_screen"], "note": ""},
{"property": "C381", "status": "partial", "theorems": ["Verif.Display.C381_column_partial", "Verif.Display.C381_column_violated"], "note": "If the last row which changed continues in the next one it fills the terminal, the cursor stays in the last column there, and the jump to the left which assumes it is behind goes one column too far. Proved: exactly then one column left, else right."},
{"property": "C382", "status": "proved", "theorems": ["Verif.Extensions.C382_once", "Verif.Extensions.C382_kept"], "note": ""},
{"property": "C383", "status": "proved", "theorems": ["Verif.Extensions.C383_satisfied"], "note": ""},
{"property": "C384", "status": "partial", "theorems": ["Verif.Extensions.C384_called_partial", "Verif.Extensions.C384_silent_partial", "Verif.Extensions.C384_nested_violated"], "note": "Proved for hooks which neither load extensions nor add hooks. Violated otherwise: the loop goes over the indexes of the list as it was before, so a hook which loads an extension for which an earlier hook waits makes the loop raise an IndexError, and a hook whose requirements are all loaded is never called."},
{"property": "C385", "status": "proved", "theorems": ["Verif.Helpers.C385_copied", "Verif.Helpers.C385_others", "Verif.Helpers.C385_special"], "note": ""},
{"property": "C386", "status": "partial", "theorems": ["Verif.Helpers.C386_kept_partial", "Verif.Helpers.C386_overwritten_violated", "Verif.Helpers.C386_bound_violated"], "note": "Violated: attributes of both classes are overwritten although the documentation tells otherwise; also the built-in class methods of object are bound anew at each access, so an own __init_subclass__ of the old class is lost even if the new class defines none."},
{"property": "C387", "status": "proved", "theorems": ["Verif.Helpers.C387_all", "Verif.Helpers.C387_bad"], "note": ""},
{"property": "C388", "status": "proved", "theorems": ["Verif.Parts.C388_decoded", "Verif.Parts.C388_encoded", "Verif.Parts.C388_parsed", "Verif.Parts.C388_text"], "note": ""},
{"property": "C389", "status": "proved", "theorems": ["Verif.Parts.C389_parts", "Verif.Parts.C389_back", "Verif.Parts.C389_user"], "note": ""},
{"property": "C390", "status": "proved", "theorems": ["Verif.Loops.C390_refused", "Verif.Loops.C390_existing", "Verif.Loops.C390_own"], "note": ""},
{"property": "C391", "status": "proved", "theorems": ["Verif.Loops.C391_given", "Verif.Loops.C391_failed"], "note": ""},
{"property": "C392", "status": "proved", "theorems": ["Verif.Describe.C392_name", "Verif.Describe.C392_one", "Verif.Describe.C392_repr", "Verif.Describe.C392_fallback"], "note": ""},
{"property": "C393", "status": "partial", "theorems": ["Verif.Describe.C393_tame_partial", "Verif.Describe.C393_exit", "Verif.Describe.C393_text_violated", "Verif.Describe.C393_repr_violated"], "note": "Violated: str is called unprotected on text parameters and on what repr gives, so a subclass of str whose __str__ raises makes the representing raise. Proved if no such text is given."},
{"property": "C394", "status": "proved", "theorems": ["Verif.Recent.C394_newest", "Verif.Recent.C394_history"], "note": ""},
{"property": "C395", "status": "partial", "theorems": ["Verif.Recent.C395_kept_partial", "Verif.Recent.C395_again_violated", "Verif.Recent.C395_big_violated"], "note": "violated: an input added again under its name keeps the old position and may be deleted at once; an input as big as the limit deletes everything"},
{"property": "C396", "status": "partial", "theorems": ["Verif.Recent.C396_bounded_partial", "Verif.Recent.C396_big_violated"], "note": "violated: the size is only checked when the number of inputs is a multiple of 17, between it may be as big as wanted"},
{"property": "C397", "status": "proved", "theorems": ["Verif.Marks.C397_marked", "Verif.Marks.C397_same", "Verif.Marks.C397_nothing"], "note": ""},
{"property": "C398", "status": "partial", "theorems": ["Verif.Marks.C398_inside_partial", "Verif.Marks.C398_later_violated", "Verif.Marks.C398_unmarked_violated"], "note": "violated: the end offset of an error which ends on a later line is used for the first line, so that marks are outside of it or missing"},
{"property": "C399", "status": "proved", "theorems": ["Verif.Callbacks.C399_shown", "Verif.Callbacks.C399_none"], "note": ""},
{"property": "C400", "status": "proved", "theorems": ["Verif.Callbacks.C400_text"], "note": ""},
{"property": "C401", "status": "proved", "theorems": ["Verif.Callbacks.C401_cut", "Verif.Callbacks.C401_nothing"], "note": ""},
{"property": "C402", "status": "proved", "theorems": ["Verif.Callbacks.C402_field", "Verif.Callbacks.C402_short"], "note": ""},
{"property": "C403", "status": "proved", "theorems": ["Verif.Suggest.C403_values", "Verif.Suggest.C403_once"], "note": ""},
{"property": "C404", "status": "proved", "theorems": ["Verif.Suggest.C404_names"], "note": ""},
{"property": "C405", "status": "proved", "theorems": ["Verif.Suggest.C405_attributes"], "note": ""},
{"property": "C406", "status": "partial", "theorems": ["Verif.Suggest.C406_tame_partial", "Verif.Suggest.C406_attribute_violated", "Verif.Suggest.C406_dir_violated"], "note": "violated: hasattr is used on every variable of the frame, so a property raising something else than AttributeError makes the representing raise; so does a __dir__ which gives no names"},
{"property": "C407", "status": "partial", "theorems": ["Verif.Console.C407_own_partial", "Verif.Console.C407_stale_violated"], "note": "violated: code which awaits and is interrupted before the event loop got to it runs nevertheless and sets the task of the console, so the next input gives its result instead of its own value"},
{"property": "C408", "status": "partial", "theorems": ["Verif.Console.C408_task_partial", "Verif.Console.C408_direct_violated"], "note": "violated: SystemExit raised by code which awaits nothing is caught by run_code_callback and written like any exception"},
{"property": "C409", "status": "partial", "theorems": ["Verif.Console.C409_distinct_partial", "Verif.Console.C409_same_violated"], "note": "violated: the identifier is left out while the console is the newest, so the inputs of a console and of a later one have the same file names"},
{"property": "C410", "status": "proved", "theorems": ["Verif.Console.C410_history"], "note": ""},
{"property": "C411", "status": "proved", "theorems": ["Verif.Console.C411_ends", "Verif.Console.C411_twice"], "note": ""},
{"property": "C412", "status": "partial", "theorems": ["Verif.Console.C412_banner_partial", "Verif.Console.C412_exit_violated"], "note": "violated: the loop of interact has no break, what writes the exit message is never reached"},
{"property": "C413", "status": "proved", "theorems": ["Verif.Console.C413_first", "Verif.Console.C413_exit"], "note": ""},
{"property": "C414", "status": "proved", "theorems": ["Verif.Files.C414_same", "Verif.Files.C414_collected"], "note": ""},
{"property": "C415", "status": "partial", "theorems": ["Verif.Files.C415_once_partial", "Verif.Files.C415_fresh_partial", "Verif.Files.C415_old_violated"], "note": "violated: is_up_to_date is never called, as long as anything holds the info the old content is given"},
{"property": "C416", "status": "partial", "theorems": ["Verif.Files.C416_exit_partial", "Verif.Files.C416_again_violated"], "note": "violated: entered again while entered it is exited by the inner exit, the outer one raises KeyError"},
{"property": "C417", "status": "proved", "theorems": ["Verif.Files.C417_alike"], "note": ""},
{"property": "C418", "status": "partial", "theorems": ["Verif.Finishing.C418_lost_exactly_partial", "Verif.Finishing.C418_never_violated", "Verif.Finishing.C418_early_violated"], "note": "A process without all three pipes never counts as lost by its end; one with all three counts as lost at its end while none of its pipes is lost, for _try_finish returns if a pipe is missing or disconnected instead of if it is connected. Proved: when exactly it counts as lost."},
{"property": "C419", "status": "partial", "theorems": ["Verif.Finishing.C419_told_once", "Verif.Finishing.C419_data", "Verif.Finishing.C419_disconnected_partial", "Verif.Finishing.C419_connected_violated", "Verif.Finishing.C419_raises_violated"], "note": "If telling the loss raises, the pipe never counts as disconnected; data of a lost pipe raises. Proved: told once, data in order, disconnected if telling did not raise."},
{"property": "C420", "status": "proved", "theorems": ["Verif.Keys.C420_read_back", "Verif.Keys.C420_injective", "Verif.Keys.C420_visible"], "note": ""},
{"property": "C421", "status": "partial", "theorems": ["Verif.Keys.C421_input_partial", "Verif.Keys.C421_not_blocking_violated", "Verif.Keys.C421_content_lost_violated"], "note": "If tty.setraw raises, or tcsetattr does in the finally, reading stays without blocking. Proved: restored if the terminal can be set."},
{"property": "C422", "status": "partial", "theorems": ["Verif.Keys.C422_names_partial", "Verif.Keys.C422_named", "Verif.Keys.C422_new_lines_violated", "Verif.Keys.C422_escapes_violated"], "note": "Both characters of new lines have one name, and the text of an escape has the name of what it escapes. Proved: names of keys, and different names among printable and among unprintable inputs."},
{"property": "C423", "status": "partial", "theorems": ["Verif.Owned.C423_class_violated", "Verif.Owned.C423_module_partial", "Verif.Owned.C423_module_of_instances_violated"], "note": "name_property looks up class_name of the class instead of its own, module_property calls its function without the instance. Proved: the module set last."},
{"property": "C424", "status": "partial", "theorems": ["Verif.Owned.C424_calls_partial", "Verif.Owned.C424_set_violated", "Verif.Owned.C424_del_violated"], "note": "Setting and deleting through the class replaces the property, as Python does for descriptors. Proved: reading, and setting and deleting through instances."},
{"property": "C425", "status": "proved", "theorems": ["Verif.Owned.C425_built"], "note": ""},
{"property": "C426", "status": "partial", "theorems": ["Verif.Frozen.C426_with", "Verif.Frozen.C426_dropped_partial", "Verif.Frozen.C426_told", "Verif.Frozen.C426_tracing_violated"], "note": "A virtual frame which has only a tracing function keeps it, for it counts as having no variables. Proved for frames made by proxying."},
{"property": "C427", "status": "partial", "theorems": ["Verif.Frozen.C427_independent_partial", "Verif.Frozen.C427_without", "Verif.Frozen.C427_same_violated"], "note": "Of a virtual proxy asked for with variables the very same object is given, so dropping its variables drops those of the first. Proved for proxies which are not virtual."},
{"property": "C428", "status": "proved", "theorems": ["Verif.Resource.C428_equal"], "note": ""},
{"property": "C429", "status": "proved", "theorems": ["Verif.Resource.C429_shown", "Verif.Resource.C429_calls"], "note": ""},
{"property": "C430", "status": "proved", "theorems": ["Verif.Resource.C430_context", "Verif.Resource.C430_total"], "note": ""},
{"property": "C431", "status": "partial", "theorems": ["Verif.Json.C431_shown_partial", "Verif.Json.C431_raises", "Verif.Json.C431_mappings_violated"], "note": "Mappings which are not dictionaries become the array of their keys, their values are lost. Proved without them, and when TypeError is raised."},
{"property": "C432", "status": "partial", "theorems": ["Verif.Json.C432_given", "Verif.Json.C432_by_code_partial", "Verif.Json.C432_total", "Verif.Json.C432_restart_violated"], "note": "1012, registered as the restart of the service, is said to be reserved. Proved for all other codes."},
{"property": "C433", "status": "partial", "theorems": ["Verif.CopyFunc.C433_called_alike_partial", "Verif.CopyFunc.C433_documentation_violated"], "note": "Calls are proved alike after any history; violated for the documentation: one which was set, and annotations, are not copied."},
{"property": "C434", "status": "partial", "theorems": ["Verif.CopyFunc.C434_independent_partial", "Verif.CopyFunc.C434_shared_violated"], "note": "Proved for histories which change no dictionary of defaults inside; violated otherwise: __kwdefaults__ is the same dictionary in the copy."}
]}
