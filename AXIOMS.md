# Axioms

What `#print axioms` says about every theorem of `MANIFEST.json`.

## none

* `Verif.WebSocketSession.C116_fail_violated`
* `Verif.WebSocketSession.C117_eof_partial`
* `Verif.WebSocketSession.C117_wait_violated`
* `Verif.Timeouts.Fut.C147_zero`
* `Verif.ReuIO.C178_negative_amount_violated`
* `Verif.ReuIO.C178_seek_past_violated`
* `Verif.ReuIO.C178_seek_end_violated`
* `Verif.Credentials.C209_encoding_violated`
* `Verif.Credentials.C210_method_violated`
* `Verif.Connect.C237_ip`
* `Verif.Connect.C239_unverified_violated`
* `Verif.Datagram.C254_unaddressed_datagram_drops_others_violated`
* `Verif.Styling.C298_reads_as_the_text`
* `Verif.Rendering.C343_cycle_violated`
* `Verif.Rendering.C344_groups_violated`
* `Verif.Display.C374_start`
* `Verif.Display.C375_narrower_violated`
* `Verif.Recent.C395_again_violated`
* `Verif.Callbacks.C402_field`
* `Verif.Console.C409_same_violated`
* `Verif.Json.C432_restart_violated`
* `Verif.CopyFunc.C433_documentation_violated`

## Quot.sound

* `Verif.Datagram.C256_writer_left_on_closed_socket_violated`
* `Verif.Datagram.C256_writer_left_after_abort_violated`

## propext

* `Verif.Chunked.C09_violated`
* `Verif.Chunked.C10_lenient_violated`
* `Verif.Chunked.C10_full_violated`
* `Verif.Chunked.C10_reader_violated`
* `Verif.Future.C12_ready_only_grows`
* `Verif.Future.C12_stopped_loop_violated`
* `Verif.Task.C13_cancel_with_exception`
* `Verif.Task.C13_cancel_with_violated`
* `Verif.Task.C13_wait_for_completion_violated`
* `Verif.Shield.C14_done_unchanged`
* `Verif.AsyncQueue.C18_duplicate_violated`
* `Verif.AsyncQueue.C18_overtaking_violated`
* `Verif.AsyncQueue.C18_evicted_violated`
* `Verif.AsyncQueue.C18_waiting_consumer_passed_over_violated`
* `Verif.AsyncQueue.C19_element_lost_violated`
* `Verif.AsyncQueue.C20_no_wait_wakes_partial`
* `Verif.AsyncQueue.C20_await_deadlock_violated`
* `Verif.AsyncQueue.C20_lifo_violated`
* `Verif.AsyncQueue.C20_cancelled_producer_violated`
* `Verif.AsyncQueue.C21_get_result_violated`
* `Verif.PayloadStream.C33_second_await_violated`
* `Verif.PayloadStream.C33_two_iterators_violated`
* `Verif.PayloadStream.C34_first`
* `Verif.PayloadStream.C34_later`
* `Verif.PayloadStream.C34_no_chunk`
* `Verif.SortedList.C36_pop`
* `Verif.MultiDict.C37_contains_violated`
* `Verif.MultiDict.C37_not_equal_violated`
* `Verif.MultiDict.C37_sub_type_violated`
* `Verif.MultiDict.C37_equal_partial`
* `Verif.Url.C42_partial`
* `Verif.Url.C42_kind_violated`
* `Verif.Url.C42_transitive_violated`
* `Verif.Dns.C45_root_partial`
* `Verif.Dns.C47_permutation`
* `Verif.Rotation.C55_each_once`
* `Verif.MultiDict.C61_violated`
* `Verif.Dns.C65_raises_violated`
* `Verif.Dns.C71_elements_partial`
* `Verif.Cookie.C94_zero_violated`
* `Verif.Cookie.C94_invalid_violated`
* `Verif.Cookie.C95_session_violated`
* `Verif.Cookie.C95_domain_violated`
* `Verif.Cookie.C95_path_violated`
* `Verif.Cookie.C95_name_violated`
* `Verif.Multipart.C99_text_violated`
* `Verif.Redirect.C102_redirect_violated`
* `Verif.Redirect.C104_two_violated`
* `Verif.Redirect.C107_violated`
* `Verif.Redirect.C108_violated`
* `Verif.WebSocketSession.C116_order`
* `Verif.WebSocketSession.C117_closed_partial`
* `Verif.WebSocketSession.C117_client_violated`
* `Verif.WebSocketSession.C117_abort_violated`
* `Verif.Handshake.C125_credentials_violated`
* `Verif.Handshake.C125_encoded_violated`
* `Verif.Weak.C127_length_violated`
* `Verif.Weak.C127_length_of_a_set_violated`
* `Verif.Weak.C128_the_dead_are_gone_violated`
* `Verif.Weak.C132_length_violated`
* `Verif.Weak.C135_pop_with_default_violated`
* `Verif.Timeouts.C146_exit_partial`
* `Verif.Timeouts.C146_outcomes_partial`
* `Verif.Timeouts.Fut.C147_first_wins`
* `Verif.Timeouts.Fut.C148_return`
* `Verif.CrossThread.C149_invalid_state_violated`
* `Verif.CrossThread.C149_two_outcomes_violated`
* `Verif.CrossThread.C149_confused_violated`
* `Verif.CrossThread.C151_violated`
* `Verif.CrossThread.C152_wait_violated`
* `Verif.CrossThread.C152_set_violated`
* `Verif.EnterExecutor.C154_violated`
* `Verif.EnterExecutor.C155_first_section_violated`
* `Verif.EnterExecutor.C155_repeated_violated`
* `Verif.Frames.C164_filter_violated`
* `Verif.Ssl.C165_polite_writers_never_leak_partial`
* `Verif.Ssl.C165_writing_after_the_peer_closed_leaks_violated`
* `Verif.Ssl.C165_writing_before_the_handshake_leaks_violated`
* `Verif.Ssl.C167_bytes_ahead_of_a_broken_record_are_dropped_violated`
* `Verif.Ssl.C167_early_data_is_passed_through_violated`
* `Verif.Ssl.C168_aborting_the_handshake_reports_success_violated`
* `Verif.Ssl.C170_refused_writes_stay_violated`
* `Verif.Editor.C171_flat_is_the_text`
* `Verif.Editor.C171_moves_keep_the_text`
* `Verif.Editor.C173_history_usable`
* `Verif.Editor.C177_edits_lost_violated`
* `Verif.ReuIO.C180_rewind_partial`
* `Verif.ReuIO.C180_both_rewind_violated`
* `Verif.ReuIO.C181_close`
* `Verif.ReuIO.C181_detached_thread_violated`
* `Verif.Asyncio.Streams.C194_conserved`
* `Verif.LoopIO.C215_bytes`
* `Verif.LoopIO.C217_lost_violated`
* `Verif.LoopIO.C218_shutdown_violated`
* `Verif.Highlight.C226_end_violated`
* `Verif.UrlText.C234_join_partial`
* `Verif.UrlText.C234_host_violated`
* `Verif.UrlText.C234_query_violated`
* `Verif.Connect.C237_fresh`
* `Verif.Connect.C237_failed`
* `Verif.Connect.C239_context`
* `Verif.Connect.C239_fingerprint_length`
* `Verif.Connect.C239_proxy_violated`
* `Verif.Connect.C239_proxy_asked_violated`
* `Verif.Connect.Address.C241_closed`
* `Verif.Connect.Address.C241_family_violated`
* `Verif.Life.C248_raced_violated`
* `Verif.Life.Pause.C249_again_violated`
* `Verif.Life.Pause.C249_early_violated`
* `Verif.Life.Pause.C250_order`
* `Verif.Life.Pause.C251_order`
* `Verif.Datagram.C252_every_datagram_has_one_fate`
* `Verif.Datagram.C252_sent_in_order`
* `Verif.Datagram.C252_sent_whole`
* `Verif.Datagram.C253_bound_transport_sends_to_its_address`
* `Verif.Datagram.C253_other_address_refused`
* `Verif.Datagram.C253_unbound_transport_sends_where_told`
* `Verif.Datagram.C254_unaddressed_send_kills_transport_violated`
* `Verif.Datagram.C254_addressed_sends_keep_transport_partial`
* `Verif.Datagram.C257_close_sends_what_waits`
* `Verif.Datagram.C257_close_when_nothing_waits`
* `Verif.Datagram.Addressed.C262_wait_outlives_connection_violated`
* `Verif.Datagram.Addressed.C262_wait_begun_after_lost_violated`
* `Verif.Datagram.Addressed.C262_readers_are_told_partial`
* `Verif.WsServer.C265_late_request_refused_partial`
* `Verif.WsServer.C265_closed_for_good_partial`
* `Verif.WsServer.C267_plain_server_says_secure_violated`
* `Verif.WsServer.C267_secure_server_says_so_partial`
* `Verif.WrapAsync.C271_told_wait_ends_partial`
* `Verif.Reading.C274_data_after_close_violated`
* `Verif.Reading.C275_paused_protocol_is_told_violated`
* `Verif.Reading.C275_resumed_reads_partial`
* `Verif.Reading.C275_idempotent_partial`
* `Verif.Reading.C276_eof_again_violated`
* `Verif.Equality.C279_connection_key`
* `Verif.Equality.C279_host_info`
* `Verif.Equality.C279_credentials`
* `Verif.Equality.C279_keep_alive`
* `Verif.Equality.C280_question`
* `Verif.Equality.C280_resource_record`
* `Verif.Equality.C280_query`
* `Verif.Equality.C280_result`
* `Verif.Equality.C280_result_hash_constant_violated`
* `Verif.Equality.C283_equal_to_text_of_other_hash_violated`
* `Verif.Equality.C283_not_transitive_violated`
* `Verif.Equality.C283_comparison_raises_violated`
* `Verif.Resolve.C289_numeric_asks_nobody`
* `Verif.Resolve.C290_type_narrows_partial`
* `Verif.Resolve.C290_raw_refused_violated`
* `Verif.Resolve.C292_first_name_wins_partial`
* `Verif.Styling.C296_all_characters`
* `Verif.Styling.C297_all_characters`
* `Verif.Styling.C298_spans`
* `Verif.Styling.C298_reads_as_one`
* `Verif.Styling.C298_not_escaped_violated`
* `Verif.Includes.C303_other_name_violated`
* `Verif.Includes.C303_exported_again_violated`
* `Verif.Includes.C303_behind_raising_violated`
* `Verif.Includes.C304_behind_raising_violated`
* `Verif.Attributes.C317_default_violated`
* `Verif.Attributes.C319_first_name_violated`
* `Verif.Compiling.C326_sound`
* `Verif.Compiling.C327_different_violated`
* `Verif.Modulize.C333_none`
* `Verif.Modulize.C333_single_violated`
* `Verif.Compound.C334_given`
* `Verif.Compound.C339_descriptors_violated`
* `Verif.Compound.C340_separated`
* `Verif.Rendering.C345_unique`
* `Verif.Rendering.C347_total`
* `Verif.Contexts.C349_left_violated`
* `Verif.Contexts.C350_failed_violated`
* `Verif.Contexts.C352_cancelled_violated`
* `Verif.Contexts.C352_closed_partial`
* `Verif.Contexts.C353_location`
* `Verif.Contexts.C354_lists`
* `Verif.Lists.C359_pairs_partial`
* `Verif.Loops.C366_woken`
* `Verif.Loops.C366_failed`
* `Verif.Kinds.C370_told_partial`
* `Verif.Kinds.C370_method_violated`
* `Verif.Display.C377_never`
* `Verif.Parts.C388_decoded`
* `Verif.Parts.C388_encoded`
* `Verif.Parts.C388_parsed`
* `Verif.Parts.C388_text`
* `Verif.Parts.C389_parts`
* `Verif.Parts.C389_back`
* `Verif.Parts.C389_user`
* `Verif.Describe.C392_name`
* `Verif.Describe.C392_one`
* `Verif.Describe.C392_repr`
* `Verif.Describe.C393_exit`
* `Verif.Describe.C393_text_violated`
* `Verif.Describe.C393_repr_violated`
* `Verif.Marks.C398_later_violated`
* `Verif.Marks.C398_unmarked_violated`
* `Verif.Callbacks.C401_nothing`
* `Verif.Console.C407_own_partial`
* `Verif.Console.C407_stale_violated`
* `Verif.Console.C408_task_partial`
* `Verif.Console.C408_direct_violated`
* `Verif.Keys.C421_input_partial`
* `Verif.Keys.C421_not_blocking_violated`
* `Verif.Keys.C421_content_lost_violated`
* `Verif.Keys.C422_new_lines_violated`
* `Verif.Owned.C423_class_violated`
* `Verif.Owned.C423_module_of_instances_violated`
* `Verif.Owned.C424_calls_partial`
* `Verif.Frozen.C426_with`
* `Verif.Frozen.C426_tracing_violated`
* `Verif.Json.C431_raises`
* `Verif.Json.C431_mappings_violated`
* `Verif.Json.C432_given`

## Quot.sound, propext

* `Verif.Stream.C01_read_exactly_short`
* `Verif.Stream.C01_size_after_read`
* `Verif.Stream.C01_size_after_eof_violated`
* `Verif.Stream.C02_offset_violated`
* `Verif.Stream.C02_small_segment_violated`
* `Verif.Stream.C02_exact_end_violated`
* `Verif.Stream.C02_full_violated`
* `Verif.Stream.C03_read_until_eof`
* `Verif.Stream.C03_read_once`
* `Verif.WebSocket.C04_head_fields`
* `Verif.WebSocket.C05_short_key`
* `Verif.Chunked.C08_plain_body`
* `Verif.Chunked.C09_full_violated`
* `Verif.Chunked.C10_plain_accepted`
* `Verif.Chunked.C10_accepted_shape_partial`
* `Verif.Chunked.C10_rejected_partial`
* `Verif.Future.C11_future_is_write_once_cell`
* `Verif.Future.C11_outcome_stable`
* `Verif.Future.C11_single_completion`
* `Verif.Task.C11_task_outcome_stable`
* `Verif.Task.C11_task_result_iff_done`
* `Verif.Future.C12_every_registration_once_partial`
* `Verif.Future.C12_done_runs_all_partial`
* `Verif.Future.C12_pending_runs_none`
* `Verif.Future.C12_removed_not_run`
* `Verif.Task.C13_cancel_delivered_partial`
* `Verif.Task.C13_cancel_with_delivered_partial`
* `Verif.Task.C13_step_valid`
* `Verif.Task.C13_cancelled_outcome`
* `Verif.Task.C13_cancel_with_raises_partial`
* `Verif.Task.C13_self_cancel`
* `Verif.Shield.C14_outer_never_affects_inner`
* `Verif.AsyncQueue.C19_spurious_cancel_violated`
* `Verif.AsyncQueue.C20_waits_only_when_full_partial`
* `Verif.AsyncQueue.C21_lifo_is_stack_partial`
* `Verif.Event.C22_waits_iff_not_set`
* `Verif.Event.C22_set_wakes_all`
* `Verif.Event.C22_woken_if_set`
* `Verif.Event.C22_returns_only_if_set`
* `Verif.TaskGroup.C23_never_both`
* `Verif.TaskGroup.C23_done_iff_completed`
* `Verif.TaskGroup.C23_lost_violated`
* `Verif.TaskGroup.C23_handed_out_twice`
* `Verif.ScarletExecutor.C24_violated`
* `Verif.ScarletExecutor.C24_not_stuck`
* `Verif.ScarletExecutor.C25_dropped_violated`
* `Verif.ScarletExecutor.C25_body_cancelled_violated`
* `Verif.EventLoop.C26_not_after_cancel`
* `Verif.EventLoop.C26_reached`
* `Verif.EventLoop.C28_starved_violated`
* `Verif.Cycler.C29_one_timer_partial`
* `Verif.Cycler.C29_silent_after_cancel_partial`
* `Verif.Cycler.C29_append`
* `Verif.Cycler.C29_sorted`
* `Verif.Cycler.C29_cycle_partial`
* `Verif.Cycler.C29_cancel_inside_violated`
* `Verif.Cycler.C29_two_timers_violated`
* `Verif.Cycler.C29_call_now_inside_violated`
* `Verif.Cycler.C29_created_by_thread_violated`
* `Verif.Cycler.C29_order_violated`
* `Verif.Cycler.C29_skipped_violated`
* `Verif.SyncQueue.C30_fifo_partial`
* `Verif.SyncQueue.C30_not_blocked`
* `Verif.SyncQueue.C30_cancelled_partial`
* `Verif.SyncQueue.C30_twice_violated`
* `Verif.SyncQueue.C30_not_woken_violated`
* `Verif.Transport.C31_prefix`
* `Verif.Transport.C31_rest`
* `Verif.Transport.C31_writer`
* `Verif.Transport.C31_drained`
* `Verif.Transport.C32_alternate`
* `Verif.Transport.C32_paused_above`
* `Verif.Transport.C32_resumed_below`
* `Verif.Transport.C32_not_stuck`
* `Verif.PayloadStream.C33_whole_partial`
* `Verif.PayloadStream.C33_iterate_prefix_partial`
* `Verif.PayloadStream.C33_iterate_all_partial`
* `Verif.PayloadStream.C33_not_blocked_partial`
* `Verif.PayloadStream.C34_one_state`
* `Verif.PayloadStream.C34_callbacks`
* `Verif.MultiDict.C35_invariant`
* `Verif.MultiDict.C35_from_pairs`
* `Verif.SortedList.C36_extend_self_violated`
* `Verif.MultiDict.C37_spelling_partial`
* `Verif.MultiDict.C37_made_from_dict_violated`
* `Verif.Dns.C44_backwards_violated`
* `Verif.Dns.C44_bound_partial`
* `Verif.Dns.C45_partial`
* `Verif.Dns.C45_at_violated`
* `Verif.Dns.C47_sorted`
* `Verif.Dns.C48_prefix_violated`
* `Verif.Dns.C48_partial`
* `Verif.Http.C50_layout`
* `Verif.Pool.C52_given`
* `Verif.Pool.C52_dropped`
* `Verif.Pool.C53_plain_request_violated`
* `Verif.Cookie.C54_shared_violated`
* `Verif.TaskGroup.C57_waiters_finish_partial`
* `Verif.TaskGroup.C57_wait_first_n_violated`
* `Verif.TaskGroup.C57_wait_next_violated`
* `Verif.TaskGroup.C57_wait_next_result_violated`
* `Verif.FlowControl.C59_blocked_by_reading_violated`
* `Verif.FlowControl.C59_two_tasks_violated`
* `Verif.FlowControl.C59_not_blocked_violated`
* `Verif.FlowControl.C59_lost_not_woken_violated`
* `Verif.FlowControl.C59_after_lost_violated`
* `Verif.FlowControl.C60_reading_partial`
* `Verif.FlowControl.C60_never_resumed_violated`
* `Verif.FlowControl.C60_not_paused_violated`
* `Verif.MultiDict.C61_copy_partial`
* `Verif.Dns.C65_compressed_violated`
* `Verif.Dns.C68_partial`
* `Verif.Dns.C68_any_violated`
* `Verif.Dns.C69_host_bits_violated`
* `Verif.Dns.C75_merge`
* `Verif.Dns.C76_last`
* `Verif.Header.C78_connections`
* `Verif.Header.C78_upgrades`
* `Verif.Header.C78_extensions`
* `Verif.Http.C87_partial`
* `Verif.Http.C87_violated`
* `Verif.Http.C87_empty_violated`
* `Verif.Http.C88_partial`
* `Verif.Http.C88_reason_partial`
* `Verif.Pool.C93_handed_out_violated`
* `Verif.Cookie.C94_expires_violated`
* `Verif.ContentType.C97_read_partial`
* `Verif.ContentType.C97_pair_violated`
* `Verif.ContentType.C97_apostrophe_violated`
* `Verif.ContentType.C98_boundary_partial`
* `Verif.ContentType.C98_apostrophe_violated`
* `Verif.Multipart.C99_size_partial`
* `Verif.Multipart.C99_known`
* `Verif.Multipart.C99_nested`
* `Verif.Multipart.C99_stale_violated`
* `Verif.Multipart.C100_base64`
* `Verif.Multipart.C100_chunks`
* `Verif.Multipart.C101_headers`
* `Verif.Multipart.C101_base64`
* `Verif.Multipart.C101_read_multipart_violated`
* `Verif.Redirect.C102_host_partial`
* `Verif.Redirect.C102_first`
* `Verif.Redirect.C102_violated`
* `Verif.Redirect.C103_cookies_partial`
* `Verif.Redirect.C103_violated`
* `Verif.Redirect.C104_request2_violated`
* `Verif.Redirect.C105_bounded_partial`
* `Verif.Redirect.C105_violated`
* `Verif.Redirect.C105_negative_violated`
* `Verif.Redirect.C106_method`
* `Verif.Redirect.C106_first`
* `Verif.Redirect.C107_content_partial`
* `Verif.Redirect.C107_two_violated`
* `Verif.Redirect.C108_framing_partial`
* `Verif.Redirect.C108_length`
* `Verif.Redirect.C109_location_partial`
* `Verif.Redirect.C109_violated`
* `Verif.WebSocketSession.C115_violated`
* `Verif.WebSocketSession.C116_writers_partial`
* `Verif.Handshake.C121_kept_violated`
* `Verif.Handshake.C123_client_partial`
* `Verif.Weak.C127_foreign_references_violated`
* `Verif.Weak.C129_iteration`
* `Verif.Weak.C129_iteration_order`
* `Verif.Weak.C129_the_living_are_met`
* `Verif.Weak.C130_union`
* `Verif.Weak.C130_difference`
* `Verif.Weak.C130_symmetric_difference`
* `Verif.Weak.C130_comparison_violated`
* `Verif.Weak.C131_value_dictionaries_are_dictionaries`
* `Verif.Weak.C131_never_a_dead_object`
* `Verif.Weak.C132_length_partial`
* `Verif.Weak.C132_the_end_of_an_iteration_removes_nothing_violated`
* `Verif.Weak.C133_a_living_item_is_lost_violated`
* `Verif.Weak.C133_equal_keys_violated`
* `Verif.Weak.C134_copy_of_an_item_dictionary_violated`
* `Verif.Weak.C134_a_copy_keeps_the_dead_violated`
* `Verif.Weak.C135_pop_with_default`
* `Verif.Weak.C135_pop_with_default_partial`
* `Verif.ThreadPool.C140_given_back_violated`
* `Verif.ThreadPool.C142_cancel_executors_violated`
* `Verif.ThreadPool.C143_idle_threads_go_violated`
* `Verif.Timeouts.C145_violated`
* `Verif.Timeouts.C146_violated`
* `Verif.Timeouts.Fut.C147_not_early`
* `Verif.Timeouts.Fut.C147_ends`
* `Verif.Timeouts.Fut.C148_not_early`
* `Verif.Timeouts.Fut.C148_ends_partial`
* `Verif.Timeouts.Fut.C148_violated`
* `Verif.CrossThread.C149_done_stays`
* `Verif.CrossThread.C150_add_violated`
* `Verif.CrossThread.C150_cancel_violated`
* `Verif.CrossThread.C150_remove_violated`
* `Verif.CrossThread.C151_timed_out_partial`
* `Verif.EnterExecutor.C153_not_lost_partial`
* `Verif.EnterExecutor.C153_entering_violated`
* `Verif.EnterExecutor.C153_last_section_violated`
* `Verif.EnterExecutor.C153_leaving_violated`
* `Verif.EnterExecutor.C153_returned_violated`
* `Verif.EnterExecutor.C154_body_in_executor`
* `Verif.EnterExecutor.C154_after_on_loop_partial`
* `Verif.EnterExecutor.C155_waiting_partial`
* `Verif.EnterExecutor.C155_computing_partial`
* `Verif.EnterExecutor.C156_told_partial`
* `Verif.EnterExecutor.C156_violated`
* `Verif.Frames.C162_bottom`
* `Verif.Frames.C162_top`
* `Verif.Ssl.C166_writes_are_conserved`
* `Verif.Ssl.C166_refused_buffers_are_repeated`
* `Verif.Ssl.C168_settled_at_most_once`
* `Verif.Ssl.C168_settled_after_a_handshake`
* `Verif.Ssl.C168_settled_after_a_loss`
* `Verif.Ssl.C168_result_means_handshake_partial`
* `Verif.Ssl.C170_willing_engines_get_everything_partial`
* `Verif.Ssl.C170_scheduled_callbacks_send_everything_partial`
* `Verif.Editor.C171_delete_undoes_print`
* `Verif.Editor.C173_begins_in_text`
* `Verif.Editor.C176_back_is_nearest`
* `Verif.Editor.C176_forward_is_nearest`
* `Verif.Editor.C176_forward_and_back_partial`
* `Verif.Editor.C176_newest_skipped_violated`
* `Verif.Editor.C176_walk_shows_every_entry`
* `Verif.Editor.C177_edits_kept_partial`
* `Verif.Editor.C177_given_by_the_history`
* `Verif.ReuIO.C179_length_violated`
* `Verif.ReuIO.C180_rewind_lost_violated`
* `Verif.ReuIO.C181_not_released_twice`
* `Verif.ReuIO.C181_claimed_released_partial`
* `Verif.ReuIO.C181_waiting_call_violated`
* `Verif.Pipe.C182_prefix`
* `Verif.Pipe.C182_kept`
* `Verif.Pipe.C182_closed_is_complete`
* `Verif.Pipe.C182_failure_is_told`
* `Verif.Pipe.C183_signals`
* `Verif.Pipe.C183_bound`
* `Verif.Pipe.C183_not_forgotten`
* `Verif.Pipe.C183_lost_comes`
* `Verif.Pipe.C184_read_end`
* `Verif.Pipe.C185_own_number_partial`
* `Verif.Pipe.C185_stale_violated`
* `Verif.Process.C186_noticed_partial`
* `Verif.Process.C186_not_noticed_violated`
* `Verif.Process.C187_answers`
* `Verif.Process.C187_once`
* `Verif.Process.C187_nobody_waits`
* `Verif.Process.C187_stopped_not_told`
* `Verif.Process.C188_killed_violated`
* `Verif.Process.C189_drain_hangs_violated`
* `Verif.Process.C189_drain_at_once_partial`
* `Verif.Asyncio.Sem.C191_counts`
* `Verif.Asyncio.Sem.C193_overtaken_violated`
* `Verif.Asyncio.Sem.C193_starved_violated`
* `Verif.Asyncio.Streams.C196_no_deadlock`
* `Verif.Asyncio.Streams.C196_resumed`
* `Verif.Asyncio.Cond.C197_two_holders_violated`
* `Verif.Asyncio.Cond.C198_notify`
* `Verif.Asyncio.Cond.C198_notify_all`
* `Verif.Asyncio.Cond.C198_in_order`
* `Verif.Asyncio.Bar.C201_unique_violated`
* `Verif.Asyncio.Gather.C202_order_violated`
* `Verif.Asyncio.Gather.C202_twice_violated`
* `Verif.Asyncio.Gather.C202_first_exception_violated`
* `Verif.Asyncio.Gather.C203_first_exception_violated`
* `Verif.Server.C204_early_violated`
* `Verif.Server.C204_cancelled_violated`
* `Verif.Server.C204_in_flight_violated`
* `Verif.Server.C206_watched`
* `Verif.Server.C206_accepted`
* `Verif.Server.C207_one_retry_violated`
* `Verif.Server.C207_retry_partial`
* `Verif.Server.C208_serving_violated`
* `Verif.Server.C208_serving_partial`
* `Verif.Credentials.C209_written`
* `Verif.LoopIO.C213_watched`
* `Verif.LoopIO.C213_removed`
* `Verif.LoopIO.C214_reader_gone`
* `Verif.LoopIO.C214_writer_gone`
* `Verif.LoopIO.C214_cancelled`
* `Verif.LoopIO.C214_reported`
* `Verif.LoopIO.C215_calls`
* `Verif.LoopIO.C215_done`
* `Verif.LoopIO.C216_two_calls_violated`
* `Verif.LoopIO.C216_one_call_partial`
* `Verif.LoopIO.C217_stuck_violated`
* `Verif.LoopIO.C219_found`
* `Verif.LoopIO.C219_ends`
* `Verif.FormData.C220_read`
* `Verif.FormData.C220_made`
* `Verif.FormData.C221_raises`
* `Verif.FormData.C221_flag_partial`
* `Verif.FormData.C221_raised_violated`
* `Verif.FormData.C222_parts_partial`
* `Verif.FormData.C222_mixed_violated`
* `Verif.FormData.C222_descriptor_violated`
* `Verif.FormData.C223_given_partial`
* `Verif.FormData.C223_default_partial`
* `Verif.FormData.C223_file_name_violated`
* `Verif.FormData.C224_append_violated`
* `Verif.FormData.C224_append_partial`
* `Verif.FormData.C224_form`
* `Verif.Highlight.C227_format_violated`
* `Verif.Highlight.C228_inside_partial`
* `Verif.Highlight.C228_found_partial`
* `Verif.Highlight.C228_missed_violated`
* `Verif.Highlight.C228_innermost_violated`
* `Verif.Highlight.Words.C230_longest`
* `Verif.Highlight.Words.C230_none`
* `Verif.UrlText.C235_with_user`
* `Verif.Connect.C236_waiting`
* `Verif.Connect.C236_one_lookup`
* `Verif.Connect.C236_remembered`
* `Verif.Connect.C236_answered_partial`
* `Verif.Connect.C236_closed_violated`
* `Verif.Connect.C237_unknown`
* `Verif.Connect.C237_expired`
* `Verif.Connect.C237_expired_first_violated`
* `Verif.Connect.C238_causes_violated`
* `Verif.Connect.Address.C241_first_partial`
* `Verif.Response.C243_cancelled_violated`
* `Verif.Response.C243_unwritten_violated`
* `Verif.Response.C243_permitted`
* `Verif.Response.C243_whole_partial`
* `Verif.Response.C244_reused_partial`
* `Verif.Response.C244_bodiless_partial`
* `Verif.Response.C245_body_partial`
* `Verif.Response.C245_again_partial`
* `Verif.Response.C245_cancelled_violated`
* `Verif.Response.C245_failed_violated`
* `Verif.Response.C246_late_violated`
* `Verif.Response.C246_late_partial`
* `Verif.Response.C247_ended_violated`
* `Verif.Response.C247_until_violated`
* `Verif.Response.C247_broken_partial`
* `Verif.Datagram.C258_abort_reason_lost_violated`
* `Verif.Datagram.C259_paused_when_full`
* `Verif.Datagram.Addressed.C261_wait_ends_with_other_address_violated`
* `Verif.Datagram.Addressed.C261_wrong_reader_violated`
* `Verif.Datagram.Addressed.C261_answers_were_heard_partial`
* `Verif.Datagram.Addressed.C261_one_peer_partial`
* `Verif.Datagram.Addressed.C262_datagram_ends_every_wait_partial`
* `Verif.Datagram.Addressed.C262_timeout_ends_wait_partial`
* `Verif.WsServer.C266_handler_started_on_closed_server_violated`
* `Verif.WrapAsync.C269_times_out_on_completed_future_violated`
* `Verif.Equality.C283_among_themselves_partial`
* `Verif.Equality.C283_symmetric_partial`
* `Verif.Equality.C283_folded_text_partial`
* `Verif.Equality.C284_strict_order_partial`
* `Verif.Equality.C284_equality_partial`
* `Verif.Resolve.C286_refusing_server_fails_query_violated`
* `Verif.Resolve.C287_answers_of_one_server_partial`
* `Verif.Resolve.C287_question_dropped_violated`
* `Verif.Resolve.C288_not_permanent_partial`
* `Verif.Resolve.C289_as_asked`
* `Verif.Resolve.C289_refused`
* `Verif.Resolve.C291_addresses_are_answers_partial`
* `Verif.Resolve.C291_all_addresses_partial`
* `Verif.Resolve.C291_other_name_taken_violated`
* `Verif.Resolve.C292_next_name_partial`
* `Verif.Resolve.C292_silent_candidate_fails_lookup_violated`
* `Verif.Resolve.C293_required_name_missing_violated`
* `Verif.Resolve.C293_first_record_taken_violated`
* `Verif.Resolve.C293_silent_server_fails_violated`
* `Verif.Resolve.C293_found_name_is_answer_partial`
* `Verif.Resolve.C293_no_answers_partial`
* `Verif.Styling.C294_shown_as_wanted_partial`
* `Verif.Styling.C294_left_plain`
* `Verif.Styling.C294_colours_partial`
* `Verif.Styling.C294_decorations_add_up_violated`
* `Verif.Styling.C295_all_text`
* `Verif.Styling.C298_line_break_stays_violated`
* `Verif.Styling.C299_nearest_partial`
* `Verif.Styling.C299_not_removed_violated`
* `Verif.Styling.C299_all_set`
* `Verif.Styling.C299_not_removed_after_all_violated`
* `Verif.WinSelect.C300_shards`
* `Verif.Includes.C303_variables_partial`
* `Verif.Includes.C305_satisfaction`
* `Verif.Trim.C306_cpython`
* `Verif.Trim.C307_single_line_partial`
* `Verif.Trim.C307_ellipsis`
* `Verif.Trim.C307_ellipsis_line_violated`
* `Verif.Analyzer.C308_refused`
* `Verif.Naming.C313_borders`
* `Verif.Naming.C315_same_words_partial`
* `Verif.Naming.C315_single_letters_violated`
* `Verif.Attributes.C317_set`
* `Verif.Attributes.C317_default_partial`
* `Verif.Attributes.C318_present`
* `Verif.Attributes.C319_second_name_partial`
* `Verif.Attributes.C320_once_partial`
* `Verif.Attributes.C320_ellipsis_violated`
* `Verif.Attributes.C321_got`
* `Verif.Attributes.C321_set`
* `Verif.Attributes.C322_values`
* `Verif.Attributes.C323_dictionaries`
* `Verif.Compiling.C324_empty`
* `Verif.Compiling.C324_not_compiled`
* `Verif.Compiling.C325_code`
* `Verif.Compiling.C327_refused_partial`
* `Verif.Compiling.C327_many_partial`
* `Verif.Compiling.C327_indentation_partial`
* `Verif.Compiling.C328_source_partial`
* `Verif.Modulize.C329_function_partial`
* `Verif.Modulize.C329_others`
* `Verif.Modulize.C329_keyword_defaults_violated`
* `Verif.Modulize.C330_inside_partial`
* `Verif.Modulize.C330_static_violated`
* `Verif.Modulize.C332_other_modules`
* `Verif.Modulize.C332_literal_violated`
* `Verif.Modulize.C333_group_partial`
* `Verif.Compound.C335_mismatch`
* `Verif.Compound.C335_others_violated`
* `Verif.Compound.C336_order_violated`
* `Verif.Compound.C337_constants`
* `Verif.Compound.C338_slots`
* `Verif.Compound.C339_placeholder_partial`
* `Verif.Compound.C339_behind`
* `Verif.Compound.C341_over_partial`
* `Verif.Compound.C341_from_base`
* `Verif.Compound.C341_theory_violated`
* `Verif.Rendering.C342_rendered`
* `Verif.Rendering.C343_acyclic_partial`
* `Verif.Rendering.C344_groups_partial`
* `Verif.Rendering.C345_frames`
* `Verif.Rendering.C346_disabled`
* `Verif.Rendering.C347_populated`
* `Verif.Contexts.C348_released`
* `Verif.Contexts.C348_once`
* `Verif.Contexts.C349_again_partial`
* `Verif.Contexts.C350_failed_partial`
* `Verif.Contexts.C351_caught`
* `Verif.Contexts.C354_titles`
* `Verif.Contexts.C355_all_partial`
* `Verif.Contexts.C355_public_partial`
* `Verif.Lists.C357_outside_partial`
* `Verif.Lists.C358_any`
* `Verif.Lists.C359_keys_first_violated`
* `Verif.Lists.C359_constant_partial`
* `Verif.Lists.C360_values_violated`
* `Verif.Lists.C361_any`
* `Verif.Lists.C361_where`
* `Verif.Loops.C362_get`
* `Verif.Loops.C362_works`
* `Verif.Loops.C363_stays_partial`
* `Verif.Loops.C363_starting_violated`
* `Verif.Loops.C364_get_or_create`
* `Verif.Loops.C364_create`
* `Verif.Loops.C365_same_partial`
* `Verif.Loops.C365_many_violated`
* `Verif.Loops.C367_set_partial`
* `Verif.Loops.C367_stopped_violated`
* `Verif.Kinds.C368_called`
* `Verif.Kinds.C368_awaitable`
* `Verif.Kinds.C369_exclusive_partial`
* `Verif.Kinds.C369_both_violated`
* `Verif.Kinds.C371_made`
* `Verif.Kinds.C371_idempotent`
* `Verif.Kinds.C372_like_partial`
* `Verif.Kinds.C372_instance_violated`
* `Verif.Kinds.C372_reserved_partial`
* `Verif.Display.C373_rows`
* `Verif.Display.C373_none`
* `Verif.Display.C374_line`
* `Verif.Display.C374_buffer`
* `Verif.Display.C374_sum`
* `Verif.Display.C374_cursor`
* `Verif.Display.C375_narrower_partial`
* `Verif.Display.C376_vertical`
* `Verif.Display.C376_horizontal`
* `Verif.Extensions.C384_nested_violated`
* `Verif.Helpers.C387_all`
* `Verif.Helpers.C387_bad`
* `Verif.Loops.C390_refused`
* `Verif.Loops.C390_existing`
* `Verif.Loops.C390_own`
* `Verif.Loops.C391_failed`
* `Verif.Describe.C392_fallback`
* `Verif.Recent.C396_big_violated`
* `Verif.Marks.C397_nothing`
* `Verif.Callbacks.C399_shown`
* `Verif.Callbacks.C399_none`
* `Verif.Suggest.C405_attributes`
* `Verif.Suggest.C406_attribute_violated`
* `Verif.Suggest.C406_dir_violated`
* `Verif.Console.C409_distinct_partial`
* `Verif.Console.C411_twice`
* `Verif.Console.C412_banner_partial`
* `Verif.Console.C412_exit_violated`
* `Verif.Console.C413_first`
* `Verif.Console.C413_exit`
* `Verif.Files.C414_same`
* `Verif.Files.C414_collected`
* `Verif.Files.C415_once_partial`
* `Verif.Files.C415_fresh_partial`
* `Verif.Files.C415_old_violated`
* `Verif.Files.C416_exit_partial`
* `Verif.Files.C416_again_violated`
* `Verif.Finishing.C419_data`
* `Verif.Owned.C423_module_partial`
* `Verif.Owned.C424_set_violated`
* `Verif.Owned.C424_del_violated`
* `Verif.Owned.C425_built`
* `Verif.Frozen.C426_dropped_partial`
* `Verif.Frozen.C426_told`
* `Verif.Frozen.C427_without`
* `Verif.Resource.C429_calls`
* `Verif.Resource.C430_total`
* `Verif.Json.C431_shown_partial`
* `Verif.Json.C432_by_code_partial`
* `Verif.Json.C432_total`
* `Verif.CopyFunc.C433_called_alike_partial`

## Classical.choice, Quot.sound, propext

* `Verif.Stream.C01_read_exactly`
* `Verif.Stream.C01_segmentation_independent`
* `Verif.Stream.C01_read_sequence`
* `Verif.Stream.C02_read_until_partial`
* `Verif.Stream.C02_short_boundary_partial`
* `Verif.Stream.C02_uncut_pair_partial`
* `Verif.Stream.C02_single_byte_boundary`
* `Verif.Stream.C02_missing_boundary_partial`
* `Verif.Stream.C02_held_back_partial`
* `Verif.Stream.C03_after_exact_reads`
* `Verif.WebSocket.C04_round_trip`
* `Verif.WebSocket.C04_sequence_round_trip`
* `Verif.WebSocket.C04_constructed_frame_valid`
* `Verif.WebSocket.C05_mask_is_positional_xor`
* `Verif.WebSocket.C05_mask_pointwise`
* `Verif.WebSocket.C05_mask_involutive`
* `Verif.WebSocket.C06_wrong_masking_rejected`
* `Verif.WebSocket.C06_oversized_rejected`
* `Verif.WebSocket.C06_client_accepts`
* `Verif.WebSocket.C06_server_accepts`
* `Verif.WebSocket.C06_truncated_payload`
* `Verif.WebSocket.C06_truncated_header`
* `Verif.WebSocket.C07_check_iff`
* `Verif.WebSocket.C07_check_error`
* `Verif.Chunked.C08_round_trip`
* `Verif.Chunked.C08_round_trip_single_segment`
* `Verif.Chunked.C08_unfinished_body`
* `Verif.Chunked.C09_segmentation_independent_partial`
* `Verif.Chunked.C09_reader_is_decoder_partial`
* `Verif.Shield.C14_outer_mirrors`
* `Verif.Shield.C14_outer_completes`
* `Verif.Shield.C14_outer_final`
* `Verif.Lock.C15_at_most_size_holders`
* `Verif.Lock.C15_mutual_exclusion`
* `Verif.Lock.C15_no_index_error`
* `Verif.Lock.C16_numbered_by_arrival`
* `Verif.Lock.C16_served_in_arrival_order`
* `Verif.Lock.C16_no_barging`
* `Verif.Lock.C16_only_cancelled_skipped`
* `Verif.Lock.C17_quiet_is_free_partial`
* `Verif.Lock.C17_lock_becomes_free_partial`
* `Verif.Lock.C17_cancel_granted_violated`
* `Verif.Lock.C17_release_before_cancelled_runs_violated`
* `Verif.AsyncQueue.C18_fifo_partial`
* `Verif.AsyncQueue.C18_unbounded_fifo_partial`
* `Verif.AsyncQueue.C18_exactly_once_partial`
* `Verif.AsyncQueue.C18_never_reordered_partial`
* `Verif.AsyncQueue.C19_at_most_one_lost_partial`
* `Verif.TaskGroup.C23_never_neither_partial`
* `Verif.ScarletExecutor.C24_at_most_limit_partial`
* `Verif.ScarletExecutor.C24_below_limit_on_return_partial`
* `Verif.ScarletExecutor.C25_failure_reported_partial`
* `Verif.EventLoop.C26_in_order`
* `Verif.EventLoop.C26_at_most_once`
* `Verif.EventLoop.C26_no_overtaking`
* `Verif.EventLoop.C27_not_before`
* `Verif.EventLoop.C27_earlier_first`
* `Verif.EventLoop.C27_once_not_cancelled`
* `Verif.EventLoop.C28_due_timers_run_partial`
* `Verif.SyncQueue.C30_repr_violated`
* `Verif.MultiDict.C35_answers`
* `Verif.SortedList.C36_sorted`
* `Verif.SortedList.C36_contains`
* `Verif.SortedList.C36_index`
* `Verif.SortedList.C36_keyed_partial`
* `Verif.SortedList.C36_contents`
* `Verif.SortedList.C36_strict_partial`
* `Verif.SortedList.C36_duplicates_violated`
* `Verif.MultiDict.C37_answers_partial`
* `Verif.MultiDict.C37_contains_partial`
* `Verif.Quoting.C38_partial`
* `Verif.Quoting.C38_digits_violated`
* `Verif.Quoting.C38_plus_violated`
* `Verif.Quoting.C38_query_violated`
* `Verif.Quoting.C39_output`
* `Verif.Quoting.C39_returns`
* `Verif.Quoting.C39_raises`
* `Verif.Url.C40_walk`
* `Verif.Url.C40_no_dots`
* `Verif.Url.C40_parse`
* `Verif.Url.C41_encoded_partial`
* `Verif.Url.C41_decoded_partial`
* `Verif.Url.C41_key_violated`
* `Verif.Url.C41_value_violated`
* `Verif.Dns.C43_round_trip`
* `Verif.Dns.C43_flags`
* `Verif.Dns.C44_pointer_violated`
* `Verif.Dns.C44_violated`
* `Verif.Dns.C44_plain_partial`
* `Verif.Dns.C46_v4`
* `Verif.Dns.C46_v6`
* `Verif.Dns.C47_stable`
* `Verif.Header.C49_subprotocols`
* `Verif.Header.C49_connections_layout`
* `Verif.Header.C49_upgrades_layout`
* `Verif.Header.C49_extensions_layout`
* `Verif.Header.C49_extensions`
* `Verif.Http.C50_request`
* `Verif.Http.C50_response`
* `Verif.Pool.C51_exclusive`
* `Verif.Pool.C51_available`
* `Verif.Pool.C52_contents`
* `Verif.Pool.C52_connect`
* `Verif.Pool.C53_not_leaked_partial`
* `Verif.Pool.C53_secure_partial`
* `Verif.Pool.C53_clean_up_violated`
* `Verif.Cookie.C54_sent_partial`
* `Verif.Cookie.C54_ip`
* `Verif.Rotation.C55_cyclic`
* `Verif.Rotation.C55_starts`
* `Verif.Dedup.C56_distinct_partial`
* `Verif.Dedup.C56_distinct_violated`
* `Verif.Dedup.C56_line_feed_violated`
* `Verif.Dedup.C56_form`
* `Verif.TaskGroup.C57_wait_all_not_early`
* `Verif.EventLoop.C58_no_sleep_on_ready`
* `Verif.EventLoop.C58_no_sleep_past_deadline`
* `Verif.FlowControl.C59_drain_partial`
* `Verif.Quoting.C62_plain_partial`
* `Verif.Quoting.C62_escape_partial`
* `Verif.Quoting.C62_lost_violated`
* `Verif.Quoting.C62_truncated_violated`
* `Verif.Quoting.C62_raises_violated`
* `Verif.Url.C63_partial`
* `Verif.Url.C63_slash_violated`
* `Verif.Url.C63_empty_violated`
* `Verif.Dns.C64_compressed`
* `Verif.Dns.C64_unique`
* `Verif.Dns.C65_partial`
* `Verif.Dns.C66_servers`
* `Verif.Dns.C67_v4`
* `Verif.Dns.C67_v6`
* `Verif.Dns.C67_injective`
* `Verif.Dns.C69_mask`
* `Verif.Dns.C69_partial`
* `Verif.Dns.C69_parse`
* `Verif.Dns.C70_partial`
* `Verif.Dns.C70_rest_violated`
* `Verif.Dns.C70_violated`
* `Verif.Dns.C70_file_partial`
* `Verif.Dns.C71_violated`
* `Verif.Dns.C72_range`
* `Verif.Dns.C72_value`
* `Verif.Dns.C73_lists`
* `Verif.Dns.C74_partial`
* `Verif.Dns.C74_violated`
* `Verif.Dns.C77_longest_partial`
* `Verif.Dns.C77_first_violated`
* `Verif.Dns.C77_single_violated`
* `Verif.Header.C78_connections_exact`
* `Verif.Header.C78_upgrades_exact`
* `Verif.Header.C79_ends`
* `Verif.Header.C80_partial`
* `Verif.Header.C80_tokens_partial`
* `Verif.Header.C80_violated`
* `Verif.Header.C81_partial`
* `Verif.Header.C81_unquoted_partial`
* `Verif.Header.C81_violated`
* `Verif.Header.C82_quoted_partial`
* `Verif.Header.C82_violated`
* `Verif.Header.C83_violated`
* `Verif.Header.C83_extended_violated`
* `Verif.Header.C83_plain_partial`
* `Verif.Header.C84_partial`
* `Verif.Header.C84_violated`
* `Verif.Http.C85_partial`
* `Verif.Http.C85_violated`
* `Verif.Http.C86_response`
* `Verif.Http.C88_violated`
* `Verif.Http.C89_partial`
* `Verif.Http.C89_violated`
* `Verif.Http.C90_partial`
* `Verif.Http.C90_refused_partial`
* `Verif.Http.C90_coding_violated`
* `Verif.Http.C90_lines_violated`
* `Verif.Http.C90_lengths_violated`
* `Verif.Http.C90_upgrade_violated`
* `Verif.Http.C90_request_violated`
* `Verif.Http.C91_partial`
* `Verif.Http.C91_violated`
* `Verif.Http.C92_partial`
* `Verif.Http.C92_lines_violated`
* `Verif.Http.C92_old_violated`
* `Verif.Pool.C93_handed_out_partial`
* `Verif.Cookie.C94_ended_partial`
* `Verif.Cookie.C95_kept_partial`
* `Verif.Cookie.C96_rfc_partial`
* `Verif.Cookie.C96_error_violated`
* `Verif.Cookie.C96_order_violated`
* `Verif.Cookie.C96_month_violated`
* `Verif.Cookie.C96_digits_violated`
* `Verif.Cookie.C96_fixdate`
* `Verif.Multipart.C101_read_partial`
* `Verif.Redirect.C104_origin_partial`
* `Verif.WebSocketSession.C110_received`
* `Verif.WebSocketSession.C110_exact`
* `Verif.WebSocketSession.C111_bounded`
* `Verif.WebSocketSession.C111_within_partial`
* `Verif.WebSocketSession.C111_violated`
* `Verif.WebSocketSession.C112_answered_partial`
* `Verif.WebSocketSession.C112_closing_violated`
* `Verif.WebSocketSession.C113_violated`
* `Verif.WebSocketSession.C113_client_violated`
* `Verif.WebSocketSession.C113_server_violated`
* `Verif.WebSocketSession.C113_unsolicited_partial`
* `Verif.WebSocketSession.C114_transferred_partial`
* `Verif.WebSocketSession.C114_reason_violated`
* `Verif.WebSocketSession.C114_codes`
* `Verif.WebSocketSession.C114_documented_violated`
* `Verif.WebSocketSession.C115_valid_partial`
* `Verif.WebSocketSession.C116_last`
* `Verif.Handshake.C118_agree`
* `Verif.Handshake.C118_extra_violated`
* `Verif.Handshake.C119_accepted_partial`
* `Verif.Handshake.C119_accepts_partial`
* `Verif.Handshake.C119_violated`
* `Verif.Handshake.C119_second_violated`
* `Verif.Handshake.C120_opened_partial`
* `Verif.Handshake.C120_opens`
* `Verif.Handshake.C120_upgrade_violated`
* `Verif.Handshake.C120_error_violated`
* `Verif.Handshake.C120_error_partial`
* `Verif.Handshake.C121_origin_violated`
* `Verif.Handshake.C122_choice_partial`
* `Verif.Handshake.C122_determined_partial`
* `Verif.Handshake.C122_order_violated`
* `Verif.Handshake.C122_preference_violated`
* `Verif.Handshake.C122_selector_violated`
* `Verif.Handshake.C123_server_violated`
* `Verif.Handshake.C124_status_partial`
* `Verif.Handshake.C124_missing_violated`
* `Verif.Handshake.C124_shutdown_violated`
* `Verif.Handshake.C124_abort_violated`
* `Verif.Handshake.C124_answers_partial`
* `Verif.Handshake.C125_request_partial`
* `Verif.Handshake.C125_host_violated`
* `Verif.Weak.C126_weak_containers_are_dictionaries`
* `Verif.Weak.C126_a_stored_value_is_found`
* `Verif.Weak.C127_length_partial`
* `Verif.Weak.C127_length_of_a_map`
* `Verif.Weak.C128_the_dead_are_gone`
* `Verif.Weak.C128_the_dead_are_gone_from_keys_partial`
* `Verif.Weak.C130_intersection`
* `Verif.Weak.C130_in_place`
* `Verif.Weak.C130_comparison_partial`
* `Verif.Weak.C130_difference_with_itself_violated`
* `Verif.Weak.C130_symmetric_difference_with_itself_violated`
* `Verif.Weak.C130_reachable_sets`
* `Verif.Weak.C132_any_number_violated`
* `Verif.Weak.C133_item_dictionaries_partial`
* `Verif.Weak.C133_length_partial`
* `Verif.Weak.C134_copies_of_keyed_containers`
* `Verif.Weak.C134_length_of_a_copy`
* `Verif.ThreadPool.C136_once_in_order`
* `Verif.ThreadPool.C137_own_outcome`
* `Verif.ThreadPool.C138_no_thread_forgotten`
* `Verif.ThreadPool.C138_given_back`
* `Verif.ThreadPool.C139_free_is_idle_partial`
* `Verif.ThreadPool.C139_free_is_idle_violated`
* `Verif.ThreadPool.C140_given_back_partial`
* `Verif.ThreadPool.C141_every_call_settled_partial`
* `Verif.ThreadPool.C141_every_call_settled_violated`
* `Verif.ThreadPool.C142_cancel_executors_partial`
* `Verif.ThreadPool.C143_idle_threads_go_partial`
* `Verif.Timeouts.C144_never_early`
* `Verif.Timeouts.C145_armed_partial`
* `Verif.Timeouts.C145_in_time_partial`
* `Verif.Timeouts.C146_silent_after`
* `Verif.Timeouts.Fut.C147_no_timer_left`
* `Verif.Timeouts.Fut.C148_first_wins`
* `Verif.CrossThread.C149_outcome_partial`
* `Verif.CrossThread.C150_no_lost_wakeup_partial`
* `Verif.CrossThread.C151_no_callback_left`
* `Verif.CrossThread.C152_no_index_error_partial`
* `Verif.Zip.C157_round_trip`
* `Verif.Zip.C158_streamable`
* `Verif.Zip.C158_within_format_partial`
* `Verif.Zip.C158_many_files_violated`
* `Verif.Zip.C159_dates_partial`
* `Verif.Zip.C159_years_violated`
* `Verif.Zip.C160_front_partial`
* `Verif.Zip.C160_front_violated`
* `Verif.Frames.C161_frames_conserved`
* `Verif.Frames.C161_iterated`
* `Verif.Frames.C163_groups`
* `Verif.Frames.C163_no_repeat`
* `Verif.Frames.C164_filter_partial`
* `Verif.Ssl.C167_only_decrypted_bytes_in_order_partial`
* `Verif.Ssl.C167_everything_decrypted_is_given_partial`
* `Verif.Ssl.C169_lifecycle`
* `Verif.Ssl.C169_loss_is_told_to_who_was_connected`
* `Verif.Editor.C171_paste_edits_the_text`
* `Verif.Editor.C171_left_right`
* `Verif.Editor.C172_plain_keys`
* `Verif.Editor.C172_enter_indents`
* `Verif.Editor.C172_tab_goes_to_the_next_stop`
* `Verif.Editor.C172_up_and_down`
* `Verif.Editor.C173_cursor_in_text`
* `Verif.Editor.C174_tokens_read_back`
* `Verif.Editor.C174_paste_is_inserted`
* `Verif.Editor.C174_typed_like_pasted`
* `Verif.Editor.C174_split_read_violated`
* `Verif.Editor.C174_unknown_key_violated`
* `Verif.Editor.C175_longest_common_prefix`
* `Verif.Editor.C175_not_completed`
* `Verif.Editor.C175_any_order`
* `Verif.Editor.C175_tab_completes`
* `Verif.Editor.C176_back_and_forward`
* `Verif.ReuIO.C178_calm_uses_partial`
* `Verif.ReuIO.C178_reuse`
* `Verif.ReuIO.C179_length_calm_partial`
* `Verif.Pipe.C184_all_told`
* `Verif.Process.C188_own_end_partial`
* `Verif.Process.C190_readers`
* `Verif.Asyncio.Sem.C191_bounded`
* `Verif.Asyncio.Sem.C192_nobody_waits`
* `Verif.Asyncio.Sem.C192_served`
* `Verif.Asyncio.Sem.C193_in_order_partial`
* `Verif.Asyncio.Streams.C195_right`
* `Verif.Asyncio.Streams.C195_end`
* `Verif.Asyncio.Streams.C196_bounded`
* `Verif.Asyncio.Cond.C197_one_holder_partial`
* `Verif.Asyncio.Bar.C199_nobody_stuck`
* `Verif.Asyncio.Bar.C200_who_passes`
* `Verif.Asyncio.Bar.C201_unique_partial`
* `Verif.Asyncio.Gather.C202_results_partial`
* `Verif.Asyncio.Gather.C203_sets_partial`
* `Verif.Asyncio.Gather.C203_returns`
* `Verif.Server.C204_told_partial`
* `Verif.Server.C205_count`
* `Verif.Credentials.C209_round_trip_partial`
* `Verif.Credentials.C209_newline_violated`
* `Verif.Credentials.C210_accepted_partial`
* `Verif.Credentials.C210_complete`
* `Verif.Credentials.C210_token_violated`
* `Verif.Credentials.KeepAlive.C211_round_trip_partial`
* `Verif.Credentials.KeepAlive.C211_fraction_violated`
* `Verif.Credentials.KeepAlive.C212_parameters_partial`
* `Verif.Credentials.KeepAlive.C212_flag_violated`
* `Verif.LoopIO.C217_sent_partial`
* `Verif.LoopIO.C217_progress_partial`
* `Verif.LoopIO.C218_finalized_partial`
* `Verif.Highlight.C225_ends`
* `Verif.Highlight.C225_pieces`
* `Verif.Highlight.C226_places_partial`
* `Verif.Highlight.C227_balanced_partial`
* `Verif.Highlight.C229_line`
* `Verif.Highlight.C229_none`
* `Verif.UrlText.C231_query_and_fragment`
* `Verif.UrlText.C231_end_decides_nothing_else`
* `Verif.UrlText.C232_host_partial`
* `Verif.UrlText.C232_network_path_partial`
* `Verif.UrlText.C232_host_is_path_violated`
* `Verif.UrlText.C232_mail_violated`
* `Verif.UrlText.C233_relative_partial`
* `Verif.UrlText.C233_absolute_partial`
* `Verif.UrlText.C233_user_is_scheme_violated`
* `Verif.UrlText.C233_path_is_host_violated`
* `Verif.UrlText.C233_port_violated`
* `Verif.UrlText.C233_empty_parts_violated`
* `Verif.UrlText.C234_walk_partial`
* `Verif.UrlText.C234_path_violated`
* `Verif.UrlText.C235_read_has_no_dots`
* `Verif.UrlText.C235_div`
* `Verif.UrlText.C235_with_name`
* `Verif.UrlText.C235_with_host`
* `Verif.UrlText.C235_origin_relative`
* `Verif.UrlText.C235_parent_violated`
* `Verif.UrlText.C235_with_name_violated`
* `Verif.Connect.C238_first`
* `Verif.Connect.C239_fingerprint_partial`
* `Verif.Connect.C239_verified_partial`
* `Verif.Connect.C239_name_violated`
* `Verif.Connect.C240_direct`
* `Verif.Connect.C240_proxied_partial`
* `Verif.Connect.C240_closed_violated`
* `Verif.Connect.Address.C241_none_partial`
* `Verif.Response.C242_at_most_once`
* `Verif.Response.C242_given_back`
* `Verif.Response.C242_closed`
* `Verif.Response.C244_reused_violated`
* `Verif.Life.C248_one_runner`
* `Verif.Life.C248_returned_partial`
* `Verif.Life.C248_ends_partial`
* `Verif.Life.C248_stolen_violated`
* `Verif.Life.Pause.C249_alone`
* `Verif.Life.Pause.C249_paused_partial`
* `Verif.Life.Pause.C250_in_partial`
* `Verif.Life.Pause.C250_stopped_violated`
* `Verif.Life.Pause.C250_own_violated`
* `Verif.Life.Pause.C251_runs_partial`
* `Verif.Life.Pause.C251_stop_partial`
* `Verif.Life.Pause.C251_lost_violated`
* `Verif.Life.Pause.C251_late_violated`
* `Verif.Datagram.C255_nothing_after_connection_lost`
* `Verif.Datagram.C256_reader_removed_partial`
* `Verif.Datagram.C256_no_callback_left_partial`
* `Verif.Datagram.C258_abort_tells_its_reason_partial`
* `Verif.Datagram.C259_paused_has_writer`
* `Verif.Datagram.C259_resumed_when_sent`
* `Verif.Datagram.Addressed.C260_reader_holds_datagrams_of_its_address`
* `Verif.Datagram.Addressed.C260_reader_iff_heard`
* `Verif.Datagram.Addressed.C261_known_address_at_once_partial`
* `Verif.WsServer.C263_registered_while_running`
* `Verif.WsServer.C264_failed_handler_leaves_connection_open_violated`
* `Verif.WsServer.C264_closed_when_ended_partial`
* `Verif.WsServer.C265_closed_server_has_open_connection_violated`
* `Verif.WsServer.C265_no_handler_behind_closing_partial`
* `Verif.WsServer.C265_all_closed_partial`
* `Verif.WsServer.C266_handlers_start_while_serving_partial`
* `Verif.WsServer.C266_late_handlers_are_waited_for_partial`
* `Verif.WrapAsync.C268_result_of_future`
* `Verif.WrapAsync.C268_waits_agree`
* `Verif.WrapAsync.C269_told_wait_does_not_time_out_partial`
* `Verif.WrapAsync.C269_untimed_wait_does_not_time_out_partial`
* `Verif.WrapAsync.C270_timer_left_behind_violated`
* `Verif.WrapAsync.C270_no_timer_partial`
* `Verif.WrapAsync.C271_waits_for_ever_violated`
* `Verif.WrapAsync.C271_served_partial`
* `Verif.WrapAsync.C271_timed_wait_ends_partial`
* `Verif.WrapAsync.C271_served_unless_raced_partial`
* `Verif.WrapAsync.C272_no_callback_left`
* `Verif.WrapAsync.C272_answer_stays`
* `Verif.Reading.C273_reader_stays_violated`
* `Verif.Reading.C273_reader_stays_aborted_violated`
* `Verif.Reading.C273_no_reader_partial`
* `Verif.Reading.C274_nothing_after_close_partial`
* `Verif.Reading.C275_paused_partial`
* `Verif.Reading.C276_nothing_after_eof_partial`
* `Verif.Reading.C277_story`
* `Verif.Reading.C278_reason_told`
* `Verif.Equality.C281_equal_requests_other_hash_violated`
* `Verif.Equality.C281_lower_case_requests_partial`
* `Verif.Equality.C282_stale_hash_violated`
* `Verif.Equality.C282_hash_stays_partial`
* `Verif.Equality.C282_lower_case_proxies_partial`
* `Verif.Equality.C283_equal_and_not_equal_violated`
* `Verif.Equality.C284_not_comparable_violated`
* `Verif.Resolve.C285_transports`
* `Verif.Resolve.C285_tls_only`
* `Verif.Resolve.C285_remembered`
* `Verif.Resolve.C286_first_answer_partial`
* `Verif.Resolve.C288_permanent_is_permanent_partial`
* `Verif.Resolve.C288_no_tls_is_permanent_partial`
* `Verif.Resolve.C288_no_tls_called_temporary_violated`
* `Verif.Styling.C295_codes_split_off`
* `Verif.Styling.C296_split`
* `Verif.Styling.C296_only`
* `Verif.Styling.C297_like_its_text_partial`
* `Verif.Styling.C297_single_part_partial`
* `Verif.Styling.C297_text_taken_for_a_code_violated`
* `Verif.Styling.C297_highlighted_partial`
* `Verif.Styling.C298_escaped`
* `Verif.WinSelect.C301_few`
* `Verif.WinSelect.C301_many`
* `Verif.WinSelect.C302_woken_partial`
* `Verif.WinSelect.C302_not_reported_violated`
* `Verif.WinSelect.C302_socket_instead_violated`
* `Verif.Includes.C304_called_once_partial`
* `Verif.Trim.C306_scarletio`
* `Verif.Trim.C306_pypy`
* `Verif.Trim.C307_left_alone_partial`
* `Verif.Trim.C307_ellipsis_lost_violated`
* `Verif.Analyzer.C308_parameters_partial`
* `Verif.Analyzer.C308_keyword_defaults_violated`
* `Verif.Analyzer.C309_range_partial`
* `Verif.Analyzer.C309_method_violated`
* `Verif.Analyzer.C309_others_counted_violated`
* `Verif.Analyzer.C310_counts`
* `Verif.Analyzer.C311_sound`
* `Verif.Analyzer.C311_complete_partial`
* `Verif.Analyzer.C311_variable_parameters_violated`
* `Verif.Naming.C312_nothing_lost`
* `Verif.Naming.C312_words`
* `Verif.Naming.C314_idempotent`
* `Verif.Naming.C316_dedented`
* `Verif.Naming.C316_greatest`
* `Verif.Compiling.C328_trailing_violated`
* `Verif.Modulize.C331_module_partial`
* `Verif.Modulize.C332_again_violated`
* `Verif.Compound.C335_methods_partial`
* `Verif.Rendering.C346_kept`
* `Verif.Contexts.C355_top_violated`
* `Verif.Lists.C356_split`
* `Verif.Lists.C356_insert`
* `Verif.Lists.C356_within`
* `Verif.Lists.C357_missing_partial`
* `Verif.Lists.C357_same_partial`
* `Verif.Lists.C357_up_partial`
* `Verif.Lists.C357_positions_violated`
* `Verif.Lists.C357_down_violated`
* `Verif.Lists.C358_difference`
* `Verif.Lists.C358_same`
* `Verif.Lists.C360_values_partial`
* `Verif.Lists.C360_keys_violated`
* `Verif.Display.C375_enough_partial`
* `Verif.Display.C377_clear`
* `Verif.Display.C378_write`
* `Verif.Display.C379_row`
* `Verif.Display.C380_screen`
* `Verif.Display.C381_column_partial`
* `Verif.Display.C381_column_violated`
* `Verif.Extensions.C382_once`
* `Verif.Extensions.C382_kept`
* `Verif.Extensions.C383_satisfied`
* `Verif.Extensions.C384_called_partial`
* `Verif.Extensions.C384_silent_partial`
* `Verif.Helpers.C385_copied`
* `Verif.Helpers.C385_others`
* `Verif.Helpers.C385_special`
* `Verif.Helpers.C386_kept_partial`
* `Verif.Helpers.C386_overwritten_violated`
* `Verif.Helpers.C386_bound_violated`
* `Verif.Loops.C391_given`
* `Verif.Describe.C393_tame_partial`
* `Verif.Recent.C394_newest`
* `Verif.Recent.C394_history`
* `Verif.Recent.C395_kept_partial`
* `Verif.Recent.C395_big_violated`
* `Verif.Recent.C396_bounded_partial`
* `Verif.Marks.C397_marked`
* `Verif.Marks.C397_same`
* `Verif.Marks.C398_inside_partial`
* `Verif.Callbacks.C400_text`
* `Verif.Callbacks.C401_cut`
* `Verif.Callbacks.C402_short`
* `Verif.Suggest.C403_values`
* `Verif.Suggest.C403_once`
* `Verif.Suggest.C404_names`
* `Verif.Suggest.C406_tame_partial`
* `Verif.Console.C410_history`
* `Verif.Console.C411_ends`
* `Verif.Files.C417_alike`
* `Verif.Finishing.C418_lost_exactly_partial`
* `Verif.Finishing.C418_never_violated`
* `Verif.Finishing.C418_early_violated`
* `Verif.Finishing.C419_told_once`
* `Verif.Finishing.C419_disconnected_partial`
* `Verif.Finishing.C419_connected_violated`
* `Verif.Finishing.C419_raises_violated`
* `Verif.Keys.C420_read_back`
* `Verif.Keys.C420_injective`
* `Verif.Keys.C420_visible`
* `Verif.Keys.C422_names_partial`
* `Verif.Keys.C422_named`
* `Verif.Keys.C422_escapes_violated`
* `Verif.Frozen.C427_independent_partial`
* `Verif.Frozen.C427_same_violated`
* `Verif.Resource.C428_equal`
* `Verif.Resource.C429_shown`
* `Verif.Resource.C430_context`
* `Verif.CopyFunc.C434_independent_partial`
* `Verif.CopyFunc.C434_shared_violated`
