B='Ltio.IOBuffer.'
m('C01','proved',[B+'c01_fifo',B+'c01_suffix_of_written',B+'c01_reader_prefix_stable',B+'findCRLF_correct',B+'findCRLF_none',B+'move_transfers',B+'move_continues',B+'hasALine_iff'])
m('C02','proved',[B+'c02_ensure',B+'c02_no_out_of_bounds',B+'c02_ub_iff'])
W='Ltio.WebSocket.'
m('C03','proved',[W+'c03_build_parse_roundtrip',W+'c03_stream_roundtrip'])
m('C04','proved',[W+'c04_chunking_independent',W+'c04_service_chunking_independent'])
m('C05','partial',[W+'c05_frame_size',W+'c05_send_path_partial',W+'c05_send_path_violated'],"proved for the C frame builder for all lengths; the send path converts the size to int, so payloads >= 2^31-14 are mis-sized (violation proved)")
m('C06','proved',[W+'c06_mask_involution',W+'c06_streamed_unmask',W+'c06_mask_rfc'])
m('C07','partial',[W+'c07_messages_reassembled_partial',W+'c07_interleaved_control_violated',W+'c07_close'],"control frames between fragments corrupt the message: violation proved for all payloads")
m('C39','partial',[W+'c39_hostile_length_ub',W+'c39_only_hostile_length_partial'],"violated by announced lengths >= 2^63; these are proved to be the only way")
R='Ltio.Raw.'
m('C08','partial',[R+'c08_encode',R+'c08_roundtrip_partial',R+'c08_client_delivery',R+'c08_server_delivery',R+'c08_huge_payload_violated',R+'sendRequest_ids_distinct',R+'createResponse_fields',R+'create_fields'],"proved for every message list, padding and chunking with payloads < 2^31; for payloads of 2^32 bytes the send length is truncated to int32 (violation proved)")
m('C09','partial',[R+'c09_delivered_exact',R+'c09_crash_iff',R+'c09_stream_safe_partial',R+'c09_hostile_length_violated'],"exact characterisation of the crashing inputs: announced length within 24 of 2^64; violation proved")
L='Ltio.Line.'
m('C10','partial',[L+'c10_no_loss_no_reorder_partial',L+'c10_prompt_delivery_partial',L+'c10_pipelined_lines_violated',L+'one_line_per_event'],"no loss/duplication/reordering proved for every chunking; prompt delivery only if at most one LF per read; pipelined lines stay undelivered (violation proved)")
S='Ltio.Base64.'
m('C11','proved',[S+'c11_encode_rfc',S+'c11_encode_length',S+'c11_roundtrip',S+'c11_decode_safe_partial',S+'c11_unpadded_violated',S+'c11_decode_any',S+'c11_every_text'],"also: decoding unpadded input writes past the result buffer (violation of memory safety proved)")
U='Ltio.Lru.'
m('C15','proved',[U+'c15_lru',U+'c15_bounded',U+'c15_zero_capacity_ub'],"capacity >= 1; capacity 0 is undefined behaviour (proved)")
m('C16','proved',['Ltio.Bloom.c16_no_false_negatives','Ltio.Bloom.c16_test_and_set','Ltio.Bloom.uninitialised_false_positive'])
K='Ltio.CountMin.'
m('C17','partial',[K+'c17_estimate_exact',K+'c17_no_underestimate_partial',K+'c17_single_key_exact',K+'c17_overflow_violated',K+'distinct_not_overcounted'],"no underestimate proved while counters do not overflow; overflow violation proved")
G='Ltio.Maglev.'
m('C18','partial',[G+'c18_complete_partial',G+'c18_probe_permutation_partial',G+'c18_even_partial',G+'c18_router_total_partial',G+'c18_termination_violated'],"proved for every prime ring size when offset+(ring-1)*skip fits uint32 (always for ring <= 65536); for the default 65537 two valid endpoints make generation loop forever (violation proved)")
O='Ltio.Router.'
m('C19','partial',[O+'c19_total',O+'c19_nearest',O+'c19_add_moves_only_to_new',O+'c19_erase_moves_only_served',O+'c19_order_independent_partial',O+'vnode_label_collision',O+'c19_order_violated'],"order independence holds without virtual-node collisions; systematic label collisions make it false (violation proved for every hash function)")
m('C20','partial',[O+'c20_fair_partial',O+'c20_cycle_partial',O+'c20_power_of_two',O+'c20_wrap_violated',O+'c20_empty_ub'],"fair in every window that does not cross the 2^32 wrap, and always when n divides 2^32; violated at the wrap otherwise")
I='Ltio.BoolIndex.'
m('C12','proved',[I+'c12_conj_roundtrip',I+'c12_conj_injective',I+'c12_size_major',I+'c12_entries',I+'c12_out_of_range'])
m('C13','proved',[I+'c13_skipTo',I+'c13_skip',I+'c13_initialize',I+'c13_field'])
m('C14','partial',[I+'c14_intended',I+'c14_code_partial',I+'c14_code_sound_weak',I+'c14_code_violation',I+'c14_unknown_field'],"the code computes end_conj_id from eid instead of end_eid, so it is exact only for conjunctions with at most one include expression (proved, all documents and queries); with that line as intended it is exact for all (proved); a wrong answer and the null dereference on unknown fields are proved")
Q='Ltio.Client.'
m('C21','partial',[Q+'Async.c21_exactly_once_partial',Q+'Async.c21_completed_partial',Q+'Async.c21_id_reuse_violated',Q+'Async.c21_shared_id_violated',Q+'Async.c21_late_send_violated'],"proved for every interleaving with distinct request objects and ids and no submission after shutdown; without these hypotheses it is false (three violations proved)")
m('C22','partial',[Q+'Queued.c22_fifo_partial',Q+'Queued.c22_all_completed_partial',Q+'Queued.c22_use_after_free_violated',Q+'Queued.c22_use_after_free_always_violated',Q+'Queued.c22_late_send_violated'],"TrySendNext uses a reference to a popped list element (use after free, proved to happen at the first request); with the pointer copied first, FIFO and exactly-once are proved for every interleaving")
X='Ltio.Text.'
m('C32','partial',[X+'c32_split_join',X+'c32_join_split',X+'c32_splitChar',X+'c32_ignore_empty_partial',X+'c32_ignore_empty_violated',X+'c32_long_separator_violated',X+'c32_empty_separator_violated'],"exact for one-character separators; ignore_empty still yields an empty last piece for texts that are empty or end with the separator; longer separators are not skipped entirely; the empty separator throws (violations proved for all texts)")
m('C41','partial',[X+'c41_trim',X+'isTrim_unique',X+'c41_startsWith',X+'c41_endsWith',X+'c41_contains_partial',X+'c41_contains_empty_violated',X+'c41_replace',X+'c41_replaceLast',X+'c41_ignoreCase_partial',X+'c41_ignoreCase_prefix_violated',X+'c41_ignoreCase_overread_violated'],"IgnoreCaseEquals is correct only for equal lengths: it accepts every prefix and over-reads otherwise (proved)")
m('C33','proved',['Ltio.Itoa.c33_itoa','Ltio.Itoa.c33_bad_base','Ltio.Itoa.c33_value'])
m('C34','proved',['Ltio.ByteOrder.c34_network_is_big_endian','Ltio.ByteOrder.c34_little_endian','Ltio.ByteOrder.c34_roundtrip'])
H='Ltio.Http.'
m('C30','partial',[H+'c30_lookup_partial',H+'c30_case_insensitive_partial',H+'c30_nul_violated'],"for names without NUL characters (with NUL lower-casing stops: violation proved) and, for lookup, non-empty names")
m('C31','partial',[H+'c31_status_line_partial',H+'c31_missing_code_violated',H+'c31_minor_violated'],"codes in 100..511 without a table entry give an empty line (violation proved for all of them)")
m('C42','partial',[H+'c42_assembled_partial',H+'c42_trailer_leak_violated'],"for messages without trailers; a trailer value leaks into the first header of the next message (violation proved for every trailer); llhttp itself is not modelled")
m('C43','partial',[H+'c43_response_partial',H+'c43_request_partial',H+'c43_stream_partial',H+'c43_compressed_length_violated',H+'c43_header_injection_violated'],"for CR-free headers and user lengths matching the body; compression after a user-set Content-Length and CR LF in values break it (proved)")
N='Ltio.Net.'
m('C24','partial',[N+t for t in 'c24_safe c24_stream c24_prefix c24_input c24_write_interest c24_write_until_eagain c24_read_until_eagain c24_read_failure c24_return_value c24_failure_is_real_partial c24_drains c24_violation_empty_send c24_violation_interest_without_data c24_violation_length_truncated c24_witness Ssl.c24_ssl_safe Ssl.c24_ssl_stream Ssl.c24_ssl_prefix Ssl.c24_ssl_input Ssl.c24_ssl_write_interest Ssl.c24_violation_ssl_moved_buffer Ssl.c24_ssl_witness'.split()],"stream integrity proved for every pattern of partial results for payloads < 2^31 (TCP) and for TLS; violations proved: empty send reports failure, 32-bit length truncation, retry of SSL_write after the output buffer moved")
F='Ltio.Loop.FdReg.'
m('C25','proved',[F+t for t in 'c25_add c25_remove c25_get c25_registry_agrees c25_install c25_uninstall c25_update'.split()])
m('C44','partial',[F+'c44_invokes_installed',F+'c44_right_handler_partial',F+'c44_violation_fd_reuse'],"proved when no descriptor is re-registered within a round; with descriptor reuse the new handler gets the old event (violation proved)")
m('C40','partial',[N+t for t in 'c40_event_partial c40_cause close_spec tryFlush_empty c40_keepalive_exactly_once_partial c40_witness c40_violation_close_response c40_violation_parse_error_eof c40_violation_scheduled_drain'.split()],"proved for keep-alive connections with well-formed data; three causes of double notification proved")
m('C45','partial',[N+t for t in 'c45_stream c45_will_send_partial c45_delivered_partial c45_violation_truncated'.split()],"no loss or reordering before close for every history; pending bytes always have a flush or write event on keep-alive connections; non-keep-alive responses that do not fit the socket buffer are truncated (violation proved)")
G1='Ltio.Loop.Msg.'
m('C23','partial',[G1+t for t in 'c23_exactly_once_in_order c23_no_lost_wakeup c23_poll_reports c23_notify_never_fails c23_round_runs_all c23_nested_run c23_loop_never_stuck c23_shutdown_loop_tasks c23_shutdown_remote_partial c23_violation_lost_at_shutdown c23_violation_post_while_stopping c23_loop_posts c23_witness c23_witness_nested'.split()],"proved for all interleavings of any number of posting threads while the loop runs; at shutdown a task can be lost, and posting from a task aborts (violations proved)")
G2='Ltio.Loop.StartStop.'
m('C46','partial',[G2+t for t in 'c46_start_returns_live c46_stop_returns_stopped c46_start_wakes_partial c46_violation_start_hangs c46_violation_stop_hangs c46_violation_stop_returns_early'.split()],"the predicate is changed and notified without the mutex: Start and SyncStop can hang, SyncStop can return early (violations proved)")
A1='Ltio.Server.'
m('C36','partial',[A1+t for t in 'c36_count c36_limit_single c36_limit_partial c36_callback_not_early c36_callback_eventually c36_shutdown_progress c36_callback_once_partial c36_violation_callback_twice c36_violation_limit c36_witness'.split()],"count exact always; limit exact for one io service, exceeded by up to n-1 with n (violation proved for every limit); the stop callback runs at least once and only after everything is gone, but twice if a connection closes while stopping (violation proved)")
R='Ltio.Redis.'
m('C35','partial',[R+t for t in 'decode_append decode_enc strtol_saturates strtol_out_of_range c35_pairing_partial c35_leftover_partial c35_startup c35_violation_reentrant c35_violation_unsolicited c35_violation_text c35_violation_number c35_violation_stale_array'.split()],"pairing proved for every sequence of exchanges and every fragmentation when replies are well-formed and no request is sent from within delivery; violations proved: request sent from the response callback, unsolicited data, non-ASCII text lines, long numbers, stale array state after an error")
m('C47','partial',[R+'Encode.'+t for t in 'c47_request_encoding c47_request_roundtrip c47_injective c47_violation_heartbeat'.split()],"encoding exact for every command sequence whose sizes fit; IsHeartbeat is false for every heartbeat request (violation proved)")
m('C48','partial',[R+'Storage.'+t for t in 'c48_array_storage c48_reserve_chunks c48_violation_no_reserve c48_dump_partial c48_violation_dump'.split()],"storage exact when reserved (as the decoder does); DebugDump empties every array it prints (violation proved)")
U='Ltio.Url.'
m('C37','partial',[U+t for t in 'c37_parse_remote c37_parse_remote_fresh c37_parse_uri c37_resolve_partial c37_resolve_fail c37_violation_empty_scheme c37_violation_resolved_nul c37_violation_resolve_stale c37_violation_stale c37_violation_password_colon c37_violation_query_at c37_violation_query_scheme c37_violation_empty_port c37_violation_port_overflow c37_violation_query_eq'.split()],"exact for every choice of components free of the delimiters that end them; proved violations: '://host' gives an empty scheme, reused records keep old components, '@' or '://' in a query, ':' in a password, empty or too large port, resolved IP padded with NULs, failed resolution reported as success")
P='Ltio.Ip.'
m('C49','partial',[P+t for t in 'c49_matches_prefix c49_common_prefix c49_mask_length c49_order c49_endpoint_order c49_routable_v4 c49_routable_v6 c49_zero w_c49_routable_v6 c49_loopback c49_link_local c49_to_mapped c49_hostname c49_to_string_partial c49_sockaddr c49_violation_from_mapped c49_violation_routable_mapped c49_violation_cidr c49_cidr_range w_c49_cidr c49_violation_bracketed c49_violation_to_string c49_violation_to_string_invalid'.split()],"violations proved: mapping back to IPv4 never works (range end of another array), so IsPubliclyRoutable of mapped addresses neither; every CIDR literal and every bracketed IPv6 literal is rejected; ToString is NUL padded")
L9='Ltio.Links.'
m('C29','partial',[L9+t for t in 'c29_sequence c29_frame c29_size_partial c29_violation_pop_size c29_double_push c29_double_remove c29_destroy_empty c29_violation_destructor c29_violation_steal'.split()],"sequence behaviour for every allowed operation history; violations proved: popping does not decrease the reported size, destroying a non-empty DoubleLinkedList dereferences null, pushing a node of another list corrupts that list")

CO='Ltio.Coro.'
m('C28','partial',[CO+t for t in 'c28_once c28_stale c28_not_lost c28_progress c28_lists c28_no_abort_partial c28_violation_other_task c28_violation_abort c28_witness c28_reuse_partial c28_spawn_reuse c28_pool c28_freed'.split()],"at most one wake-up per suspension, stale closures inert, no lost wake-up: for every interleaving; violations proved: a closure of a task that ended without waiting wakes the next task of the same coroutine, or aborts the process")
m('C27','partial',[CO+'WG.'+t for t in 'c27_not_left c27_once c27_timeout c27_success_partial c27_violation_early c27_violation_timeout_done c27_witness'.split()],"never left sleeping, resumed once, for every interleaving; success means done only if the count does not return to zero before the last Add (violation proved for every number of remaining tasks); timeout may be reported though all was done in time (violation)")
m('C50','partial',[CO+'Mutex.'+t for t in 'c50_exclusion c50_no_lost c50_fifo c50_handover c50_violation_stray c50_witness'.split()],"full for executions in which a waiting coroutine is woken by the mutex only; a closure made earlier in the same running period breaks exclusion (violation proved)")
m('C51','partial',[CO+'IoEv.'+t for t in 'c51_first_wins c51_ends c51_violation_crash c51_violation_stray c51_witness'.split()],"first outcome always wins; violations proved: an event while suspended elsewhere calls an empty closure, a stray wake-up fails a check")
PL='Ltio.Pool.'
m('C38','partial',[PL+t for t in 'c38_backoff_bound c38_backoff_linear c38_single c38_violation_too_many c38_violation_unbounded c38_alive_partial c38_violation_dead c38_violation_dangling c38_no_dangling_partial c38_select_ready c38_select_complete_partial c38_select_spread c38_violation_select_far c38_violation_select_wrap c38_violation_select_race c38_select_witness'.split()],"back-off, the single-connection client, ready-only selection and spreading in full; completeness of selection for up to 11 channels; violations proved: unbounded connections with 2 or more configured, a client that never dials again, a dial calling a destroyed client back, selection missing a ready channel")
m('C52','partial',['Ltio.Connector.'+t for t in 'c52_once c52_sockets c52_report_partial c52_violation_established c52_violation_inverted c52_violation_leak c52_violation_count c52_witness c52_count_partial c52_told'.split()],"one report per dial in full; violations proved: late successes are reported as failures, refused dials leak the socket, the count in progress is stale")
W='Ltio.Wheel.'
m('C26','partial',[W+t for t in 'c26_refines c26_due c26_cancelled c26_not_early c26_sleep c26_pass c26_oneshot c26_violation_repeating c26_violation_at_once c26_wait c26_witness'.split()],"full for one-shot timers and for the timing wheel itself, for every history and clock; a repeating timer's first period is counted from the loop's last clock update instead of the time of registration (violation proved)")
m('C53','partial',['Ltio.Repeating.'+t for t in 'c53_quiet c53_safe c53_no_uaf_partial c53_violation_hang c53_hang_forever c53_violation_destroy c53_violation_self_stop c53_violation_unstarted c53_witness'.split()],"finality of Stop in full; violations proved: lost wake-up, notification of a destroyed condition variable, self-stop leaves a dangling event, Stop when not running crashes or deadlocks")
IV='Ltio.Inv.'
m('C54','partial',[IV+t for t in 'c54_exact c54_answers c54_small c54_violation_multiple_of_64 c54_violation_no_wildcard c54_collision_confuses c54_violation_collision w_query'.split()],"every answer is exact for every input without digest collision, and with 1 to 63 documents and a wildcard document per field every query is answered; violations proved: a number of documents that is a multiple of 64 or a field on which every document includes values kills the process at any query; sets with the same 64-bit digest are confused, and exist for every digest")
m('C55','partial',[IV+t for t in 'c55_violation_never_found c55_found_with_trailing c55_violation_start_ignored c55_violation_single_ignored c55_violation_overlap c55_not_a_number isWs_iff'.split()],"violated: plain numbers never find anything; a-b indexes 0 to b; single numbers index nothing; what the code does instead is proved for every decimal text")

# Unconditional properties stated on their own.
m('C56','proved',[P+t for t in 'c49_matches_prefix c49_common_prefix c49_mask_length'.split()],"the unconditional part of C49")
m('C57','proved',[P+t for t in 'c49_order c49_endpoint_order'.split()],"the unconditional part of C49")
m('C58','proved',[P+'c49_sockaddr'],"the unconditional part of C49")
m('C59','proved',[W+t for t in 'c26_refines c26_due c26_cancelled c26_not_early c26_sleep'.split()],"the wheel itself; the loop's use of it is C26")
m('C60','proved',[N+t for t in 'c24_safe c24_stream c24_prefix c24_input c24_drains c24_witness'.split()],"the unconditional part of C24")
m('C61','proved',[A1+t for t in 'c36_count c36_limit_single c36_witness'.split()],"the unconditional part of C36")
m('C62','proved',[A1+t for t in 'c36_callback_not_early c36_callback_eventually c36_shutdown_progress'.split()],"that it may come twice is C36")
m('C63','proved',[G1+t for t in 'c23_exactly_once_in_order c23_no_lost_wakeup c23_poll_reports c23_round_runs_all c23_nested_run c23_loop_never_stuck'.split()],"shutdown is C23")
m('C64','proved',[CO+t for t in 'c28_once c28_stale c28_not_lost c28_progress c28_lists c28_witness'.split()],"closures that outlive their task are C28")
m('C65','proved',[O+t for t in 'c19_total c19_nearest c19_add_moves_only_to_new c19_erase_moves_only_served'.split()],"order independence is C19")
m('C66','proved',[PL+t for t in 'c38_select_ready c38_select_spread c38_backoff_bound c38_backoff_linear c38_single'.split()],"the unconditional part of C38; spreading until the 32-bit counter wraps")
m('C67','proved',['Ltio.Connector.'+t for t in 'c52_once c52_sockets c52_witness'.split()],"what is reported is C52")
m('C68','proved',['Ltio.Repeating.'+t for t in 'c53_quiet c53_safe c53_witness'.split()],"termination of Stop is C53")
m('C69','proved',[R+t for t in 'decode_append decode_enc'.split()],"replies well-formed in the sense of the protocol's printable subset (C35 has the exceptions)")
m('C70','proved',[R+'Encode.'+t for t in 'c47_request_encoding c47_request_roundtrip c47_injective'.split()],"IsHeartbeat is C47")
m('C71','proved',['Ltio.WebSocket.c05_frame_size'],"the C++ send path is C05")
m('C72','proved',[X+t for t in 'c32_split_join c32_join_split'.split()],"longer separators and ignore_empty are C32")
m('C73','proved',[X+t for t in 'c41_trim isTrim_unique c41_startsWith c41_endsWith c41_replace c41_replaceLast'.split()],"the other helpers are C41")
m('C74','proved',[CO+'WG.'+t for t in 'c27_not_left c27_once c27_timeout c27_witness'.split()],"when success is reported is C27")
m('C75','proved',[L9+t for t in 'c29_sequence c29_frame'.split()],"DoubleLinkedList and sizes are C29")
m('C76','proved',[K+t for t in 'c17_estimate_exact c17_single_key_exact'.split()],"under-estimation by overflow is C17")
m('C77','proved',['Ltio.Raw.c09_delivered_exact','Ltio.Raw.c09_crash_iff'],"the crashing inputs are C09")
m('C78','proved',[N+'c45_stream'],"delivery after close is C45")

SY='Ltio.Sync.'
m('C79','proved',[SY+'Spin.'+t for t in 'c79_exclusion c79_no_lost_update c79_trylock c79_progress c79_live w_c79'.split()],"sequentially consistent interleavings; the code's acquire/release orders are not modelled")
m('C80','proved',[SY+'Lazy.'+t for t in 'c80_once c80_complete c80_progress c80_hasInstance_after c80_reentry_hangs c80_hasInstance_early w_c80'.split()],"sequentially consistent interleavings; limits proved: a constructor that uses its own instance hangs, hasInstance is true before the constructor runs")
m('C81','proved',[SY+'Tagged.'+t for t in 'c81_linearizable c81_no_double c81_no_loss c81_fail_means_progress w_c81'.split()],"sequentially consistent interleavings, fewer than 2^64 changes of the head")
m('C82','proved',[SY+'RefList.'+t for t in 'c82_no_double c82_no_loss c82_accounted c82_no_abort c82_added_not_found w_c82'.split()],"sequentially consistent interleavings; limit proved: add may return before the node can be found")
m('C83','proved',[SY+'RefPtr.'+t for t in 'c83_alive c83_alive_assign c83_once c83_deleted_iff c83_count w_c83'.split()],"sequentially consistent interleavings")
m('C84','partial',['Ltio.Guards.'+t for t in 'c84_exactly_once c84_safe c84_move_terminates c84_move_uncancels c84_copy_twice w_c84'.split()],"full for guards not moved or copied; violations proved: destroying a moved-from Defer ends the process, moving revives a cancelled guard, a copied ScopedGuard runs twice")
MT='Ltio.Metrics.'
m('C85','partial',[MT+t for t in 'c85_gauge c85_minmax c85_gauge_merge c85_hist c85_percentile u32_spec c85_default c85_merge_sizes c85_min_is_zero c85_range_out_of_bounds c85_merge_loses c85_percentiles_wrong c85_percentiles_zero ok_default w_c85'.split()],"count, sum, latest, buckets and single percentile in full for ranges that begin at zero; violations proved: minimum and maximum include zero, other ranges are accessed out of bounds, histograms are not merged, the list of percentiles is wrong")
m('C86','partial',[MT+'Acc.'+t for t in 'c86_conservation c86_delivered c86_round c86_stop_loses w_c86'.split()],"full while the collector runs; violation proved: Stop loses what was collected since the last round")
m('C87','partial',[MT+'Stash.'+t for t in 'c87_conservation c87_at_most_once c87_lost c87_interval c87_live c87_delivered c87_round_robin c87_interval_ignored c87_turbo_loses c87_stop_loses w_c87'.split()],"conservation for every schedule and delivery without turbo mode; violations proved: StopSync reports nothing of what is inside, turbo mode loses histograms, the interval set is not used")
m('C88','proved',[MT+t for t in 'c85_gauge c85_gauge_merge c85_hist c85_percentile u32_spec c85_default ok_default w_c85'.split()],"the unconditional part of C85")
m('C89','proved',[MT+'Acc.'+t for t in 'c86_conservation c86_delivered c86_round w_c86'.split()],"the unconditional part of C86")
m('C90','proved',[MT+'Stash.'+t for t in 'c87_conservation c87_at_most_once c87_lost c87_interval c87_live c87_delivered w_c87'.split()],"the unconditional part of C87; delivery without turbo mode, queues of at most 10000 items")

SO='Ltio.Source.'
m('C91','partial',[SO+t for t in 'c91_lines c91_table c91_int c91_int_forms c91_values c91_header_loaded c91_default_unused c91_missing_succeeds c91_long_delimiter c91_broken_hangs w_c91'.split()],"lines and table in full for one-character delimiters and readable or missing files; violations proved: the header line is loaded, defaults are used for JSON only, missing files count as success, longer delimiters cut wrongly, an unreadable path hangs the loader")
m('C92','proved',['Ltio.Rand.'+t for t in 'c92_in_range c92_uniform c92_accepts_half c92_ends c92_randInt c92_unit c92_unit_uniform c92_bytes w_c92'.split()],"the source's words are arbitrary; the double is modelled by its numerator over 2^53 (ldexp is exact)")
m('C93','proved',[SO+t for t in 'c91_lines c91_table c91_int c91_int_forms c91_values w_c91'.split()],"the unconditional part of C91")

TM='Ltio.Time.'
C94='c94_add_sub c94_infinite c94_mul_div c94_div_zero c94_neg_magnitude c94_from c94_in c94_in_infinite c94_floor_ceil c94_round c94_int_div c94_time c94_timespec'
m('C94','partial',[TM+t for t in (C94+' c94_nanoseconds_finite c94_negative_timespec c94_time_wraps c94_round_overflows c94_infinity_lost c94_opposite_infinite w_c94').split()],"floating-point conversions are not modelled; violations proved: infinity plus or times a number is finite, differences of times wrap around, rounding near the limits overflows, negative deltas give invalid timespecs")
m('C95','partial',[TM+'Cal.'+t for t in 'c95_normalize c95_implode c95_unique year_iff valid_instant c95_year_zero w_c95'.split()],"full from year 1 on; violation proved: year 0 is taken for a common year")
C96='c96_rfc1123 c96_zone c96_named_zone c96_rfc850 c96_asctime c96_iso8601 c96_fromUTCString'
m('C96','partial',[TM+'Parse.'+t for t in (C96+' c96_minus_one_minute c96_small_years c96_impossible w_c96').split()],"formats in full, default-GMT mode; violations proved: the zone -0001 is GMT, ISO 8601 years below 100 are misread, impossible dates are accepted")
m('C97','partial',[TM+'Conv.'+t for t in 'c97_explode c97_from_exploded c97_round_trip c97_midnight c97_time_t c97_timeval c97_ms_timeval c97_early_midnight c97_time_t_wrong c97_timeval_wrong w_c97'.split()],"gmtime_r and timegm by contract, local time and doubles not modelled; violations proved: a timeval of whole seconds ends the process, early times come back wrong or end the process, timevals before 1970 have negative microseconds")
m('C98','proved',[TM+t for t in (C94+' w_c94').split()],"the unconditional part of C94")
m('C99','proved',[TM+'Cal.'+t for t in 'c95_normalize c95_implode c95_unique year_iff valid_instant w_c95'.split()],"the unconditional part of C95")
m('C100','proved',[TM+'Parse.'+t for t in (C96+' w_c96').split()],"the unconditional part of C96")
m('C101','proved',[TM+'Conv.'+t for t in 'c97_explode c97_from_exploded c97_round_trip c97_midnight c97_ms_timeval w_c97'.split()],"the unconditional part of C97; gmtime_r and timegm by contract")
m('C102','partial',['Ltio.Gzip.'+t for t in 'c102_gunzip_prefix c103_deflate_round_trip c103_compress c102_gunzip_padded c102_large_input w_c102'.split()],"zlib by contract; violations proved: decompress_gzip does not cut its output, inputs of 4 GiB or more are compressed in part and reported as success")
m('C103','proved',['Ltio.Gzip.'+t for t in 'c103_compress c103_inflate c103_deflate_round_trip c103_large_output w_c102'.split()],"the unconditional part of C102; zlib by contract")
H2='Ltio.H2.'
m('C104','partial',[H2+t for t in 'c104_independent c104_no_body c104_body c104_closed c104_twice c104_trailers c104_cookie_lost w_c104'.split()],"nghttp2 by its callbacks; violations proved: a request with a body is delivered twice, first without body; bodies followed by trailers are never delivered; of several fields of a name only the first is kept")
m('C105','proved',[H2+t for t in 'c105_lookup c105_none w_c105'.split()],"")
m('C106','partial',[H2+t for t in 'c106_fits c106_fields c106_push c106_large c106_prefix_lost c106_push_silent'.split()],"nghttp2 by contract; violations proved: bodies over 16 KiB are not sent and close the connection, fields whose names begin connection or content-length are lost, the push callback may never be called")
m('C107','proved',[H2+t for t in 'c104_independent c104_no_body c104_body c104_closed c106_fits c106_fields c106_push w_c104'.split()],"the unconditional part of C104 and C106")
HS='Ltio.Hash.'
m('C108','proved',[HS+'Sha1.'+t for t in 'c108_sha1 c108_in_bounds c108_length c108_reuse c108_string'.split()],"little-endian hosts; the file digest and the report functions are not modelled")
m('C109','proved',[HS+'Sha1.'+t for t in 'c109_accept_key c109_zero_byte'.split()],"")
m('C110','proved',[HS+'Md5.'+t for t in 'c110_md5 c110_in_bounds c110_large_violated'.split()],"appends of 2^28 bytes or more overflow an int and are undefined (proved as a finding)")
m('C111','proved',[HS+'Crc.'+t for t in 'c111_blocks c111_crc32_le c111_crc64 c111_crc8 c111_crc16_ansi c111_crc16_ccitt c111_crc32'.split()],"crc8 and crc16: start values of that width")
m('C112','proved',[HS+'Crc.'+t for t in 'c112_rev_crc c112_crc_rev c112_burst c112_burst_narrow c112_start'.split()],"")
m('C113','proved',[HS+'Murmur.'+t for t in 'c113_x86_32 c113_x64_128 c113_only_key'.split()],"little-endian hosts; MurmurHash3_x86_128 (no caller) is not modelled")
m('C114','proved',[HS+'Murmur.'+t for t in 'c114_word32 c114_block128 c114_short c114_seed c114_families'.split()],"Bloom filters with fewer than 25 million hash functions, sketches with fewer than 2^31 rows")
WS='Ltio.WebSocket.Server.'
WC='Ltio.WebSocket.WsClient.'
m('C115','partial',[WS+t for t in 'c115_answers c115_accepted c115_unregistered c115_accept_value c115_missing_key_violated c115_case_violated c115_llhttp_violated c115_two_answers_violated'.split()],"violations proved: with llhttp's documented pause after upgrade requests no conforming client is ever accepted (101 then 400, closed); a missing key is accepted; Upgrade: WebSocket is refused")
m('C116','partial',[WS+t for t in 'c116_order c116_closed_final c116_proper_partial c116_close_and_eof_violated c116_close_and_stop_violated c116_after_close_violated c116_never_opened_violated'.split()],"proper calls proved for clean histories; violations proved: OnClose twice, messages after OnClose, OnClose without OnOpen")
m('C117','partial',[WC+t for t in 'c117_ready_iff c117_order c117_key c117_accept_unchecked_violated c117_llhttp_violated c118_no_close_violated'.split()],"violations proved: the accept value is never compared with the key; with llhttp's documented pause no client ever opens; no close callback after a failed write")
m('C118','proved',[WC+t for t in 'c118_accounted c118_send c118_failed_final'.split()],"one connection per client; everything in the loop thread")
m('C119','proved',[WS+t for t in 'c115_answers c115_accepted c115_unregistered c115_accept_value c116_order c116_closed_final'.split()]+[WC+t for t in 'c117_ready_iff c117_order c117_key'.split()],"the unconditional part of C115-C117; llhttp is any machine")
UP='Ltio.Http.UrlParser.'
RU='Ltio.Http.RequestUrl.'
m('C120','proved',[UP+t for t in 'c120_iff c120_origin c120_origin_iff c120_absolute c120_within c120_connect c120_long_violated'.split()],"the CONNECT form for the bounds and that nothing but host and port is accepted; from 64 KiB on lengths are reported modulo 65536 (proved as a finding)")
m('C121','partial',[RU+t for t in 'c121_pieces c121_target c121_set c121_reset c121_empty c121_replace_violated c121_pieces_violated'.split()],"violations proved: replacing a URL by one without a path or one that does not parse, or appending a piece that makes it not parse, leaves Path() pointing into freed characters")
m('C122','proved',[RU+t for t in 'c121_pieces c121_target c121_set c121_reset c121_empty'.split()],"the unconditional part of C121")
AC='Ltio.Net.Acceptor.'
UD='Ltio.Net.Udp.'
m('C123','proved',[AC+t for t in 'c123_tidy c123_once c123_stopped c123_error c123_start c123_reopened'.split()],"system calls are given by their outcomes; the kernel gives descriptors that are not in use")
m('C124','partial',[AC+t for t in 'c123_error c124_deaf_violated c124_stop_violated'.split()],"violations proved: an error that cannot be repaired at once leaves the acceptor deaf for ever and nobody is told; a stopped acceptor's kernel socket keeps completing connections")
m('C125','partial',[AC+t for t in 'c125_peer_v4 c125_endpoint_v4 c125_self_v4 c125_self_v6 c125_peer_v6_violated c125_endpoint_v6_violated'.split()],"proved for IPv4; violations proved for IPv6: the peer of every accepted connection is empty, half of an end point's address is read from behind the structure")
m('C126','proved',[UD+t for t in 'c126_datagrams c126_cut_violated'.split()],"larger datagrams are cut without a notice (proved as a finding); the service only logs what it handles, it has no receiver interface")
m('C127','partial',[UD+t for t in 'c127_start c127_stays c127_abort_violated c127_double_close_violated c127_dangling_violated'.split()],"violations proved: after StopService the next event installed for the reused descriptor aborts the process; a second stop or the end closes a descriptor of others; the event of an ended service stays registered")
SV='Ltio.Text.StringView.'
m('C128','partial',[SV+t for t in 'c128_find c128_find_empty c128_rfind c128_first_of c128_first_not_of c128_last_of c128_last_not_of c128_find_end_violated'.split()],"proved for all searches but one; violation proved: an empty text is not found at the end of the view")
m('C129','proved',[SV+t for t in 'c129_compare c129_substr c129_affix c129_remove'.split()],"views below the largest size")
m('C130','partial',[SV+t for t in 'c130_insert_partial c130_default_violated'.split()],"violation proved: on a stream without an alignment set the padding is on the wrong side")
NU='Ltio.Num.'
m('C131','proved',[NU+t for t in 'c131_in_range c131_checked_cast c131_saturated_cast c131_compare c131_contained'.split()],"integer types; floating point and the ARM assembler paths are not modelled")
m('C132','partial',[NU+t for t in 'c132_op c132_expr c132_in_type c132_read c132_div_sound c132_mod_violated c132_div_violated c132_neg_violated c132_not_violated'.split()],"gcc's built-in overflow checks by contract; violations proved: a remainder of a negative number and a uint64 is wrong and valid, such a quotient is invalid though representable, negated unsigned numbers wrap and are valid, complements of signed numbers are invalid")
m('C133','partial',[NU+t for t in 'c133_add c133_sub c133_mul c133_div c133_mod c133_lsh c133_rsh c133_max_min c133_neg_abs c133_add_violated c133_div_violated c133_mod_violated'.split()],"violations proved: ClampAdd(-5, 3u) is the largest uint32, ClampedNumeric<int64_t>(-100) /= uint64_t(10) is the lowest int64, ClampMod(-5, 3u) is 4294967291")
m('C134','proved',[NU+t for t in 'c132_op c132_expr c132_in_type c132_read c132_div_sound'.split()],"gcc's built-in overflow checks by contract")
m('C135','proved',[NU+t for t in 'c133_add c133_sub c133_mul c133_div c133_mod c133_lsh c133_rsh c133_max_min c133_neg_abs'.split()],"gcc's built-in overflow checks by contract")
US='Ltio.Base64.UrlSafe.'
m('C136','proved',[US+t for t in 'c136_rfc c136_size c136_roundtrip'.split()],"sizes below 2^29, where the size macro does not overflow int")
m('C137','partial',[US+t for t in 'c138_exact c138_refused c137_high_bytes_violated c137_padding_violated'.split()],"violations proved: the table has 14 of 16 rows, so bytes 0xE0-0xFF are taken as A; = is accepted anywhere as a digit 64")
m('C138','proved',[US+t for t in 'c138_exact c138_refused c138_padded c138_bound'.split()],"the unconditional part of C137")
EP='Ltio.Loop.Epoll.'
m('C139','proved',[EP+t for t in 'c139_interest c139_only_installed c139_answers'.split()],"epoll_ctl by contract; descriptors are not duplicated")
m('C140','partial',[EP+t for t in 'c141_reported c141_enabled c140_install_violated c140_edge_violated c140_closed_violated c140_error_violated c140_disabled_violated c140_wait_violated'.split()],"violations proved: errors are never told as errors, neither to handlers nor to waiting coroutines; shutdowns and hang-ups are told although nothing is enabled; a refused installation reports success; trigger mode changes of installed events and changes after the descriptor was closed are lost")
m('C141','proved',[EP+t for t in 'c141_reported c141_enabled c141_wait'.split()],"epoll_wait by contract")

RP='Ltio.Server.Reply.'
m('C142','proved',[RP+t for t in 'c142_first_answer c142_at_most_once c142_all_sent c142_order_on_loop c142_order_off_loop c142_closes c142_responded c142_call_enabled c142_send_closes'.split()],"posted tasks run in order while the loop runs (C63)")
m('C143','partial',[RP+t for t in 'c142_first_answer c142_at_most_once c143_http_twice_violated c143_race_violated c143_order_violated c143_close_twice_violated c143_file_violated'.split()],"violations proved: HttpRequestCtx::Response twice sends two responses; two threads can both pass the test of did_reply_; responses to pipelined requests are reordered; a reply is written after the connection was closed, which is then closed again; File aborts the process")
RG='Ltio.Server.Registry.'
m('C144','proved',[RG+t for t in 'c144_last_wins c144_builtin c144_unknown c144_independent c144_sides_agree c144_tls c144_builtin_serves'.split()],"")
m('C145','partial',[RG+t for t in 'c145_secure_otherwise c144_builtin_serves c145_rawssl_plain_violated c145_empty_creator_violated c145_null_codec_violated'.split()],"violations proved: rawSSL is served and dialled in the clear; a server for a scheme with an empty creator starts and drops every connection; a creator returning null crashes the process")
AS='Ltio.Server.Assign.'
m('C146','proved',[AS+t for t in 'c146_even c146_valid c146_consecutive'.split()],"build without LTIO_ENABLE_REUSER_PORT")
m('C147','partial',[AS+t for t in 'c146_even c146_valid c147_shared_counter_violated c147_shared_counter_load c147_wrap_violated'.split()],"violations proved: the counter is shared by all servers of one configuration, so two servers accepting in turn use one loop each; at the 32-bit wrap the loops drift unless their number divides 2^32")
m('C148','proved',[AS+t for t in 'c148_callbacks c148_completes c148_alternate'.split()],"one report per service (C62 for the inside of a service)")
m('C149','partial',[AS+t for t in 'c148_callbacks c149_restart_violated c149_restart_twice_violated'.split()],"violations proved: started again while stopping, the first stop's callback is never called, or the second's is called twice")
DL='Ltio.Loop.Delay.'
m('C150','proved',[DL+t for t in 'c150_exactly_once c150_not_early c150_when_due c150_helper c150_reply_after'.split()],"while no abort (C151); timers fire exactly when due (C26, C59)")
m('C151','partial',[DL+t for t in 'c150_exactly_once c150_reply_after c151_reply_loop_violated c151_reply_gone_violated c151_stopped_violated'.split()],"violations proved: the reply runs on the target loop, not the caller's; a reply to a loop that ended aborts the process; a delayed task of a loop that ends first is dropped")
CS='Ltio.Coro.Server.'
m('C152','proved',[CS+t for t in 'c152_stream c152_safe c152_progress c152_ended c152_accepted c152_accepts c152_peer_v4'.split()],"one loop; codec registered")
m('C153','partial',[CS+t for t in 'c152_stream c152_safe c153_handler_waits_violated c153_close_elsewhere_violated c153_after_close_violated c153_unknown_codec_violated c153_peer_v6_violated'.split()],"violations proved: a handler that waits lets the next event of the connection end the process; a close from outside the connection's coroutine leaves the descriptor open until the peer acts, and its next message is still handled; with an unknown codec the first connection ends the process; IPv6 peer addresses are lost")

BD='Ltio.BoolIndex.Build.'
m('C154','proved',[BD+t for t in 'c154_conj c154_doc c154_log c154_owned c154_no_leak'.split()],"release build; C12-C14 for the index itself")
m('C155','partial',[BD+t for t in 'c154_conj c154_doc c154_log c154_owned c154_no_leak c155_duplicate_violated c155_unreachable_violated c155_late_violated c155_copy_violated c155_move_leak_violated'.split()],"violations proved: a second expression on a field is dropped but counted, so the document is never found; expressions added after AddConjunction are not counted; a copied document's conjunctions are deleted twice; move assignment leaks the target's conjunctions")

TK='Ltio.Time.Ticks.'
m('C156','proved',[TK+t for t in 'c156_ticks c156_ticks_order c156_time_us c156_delta c156_time_now c156_epoch c156_stamp c156_stamp_order'.split()],"clock_gettime and gettimeofday by contract")
E2='Ltio.Net.E2E.'
m('C157','proved',[E2+'RawPair.'+t for t in 'c157_prefix c157_complete c157_progress'.split()],"TCP by contract (reliable, in order); a message below 2^31 bytes; that an empty payload may be reported as a failure is C24's violation")
m('C158','proved',[E2+'RawPair.'+t for t in 'c158_answers c158_rpc demo_answers'.split()],"on top of C157 and C21")
m('C159','proved',[E2+'WsPair.'+t for t in 'c159_prefix c159_complete c159_progress'.split()],"after the handshake (C117); messages in single frames, as the code sends them")
m('C160','partial',[E2+'LinePair.'+t for t in 'c160_prefix_partial c160_stuck_violated'.split()],"order and integrity proved; violation proved: of two lines that arrive together only the first is handed on")
SD='Ltio.Coro.Sched.'
m('C161','proved',[SD+t for t in 'c161_once c161_order c161_round c161_next_round c161_bounded c161_progress c161_background c161_go_once'.split()],"one runner, the others as environment; the concurrent queues by contract; tasks end or wait")
m('C162','partial',[SD+t for t in 'c161_round c161_bounded c162_duel_violated c162_nobody_runs_violated'.split()],"violations proved: two coroutines that wake each other keep one turn of the runner going for ever, so nothing else on this loop runs; CO_GO on a loop in a program without a runner is never started")
AP='Ltio.Http.Alpn.'
m('C163','proved',[AP+t for t in 'c163_safe c163_choice c163_own'.split()],"OpenSSL hands the list over and copies the result")
NM='Ltio.Text.Num.'
m('C164','proved',[NM+t for t in 'c164_toInt c164_toInt_fail c164_toInt_text c164_parse c164_array c164_bool'.split()],"stoi, stoll and stream extraction by contract; signed types")
m('C165','partial',[NM+t for t in 'c164_toInt c165_parseTo_violated c165_trailing_violated c165_blank_violated'.split()],"violations proved: ParseTo answers false for every well-formed number and true for a number followed by other characters; ToInt ignores what follows the digits; Parse of a blank text returns an uninitialised value")
IJ='Ltio.Inv.Json.'
m('C166','proved',[IJ+t for t in 'c166_expr_exact c166_expr_roundtrip c166_doc_exact c166_doc_roundtrip'.split()],"nlohmann::json by contract")
m('C167','partial',[IJ+t for t in 'c166_expr_exact c166_doc_exact c167_no_field_violated c167_empty_violated c167_id_violated'.split()],"violations proved: an expression without the key field is undefined behaviour; a document without conditions is not accepted back; ids that are fractions or exceed 63 bits are changed silently")

HC='Ltio.Http.Conn.'
m('C168','partial',[HC+t for t in 'c168_prefix_partial c168_complete_partial c168_gzip_padded_violated'.split()],"proved for histories without a message the library compresses with gzip; violation proved: every body of 8097 to 16383 bytes it does compress with gzip arrives with NUL bytes after it, up to 16384")
m('C169','proved',[HC+t for t in 'c169_prefix c169_complete c169_progress'.split()],"llhttp by a contract (Tok.Meets, shown satisfiable), zlib by its contract; well-formed messages framed by Content-Length without Connection: close, Transfer-Encoding, Upgrade; responses with a code of the table")
m('C170','partial',[HC+t for t in 'c171_request c171_chain c171_response c170_request_violated c170_response_violated'.split()],"violations proved: a request that came compressed is decompressed for the application but keeps its compressed Content-Length and its Content-Encoding, and is sent on so; a response received uncompressed and sent on to a client that accepts gzip is compressed but keeps its old Content-Length")
m('C171','proved',[HC+t for t in 'c171_request c171_chain c171_response c171_chain_response'.split()],"well-formed as for C169")
HT='Ltio.Http.ConnTls.'
HW='Ltio.Http.WssPair.'
m('C172','partial',[HT+'c172_progress_partial',HT+'c172_second_message_violated',HW+'c172_second_frame_violated'],"proved while what TLS has begun to write has not moved in memory; violation proved: any two messages of more than 1024 bytes together, the second sent while the first waits for the socket, close the connection and neither is sent, because the output buffer moves and SSL_MODE_ACCEPT_MOVING_WRITE_BUFFER is not set")
m('C173','proved',[HT+t for t in 'c173_prefix c173_complete c173_progress'.split()],"OpenSSL, llhttp and zlib by contract; well-formed as for C169")
m('C174','proved',[HW+t for t in 'c174_prefix c174_complete c174_progress c174_spaced_progress'.split()],"OpenSSL by contract; unfragmented messages as for C159")
BS='Ltio.Inv.BitSet.'
m('C175','partial',[BS+t for t in 'c176_set_of_positions c175_intersect_shorter c175_union_any c175_substract_any c175_intersect_violated c175_union_violated'.split()],"proved for arguments of the same size, and what happens with any others; violations proved: Intersect with a shorter list keeps positions the other list does not hold (memset is given words for bytes); Union with a longer list loses positions")
m('C176','proved',[BS+t for t in 'c176_set_of_positions c176_dies_iff c176_new c176_dump'.split()],"")
UG='Ltio.WebSocket.Upgrade.'
m('C177','partial',[UG+t for t in 'c178_upgrade_request c178_port c177_host_port_violated c177_default_port_violated'.split()],"all but the port: violations proved: a port that is not the default one is missing from Host; an address without a port is dialled at port 0 (or the port of the last address), not 80 or 443")
m('C178','proved',[UG+t for t in 'c178_upgrade_request c178_server_accepts c178_port'.split()],"topic, host and key without carriage return; the reference parser of C43 reads it; c117_key gives the form of the key")
WL='Ltio.Client.WsLife.'
m('C179','partial',[WL+t for t in 'c180_careful c180_held c179_never_connected_violated c179_dialing_violated c179_connected_violated c179_redial_violated'.split()],"proved for careful uses; violations proved: letting go of a client that never connected follows a null pointer; letting go while an attempt is under way or while connected lets connector or codec call the deleted client; dialling again while connected leaves a deleted event registered and ends the process when its descriptor is used again")
m('C180','proved',[WL+t for t in 'c180_careful c180_released c180_held'.split()],"frames and handshake are C117, C118; callbacks are taken as one step")
RP='Ltio.Client.Rpc.'
m('C181','partial',[RP+t for t in 'c182_results c181_dropped_violated c181_finalized_violated c181_code_violated'.split()],"proved for careful users (C182); violations proved: the callback on another loop is handed a deleted response if the caller keeps no reference; a client finalized while a request is on its way never gives its result; a request sent again keeps its old failure code")
m('C182','proved',[RP+t for t in 'c182_results c182_all_done c182_own_answer c182_code'.split()],"channels by the contract of C21, C22, C67; coroutines by C28")
DL='Ltio.Client.Deadline.'
QD='Ltio.Client.QueueDeadline.'
m('C183','partial',[DL+'c184_not_early',QD+'c184_queued_not_early',DL+'c183_retry_violated',QD+'c183_queued_retry_violated'],"proved if each request object is sent once; violation proved: a request that was answered and is sent again is failed by the timer of the first time")
m('C184','proved',[DL+t for t in 'c184_not_early c184_in_time c184_never_longer'.split()]+[QD+'c184_queued',QD+'c184_queued_all',QD+'c184_queued_not_early'],"loops run posted timers by C06; the queued channel with the pointer copied before it is popped (C22)")
OW='Ltio.Client.Ordered.Web.'
m('C185','proved',[OW+t for t in 'c185_own_answer c185_own_answer_tls c185_complete'.split()],"the connection by C169 / C173; the queued channel with the pointer copied before it is popped (C22)")
m('C186','partial',[OW+'c186_closed_takes_violated','Ltio.Client.QueueDeadline.c184_queued'],"proved: it is failed within the time-outs of the requests before it and its own; violation proved for every state of a closed idle channel: not before, and the closing is reported twice")
RR='Ltio.Redis.Rpc.'
m('C187','partial',[RR+t for t in 'c188_own_replies c187_hangs_violated c187_wrong_answer_violated c187_heartbeat_violated c187_crash_violated'.split()],"proved for one request at a time (C188); violations proved for all replies and splits: a second request or heartbeat given meanwhile is never answered, or gets an empty response and a third one gets its reply; a request arriving after the connection was lost aborts")
m('C188','proved',[RR+'c188_own_replies',RR+'c188_complete'],"the queued channel with the pointer copied before it is popped (C22)")
SC='Ltio.Source.Config.'
m('C189','partial',[SC+t for t in 'c190_accepted_iff c189_missing_member_violated c189_abort_violated c189_throws_violated c189_useless_violated c189_mode_violated'.split()],"proved: what is accepted (C190); violations proved for families of configurations: undefined behaviour, abort, exception, and accepted configurations that never load anything")
m('C190','proved',[SC+'c190_accepted_iff'],"nlohmann::json by its contract; the initial registry of parsers")
MY='Ltio.Mysql.'
m('C191','partial',[MY+t for t in 'c192_rows c192_no_rows c192_database c191_default_db_violated c191_uninitialised_violated c191_code_violated c191_after_close_violated c191_no_reconnect_violated c191_close_violated c191_not_ready_violated c191_cells_violated c191_late_violated'.split()],"proved: what C192 says; violations proved for families of histories, most for every continuation; the client library by its contract")
m('C192','proved',[MY+t for t in 'c192_once_in_order c192_database c192_rows c192_no_rows c192_ended c192_in_turn'.split()],"the client library by its contract; a session is given once")
RB='Ltio.Redis.Buffer.'
m('C193','partial',[RB+t for t in 'c194_contents c193_self_append_violated c193_shrink_ref_violated c193_self_move_violated'.split()],"proved: what C194 says; violations proved for every careful history before")
m('C194','proved',[RB+t for t in 'c194_contents c194_memory'.split()],"realloc always moves; sizes far below 2^64")
RU='Ltio.Redis.Startup.'
m('C195','partial',[RU+t for t in 'c196_startup c195_empty_violated c195_garbage_violated c195_pong_violated c195_twice_violated'.split()],"proved: what C196 says; violations proved for all configurations, chunkings and moves: the empty status crashes, the status O is compared with uninitialised memory, a failed send is reported twice")
m('C196','proved',[RU+t for t in 'c196_startup c196_not_before c196_plain c196_then_requests c196_pong'.split()],"replies of printable characters; the rest of the handling of replies as in C35, C188")
LT='Ltio.Net.Lifetime.'
m('C197','partial',[LT+t for t in 'c198_deleted c198_plain c198_server c197_client_violated c197_h2_violated c197_race_violated c197_flush_violated c197_late_violated'.split()],"proved: what C198 says; violations proved: the client with one loop, for http, redis, h2 and websocket, whatever the event; races of owners in another thread; late replies on a server")
m('C198','proved',[LT+t for t in 'c198_deleted c198_event c198_shared c198_plain c198_server c198_replies'.split()],"handlers as sequences of accesses; the owner itself stays")
TT='Ltio.Net.TlsTrust.'
m('C199','partial',[TT+t for t in 'c200_client c199_host_violated c199_ca_alone_violated c199_unusable_violated c199_path_violated c199_system_violated c199_shared_violated c199_default_server_violated c199_garbage_violated'.split()],"proved: what C200 says; violations proved for every infrastructure and history: the host is never checked, a CA file or directory alone leaves the context null, UseVerifyCA ignores its directory, the defaults are one context, an uninitialised pointer")
m('C200','proved',[TT+t for t in 'c200_create c200_client c200_server c200_fit c200_certificate c200_present c200_connect c200_default'.split()],"OpenSSL by its contract; ciphers, versions, times and revocation left out")
NC='Ltio.Http.NoContent.'
m('C201','partial',[NC+t for t in 'c202_stream c202_client c201_body_violated c201_forged_violated c201_length_violated c201_head_waits_violated c201_head_swallows_violated'.split()],"proved: what C202 says; violations proved for all such responses: their bodies are sent and read as the next response (also a forged one), a length is sent with 204, the client waits for the content of an answer to HEAD and takes the next response for it")
m('C202','proved',[NC+t for t in 'c202_stream c202_empty_sent c202_client c202_expect'.split()],"status line, headers and length as in C31, C43; llhttp by its contract (C169)")
SV='Ltio.Http.Serve.'
m('C203','partial',[SV+t for t in 'c204_answers c203_upgrade_violated c203_expect_violated'.split()],"proved: what C204 says; violations proved, with llhttp's documented pause: after the answer to a request with Connection: upgrade comes a 400 and the connection is closed; nobody answers Expect: 100-continue")
m('C204','proved',[SV+t for t in 'c204_answers c204_prefix c204_coding c204_undecodable c204_refused c204_bad_request'.split()],"llhttp by a contract shown satisfiable; handlers answer at once; what is written reaches the peer (C24, C45); keep-alive requests")

DS='Ltio.Client.DialSync.'
m('C205','partial',[DS+t for t in 'c206_dial c206_told c206_bytes c205_leak_violated c205_descriptor_zero_violated c205_nothing_handed_violated c205_loop_stands_violated'.split()]+['Ltio.Client.DialSend.c205_send_stands_violated'],"proved: what C206 says; violations proved: each refused attempt leaks its socket; descriptor 0 is taken for a failure and leaks; the socket is blocking, so the first read event stops the loop until the peer ends the connection, and nothing is handed on before that; a message larger than the socket's buffer stops the loop until the peer takes something")
m('C206','proved',[DS+t for t in 'c206_dial c206_told c206_bytes c206_returns c206_delivers'.split()]+['Ltio.Client.DialSend.c206_sent','Ltio.Client.DialSend.c206_send_returns'],"what the peer sends and when, and how much each read gives, is arbitrary; read(2) on blocking and non-blocking sockets as POSIX says; errors of a read count as the end of the peer's bytes; errors of a write are not modelled")

SE='Ltio.Text.StrError.'
m('C207','partial',[SE+t for t in 'c208_known c208_serial c207_overlap_violated'.split()],"proved: what C208 says; violation proved: all calls share one buffer, so for every error unknown to the library and every other error there is an interleaving in which the description is empty")
m('C208','proved',[SE+t for t in 'c208_known c208_serial c208_ends'.split()],"glibc's strerror_r as documented, one byte per step; C++ itself leaves overlapping accesses undefined")

PB='Ltio.Text.PrettyBytes.'
m('C209','partial',[PB+t for t in 'c210_close c210_unit c209_next_unit_violated'.split()],"proved: what C210 says; violation proved: every size less than half a hundredth of a unit below 1024 of it is written as 1024.00 of it")
m('C210','proved',[PB+t for t in 'c210_close c210_ties c210_unit c210_monotone c210_text'.split()],"double as IEEE 754 rounding to 53 bits, half to even; two decimals of the exact value, half to even, as glibc's printf")
CE='Ltio.Coro.'
m('C211','partial',[CE+t for t in 'c212_destroyed c211_leak_violated c211_touch_violated'.split()],"proved: what C212 says; violations proved, for every reachable state: a coroutine that waits at the end is never destroyed; any resume closure called afterwards reads the destroyed runner, before it looks whether its coroutine exists")
m('C212','proved',[CE+t for t in 'c212_destroyed c212_can_end'.split()],"the runner's model is that of C28; the thread_local is destroyed on the main coroutine")
