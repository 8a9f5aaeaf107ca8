{
 "claims": [
  {
   "property": "C01",
   "status": "proved",
   "theorems": [
    "Ltio.IOBuffer.c01_fifo",
    "Ltio.IOBuffer.c01_suffix_of_written",
    "Ltio.IOBuffer.c01_reader_prefix_stable",
    "Ltio.IOBuffer.findCRLF_correct",
    "Ltio.IOBuffer.findCRLF_none",
    "Ltio.IOBuffer.move_transfers",
    "Ltio.IOBuffer.move_continues",
    "Ltio.IOBuffer.hasALine_iff"
   ],
   "note": ""
  },
  {
   "property": "C02",
   "status": "proved",
   "theorems": [
    "Ltio.IOBuffer.c02_ensure",
    "Ltio.IOBuffer.c02_no_out_of_bounds",
    "Ltio.IOBuffer.c02_ub_iff"
   ],
   "note": ""
  },
  {
   "property": "C03",
   "status": "proved",
   "theorems": [
    "Ltio.WebSocket.c03_build_parse_roundtrip",
    "Ltio.WebSocket.c03_stream_roundtrip"
   ],
   "note": ""
  },
  {
   "property": "C04",
   "status": "proved",
   "theorems": [
    "Ltio.WebSocket.c04_chunking_independent",
    "Ltio.WebSocket.c04_service_chunking_independent"
   ],
   "note": ""
  },
  {
   "property": "C05",
   "status": "partial",
   "theorems": [
    "Ltio.WebSocket.c05_frame_size",
    "Ltio.WebSocket.c05_send_path_partial",
    "Ltio.WebSocket.c05_send_path_violated"
   ],
   "note": "proved for the C frame builder for all lengths; the send path converts the size to int, so payloads >= 2^31-14 are mis-sized (violation proved)"
  },
  {
   "property": "C06",
   "status": "proved",
   "theorems": [
    "Ltio.WebSocket.c06_mask_involution",
    "Ltio.WebSocket.c06_streamed_unmask",
    "Ltio.WebSocket.c06_mask_rfc"
   ],
   "note": ""
  },
  {
   "property": "C07",
   "status": "partial",
   "theorems": [
    "Ltio.WebSocket.c07_messages_reassembled_partial",
    "Ltio.WebSocket.c07_interleaved_control_violated",
    "Ltio.WebSocket.c07_close"
   ],
   "note": "control frames between fragments corrupt the message: violation proved for all payloads"
  },
  {
   "property": "C39",
   "status": "partial",
   "theorems": [
    "Ltio.WebSocket.c39_hostile_length_ub",
    "Ltio.WebSocket.c39_only_hostile_length_partial"
   ],
   "note": "violated by announced lengths >= 2^63; these are proved to be the only way"
  },
  {
   "property": "C08",
   "status": "partial",
   "theorems": [
    "Ltio.Raw.c08_encode",
    "Ltio.Raw.c08_roundtrip_partial",
    "Ltio.Raw.c08_client_delivery",
    "Ltio.Raw.c08_server_delivery",
    "Ltio.Raw.c08_huge_payload_violated",
    "Ltio.Raw.sendRequest_ids_distinct",
    "Ltio.Raw.createResponse_fields",
    "Ltio.Raw.create_fields"
   ],
   "note": "proved for every message list, padding and chunking with payloads < 2^31; for payloads of 2^32 bytes the send length is truncated to int32 (violation proved)"
  },
  {
   "property": "C09",
   "status": "partial",
   "theorems": [
    "Ltio.Raw.c09_delivered_exact",
    "Ltio.Raw.c09_crash_iff",
    "Ltio.Raw.c09_stream_safe_partial",
    "Ltio.Raw.c09_hostile_length_violated"
   ],
   "note": "exact characterisation of the crashing inputs: announced length within 24 of 2^64; violation proved"
  },
  {
   "property": "C10",
   "status": "partial",
   "theorems": [
    "Ltio.Line.c10_no_loss_no_reorder_partial",
    "Ltio.Line.c10_prompt_delivery_partial",
    "Ltio.Line.c10_pipelined_lines_violated",
    "Ltio.Line.one_line_per_event"
   ],
   "note": "no loss/duplication/reordering proved for every chunking; prompt delivery only if at most one LF per read; pipelined lines stay undelivered (violation proved)"
  },
  {
   "property": "C11",
   "status": "proved",
   "theorems": [
    "Ltio.Base64.c11_encode_rfc",
    "Ltio.Base64.c11_encode_length",
    "Ltio.Base64.c11_roundtrip",
    "Ltio.Base64.c11_decode_safe_partial",
    "Ltio.Base64.c11_unpadded_violated",
    "Ltio.Base64.c11_decode_any",
    "Ltio.Base64.c11_every_text"
   ],
   "note": "also: decoding unpadded input writes past the result buffer (violation of memory safety proved)"
  },
  {
   "property": "C15",
   "status": "proved",
   "theorems": [
    "Ltio.Lru.c15_lru",
    "Ltio.Lru.c15_bounded",
    "Ltio.Lru.c15_zero_capacity_ub"
   ],
   "note": "capacity >= 1; capacity 0 is undefined behaviour (proved)"
  },
  {
   "property": "C16",
   "status": "proved",
   "theorems": [
    "Ltio.Bloom.c16_no_false_negatives",
    "Ltio.Bloom.c16_test_and_set",
    "Ltio.Bloom.uninitialised_false_positive"
   ],
   "note": ""
  },
  {
   "property": "C17",
   "status": "partial",
   "theorems": [
    "Ltio.CountMin.c17_estimate_exact",
    "Ltio.CountMin.c17_no_underestimate_partial",
    "Ltio.CountMin.c17_single_key_exact",
    "Ltio.CountMin.c17_overflow_violated",
    "Ltio.CountMin.distinct_not_overcounted"
   ],
   "note": "no underestimate proved while counters do not overflow; overflow violation proved"
  },
  {
   "property": "C18",
   "status": "partial",
   "theorems": [
    "Ltio.Maglev.c18_complete_partial",
    "Ltio.Maglev.c18_probe_permutation_partial",
    "Ltio.Maglev.c18_even_partial",
    "Ltio.Maglev.c18_router_total_partial",
    "Ltio.Maglev.c18_termination_violated"
   ],
   "note": "proved for every prime ring size when offset+(ring-1)*skip fits uint32 (always for ring <= 65536); for the default 65537 two valid endpoints make generation loop forever (violation proved)"
  },
  {
   "property": "C19",
   "status": "partial",
   "theorems": [
    "Ltio.Router.c19_total",
    "Ltio.Router.c19_nearest",
    "Ltio.Router.c19_add_moves_only_to_new",
    "Ltio.Router.c19_erase_moves_only_served",
    "Ltio.Router.c19_order_independent_partial",
    "Ltio.Router.vnode_label_collision",
    "Ltio.Router.c19_order_violated"
   ],
   "note": "order independence holds without virtual-node collisions; systematic label collisions make it false (violation proved for every hash function)"
  },
  {
   "property": "C20",
   "status": "partial",
   "theorems": [
    "Ltio.Router.c20_fair_partial",
    "Ltio.Router.c20_cycle_partial",
    "Ltio.Router.c20_power_of_two",
    "Ltio.Router.c20_wrap_violated",
    "Ltio.Router.c20_empty_ub"
   ],
   "note": "fair in every window that does not cross the 2^32 wrap, and always when n divides 2^32; violated at the wrap otherwise"
  },
  {
   "property": "C12",
   "status": "proved",
   "theorems": [
    "Ltio.BoolIndex.c12_conj_roundtrip",
    "Ltio.BoolIndex.c12_conj_injective",
    "Ltio.BoolIndex.c12_size_major",
    "Ltio.BoolIndex.c12_entries",
    "Ltio.BoolIndex.c12_out_of_range"
   ],
   "note": ""
  },
  {
   "property": "C13",
   "status": "proved",
   "theorems": [
    "Ltio.BoolIndex.c13_skipTo",
    "Ltio.BoolIndex.c13_skip",
    "Ltio.BoolIndex.c13_initialize",
    "Ltio.BoolIndex.c13_field"
   ],
   "note": ""
  },
  {
   "property": "C14",
   "status": "partial",
   "theorems": [
    "Ltio.BoolIndex.c14_intended",
    "Ltio.BoolIndex.c14_code_partial",
    "Ltio.BoolIndex.c14_code_sound_weak",
    "Ltio.BoolIndex.c14_code_violation",
    "Ltio.BoolIndex.c14_unknown_field"
   ],
   "note": "the code computes end_conj_id from eid instead of end_eid, so it is exact only for conjunctions with at most one include expression (proved, all documents and queries); with that line as intended it is exact for all (proved); a wrong answer and the null dereference on unknown fields are proved"
  },
  {
   "property": "C21",
   "status": "partial",
   "theorems": [
    "Ltio.Client.Async.c21_exactly_once_partial",
    "Ltio.Client.Async.c21_completed_partial",
    "Ltio.Client.Async.c21_id_reuse_violated",
    "Ltio.Client.Async.c21_shared_id_violated",
    "Ltio.Client.Async.c21_late_send_violated"
   ],
   "note": "proved for every interleaving with distinct request objects and ids and no submission after shutdown; without these hypotheses it is false (three violations proved)"
  },
  {
   "property": "C22",
   "status": "partial",
   "theorems": [
    "Ltio.Client.Queued.c22_fifo_partial",
    "Ltio.Client.Queued.c22_all_completed_partial",
    "Ltio.Client.Queued.c22_use_after_free_violated",
    "Ltio.Client.Queued.c22_use_after_free_always_violated",
    "Ltio.Client.Queued.c22_late_send_violated"
   ],
   "note": "TrySendNext uses a reference to a popped list element (use after free, proved to happen at the first request); with the pointer copied first, FIFO and exactly-once are proved for every interleaving"
  },
  {
   "property": "C32",
   "status": "partial",
   "theorems": [
    "Ltio.Text.c32_split_join",
    "Ltio.Text.c32_join_split",
    "Ltio.Text.c32_splitChar",
    "Ltio.Text.c32_ignore_empty_partial",
    "Ltio.Text.c32_ignore_empty_violated",
    "Ltio.Text.c32_long_separator_violated",
    "Ltio.Text.c32_empty_separator_violated"
   ],
   "note": "exact for one-character separators; ignore_empty still yields an empty last piece for texts that are empty or end with the separator; longer separators are not skipped entirely; the empty separator throws (violations proved for all texts)"
  },
  {
   "property": "C41",
   "status": "partial",
   "theorems": [
    "Ltio.Text.c41_trim",
    "Ltio.Text.isTrim_unique",
    "Ltio.Text.c41_startsWith",
    "Ltio.Text.c41_endsWith",
    "Ltio.Text.c41_contains_partial",
    "Ltio.Text.c41_contains_empty_violated",
    "Ltio.Text.c41_replace",
    "Ltio.Text.c41_replaceLast",
    "Ltio.Text.c41_ignoreCase_partial",
    "Ltio.Text.c41_ignoreCase_prefix_violated",
    "Ltio.Text.c41_ignoreCase_overread_violated"
   ],
   "note": "IgnoreCaseEquals is correct only for equal lengths: it accepts every prefix and over-reads otherwise (proved)"
  },
  {
   "property": "C33",
   "status": "proved",
   "theorems": [
    "Ltio.Itoa.c33_itoa",
    "Ltio.Itoa.c33_bad_base",
    "Ltio.Itoa.c33_value"
   ],
   "note": ""
  },
  {
   "property": "C34",
   "status": "proved",
   "theorems": [
    "Ltio.ByteOrder.c34_network_is_big_endian",
    "Ltio.ByteOrder.c34_little_endian",
    "Ltio.ByteOrder.c34_roundtrip"
   ],
   "note": ""
  },
  {
   "property": "C30",
   "status": "partial",
   "theorems": [
    "Ltio.Http.c30_lookup_partial",
    "Ltio.Http.c30_case_insensitive_partial",
    "Ltio.Http.c30_nul_violated"
   ],
   "note": "for names without NUL characters (with NUL lower-casing stops: violation proved) and, for lookup, non-empty names"
  },
  {
   "property": "C31",
   "status": "partial",
   "theorems": [
    "Ltio.Http.c31_status_line_partial",
    "Ltio.Http.c31_missing_code_violated",
    "Ltio.Http.c31_minor_violated"
   ],
   "note": "codes in 100..511 without a table entry give an empty line (violation proved for all of them)"
  },
  {
   "property": "C42",
   "status": "partial",
   "theorems": [
    "Ltio.Http.c42_assembled_partial",
    "Ltio.Http.c42_trailer_leak_violated"
   ],
   "note": "for messages without trailers; a trailer value leaks into the first header of the next message (violation proved for every trailer); llhttp itself is not modelled"
  },
  {
   "property": "C43",
   "status": "partial",
   "theorems": [
    "Ltio.Http.c43_response_partial",
    "Ltio.Http.c43_request_partial",
    "Ltio.Http.c43_stream_partial",
    "Ltio.Http.c43_compressed_length_violated",
    "Ltio.Http.c43_header_injection_violated"
   ],
   "note": "for CR-free headers and user lengths matching the body; compression after a user-set Content-Length and CR LF in values break it (proved)"
  },
  {
   "property": "C24",
   "status": "partial",
   "theorems": [
    "Ltio.Net.c24_safe",
    "Ltio.Net.c24_stream",
    "Ltio.Net.c24_prefix",
    "Ltio.Net.c24_input",
    "Ltio.Net.c24_write_interest",
    "Ltio.Net.c24_write_until_eagain",
    "Ltio.Net.c24_read_until_eagain",
    "Ltio.Net.c24_read_failure",
    "Ltio.Net.c24_return_value",
    "Ltio.Net.c24_failure_is_real_partial",
    "Ltio.Net.c24_drains",
    "Ltio.Net.c24_violation_empty_send",
    "Ltio.Net.c24_violation_interest_without_data",
    "Ltio.Net.c24_violation_length_truncated",
    "Ltio.Net.c24_witness",
    "Ltio.Net.Ssl.c24_ssl_safe",
    "Ltio.Net.Ssl.c24_ssl_stream",
    "Ltio.Net.Ssl.c24_ssl_prefix",
    "Ltio.Net.Ssl.c24_ssl_input",
    "Ltio.Net.Ssl.c24_ssl_write_interest",
    "Ltio.Net.Ssl.c24_violation_ssl_moved_buffer",
    "Ltio.Net.Ssl.c24_ssl_witness"
   ],
   "note": "stream integrity proved for every pattern of partial results for payloads < 2^31 (TCP) and for TLS; violations proved: empty send reports failure, 32-bit length truncation, retry of SSL_write after the output buffer moved"
  },
  {
   "property": "C25",
   "status": "proved",
   "theorems": [
    "Ltio.Loop.FdReg.c25_add",
    "Ltio.Loop.FdReg.c25_remove",
    "Ltio.Loop.FdReg.c25_get",
    "Ltio.Loop.FdReg.c25_registry_agrees",
    "Ltio.Loop.FdReg.c25_install",
    "Ltio.Loop.FdReg.c25_uninstall",
    "Ltio.Loop.FdReg.c25_update"
   ],
   "note": ""
  },
  {
   "property": "C44",
   "status": "partial",
   "theorems": [
    "Ltio.Loop.FdReg.c44_invokes_installed",
    "Ltio.Loop.FdReg.c44_right_handler_partial",
    "Ltio.Loop.FdReg.c44_violation_fd_reuse"
   ],
   "note": "proved when no descriptor is re-registered within a round; with descriptor reuse the new handler gets the old event (violation proved)"
  },
  {
   "property": "C40",
   "status": "partial",
   "theorems": [
    "Ltio.Net.c40_event_partial",
    "Ltio.Net.c40_cause",
    "Ltio.Net.close_spec",
    "Ltio.Net.tryFlush_empty",
    "Ltio.Net.c40_keepalive_exactly_once_partial",
    "Ltio.Net.c40_witness",
    "Ltio.Net.c40_violation_close_response",
    "Ltio.Net.c40_violation_parse_error_eof",
    "Ltio.Net.c40_violation_scheduled_drain"
   ],
   "note": "proved for keep-alive connections with well-formed data; three causes of double notification proved"
  },
  {
   "property": "C45",
   "status": "partial",
   "theorems": [
    "Ltio.Net.c45_stream",
    "Ltio.Net.c45_will_send_partial",
    "Ltio.Net.c45_delivered_partial",
    "Ltio.Net.c45_violation_truncated"
   ],
   "note": "no loss or reordering before close for every history; pending bytes always have a flush or write event on keep-alive connections; non-keep-alive responses that do not fit the socket buffer are truncated (violation proved)"
  },
  {
   "property": "C23",
   "status": "partial",
   "theorems": [
    "Ltio.Loop.Msg.c23_exactly_once_in_order",
    "Ltio.Loop.Msg.c23_no_lost_wakeup",
    "Ltio.Loop.Msg.c23_poll_reports",
    "Ltio.Loop.Msg.c23_notify_never_fails",
    "Ltio.Loop.Msg.c23_round_runs_all",
    "Ltio.Loop.Msg.c23_nested_run",
    "Ltio.Loop.Msg.c23_loop_never_stuck",
    "Ltio.Loop.Msg.c23_shutdown_loop_tasks",
    "Ltio.Loop.Msg.c23_shutdown_remote_partial",
    "Ltio.Loop.Msg.c23_violation_lost_at_shutdown",
    "Ltio.Loop.Msg.c23_violation_post_while_stopping",
    "Ltio.Loop.Msg.c23_loop_posts",
    "Ltio.Loop.Msg.c23_witness",
    "Ltio.Loop.Msg.c23_witness_nested"
   ],
   "note": "proved for all interleavings of any number of posting threads while the loop runs; at shutdown a task can be lost, and posting from a task aborts (violations proved)"
  },
  {
   "property": "C46",
   "status": "partial",
   "theorems": [
    "Ltio.Loop.StartStop.c46_start_returns_live",
    "Ltio.Loop.StartStop.c46_stop_returns_stopped",
    "Ltio.Loop.StartStop.c46_start_wakes_partial",
    "Ltio.Loop.StartStop.c46_violation_start_hangs",
    "Ltio.Loop.StartStop.c46_violation_stop_hangs",
    "Ltio.Loop.StartStop.c46_violation_stop_returns_early"
   ],
   "note": "the predicate is changed and notified without the mutex: Start and SyncStop can hang, SyncStop can return early (violations proved)"
  },
  {
   "property": "C36",
   "status": "partial",
   "theorems": [
    "Ltio.Server.c36_count",
    "Ltio.Server.c36_limit_single",
    "Ltio.Server.c36_limit_partial",
    "Ltio.Server.c36_callback_not_early",
    "Ltio.Server.c36_callback_eventually",
    "Ltio.Server.c36_shutdown_progress",
    "Ltio.Server.c36_callback_once_partial",
    "Ltio.Server.c36_violation_callback_twice",
    "Ltio.Server.c36_violation_limit",
    "Ltio.Server.c36_witness"
   ],
   "note": "count exact always; limit exact for one io service, exceeded by up to n-1 with n (violation proved for every limit); the stop callback runs at least once and only after everything is gone, but twice if a connection closes while stopping (violation proved)"
  },
  {
   "property": "C35",
   "status": "partial",
   "theorems": [
    "Ltio.Redis.decode_append",
    "Ltio.Redis.decode_enc",
    "Ltio.Redis.strtol_saturates",
    "Ltio.Redis.strtol_out_of_range",
    "Ltio.Redis.c35_pairing_partial",
    "Ltio.Redis.c35_leftover_partial",
    "Ltio.Redis.c35_startup",
    "Ltio.Redis.c35_violation_reentrant",
    "Ltio.Redis.c35_violation_unsolicited",
    "Ltio.Redis.c35_violation_text",
    "Ltio.Redis.c35_violation_number",
    "Ltio.Redis.c35_violation_stale_array"
   ],
   "note": "pairing proved for every sequence of exchanges and every fragmentation when replies are well-formed and no request is sent from within delivery; violations proved: request sent from the response callback, unsolicited data, non-ASCII text lines, long numbers, stale array state after an error"
  },
  {
   "property": "C47",
   "status": "partial",
   "theorems": [
    "Ltio.Redis.Encode.c47_request_encoding",
    "Ltio.Redis.Encode.c47_request_roundtrip",
    "Ltio.Redis.Encode.c47_injective",
    "Ltio.Redis.Encode.c47_violation_heartbeat"
   ],
   "note": "encoding exact for every command sequence whose sizes fit; IsHeartbeat is false for every heartbeat request (violation proved)"
  },
  {
   "property": "C48",
   "status": "partial",
   "theorems": [
    "Ltio.Redis.Storage.c48_array_storage",
    "Ltio.Redis.Storage.c48_reserve_chunks",
    "Ltio.Redis.Storage.c48_violation_no_reserve",
    "Ltio.Redis.Storage.c48_dump_partial",
    "Ltio.Redis.Storage.c48_violation_dump"
   ],
   "note": "storage exact when reserved (as the decoder does); DebugDump empties every array it prints (violation proved)"
  },
  {
   "property": "C37",
   "status": "partial",
   "theorems": [
    "Ltio.Url.c37_parse_remote",
    "Ltio.Url.c37_parse_remote_fresh",
    "Ltio.Url.c37_parse_uri",
    "Ltio.Url.c37_resolve_partial",
    "Ltio.Url.c37_resolve_fail",
    "Ltio.Url.c37_violation_empty_scheme",
    "Ltio.Url.c37_violation_resolved_nul",
    "Ltio.Url.c37_violation_resolve_stale",
    "Ltio.Url.c37_violation_stale",
    "Ltio.Url.c37_violation_password_colon",
    "Ltio.Url.c37_violation_query_at",
    "Ltio.Url.c37_violation_query_scheme",
    "Ltio.Url.c37_violation_empty_port",
    "Ltio.Url.c37_violation_port_overflow",
    "Ltio.Url.c37_violation_query_eq"
   ],
   "note": "exact for every choice of components free of the delimiters that end them; proved violations: '://host' gives an empty scheme, reused records keep old components, '@' or '://' in a query, ':' in a password, empty or too large port, resolved IP padded with NULs, failed resolution reported as success"
  },
  {
   "property": "C49",
   "status": "partial",
   "theorems": [
    "Ltio.Ip.c49_matches_prefix",
    "Ltio.Ip.c49_common_prefix",
    "Ltio.Ip.c49_mask_length",
    "Ltio.Ip.c49_order",
    "Ltio.Ip.c49_endpoint_order",
    "Ltio.Ip.c49_routable_v4",
    "Ltio.Ip.c49_routable_v6",
    "Ltio.Ip.c49_zero",
    "Ltio.Ip.w_c49_routable_v6",
    "Ltio.Ip.c49_loopback",
    "Ltio.Ip.c49_link_local",
    "Ltio.Ip.c49_to_mapped",
    "Ltio.Ip.c49_hostname",
    "Ltio.Ip.c49_to_string_partial",
    "Ltio.Ip.c49_sockaddr",
    "Ltio.Ip.c49_violation_from_mapped",
    "Ltio.Ip.c49_violation_routable_mapped",
    "Ltio.Ip.c49_violation_cidr",
    "Ltio.Ip.c49_cidr_range",
    "Ltio.Ip.w_c49_cidr",
    "Ltio.Ip.c49_violation_bracketed",
    "Ltio.Ip.c49_violation_to_string",
    "Ltio.Ip.c49_violation_to_string_invalid"
   ],
   "note": "violations proved: mapping back to IPv4 never works (range end of another array), so IsPubliclyRoutable of mapped addresses neither; every CIDR literal and every bracketed IPv6 literal is rejected; ToString is NUL padded"
  },
  {
   "property": "C29",
   "status": "partial",
   "theorems": [
    "Ltio.Links.c29_sequence",
    "Ltio.Links.c29_frame",
    "Ltio.Links.c29_size_partial",
    "Ltio.Links.c29_violation_pop_size",
    "Ltio.Links.c29_double_push",
    "Ltio.Links.c29_double_remove",
    "Ltio.Links.c29_destroy_empty",
    "Ltio.Links.c29_violation_destructor",
    "Ltio.Links.c29_violation_steal"
   ],
   "note": "sequence behaviour for every allowed operation history; violations proved: popping does not decrease the reported size, destroying a non-empty DoubleLinkedList dereferences null, pushing a node of another list corrupts that list"
  },
  {
   "property": "C28",
   "status": "partial",
   "theorems": [
    "Ltio.Coro.c28_once",
    "Ltio.Coro.c28_stale",
    "Ltio.Coro.c28_not_lost",
    "Ltio.Coro.c28_progress",
    "Ltio.Coro.c28_lists",
    "Ltio.Coro.c28_no_abort_partial",
    "Ltio.Coro.c28_violation_other_task",
    "Ltio.Coro.c28_violation_abort",
    "Ltio.Coro.c28_witness",
    "Ltio.Coro.c28_reuse_partial",
    "Ltio.Coro.c28_spawn_reuse",
    "Ltio.Coro.c28_pool",
    "Ltio.Coro.c28_freed"
   ],
   "note": "at most one wake-up per suspension, stale closures inert, no lost wake-up: for every interleaving; violations proved: a closure of a task that ended without waiting wakes the next task of the same coroutine, or aborts the process"
  },
  {
   "property": "C27",
   "status": "partial",
   "theorems": [
    "Ltio.Coro.WG.c27_not_left",
    "Ltio.Coro.WG.c27_once",
    "Ltio.Coro.WG.c27_timeout",
    "Ltio.Coro.WG.c27_success_partial",
    "Ltio.Coro.WG.c27_violation_early",
    "Ltio.Coro.WG.c27_violation_timeout_done",
    "Ltio.Coro.WG.c27_witness"
   ],
   "note": "never left sleeping, resumed once, for every interleaving; success means done only if the count does not return to zero before the last Add (violation proved for every number of remaining tasks); timeout may be reported though all was done in time (violation)"
  },
  {
   "property": "C50",
   "status": "partial",
   "theorems": [
    "Ltio.Coro.Mutex.c50_exclusion",
    "Ltio.Coro.Mutex.c50_no_lost",
    "Ltio.Coro.Mutex.c50_fifo",
    "Ltio.Coro.Mutex.c50_handover",
    "Ltio.Coro.Mutex.c50_violation_stray",
    "Ltio.Coro.Mutex.c50_witness"
   ],
   "note": "full for executions in which a waiting coroutine is woken by the mutex only; a closure made earlier in the same running period breaks exclusion (violation proved)"
  },
  {
   "property": "C51",
   "status": "partial",
   "theorems": [
    "Ltio.Coro.IoEv.c51_first_wins",
    "Ltio.Coro.IoEv.c51_ends",
    "Ltio.Coro.IoEv.c51_violation_crash",
    "Ltio.Coro.IoEv.c51_violation_stray",
    "Ltio.Coro.IoEv.c51_witness"
   ],
   "note": "first outcome always wins; violations proved: an event while suspended elsewhere calls an empty closure, a stray wake-up fails a check"
  },
  {
   "property": "C38",
   "status": "partial",
   "theorems": [
    "Ltio.Pool.c38_backoff_bound",
    "Ltio.Pool.c38_backoff_linear",
    "Ltio.Pool.c38_single",
    "Ltio.Pool.c38_violation_too_many",
    "Ltio.Pool.c38_violation_unbounded",
    "Ltio.Pool.c38_alive_partial",
    "Ltio.Pool.c38_violation_dead",
    "Ltio.Pool.c38_violation_dangling",
    "Ltio.Pool.c38_no_dangling_partial",
    "Ltio.Pool.c38_select_ready",
    "Ltio.Pool.c38_select_complete_partial",
    "Ltio.Pool.c38_select_spread",
    "Ltio.Pool.c38_violation_select_far",
    "Ltio.Pool.c38_violation_select_wrap",
    "Ltio.Pool.c38_violation_select_race",
    "Ltio.Pool.c38_select_witness"
   ],
   "note": "back-off, the single-connection client, ready-only selection and spreading in full; completeness of selection for up to 11 channels; violations proved: unbounded connections with 2 or more configured, a client that never dials again, a dial calling a destroyed client back, selection missing a ready channel"
  },
  {
   "property": "C52",
   "status": "partial",
   "theorems": [
    "Ltio.Connector.c52_once",
    "Ltio.Connector.c52_sockets",
    "Ltio.Connector.c52_report_partial",
    "Ltio.Connector.c52_violation_established",
    "Ltio.Connector.c52_violation_inverted",
    "Ltio.Connector.c52_violation_leak",
    "Ltio.Connector.c52_violation_count",
    "Ltio.Connector.c52_witness",
    "Ltio.Connector.c52_count_partial",
    "Ltio.Connector.c52_told"
   ],
   "note": "one report per dial in full; violations proved: late successes are reported as failures, refused dials leak the socket, the count in progress is stale"
  },
  {
   "property": "C26",
   "status": "partial",
   "theorems": [
    "Ltio.Wheel.c26_refines",
    "Ltio.Wheel.c26_due",
    "Ltio.Wheel.c26_cancelled",
    "Ltio.Wheel.c26_not_early",
    "Ltio.Wheel.c26_sleep",
    "Ltio.Wheel.c26_pass",
    "Ltio.Wheel.c26_oneshot",
    "Ltio.Wheel.c26_violation_repeating",
    "Ltio.Wheel.c26_violation_at_once",
    "Ltio.Wheel.c26_wait",
    "Ltio.Wheel.c26_witness"
   ],
   "note": "full for one-shot timers and for the timing wheel itself, for every history and clock; a repeating timer's first period is counted from the loop's last clock update instead of the time of registration (violation proved)"
  },
  {
   "property": "C53",
   "status": "partial",
   "theorems": [
    "Ltio.Repeating.c53_quiet",
    "Ltio.Repeating.c53_safe",
    "Ltio.Repeating.c53_no_uaf_partial",
    "Ltio.Repeating.c53_violation_hang",
    "Ltio.Repeating.c53_hang_forever",
    "Ltio.Repeating.c53_violation_destroy",
    "Ltio.Repeating.c53_violation_self_stop",
    "Ltio.Repeating.c53_violation_unstarted",
    "Ltio.Repeating.c53_witness"
   ],
   "note": "finality of Stop in full; violations proved: lost wake-up, notification of a destroyed condition variable, self-stop leaves a dangling event, Stop when not running crashes or deadlocks"
  },
  {
   "property": "C54",
   "status": "partial",
   "theorems": [
    "Ltio.Inv.c54_exact",
    "Ltio.Inv.c54_answers",
    "Ltio.Inv.c54_small",
    "Ltio.Inv.c54_violation_multiple_of_64",
    "Ltio.Inv.c54_violation_no_wildcard",
    "Ltio.Inv.c54_collision_confuses",
    "Ltio.Inv.c54_violation_collision",
    "Ltio.Inv.w_query"
   ],
   "note": "every answer is exact for every input without digest collision, and with 1 to 63 documents and a wildcard document per field every query is answered; violations proved: a number of documents that is a multiple of 64 or a field on which every document includes values kills the process at any query; sets with the same 64-bit digest are confused, and exist for every digest"
  },
  {
   "property": "C55",
   "status": "partial",
   "theorems": [
    "Ltio.Inv.c55_violation_never_found",
    "Ltio.Inv.c55_found_with_trailing",
    "Ltio.Inv.c55_violation_start_ignored",
    "Ltio.Inv.c55_violation_single_ignored",
    "Ltio.Inv.c55_violation_overlap",
    "Ltio.Inv.c55_not_a_number",
    "Ltio.Inv.isWs_iff"
   ],
   "note": "violated: plain numbers never find anything; a-b indexes 0 to b; single numbers index nothing; what the code does instead is proved for every decimal text"
  },
  {
   "property": "C56",
   "status": "proved",
   "theorems": [
    "Ltio.Ip.c49_matches_prefix",
    "Ltio.Ip.c49_common_prefix",
    "Ltio.Ip.c49_mask_length"
   ],
   "note": "the unconditional part of C49"
  },
  {
   "property": "C57",
   "status": "proved",
   "theorems": [
    "Ltio.Ip.c49_order",
    "Ltio.Ip.c49_endpoint_order"
   ],
   "note": "the unconditional part of C49"
  },
  {
   "property": "C58",
   "status": "proved",
   "theorems": [
    "Ltio.Ip.c49_sockaddr"
   ],
   "note": "the unconditional part of C49"
  },
  {
   "property": "C59",
   "status": "proved",
   "theorems": [
    "Ltio.Wheel.c26_refines",
    "Ltio.Wheel.c26_due",
    "Ltio.Wheel.c26_cancelled",
    "Ltio.Wheel.c26_not_early",
    "Ltio.Wheel.c26_sleep"
   ],
   "note": "the wheel itself; the loop's use of it is C26"
  },
  {
   "property": "C60",
   "status": "proved",
   "theorems": [
    "Ltio.Net.c24_safe",
    "Ltio.Net.c24_stream",
    "Ltio.Net.c24_prefix",
    "Ltio.Net.c24_input",
    "Ltio.Net.c24_drains",
    "Ltio.Net.c24_witness"
   ],
   "note": "the unconditional part of C24"
  },
  {
   "property": "C61",
   "status": "proved",
   "theorems": [
    "Ltio.Server.c36_count",
    "Ltio.Server.c36_limit_single",
    "Ltio.Server.c36_witness"
   ],
   "note": "the unconditional part of C36"
  },
  {
   "property": "C62",
   "status": "proved",
   "theorems": [
    "Ltio.Server.c36_callback_not_early",
    "Ltio.Server.c36_callback_eventually",
    "Ltio.Server.c36_shutdown_progress"
   ],
   "note": "that it may come twice is C36"
  },
  {
   "property": "C63",
   "status": "proved",
   "theorems": [
    "Ltio.Loop.Msg.c23_exactly_once_in_order",
    "Ltio.Loop.Msg.c23_no_lost_wakeup",
    "Ltio.Loop.Msg.c23_poll_reports",
    "Ltio.Loop.Msg.c23_round_runs_all",
    "Ltio.Loop.Msg.c23_nested_run",
    "Ltio.Loop.Msg.c23_loop_never_stuck"
   ],
   "note": "shutdown is C23"
  },
  {
   "property": "C64",
   "status": "proved",
   "theorems": [
    "Ltio.Coro.c28_once",
    "Ltio.Coro.c28_stale",
    "Ltio.Coro.c28_not_lost",
    "Ltio.Coro.c28_progress",
    "Ltio.Coro.c28_lists",
    "Ltio.Coro.c28_witness"
   ],
   "note": "closures that outlive their task are C28"
  },
  {
   "property": "C65",
   "status": "proved",
   "theorems": [
    "Ltio.Router.c19_total",
    "Ltio.Router.c19_nearest",
    "Ltio.Router.c19_add_moves_only_to_new",
    "Ltio.Router.c19_erase_moves_only_served"
   ],
   "note": "order independence is C19"
  },
  {
   "property": "C66",
   "status": "proved",
   "theorems": [
    "Ltio.Pool.c38_select_ready",
    "Ltio.Pool.c38_select_spread",
    "Ltio.Pool.c38_backoff_bound",
    "Ltio.Pool.c38_backoff_linear",
    "Ltio.Pool.c38_single"
   ],
   "note": "the unconditional part of C38; spreading until the 32-bit counter wraps"
  },
  {
   "property": "C67",
   "status": "proved",
   "theorems": [
    "Ltio.Connector.c52_once",
    "Ltio.Connector.c52_sockets",
    "Ltio.Connector.c52_witness"
   ],
   "note": "what is reported is C52"
  },
  {
   "property": "C68",
   "status": "proved",
   "theorems": [
    "Ltio.Repeating.c53_quiet",
    "Ltio.Repeating.c53_safe",
    "Ltio.Repeating.c53_witness"
   ],
   "note": "termination of Stop is C53"
  },
  {
   "property": "C69",
   "status": "proved",
   "theorems": [
    "Ltio.Redis.decode_append",
    "Ltio.Redis.decode_enc"
   ],
   "note": "replies well-formed in the sense of the protocol's printable subset (C35 has the exceptions)"
  },
  {
   "property": "C70",
   "status": "proved",
   "theorems": [
    "Ltio.Redis.Encode.c47_request_encoding",
    "Ltio.Redis.Encode.c47_request_roundtrip",
    "Ltio.Redis.Encode.c47_injective"
   ],
   "note": "IsHeartbeat is C47"
  },
  {
   "property": "C71",
   "status": "proved",
   "theorems": [
    "Ltio.WebSocket.c05_frame_size"
   ],
   "note": "the C++ send path is C05"
  },
  {
   "property": "C72",
   "status": "proved",
   "theorems": [
    "Ltio.Text.c32_split_join",
    "Ltio.Text.c32_join_split"
   ],
   "note": "longer separators and ignore_empty are C32"
  },
  {
   "property": "C73",
   "status": "proved",
   "theorems": [
    "Ltio.Text.c41_trim",
    "Ltio.Text.isTrim_unique",
    "Ltio.Text.c41_startsWith",
    "Ltio.Text.c41_endsWith",
    "Ltio.Text.c41_replace",
    "Ltio.Text.c41_replaceLast"
   ],
   "note": "the other helpers are C41"
  },
  {
   "property": "C74",
   "status": "proved",
   "theorems": [
    "Ltio.Coro.WG.c27_not_left",
    "Ltio.Coro.WG.c27_once",
    "Ltio.Coro.WG.c27_timeout",
    "Ltio.Coro.WG.c27_witness"
   ],
   "note": "when success is reported is C27"
  },
  {
   "property": "C75",
   "status": "proved",
   "theorems": [
    "Ltio.Links.c29_sequence",
    "Ltio.Links.c29_frame"
   ],
   "note": "DoubleLinkedList and sizes are C29"
  },
  {
   "property": "C76",
   "status": "proved",
   "theorems": [
    "Ltio.CountMin.c17_estimate_exact",
    "Ltio.CountMin.c17_single_key_exact"
   ],
   "note": "under-estimation by overflow is C17"
  },
  {
   "property": "C77",
   "status": "proved",
   "theorems": [
    "Ltio.Raw.c09_delivered_exact",
    "Ltio.Raw.c09_crash_iff"
   ],
   "note": "the crashing inputs are C09"
  },
  {
   "property": "C78",
   "status": "proved",
   "theorems": [
    "Ltio.Net.c45_stream"
   ],
   "note": "delivery after close is C45"
  },
  {
   "property": "C79",
   "status": "proved",
   "theorems": [
    "Ltio.Sync.Spin.c79_exclusion",
    "Ltio.Sync.Spin.c79_no_lost_update",
    "Ltio.Sync.Spin.c79_trylock",
    "Ltio.Sync.Spin.c79_progress",
    "Ltio.Sync.Spin.c79_live",
    "Ltio.Sync.Spin.w_c79"
   ],
   "note": "sequentially consistent interleavings; the code's acquire/release orders are not modelled"
  },
  {
   "property": "C80",
   "status": "proved",
   "theorems": [
    "Ltio.Sync.Lazy.c80_once",
    "Ltio.Sync.Lazy.c80_complete",
    "Ltio.Sync.Lazy.c80_progress",
    "Ltio.Sync.Lazy.c80_hasInstance_after",
    "Ltio.Sync.Lazy.c80_reentry_hangs",
    "Ltio.Sync.Lazy.c80_hasInstance_early",
    "Ltio.Sync.Lazy.w_c80"
   ],
   "note": "sequentially consistent interleavings; limits proved: a constructor that uses its own instance hangs, hasInstance is true before the constructor runs"
  },
  {
   "property": "C81",
   "status": "proved",
   "theorems": [
    "Ltio.Sync.Tagged.c81_linearizable",
    "Ltio.Sync.Tagged.c81_no_double",
    "Ltio.Sync.Tagged.c81_no_loss",
    "Ltio.Sync.Tagged.c81_fail_means_progress",
    "Ltio.Sync.Tagged.w_c81"
   ],
   "note": "sequentially consistent interleavings, fewer than 2^64 changes of the head"
  },
  {
   "property": "C82",
   "status": "proved",
   "theorems": [
    "Ltio.Sync.RefList.c82_no_double",
    "Ltio.Sync.RefList.c82_no_loss",
    "Ltio.Sync.RefList.c82_accounted",
    "Ltio.Sync.RefList.c82_no_abort",
    "Ltio.Sync.RefList.c82_added_not_found",
    "Ltio.Sync.RefList.w_c82"
   ],
   "note": "sequentially consistent interleavings; limit proved: add may return before the node can be found"
  },
  {
   "property": "C83",
   "status": "proved",
   "theorems": [
    "Ltio.Sync.RefPtr.c83_alive",
    "Ltio.Sync.RefPtr.c83_alive_assign",
    "Ltio.Sync.RefPtr.c83_once",
    "Ltio.Sync.RefPtr.c83_deleted_iff",
    "Ltio.Sync.RefPtr.c83_count",
    "Ltio.Sync.RefPtr.w_c83"
   ],
   "note": "sequentially consistent interleavings"
  },
  {
   "property": "C84",
   "status": "partial",
   "theorems": [
    "Ltio.Guards.c84_exactly_once",
    "Ltio.Guards.c84_safe",
    "Ltio.Guards.c84_move_terminates",
    "Ltio.Guards.c84_move_uncancels",
    "Ltio.Guards.c84_copy_twice",
    "Ltio.Guards.w_c84"
   ],
   "note": "full for guards not moved or copied; violations proved: destroying a moved-from Defer ends the process, moving revives a cancelled guard, a copied ScopedGuard runs twice"
  },
  {
   "property": "C85",
   "status": "partial",
   "theorems": [
    "Ltio.Metrics.c85_gauge",
    "Ltio.Metrics.c85_minmax",
    "Ltio.Metrics.c85_gauge_merge",
    "Ltio.Metrics.c85_hist",
    "Ltio.Metrics.c85_percentile",
    "Ltio.Metrics.u32_spec",
    "Ltio.Metrics.c85_default",
    "Ltio.Metrics.c85_merge_sizes",
    "Ltio.Metrics.c85_min_is_zero",
    "Ltio.Metrics.c85_range_out_of_bounds",
    "Ltio.Metrics.c85_merge_loses",
    "Ltio.Metrics.c85_percentiles_wrong",
    "Ltio.Metrics.c85_percentiles_zero",
    "Ltio.Metrics.ok_default",
    "Ltio.Metrics.w_c85"
   ],
   "note": "count, sum, latest, buckets and single percentile in full for ranges that begin at zero; violations proved: minimum and maximum include zero, other ranges are accessed out of bounds, histograms are not merged, the list of percentiles is wrong"
  },
  {
   "property": "C86",
   "status": "partial",
   "theorems": [
    "Ltio.Metrics.Acc.c86_conservation",
    "Ltio.Metrics.Acc.c86_delivered",
    "Ltio.Metrics.Acc.c86_round",
    "Ltio.Metrics.Acc.c86_stop_loses",
    "Ltio.Metrics.Acc.w_c86"
   ],
   "note": "full while the collector runs; violation proved: Stop loses what was collected since the last round"
  },
  {
   "property": "C87",
   "status": "partial",
   "theorems": [
    "Ltio.Metrics.Stash.c87_conservation",
    "Ltio.Metrics.Stash.c87_at_most_once",
    "Ltio.Metrics.Stash.c87_lost",
    "Ltio.Metrics.Stash.c87_interval",
    "Ltio.Metrics.Stash.c87_live",
    "Ltio.Metrics.Stash.c87_delivered",
    "Ltio.Metrics.Stash.c87_round_robin",
    "Ltio.Metrics.Stash.c87_interval_ignored",
    "Ltio.Metrics.Stash.c87_turbo_loses",
    "Ltio.Metrics.Stash.c87_stop_loses",
    "Ltio.Metrics.Stash.w_c87"
   ],
   "note": "conservation for every schedule and delivery without turbo mode; violations proved: StopSync reports nothing of what is inside, turbo mode loses histograms, the interval set is not used"
  },
  {
   "property": "C88",
   "status": "proved",
   "theorems": [
    "Ltio.Metrics.c85_gauge",
    "Ltio.Metrics.c85_gauge_merge",
    "Ltio.Metrics.c85_hist",
    "Ltio.Metrics.c85_percentile",
    "Ltio.Metrics.u32_spec",
    "Ltio.Metrics.c85_default",
    "Ltio.Metrics.ok_default",
    "Ltio.Metrics.w_c85"
   ],
   "note": "the unconditional part of C85"
  },
  {
   "property": "C89",
   "status": "proved",
   "theorems": [
    "Ltio.Metrics.Acc.c86_conservation",
    "Ltio.Metrics.Acc.c86_delivered",
    "Ltio.Metrics.Acc.c86_round",
    "Ltio.Metrics.Acc.w_c86"
   ],
   "note": "the unconditional part of C86"
  },
  {
   "property": "C90",
   "status": "proved",
   "theorems": [
    "Ltio.Metrics.Stash.c87_conservation",
    "Ltio.Metrics.Stash.c87_at_most_once",
    "Ltio.Metrics.Stash.c87_lost",
    "Ltio.Metrics.Stash.c87_interval",
    "Ltio.Metrics.Stash.c87_live",
    "Ltio.Metrics.Stash.c87_delivered",
    "Ltio.Metrics.Stash.w_c87"
   ],
   "note": "the unconditional part of C87; delivery without turbo mode, queues of at most 10000 items"
  },
  {
   "property": "C91",
   "status": "partial",
   "theorems": [
    "Ltio.Source.c91_lines",
    "Ltio.Source.c91_table",
    "Ltio.Source.c91_int",
    "Ltio.Source.c91_int_forms",
    "Ltio.Source.c91_values",
    "Ltio.Source.c91_header_loaded",
    "Ltio.Source.c91_default_unused",
    "Ltio.Source.c91_missing_succeeds",
    "Ltio.Source.c91_long_delimiter",
    "Ltio.Source.c91_broken_hangs",
    "Ltio.Source.w_c91"
   ],
   "note": "lines and table in full for one-character delimiters and readable or missing files; violations proved: the header line is loaded, defaults are used for JSON only, missing files count as success, longer delimiters cut wrongly, an unreadable path hangs the loader"
  },
  {
   "property": "C92",
   "status": "proved",
   "theorems": [
    "Ltio.Rand.c92_in_range",
    "Ltio.Rand.c92_uniform",
    "Ltio.Rand.c92_accepts_half",
    "Ltio.Rand.c92_ends",
    "Ltio.Rand.c92_randInt",
    "Ltio.Rand.c92_unit",
    "Ltio.Rand.c92_unit_uniform",
    "Ltio.Rand.c92_bytes",
    "Ltio.Rand.w_c92"
   ],
   "note": "the source's words are arbitrary; the double is modelled by its numerator over 2^53 (ldexp is exact)"
  },
  {
   "property": "C93",
   "status": "proved",
   "theorems": [
    "Ltio.Source.c91_lines",
    "Ltio.Source.c91_table",
    "Ltio.Source.c91_int",
    "Ltio.Source.c91_int_forms",
    "Ltio.Source.c91_values",
    "Ltio.Source.w_c91"
   ],
   "note": "the unconditional part of C91"
  },
  {
   "property": "C94",
   "status": "partial",
   "theorems": [
    "Ltio.Time.c94_add_sub",
    "Ltio.Time.c94_infinite",
    "Ltio.Time.c94_mul_div",
    "Ltio.Time.c94_div_zero",
    "Ltio.Time.c94_neg_magnitude",
    "Ltio.Time.c94_from",
    "Ltio.Time.c94_in",
    "Ltio.Time.c94_in_infinite",
    "Ltio.Time.c94_floor_ceil",
    "Ltio.Time.c94_round",
    "Ltio.Time.c94_int_div",
    "Ltio.Time.c94_time",
    "Ltio.Time.c94_timespec",
    "Ltio.Time.c94_nanoseconds_finite",
    "Ltio.Time.c94_negative_timespec",
    "Ltio.Time.c94_time_wraps",
    "Ltio.Time.c94_round_overflows",
    "Ltio.Time.c94_infinity_lost",
    "Ltio.Time.c94_opposite_infinite",
    "Ltio.Time.w_c94"
   ],
   "note": "floating-point conversions are not modelled; violations proved: infinity plus or times a number is finite, differences of times wrap around, rounding near the limits overflows, negative deltas give invalid timespecs"
  },
  {
   "property": "C95",
   "status": "partial",
   "theorems": [
    "Ltio.Time.Cal.c95_normalize",
    "Ltio.Time.Cal.c95_implode",
    "Ltio.Time.Cal.c95_unique",
    "Ltio.Time.Cal.year_iff",
    "Ltio.Time.Cal.valid_instant",
    "Ltio.Time.Cal.c95_year_zero",
    "Ltio.Time.Cal.w_c95"
   ],
   "note": "full from year 1 on; violation proved: year 0 is taken for a common year"
  },
  {
   "property": "C96",
   "status": "partial",
   "theorems": [
    "Ltio.Time.Parse.c96_rfc1123",
    "Ltio.Time.Parse.c96_zone",
    "Ltio.Time.Parse.c96_named_zone",
    "Ltio.Time.Parse.c96_rfc850",
    "Ltio.Time.Parse.c96_asctime",
    "Ltio.Time.Parse.c96_iso8601",
    "Ltio.Time.Parse.c96_fromUTCString",
    "Ltio.Time.Parse.c96_minus_one_minute",
    "Ltio.Time.Parse.c96_small_years",
    "Ltio.Time.Parse.c96_impossible",
    "Ltio.Time.Parse.w_c96"
   ],
   "note": "formats in full, default-GMT mode; violations proved: the zone -0001 is GMT, ISO 8601 years below 100 are misread, impossible dates are accepted"
  },
  {
   "property": "C97",
   "status": "partial",
   "theorems": [
    "Ltio.Time.Conv.c97_explode",
    "Ltio.Time.Conv.c97_from_exploded",
    "Ltio.Time.Conv.c97_round_trip",
    "Ltio.Time.Conv.c97_midnight",
    "Ltio.Time.Conv.c97_time_t",
    "Ltio.Time.Conv.c97_timeval",
    "Ltio.Time.Conv.c97_ms_timeval",
    "Ltio.Time.Conv.c97_early_midnight",
    "Ltio.Time.Conv.c97_time_t_wrong",
    "Ltio.Time.Conv.c97_timeval_wrong",
    "Ltio.Time.Conv.w_c97"
   ],
   "note": "gmtime_r and timegm by contract, local time and doubles not modelled; violations proved: a timeval of whole seconds ends the process, early times come back wrong or end the process, timevals before 1970 have negative microseconds"
  },
  {
   "property": "C98",
   "status": "proved",
   "theorems": [
    "Ltio.Time.c94_add_sub",
    "Ltio.Time.c94_infinite",
    "Ltio.Time.c94_mul_div",
    "Ltio.Time.c94_div_zero",
    "Ltio.Time.c94_neg_magnitude",
    "Ltio.Time.c94_from",
    "Ltio.Time.c94_in",
    "Ltio.Time.c94_in_infinite",
    "Ltio.Time.c94_floor_ceil",
    "Ltio.Time.c94_round",
    "Ltio.Time.c94_int_div",
    "Ltio.Time.c94_time",
    "Ltio.Time.c94_timespec",
    "Ltio.Time.w_c94"
   ],
   "note": "the unconditional part of C94"
  },
  {
   "property": "C99",
   "status": "proved",
   "theorems": [
    "Ltio.Time.Cal.c95_normalize",
    "Ltio.Time.Cal.c95_implode",
    "Ltio.Time.Cal.c95_unique",
    "Ltio.Time.Cal.year_iff",
    "Ltio.Time.Cal.valid_instant",
    "Ltio.Time.Cal.w_c95"
   ],
   "note": "the unconditional part of C95"
  },
  {
   "property": "C100",
   "status": "proved",
   "theorems": [
    "Ltio.Time.Parse.c96_rfc1123",
    "Ltio.Time.Parse.c96_zone",
    "Ltio.Time.Parse.c96_named_zone",
    "Ltio.Time.Parse.c96_rfc850",
    "Ltio.Time.Parse.c96_asctime",
    "Ltio.Time.Parse.c96_iso8601",
    "Ltio.Time.Parse.c96_fromUTCString",
    "Ltio.Time.Parse.w_c96"
   ],
   "note": "the unconditional part of C96"
  },
  {
   "property": "C101",
   "status": "proved",
   "theorems": [
    "Ltio.Time.Conv.c97_explode",
    "Ltio.Time.Conv.c97_from_exploded",
    "Ltio.Time.Conv.c97_round_trip",
    "Ltio.Time.Conv.c97_midnight",
    "Ltio.Time.Conv.c97_ms_timeval",
    "Ltio.Time.Conv.w_c97"
   ],
   "note": "the unconditional part of C97; gmtime_r and timegm by contract"
  },
  {
   "property": "C102",
   "status": "partial",
   "theorems": [
    "Ltio.Gzip.c102_gunzip_prefix",
    "Ltio.Gzip.c103_deflate_round_trip",
    "Ltio.Gzip.c103_compress",
    "Ltio.Gzip.c102_gunzip_padded",
    "Ltio.Gzip.c102_large_input",
    "Ltio.Gzip.w_c102"
   ],
   "note": "zlib by contract; violations proved: decompress_gzip does not cut its output, inputs of 4 GiB or more are compressed in part and reported as success"
  },
  {
   "property": "C103",
   "status": "proved",
   "theorems": [
    "Ltio.Gzip.c103_compress",
    "Ltio.Gzip.c103_inflate",
    "Ltio.Gzip.c103_deflate_round_trip",
    "Ltio.Gzip.c103_large_output",
    "Ltio.Gzip.w_c102"
   ],
   "note": "the unconditional part of C102; zlib by contract"
  },
  {
   "property": "C104",
   "status": "partial",
   "theorems": [
    "Ltio.H2.c104_independent",
    "Ltio.H2.c104_no_body",
    "Ltio.H2.c104_body",
    "Ltio.H2.c104_closed",
    "Ltio.H2.c104_twice",
    "Ltio.H2.c104_trailers",
    "Ltio.H2.c104_cookie_lost",
    "Ltio.H2.w_c104"
   ],
   "note": "nghttp2 by its callbacks; violations proved: a request with a body is delivered twice, first without body; bodies followed by trailers are never delivered; of several fields of a name only the first is kept"
  },
  {
   "property": "C105",
   "status": "proved",
   "theorems": [
    "Ltio.H2.c105_lookup",
    "Ltio.H2.c105_none",
    "Ltio.H2.w_c105"
   ],
   "note": ""
  },
  {
   "property": "C106",
   "status": "partial",
   "theorems": [
    "Ltio.H2.c106_fits",
    "Ltio.H2.c106_fields",
    "Ltio.H2.c106_push",
    "Ltio.H2.c106_large",
    "Ltio.H2.c106_prefix_lost",
    "Ltio.H2.c106_push_silent"
   ],
   "note": "nghttp2 by contract; violations proved: bodies over 16 KiB are not sent and close the connection, fields whose names begin connection or content-length are lost, the push callback may never be called"
  },
  {
   "property": "C107",
   "status": "proved",
   "theorems": [
    "Ltio.H2.c104_independent",
    "Ltio.H2.c104_no_body",
    "Ltio.H2.c104_body",
    "Ltio.H2.c104_closed",
    "Ltio.H2.c106_fits",
    "Ltio.H2.c106_fields",
    "Ltio.H2.c106_push",
    "Ltio.H2.w_c104"
   ],
   "note": "the unconditional part of C104 and C106"
  },
  {
   "property": "C108",
   "status": "proved",
   "theorems": [
    "Ltio.Hash.Sha1.c108_sha1",
    "Ltio.Hash.Sha1.c108_in_bounds",
    "Ltio.Hash.Sha1.c108_length",
    "Ltio.Hash.Sha1.c108_reuse",
    "Ltio.Hash.Sha1.c108_string"
   ],
   "note": "little-endian hosts; the file digest and the report functions are not modelled"
  },
  {
   "property": "C109",
   "status": "proved",
   "theorems": [
    "Ltio.Hash.Sha1.c109_accept_key",
    "Ltio.Hash.Sha1.c109_zero_byte"
   ],
   "note": ""
  },
  {
   "property": "C110",
   "status": "proved",
   "theorems": [
    "Ltio.Hash.Md5.c110_md5",
    "Ltio.Hash.Md5.c110_in_bounds",
    "Ltio.Hash.Md5.c110_large_violated"
   ],
   "note": "appends of 2^28 bytes or more overflow an int and are undefined (proved as a finding)"
  },
  {
   "property": "C111",
   "status": "proved",
   "theorems": [
    "Ltio.Hash.Crc.c111_blocks",
    "Ltio.Hash.Crc.c111_crc32_le",
    "Ltio.Hash.Crc.c111_crc64",
    "Ltio.Hash.Crc.c111_crc8",
    "Ltio.Hash.Crc.c111_crc16_ansi",
    "Ltio.Hash.Crc.c111_crc16_ccitt",
    "Ltio.Hash.Crc.c111_crc32"
   ],
   "note": "crc8 and crc16: start values of that width"
  },
  {
   "property": "C112",
   "status": "proved",
   "theorems": [
    "Ltio.Hash.Crc.c112_rev_crc",
    "Ltio.Hash.Crc.c112_crc_rev",
    "Ltio.Hash.Crc.c112_burst",
    "Ltio.Hash.Crc.c112_burst_narrow",
    "Ltio.Hash.Crc.c112_start"
   ],
   "note": ""
  },
  {
   "property": "C113",
   "status": "proved",
   "theorems": [
    "Ltio.Hash.Murmur.c113_x86_32",
    "Ltio.Hash.Murmur.c113_x64_128",
    "Ltio.Hash.Murmur.c113_only_key"
   ],
   "note": "little-endian hosts; MurmurHash3_x86_128 (no caller) is not modelled"
  },
  {
   "property": "C114",
   "status": "proved",
   "theorems": [
    "Ltio.Hash.Murmur.c114_word32",
    "Ltio.Hash.Murmur.c114_block128",
    "Ltio.Hash.Murmur.c114_short",
    "Ltio.Hash.Murmur.c114_seed",
    "Ltio.Hash.Murmur.c114_families"
   ],
   "note": "Bloom filters with fewer than 25 million hash functions, sketches with fewer than 2^31 rows"
  },
  {
   "property": "C115",
   "status": "partial",
   "theorems": [
    "Ltio.WebSocket.Server.c115_answers",
    "Ltio.WebSocket.Server.c115_accepted",
    "Ltio.WebSocket.Server.c115_unregistered",
    "Ltio.WebSocket.Server.c115_accept_value",
    "Ltio.WebSocket.Server.c115_missing_key_violated",
    "Ltio.WebSocket.Server.c115_case_violated",
    "Ltio.WebSocket.Server.c115_llhttp_violated",
    "Ltio.WebSocket.Server.c115_two_answers_violated"
   ],
   "note": "violations proved: with llhttp's documented pause after upgrade requests no conforming client is ever accepted (101 then 400, closed); a missing key is accepted; Upgrade: WebSocket is refused"
  },
  {
   "property": "C116",
   "status": "partial",
   "theorems": [
    "Ltio.WebSocket.Server.c116_order",
    "Ltio.WebSocket.Server.c116_closed_final",
    "Ltio.WebSocket.Server.c116_proper_partial",
    "Ltio.WebSocket.Server.c116_close_and_eof_violated",
    "Ltio.WebSocket.Server.c116_close_and_stop_violated",
    "Ltio.WebSocket.Server.c116_after_close_violated",
    "Ltio.WebSocket.Server.c116_never_opened_violated"
   ],
   "note": "proper calls proved for clean histories; violations proved: OnClose twice, messages after OnClose, OnClose without OnOpen"
  },
  {
   "property": "C117",
   "status": "partial",
   "theorems": [
    "Ltio.WebSocket.WsClient.c117_ready_iff",
    "Ltio.WebSocket.WsClient.c117_order",
    "Ltio.WebSocket.WsClient.c117_key",
    "Ltio.WebSocket.WsClient.c117_accept_unchecked_violated",
    "Ltio.WebSocket.WsClient.c117_llhttp_violated",
    "Ltio.WebSocket.WsClient.c118_no_close_violated"
   ],
   "note": "violations proved: the accept value is never compared with the key; with llhttp's documented pause no client ever opens; no close callback after a failed write"
  },
  {
   "property": "C118",
   "status": "proved",
   "theorems": [
    "Ltio.WebSocket.WsClient.c118_accounted",
    "Ltio.WebSocket.WsClient.c118_send",
    "Ltio.WebSocket.WsClient.c118_failed_final"
   ],
   "note": "one connection per client; everything in the loop thread"
  },
  {
   "property": "C119",
   "status": "proved",
   "theorems": [
    "Ltio.WebSocket.Server.c115_answers",
    "Ltio.WebSocket.Server.c115_accepted",
    "Ltio.WebSocket.Server.c115_unregistered",
    "Ltio.WebSocket.Server.c115_accept_value",
    "Ltio.WebSocket.Server.c116_order",
    "Ltio.WebSocket.Server.c116_closed_final",
    "Ltio.WebSocket.WsClient.c117_ready_iff",
    "Ltio.WebSocket.WsClient.c117_order",
    "Ltio.WebSocket.WsClient.c117_key"
   ],
   "note": "the unconditional part of C115-C117; llhttp is any machine"
  },
  {
   "property": "C120",
   "status": "proved",
   "theorems": [
    "Ltio.Http.UrlParser.c120_iff",
    "Ltio.Http.UrlParser.c120_origin",
    "Ltio.Http.UrlParser.c120_origin_iff",
    "Ltio.Http.UrlParser.c120_absolute",
    "Ltio.Http.UrlParser.c120_within",
    "Ltio.Http.UrlParser.c120_connect",
    "Ltio.Http.UrlParser.c120_long_violated"
   ],
   "note": "the CONNECT form for the bounds and that nothing but host and port is accepted; from 64 KiB on lengths are reported modulo 65536 (proved as a finding)"
  },
  {
   "property": "C121",
   "status": "partial",
   "theorems": [
    "Ltio.Http.RequestUrl.c121_pieces",
    "Ltio.Http.RequestUrl.c121_target",
    "Ltio.Http.RequestUrl.c121_set",
    "Ltio.Http.RequestUrl.c121_reset",
    "Ltio.Http.RequestUrl.c121_empty",
    "Ltio.Http.RequestUrl.c121_replace_violated",
    "Ltio.Http.RequestUrl.c121_pieces_violated"
   ],
   "note": "violations proved: replacing a URL by one without a path or one that does not parse, or appending a piece that makes it not parse, leaves Path() pointing into freed characters"
  },
  {
   "property": "C122",
   "status": "proved",
   "theorems": [
    "Ltio.Http.RequestUrl.c121_pieces",
    "Ltio.Http.RequestUrl.c121_target",
    "Ltio.Http.RequestUrl.c121_set",
    "Ltio.Http.RequestUrl.c121_reset",
    "Ltio.Http.RequestUrl.c121_empty"
   ],
   "note": "the unconditional part of C121"
  },
  {
   "property": "C123",
   "status": "proved",
   "theorems": [
    "Ltio.Net.Acceptor.c123_tidy",
    "Ltio.Net.Acceptor.c123_once",
    "Ltio.Net.Acceptor.c123_stopped",
    "Ltio.Net.Acceptor.c123_error",
    "Ltio.Net.Acceptor.c123_start",
    "Ltio.Net.Acceptor.c123_reopened"
   ],
   "note": "system calls are given by their outcomes; the kernel gives descriptors that are not in use"
  },
  {
   "property": "C124",
   "status": "partial",
   "theorems": [
    "Ltio.Net.Acceptor.c123_error",
    "Ltio.Net.Acceptor.c124_deaf_violated",
    "Ltio.Net.Acceptor.c124_stop_violated"
   ],
   "note": "violations proved: an error that cannot be repaired at once leaves the acceptor deaf for ever and nobody is told; a stopped acceptor's kernel socket keeps completing connections"
  },
  {
   "property": "C125",
   "status": "partial",
   "theorems": [
    "Ltio.Net.Acceptor.c125_peer_v4",
    "Ltio.Net.Acceptor.c125_endpoint_v4",
    "Ltio.Net.Acceptor.c125_self_v4",
    "Ltio.Net.Acceptor.c125_self_v6",
    "Ltio.Net.Acceptor.c125_peer_v6_violated",
    "Ltio.Net.Acceptor.c125_endpoint_v6_violated"
   ],
   "note": "proved for IPv4; violations proved for IPv6: the peer of every accepted connection is empty, half of an end point's address is read from behind the structure"
  },
  {
   "property": "C126",
   "status": "proved",
   "theorems": [
    "Ltio.Net.Udp.c126_datagrams",
    "Ltio.Net.Udp.c126_cut_violated"
   ],
   "note": "larger datagrams are cut without a notice (proved as a finding); the service only logs what it handles, it has no receiver interface"
  },
  {
   "property": "C127",
   "status": "partial",
   "theorems": [
    "Ltio.Net.Udp.c127_start",
    "Ltio.Net.Udp.c127_stays",
    "Ltio.Net.Udp.c127_abort_violated",
    "Ltio.Net.Udp.c127_double_close_violated",
    "Ltio.Net.Udp.c127_dangling_violated"
   ],
   "note": "violations proved: after StopService the next event installed for the reused descriptor aborts the process; a second stop or the end closes a descriptor of others; the event of an ended service stays registered"
  },
  {
   "property": "C128",
   "status": "partial",
   "theorems": [
    "Ltio.Text.StringView.c128_find",
    "Ltio.Text.StringView.c128_find_empty",
    "Ltio.Text.StringView.c128_rfind",
    "Ltio.Text.StringView.c128_first_of",
    "Ltio.Text.StringView.c128_first_not_of",
    "Ltio.Text.StringView.c128_last_of",
    "Ltio.Text.StringView.c128_last_not_of",
    "Ltio.Text.StringView.c128_find_end_violated"
   ],
   "note": "proved for all searches but one; violation proved: an empty text is not found at the end of the view"
  },
  {
   "property": "C129",
   "status": "proved",
   "theorems": [
    "Ltio.Text.StringView.c129_compare",
    "Ltio.Text.StringView.c129_substr",
    "Ltio.Text.StringView.c129_affix",
    "Ltio.Text.StringView.c129_remove"
   ],
   "note": "views below the largest size"
  },
  {
   "property": "C130",
   "status": "partial",
   "theorems": [
    "Ltio.Text.StringView.c130_insert_partial",
    "Ltio.Text.StringView.c130_default_violated"
   ],
   "note": "violation proved: on a stream without an alignment set the padding is on the wrong side"
  },
  {
   "property": "C131",
   "status": "proved",
   "theorems": [
    "Ltio.Num.c131_in_range",
    "Ltio.Num.c131_checked_cast",
    "Ltio.Num.c131_saturated_cast",
    "Ltio.Num.c131_compare",
    "Ltio.Num.c131_contained"
   ],
   "note": "integer types; floating point and the ARM assembler paths are not modelled"
  },
  {
   "property": "C132",
   "status": "partial",
   "theorems": [
    "Ltio.Num.c132_op",
    "Ltio.Num.c132_expr",
    "Ltio.Num.c132_in_type",
    "Ltio.Num.c132_read",
    "Ltio.Num.c132_div_sound",
    "Ltio.Num.c132_mod_violated",
    "Ltio.Num.c132_div_violated",
    "Ltio.Num.c132_neg_violated",
    "Ltio.Num.c132_not_violated"
   ],
   "note": "gcc's built-in overflow checks by contract; violations proved: a remainder of a negative number and a uint64 is wrong and valid, such a quotient is invalid though representable, negated unsigned numbers wrap and are valid, complements of signed numbers are invalid"
  },
  {
   "property": "C133",
   "status": "partial",
   "theorems": [
    "Ltio.Num.c133_add",
    "Ltio.Num.c133_sub",
    "Ltio.Num.c133_mul",
    "Ltio.Num.c133_div",
    "Ltio.Num.c133_mod",
    "Ltio.Num.c133_lsh",
    "Ltio.Num.c133_rsh",
    "Ltio.Num.c133_max_min",
    "Ltio.Num.c133_neg_abs",
    "Ltio.Num.c133_add_violated",
    "Ltio.Num.c133_div_violated",
    "Ltio.Num.c133_mod_violated"
   ],
   "note": "violations proved: ClampAdd(-5, 3u) is the largest uint32, ClampedNumeric<int64_t>(-100) /= uint64_t(10) is the lowest int64, ClampMod(-5, 3u) is 4294967291"
  },
  {
   "property": "C134",
   "status": "proved",
   "theorems": [
    "Ltio.Num.c132_op",
    "Ltio.Num.c132_expr",
    "Ltio.Num.c132_in_type",
    "Ltio.Num.c132_read",
    "Ltio.Num.c132_div_sound"
   ],
   "note": "gcc's built-in overflow checks by contract"
  },
  {
   "property": "C135",
   "status": "proved",
   "theorems": [
    "Ltio.Num.c133_add",
    "Ltio.Num.c133_sub",
    "Ltio.Num.c133_mul",
    "Ltio.Num.c133_div",
    "Ltio.Num.c133_mod",
    "Ltio.Num.c133_lsh",
    "Ltio.Num.c133_rsh",
    "Ltio.Num.c133_max_min",
    "Ltio.Num.c133_neg_abs"
   ],
   "note": "gcc's built-in overflow checks by contract"
  },
  {
   "property": "C136",
   "status": "proved",
   "theorems": [
    "Ltio.Base64.UrlSafe.c136_rfc",
    "Ltio.Base64.UrlSafe.c136_size",
    "Ltio.Base64.UrlSafe.c136_roundtrip"
   ],
   "note": "sizes below 2^29, where the size macro does not overflow int"
  },
  {
   "property": "C137",
   "status": "partial",
   "theorems": [
    "Ltio.Base64.UrlSafe.c138_exact",
    "Ltio.Base64.UrlSafe.c138_refused",
    "Ltio.Base64.UrlSafe.c137_high_bytes_violated",
    "Ltio.Base64.UrlSafe.c137_padding_violated"
   ],
   "note": "violations proved: the table has 14 of 16 rows, so bytes 0xE0-0xFF are taken as A; = is accepted anywhere as a digit 64"
  },
  {
   "property": "C138",
   "status": "proved",
   "theorems": [
    "Ltio.Base64.UrlSafe.c138_exact",
    "Ltio.Base64.UrlSafe.c138_refused",
    "Ltio.Base64.UrlSafe.c138_padded",
    "Ltio.Base64.UrlSafe.c138_bound"
   ],
   "note": "the unconditional part of C137"
  },
  {
   "property": "C139",
   "status": "proved",
   "theorems": [
    "Ltio.Loop.Epoll.c139_interest",
    "Ltio.Loop.Epoll.c139_only_installed",
    "Ltio.Loop.Epoll.c139_answers"
   ],
   "note": "epoll_ctl by contract; descriptors are not duplicated"
  },
  {
   "property": "C140",
   "status": "partial",
   "theorems": [
    "Ltio.Loop.Epoll.c141_reported",
    "Ltio.Loop.Epoll.c141_enabled",
    "Ltio.Loop.Epoll.c140_install_violated",
    "Ltio.Loop.Epoll.c140_edge_violated",
    "Ltio.Loop.Epoll.c140_closed_violated",
    "Ltio.Loop.Epoll.c140_error_violated",
    "Ltio.Loop.Epoll.c140_disabled_violated",
    "Ltio.Loop.Epoll.c140_wait_violated"
   ],
   "note": "violations proved: errors are never told as errors, neither to handlers nor to waiting coroutines; shutdowns and hang-ups are told although nothing is enabled; a refused installation reports success; trigger mode changes of installed events and changes after the descriptor was closed are lost"
  },
  {
   "property": "C141",
   "status": "proved",
   "theorems": [
    "Ltio.Loop.Epoll.c141_reported",
    "Ltio.Loop.Epoll.c141_enabled",
    "Ltio.Loop.Epoll.c141_wait"
   ],
   "note": "epoll_wait by contract"
  },
  {
   "property": "C142",
   "status": "proved",
   "theorems": [
    "Ltio.Server.Reply.c142_first_answer",
    "Ltio.Server.Reply.c142_at_most_once",
    "Ltio.Server.Reply.c142_all_sent",
    "Ltio.Server.Reply.c142_order_on_loop",
    "Ltio.Server.Reply.c142_order_off_loop",
    "Ltio.Server.Reply.c142_closes",
    "Ltio.Server.Reply.c142_responded",
    "Ltio.Server.Reply.c142_call_enabled",
    "Ltio.Server.Reply.c142_send_closes"
   ],
   "note": "posted tasks run in order while the loop runs (C63)"
  },
  {
   "property": "C143",
   "status": "partial",
   "theorems": [
    "Ltio.Server.Reply.c142_first_answer",
    "Ltio.Server.Reply.c142_at_most_once",
    "Ltio.Server.Reply.c143_http_twice_violated",
    "Ltio.Server.Reply.c143_race_violated",
    "Ltio.Server.Reply.c143_order_violated",
    "Ltio.Server.Reply.c143_close_twice_violated",
    "Ltio.Server.Reply.c143_file_violated"
   ],
   "note": "violations proved: HttpRequestCtx::Response twice sends two responses; two threads can both pass the test of did_reply_; responses to pipelined requests are reordered; a reply is written after the connection was closed, which is then closed again; File aborts the process"
  },
  {
   "property": "C144",
   "status": "proved",
   "theorems": [
    "Ltio.Server.Registry.c144_last_wins",
    "Ltio.Server.Registry.c144_builtin",
    "Ltio.Server.Registry.c144_unknown",
    "Ltio.Server.Registry.c144_independent",
    "Ltio.Server.Registry.c144_sides_agree",
    "Ltio.Server.Registry.c144_tls",
    "Ltio.Server.Registry.c144_builtin_serves"
   ],
   "note": ""
  },
  {
   "property": "C145",
   "status": "partial",
   "theorems": [
    "Ltio.Server.Registry.c145_secure_otherwise",
    "Ltio.Server.Registry.c144_builtin_serves",
    "Ltio.Server.Registry.c145_rawssl_plain_violated",
    "Ltio.Server.Registry.c145_empty_creator_violated",
    "Ltio.Server.Registry.c145_null_codec_violated"
   ],
   "note": "violations proved: rawSSL is served and dialled in the clear; a server for a scheme with an empty creator starts and drops every connection; a creator returning null crashes the process"
  },
  {
   "property": "C146",
   "status": "proved",
   "theorems": [
    "Ltio.Server.Assign.c146_even",
    "Ltio.Server.Assign.c146_valid",
    "Ltio.Server.Assign.c146_consecutive"
   ],
   "note": "build without LTIO_ENABLE_REUSER_PORT"
  },
  {
   "property": "C147",
   "status": "partial",
   "theorems": [
    "Ltio.Server.Assign.c146_even",
    "Ltio.Server.Assign.c146_valid",
    "Ltio.Server.Assign.c147_shared_counter_violated",
    "Ltio.Server.Assign.c147_shared_counter_load",
    "Ltio.Server.Assign.c147_wrap_violated"
   ],
   "note": "violations proved: the counter is shared by all servers of one configuration, so two servers accepting in turn use one loop each; at the 32-bit wrap the loops drift unless their number divides 2^32"
  },
  {
   "property": "C148",
   "status": "proved",
   "theorems": [
    "Ltio.Server.Assign.c148_callbacks",
    "Ltio.Server.Assign.c148_completes",
    "Ltio.Server.Assign.c148_alternate"
   ],
   "note": "one report per service (C62 for the inside of a service)"
  },
  {
   "property": "C149",
   "status": "partial",
   "theorems": [
    "Ltio.Server.Assign.c148_callbacks",
    "Ltio.Server.Assign.c149_restart_violated",
    "Ltio.Server.Assign.c149_restart_twice_violated"
   ],
   "note": "violations proved: started again while stopping, the first stop's callback is never called, or the second's is called twice"
  },
  {
   "property": "C150",
   "status": "proved",
   "theorems": [
    "Ltio.Loop.Delay.c150_exactly_once",
    "Ltio.Loop.Delay.c150_not_early",
    "Ltio.Loop.Delay.c150_when_due",
    "Ltio.Loop.Delay.c150_helper",
    "Ltio.Loop.Delay.c150_reply_after"
   ],
   "note": "while no abort (C151); timers fire exactly when due (C26, C59)"
  },
  {
   "property": "C151",
   "status": "partial",
   "theorems": [
    "Ltio.Loop.Delay.c150_exactly_once",
    "Ltio.Loop.Delay.c150_reply_after",
    "Ltio.Loop.Delay.c151_reply_loop_violated",
    "Ltio.Loop.Delay.c151_reply_gone_violated",
    "Ltio.Loop.Delay.c151_stopped_violated"
   ],
   "note": "violations proved: the reply runs on the target loop, not the caller's; a reply to a loop that ended aborts the process; a delayed task of a loop that ends first is dropped"
  },
  {
   "property": "C152",
   "status": "proved",
   "theorems": [
    "Ltio.Coro.Server.c152_stream",
    "Ltio.Coro.Server.c152_safe",
    "Ltio.Coro.Server.c152_progress",
    "Ltio.Coro.Server.c152_ended",
    "Ltio.Coro.Server.c152_accepted",
    "Ltio.Coro.Server.c152_accepts",
    "Ltio.Coro.Server.c152_peer_v4"
   ],
   "note": "one loop; codec registered"
  },
  {
   "property": "C153",
   "status": "partial",
   "theorems": [
    "Ltio.Coro.Server.c152_stream",
    "Ltio.Coro.Server.c152_safe",
    "Ltio.Coro.Server.c153_handler_waits_violated",
    "Ltio.Coro.Server.c153_close_elsewhere_violated",
    "Ltio.Coro.Server.c153_after_close_violated",
    "Ltio.Coro.Server.c153_unknown_codec_violated",
    "Ltio.Coro.Server.c153_peer_v6_violated"
   ],
   "note": "violations proved: a handler that waits lets the next event of the connection end the process; a close from outside the connection's coroutine leaves the descriptor open until the peer acts, and its next message is still handled; with an unknown codec the first connection ends the process; IPv6 peer addresses are lost"
  },
  {
   "property": "C154",
   "status": "proved",
   "theorems": [
    "Ltio.BoolIndex.Build.c154_conj",
    "Ltio.BoolIndex.Build.c154_doc",
    "Ltio.BoolIndex.Build.c154_log",
    "Ltio.BoolIndex.Build.c154_owned",
    "Ltio.BoolIndex.Build.c154_no_leak"
   ],
   "note": "release build; C12-C14 for the index itself"
  },
  {
   "property": "C155",
   "status": "partial",
   "theorems": [
    "Ltio.BoolIndex.Build.c154_conj",
    "Ltio.BoolIndex.Build.c154_doc",
    "Ltio.BoolIndex.Build.c154_log",
    "Ltio.BoolIndex.Build.c154_owned",
    "Ltio.BoolIndex.Build.c154_no_leak",
    "Ltio.BoolIndex.Build.c155_duplicate_violated",
    "Ltio.BoolIndex.Build.c155_unreachable_violated",
    "Ltio.BoolIndex.Build.c155_late_violated",
    "Ltio.BoolIndex.Build.c155_copy_violated",
    "Ltio.BoolIndex.Build.c155_move_leak_violated"
   ],
   "note": "violations proved: a second expression on a field is dropped but counted, so the document is never found; expressions added after AddConjunction are not counted; a copied document's conjunctions are deleted twice; move assignment leaks the target's conjunctions"
  },
  {
   "property": "C156",
   "status": "proved",
   "theorems": [
    "Ltio.Time.Ticks.c156_ticks",
    "Ltio.Time.Ticks.c156_ticks_order",
    "Ltio.Time.Ticks.c156_time_us",
    "Ltio.Time.Ticks.c156_delta",
    "Ltio.Time.Ticks.c156_time_now",
    "Ltio.Time.Ticks.c156_epoch",
    "Ltio.Time.Ticks.c156_stamp",
    "Ltio.Time.Ticks.c156_stamp_order"
   ],
   "note": "clock_gettime and gettimeofday by contract"
  },
  {
   "property": "C157",
   "status": "proved",
   "theorems": [
    "Ltio.Net.E2E.RawPair.c157_prefix",
    "Ltio.Net.E2E.RawPair.c157_complete",
    "Ltio.Net.E2E.RawPair.c157_progress"
   ],
   "note": "TCP by contract (reliable, in order); a message below 2^31 bytes; that an empty payload may be reported as a failure is C24's violation"
  },
  {
   "property": "C158",
   "status": "proved",
   "theorems": [
    "Ltio.Net.E2E.RawPair.c158_answers",
    "Ltio.Net.E2E.RawPair.c158_rpc",
    "Ltio.Net.E2E.RawPair.demo_answers"
   ],
   "note": "on top of C157 and C21"
  },
  {
   "property": "C159",
   "status": "proved",
   "theorems": [
    "Ltio.Net.E2E.WsPair.c159_prefix",
    "Ltio.Net.E2E.WsPair.c159_complete",
    "Ltio.Net.E2E.WsPair.c159_progress"
   ],
   "note": "after the handshake (C117); messages in single frames, as the code sends them"
  },
  {
   "property": "C160",
   "status": "partial",
   "theorems": [
    "Ltio.Net.E2E.LinePair.c160_prefix_partial",
    "Ltio.Net.E2E.LinePair.c160_stuck_violated"
   ],
   "note": "order and integrity proved; violation proved: of two lines that arrive together only the first is handed on"
  },
  {
   "property": "C161",
   "status": "proved",
   "theorems": [
    "Ltio.Coro.Sched.c161_once",
    "Ltio.Coro.Sched.c161_order",
    "Ltio.Coro.Sched.c161_round",
    "Ltio.Coro.Sched.c161_next_round",
    "Ltio.Coro.Sched.c161_bounded",
    "Ltio.Coro.Sched.c161_progress",
    "Ltio.Coro.Sched.c161_background",
    "Ltio.Coro.Sched.c161_go_once"
   ],
   "note": "one runner, the others as environment; the concurrent queues by contract; tasks end or wait"
  },
  {
   "property": "C162",
   "status": "partial",
   "theorems": [
    "Ltio.Coro.Sched.c161_round",
    "Ltio.Coro.Sched.c161_bounded",
    "Ltio.Coro.Sched.c162_duel_violated",
    "Ltio.Coro.Sched.c162_nobody_runs_violated"
   ],
   "note": "violations proved: two coroutines that wake each other keep one turn of the runner going for ever, so nothing else on this loop runs; CO_GO on a loop in a program without a runner is never started"
  },
  {
   "property": "C163",
   "status": "proved",
   "theorems": [
    "Ltio.Http.Alpn.c163_safe",
    "Ltio.Http.Alpn.c163_choice",
    "Ltio.Http.Alpn.c163_own"
   ],
   "note": "OpenSSL hands the list over and copies the result"
  },
  {
   "property": "C164",
   "status": "proved",
   "theorems": [
    "Ltio.Text.Num.c164_toInt",
    "Ltio.Text.Num.c164_toInt_fail",
    "Ltio.Text.Num.c164_toInt_text",
    "Ltio.Text.Num.c164_parse",
    "Ltio.Text.Num.c164_array",
    "Ltio.Text.Num.c164_bool"
   ],
   "note": "stoi, stoll and stream extraction by contract; signed types"
  },
  {
   "property": "C165",
   "status": "partial",
   "theorems": [
    "Ltio.Text.Num.c164_toInt",
    "Ltio.Text.Num.c165_parseTo_violated",
    "Ltio.Text.Num.c165_trailing_violated",
    "Ltio.Text.Num.c165_blank_violated"
   ],
   "note": "violations proved: ParseTo answers false for every well-formed number and true for a number followed by other characters; ToInt ignores what follows the digits; Parse of a blank text returns an uninitialised value"
  },
  {
   "property": "C166",
   "status": "proved",
   "theorems": [
    "Ltio.Inv.Json.c166_expr_exact",
    "Ltio.Inv.Json.c166_expr_roundtrip",
    "Ltio.Inv.Json.c166_doc_exact",
    "Ltio.Inv.Json.c166_doc_roundtrip"
   ],
   "note": "nlohmann::json by contract"
  },
  {
   "property": "C167",
   "status": "partial",
   "theorems": [
    "Ltio.Inv.Json.c166_expr_exact",
    "Ltio.Inv.Json.c166_doc_exact",
    "Ltio.Inv.Json.c167_no_field_violated",
    "Ltio.Inv.Json.c167_empty_violated",
    "Ltio.Inv.Json.c167_id_violated"
   ],
   "note": "violations proved: an expression without the key field is undefined behaviour; a document without conditions is not accepted back; ids that are fractions or exceed 63 bits are changed silently"
  },
  {
   "property": "C168",
   "status": "partial",
   "theorems": [
    "Ltio.Http.Conn.c168_prefix_partial",
    "Ltio.Http.Conn.c168_complete_partial",
    "Ltio.Http.Conn.c168_gzip_padded_violated"
   ],
   "note": "proved for histories without a message the library compresses with gzip; violation proved: every body of 8097 to 16383 bytes it does compress with gzip arrives with NUL bytes after it, up to 16384"
  },
  {
   "property": "C169",
   "status": "proved",
   "theorems": [
    "Ltio.Http.Conn.c169_prefix",
    "Ltio.Http.Conn.c169_complete",
    "Ltio.Http.Conn.c169_progress"
   ],
   "note": "llhttp by a contract (Tok.Meets, shown satisfiable), zlib by its contract; well-formed messages framed by Content-Length without Connection: close, Transfer-Encoding, Upgrade; responses with a code of the table"
  },
  {
   "property": "C170",
   "status": "partial",
   "theorems": [
    "Ltio.Http.Conn.c171_request",
    "Ltio.Http.Conn.c171_chain",
    "Ltio.Http.Conn.c171_response",
    "Ltio.Http.Conn.c170_request_violated",
    "Ltio.Http.Conn.c170_response_violated"
   ],
   "note": "violations proved: a request that came compressed is decompressed for the application but keeps its compressed Content-Length and its Content-Encoding, and is sent on so; a response received uncompressed and sent on to a client that accepts gzip is compressed but keeps its old Content-Length"
  },
  {
   "property": "C171",
   "status": "proved",
   "theorems": [
    "Ltio.Http.Conn.c171_request",
    "Ltio.Http.Conn.c171_chain",
    "Ltio.Http.Conn.c171_response",
    "Ltio.Http.Conn.c171_chain_response"
   ],
   "note": "well-formed as for C169"
  },
  {
   "property": "C172",
   "status": "partial",
   "theorems": [
    "Ltio.Http.ConnTls.c172_progress_partial",
    "Ltio.Http.ConnTls.c172_second_message_violated",
    "Ltio.Http.WssPair.c172_second_frame_violated"
   ],
   "note": "proved while what TLS has begun to write has not moved in memory; violation proved: any two messages of more than 1024 bytes together, the second sent while the first waits for the socket, close the connection and neither is sent, because the output buffer moves and SSL_MODE_ACCEPT_MOVING_WRITE_BUFFER is not set"
  },
  {
   "property": "C173",
   "status": "proved",
   "theorems": [
    "Ltio.Http.ConnTls.c173_prefix",
    "Ltio.Http.ConnTls.c173_complete",
    "Ltio.Http.ConnTls.c173_progress"
   ],
   "note": "OpenSSL, llhttp and zlib by contract; well-formed as for C169"
  },
  {
   "property": "C174",
   "status": "proved",
   "theorems": [
    "Ltio.Http.WssPair.c174_prefix",
    "Ltio.Http.WssPair.c174_complete",
    "Ltio.Http.WssPair.c174_progress",
    "Ltio.Http.WssPair.c174_spaced_progress"
   ],
   "note": "OpenSSL by contract; unfragmented messages as for C159"
  },
  {
   "property": "C175",
   "status": "partial",
   "theorems": [
    "Ltio.Inv.BitSet.c176_set_of_positions",
    "Ltio.Inv.BitSet.c175_intersect_shorter",
    "Ltio.Inv.BitSet.c175_union_any",
    "Ltio.Inv.BitSet.c175_substract_any",
    "Ltio.Inv.BitSet.c175_intersect_violated",
    "Ltio.Inv.BitSet.c175_union_violated"
   ],
   "note": "proved for arguments of the same size, and what happens with any others; violations proved: Intersect with a shorter list keeps positions the other list does not hold (memset is given words for bytes); Union with a longer list loses positions"
  },
  {
   "property": "C176",
   "status": "proved",
   "theorems": [
    "Ltio.Inv.BitSet.c176_set_of_positions",
    "Ltio.Inv.BitSet.c176_dies_iff",
    "Ltio.Inv.BitSet.c176_new",
    "Ltio.Inv.BitSet.c176_dump"
   ],
   "note": ""
  },
  {
   "property": "C177",
   "status": "partial",
   "theorems": [
    "Ltio.WebSocket.Upgrade.c178_upgrade_request",
    "Ltio.WebSocket.Upgrade.c178_port",
    "Ltio.WebSocket.Upgrade.c177_host_port_violated",
    "Ltio.WebSocket.Upgrade.c177_default_port_violated"
   ],
   "note": "all but the port: violations proved: a port that is not the default one is missing from Host; an address without a port is dialled at port 0 (or the port of the last address), not 80 or 443"
  },
  {
   "property": "C178",
   "status": "proved",
   "theorems": [
    "Ltio.WebSocket.Upgrade.c178_upgrade_request",
    "Ltio.WebSocket.Upgrade.c178_server_accepts",
    "Ltio.WebSocket.Upgrade.c178_port"
   ],
   "note": "topic, host and key without carriage return; the reference parser of C43 reads it; c117_key gives the form of the key"
  },
  {
   "property": "C179",
   "status": "partial",
   "theorems": [
    "Ltio.Client.WsLife.c180_careful",
    "Ltio.Client.WsLife.c180_held",
    "Ltio.Client.WsLife.c179_never_connected_violated",
    "Ltio.Client.WsLife.c179_dialing_violated",
    "Ltio.Client.WsLife.c179_connected_violated",
    "Ltio.Client.WsLife.c179_redial_violated"
   ],
   "note": "proved for careful uses; violations proved: letting go of a client that never connected follows a null pointer; letting go while an attempt is under way or while connected lets connector or codec call the deleted client; dialling again while connected leaves a deleted event registered and ends the process when its descriptor is used again"
  },
  {
   "property": "C180",
   "status": "proved",
   "theorems": [
    "Ltio.Client.WsLife.c180_careful",
    "Ltio.Client.WsLife.c180_released",
    "Ltio.Client.WsLife.c180_held"
   ],
   "note": "frames and handshake are C117, C118; callbacks are taken as one step"
  },
  {
   "property": "C181",
   "status": "partial",
   "theorems": [
    "Ltio.Client.Rpc.c182_results",
    "Ltio.Client.Rpc.c181_dropped_violated",
    "Ltio.Client.Rpc.c181_finalized_violated",
    "Ltio.Client.Rpc.c181_code_violated"
   ],
   "note": "proved for careful users (C182); violations proved: the callback on another loop is handed a deleted response if the caller keeps no reference; a client finalized while a request is on its way never gives its result; a request sent again keeps its old failure code"
  },
  {
   "property": "C182",
   "status": "proved",
   "theorems": [
    "Ltio.Client.Rpc.c182_results",
    "Ltio.Client.Rpc.c182_all_done",
    "Ltio.Client.Rpc.c182_own_answer",
    "Ltio.Client.Rpc.c182_code"
   ],
   "note": "channels by the contract of C21, C22, C67; coroutines by C28"
  },
  {
   "property": "C183",
   "status": "partial",
   "theorems": [
    "Ltio.Client.Deadline.c184_not_early",
    "Ltio.Client.QueueDeadline.c184_queued_not_early",
    "Ltio.Client.Deadline.c183_retry_violated",
    "Ltio.Client.QueueDeadline.c183_queued_retry_violated"
   ],
   "note": "proved if each request object is sent once; violation proved: a request that was answered and is sent again is failed by the timer of the first time"
  },
  {
   "property": "C184",
   "status": "proved",
   "theorems": [
    "Ltio.Client.Deadline.c184_not_early",
    "Ltio.Client.Deadline.c184_in_time",
    "Ltio.Client.Deadline.c184_never_longer",
    "Ltio.Client.QueueDeadline.c184_queued",
    "Ltio.Client.QueueDeadline.c184_queued_all",
    "Ltio.Client.QueueDeadline.c184_queued_not_early"
   ],
   "note": "loops run posted timers by C06; the queued channel with the pointer copied before it is popped (C22)"
  },
  {
   "property": "C185",
   "status": "proved",
   "theorems": [
    "Ltio.Client.Ordered.Web.c185_own_answer",
    "Ltio.Client.Ordered.Web.c185_own_answer_tls",
    "Ltio.Client.Ordered.Web.c185_complete"
   ],
   "note": "the connection by C169 / C173; the queued channel with the pointer copied before it is popped (C22)"
  },
  {
   "property": "C186",
   "status": "partial",
   "theorems": [
    "Ltio.Client.Ordered.Web.c186_closed_takes_violated",
    "Ltio.Client.QueueDeadline.c184_queued"
   ],
   "note": "proved: it is failed within the time-outs of the requests before it and its own; violation proved for every state of a closed idle channel: not before, and the closing is reported twice"
  },
  {
   "property": "C187",
   "status": "partial",
   "theorems": [
    "Ltio.Redis.Rpc.c188_own_replies",
    "Ltio.Redis.Rpc.c187_hangs_violated",
    "Ltio.Redis.Rpc.c187_wrong_answer_violated",
    "Ltio.Redis.Rpc.c187_heartbeat_violated",
    "Ltio.Redis.Rpc.c187_crash_violated"
   ],
   "note": "proved for one request at a time (C188); violations proved for all replies and splits: a second request or heartbeat given meanwhile is never answered, or gets an empty response and a third one gets its reply; a request arriving after the connection was lost aborts"
  },
  {
   "property": "C188",
   "status": "proved",
   "theorems": [
    "Ltio.Redis.Rpc.c188_own_replies",
    "Ltio.Redis.Rpc.c188_complete"
   ],
   "note": "the queued channel with the pointer copied before it is popped (C22)"
  },
  {
   "property": "C189",
   "status": "partial",
   "theorems": [
    "Ltio.Source.Config.c190_accepted_iff",
    "Ltio.Source.Config.c189_missing_member_violated",
    "Ltio.Source.Config.c189_abort_violated",
    "Ltio.Source.Config.c189_throws_violated",
    "Ltio.Source.Config.c189_useless_violated",
    "Ltio.Source.Config.c189_mode_violated"
   ],
   "note": "proved: what is accepted (C190); violations proved for families of configurations: undefined behaviour, abort, exception, and accepted configurations that never load anything"
  },
  {
   "property": "C190",
   "status": "proved",
   "theorems": [
    "Ltio.Source.Config.c190_accepted_iff"
   ],
   "note": "nlohmann::json by its contract; the initial registry of parsers"
  },
  {
   "property": "C191",
   "status": "partial",
   "theorems": [
    "Ltio.Mysql.c192_rows",
    "Ltio.Mysql.c192_no_rows",
    "Ltio.Mysql.c192_database",
    "Ltio.Mysql.c191_default_db_violated",
    "Ltio.Mysql.c191_uninitialised_violated",
    "Ltio.Mysql.c191_code_violated",
    "Ltio.Mysql.c191_after_close_violated",
    "Ltio.Mysql.c191_no_reconnect_violated",
    "Ltio.Mysql.c191_close_violated",
    "Ltio.Mysql.c191_not_ready_violated",
    "Ltio.Mysql.c191_cells_violated",
    "Ltio.Mysql.c191_late_violated"
   ],
   "note": "proved: what C192 says; violations proved for families of histories, most for every continuation; the client library by its contract"
  },
  {
   "property": "C192",
   "status": "proved",
   "theorems": [
    "Ltio.Mysql.c192_once_in_order",
    "Ltio.Mysql.c192_database",
    "Ltio.Mysql.c192_rows",
    "Ltio.Mysql.c192_no_rows",
    "Ltio.Mysql.c192_ended",
    "Ltio.Mysql.c192_in_turn"
   ],
   "note": "the client library by its contract; a session is given once"
  },
  {
   "property": "C193",
   "status": "partial",
   "theorems": [
    "Ltio.Redis.Buffer.c194_contents",
    "Ltio.Redis.Buffer.c193_self_append_violated",
    "Ltio.Redis.Buffer.c193_shrink_ref_violated",
    "Ltio.Redis.Buffer.c193_self_move_violated"
   ],
   "note": "proved: what C194 says; violations proved for every careful history before"
  },
  {
   "property": "C194",
   "status": "proved",
   "theorems": [
    "Ltio.Redis.Buffer.c194_contents",
    "Ltio.Redis.Buffer.c194_memory"
   ],
   "note": "realloc always moves; sizes far below 2^64"
  },
  {
   "property": "C195",
   "status": "partial",
   "theorems": [
    "Ltio.Redis.Startup.c196_startup",
    "Ltio.Redis.Startup.c195_empty_violated",
    "Ltio.Redis.Startup.c195_garbage_violated",
    "Ltio.Redis.Startup.c195_pong_violated",
    "Ltio.Redis.Startup.c195_twice_violated"
   ],
   "note": "proved: what C196 says; violations proved for all configurations, chunkings and moves: the empty status crashes, the status O is compared with uninitialised memory, a failed send is reported twice"
  },
  {
   "property": "C196",
   "status": "proved",
   "theorems": [
    "Ltio.Redis.Startup.c196_startup",
    "Ltio.Redis.Startup.c196_not_before",
    "Ltio.Redis.Startup.c196_plain",
    "Ltio.Redis.Startup.c196_then_requests",
    "Ltio.Redis.Startup.c196_pong"
   ],
   "note": "replies of printable characters; the rest of the handling of replies as in C35, C188"
  },
  {
   "property": "C197",
   "status": "partial",
   "theorems": [
    "Ltio.Net.Lifetime.c198_deleted",
    "Ltio.Net.Lifetime.c198_plain",
    "Ltio.Net.Lifetime.c198_server",
    "Ltio.Net.Lifetime.c197_client_violated",
    "Ltio.Net.Lifetime.c197_h2_violated",
    "Ltio.Net.Lifetime.c197_race_violated",
    "Ltio.Net.Lifetime.c197_flush_violated",
    "Ltio.Net.Lifetime.c197_late_violated"
   ],
   "note": "proved: what C198 says; violations proved: the client with one loop, for http, redis, h2 and websocket, whatever the event; races of owners in another thread; late replies on a server"
  },
  {
   "property": "C198",
   "status": "proved",
   "theorems": [
    "Ltio.Net.Lifetime.c198_deleted",
    "Ltio.Net.Lifetime.c198_event",
    "Ltio.Net.Lifetime.c198_shared",
    "Ltio.Net.Lifetime.c198_plain",
    "Ltio.Net.Lifetime.c198_server",
    "Ltio.Net.Lifetime.c198_replies"
   ],
   "note": "handlers as sequences of accesses; the owner itself stays"
  },
  {
   "property": "C199",
   "status": "partial",
   "theorems": [
    "Ltio.Net.TlsTrust.c200_client",
    "Ltio.Net.TlsTrust.c199_host_violated",
    "Ltio.Net.TlsTrust.c199_ca_alone_violated",
    "Ltio.Net.TlsTrust.c199_unusable_violated",
    "Ltio.Net.TlsTrust.c199_path_violated",
    "Ltio.Net.TlsTrust.c199_system_violated",
    "Ltio.Net.TlsTrust.c199_shared_violated",
    "Ltio.Net.TlsTrust.c199_default_server_violated",
    "Ltio.Net.TlsTrust.c199_garbage_violated"
   ],
   "note": "proved: what C200 says; violations proved for every infrastructure and history: the host is never checked, a CA file or directory alone leaves the context null, UseVerifyCA ignores its directory, the defaults are one context, an uninitialised pointer"
  },
  {
   "property": "C200",
   "status": "proved",
   "theorems": [
    "Ltio.Net.TlsTrust.c200_create",
    "Ltio.Net.TlsTrust.c200_client",
    "Ltio.Net.TlsTrust.c200_server",
    "Ltio.Net.TlsTrust.c200_fit",
    "Ltio.Net.TlsTrust.c200_certificate",
    "Ltio.Net.TlsTrust.c200_present",
    "Ltio.Net.TlsTrust.c200_connect",
    "Ltio.Net.TlsTrust.c200_default"
   ],
   "note": "OpenSSL by its contract; ciphers, versions, times and revocation left out"
  },
  {
   "property": "C201",
   "status": "partial",
   "theorems": [
    "Ltio.Http.NoContent.c202_stream",
    "Ltio.Http.NoContent.c202_client",
    "Ltio.Http.NoContent.c201_body_violated",
    "Ltio.Http.NoContent.c201_forged_violated",
    "Ltio.Http.NoContent.c201_length_violated",
    "Ltio.Http.NoContent.c201_head_waits_violated",
    "Ltio.Http.NoContent.c201_head_swallows_violated"
   ],
   "note": "proved: what C202 says; violations proved for all such responses: their bodies are sent and read as the next response (also a forged one), a length is sent with 204, the client waits for the content of an answer to HEAD and takes the next response for it"
  },
  {
   "property": "C202",
   "status": "proved",
   "theorems": [
    "Ltio.Http.NoContent.c202_stream",
    "Ltio.Http.NoContent.c202_empty_sent",
    "Ltio.Http.NoContent.c202_client",
    "Ltio.Http.NoContent.c202_expect"
   ],
   "note": "status line, headers and length as in C31, C43; llhttp by its contract (C169)"
  },
  {
   "property": "C203",
   "status": "partial",
   "theorems": [
    "Ltio.Http.Serve.c204_answers",
    "Ltio.Http.Serve.c203_upgrade_violated",
    "Ltio.Http.Serve.c203_expect_violated"
   ],
   "note": "proved: what C204 says; violations proved, with llhttp's documented pause: after the answer to a request with Connection: upgrade comes a 400 and the connection is closed; nobody answers Expect: 100-continue"
  },
  {
   "property": "C204",
   "status": "proved",
   "theorems": [
    "Ltio.Http.Serve.c204_answers",
    "Ltio.Http.Serve.c204_prefix",
    "Ltio.Http.Serve.c204_coding",
    "Ltio.Http.Serve.c204_undecodable",
    "Ltio.Http.Serve.c204_refused",
    "Ltio.Http.Serve.c204_bad_request"
   ],
   "note": "llhttp by a contract shown satisfiable; handlers answer at once; what is written reaches the peer (C24, C45); keep-alive requests"
  },
  {
   "property": "C205",
   "status": "partial",
   "theorems": [
    "Ltio.Client.DialSync.c206_dial",
    "Ltio.Client.DialSync.c206_told",
    "Ltio.Client.DialSync.c206_bytes",
    "Ltio.Client.DialSync.c205_leak_violated",
    "Ltio.Client.DialSync.c205_descriptor_zero_violated",
    "Ltio.Client.DialSync.c205_nothing_handed_violated",
    "Ltio.Client.DialSync.c205_loop_stands_violated",
    "Ltio.Client.DialSend.c205_send_stands_violated"
   ],
   "note": "proved: what C206 says; violations proved: each refused attempt leaks its socket; descriptor 0 is taken for a failure and leaks; the socket is blocking, so the first read event stops the loop until the peer ends the connection, and nothing is handed on before that; a message larger than the socket's buffer stops the loop until the peer takes something"
  },
  {
   "property": "C206",
   "status": "proved",
   "theorems": [
    "Ltio.Client.DialSync.c206_dial",
    "Ltio.Client.DialSync.c206_told",
    "Ltio.Client.DialSync.c206_bytes",
    "Ltio.Client.DialSync.c206_returns",
    "Ltio.Client.DialSync.c206_delivers",
    "Ltio.Client.DialSend.c206_sent",
    "Ltio.Client.DialSend.c206_send_returns"
   ],
   "note": "what the peer sends and when, and how much each read gives, is arbitrary; read(2) on blocking and non-blocking sockets as POSIX says; errors of a read count as the end of the peer's bytes; errors of a write are not modelled"
  },
  {
   "property": "C207",
   "status": "partial",
   "theorems": [
    "Ltio.Text.StrError.c208_known",
    "Ltio.Text.StrError.c208_serial",
    "Ltio.Text.StrError.c207_overlap_violated"
   ],
   "note": "proved: what C208 says; violation proved: all calls share one buffer, so for every error unknown to the library and every other error there is an interleaving in which the description is empty"
  },
  {
   "property": "C208",
   "status": "proved",
   "theorems": [
    "Ltio.Text.StrError.c208_known",
    "Ltio.Text.StrError.c208_serial",
    "Ltio.Text.StrError.c208_ends"
   ],
   "note": "glibc's strerror_r as documented, one byte per step; C++ itself leaves overlapping accesses undefined"
  },
  {
   "property": "C209",
   "status": "partial",
   "theorems": [
    "Ltio.Text.PrettyBytes.c210_close",
    "Ltio.Text.PrettyBytes.c210_unit",
    "Ltio.Text.PrettyBytes.c209_next_unit_violated"
   ],
   "note": "proved: what C210 says; violation proved: every size less than half a hundredth of a unit below 1024 of it is written as 1024.00 of it"
  },
  {
   "property": "C210",
   "status": "proved",
   "theorems": [
    "Ltio.Text.PrettyBytes.c210_close",
    "Ltio.Text.PrettyBytes.c210_ties",
    "Ltio.Text.PrettyBytes.c210_unit",
    "Ltio.Text.PrettyBytes.c210_monotone",
    "Ltio.Text.PrettyBytes.c210_text"
   ],
   "note": "double as IEEE 754 rounding to 53 bits, half to even; two decimals of the exact value, half to even, as glibc's printf"
  },
  {
   "property": "C211",
   "status": "partial",
   "theorems": [
    "Ltio.Coro.c212_destroyed",
    "Ltio.Coro.c211_leak_violated",
    "Ltio.Coro.c211_touch_violated"
   ],
   "note": "proved: what C212 says; violations proved, for every reachable state: a coroutine that waits at the end is never destroyed; any resume closure called afterwards reads the destroyed runner, before it looks whether its coroutine exists"
  },
  {
   "property": "C212",
   "status": "proved",
   "theorems": [
    "Ltio.Coro.c212_destroyed",
    "Ltio.Coro.c212_can_end"
   ],
   "note": "the runner's model is that of C28; the thread_local is destroyed on the main coroutine"
  }
 ]
}