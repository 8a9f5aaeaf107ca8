{
"Ltio.Base64.UrlSafe.c136_rfc": "propext, Classical.choice, Quot.sound",
"Ltio.Base64.UrlSafe.c136_roundtrip": "propext, Classical.choice, Quot.sound",
"Ltio.Base64.UrlSafe.c136_size": "propext, Classical.choice, Quot.sound",
"Ltio.Base64.UrlSafe.c137_high_bytes_violated": "propext, Classical.choice, Quot.sound",
"Ltio.Base64.UrlSafe.c137_padding_violated": "propext, Classical.choice, Quot.sound",
"Ltio.Base64.UrlSafe.c138_bound": "propext, Quot.sound",
"Ltio.Base64.UrlSafe.c138_exact": "propext, Classical.choice, Quot.sound",
"Ltio.Base64.UrlSafe.c138_padded": "propext, Classical.choice, Quot.sound",
"Ltio.Base64.UrlSafe.c138_refused": "propext, Quot.sound",
"Ltio.Base64.c11_decode_any": "propext, Quot.sound",
"Ltio.Base64.c11_decode_safe_partial": "propext, Classical.choice, Quot.sound",
"Ltio.Base64.c11_encode_length": "propext, Classical.choice, Quot.sound",
"Ltio.Base64.c11_encode_rfc": "propext, Classical.choice, Quot.sound",
"Ltio.Base64.c11_every_text": "propext, Classical.choice, Quot.sound",
"Ltio.Base64.c11_roundtrip": "propext, Classical.choice, Quot.sound",
"Ltio.Base64.c11_unpadded_violated": "propext, Classical.choice, Quot.sound",
"Ltio.Bloom.c16_no_false_negatives": "propext, Quot.sound",
"Ltio.Bloom.c16_test_and_set": "propext, Quot.sound",
"Ltio.Bloom.uninitialised_false_positive": "propext, Classical.choice, Quot.sound",
"Ltio.BoolIndex.Build.c154_conj": "propext, Quot.sound",
"Ltio.BoolIndex.Build.c154_doc": "propext, Quot.sound",
"Ltio.BoolIndex.Build.c154_log": "propext, Quot.sound",
"Ltio.BoolIndex.Build.c154_no_leak": "propext, Classical.choice, Quot.sound",
"Ltio.BoolIndex.Build.c154_owned": "propext, Classical.choice, Quot.sound",
"Ltio.BoolIndex.Build.c155_copy_violated": "propext",
"Ltio.BoolIndex.Build.c155_duplicate_violated": "propext",
"Ltio.BoolIndex.Build.c155_late_violated": "propext, Classical.choice, Quot.sound",
"Ltio.BoolIndex.Build.c155_move_leak_violated": "propext",
"Ltio.BoolIndex.Build.c155_unreachable_violated": "propext, Classical.choice, Quot.sound",
"Ltio.BoolIndex.c12_conj_injective": "propext, Classical.choice, Quot.sound",
"Ltio.BoolIndex.c12_conj_roundtrip": "propext, Classical.choice, Quot.sound",
"Ltio.BoolIndex.c12_entries": "propext, Classical.choice, Quot.sound",
"Ltio.BoolIndex.c12_out_of_range": "propext",
"Ltio.BoolIndex.c12_size_major": "propext, Quot.sound",
"Ltio.BoolIndex.c13_field": "propext, Classical.choice, Quot.sound",
"Ltio.BoolIndex.c13_initialize": "propext, Quot.sound",
"Ltio.BoolIndex.c13_skip": "propext, Classical.choice, Quot.sound",
"Ltio.BoolIndex.c13_skipTo": "propext, Classical.choice, Quot.sound",
"Ltio.BoolIndex.c14_code_partial": "propext, Classical.choice, Quot.sound",
"Ltio.BoolIndex.c14_code_sound_weak": "propext, Classical.choice, Quot.sound",
"Ltio.BoolIndex.c14_code_violation": "propext, Classical.choice, Quot.sound",
"Ltio.BoolIndex.c14_intended": "propext, Classical.choice, Quot.sound",
"Ltio.BoolIndex.c14_unknown_field": "propext, Quot.sound",
"Ltio.ByteOrder.c34_little_endian": "propext, Quot.sound",
"Ltio.ByteOrder.c34_network_is_big_endian": "propext, Quot.sound",
"Ltio.ByteOrder.c34_roundtrip": "propext, Quot.sound",
"Ltio.Client.Async.c21_completed_partial": "propext, Classical.choice, Quot.sound",
"Ltio.Client.Async.c21_exactly_once_partial": "propext, Classical.choice, Quot.sound",
"Ltio.Client.Async.c21_id_reuse_violated": "propext, Classical.choice, Quot.sound",
"Ltio.Client.Async.c21_late_send_violated": "propext, Quot.sound",
"Ltio.Client.Async.c21_shared_id_violated": "propext, Classical.choice, Quot.sound",
"Ltio.Client.Deadline.c183_retry_violated": "propext, Quot.sound",
"Ltio.Client.Deadline.c184_in_time": "propext, Classical.choice, Quot.sound",
"Ltio.Client.Deadline.c184_never_longer": "propext, Classical.choice, Quot.sound",
"Ltio.Client.Deadline.c184_not_early": "propext, Classical.choice, Quot.sound",
"Ltio.Client.DialSend.c205_send_stands_violated": "propext, Quot.sound",
"Ltio.Client.DialSend.c206_send_returns": "propext, Quot.sound",
"Ltio.Client.DialSend.c206_sent": "propext, Quot.sound",
"Ltio.Client.DialSync.c205_descriptor_zero_violated": "propext, Quot.sound",
"Ltio.Client.DialSync.c205_leak_violated": "propext, Quot.sound",
"Ltio.Client.DialSync.c205_loop_stands_violated": "propext",
"Ltio.Client.DialSync.c205_nothing_handed_violated": "propext",
"Ltio.Client.DialSync.c206_bytes": "propext",
"Ltio.Client.DialSync.c206_delivers": "propext",
"Ltio.Client.DialSync.c206_dial": "propext, Quot.sound",
"Ltio.Client.DialSync.c206_returns": "propext",
"Ltio.Client.DialSync.c206_told": "propext, Quot.sound",
"Ltio.Client.Ordered.Web.c185_complete": "propext, Classical.choice, Quot.sound",
"Ltio.Client.Ordered.Web.c185_own_answer": "propext, Classical.choice, Quot.sound",
"Ltio.Client.Ordered.Web.c185_own_answer_tls": "propext, Classical.choice, Quot.sound",
"Ltio.Client.Ordered.Web.c186_closed_takes_violated": "propext, Classical.choice, Quot.sound",
"Ltio.Client.QueueDeadline.c183_queued_retry_violated": "propext, Quot.sound",
"Ltio.Client.QueueDeadline.c184_queued": "propext, Classical.choice, Quot.sound",
"Ltio.Client.QueueDeadline.c184_queued_all": "propext, Quot.sound",
"Ltio.Client.QueueDeadline.c184_queued_not_early": "propext, Quot.sound",
"Ltio.Client.Queued.c22_all_completed_partial": "propext, Classical.choice, Quot.sound",
"Ltio.Client.Queued.c22_fifo_partial": "propext, Classical.choice, Quot.sound",
"Ltio.Client.Queued.c22_late_send_violated": "propext, Quot.sound",
"Ltio.Client.Queued.c22_use_after_free_always_violated": "propext, Quot.sound",
"Ltio.Client.Queued.c22_use_after_free_violated": "propext, Quot.sound",
"Ltio.Client.Rpc.c181_code_violated": "propext, Quot.sound",
"Ltio.Client.Rpc.c181_dropped_violated": "propext, Quot.sound",
"Ltio.Client.Rpc.c181_finalized_violated": "propext, Classical.choice, Quot.sound",
"Ltio.Client.Rpc.c182_all_done": "propext, Classical.choice, Quot.sound",
"Ltio.Client.Rpc.c182_code": "propext, Classical.choice, Quot.sound",
"Ltio.Client.Rpc.c182_own_answer": "propext, Classical.choice, Quot.sound",
"Ltio.Client.Rpc.c182_results": "propext, Classical.choice, Quot.sound",
"Ltio.Client.WsLife.c179_connected_violated": "propext, Quot.sound",
"Ltio.Client.WsLife.c179_dialing_violated": "propext, Quot.sound",
"Ltio.Client.WsLife.c179_never_connected_violated": "propext, Quot.sound",
"Ltio.Client.WsLife.c179_redial_violated": "propext, Quot.sound",
"Ltio.Client.WsLife.c180_careful": "propext, Classical.choice, Quot.sound",
"Ltio.Client.WsLife.c180_held": "propext, Classical.choice, Quot.sound",
"Ltio.Client.WsLife.c180_released": "propext, Classical.choice, Quot.sound",
"Ltio.Connector.c52_count_partial": "propext, Classical.choice, Quot.sound",
"Ltio.Connector.c52_once": "propext, Classical.choice, Quot.sound",
"Ltio.Connector.c52_report_partial": "propext, Quot.sound",
"Ltio.Connector.c52_sockets": "propext, Classical.choice, Quot.sound",
"Ltio.Connector.c52_told": "",
"Ltio.Connector.c52_violation_count": "propext, Classical.choice, Quot.sound",
"Ltio.Connector.c52_violation_established": "propext, Classical.choice, Quot.sound",
"Ltio.Connector.c52_violation_inverted": "propext, Classical.choice, Quot.sound",
"Ltio.Connector.c52_violation_leak": "propext, Classical.choice, Quot.sound",
"Ltio.Connector.c52_witness": "propext, Quot.sound",
"Ltio.Coro.IoEv.c51_ends": "propext, Quot.sound",
"Ltio.Coro.IoEv.c51_first_wins": "propext, Quot.sound",
"Ltio.Coro.IoEv.c51_violation_crash": "propext, Quot.sound",
"Ltio.Coro.IoEv.c51_violation_stray": "",
"Ltio.Coro.IoEv.c51_witness": "",
"Ltio.Coro.Mutex.c50_exclusion": "propext, Quot.sound",
"Ltio.Coro.Mutex.c50_fifo": "propext, Quot.sound",
"Ltio.Coro.Mutex.c50_handover": "propext, Quot.sound",
"Ltio.Coro.Mutex.c50_no_lost": "propext, Quot.sound",
"Ltio.Coro.Mutex.c50_violation_stray": "",
"Ltio.Coro.Mutex.c50_witness": "",
"Ltio.Coro.Sched.c161_background": "propext, Quot.sound",
"Ltio.Coro.Sched.c161_bounded": "propext, Classical.choice, Quot.sound",
"Ltio.Coro.Sched.c161_go_once": "propext, Quot.sound",
"Ltio.Coro.Sched.c161_next_round": "propext, Classical.choice, Quot.sound",
"Ltio.Coro.Sched.c161_once": "propext, Classical.choice, Quot.sound",
"Ltio.Coro.Sched.c161_order": "propext, Classical.choice, Quot.sound",
"Ltio.Coro.Sched.c161_progress": "propext, Classical.choice, Quot.sound",
"Ltio.Coro.Sched.c161_round": "propext, Classical.choice, Quot.sound",
"Ltio.Coro.Sched.c162_duel_violated": "propext, Quot.sound",
"Ltio.Coro.Sched.c162_nobody_runs_violated": "propext",
"Ltio.Coro.Server.c152_accepted": "propext",
"Ltio.Coro.Server.c152_accepts": "propext",
"Ltio.Coro.Server.c152_ended": "propext",
"Ltio.Coro.Server.c152_peer_v4": "propext, Quot.sound",
"Ltio.Coro.Server.c152_progress": "propext",
"Ltio.Coro.Server.c152_safe": "propext",
"Ltio.Coro.Server.c152_stream": "propext",
"Ltio.Coro.Server.c153_after_close_violated": "propext",
"Ltio.Coro.Server.c153_close_elsewhere_violated": "propext",
"Ltio.Coro.Server.c153_handler_waits_violated": "propext",
"Ltio.Coro.Server.c153_peer_v6_violated": "propext, Quot.sound",
"Ltio.Coro.Server.c153_unknown_codec_violated": "propext",
"Ltio.Coro.WG.c27_not_left": "propext, Quot.sound",
"Ltio.Coro.WG.c27_once": "propext",
"Ltio.Coro.WG.c27_success_partial": "propext, Classical.choice, Quot.sound",
"Ltio.Coro.WG.c27_timeout": "propext, Quot.sound",
"Ltio.Coro.WG.c27_violation_early": "propext, Classical.choice, Quot.sound",
"Ltio.Coro.WG.c27_violation_timeout_done": "",
"Ltio.Coro.WG.c27_witness": "",
"Ltio.Coro.c211_leak_violated": "propext, Classical.choice, Quot.sound",
"Ltio.Coro.c211_touch_violated": "propext, Quot.sound",
"Ltio.Coro.c212_can_end": "propext, Quot.sound",
"Ltio.Coro.c212_destroyed": "propext, Classical.choice, Quot.sound",
"Ltio.Coro.c28_freed": "propext, Classical.choice, Quot.sound",
"Ltio.Coro.c28_lists": "propext, Classical.choice, Quot.sound",
"Ltio.Coro.c28_no_abort_partial": "propext, Classical.choice, Quot.sound",
"Ltio.Coro.c28_not_lost": "propext, Classical.choice, Quot.sound",
"Ltio.Coro.c28_once": "propext, Classical.choice, Quot.sound",
"Ltio.Coro.c28_pool": "propext, Quot.sound",
"Ltio.Coro.c28_progress": "propext, Quot.sound",
"Ltio.Coro.c28_reuse_partial": "propext, Classical.choice, Quot.sound",
"Ltio.Coro.c28_spawn_reuse": "propext, Classical.choice, Quot.sound",
"Ltio.Coro.c28_stale": "propext, Quot.sound",
"Ltio.Coro.c28_violation_abort": "propext, Quot.sound",
"Ltio.Coro.c28_violation_other_task": "propext, Quot.sound",
"Ltio.Coro.c28_witness": "propext, Quot.sound",
"Ltio.CountMin.c17_estimate_exact": "propext, Classical.choice, Quot.sound",
"Ltio.CountMin.c17_no_underestimate_partial": "propext, Classical.choice, Quot.sound",
"Ltio.CountMin.c17_overflow_violated": "propext, Classical.choice, Quot.sound",
"Ltio.CountMin.c17_single_key_exact": "propext, Classical.choice, Quot.sound",
"Ltio.CountMin.distinct_not_overcounted": "propext, Classical.choice, Quot.sound",
"Ltio.Guards.c84_copy_twice": "propext",
"Ltio.Guards.c84_exactly_once": "propext, Quot.sound",
"Ltio.Guards.c84_move_terminates": "propext, Quot.sound",
"Ltio.Guards.c84_move_uncancels": "propext",
"Ltio.Guards.c84_safe": "propext, Quot.sound",
"Ltio.Guards.w_c84": "propext, Quot.sound",
"Ltio.Gzip.c102_gunzip_padded": "propext, Classical.choice, Quot.sound",
"Ltio.Gzip.c102_gunzip_prefix": "propext, Classical.choice, Quot.sound",
"Ltio.Gzip.c102_large_input": "propext, Classical.choice, Quot.sound",
"Ltio.Gzip.c103_compress": "propext, Classical.choice, Quot.sound",
"Ltio.Gzip.c103_deflate_round_trip": "propext, Classical.choice, Quot.sound",
"Ltio.Gzip.c103_inflate": "propext, Classical.choice, Quot.sound",
"Ltio.Gzip.c103_large_output": "propext, Classical.choice, Quot.sound",
"Ltio.Gzip.w_c102": "propext, Classical.choice, Quot.sound",
"Ltio.H2.c104_body": "propext, Classical.choice, Quot.sound",
"Ltio.H2.c104_closed": "propext, Classical.choice, Quot.sound",
"Ltio.H2.c104_cookie_lost": "propext, Classical.choice, Quot.sound",
"Ltio.H2.c104_independent": "propext, Classical.choice, Quot.sound",
"Ltio.H2.c104_no_body": "propext, Classical.choice, Quot.sound",
"Ltio.H2.c104_trailers": "propext, Classical.choice, Quot.sound",
"Ltio.H2.c104_twice": "propext, Classical.choice, Quot.sound",
"Ltio.H2.c105_lookup": "propext, Classical.choice, Quot.sound",
"Ltio.H2.c105_none": "propext, Classical.choice, Quot.sound",
"Ltio.H2.c106_fields": "propext, Classical.choice, Quot.sound",
"Ltio.H2.c106_fits": "propext, Classical.choice, Quot.sound",
"Ltio.H2.c106_large": "propext, Classical.choice, Quot.sound",
"Ltio.H2.c106_prefix_lost": "propext, Classical.choice, Quot.sound",
"Ltio.H2.c106_push": "propext, Quot.sound",
"Ltio.H2.c106_push_silent": "",
"Ltio.H2.w_c104": "propext, Classical.choice, Quot.sound",
"Ltio.H2.w_c105": "propext, Classical.choice, Quot.sound",
"Ltio.Hash.Crc.c111_blocks": "propext, Quot.sound",
"Ltio.Hash.Crc.c111_crc16_ansi": "propext, Classical.choice, Quot.sound",
"Ltio.Hash.Crc.c111_crc16_ccitt": "propext, Classical.choice, Quot.sound",
"Ltio.Hash.Crc.c111_crc32": "propext, Classical.choice, Quot.sound",
"Ltio.Hash.Crc.c111_crc32_le": "propext, Quot.sound",
"Ltio.Hash.Crc.c111_crc64": "propext, Quot.sound",
"Ltio.Hash.Crc.c111_crc8": "propext, Classical.choice, Quot.sound",
"Ltio.Hash.Crc.c112_burst": "propext, Classical.choice, Quot.sound",
"Ltio.Hash.Crc.c112_burst_narrow": "propext, Classical.choice, Quot.sound",
"Ltio.Hash.Crc.c112_crc_rev": "propext, Quot.sound",
"Ltio.Hash.Crc.c112_rev_crc": "propext, Quot.sound",
"Ltio.Hash.Crc.c112_start": "propext, Quot.sound",
"Ltio.Hash.Md5.c110_in_bounds": "propext, Classical.choice, Quot.sound",
"Ltio.Hash.Md5.c110_large_violated": "propext, Quot.sound",
"Ltio.Hash.Md5.c110_md5": "propext, Classical.choice, Quot.sound",
"Ltio.Hash.Murmur.c113_only_key": "propext, Classical.choice, Quot.sound",
"Ltio.Hash.Murmur.c113_x64_128": "propext, Classical.choice, Quot.sound",
"Ltio.Hash.Murmur.c113_x86_32": "propext, Classical.choice, Quot.sound",
"Ltio.Hash.Murmur.c114_block128": "propext, Classical.choice, Quot.sound",
"Ltio.Hash.Murmur.c114_families": "propext, Classical.choice, Quot.sound",
"Ltio.Hash.Murmur.c114_seed": "propext, Classical.choice, Quot.sound",
"Ltio.Hash.Murmur.c114_short": "propext, Classical.choice, Quot.sound",
"Ltio.Hash.Murmur.c114_word32": "propext, Classical.choice, Quot.sound",
"Ltio.Hash.Sha1.c108_in_bounds": "propext, Classical.choice, Quot.sound",
"Ltio.Hash.Sha1.c108_length": "propext, Quot.sound",
"Ltio.Hash.Sha1.c108_reuse": "propext, Classical.choice, Quot.sound",
"Ltio.Hash.Sha1.c108_sha1": "propext, Classical.choice, Quot.sound",
"Ltio.Hash.Sha1.c108_string": "propext, Classical.choice, Quot.sound",
"Ltio.Hash.Sha1.c109_accept_key": "propext, Classical.choice, Quot.sound",
"Ltio.Hash.Sha1.c109_zero_byte": "propext, Classical.choice, Quot.sound",
"Ltio.Http.Alpn.c163_choice": "propext, Classical.choice, Quot.sound",
"Ltio.Http.Alpn.c163_own": "propext, Classical.choice, Quot.sound",
"Ltio.Http.Alpn.c163_safe": "propext, Classical.choice, Quot.sound",
"Ltio.Http.Conn.c168_complete_partial": "propext, Classical.choice, Quot.sound",
"Ltio.Http.Conn.c168_gzip_padded_violated": "propext, Classical.choice, Quot.sound",
"Ltio.Http.Conn.c168_prefix_partial": "propext, Classical.choice, Quot.sound",
"Ltio.Http.Conn.c169_complete": "propext, Classical.choice, Quot.sound",
"Ltio.Http.Conn.c169_prefix": "propext, Classical.choice, Quot.sound",
"Ltio.Http.Conn.c169_progress": "propext, Classical.choice, Quot.sound",
"Ltio.Http.Conn.c170_request_violated": "propext, Classical.choice, Quot.sound",
"Ltio.Http.Conn.c170_response_violated": "propext, Classical.choice, Quot.sound",
"Ltio.Http.Conn.c171_chain": "propext, Classical.choice, Quot.sound",
"Ltio.Http.Conn.c171_chain_response": "propext, Classical.choice, Quot.sound",
"Ltio.Http.Conn.c171_request": "propext, Classical.choice, Quot.sound",
"Ltio.Http.Conn.c171_response": "propext, Classical.choice, Quot.sound",
"Ltio.Http.ConnTls.c172_progress_partial": "propext, Classical.choice, Quot.sound",
"Ltio.Http.ConnTls.c172_second_message_violated": "propext, Classical.choice, Quot.sound",
"Ltio.Http.ConnTls.c173_complete": "propext, Classical.choice, Quot.sound",
"Ltio.Http.ConnTls.c173_prefix": "propext, Classical.choice, Quot.sound",
"Ltio.Http.ConnTls.c173_progress": "propext, Classical.choice, Quot.sound",
"Ltio.Http.NoContent.c201_body_violated": "propext, Classical.choice, Quot.sound",
"Ltio.Http.NoContent.c201_forged_violated": "propext, Classical.choice, Quot.sound",
"Ltio.Http.NoContent.c201_head_swallows_violated": "propext, Classical.choice, Quot.sound",
"Ltio.Http.NoContent.c201_head_waits_violated": "propext, Classical.choice, Quot.sound",
"Ltio.Http.NoContent.c201_length_violated": "propext, Classical.choice, Quot.sound",
"Ltio.Http.NoContent.c202_client": "propext, Classical.choice, Quot.sound",
"Ltio.Http.NoContent.c202_empty_sent": "propext, Classical.choice, Quot.sound",
"Ltio.Http.NoContent.c202_expect": "propext, Classical.choice, Quot.sound",
"Ltio.Http.NoContent.c202_stream": "propext, Classical.choice, Quot.sound",
"Ltio.Http.RequestUrl.c121_empty": "propext, Quot.sound",
"Ltio.Http.RequestUrl.c121_pieces": "propext, Quot.sound",
"Ltio.Http.RequestUrl.c121_pieces_violated": "propext, Quot.sound",
"Ltio.Http.RequestUrl.c121_replace_violated": "propext, Classical.choice, Quot.sound",
"Ltio.Http.RequestUrl.c121_reset": "propext, Quot.sound",
"Ltio.Http.RequestUrl.c121_set": "propext, Classical.choice, Quot.sound",
"Ltio.Http.RequestUrl.c121_target": "propext, Classical.choice, Quot.sound",
"Ltio.Http.Serve.c203_expect_violated": "propext, Classical.choice, Quot.sound",
"Ltio.Http.Serve.c203_upgrade_violated": "propext, Classical.choice, Quot.sound",
"Ltio.Http.Serve.c204_answers": "propext, Classical.choice, Quot.sound",
"Ltio.Http.Serve.c204_bad_request": "propext, Classical.choice, Quot.sound",
"Ltio.Http.Serve.c204_coding": "propext, Classical.choice, Quot.sound",
"Ltio.Http.Serve.c204_prefix": "propext, Classical.choice, Quot.sound",
"Ltio.Http.Serve.c204_refused": "propext, Classical.choice, Quot.sound",
"Ltio.Http.Serve.c204_undecodable": "propext, Classical.choice, Quot.sound",
"Ltio.Http.UrlParser.c120_absolute": "propext, Classical.choice, Quot.sound",
"Ltio.Http.UrlParser.c120_connect": "propext, Classical.choice, Quot.sound",
"Ltio.Http.UrlParser.c120_iff": "propext, Classical.choice, Quot.sound",
"Ltio.Http.UrlParser.c120_long_violated": "propext, Classical.choice, Quot.sound",
"Ltio.Http.UrlParser.c120_origin": "propext, Classical.choice, Quot.sound",
"Ltio.Http.UrlParser.c120_origin_iff": "propext, Classical.choice, Quot.sound",
"Ltio.Http.UrlParser.c120_within": "propext, Quot.sound",
"Ltio.Http.WssPair.c172_second_frame_violated": "propext, Classical.choice, Quot.sound",
"Ltio.Http.WssPair.c174_complete": "propext, Classical.choice, Quot.sound",
"Ltio.Http.WssPair.c174_prefix": "propext, Classical.choice, Quot.sound",
"Ltio.Http.WssPair.c174_progress": "propext, Classical.choice, Quot.sound",
"Ltio.Http.WssPair.c174_spaced_progress": "propext, Classical.choice, Quot.sound",
"Ltio.Http.c30_case_insensitive_partial": "propext",
"Ltio.Http.c30_lookup_partial": "propext, Classical.choice, Quot.sound",
"Ltio.Http.c30_nul_violated": "propext, Classical.choice, Quot.sound",
"Ltio.Http.c31_minor_violated": "propext, Quot.sound",
"Ltio.Http.c31_missing_code_violated": "propext",
"Ltio.Http.c31_status_line_partial": "propext, Classical.choice, Quot.sound",
"Ltio.Http.c42_assembled_partial": "propext, Quot.sound",
"Ltio.Http.c42_trailer_leak_violated": "propext, Quot.sound",
"Ltio.Http.c43_compressed_length_violated": "propext, Classical.choice, Quot.sound",
"Ltio.Http.c43_header_injection_violated": "propext, Classical.choice, Quot.sound",
"Ltio.Http.c43_request_partial": "propext, Classical.choice, Quot.sound",
"Ltio.Http.c43_response_partial": "propext, Classical.choice, Quot.sound",
"Ltio.Http.c43_stream_partial": "propext, Classical.choice, Quot.sound",
"Ltio.IOBuffer.c01_fifo": "propext, Classical.choice, Quot.sound",
"Ltio.IOBuffer.c01_reader_prefix_stable": "propext, Classical.choice, Quot.sound",
"Ltio.IOBuffer.c01_suffix_of_written": "propext, Classical.choice, Quot.sound",
"Ltio.IOBuffer.c02_ensure": "propext, Classical.choice, Quot.sound",
"Ltio.IOBuffer.c02_no_out_of_bounds": "propext, Classical.choice, Quot.sound",
"Ltio.IOBuffer.c02_ub_iff": "propext, Classical.choice, Quot.sound",
"Ltio.IOBuffer.findCRLF_correct": "propext, Quot.sound",
"Ltio.IOBuffer.findCRLF_none": "propext, Classical.choice, Quot.sound",
"Ltio.IOBuffer.hasALine_iff": "propext, Classical.choice, Quot.sound",
"Ltio.IOBuffer.move_continues": "propext, Classical.choice, Quot.sound",
"Ltio.IOBuffer.move_transfers": "propext",
"Ltio.Inv.BitSet.c175_intersect_shorter": "propext, Classical.choice, Quot.sound",
"Ltio.Inv.BitSet.c175_intersect_violated": "propext, Classical.choice, Quot.sound",
"Ltio.Inv.BitSet.c175_substract_any": "propext, Classical.choice, Quot.sound",
"Ltio.Inv.BitSet.c175_union_any": "propext, Quot.sound",
"Ltio.Inv.BitSet.c175_union_violated": "propext, Quot.sound",
"Ltio.Inv.BitSet.c176_dies_iff": "propext, Classical.choice, Quot.sound",
"Ltio.Inv.BitSet.c176_dump": "propext, Quot.sound",
"Ltio.Inv.BitSet.c176_new": "propext, Classical.choice, Quot.sound",
"Ltio.Inv.BitSet.c176_set_of_positions": "propext, Classical.choice, Quot.sound",
"Ltio.Inv.Json.c166_doc_exact": "propext, Classical.choice, Quot.sound",
"Ltio.Inv.Json.c166_doc_roundtrip": "propext, Classical.choice, Quot.sound",
"Ltio.Inv.Json.c166_expr_exact": "propext, Classical.choice, Quot.sound",
"Ltio.Inv.Json.c166_expr_roundtrip": "propext, Classical.choice, Quot.sound",
"Ltio.Inv.Json.c167_empty_violated": "propext, Classical.choice, Quot.sound",
"Ltio.Inv.Json.c167_id_violated": "propext, Classical.choice, Quot.sound",
"Ltio.Inv.Json.c167_no_field_violated": "propext, Classical.choice, Quot.sound",
"Ltio.Inv.c54_answers": "propext, Classical.choice, Quot.sound",
"Ltio.Inv.c54_collision_confuses": "propext, Classical.choice, Quot.sound",
"Ltio.Inv.c54_exact": "propext, Classical.choice, Quot.sound",
"Ltio.Inv.c54_small": "propext, Classical.choice, Quot.sound",
"Ltio.Inv.c54_violation_collision": "propext, Classical.choice, Quot.sound",
"Ltio.Inv.c54_violation_multiple_of_64": "propext, Classical.choice, Quot.sound",
"Ltio.Inv.c54_violation_no_wildcard": "propext, Classical.choice, Quot.sound",
"Ltio.Inv.c55_found_with_trailing": "propext, Quot.sound",
"Ltio.Inv.c55_not_a_number": "propext",
"Ltio.Inv.c55_violation_never_found": "propext, Quot.sound",
"Ltio.Inv.c55_violation_overlap": "propext",
"Ltio.Inv.c55_violation_single_ignored": "propext, Classical.choice, Quot.sound",
"Ltio.Inv.c55_violation_start_ignored": "propext, Classical.choice, Quot.sound",
"Ltio.Inv.isWs_iff": "propext, Classical.choice, Quot.sound",
"Ltio.Inv.w_query": "propext, Quot.sound",
"Ltio.Ip.c49_cidr_range": "propext, Classical.choice, Quot.sound",
"Ltio.Ip.c49_common_prefix": "propext, Classical.choice, Quot.sound",
"Ltio.Ip.c49_endpoint_order": "propext, Classical.choice, Quot.sound",
"Ltio.Ip.c49_hostname": "propext, Classical.choice, Quot.sound",
"Ltio.Ip.c49_link_local": "propext, Classical.choice, Quot.sound",
"Ltio.Ip.c49_loopback": "propext, Classical.choice, Quot.sound",
"Ltio.Ip.c49_mask_length": "propext, Classical.choice, Quot.sound",
"Ltio.Ip.c49_matches_prefix": "propext, Classical.choice, Quot.sound",
"Ltio.Ip.c49_order": "propext, Classical.choice, Quot.sound",
"Ltio.Ip.c49_routable_v4": "propext, Classical.choice, Quot.sound",
"Ltio.Ip.c49_routable_v6": "propext, Classical.choice, Quot.sound",
"Ltio.Ip.c49_sockaddr": "propext, Quot.sound",
"Ltio.Ip.c49_to_mapped": "propext, Classical.choice, Quot.sound",
"Ltio.Ip.c49_to_string_partial": "propext, Classical.choice, Quot.sound",
"Ltio.Ip.c49_violation_bracketed": "propext, Classical.choice, Quot.sound",
"Ltio.Ip.c49_violation_cidr": "propext, Classical.choice, Quot.sound",
"Ltio.Ip.c49_violation_from_mapped": "propext, Quot.sound",
"Ltio.Ip.c49_violation_routable_mapped": "propext, Classical.choice, Quot.sound",
"Ltio.Ip.c49_violation_to_string": "propext, Classical.choice, Quot.sound",
"Ltio.Ip.c49_violation_to_string_invalid": "propext, Quot.sound",
"Ltio.Ip.c49_zero": "propext, Classical.choice, Quot.sound",
"Ltio.Ip.w_c49_cidr": "propext, Classical.choice, Quot.sound",
"Ltio.Ip.w_c49_routable_v6": "propext, Classical.choice, Quot.sound",
"Ltio.Itoa.c33_bad_base": "propext, Classical.choice, Quot.sound",
"Ltio.Itoa.c33_itoa": "propext, Classical.choice, Quot.sound",
"Ltio.Itoa.c33_value": "propext, Classical.choice, Quot.sound",
"Ltio.Line.c10_no_loss_no_reorder_partial": "propext, Quot.sound",
"Ltio.Line.c10_pipelined_lines_violated": "propext, Quot.sound",
"Ltio.Line.c10_prompt_delivery_partial": "propext, Quot.sound",
"Ltio.Line.one_line_per_event": "propext, Quot.sound",
"Ltio.Links.c29_destroy_empty": "propext",
"Ltio.Links.c29_double_push": "propext, Quot.sound",
"Ltio.Links.c29_double_remove": "propext, Classical.choice, Quot.sound",
"Ltio.Links.c29_frame": "propext, Classical.choice, Quot.sound",
"Ltio.Links.c29_sequence": "propext, Classical.choice, Quot.sound",
"Ltio.Links.c29_size_partial": "propext, Classical.choice, Quot.sound",
"Ltio.Links.c29_violation_destructor": "propext, Classical.choice, Quot.sound",
"Ltio.Links.c29_violation_pop_size": "propext, Classical.choice, Quot.sound",
"Ltio.Links.c29_violation_steal": "propext, Quot.sound",
"Ltio.Loop.Delay.c150_exactly_once": "propext, Quot.sound",
"Ltio.Loop.Delay.c150_helper": "propext, Quot.sound",
"Ltio.Loop.Delay.c150_not_early": "propext, Quot.sound",
"Ltio.Loop.Delay.c150_reply_after": "propext, Quot.sound",
"Ltio.Loop.Delay.c150_when_due": "propext, Quot.sound",
"Ltio.Loop.Delay.c151_reply_gone_violated": "propext",
"Ltio.Loop.Delay.c151_reply_loop_violated": "propext",
"Ltio.Loop.Delay.c151_stopped_violated": "propext",
"Ltio.Loop.Epoll.c139_answers": "propext, Classical.choice, Quot.sound",
"Ltio.Loop.Epoll.c139_interest": "propext, Quot.sound",
"Ltio.Loop.Epoll.c139_only_installed": "propext, Quot.sound",
"Ltio.Loop.Epoll.c140_closed_violated": "propext, Quot.sound",
"Ltio.Loop.Epoll.c140_disabled_violated": "propext, Quot.sound",
"Ltio.Loop.Epoll.c140_edge_violated": "propext, Quot.sound",
"Ltio.Loop.Epoll.c140_error_violated": "propext, Quot.sound",
"Ltio.Loop.Epoll.c140_install_violated": "propext, Classical.choice, Quot.sound",
"Ltio.Loop.Epoll.c140_wait_violated": "propext, Quot.sound",
"Ltio.Loop.Epoll.c141_enabled": "propext, Quot.sound",
"Ltio.Loop.Epoll.c141_reported": "propext, Quot.sound",
"Ltio.Loop.Epoll.c141_wait": "propext, Quot.sound",
"Ltio.Loop.FdReg.c25_add": "propext, Quot.sound",
"Ltio.Loop.FdReg.c25_get": "propext",
"Ltio.Loop.FdReg.c25_install": "propext, Quot.sound",
"Ltio.Loop.FdReg.c25_registry_agrees": "propext, Quot.sound",
"Ltio.Loop.FdReg.c25_remove": "propext, Quot.sound",
"Ltio.Loop.FdReg.c25_uninstall": "propext, Quot.sound",
"Ltio.Loop.FdReg.c25_update": "propext, Quot.sound",
"Ltio.Loop.FdReg.c44_invokes_installed": "propext, Quot.sound",
"Ltio.Loop.FdReg.c44_right_handler_partial": "propext, Quot.sound",
"Ltio.Loop.FdReg.c44_violation_fd_reuse": "propext",
"Ltio.Loop.Msg.c23_exactly_once_in_order": "propext, Quot.sound",
"Ltio.Loop.Msg.c23_loop_never_stuck": "propext, Quot.sound",
"Ltio.Loop.Msg.c23_loop_posts": "propext",
"Ltio.Loop.Msg.c23_nested_run": "propext, Quot.sound",
"Ltio.Loop.Msg.c23_no_lost_wakeup": "propext, Quot.sound",
"Ltio.Loop.Msg.c23_notify_never_fails": "propext, Quot.sound",
"Ltio.Loop.Msg.c23_poll_reports": "propext, Quot.sound",
"Ltio.Loop.Msg.c23_round_runs_all": "propext, Quot.sound",
"Ltio.Loop.Msg.c23_shutdown_loop_tasks": "propext, Quot.sound",
"Ltio.Loop.Msg.c23_shutdown_remote_partial": "propext, Quot.sound",
"Ltio.Loop.Msg.c23_violation_lost_at_shutdown": "propext, Quot.sound",
"Ltio.Loop.Msg.c23_violation_post_while_stopping": "propext, Quot.sound",
"Ltio.Loop.Msg.c23_witness": "propext, Quot.sound",
"Ltio.Loop.Msg.c23_witness_nested": "propext, Quot.sound",
"Ltio.Loop.StartStop.c46_start_returns_live": "propext, Quot.sound",
"Ltio.Loop.StartStop.c46_start_wakes_partial": "propext",
"Ltio.Loop.StartStop.c46_stop_returns_stopped": "propext, Quot.sound",
"Ltio.Loop.StartStop.c46_violation_start_hangs": "propext, Quot.sound",
"Ltio.Loop.StartStop.c46_violation_stop_hangs": "propext, Quot.sound",
"Ltio.Loop.StartStop.c46_violation_stop_returns_early": "propext, Quot.sound",
"Ltio.Lru.c15_bounded": "propext, Quot.sound",
"Ltio.Lru.c15_lru": "propext, Quot.sound",
"Ltio.Lru.c15_zero_capacity_ub": "propext, Quot.sound",
"Ltio.Maglev.c18_complete_partial": "propext, Classical.choice, Quot.sound",
"Ltio.Maglev.c18_even_partial": "propext, Classical.choice, Quot.sound",
"Ltio.Maglev.c18_probe_permutation_partial": "propext, Classical.choice, Quot.sound",
"Ltio.Maglev.c18_router_total_partial": "propext, Classical.choice, Quot.sound",
"Ltio.Maglev.c18_termination_violated": "propext, Classical.choice, Quot.sound",
"Ltio.Metrics.Acc.c86_conservation": "propext, Classical.choice, Quot.sound",
"Ltio.Metrics.Acc.c86_delivered": "propext, Classical.choice, Quot.sound",
"Ltio.Metrics.Acc.c86_round": "propext, Quot.sound",
"Ltio.Metrics.Acc.c86_stop_loses": "propext",
"Ltio.Metrics.Acc.w_c86": "propext",
"Ltio.Metrics.Stash.c87_at_most_once": "propext, Quot.sound",
"Ltio.Metrics.Stash.c87_conservation": "propext, Quot.sound",
"Ltio.Metrics.Stash.c87_delivered": "propext, Quot.sound",
"Ltio.Metrics.Stash.c87_interval": "propext, Quot.sound",
"Ltio.Metrics.Stash.c87_interval_ignored": "propext",
"Ltio.Metrics.Stash.c87_live": "propext, Quot.sound",
"Ltio.Metrics.Stash.c87_lost": "propext, Quot.sound",
"Ltio.Metrics.Stash.c87_round_robin": "propext",
"Ltio.Metrics.Stash.c87_stop_loses": "propext",
"Ltio.Metrics.Stash.c87_turbo_loses": "propext",
"Ltio.Metrics.Stash.w_c87": "propext",
"Ltio.Metrics.c85_default": "propext, Quot.sound",
"Ltio.Metrics.c85_gauge": "propext, Classical.choice, Quot.sound",
"Ltio.Metrics.c85_gauge_merge": "propext, Classical.choice, Quot.sound",
"Ltio.Metrics.c85_hist": "propext, Classical.choice, Quot.sound",
"Ltio.Metrics.c85_merge_loses": "propext",
"Ltio.Metrics.c85_merge_sizes": "propext, Quot.sound",
"Ltio.Metrics.c85_min_is_zero": "",
"Ltio.Metrics.c85_minmax": "propext, Classical.choice, Quot.sound",
"Ltio.Metrics.c85_percentile": "propext, Classical.choice, Quot.sound",
"Ltio.Metrics.c85_percentiles_wrong": "propext",
"Ltio.Metrics.c85_percentiles_zero": "propext",
"Ltio.Metrics.c85_range_out_of_bounds": "propext",
"Ltio.Metrics.ok_default": "propext",
"Ltio.Metrics.u32_spec": "propext, Quot.sound",
"Ltio.Metrics.w_c85": "propext",
"Ltio.Mysql.c191_after_close_violated": "propext, Classical.choice, Quot.sound",
"Ltio.Mysql.c191_cells_violated": "propext, Classical.choice, Quot.sound",
"Ltio.Mysql.c191_close_violated": "propext, Classical.choice, Quot.sound",
"Ltio.Mysql.c191_code_violated": "propext, Classical.choice, Quot.sound",
"Ltio.Mysql.c191_default_db_violated": "propext, Classical.choice, Quot.sound",
"Ltio.Mysql.c191_late_violated": "propext, Classical.choice, Quot.sound",
"Ltio.Mysql.c191_no_reconnect_violated": "propext, Classical.choice, Quot.sound",
"Ltio.Mysql.c191_not_ready_violated": "propext",
"Ltio.Mysql.c191_uninitialised_violated": "propext, Classical.choice, Quot.sound",
"Ltio.Mysql.c192_database": "propext, Classical.choice, Quot.sound",
"Ltio.Mysql.c192_ended": "propext, Classical.choice, Quot.sound",
"Ltio.Mysql.c192_in_turn": "propext",
"Ltio.Mysql.c192_no_rows": "propext, Classical.choice, Quot.sound",
"Ltio.Mysql.c192_once_in_order": "propext, Classical.choice, Quot.sound",
"Ltio.Mysql.c192_rows": "propext, Classical.choice, Quot.sound",
"Ltio.Net.Acceptor.c123_error": "propext, Quot.sound",
"Ltio.Net.Acceptor.c123_once": "propext, Quot.sound",
"Ltio.Net.Acceptor.c123_reopened": "",
"Ltio.Net.Acceptor.c123_start": "",
"Ltio.Net.Acceptor.c123_stopped": "propext, Quot.sound",
"Ltio.Net.Acceptor.c123_tidy": "propext, Quot.sound",
"Ltio.Net.Acceptor.c124_deaf_violated": "propext, Quot.sound",
"Ltio.Net.Acceptor.c124_stop_violated": "propext, Quot.sound",
"Ltio.Net.Acceptor.c125_endpoint_v4": "propext, Quot.sound",
"Ltio.Net.Acceptor.c125_endpoint_v6_violated": "propext, Classical.choice, Quot.sound",
"Ltio.Net.Acceptor.c125_peer_v4": "propext, Quot.sound",
"Ltio.Net.Acceptor.c125_peer_v6_violated": "propext, Quot.sound",
"Ltio.Net.Acceptor.c125_self_v4": "propext, Quot.sound",
"Ltio.Net.Acceptor.c125_self_v6": "propext, Quot.sound",
"Ltio.Net.E2E.LinePair.c160_prefix_partial": "propext, Classical.choice, Quot.sound",
"Ltio.Net.E2E.LinePair.c160_stuck_violated": "propext, Quot.sound",
"Ltio.Net.E2E.RawPair.c157_complete": "propext, Classical.choice, Quot.sound",
"Ltio.Net.E2E.RawPair.c157_prefix": "propext, Classical.choice, Quot.sound",
"Ltio.Net.E2E.RawPair.c157_progress": "propext, Classical.choice, Quot.sound",
"Ltio.Net.E2E.RawPair.c158_answers": "propext, Classical.choice, Quot.sound",
"Ltio.Net.E2E.RawPair.c158_rpc": "propext, Classical.choice, Quot.sound",
"Ltio.Net.E2E.RawPair.demo_answers": "propext, Quot.sound",
"Ltio.Net.E2E.WsPair.c159_complete": "propext, Classical.choice, Quot.sound",
"Ltio.Net.E2E.WsPair.c159_prefix": "propext, Classical.choice, Quot.sound",
"Ltio.Net.E2E.WsPair.c159_progress": "propext, Classical.choice, Quot.sound",
"Ltio.Net.Lifetime.c197_client_violated": "propext",
"Ltio.Net.Lifetime.c197_flush_violated": "propext",
"Ltio.Net.Lifetime.c197_h2_violated": "propext",
"Ltio.Net.Lifetime.c197_late_violated": "propext",
"Ltio.Net.Lifetime.c197_race_violated": "propext",
"Ltio.Net.Lifetime.c198_deleted": "propext, Quot.sound",
"Ltio.Net.Lifetime.c198_event": "propext, Quot.sound",
"Ltio.Net.Lifetime.c198_plain": "propext, Quot.sound",
"Ltio.Net.Lifetime.c198_replies": "propext, Quot.sound",
"Ltio.Net.Lifetime.c198_server": "propext, Quot.sound",
"Ltio.Net.Lifetime.c198_shared": "propext, Quot.sound",
"Ltio.Net.Ssl.c24_ssl_input": "propext, Classical.choice, Quot.sound",
"Ltio.Net.Ssl.c24_ssl_prefix": "propext, Classical.choice, Quot.sound",
"Ltio.Net.Ssl.c24_ssl_safe": "propext, Classical.choice, Quot.sound",
"Ltio.Net.Ssl.c24_ssl_stream": "propext, Classical.choice, Quot.sound",
"Ltio.Net.Ssl.c24_ssl_witness": "propext",
"Ltio.Net.Ssl.c24_ssl_write_interest": "propext, Classical.choice, Quot.sound",
"Ltio.Net.Ssl.c24_violation_ssl_moved_buffer": "propext, Classical.choice, Quot.sound",
"Ltio.Net.TlsTrust.c199_ca_alone_violated": "propext, Classical.choice, Quot.sound",
"Ltio.Net.TlsTrust.c199_default_server_violated": "propext, Classical.choice, Quot.sound",
"Ltio.Net.TlsTrust.c199_garbage_violated": "propext",
"Ltio.Net.TlsTrust.c199_host_violated": "propext",
"Ltio.Net.TlsTrust.c199_path_violated": "propext",
"Ltio.Net.TlsTrust.c199_shared_violated": "propext, Classical.choice, Quot.sound",
"Ltio.Net.TlsTrust.c199_system_violated": "propext, Classical.choice, Quot.sound",
"Ltio.Net.TlsTrust.c199_unusable_violated": "propext, Classical.choice, Quot.sound",
"Ltio.Net.TlsTrust.c200_certificate": "propext, Classical.choice, Quot.sound",
"Ltio.Net.TlsTrust.c200_client": "propext, Classical.choice, Quot.sound",
"Ltio.Net.TlsTrust.c200_connect": "propext, Classical.choice, Quot.sound",
"Ltio.Net.TlsTrust.c200_create": "propext, Classical.choice, Quot.sound",
"Ltio.Net.TlsTrust.c200_default": "propext, Classical.choice, Quot.sound",
"Ltio.Net.TlsTrust.c200_fit": "propext, Classical.choice, Quot.sound",
"Ltio.Net.TlsTrust.c200_present": "propext, Classical.choice, Quot.sound",
"Ltio.Net.TlsTrust.c200_server": "propext, Classical.choice, Quot.sound",
"Ltio.Net.Udp.c126_cut_violated": "propext, Classical.choice, Quot.sound",
"Ltio.Net.Udp.c126_datagrams": "propext, Classical.choice, Quot.sound",
"Ltio.Net.Udp.c127_abort_violated": "propext",
"Ltio.Net.Udp.c127_dangling_violated": "propext",
"Ltio.Net.Udp.c127_double_close_violated": "propext",
"Ltio.Net.Udp.c127_start": "propext, Quot.sound",
"Ltio.Net.Udp.c127_stays": "propext, Quot.sound",
"Ltio.Net.c24_drains": "propext, Classical.choice, Quot.sound",
"Ltio.Net.c24_failure_is_real_partial": "propext, Classical.choice, Quot.sound",
"Ltio.Net.c24_input": "propext, Classical.choice, Quot.sound",
"Ltio.Net.c24_prefix": "propext, Classical.choice, Quot.sound",
"Ltio.Net.c24_read_failure": "propext, Classical.choice, Quot.sound",
"Ltio.Net.c24_read_until_eagain": "propext, Classical.choice, Quot.sound",
"Ltio.Net.c24_return_value": "propext, Classical.choice, Quot.sound",
"Ltio.Net.c24_safe": "propext, Classical.choice, Quot.sound",
"Ltio.Net.c24_stream": "propext, Classical.choice, Quot.sound",
"Ltio.Net.c24_violation_empty_send": "propext",
"Ltio.Net.c24_violation_interest_without_data": "propext",
"Ltio.Net.c24_violation_length_truncated": "propext",
"Ltio.Net.c24_witness": "propext",
"Ltio.Net.c24_write_interest": "propext, Classical.choice, Quot.sound",
"Ltio.Net.c24_write_until_eagain": "propext, Classical.choice, Quot.sound",
"Ltio.Net.c40_cause": "propext, Classical.choice, Quot.sound",
"Ltio.Net.c40_event_partial": "propext",
"Ltio.Net.c40_keepalive_exactly_once_partial": "propext",
"Ltio.Net.c40_violation_close_response": "",
"Ltio.Net.c40_violation_parse_error_eof": "",
"Ltio.Net.c40_violation_scheduled_drain": "",
"Ltio.Net.c40_witness": "",
"Ltio.Net.c45_delivered_partial": "propext, Classical.choice, Quot.sound",
"Ltio.Net.c45_stream": "propext, Classical.choice, Quot.sound",
"Ltio.Net.c45_violation_truncated": "propext, Quot.sound",
"Ltio.Net.c45_will_send_partial": "propext, Classical.choice, Quot.sound",
"Ltio.Net.close_spec": "",
"Ltio.Net.tryFlush_empty": "propext, Quot.sound",
"Ltio.Num.c131_checked_cast": "propext, Classical.choice, Quot.sound",
"Ltio.Num.c131_compare": "propext, Classical.choice, Quot.sound",
"Ltio.Num.c131_contained": "propext, Classical.choice, Quot.sound",
"Ltio.Num.c131_in_range": "propext, Classical.choice, Quot.sound",
"Ltio.Num.c131_saturated_cast": "propext, Classical.choice, Quot.sound",
"Ltio.Num.c132_div_sound": "propext, Classical.choice, Quot.sound",
"Ltio.Num.c132_div_violated": "propext, Classical.choice, Quot.sound",
"Ltio.Num.c132_expr": "propext, Classical.choice, Quot.sound",
"Ltio.Num.c132_in_type": "propext, Classical.choice, Quot.sound",
"Ltio.Num.c132_mod_violated": "propext, Classical.choice, Quot.sound",
"Ltio.Num.c132_neg_violated": "propext, Classical.choice, Quot.sound",
"Ltio.Num.c132_not_violated": "propext, Classical.choice, Quot.sound",
"Ltio.Num.c132_op": "propext, Classical.choice, Quot.sound",
"Ltio.Num.c132_read": "propext, Classical.choice, Quot.sound",
"Ltio.Num.c133_add": "propext, Classical.choice, Quot.sound",
"Ltio.Num.c133_add_violated": "propext, Quot.sound",
"Ltio.Num.c133_div": "propext, Classical.choice, Quot.sound",
"Ltio.Num.c133_div_violated": "propext, Classical.choice, Quot.sound",
"Ltio.Num.c133_lsh": "propext, Classical.choice, Quot.sound",
"Ltio.Num.c133_max_min": "propext, Classical.choice, Quot.sound",
"Ltio.Num.c133_mod": "propext, Classical.choice, Quot.sound",
"Ltio.Num.c133_mod_violated": "propext, Classical.choice, Quot.sound",
"Ltio.Num.c133_mul": "propext, Classical.choice, Quot.sound",
"Ltio.Num.c133_neg_abs": "propext, Classical.choice, Quot.sound",
"Ltio.Num.c133_rsh": "propext, Classical.choice, Quot.sound",
"Ltio.Num.c133_sub": "propext, Classical.choice, Quot.sound",
"Ltio.Pool.c38_alive_partial": "propext, Quot.sound",
"Ltio.Pool.c38_backoff_bound": "propext, Quot.sound",
"Ltio.Pool.c38_backoff_linear": "propext, Quot.sound",
"Ltio.Pool.c38_no_dangling_partial": "propext",
"Ltio.Pool.c38_select_complete_partial": "propext, Quot.sound",
"Ltio.Pool.c38_select_ready": "propext",
"Ltio.Pool.c38_select_spread": "propext, Quot.sound",
"Ltio.Pool.c38_select_witness": "propext",
"Ltio.Pool.c38_single": "propext, Quot.sound",
"Ltio.Pool.c38_violation_dangling": "propext, Quot.sound",
"Ltio.Pool.c38_violation_dead": "",
"Ltio.Pool.c38_violation_select_far": "propext, Quot.sound",
"Ltio.Pool.c38_violation_select_race": "propext",
"Ltio.Pool.c38_violation_select_wrap": "propext",
"Ltio.Pool.c38_violation_too_many": "propext, Quot.sound",
"Ltio.Pool.c38_violation_unbounded": "propext, Quot.sound",
"Ltio.Rand.c92_accepts_half": "propext, Classical.choice, Quot.sound",
"Ltio.Rand.c92_bytes": "propext, Classical.choice, Quot.sound",
"Ltio.Rand.c92_ends": "propext, Classical.choice, Quot.sound",
"Ltio.Rand.c92_in_range": "propext",
"Ltio.Rand.c92_randInt": "propext, Quot.sound",
"Ltio.Rand.c92_uniform": "propext, Classical.choice, Quot.sound",
"Ltio.Rand.c92_unit": "propext",
"Ltio.Rand.c92_unit_uniform": "propext, Classical.choice, Quot.sound",
"Ltio.Rand.w_c92": "",
"Ltio.Raw.c08_client_delivery": "propext, Quot.sound",
"Ltio.Raw.c08_encode": "propext, Quot.sound",
"Ltio.Raw.c08_huge_payload_violated": "propext, Quot.sound",
"Ltio.Raw.c08_roundtrip_partial": "propext, Quot.sound",
"Ltio.Raw.c08_server_delivery": "propext, Classical.choice, Quot.sound",
"Ltio.Raw.c09_crash_iff": "propext, Quot.sound",
"Ltio.Raw.c09_delivered_exact": "propext, Quot.sound",
"Ltio.Raw.c09_hostile_length_violated": "propext, Quot.sound",
"Ltio.Raw.c09_stream_safe_partial": "propext, Quot.sound",
"Ltio.Raw.createResponse_fields": "propext, Classical.choice, Quot.sound",
"Ltio.Raw.create_fields": "",
"Ltio.Raw.sendRequest_ids_distinct": "propext, Quot.sound",
"Ltio.Redis.Buffer.c193_self_append_violated": "propext, Classical.choice, Quot.sound",
"Ltio.Redis.Buffer.c193_self_move_violated": "propext, Classical.choice, Quot.sound",
"Ltio.Redis.Buffer.c193_shrink_ref_violated": "propext, Classical.choice, Quot.sound",
"Ltio.Redis.Buffer.c194_contents": "propext, Classical.choice, Quot.sound",
"Ltio.Redis.Buffer.c194_memory": "propext, Classical.choice, Quot.sound",
"Ltio.Redis.Encode.c47_injective": "propext, Classical.choice, Quot.sound",
"Ltio.Redis.Encode.c47_request_encoding": "propext, Classical.choice, Quot.sound",
"Ltio.Redis.Encode.c47_request_roundtrip": "propext, Classical.choice, Quot.sound",
"Ltio.Redis.Encode.c47_violation_heartbeat": "propext, Classical.choice, Quot.sound",
"Ltio.Redis.Rpc.c187_crash_violated": "propext, Classical.choice, Quot.sound",
"Ltio.Redis.Rpc.c187_hangs_violated": "propext, Classical.choice, Quot.sound",
"Ltio.Redis.Rpc.c187_heartbeat_violated": "propext, Classical.choice, Quot.sound",
"Ltio.Redis.Rpc.c187_wrong_answer_violated": "propext, Classical.choice, Quot.sound",
"Ltio.Redis.Rpc.c188_complete": "propext, Classical.choice, Quot.sound",
"Ltio.Redis.Rpc.c188_own_replies": "propext, Classical.choice, Quot.sound",
"Ltio.Redis.Startup.c195_empty_violated": "propext, Classical.choice, Quot.sound",
"Ltio.Redis.Startup.c195_garbage_violated": "propext, Classical.choice, Quot.sound",
"Ltio.Redis.Startup.c195_pong_violated": "propext, Classical.choice, Quot.sound",
"Ltio.Redis.Startup.c195_twice_violated": "propext",
"Ltio.Redis.Startup.c196_not_before": "propext, Classical.choice, Quot.sound",
"Ltio.Redis.Startup.c196_plain": "",
"Ltio.Redis.Startup.c196_pong": "propext, Classical.choice, Quot.sound",
"Ltio.Redis.Startup.c196_startup": "propext, Classical.choice, Quot.sound",
"Ltio.Redis.Startup.c196_then_requests": "propext, Classical.choice, Quot.sound",
"Ltio.Redis.Storage.c48_array_storage": "propext, Quot.sound",
"Ltio.Redis.Storage.c48_dump_partial": "propext, Quot.sound",
"Ltio.Redis.Storage.c48_reserve_chunks": "propext, Quot.sound",
"Ltio.Redis.Storage.c48_violation_dump": "propext",
"Ltio.Redis.Storage.c48_violation_no_reserve": "propext",
"Ltio.Redis.c35_leftover_partial": "propext, Classical.choice, Quot.sound",
"Ltio.Redis.c35_pairing_partial": "propext, Classical.choice, Quot.sound",
"Ltio.Redis.c35_startup": "propext, Classical.choice, Quot.sound",
"Ltio.Redis.c35_violation_number": "propext, Classical.choice, Quot.sound",
"Ltio.Redis.c35_violation_reentrant": "propext, Classical.choice, Quot.sound",
"Ltio.Redis.c35_violation_stale_array": "propext, Classical.choice, Quot.sound",
"Ltio.Redis.c35_violation_text": "propext, Classical.choice, Quot.sound",
"Ltio.Redis.c35_violation_unsolicited": "propext, Classical.choice, Quot.sound",
"Ltio.Redis.decode_append": "propext, Classical.choice, Quot.sound",
"Ltio.Redis.decode_enc": "propext, Classical.choice, Quot.sound",
"Ltio.Redis.strtol_out_of_range": "propext, Classical.choice, Quot.sound",
"Ltio.Redis.strtol_saturates": "propext, Classical.choice, Quot.sound",
"Ltio.Repeating.c53_hang_forever": "propext",
"Ltio.Repeating.c53_no_uaf_partial": "propext",
"Ltio.Repeating.c53_quiet": "propext, Quot.sound",
"Ltio.Repeating.c53_safe": "propext, Quot.sound",
"Ltio.Repeating.c53_violation_destroy": "propext",
"Ltio.Repeating.c53_violation_hang": "propext",
"Ltio.Repeating.c53_violation_self_stop": "propext",
"Ltio.Repeating.c53_violation_unstarted": "propext",
"Ltio.Repeating.c53_witness": "propext",
"Ltio.Router.c19_add_moves_only_to_new": "propext, Classical.choice, Quot.sound",
"Ltio.Router.c19_erase_moves_only_served": "propext, Classical.choice, Quot.sound",
"Ltio.Router.c19_nearest": "propext, Classical.choice, Quot.sound",
"Ltio.Router.c19_order_independent_partial": "propext, Classical.choice, Quot.sound",
"Ltio.Router.c19_order_violated": "propext, Classical.choice, Quot.sound",
"Ltio.Router.c19_total": "propext, Classical.choice, Quot.sound",
"Ltio.Router.c20_cycle_partial": "propext, Classical.choice, Quot.sound",
"Ltio.Router.c20_empty_ub": "propext",
"Ltio.Router.c20_fair_partial": "propext, Classical.choice, Quot.sound",
"Ltio.Router.c20_power_of_two": "propext, Classical.choice, Quot.sound",
"Ltio.Router.c20_wrap_violated": "propext, Quot.sound",
"Ltio.Router.vnode_label_collision": "propext",
"Ltio.Server.Assign.c146_consecutive": "propext, Quot.sound",
"Ltio.Server.Assign.c146_even": "propext, Quot.sound",
"Ltio.Server.Assign.c146_valid": "propext, Quot.sound",
"Ltio.Server.Assign.c147_shared_counter_load": "propext, Classical.choice, Quot.sound",
"Ltio.Server.Assign.c147_shared_counter_violated": "propext, Quot.sound",
"Ltio.Server.Assign.c147_wrap_violated": "",
"Ltio.Server.Assign.c148_alternate": "propext, Quot.sound",
"Ltio.Server.Assign.c148_callbacks": "propext, Quot.sound",
"Ltio.Server.Assign.c148_completes": "propext, Quot.sound",
"Ltio.Server.Assign.c149_restart_twice_violated": "propext, Quot.sound",
"Ltio.Server.Assign.c149_restart_violated": "propext, Quot.sound",
"Ltio.Server.Registry.c144_builtin": "propext, Quot.sound",
"Ltio.Server.Registry.c144_builtin_serves": "propext, Quot.sound",
"Ltio.Server.Registry.c144_independent": "propext, Quot.sound",
"Ltio.Server.Registry.c144_last_wins": "propext, Quot.sound",
"Ltio.Server.Registry.c144_sides_agree": "propext",
"Ltio.Server.Registry.c144_tls": "propext, Classical.choice, Quot.sound",
"Ltio.Server.Registry.c144_unknown": "propext, Classical.choice, Quot.sound",
"Ltio.Server.Registry.c145_empty_creator_violated": "propext, Classical.choice, Quot.sound",
"Ltio.Server.Registry.c145_null_codec_violated": "propext, Classical.choice, Quot.sound",
"Ltio.Server.Registry.c145_rawssl_plain_violated": "propext",
"Ltio.Server.Registry.c145_secure_otherwise": "propext, Classical.choice, Quot.sound",
"Ltio.Server.Reply.c142_all_sent": "propext, Quot.sound",
"Ltio.Server.Reply.c142_at_most_once": "propext, Quot.sound",
"Ltio.Server.Reply.c142_call_enabled": "propext, Quot.sound",
"Ltio.Server.Reply.c142_closes": "propext, Quot.sound",
"Ltio.Server.Reply.c142_first_answer": "propext, Quot.sound",
"Ltio.Server.Reply.c142_order_off_loop": "propext, Quot.sound",
"Ltio.Server.Reply.c142_order_on_loop": "propext, Quot.sound",
"Ltio.Server.Reply.c142_responded": "propext, Quot.sound",
"Ltio.Server.Reply.c142_send_closes": "propext, Quot.sound",
"Ltio.Server.Reply.c143_close_twice_violated": "propext, Quot.sound",
"Ltio.Server.Reply.c143_file_violated": "propext, Quot.sound",
"Ltio.Server.Reply.c143_http_twice_violated": "propext, Quot.sound",
"Ltio.Server.Reply.c143_order_violated": "propext, Quot.sound",
"Ltio.Server.Reply.c143_race_violated": "propext, Quot.sound",
"Ltio.Server.c36_callback_eventually": "propext, Classical.choice, Quot.sound",
"Ltio.Server.c36_callback_not_early": "propext, Classical.choice, Quot.sound",
"Ltio.Server.c36_callback_once_partial": "propext, Classical.choice, Quot.sound",
"Ltio.Server.c36_count": "propext, Classical.choice, Quot.sound",
"Ltio.Server.c36_limit_partial": "propext, Classical.choice, Quot.sound",
"Ltio.Server.c36_limit_single": "propext, Classical.choice, Quot.sound",
"Ltio.Server.c36_shutdown_progress": "propext, Quot.sound",
"Ltio.Server.c36_violation_callback_twice": "propext, Quot.sound",
"Ltio.Server.c36_violation_limit": "propext, Classical.choice, Quot.sound",
"Ltio.Server.c36_witness": "propext, Quot.sound",
"Ltio.Source.Config.c189_abort_violated": "propext, Classical.choice, Quot.sound",
"Ltio.Source.Config.c189_missing_member_violated": "propext, Classical.choice, Quot.sound",
"Ltio.Source.Config.c189_mode_violated": "propext, Classical.choice, Quot.sound",
"Ltio.Source.Config.c189_throws_violated": "propext, Classical.choice, Quot.sound",
"Ltio.Source.Config.c189_useless_violated": "propext, Classical.choice, Quot.sound",
"Ltio.Source.Config.c190_accepted_iff": "propext, Classical.choice, Quot.sound",
"Ltio.Source.c91_broken_hangs": "propext",
"Ltio.Source.c91_default_unused": "propext, Classical.choice, Quot.sound",
"Ltio.Source.c91_header_loaded": "propext, Classical.choice, Quot.sound",
"Ltio.Source.c91_int": "propext, Classical.choice, Quot.sound",
"Ltio.Source.c91_int_forms": "propext, Classical.choice, Quot.sound",
"Ltio.Source.c91_lines": "propext, Classical.choice, Quot.sound",
"Ltio.Source.c91_long_delimiter": "propext, Classical.choice, Quot.sound",
"Ltio.Source.c91_missing_succeeds": "propext, Classical.choice, Quot.sound",
"Ltio.Source.c91_table": "propext, Classical.choice, Quot.sound",
"Ltio.Source.c91_values": "propext, Classical.choice, Quot.sound",
"Ltio.Source.w_c91": "propext, Classical.choice, Quot.sound",
"Ltio.Sync.Lazy.c80_complete": "propext, Quot.sound",
"Ltio.Sync.Lazy.c80_hasInstance_after": "propext, Quot.sound",
"Ltio.Sync.Lazy.c80_hasInstance_early": "propext",
"Ltio.Sync.Lazy.c80_once": "propext, Quot.sound",
"Ltio.Sync.Lazy.c80_progress": "propext, Quot.sound",
"Ltio.Sync.Lazy.c80_reentry_hangs": "propext, Quot.sound",
"Ltio.Sync.Lazy.w_c80": "propext",
"Ltio.Sync.RefList.c82_accounted": "propext, Classical.choice, Quot.sound",
"Ltio.Sync.RefList.c82_added_not_found": "propext",
"Ltio.Sync.RefList.c82_no_abort": "propext, Classical.choice, Quot.sound",
"Ltio.Sync.RefList.c82_no_double": "propext, Classical.choice, Quot.sound",
"Ltio.Sync.RefList.c82_no_loss": "propext, Classical.choice, Quot.sound",
"Ltio.Sync.RefList.w_c82": "propext",
"Ltio.Sync.RefPtr.c83_alive": "propext, Classical.choice, Quot.sound",
"Ltio.Sync.RefPtr.c83_alive_assign": "propext, Classical.choice, Quot.sound",
"Ltio.Sync.RefPtr.c83_count": "propext, Classical.choice, Quot.sound",
"Ltio.Sync.RefPtr.c83_deleted_iff": "propext, Classical.choice, Quot.sound",
"Ltio.Sync.RefPtr.c83_once": "propext, Classical.choice, Quot.sound",
"Ltio.Sync.RefPtr.w_c83": "propext",
"Ltio.Sync.Spin.c79_exclusion": "propext, Quot.sound",
"Ltio.Sync.Spin.c79_live": "propext, Quot.sound",
"Ltio.Sync.Spin.c79_no_lost_update": "propext, Quot.sound",
"Ltio.Sync.Spin.c79_progress": "propext, Quot.sound",
"Ltio.Sync.Spin.c79_trylock": "propext, Classical.choice, Quot.sound",
"Ltio.Sync.Spin.w_c79": "propext",
"Ltio.Sync.Tagged.c81_fail_means_progress": "propext, Quot.sound",
"Ltio.Sync.Tagged.c81_linearizable": "propext, Quot.sound",
"Ltio.Sync.Tagged.c81_no_double": "propext, Quot.sound",
"Ltio.Sync.Tagged.c81_no_loss": "propext, Quot.sound",
"Ltio.Sync.Tagged.w_c81": "propext",
"Ltio.Text.Num.c164_array": "propext, Classical.choice, Quot.sound",
"Ltio.Text.Num.c164_bool": "propext, Classical.choice, Quot.sound",
"Ltio.Text.Num.c164_parse": "propext, Classical.choice, Quot.sound",
"Ltio.Text.Num.c164_toInt": "propext, Quot.sound",
"Ltio.Text.Num.c164_toInt_fail": "propext",
"Ltio.Text.Num.c164_toInt_text": "propext, Classical.choice, Quot.sound",
"Ltio.Text.Num.c165_blank_violated": "propext, Quot.sound",
"Ltio.Text.Num.c165_parseTo_violated": "propext, Classical.choice, Quot.sound",
"Ltio.Text.Num.c165_trailing_violated": "propext, Classical.choice, Quot.sound",
"Ltio.Text.PrettyBytes.c209_next_unit_violated": "propext, Classical.choice, Quot.sound",
"Ltio.Text.PrettyBytes.c210_close": "propext, Classical.choice, Quot.sound",
"Ltio.Text.PrettyBytes.c210_monotone": "propext, Classical.choice, Quot.sound",
"Ltio.Text.PrettyBytes.c210_text": "propext, Classical.choice, Quot.sound",
"Ltio.Text.PrettyBytes.c210_ties": "propext, Classical.choice, Quot.sound",
"Ltio.Text.PrettyBytes.c210_unit": "propext, Classical.choice, Quot.sound",
"Ltio.Text.StrError.c207_overlap_violated": "propext, Quot.sound",
"Ltio.Text.StrError.c208_ends": "propext, Classical.choice, Quot.sound",
"Ltio.Text.StrError.c208_known": "propext",
"Ltio.Text.StrError.c208_serial": "propext, Quot.sound",
"Ltio.Text.StringView.c128_find": "propext, Classical.choice, Quot.sound",
"Ltio.Text.StringView.c128_find_empty": "propext, Quot.sound",
"Ltio.Text.StringView.c128_find_end_violated": "propext, Quot.sound",
"Ltio.Text.StringView.c128_first_not_of": "propext, Classical.choice, Quot.sound",
"Ltio.Text.StringView.c128_first_of": "propext, Classical.choice, Quot.sound",
"Ltio.Text.StringView.c128_last_not_of": "propext, Classical.choice, Quot.sound",
"Ltio.Text.StringView.c128_last_of": "propext, Quot.sound",
"Ltio.Text.StringView.c128_rfind": "propext, Classical.choice, Quot.sound",
"Ltio.Text.StringView.c129_affix": "propext, Classical.choice, Quot.sound",
"Ltio.Text.StringView.c129_compare": "propext, Classical.choice, Quot.sound",
"Ltio.Text.StringView.c129_remove": "propext",
"Ltio.Text.StringView.c129_substr": "propext, Classical.choice, Quot.sound",
"Ltio.Text.StringView.c130_default_violated": "propext, Quot.sound",
"Ltio.Text.StringView.c130_insert_partial": "propext, Quot.sound",
"Ltio.Text.c32_empty_separator_violated": "propext, Classical.choice, Quot.sound",
"Ltio.Text.c32_ignore_empty_partial": "propext, Classical.choice, Quot.sound",
"Ltio.Text.c32_ignore_empty_violated": "propext, Classical.choice, Quot.sound",
"Ltio.Text.c32_join_split": "propext, Classical.choice, Quot.sound",
"Ltio.Text.c32_long_separator_violated": "propext, Classical.choice, Quot.sound",
"Ltio.Text.c32_splitChar": "propext, Quot.sound",
"Ltio.Text.c32_split_join": "propext, Classical.choice, Quot.sound",
"Ltio.Text.c41_contains_empty_violated": "",
"Ltio.Text.c41_contains_partial": "propext, Quot.sound",
"Ltio.Text.c41_endsWith": "propext",
"Ltio.Text.c41_ignoreCase_overread_violated": "propext",
"Ltio.Text.c41_ignoreCase_partial": "propext, Classical.choice, Quot.sound",
"Ltio.Text.c41_ignoreCase_prefix_violated": "propext",
"Ltio.Text.c41_replace": "propext, Quot.sound",
"Ltio.Text.c41_replaceLast": "propext, Quot.sound",
"Ltio.Text.c41_startsWith": "propext",
"Ltio.Text.c41_trim": "propext, Quot.sound",
"Ltio.Text.isTrim_unique": "propext",
"Ltio.Time.Cal.c95_implode": "propext, Classical.choice, Quot.sound",
"Ltio.Time.Cal.c95_normalize": "propext, Classical.choice, Quot.sound",
"Ltio.Time.Cal.c95_unique": "propext, Classical.choice, Quot.sound",
"Ltio.Time.Cal.c95_year_zero": "propext",
"Ltio.Time.Cal.valid_instant": "propext, Classical.choice, Quot.sound",
"Ltio.Time.Cal.w_c95": "propext",
"Ltio.Time.Cal.year_iff": "propext, Classical.choice, Quot.sound",
"Ltio.Time.Conv.c97_early_midnight": "propext, Classical.choice, Quot.sound",
"Ltio.Time.Conv.c97_explode": "propext, Classical.choice, Quot.sound",
"Ltio.Time.Conv.c97_from_exploded": "propext, Classical.choice, Quot.sound",
"Ltio.Time.Conv.c97_midnight": "propext, Classical.choice, Quot.sound",
"Ltio.Time.Conv.c97_ms_timeval": "propext, Classical.choice, Quot.sound",
"Ltio.Time.Conv.c97_round_trip": "propext, Classical.choice, Quot.sound",
"Ltio.Time.Conv.c97_time_t": "propext, Classical.choice, Quot.sound",
"Ltio.Time.Conv.c97_time_t_wrong": "",
"Ltio.Time.Conv.c97_timeval": "propext, Quot.sound",
"Ltio.Time.Conv.c97_timeval_wrong": "",
"Ltio.Time.Conv.w_c97": "propext, Classical.choice, Quot.sound",
"Ltio.Time.Parse.c96_asctime": "propext, Classical.choice, Quot.sound",
"Ltio.Time.Parse.c96_fromUTCString": "propext",
"Ltio.Time.Parse.c96_impossible": "propext, Classical.choice, Quot.sound",
"Ltio.Time.Parse.c96_iso8601": "propext, Classical.choice, Quot.sound",
"Ltio.Time.Parse.c96_minus_one_minute": "propext",
"Ltio.Time.Parse.c96_named_zone": "propext, Classical.choice, Quot.sound",
"Ltio.Time.Parse.c96_rfc1123": "propext, Classical.choice, Quot.sound",
"Ltio.Time.Parse.c96_rfc850": "propext, Classical.choice, Quot.sound",
"Ltio.Time.Parse.c96_small_years": "propext",
"Ltio.Time.Parse.c96_zone": "propext, Classical.choice, Quot.sound",
"Ltio.Time.Parse.w_c96": "propext, Classical.choice, Quot.sound",
"Ltio.Time.Ticks.c156_delta": "propext, Classical.choice, Quot.sound",
"Ltio.Time.Ticks.c156_epoch": "propext, Classical.choice, Quot.sound",
"Ltio.Time.Ticks.c156_stamp": "propext, Classical.choice, Quot.sound",
"Ltio.Time.Ticks.c156_stamp_order": "propext, Classical.choice, Quot.sound",
"Ltio.Time.Ticks.c156_ticks": "propext, Classical.choice, Quot.sound",
"Ltio.Time.Ticks.c156_ticks_order": "propext, Classical.choice, Quot.sound",
"Ltio.Time.Ticks.c156_time_now": "propext, Classical.choice, Quot.sound",
"Ltio.Time.Ticks.c156_time_us": "propext, Classical.choice, Quot.sound",
"Ltio.Time.c94_add_sub": "propext, Classical.choice, Quot.sound",
"Ltio.Time.c94_div_zero": "propext, Quot.sound",
"Ltio.Time.c94_floor_ceil": "propext, Classical.choice, Quot.sound",
"Ltio.Time.c94_from": "propext, Classical.choice, Quot.sound",
"Ltio.Time.c94_in": "propext, Classical.choice, Quot.sound",
"Ltio.Time.c94_in_infinite": "",
"Ltio.Time.c94_infinite": "propext",
"Ltio.Time.c94_infinity_lost": "propext",
"Ltio.Time.c94_int_div": "propext, Classical.choice, Quot.sound",
"Ltio.Time.c94_mul_div": "propext, Classical.choice, Quot.sound",
"Ltio.Time.c94_nanoseconds_finite": "",
"Ltio.Time.c94_neg_magnitude": "propext, Classical.choice, Quot.sound",
"Ltio.Time.c94_negative_timespec": "propext, Classical.choice, Quot.sound",
"Ltio.Time.c94_opposite_infinite": "",
"Ltio.Time.c94_round": "propext, Classical.choice, Quot.sound",
"Ltio.Time.c94_round_overflows": "propext",
"Ltio.Time.c94_time": "propext, Classical.choice, Quot.sound",
"Ltio.Time.c94_time_wraps": "",
"Ltio.Time.c94_timespec": "propext, Classical.choice, Quot.sound",
"Ltio.Time.w_c94": "propext",
"Ltio.Url.c37_parse_remote": "propext, Classical.choice, Quot.sound",
"Ltio.Url.c37_parse_remote_fresh": "propext, Classical.choice, Quot.sound",
"Ltio.Url.c37_parse_uri": "propext, Classical.choice, Quot.sound",
"Ltio.Url.c37_resolve_fail": "propext",
"Ltio.Url.c37_resolve_partial": "propext, Quot.sound",
"Ltio.Url.c37_violation_empty_port": "propext, Classical.choice, Quot.sound",
"Ltio.Url.c37_violation_empty_scheme": "propext, Classical.choice, Quot.sound",
"Ltio.Url.c37_violation_password_colon": "propext, Classical.choice, Quot.sound",
"Ltio.Url.c37_violation_port_overflow": "propext, Classical.choice, Quot.sound",
"Ltio.Url.c37_violation_query_at": "propext, Classical.choice, Quot.sound",
"Ltio.Url.c37_violation_query_eq": "propext, Classical.choice, Quot.sound",
"Ltio.Url.c37_violation_query_scheme": "propext, Classical.choice, Quot.sound",
"Ltio.Url.c37_violation_resolve_stale": "",
"Ltio.Url.c37_violation_resolved_nul": "propext, Classical.choice, Quot.sound",
"Ltio.Url.c37_violation_stale": "propext, Classical.choice, Quot.sound",
"Ltio.WebSocket.Server.c115_accept_value": "propext, Classical.choice, Quot.sound",
"Ltio.WebSocket.Server.c115_accepted": "propext, Classical.choice, Quot.sound",
"Ltio.WebSocket.Server.c115_answers": "propext, Classical.choice, Quot.sound",
"Ltio.WebSocket.Server.c115_case_violated": "propext, Classical.choice, Quot.sound",
"Ltio.WebSocket.Server.c115_llhttp_violated": "propext, Classical.choice, Quot.sound",
"Ltio.WebSocket.Server.c115_missing_key_violated": "propext, Classical.choice, Quot.sound",
"Ltio.WebSocket.Server.c115_two_answers_violated": "propext, Classical.choice, Quot.sound",
"Ltio.WebSocket.Server.c115_unregistered": "propext, Classical.choice, Quot.sound",
"Ltio.WebSocket.Server.c116_after_close_violated": "propext, Classical.choice, Quot.sound",
"Ltio.WebSocket.Server.c116_close_and_eof_violated": "propext, Classical.choice, Quot.sound",
"Ltio.WebSocket.Server.c116_close_and_stop_violated": "propext, Classical.choice, Quot.sound",
"Ltio.WebSocket.Server.c116_closed_final": "propext, Classical.choice, Quot.sound",
"Ltio.WebSocket.Server.c116_never_opened_violated": "propext, Classical.choice, Quot.sound",
"Ltio.WebSocket.Server.c116_order": "propext, Classical.choice, Quot.sound",
"Ltio.WebSocket.Server.c116_proper_partial": "propext, Classical.choice, Quot.sound",
"Ltio.WebSocket.Upgrade.c177_default_port_violated": "propext, Classical.choice, Quot.sound",
"Ltio.WebSocket.Upgrade.c177_host_port_violated": "propext, Classical.choice, Quot.sound",
"Ltio.WebSocket.Upgrade.c178_port": "propext, Classical.choice, Quot.sound",
"Ltio.WebSocket.Upgrade.c178_server_accepts": "propext, Classical.choice, Quot.sound",
"Ltio.WebSocket.Upgrade.c178_upgrade_request": "propext, Classical.choice, Quot.sound",
"Ltio.WebSocket.WsClient.c117_accept_unchecked_violated": "propext, Classical.choice, Quot.sound",
"Ltio.WebSocket.WsClient.c117_key": "propext, Classical.choice, Quot.sound",
"Ltio.WebSocket.WsClient.c117_llhttp_violated": "propext, Classical.choice, Quot.sound",
"Ltio.WebSocket.WsClient.c117_order": "propext, Classical.choice, Quot.sound",
"Ltio.WebSocket.WsClient.c117_ready_iff": "propext, Classical.choice, Quot.sound",
"Ltio.WebSocket.WsClient.c118_accounted": "propext, Classical.choice, Quot.sound",
"Ltio.WebSocket.WsClient.c118_failed_final": "propext, Classical.choice, Quot.sound",
"Ltio.WebSocket.WsClient.c118_no_close_violated": "propext, Classical.choice, Quot.sound",
"Ltio.WebSocket.WsClient.c118_send": "propext, Classical.choice, Quot.sound",
"Ltio.WebSocket.c03_build_parse_roundtrip": "propext, Classical.choice, Quot.sound",
"Ltio.WebSocket.c03_stream_roundtrip": "propext, Classical.choice, Quot.sound",
"Ltio.WebSocket.c04_chunking_independent": "propext, Classical.choice, Quot.sound",
"Ltio.WebSocket.c04_service_chunking_independent": "propext, Classical.choice, Quot.sound",
"Ltio.WebSocket.c05_frame_size": "propext, Quot.sound",
"Ltio.WebSocket.c05_send_path_partial": "propext, Quot.sound",
"Ltio.WebSocket.c05_send_path_violated": "propext, Quot.sound",
"Ltio.WebSocket.c06_mask_involution": "propext, Classical.choice, Quot.sound",
"Ltio.WebSocket.c06_mask_rfc": "propext, Classical.choice, Quot.sound",
"Ltio.WebSocket.c06_streamed_unmask": "propext, Classical.choice, Quot.sound",
"Ltio.WebSocket.c07_close": "propext, Classical.choice, Quot.sound",
"Ltio.WebSocket.c07_interleaved_control_violated": "propext, Classical.choice, Quot.sound",
"Ltio.WebSocket.c07_messages_reassembled_partial": "propext, Classical.choice, Quot.sound",
"Ltio.WebSocket.c39_hostile_length_ub": "propext, Classical.choice, Quot.sound",
"Ltio.WebSocket.c39_only_hostile_length_partial": "propext, Classical.choice, Quot.sound",
"Ltio.Wheel.c26_cancelled": "propext, Classical.choice, Quot.sound",
"Ltio.Wheel.c26_due": "propext, Classical.choice, Quot.sound",
"Ltio.Wheel.c26_not_early": "propext, Classical.choice, Quot.sound",
"Ltio.Wheel.c26_oneshot": "propext, Classical.choice, Quot.sound",
"Ltio.Wheel.c26_pass": "propext, Classical.choice, Quot.sound",
"Ltio.Wheel.c26_refines": "propext, Classical.choice, Quot.sound",
"Ltio.Wheel.c26_sleep": "propext, Classical.choice, Quot.sound",
"Ltio.Wheel.c26_violation_at_once": "propext, Classical.choice, Quot.sound",
"Ltio.Wheel.c26_violation_repeating": "propext, Classical.choice, Quot.sound",
"Ltio.Wheel.c26_wait": "propext, Classical.choice, Quot.sound",
"Ltio.Wheel.c26_witness": "propext, Quot.sound"
}