# Formal model of echoface/ltio in Lean 4

This file is generated by `tools/gen_design.py` (head: `tools/design_head.md`). The first version was the plan; it was
extended as the model grew.

## 1. Method

* Every modelled component has a directory under `lean/Verif/`. Model definitions are total executable Lean functions (or
  labelled transition systems `step : State → Label → Option State` for concurrent code), each with a comment citing the
  file and lines of /repo it follows and the simplifications made.
* Undefined behaviour, failed CHECKs, exceptions and null dereferences are a distinct outcome (`none`, `.crash`, `.ub`, or
  a ghost flag in the state), so safety is a theorem, not an assumption.
* Things outside the code — kernel answers to read/write/connect/epoll, other threads' interleavings, hash functions,
  digest functions, clock values, hash-map traversal orders, getaddrinfo answers — are universally quantified parameters.
* Specifications are separate small definitions (`Spec.lean` or a "Specification" section) that do not use the model's
  helpers. Ghost state (logs of what happened) is only written, never read, by `step`.
* Where the code violates a property, the violation is proved (for every member of a family of inputs where possible) and
  the largest part found to hold is proved under the suffix `_partial`, or stated as a property of its own (C56-C78).
* Theorems are tested against wrong programs: `seeded/seeds*.py` edit model definitions, `tools/seed.py` rebuilds in a
  scratch copy, `seeded/LOG.jsonl` records which theorems fail.
* Beside the theorems of each component there is a concrete witness (`*_witness`, `w_*` or an `example`) showing that the
  hypotheses are met by a non-trivial case.

## 2. Trusted base

* Lean 4.33.0's kernel; Mathlib only as a library of kernel-checked lemmas. Axioms used: `propext`, `Classical.choice`,
  `Quot.sound` (section 5, per theorem). No axioms of our own, no compiled evaluation.
* The tie between model and C++ is by reading: each definition cites its source. Nothing was compiled or run.
* Memory model: shared accesses of concurrent models are sequentially consistent single steps; `std::atomic` and mutexes
  as documented. Weak-memory effects are not modelled.
* Third-party contracts assumed (not modelled inside): moodycamel::ConcurrentQueue (FIFO per producer), llhttp (callback
  sequences), nghttp2, OpenSSL (SSL_read/SSL_write result contract), zlib, boost/libaco context switching, glog CHECK,
  getaddrinfo, epoll (level/edge semantics as documented), the C++ standard containers and iostreams.

### Modelled code

| Lean directory | source |
|---|---|
| Base64 | base/utils/base64/base64.hpp, thirdparty/urlsafe64 |
| BoolIndex | components/boolean_indexer (ids, cursors, scanner, builder, containers, building and ownership of documents) |
| Client | net_io/clients: async_channel, queued_channel, client_channel, client (connections, selection), client_connector, ws_client (life cycle), requests and their results, time-outs |
| Common | helper lemmas on byte orders and streams (no source) |
| Containers | base/queue/linked_list.h, double_linked_list.h |
| Coro | base/coroutine: co_runner (resume protocol, scheduling of tasks, CO_GO), wait_group, co_mutex, io_event; net_io/coronet/io_service |
| Http | net_io/codec/http: http_message headers and URL views, thirdparty/url-parser, http_constants, parser_context (callbacks, decompression), http_codec_service (encoding, compression, both ends of a connection; llhttp by contract `Tok.Meets`; the client side's use of the request parser's type for the response parser is taken to work), h2 (h2_codec_service server side, nghttp2_util, h2_tls_context choice of the protocol) |
| IOBuffer | net_io/io_buffer |
| Inverted | components/inverted_indexer (all but the debug dumps; JSON values, not texts) |
| Line | net_io/codec/line |
| Loop | base/message_loop: message_loop (queues, start/stop), fdev_mgr, io_mux_epoll, fd_event, event_pump dispatch; PostDelayTask, PostTaskAndReply, timer_task_helper, TaskWithCleanup |
| Lru | components/lru_cache |
| Maglev | net_io/common/load_balance/maglev2, clients/router/maglev_router |
| Mysql | integration/async_mysql: mysql_async_con (state machine), mysql_client_impl (choice of a connection), query_session |
| Net | net_io/tcp_channel, codec_service HandleEvent (both ends of a connection), tcp_channel_ssl, codec_service close paths and the lifetime of its object, base/crypto/lt_ssl (TLS contexts), http_context, ip_address, ip_endpoint, socket_acceptor, address functions of socket_utils, udp_io/udp_service |
| Raw | net_io/codec/raw |
| Redis | net_io/codec/redis, thirdparty/resp |
| Router | ringhash_router, consistent_hash_map, roundrobin_router |
| Server | generic_server.h, io_service.cc (accounting, life cycle, loop assignment), raw_server.cc, http_context.cc replies, codec_factory.cc |
| Sketch | components/bloomfilter, components/count_min_sketch |
| Text | base/utils/string/str_utils, base/utils/ns_convertor (itoa_r), base/sys/byteorders.h, base/string/string_view.hpp |
| Num | base/numerics/safe_conversions, checked_math, clamped_math (and their _impl headers), safe_math_clang_gcc_impl, safe_math_shared_impl, for integers |
| Timer | thirdparty/timeout, event_pump timers, timeout_event, repeating_timer |
| Url | net_io/url_utils |
| WebSocket | net_io/codec/websocket (C parser and service), net_io/server/ws_server/ws_server.h, net_io/clients/ws_client.cc |
| Sync | base/memory (spin_lock, lazy_instance, refcountedobject, scoped_ref_ptr, defer, scoped_guard), base/lockfree |
| Metrics | components/log_metrics, components/utils/data_accumulator.h |
| Source | components/source_loader (file loader, column parser, name_struct_source, configuration) |
| Util | base/utils/rand_util, base/utils/gzip (zlib itself by contract) |
| Time | base/time (time_delta, time_base, nspr/prtime, time, time_utils) and the clamped operations of base/numerics |
| Hash | thirdparty/hash (sha1, md5, crc, murmurhash3 x86_32 and x64_128), net_io/codec/websocket/ws_util.cc |
### Not modelled

base/numerics for floating point and on ARM; containers of base/string beyond string_view;
OpenSSL itself (its contract is stated in Net/SslChannel.lean and Net/TlsTrust.lean); nghttp2 itself and its client side;
mysql_loader; the mysql client library; examples; kqueue multiplexer; logging and debug dumps; thirdparty/hash
beyond the functions listed; stack switching itself (bstctx/libaco).

## 3. Properties: what is modelled, how it is proved, what is missing

Status as in MANIFEST.json. A *partial* property keeps its full statement in properties.jsonl; the theorems named
`_partial` and the note say what holds, the theorems named `violation`/`violated` prove that the rest is false of the code.

### C01 IOBuffer is a FIFO byte queue — proved
*Source:* net_io/io_buffer.cc: EnsureWritableSize, WriteString, WriteRawData, Consume, AsString; net_io/io_buffer.h: CanReadSize, Produce. *How:* index and storage model of the buffer; refinement to a byte list by induction over operation sequences
*Theorems:* `IOBuffer.c01_fifo`, `IOBuffer.c01_suffix_of_written`, `IOBuffer.c01_reader_prefix_stable`, `IOBuffer.findCRLF_correct`, `IOBuffer.findCRLF_none`, `IOBuffer.move_transfers`, `IOBuffer.move_continues`, `IOBuffer.hasALine_iff`

### C02 IOBuffer never writes outside its storage — proved
*Source:* net_io/io_buffer.cc: EnsureWritableSize, WriteRawData, Consume. *How:* storage writes out of range are `none`; invariant over operation sequences; exact characterisation of the UB inputs
*Theorems:* `IOBuffer.c02_ensure`, `IOBuffer.c02_no_out_of_bounds`, `IOBuffer.c02_ub_iff`

### C03 WebSocket frame build/parse round trip — proved
*Source:* net_io/codec/websocket/websocket_parser.c: websocket_build_frame, websocket_parser_execute, websocket_parser_decode. *How:* C state machine byte by byte; parse of the built frame computed by induction on the payload
*Theorems:* `WebSocket.c03_build_parse_roundtrip`, `WebSocket.c03_stream_roundtrip`

### C04 WebSocket parsing is independent of how the stream is chunked — proved
*Source:* net_io/codec/websocket/websocket_parser.c: websocket_parser_execute. *How:* byte-at-a-time semantics: parsing a chunk is a fold, so folds over appended chunks agree
*Theorems:* `WebSocket.c04_chunking_independent`, `WebSocket.c04_service_chunking_independent`

### C05 WebSocket frame size calculation equals bytes written — partial
*Source:* net_io/codec/websocket/websocket_parser.c: websocket_calc_frame_size, websocket_build_frame; net_io/codec/websocket/ws_util.cc. *How:* arithmetic on the three length classes; the int conversion of the send path modelled on BitVec
*Note:* proved for the C frame builder for all lengths; the send path converts the size to int, so payloads >= 2^31-14 are mis-sized (violation proved).
*Theorems:* `WebSocket.c05_frame_size`, `WebSocket.c05_send_path_partial`, `WebSocket.c05_send_path_violated`

### C06 WebSocket unmasking is correct for any chunking — proved
*Source:* net_io/codec/websocket/websocket_parser.c: websocket_parser_decode, websocket_decode. *How:* induction over bytes with the mask offset; comparison with the RFC formula
*Theorems:* `WebSocket.c06_mask_involution`, `WebSocket.c06_streamed_unmask`, `WebSocket.c06_mask_rfc`

### C07 WebSocket messages are reassembled from fragments — partial
*Source:* net_io/codec/websocket/ws_codec_service.cc: OnFrameBegin, OnFrameBody, OnFrameFinish, CommitFrameMessage. *How:* frame callbacks of the service as a fold over frames; control frame interleaving as a witness family
*Note:* control frames between fragments corrupt the message: violation proved for all payloads.
*Theorems:* `WebSocket.c07_messages_reassembled_partial`, `WebSocket.c07_interleaved_control_violated`, `WebSocket.c07_close`

### C08 Raw protocol stream decode is the inverse of encode — partial
*Source:* net_io/codec/raw/raw_message.cc: EncodeTo, Decode; net_io/codec/raw/raw_codec_service.h: OnDataReceived. *How:* encode/decode on bytes with little-endian lemmas; loop over arbitrary chunkings by a stream lemma
*Note:* proved for every message list, padding and chunking with payloads < 2^31; for payloads of 2^32 bytes the send length is truncated to int32 (violation proved).
*Theorems:* `Raw.c08_encode`, `Raw.c08_roundtrip_partial`, `Raw.c08_client_delivery`, `Raw.c08_server_delivery`, `Raw.c08_huge_payload_violated`, `Raw.sendRequest_ids_distinct`, `Raw.createResponse_fields`, `Raw.create_fields`

### C09 Raw protocol decoder is safe on hostile length fields — partial
*Source:* net_io/codec/raw/raw_message.cc: Decode; net_io/codec/raw/raw_message.h: LtRawHeader::frame_size. *How:* decoder with wrapping 64-bit arithmetic; case analysis of the length test
*Note:* exact characterisation of the crashing inputs: announced length within 24 of 2^64; violation proved.
*Theorems:* `Raw.c09_delivered_exact`, `Raw.c09_crash_iff`, `Raw.c09_stream_safe_partial`, `Raw.c09_hostile_length_violated`

### C10 Line codec delivers every line once, in order — partial
*Source:* net_io/codec/line/line_codec_service.cc: OnDataReceived, EncodeToChannel. *How:* one line per readable event, any chunking; induction over events
*Note:* no loss/duplication/reordering proved for every chunking; prompt delivery only if at most one LF per read; pipelined lines stay undelivered (violation proved).
*Theorems:* `Line.c10_no_loss_no_reorder_partial`, `Line.c10_prompt_delivery_partial`, `Line.c10_pipelined_lines_violated`, `Line.one_line_per_event`

### C100 Well-formed HTTP and ISO 8601 dates are parsed to their instants — proved
*Source:* base/time/nspr/prtime.cc: PR_ParseTimeString. *How:* the model of C96: the whole tokenizer as a loop over character lists; one lemma per token, chained over each format; the calendar of C95
*Note:* the unconditional part of C96.
*Theorems:* `Time.Parse.c96_rfc1123`, `Time.Parse.c96_zone`, `Time.Parse.c96_named_zone`, `Time.Parse.c96_rfc850`, `Time.Parse.c96_asctime`, `Time.Parse.c96_iso8601`, `Time.Parse.c96_fromUTCString`, `Time.Parse.w_c96`

### C101 Calendar fields of Time are exact — proved
*Source:* base/time/time.cc: Explode, FromExploded, Midnight; base/time/time_utils.cc. *How:* the model of C97: the code over integers with a library contract for gmtime_r and timegm; uniqueness of calendar fields from C95
*Note:* the unconditional part of C97; gmtime_r and timegm by contract.
*Theorems:* `Time.Conv.c97_explode`, `Time.Conv.c97_from_exploded`, `Time.Conv.c97_round_trip`, `Time.Conv.c97_midnight`, `Time.Conv.c97_ms_timeval`, `Time.Conv.w_c97`

### C102 gzip data are decompressed to what was compressed — partial
*Source:* base/utils/gzip/gzip_utils.cc. *How:* zlib as any stream with the contract of its manual, the code's buffer loop; induction over the rounds (capacity doubles)
*Note:* zlib by contract; violations proved: decompress_gzip does not cut its output, inputs of 4 GiB or more are compressed in part and reported as success.
*Theorems:* `Gzip.c102_gunzip_prefix`, `Gzip.c103_deflate_round_trip`, `Gzip.c103_compress`, `Gzip.c102_gunzip_padded`, `Gzip.c102_large_input`, `Gzip.w_c102`

### C103 Compression is complete, and deflate data are decompressed exactly — proved
*Source:* base/utils/gzip/gzip_utils.cc. *How:* the model of C102: zlib as any stream with the contract of its manual, the code's buffer loop; induction over the rounds (capacity doubles)
*Note:* the unconditional part of C102; zlib by contract.
*Theorems:* `Gzip.c103_compress`, `Gzip.c103_inflate`, `Gzip.c103_deflate_round_trip`, `Gzip.c103_large_output`, `Gzip.w_c102`

### C104 HTTP/2 requests are delivered once and complete — partial
*Source:* net_io/codec/http/h2/h2_codec_service.cc: on_begin_headers, on_header, on_data_chunk, on_frame_recv, on_stream_close. *How:* callback state machine per connection; projection onto one stream, then folds over header blocks and data frames
*Note:* nghttp2 by its callbacks; violations proved: a request with a body is delivered twice, first without body; bodies followed by trailers are never delivered; of several fields of a name only the first is kept.
*Theorems:* `H2.c104_independent`, `H2.c104_no_body`, `H2.c104_body`, `H2.c104_closed`, `H2.c104_twice`, `H2.c104_trailers`, `H2.c104_cookie_lost`, `H2.w_c104`

### C105 HTTP/2 header names are recognised exactly — proved
*Source:* net_io/codec/http/h2/nghttp2_util.cc: lookup_token. *How:* the nested switch, generated from the source; all leaves decided by one lemma on prefix and last character
*Theorems:* `H2.c105_lookup`, `H2.c105_none`, `H2.w_c105`

### C106 HTTP/2 responses are sent whole — partial
*Source:* net_io/codec/http/h2/h2_codec_service.cc: SendResponse, send_data_callback, PushPromise; net_io/server/http_server/http_context.cc: Response, Push. *How:* the response as frames for any length offered by nghttp2; case analysis, prefix characterisation of IgnoreCaseEquals
*Note:* nghttp2 by contract; violations proved: bodies over 16 KiB are not sent and close the connection, fields whose names begin connection or content-length are lost, the push callback may never be called.
*Theorems:* `H2.c106_fits`, `H2.c106_fields`, `H2.c106_push`, `H2.c106_large`, `H2.c106_prefix_lost`, `H2.c106_push_silent`

### C107 HTTP/2 streams do not interfere, and small exchanges are exact — proved
*Source:* net_io/codec/http/h2/h2_codec_service.cc. *How:* the models of C104 and C106
*Note:* the unconditional part of C104 and C106.
*Theorems:* `H2.c104_independent`, `H2.c104_no_body`, `H2.c104_body`, `H2.c104_closed`, `H2.c106_fits`, `H2.c106_fields`, `H2.c106_push`, `H2.w_c104`

### C108 SHA-1 digests are exact — proved
*Source:* thirdparty/hash/sha1.cpp: SHA1::Init, Update, Final, SHA1HashString. *How:* the object's byte buffer, length and state words; invariant over Update calls (buffer = unprocessed rest), padding cases, compression function equal to the FIPS one word by word
*Note:* little-endian hosts; the file digest and the report functions are not modelled.
*Theorems:* `Hash.Sha1.c108_sha1`, `Hash.Sha1.c108_in_bounds`, `Hash.Sha1.c108_length`, `Hash.Sha1.c108_reuse`, `Hash.Sha1.c108_string`

### C109 The WebSocket accept value is the RFC 6455 one — proved
*Source:* net_io/codec/websocket/ws_util.cc: GenAcceptKey. *How:* C108 and the base64 model composed; the C string length stops at a zero byte
*Theorems:* `Hash.Sha1.c109_accept_key`, `Hash.Sha1.c109_zero_byte`

### C11 Base64 decode inverts encode — proved
*Source:* base/utils/base64/base64.hpp: base64_encode, base64_decode. *How:* blocks of three bytes; strong induction; RFC 4648 spec with bit strings
*Note:* also: decoding unpadded input writes past the result buffer (violation of memory safety proved).
*Theorems:* `Base64.c11_encode_rfc`, `Base64.c11_encode_length`, `Base64.c11_roundtrip`, `Base64.c11_decode_safe_partial`, `Base64.c11_unpadded_violated`, `Base64.c11_decode_any`, `Base64.c11_every_text`

### C110 MD5 digests are exact — proved
*Source:* thirdparty/hash/md5.c: md5_init, md5_append, md5_finish. *How:* as C108, against RFC 1321
*Note:* appends of 2^28 bytes or more overflow an int and are undefined (proved as a finding).
*Theorems:* `Hash.Md5.c110_md5`, `Hash.Md5.c110_in_bounds`, `Hash.Md5.c110_large_violated`

### C111 CRCs are the polynomial remainders they are named after — proved
*Source:* thirdparty/hash/crc.cpp. *How:* tables checked entry by entry against eight register steps, then induction over the octets by splitting the register
*Note:* crc8 and crc16: start values of that width.
*Theorems:* `Hash.Crc.c111_blocks`, `Hash.Crc.c111_crc32_le`, `Hash.Crc.c111_crc64`, `Hash.Crc.c111_crc8`, `Hash.Crc.c111_crc16_ansi`, `Hash.Crc.c111_crc16_ccitt`, `Hash.Crc.c111_crc32`

### C112 CRCs detect every burst and can be run backwards — proved
*Source:* thirdparty/hash/crc.cpp: crc32_ieee_le_rev. *How:* the register step is a bijection; windows by induction, the reverse table checked entry by entry
*Theorems:* `Hash.Crc.c112_rev_crc`, `Hash.Crc.c112_crc_rev`, `Hash.Crc.c112_burst`, `Hash.Crc.c112_burst_narrow`, `Hash.Crc.c112_start`

### C113 MurmurHash3 is the canonical one and reads only the key — proved
*Source:* thirdparty/hash/murmurhash3.cpp: MurmurHash3_x86_32, MurmurHash3_x64_128. *How:* the code over a memory of which only the key is known; the fall-through switch proved bit by bit to read the zero-padded rest
*Note:* little-endian hosts; MurmurHash3_x86_128 (no caller) is not modelled.
*Theorems:* `Hash.Murmur.c113_x86_32`, `Hash.Murmur.c113_x64_128`, `Hash.Murmur.c113_only_key`

### C114 Keys and seeds that never collide — proved
*Source:* thirdparty/hash/murmurhash3.cpp; components/bloomfilter/bloomfilter.cc: Set; components/count_min_sketch/count_min_sketch.cc: Increase. *How:* odd multipliers have inverses, rotations and xor-shifts are injective; folds of injective steps
*Note:* Bloom filters with fewer than 25 million hash functions, sketches with fewer than 2^31 rows.
*Theorems:* `Hash.Murmur.c114_word32`, `Hash.Murmur.c114_block128`, `Hash.Murmur.c114_short`, `Hash.Murmur.c114_seed`, `Hash.Murmur.c114_families`

### C115 WebSocket handshakes are answered as RFC 6455 says — partial
*Source:* net_io/codec/websocket/ws_codec_service.cc: CommitHttpRequest, OnHandshakeReqData; net_io/server/ws_server/ws_server.h: OnConnectionOpen. *How:* llhttp is any machine from bytes to completed requests and a result code; the fold over the requests of a read computed; the documented pause of llhttp as a contract for the violation, by an invariant over histories
*Note:* violations proved: with llhttp's documented pause after upgrade requests no conforming client is ever accepted (101 then 400, closed); a missing key is accepted; Upgrade: WebSocket is refused.
*Theorems:* `WebSocket.Server.c115_answers`, `WebSocket.Server.c115_accepted`, `WebSocket.Server.c115_unregistered`, `WebSocket.Server.c115_accept_value`, `WebSocket.Server.c115_missing_key_violated`, `WebSocket.Server.c115_case_violated`, `WebSocket.Server.c115_llhttp_violated`, `WebSocket.Server.c115_two_answers_violated`

### C116 A WebSocket service sees open, messages, close — partial
*Source:* net_io/server/ws_server/ws_server.h; net_io/codec/websocket/ws_codec_service.cc: OnDataReceived, CommitFrameMessage; net_io/codec/codec_service.cc: HandleEvent, CloseService; net_io/io_service.cc: Stop, OnCodecClosed. *How:* the connection with handshake, frame parser, closing and registry as one machine; shape of the calls as an invariant over all histories, each violation as a history, the proper order by a second invariant over clean histories
*Note:* proper calls proved for clean histories; violations proved: OnClose twice, messages after OnClose, OnClose without OnOpen.
*Theorems:* `WebSocket.Server.c116_order`, `WebSocket.Server.c116_closed_final`, `WebSocket.Server.c116_proper_partial`, `WebSocket.Server.c116_close_and_eof_violated`, `WebSocket.Server.c116_close_and_stop_violated`, `WebSocket.Server.c116_after_close_violated`, `WebSocket.Server.c116_never_opened_violated`

### C117 A WebSocket client opens exactly after a correct handshake — partial
*Source:* net_io/codec/websocket/ws_codec_service.cc: StartProtocolService, CommitHttpResponse, OnHandshakeResData; net_io/clients/ws_client.cc. *How:* the client as one machine over any response parser; invariants over histories; the key by injectivity of MurmurHash3 on 8 bytes (C114) and of base64 (C11)
*Note:* violations proved: the accept value is never compared with the key; with llhttp's documented pause no client ever opens; no close callback after a failed write.
*Theorems:* `WebSocket.WsClient.c117_ready_iff`, `WebSocket.WsClient.c117_order`, `WebSocket.WsClient.c117_key`, `WebSocket.WsClient.c117_accept_unchecked_violated`, `WebSocket.WsClient.c117_llhttp_violated`, `WebSocket.WsClient.c118_no_close_violated`

### C118 Every frame given to WsClient::Send is written or reported — proved
*Source:* net_io/clients/ws_client.cc: Send, OnConnected, OnConnectFailed. *How:* counting over histories; the closed state is absorbing
*Note:* one connection per client; everything in the loop thread.
*Theorems:* `WebSocket.WsClient.c118_accounted`, `WebSocket.WsClient.c118_send`, `WebSocket.WsClient.c118_failed_final`

### C119 The unconditional part of the WebSocket connection guarantees — proved
*Source:* net_io/codec/websocket/ws_codec_service.cc; net_io/server/ws_server/ws_server.h; net_io/clients/ws_client.cc. *How:* the models of C115, C116 and C117
*Note:* the unconditional part of C115-C117; llhttp is any machine.
*Theorems:* `WebSocket.Server.c115_answers`, `WebSocket.Server.c115_accepted`, `WebSocket.Server.c115_unregistered`, `WebSocket.Server.c115_accept_value`, `WebSocket.Server.c116_order`, `WebSocket.Server.c116_closed_final`, `WebSocket.WsClient.c117_ready_iff`, `WebSocket.WsClient.c117_order`, `WebSocket.WsClient.c117_key`

### C12 Conjunction and entry ids round-trip and order by size first — proved
*Source:* components/boolean_indexer/id_generator.cc: ConjUtil::GenConjID, GetDocumentID, GetIndexInDoc, GetConjunctionSize; EntryUtil::GenEntryID, GetConjunctionId, IsInclude. *How:* bit fields on BitVec 64; bit-level extensionality
*Theorems:* `BoolIndex.c12_conj_roundtrip`, `BoolIndex.c12_conj_injective`, `BoolIndex.c12_size_major`, `BoolIndex.c12_entries`, `BoolIndex.c12_out_of_range`

### C120 The URL parser accepts exactly well-formed URLs and reports their parts — proved
*Source:* thirdparty/url-parser/url_parser.c: http_parser_parse_url, parse_url_char, http_parse_host. *How:* both state machines of the parser as written, with 16-bit offsets; runs and pieces composed for the forward direction, inverses of each state for the converse, an invariant over both loops for the bounds
*Note:* the CONNECT form for the bounds and that nothing but host and port is accepted; from 64 KiB on lengths are reported modulo 65536 (proved as a finding).
*Theorems:* `Http.UrlParser.c120_iff`, `Http.UrlParser.c120_origin`, `Http.UrlParser.c120_origin_iff`, `Http.UrlParser.c120_absolute`, `Http.UrlParser.c120_within`, `Http.UrlParser.c120_connect`, `Http.UrlParser.c120_long_violated`

### C121 The path of a request is the path of its URL — partial
*Source:* net_io/codec/http/http_message.cc: AppendPartURL, SetRequestURL, parse_url_view, RequestUrl; net_io/codec/http/http_message.h: Path. *How:* url_ with a generation that every change increases; a string_view is an origin with offset and length and dangles if its generation is old
*Note:* violations proved: replacing a URL by one without a path or one that does not parse, or appending a piece that makes it not parse, leaves Path() pointing into freed characters.
*Theorems:* `Http.RequestUrl.c121_pieces`, `Http.RequestUrl.c121_target`, `Http.RequestUrl.c121_set`, `Http.RequestUrl.c121_reset`, `Http.RequestUrl.c121_empty`, `Http.RequestUrl.c121_replace_violated`, `Http.RequestUrl.c121_pieces_violated`

### C122 The unconditional part of the path guarantee — proved
*Source:* net_io/codec/http/http_message.cc: AppendPartURL, SetRequestURL, parse_url_view. *How:* set fields grow with the URL, so views of pieces are renewed; by induction over the pieces
*Note:* the unconditional part of C121.
*Theorems:* `Http.RequestUrl.c121_pieces`, `Http.RequestUrl.c121_target`, `Http.RequestUrl.c121_set`, `Http.RequestUrl.c121_reset`, `Http.RequestUrl.c121_empty`

### C123 The acceptor keeps one listening socket and hands on every connection once — proved
*Source:* net_io/socket_acceptor.cc: InitListener, StartListen, StopListen, HandleEvent, AcceptRead, HandleError. *How:* the acceptor as a machine over outcomes of socket, bind, listen and accept; invariants over all histories
*Note:* system calls are given by their outcomes; the kernel gives descriptors that are not in use.
*Theorems:* `Net.Acceptor.c123_tidy`, `Net.Acceptor.c123_once`, `Net.Acceptor.c123_stopped`, `Net.Acceptor.c123_error`, `Net.Acceptor.c123_start`, `Net.Acceptor.c123_reopened`

### C124 A listening acceptor keeps serving until it is stopped, a stopped one refuses clients — partial
*Source:* net_io/socket_acceptor.cc: HandleError, StopListen. *How:* the same machine; absorbing deaf state by induction over later events
*Note:* violations proved: an error that cannot be repaired at once leaves the acceptor deaf for ever and nobody is told; a stopped acceptor's kernel socket keeps completing connections.
*Theorems:* `Net.Acceptor.c123_error`, `Net.Acceptor.c124_deaf_violated`, `Net.Acceptor.c124_stop_violated`

### C125 The addresses of a connection are those of its ends — partial
*Source:* net_io/socket_utils.cc: AcceptSocket, GetPeerEndpoint, GetLocalEndpoint, IsSelfConnect; net_io/socket_acceptor.cc: AcceptRead. *How:* socket addresses as byte strings (C49) cut to the 16 bytes of struct sockaddr, the stack behind it as an arbitrary list
*Note:* proved for IPv4; violations proved for IPv6: the peer of every accepted connection is empty, half of an end point's address is read from behind the structure.
*Theorems:* `Net.Acceptor.c125_peer_v4`, `Net.Acceptor.c125_endpoint_v4`, `Net.Acceptor.c125_self_v4`, `Net.Acceptor.c125_self_v6`, `Net.Acceptor.c125_peer_v6_violated`, `Net.Acceptor.c125_endpoint_v6_violated`

### C126 Every datagram is handled once with its sender — proved
*Source:* net_io/udp_io/udp_service.cc: HandleRead; net_io/udp_io/udp_service.h: UDPPollBuffer, UDPBufferDetail. *How:* slots as byte buffers that recvmmsg overwrites; induction over batches
*Note:* larger datagrams are cut without a notice (proved as a finding); the service only logs what it handles, it has no receiver interface.
*Theorems:* `Net.Udp.c126_datagrams`, `Net.Udp.c126_cut_violated`

### C127 Stopping a UDP service releases its socket and nothing else — partial
*Source:* net_io/udp_io/udp_service.cc: StartService, StopService; base/message_loop/fd_event.cc: ~FdEvent; base/message_loop/fdev_mgr.cc: Add. *How:* the registry of C25 with a table of open descriptors; each violation for every started service
*Note:* violations proved: after StopService the next event installed for the reused descriptor aborts the process; a second stop or the end closes a descriptor of others; the event of an ended service stays registered.
*Theorems:* `Net.Udp.c127_start`, `Net.Udp.c127_stays`, `Net.Udp.c127_abort_violated`, `Net.Udp.c127_double_close_violated`, `Net.Udp.c127_dangling_violated`

### C128 Searching a string view gives the first or last match — partial
*Source:* base/string/string_view.hpp: find, rfind, find_first_of, find_last_of, find_first_not_of, find_last_not_of. *How:* the standard algorithms as recursive functions; least and greatest places by induction over the view
*Note:* proved for all searches but one; violation proved: an empty text is not found at the end of the view.
*Theorems:* `Text.StringView.c128_find`, `Text.StringView.c128_find_empty`, `Text.StringView.c128_rfind`, `Text.StringView.c128_first_of`, `Text.StringView.c128_first_not_of`, `Text.StringView.c128_last_of`, `Text.StringView.c128_last_not_of`, `Text.StringView.c128_find_end_violated`

### C129 String views compare, cut and match like strings — proved
*Source:* base/string/string_view.hpp: compare, substr, copy, at, starts_with, ends_with, remove_prefix, remove_suffix. *How:* views as byte lists; induction over both lists
*Note:* views below the largest size.
*Theorems:* `Text.StringView.c129_compare`, `Text.StringView.c129_substr`, `Text.StringView.c129_affix`, `Text.StringView.c129_remove`

### C13 Posting-list cursors seek correctly — proved
*Source:* components/boolean_indexer/scanner_cursor.cc: EntriesCursor::Skip, SkipTo; FieldCursor::Skip, SkipTo, Initialize. *How:* sorted posting lists, galloping seek; loop invariant by strong induction
*Theorems:* `BoolIndex.c13_skipTo`, `BoolIndex.c13_skip`, `BoolIndex.c13_initialize`, `BoolIndex.c13_field`

### C130 A string view is inserted into a stream as a string is — partial
*Source:* base/string/string_view.hpp: write_to_stream, write_padding. *How:* the bytes written as a function of width, fill and alignment, for every view
*Note:* violation proved: on a stream without an alignment set the padding is on the wrong side.
*Theorems:* `Text.StringView.c130_insert_partial`, `Text.StringView.c130_default_violated`

### C131 Integer conversions and comparisons are exact for every pair of types — proved
*Source:* base/numerics/safe_conversions.h; base/numerics/safe_conversions_impl.h. *How:* types as an enumeration with their limits, values as integers, static_cast as reduction modulo 2^bits; range facts for pairs of types by case analysis, then one argument for all values
*Note:* integer types; floating point and the ARM assembler paths are not modelled.
*Theorems:* `Num.c131_in_range`, `Num.c131_checked_cast`, `Num.c131_saturated_cast`, `Num.c131_compare`, `Num.c131_contained`

### C132 Checked arithmetic is valid exactly if the result can be represented — partial
*Source:* base/numerics/checked_math.h; base/numerics/checked_math_impl.h. *How:* each operation as written with its promotion types; exactness for all values by the range lemmas of C131, expressions by induction
*Note:* gcc's built-in overflow checks by contract; violations proved: a remainder of a negative number and a uint64 is wrong and valid, such a quotient is invalid though representable, negated unsigned numbers wrap and are valid, complements of signed numbers are invalid.
*Theorems:* `Num.c132_op`, `Num.c132_expr`, `Num.c132_in_type`, `Num.c132_read`, `Num.c132_div_sound`, `Num.c132_mod_violated`, `Num.c132_div_violated`, `Num.c132_neg_violated`, `Num.c132_not_violated`

### C133 Clamped arithmetic gives the nearest representable value — partial
*Source:* base/numerics/clamped_math.h; base/numerics/clamped_math_impl.h. *How:* the direction of saturation from the signs of the operands, by cases on which limit is exceeded
*Note:* violations proved: ClampAdd(-5, 3u) is the largest uint32, ClampedNumeric<int64_t>(-100) /= uint64_t(10) is the lowest int64, ClampMod(-5, 3u) is 4294967291.
*Theorems:* `Num.c133_add`, `Num.c133_sub`, `Num.c133_mul`, `Num.c133_div`, `Num.c133_mod`, `Num.c133_lsh`, `Num.c133_rsh`, `Num.c133_max_min`, `Num.c133_neg_abs`, `Num.c133_add_violated`, `Num.c133_div_violated`, `Num.c133_mod_violated`

### C134 The unconditional part of the checked arithmetic guarantees — proved
*Source:* base/numerics/checked_math.h: MathOp, operator-, Abs, UnsignedAbs, AssignIfValid; base/numerics/checked_math_impl.h: CheckedDivOp, CheckedModOp, CheckedLshOp, CheckedRshOp, CheckedMaxOp, CheckedMinOp. *How:* as C132
*Note:* gcc's built-in overflow checks by contract.
*Theorems:* `Num.c132_op`, `Num.c132_expr`, `Num.c132_in_type`, `Num.c132_read`, `Num.c132_div_sound`

### C135 The unconditional part of the clamped arithmetic guarantees — proved
*Source:* base/numerics/clamped_math_impl.h: ClampedAddOp, ClampedSubOp, ClampedMulOp, ClampedDivOp, ClampedLshOp, ClampedRshOp, SaturatedNegWrapper, SaturatedAbsWrapper. *How:* as C133
*Note:* gcc's built-in overflow checks by contract.
*Theorems:* `Num.c133_add`, `Num.c133_sub`, `Num.c133_mul`, `Num.c133_div`, `Num.c133_mod`, `Num.c133_lsh`, `Num.c133_rsh`, `Num.c133_max_min`, `Num.c133_neg_abs`

### C136 URL-safe base64 is RFC 4648 base64url without padding and decodes back — proved
*Source:* thirdparty/urlsafe64/urlsafe64.c: urlsafe64_encode, urlsafe64_decode; thirdparty/urlsafe64/urlsafe64.h: urlsafe64_get_encoded_size. *How:* encoder and decoder as recursive functions over groups, the tables copied from the source; the specification is RFC 4648 on 24-bit numbers with the two characters replaced and padding dropped; induction over groups
*Note:* sizes below 2^29, where the size macro does not overflow int.
*Theorems:* `Base64.UrlSafe.c136_rfc`, `Base64.UrlSafe.c136_size`, `Base64.UrlSafe.c136_roundtrip`

### C137 The URL-safe decoder accepts only encodings — partial
*Source:* thirdparty/urlsafe64/urlsafe64.c: urlsafe64_decode. *How:* texts of URL-safe characters and refused bytes by induction; the two holes as theorems
*Note:* violations proved: the table has 14 of 16 rows, so bytes 0xE0-0xFF are taken as A; = is accepted anywhere as a digit 64.
*Theorems:* `Base64.UrlSafe.c138_exact`, `Base64.UrlSafe.c138_refused`, `Base64.UrlSafe.c137_high_bytes_violated`, `Base64.UrlSafe.c137_padding_violated`

### C138 The unconditional part of the URL-safe decoder's guarantees — proved
*Source:* thirdparty/urlsafe64/urlsafe64.c: urlsafe64_decode. *How:* induction over groups with the bytes already written as accumulator
*Note:* the unconditional part of C137.
*Theorems:* `Base64.UrlSafe.c138_exact`, `Base64.UrlSafe.c138_refused`, `Base64.UrlSafe.c138_padded`, `Base64.UrlSafe.c138_bound`

### C139 The kernel watches exactly what is enabled on installed events — proved
*Source:* base/message_loop/fd_event.cc: EnableReading, EnableWriting, DisableReading, DisableWriting, SetEvent, notify_watcher; base/message_loop/io_mux_epoll.cc: AddFdEvent, DelFdEvent, UpdateFdEvent, EpollCtl, ToEpollEvent; base/message_loop/event_pump.cc: InstallFdEvent, RemoveFdEvent. *How:* events' masks, registry and the epoll lists of all loops as a state machine; invariant that each list entry is the encoding of the event's current mask, by induction over histories; what is wanted is read off the history
*Note:* epoll_ctl by contract; descriptors are not duplicated.
*Theorems:* `Loop.Epoll.c139_interest`, `Loop.Epoll.c139_only_installed`, `Loop.Epoll.c139_answers`

### C14 Boolean index retrieval returns exactly the matching documents — partial
*Source:* components/boolean_indexer/index_scanner.cc: Retrieve; components/boolean_indexer/builder/be_indexer_builder.cc. *How:* documents, conjunction postings, scanner loop; invariant of the merge against the boolean semantics
*Note:* the code computes end_conj_id from eid instead of end_eid, so it is exact only for conjunctions with at most one include expression (proved, all documents and queries); with that line as intended it is exact for all (proved); a wrong answer and the null dereference on unknown fields are proved.
*Theorems:* `BoolIndex.c14_intended`, `BoolIndex.c14_code_partial`, `BoolIndex.c14_code_sound_weak`, `BoolIndex.c14_code_violation`, `BoolIndex.c14_unknown_field`

### C140 Events are delivered as enabled and errors as errors — partial
*Source:* base/message_loop/io_mux_epoll.cc: ToLtEvent, AddFdEvent, UpdateFdEvent; base/message_loop/fd_event.h: SetEdgeTrigger; base/coroutine/io_event.cc: HandleEvent. *How:* consequences of the translation for every reported mask and every history
*Note:* violations proved: errors are never told as errors, neither to handlers nor to waiting coroutines; shutdowns and hang-ups are told although nothing is enabled; a refused installation reports success; trigger mode changes of installed events and changes after the descriptor was closed are lost.
*Theorems:* `Loop.Epoll.c141_reported`, `Loop.Epoll.c141_enabled`, `Loop.Epoll.c140_install_violated`, `Loop.Epoll.c140_edge_violated`, `Loop.Epoll.c140_closed_violated`, `Loop.Epoll.c140_error_violated`, `Loop.Epoll.c140_disabled_violated`, `Loop.Epoll.c140_wait_violated`

### C141 What the kernel reports reaches the handler — proved
*Source:* base/message_loop/io_mux_epoll.cc: ToLtEvent, ToEpollEvent, WaitingIO. *How:* bit facts for all 32-bit masks
*Note:* epoll_wait by contract.
*Theorems:* `Loop.Epoll.c141_reported`, `Loop.Epoll.c141_enabled`, `Loop.Epoll.c141_wait`

### C142 A request is answered once, with its first answer — proved
*Source:* net_io/server/raw_server/raw_server.cc: RawRequestContext::Response, do_response; net_io/server/http_server/http_context.cc: HttpRequestCtx::Json, String, Response. *How:* request contexts, the loop's queue and the connection as a state machine with whole calls and split calls; induction over histories against the specification firstAnswers, read off the history
*Note:* posted tasks run in order while the loop runs (C63).
*Theorems:* `Server.Reply.c142_first_answer`, `Server.Reply.c142_at_most_once`, `Server.Reply.c142_all_sent`, `Server.Reply.c142_order_on_loop`, `Server.Reply.c142_order_off_loop`, `Server.Reply.c142_closes`, `Server.Reply.c142_responded`, `Server.Reply.c142_call_enabled`, `Server.Reply.c142_send_closes`

### C143 However a request's context is used, the client gets one response per request, in the order of its requests — partial
*Source:* net_io/server/http_server/http_context.cc: HttpRequestCtx::Response, File; net_io/server/raw_server/raw_server.cc: RawRequestContext::Response. *How:* counterexample histories for all messages
*Note:* violations proved: HttpRequestCtx::Response twice sends two responses; two threads can both pass the test of did_reply_; responses to pipelined requests are reordered; a reply is written after the connection was closed, which is then closed again; File aborts the process.
*Theorems:* `Server.Reply.c142_first_answer`, `Server.Reply.c142_at_most_once`, `Server.Reply.c143_http_twice_violated`, `Server.Reply.c143_race_violated`, `Server.Reply.c143_order_violated`, `Server.Reply.c143_close_twice_violated`, `Server.Reply.c143_file_violated`

### C144 The codec of a scheme is the one last registered for it — proved
*Source:* net_io/codec/codec_factory.cc: CreateProtocolService, RegisterCreator, HasCreator, InitInnerDefault; net_io/io_service.cc: CreateCodeService; net_io/server/generic_server.h: ServeAddress. *How:* the registry as an association list; the specification is the last registration in the history
*Theorems:* `Server.Registry.c144_last_wins`, `Server.Registry.c144_builtin`, `Server.Registry.c144_unknown`, `Server.Registry.c144_independent`, `Server.Registry.c144_sides_agree`, `Server.Registry.c144_tls`, `Server.Registry.c144_builtin_serves`

### C145 Secure schemes are encrypted, and a server that starts can serve — partial
*Source:* net_io/codec/codec_factory.cc: InitInnerDefault, HasCreator, CreateProtocolService; net_io/codec/codec_service.h: UseSSLChannel. *How:* evaluation of the built-in table, and histories ending in a bad registration
*Note:* violations proved: rawSSL is served and dialled in the clear; a server for a scheme with an empty creator starts and drops every connection; a creator returning null crashes the process.
*Theorems:* `Server.Registry.c145_secure_otherwise`, `Server.Registry.c144_builtin_serves`, `Server.Registry.c145_rawssl_plain_violated`, `Server.Registry.c145_empty_creator_violated`, `Server.Registry.c145_null_codec_violated`

### C146 Connections of a lone server are spread evenly over its loops — proved
*Source:* net_io/server/generic_server.h: GetNextIOWorkLoop. *How:* counting residues of consecutive numbers, by induction; transfer to the counter modulo 2^32
*Note:* build without LTIO_ENABLE_REUSER_PORT.
*Theorems:* `Server.Assign.c146_even`, `Server.Assign.c146_valid`, `Server.Assign.c146_consecutive`

### C147 Connections of every server are spread evenly over its loops — partial
*Source:* net_io/server/generic_server.h: GetNextIOWorkLoop. *How:* induction over the number of rounds of two servers accepting in turn
*Note:* violations proved: the counter is shared by all servers of one configuration, so two servers accepting in turn use one loop each; at the 32-bit wrap the loops drift unless their number divides 2^32.
*Theorems:* `Server.Assign.c146_even`, `Server.Assign.c146_valid`, `Server.Assign.c147_shared_counter_violated`, `Server.Assign.c147_shared_counter_load`, `Server.Assign.c147_wrap_violated`

### C148 A server can be stopped and started again after it has stopped — proved
*Source:* net_io/server/generic_server.h: ServeAddress, StopServer, IOServiceStoped. *How:* the list of services, flag and callback as a state machine; invariant over histories
*Note:* one report per service (C62 for the inside of a service).
*Theorems:* `Server.Assign.c148_callbacks`, `Server.Assign.c148_completes`, `Server.Assign.c148_alternate`

### C149 Every stop of a server calls its callback exactly once — partial
*Source:* net_io/server/generic_server.h: ServeAddress, StopServer, IOServiceStoped. *How:* counterexample histories
*Note:* violations proved: started again while stopping, the first stop's callback is never called, or the second's is called twice.
*Theorems:* `Server.Assign.c148_callbacks`, `Server.Assign.c149_restart_violated`, `Server.Assign.c149_restart_twice_violated`

### C15 LRU cache is a bounded most-recently-used map — proved
*Source:* components/lru_cache/lru_cache.h: Add, Get, Exists. *How:* list + map model; refinement to a recency list
*Note:* capacity >= 1; capacity 0 is undefined behaviour (proved).
*Theorems:* `Lru.c15_lru`, `Lru.c15_bounded`, `Lru.c15_zero_capacity_ub`

### C150 Posted, delayed and reply tasks run exactly once, on their loop, not early — proved
*Source:* base/message_loop/message_loop.cc: PostDelayTask, PostTask; base/message_loop/message_loop.h: PostTaskAndReply; base/message_loop/timer_task_helper.cc: TimerTaskHelper::Run; base/closure/closure_task.h: TaskWithCleanup. *How:* loops, waiting items, clock and log as a state machine; permutation invariant between what was asked for and what ran or waits, and a time invariant, by induction over histories; 64-bit arithmetic of the helper
*Note:* while no abort (C151); timers fire exactly when due (C26, C59).
*Theorems:* `Loop.Delay.c150_exactly_once`, `Loop.Delay.c150_not_early`, `Loop.Delay.c150_when_due`, `Loop.Delay.c150_helper`, `Loop.Delay.c150_reply_after`

### C151 Replies go to the caller's loop, and accepted tasks are not lost — partial
*Source:* base/message_loop/message_loop.h: PostTaskAndReply; base/message_loop/message_loop.cc: PostDelayTask, PostTask. *How:* counterexample histories
*Note:* violations proved: the reply runs on the target loop, not the caller's; a reply to a loop that ended aborts the process; a delayed task of a loop that ends first is dropped.
*Theorems:* `Loop.Delay.c150_exactly_once`, `Loop.Delay.c150_reply_after`, `Loop.Delay.c151_reply_loop_violated`, `Loop.Delay.c151_reply_gone_violated`, `Loop.Delay.c151_stopped_violated`

### C152 The coroutine server gives each connection's bytes to its codec, in order, and closes the descriptor once — proved
*Source:* net_io/coronet/io_service.cc: accept_loop, handle_connection; base/coroutine/io_event.cc: Wait, HandleEvent; net_io/codec/codec_service.cc: HandleEvent, CloseService. *How:* connection coroutine and accept loop as state machines; invariants by induction over histories
*Note:* one loop; codec registered.
*Theorems:* `Coro.Server.c152_stream`, `Coro.Server.c152_safe`, `Coro.Server.c152_progress`, `Coro.Server.c152_ended`, `Coro.Server.c152_accepted`, `Coro.Server.c152_accepts`, `Coro.Server.c152_peer_v4`

### C153 Handlers of the coroutine server may wait, and closing closes — partial
*Source:* net_io/coronet/io_service.cc: accept_loop, handle_connection; base/coroutine/io_event.cc: HandleEvent. *How:* counterexample histories for all bytes; for the close an invariant over all quiet histories
*Note:* violations proved: a handler that waits lets the next event of the connection end the process; a close from outside the connection's coroutine leaves the descriptor open until the peer acts, and its next message is still handled; with an unknown codec the first connection ends the process; IPv6 peer addresses are lost.
*Theorems:* `Coro.Server.c152_stream`, `Coro.Server.c152_safe`, `Coro.Server.c153_handler_waits_violated`, `Coro.Server.c153_close_elsewhere_violated`, `Coro.Server.c153_after_close_violated`, `Coro.Server.c153_unknown_codec_violated`, `Coro.Server.c153_peer_v6_violated`

### C154 A document owns its conjunctions and is indexed as built — proved
*Source:* components/boolean_indexer/document.cc: Conjunction::AddExpression, Include, Exclude, Document::AddConjunction, ~Document; components/boolean_indexer/document.h: Document; components/boolean_indexer/builder/be_indexer_builder.cc: AddDocument. *How:* building as folds, by induction over the expressions and conjunctions; ownership as a state machine with a permutation invariant
*Note:* release build; C12-C14 for the index itself.
*Theorems:* `BoolIndex.Build.c154_conj`, `BoolIndex.Build.c154_doc`, `BoolIndex.Build.c154_log`, `BoolIndex.Build.c154_owned`, `BoolIndex.Build.c154_no_leak`

### C155 Documents can be built in any order, copied and assigned — partial
*Source:* components/boolean_indexer/document.cc: Conjunction::AddExpression, Document::AddConjunction, ~Document; components/boolean_indexer/document.h: Document::operator=. *How:* counterexamples for all expressions and ids; for the scan one step of the scanner unfolded
*Note:* violations proved: a second expression on a field is dropped but counted, so the document is never found; expressions added after AddConjunction are not counted; a copied document's conjunctions are deleted twice; move assignment leaks the target's conjunctions.
*Theorems:* `BoolIndex.Build.c154_conj`, `BoolIndex.Build.c154_doc`, `BoolIndex.Build.c154_log`, `BoolIndex.Build.c154_owned`, `BoolIndex.Build.c154_no_leak`, `BoolIndex.Build.c155_duplicate_violated`, `BoolIndex.Build.c155_unreachable_violated`, `BoolIndex.Build.c155_late_violated`, `BoolIndex.Build.c155_copy_violated`, `BoolIndex.Build.c155_move_leak_violated`

### C156 The clocks are read exactly — proved
*Source:* base/time/time_ticks.cc: ConvertTimespecToMicros, TimeTicks::Now, UnixEpoch; base/time/time.cc: TimeNowIgnoringOverride; base/time/time_utils.cc: monotonic_nano_sec, time_us, time_ms, delta_us, delta_ms; base/time/timestamp.cc. *How:* integer arithmetic with wrap-around and checks at 64 bits, by linear arithmetic for all readings
*Note:* clock_gettime and gettimeofday by contract.
*Theorems:* `Time.Ticks.c156_ticks`, `Time.Ticks.c156_ticks_order`, `Time.Ticks.c156_time_us`, `Time.Ticks.c156_delta`, `Time.Ticks.c156_time_now`, `Time.Ticks.c156_epoch`, `Time.Ticks.c156_stamp`, `Time.Ticks.c156_stamp_order`

### C157 Raw messages arrive as they were sent, from application to application — proved
*Source:* net_io/codec/raw/raw_message.cc: EncodeTo, Decode; net_io/codec/raw/raw_codec_service.h: OnDataReceived, SendRequest, SendResponse; net_io/codec/codec_service.cc: HandleEvent; net_io/tcp_channel.cc: Send, HandleRead, HandleWrite; net_io/io_buffer.cc. *How:* both ends as channels (C24) with a codec and a network between them; generic invariant over all histories, instantiated with the raw decoder (C08)
*Note:* TCP by contract (reliable, in order); a message below 2^31 bytes; that an empty payload may be reported as a failure is C24's violation.
*Theorems:* `Net.E2E.RawPair.c157_prefix`, `Net.E2E.RawPair.c157_complete`, `Net.E2E.RawPair.c157_progress`

### C158 A raw request is answered with the server's answer to it — proved
*Source:* net_io/codec/raw/raw_codec_service.h: OnDataReceived, SendRequest, SendResponse; net_io/clients/async_channel.cc: OnCodecMessage, SendRequest; net_io/codec/codec_service.cc: HandleEvent; net_io/tcp_channel.cc. *How:* invariant over histories that the server has only sent answers; composed with C157 and C21
*Note:* on top of C157 and C21.
*Theorems:* `Net.E2E.RawPair.c158_answers`, `Net.E2E.RawPair.c158_rpc`, `Net.E2E.RawPair.demo_answers`

### C159 WebSocket messages arrive as they were sent, from application to application — proved
*Source:* net_io/codec/websocket/ws_codec_service.cc: SendRequest, SendResponse, OnDataReceived; net_io/codec/websocket/websocket_parser.c: websocket_parser_execute, websocket_build_frame; net_io/codec/codec_service.cc: HandleEvent, TryFlushChannel; net_io/tcp_channel.cc. *How:* as C157, instantiated with the WebSocket parser (C03, C07)
*Note:* after the handshake (C117); messages in single frames, as the code sends them.
*Theorems:* `Net.E2E.WsPair.c159_prefix`, `Net.E2E.WsPair.c159_complete`, `Net.E2E.WsPair.c159_progress`

### C16 Bloom filter has no false negatives — proved
*Source:* components/bloomfilter/bloomfilter.cc: Set, IsSet, TestAndSet. *How:* bit table; monotonicity of set bits
*Theorems:* `Bloom.c16_no_false_negatives`, `Bloom.c16_test_and_set`, `Bloom.uninitialised_false_positive`

### C160 Lines arrive as they were sent, from application to application — partial
*Source:* net_io/codec/line/line_codec_service.cc: OnDataReceived, SendMessage; net_io/codec/codec_service.cc: HandleEvent; net_io/tcp_channel.cc. *How:* as C157 with the line splitter (C10); the counterexample is computed by the kernel
*Note:* order and integrity proved; violation proved: of two lines that arrive together only the first is handed on.
*Theorems:* `Net.E2E.LinePair.c160_prefix_partial`, `Net.E2E.LinePair.c160_stuck_violated`

### C161 Coroutine tasks are started once, in order, and a runner always gets back to its loop — proved
*Source:* base/coroutine/co_runner.cc: Run, OneRunContext, CoroMain, Publish, ScheduleTask, AppendTask; base/coroutine/co_runner.h: _go. *How:* transition system of Run and the queues; invariant (a permutation of the submitted tasks, order of the own ones), a round invariant and a decreasing measure, for all histories
*Note:* one runner, the others as environment; the concurrent queues by contract; tasks end or wait.
*Theorems:* `Coro.Sched.c161_once`, `Coro.Sched.c161_order`, `Coro.Sched.c161_round`, `Coro.Sched.c161_next_round`, `Coro.Sched.c161_bounded`, `Coro.Sched.c161_progress`, `Coro.Sched.c161_background`, `Coro.Sched.c161_go_once`

### C162 Every coroutine task is eventually started — partial
*Source:* base/coroutine/co_runner.cc: Run, Resume, Publish, backgroup; base/coroutine/co_runner.h: _go. *How:* counterexamples for every number of turns (induction) and every history without a runner
*Note:* violations proved: two coroutines that wake each other keep one turn of the runner going for ever, so nothing else on this loop runs; CO_GO on a loop in a program without a runner is never started.
*Theorems:* `Coro.Sched.c161_round`, `Coro.Sched.c161_bounded`, `Coro.Sched.c162_duel_violated`, `Coro.Sched.c162_nobody_runs_violated`

### C163 The TLS handshake settles on HTTP/2 whenever the peer offers it — proved
*Source:* net_io/codec/http/h2/h2_tls_context.cc: select_proto, select_h2, get_default_alpn, alpn_select_proto_cb, client_select_next_proto_cb. *How:* the scan over the bytes with explicit bounds; induction over the list
*Note:* OpenSSL hands the list over and copies the result.
*Theorems:* `Http.Alpn.c163_safe`, `Http.Alpn.c163_choice`, `Http.Alpn.c163_own`

### C164 Numbers and lists of numbers written as text are read back — proved
*Source:* base/utils/string/str_utils.cc: ToInt, ToInt64, ToLower; base/utils/string/str_utils.h: Parse, ParseArray, ToString, Join. *How:* contracts of the standard conversions; induction over texts
*Note:* stoi, stoll and stream extraction by contract; signed types.
*Theorems:* `Text.Num.c164_toInt`, `Text.Num.c164_toInt_fail`, `Text.Num.c164_toInt_text`, `Text.Num.c164_parse`, `Text.Num.c164_array`, `Text.Num.c164_bool`

### C165 Conversion of a text that is not a number is refused — partial
*Source:* base/utils/string/str_utils.cc: ToInt, ToInt64; base/utils/string/str_utils.h: ParseTo, Parse, ParseArray. *How:* counterexample families, for every number
*Note:* violations proved: ParseTo answers false for every well-formed number and true for a number followed by other characters; ToInt ignores what follows the digits; Parse of a blank text returns an uninitialised value.
*Theorems:* `Text.Num.c164_toInt`, `Text.Num.c165_parseTo_violated`, `Text.Num.c165_trailing_violated`, `Text.Num.c165_blank_violated`

### C166 Documents of the inverted indexer survive JSON — proved
*Source:* components/inverted_indexer/expression.cc: to_json, from_json, Document::AddExpression. *How:* JSON as a tree; both directions of an exact characterisation, by induction over the conditions
*Note:* nlohmann::json by contract.
*Theorems:* `Inv.Json.c166_expr_exact`, `Inv.Json.c166_expr_roundtrip`, `Inv.Json.c166_doc_exact`, `Inv.Json.c166_doc_roundtrip`

### C167 Any JSON can be read as a document — partial
*Source:* components/inverted_indexer/expression.cc: to_json, from_json. *How:* counterexample families
*Note:* violations proved: an expression without the key field is undefined behaviour; a document without conditions is not accepted back; ids that are fractions or exceed 63 bits are changed silently.
*Theorems:* `Inv.Json.c166_expr_exact`, `Inv.Json.c166_doc_exact`, `Inv.Json.c167_no_field_violated`, `Inv.Json.c167_empty_violated`, `Inv.Json.c167_id_violated`

### C168 HTTP/1 messages arrive as they were sent, from application to application — partial
*Source:* net_io/codec/http/http_codec_service.cc: SendRequest, SendResponse, BeforeSendRequest, BeforeSendResponse, RequestToBuffer, ResponseToBuffer, OnDataReceived; net_io/codec/http/parser_context.h: HttpParser; base/utils/gzip/gzip_utils.cc; net_io/codec/codec_service.cc: HandleEvent; net_io/tcp_channel.cc. *How:* as C169; the violation from C102 for every such message
*Note:* proved for histories without a message the library compresses with gzip; violation proved: every body of 8097 to 16383 bytes it does compress with gzip arrives with NUL bytes after it, up to 16384.
*Theorems:* `Http.Conn.c168_prefix_partial`, `Http.Conn.c168_complete_partial`, `Http.Conn.c168_gzip_padded_violated`

### C169 HTTP/1 messages arrive with their headers and at least the body sent — proved
*Source:* net_io/codec/http/http_codec_service.cc: SendRequest, SendResponse, BeforeSendRequest, BeforeSendResponse, RequestToBuffer, ResponseToBuffer, OnDataReceived; net_io/codec/http/parser_context.h: HttpParser; base/utils/gzip/gzip_utils.cc; net_io/codec/codec_service.cc: HandleEvent; net_io/tcp_channel.cc. *How:* as C157, instantiated with encoder, contract of llhttp (callbacks of well-formed messages, cut anyhow), the callbacks as a state machine and the compression of C102, C103; induction over messages and callbacks
*Note:* llhttp by a contract (Tok.Meets, shown satisfiable), zlib by its contract; well-formed messages framed by Content-Length without Connection: close, Transfer-Encoding, Upgrade; responses with a code of the table.
*Theorems:* `Http.Conn.c169_prefix`, `Http.Conn.c169_complete`, `Http.Conn.c169_progress`

### C17 Count-min sketch never underestimates — partial
*Source:* components/count_min_sketch/count_min_sketch.cc: Increase, Estimate. *How:* table of mod-256 cells; induction over the history
*Note:* no underestimate proved while counters do not overflow; overflow violation proved.
*Theorems:* `CountMin.c17_estimate_exact`, `CountMin.c17_no_underestimate_partial`, `CountMin.c17_single_key_exact`, `CountMin.c17_overflow_violated`, `CountMin.distinct_not_overcounted`

### C170 A message the library received can be sent on by it — partial
*Source:* net_io/codec/http/http_codec_service.cc: BeforeSendRequest, BeforeSendResponse, RequestToBuffer, ResponseToBuffer; net_io/codec/http/parser_context.h: OnMessageParsed; net_io/codec/http/http_request.h; net_io/codec/http/http_response.h. *How:* as C171; counterexample families for every message that compresses to less than its length
*Note:* violations proved: a request that came compressed is decompressed for the application but keeps its compressed Content-Length and its Content-Encoding, and is sent on so; a response received uncompressed and sent on to a client that accepts gzip is compressed but keeps its old Content-Length.
*Theorems:* `Http.Conn.c171_request`, `Http.Conn.c171_chain`, `Http.Conn.c171_response`, `Http.Conn.c170_request_violated`, `Http.Conn.c170_response_violated`

### C171 An uncompressed message sent on arrives exactly as received — proved
*Source:* net_io/codec/http/http_codec_service.cc: BeforeSendRequest, BeforeSendResponse, RequestToBuffer, ResponseToBuffer; net_io/codec/http/parser_context.h: OnMessageParsed; net_io/codec/http/http_message.cc: HttpMessage::InsertHeader. *How:* the set of headers that arrives is closed under the encoder (nothing is left to add); induction over the chain
*Note:* well-formed as for C169.
*Theorems:* `Http.Conn.c171_request`, `Http.Conn.c171_chain`, `Http.Conn.c171_response`, `Http.Conn.c171_chain_response`

### C172 HTTPS and wss messages are brought over as long as no error occurs — partial
*Source:* net_io/tcp_channel_ssl.cc: HandleWrite, Send, HandleRead; net_io/codec/http/http_codec_service.cc: SendRequest, SendResponse; net_io/codec/websocket/ws_codec_service.cc: SendRequest, SendResponse; net_io/io_buffer.cc: EnsureWritableSize; base/crypto/lt_ssl.cc: SSLCtxImpl. *How:* EndToEndTls.lean: invariant over both ends, fair continuation; the violation for every such pair of messages from the buffer's growth
*Note:* proved while what TLS has begun to write has not moved in memory; violation proved: any two messages of more than 1024 bytes together, the second sent while the first waits for the socket, close the connection and neither is sent, because the output buffer moves and SSL_MODE_ACCEPT_MOVING_WRITE_BUFFER is not set.
*Theorems:* `Http.ConnTls.c172_progress_partial`, `Http.ConnTls.c172_second_message_violated`, `Http.WssPair.c172_second_frame_violated`

### C173 HTTPS messages arrive in order, with their headers and at least the body sent — proved
*Source:* net_io/codec/http/http_codec_service.cc: SendRequest, SendResponse, RequestToBuffer, ResponseToBuffer, OnDataReceived; net_io/codec/http/parser_context.h: HttpParser; net_io/tcp_channel_ssl.cc; net_io/codec/codec_service.cc: HandleEvent, TryFlushChannel. *How:* as C169 over the TLS channel of C24, with the posted flush as an operation of its own whose failure is ignored; invariant that a record under way stays where it was
*Note:* OpenSSL, llhttp and zlib by contract; well-formed as for C169.
*Theorems:* `Http.ConnTls.c173_prefix`, `Http.ConnTls.c173_complete`, `Http.ConnTls.c173_progress`

### C174 WebSocket messages over TLS arrive in order and unchanged — proved
*Source:* net_io/codec/websocket/ws_codec_service.cc: SendRequest, SendResponse, OnDataReceived; net_io/tcp_channel_ssl.cc; net_io/codec/codec_service.cc: HandleEvent, TryFlushChannel. *How:* as C159 over the TLS channel of C24
*Note:* OpenSSL by contract; unfragmented messages as for C159.
*Theorems:* `Http.WssPair.c174_prefix`, `Http.WssPair.c174_complete`, `Http.WssPair.c174_progress`, `Http.WssPair.c174_spaced_progress`

### C175 A posting list bitmap is a set of positions under all its operations — partial
*Source:* components/inverted_indexer/posting_field/bitmap_posting_list.cc: Intersect, Union, Substract, SetBit, ClearBit, IsBitSet. *How:* as C176; the effect of each operation on each bit for arguments of any size, counterexample family
*Note:* proved for arguments of the same size, and what happens with any others; violations proved: Intersect with a shorter list keeps positions the other list does not hold (memset is given words for bytes); Union with a longer list loses positions.
*Theorems:* `Inv.BitSet.c176_set_of_positions`, `Inv.BitSet.c175_intersect_shorter`, `Inv.BitSet.c175_union_any`, `Inv.BitSet.c175_substract_any`, `Inv.BitSet.c175_intersect_violated`, `Inv.BitSet.c175_union_violated`

### C176 A posting list bitmap is a set of positions among lists of the same size — proved
*Source:* components/inverted_indexer/posting_field/bitmap_posting_list.cc: ResetBits, SetBit, ClearBit, IsBitSet, Union, Intersect, Substract, DumpBits; components/inverted_indexer/posting_field/bitmap_posting_list.h: BitMapPostingList. *How:* refinement of sets of numbers by induction over the calls
*Theorems:* `Inv.BitSet.c176_set_of_positions`, `Inv.BitSet.c176_dies_iff`, `Inv.BitSet.c176_new`, `Inv.BitSet.c176_dump`

### C177 A WebSocket client asks for the upgrade as RFC 6455 says — partial
*Source:* net_io/codec/websocket/ws_codec_service.cc: StartProtocolService; net_io/clients/ws_client.cc: Dial, OnConnected; net_io/url_utils.cc: ParseRemote; net_io/codec/http/http_codec_service.cc: RequestToBuffer. *How:* as C178; each violation for every such address
*Note:* all but the port: violations proved: a port that is not the default one is missing from Host; an address without a port is dialled at port 0 (or the port of the last address), not 80 or 443.
*Theorems:* `WebSocket.Upgrade.c178_upgrade_request`, `WebSocket.Upgrade.c178_port`, `WebSocket.Upgrade.c177_host_port_violated`, `WebSocket.Upgrade.c177_default_port_violated`

### C178 A WebSocket client's upgrade request is well formed and a server of the library accepts it — proved
*Source:* net_io/codec/websocket/ws_codec_service.cc: StartProtocolService, CommitHttpRequest; net_io/clients/ws_client.cc: Dial, OnConnected; net_io/url_utils.cc: ParseRemote; net_io/codec/http/http_codec_service.cc: RequestToBuffer. *How:* C37 for the address, C43 for the message, C30 for what the server looks up; for every order of the header map
*Note:* topic, host and key without carriage return; the reference parser of C43 reads it; c117_key gives the form of the key.
*Theorems:* `WebSocket.Upgrade.c178_upgrade_request`, `WebSocket.Upgrade.c178_server_accepts`, `WebSocket.Upgrade.c178_port`

### C179 A WebSocket client may be dialled again and let go at any time — partial
*Source:* net_io/clients/ws_client.cc: ~WsClient, Dial, OnConnected, OnConnectFailed, Send; net_io/clients/client_connector.cc: Dial, HandleEvent, Stop; net_io/codec/codec_service.cc: CloseService, StartInternal; base/message_loop/fdev_mgr.cc; base/message_loop/io_mux_epoll.cc: AddFdEvent. *How:* as C180; each violation from every state of its kind
*Note:* proved for careful uses; violations proved: letting go of a client that never connected follows a null pointer; letting go while an attempt is under way or while connected lets connector or codec call the deleted client; dialling again while connected leaves a deleted event registered and ends the process when its descriptor is used again.
*Theorems:* `Client.WsLife.c180_careful`, `Client.WsLife.c180_held`, `Client.WsLife.c179_never_connected_violated`, `Client.WsLife.c179_dialing_violated`, `Client.WsLife.c179_connected_violated`, `Client.WsLife.c179_redial_violated`

### C18 Maglev table is complete and only names configured endpoints — partial
*Source:* net_io/common/load_balance/maglev2.cc: MaglevV2::GenerateHashRing; net_io/common/load_balance/maglev.cc. *How:* permutation slots by coprimality, rounds and a termination measure; failing instance shown non-terminating by invariant
*Note:* proved for every prime ring size when offset+(ring-1)*skip fits uint32 (always for ring <= 65536); for the default 65537 two valid endpoints make generation loop forever (violation proved).
*Theorems:* `Maglev.c18_complete_partial`, `Maglev.c18_probe_permutation_partial`, `Maglev.c18_even_partial`, `Maglev.c18_router_total_partial`, `Maglev.c18_termination_violated`

### C180 A WebSocket client that is kept, or let go carefully, is safe — proved
*Source:* net_io/clients/ws_client.cc: ~WsClient, Dial, OnConnected, OnConnectFailed, Send; net_io/clients/client_connector.cc: Dial, HandleEvent, Stop; net_io/codec/codec_service.cc: CloseService, StartInternal; base/message_loop/fdev_mgr.cc. *How:* state machine of client, connector, codec, queue and descriptor table; inductive invariant that the table holds exactly the owned descriptors and at most one thing is under way
*Note:* frames and handshake are C117, C118; callbacks are taken as one step.
*Theorems:* `Client.WsLife.c180_careful`, `Client.WsLife.c180_released`, `Client.WsLife.c180_held`

### C181 A request through a client gives its result once, on the right loop, from live objects — partial
*Source:* net_io/clients/client.cc: AsyncDoRequest, DoRequest, OnRequestGetResponse, Finalize; net_io/codec/codec_message.h: CodecMessage. *How:* as C182; counterexample families, the second for every continuation
*Note:* proved for careful users (C182); violations proved: the callback on another loop is handed a deleted response if the caller keeps no reference; a client finalized while a request is on its way never gives its result; a request sent again keeps its old failure code.
*Theorems:* `Client.Rpc.c182_results`, `Client.Rpc.c181_dropped_violated`, `Client.Rpc.c181_finalized_violated`, `Client.Rpc.c181_code_violated`

### C182 A careful user of a client gets every result once, in order, on its own loop — proved
*Source:* net_io/clients/client.cc: AsyncDoRequest, DoRequest, OnRequestGetResponse; net_io/codec/codec_message.h: CodecMessage. *How:* Rpc.lean: state machine of loops, tasks, objects and channels; per request an inductive phase invariant (idle, posted, in the channel, result posted)
*Note:* channels by the contract of C21, C22, C67; coroutines by C28.
*Theorems:* `Client.Rpc.c182_results`, `Client.Rpc.c182_all_done`, `Client.Rpc.c182_own_answer`, `Client.Rpc.c182_code`

### C183 A request times out its time-out after it was sent, not before — partial
*Source:* net_io/clients/async_channel.cc: SendRequest, OnRequestTimeout; net_io/clients/queued_channel.cc: TrySendNext, OnRequestTimeout. *How:* as C184; counterexample for every time-out and every time of the second sending
*Note:* proved if each request object is sent once; violation proved: a request that was answered and is sent again is failed by the timer of the first time.
*Theorems:* `Client.Deadline.c184_not_early`, `Client.QueueDeadline.c184_queued_not_early`, `Client.Deadline.c183_retry_violated`, `Client.QueueDeadline.c183_queued_retry_violated`

### C184 A request ends within its time-out — proved
*Source:* net_io/clients/async_channel.cc: SendRequest, OnRequestTimeout, OnCodecMessage, OnCodecClosed; net_io/clients/queued_channel.cc: SendRequest, TrySendNext, OnRequestTimeout, OnCodecMessage, OnCodecClosed. *How:* Deadline.lean, QueueDeadline.lean: clock, timers and requests in progress; inductive invariant that each request in progress has a timer due at its time, and for the queue that the k-th waiting one fits in k + 1 time-outs
*Note:* loops run posted timers by C06; the queued channel with the pointer copied before it is popped (C22).
*Theorems:* `Client.Deadline.c184_not_early`, `Client.Deadline.c184_in_time`, `Client.Deadline.c184_never_longer`, `Client.QueueDeadline.c184_queued`, `Client.QueueDeadline.c184_queued_all`, `Client.QueueDeadline.c184_queued_not_early`

### C185 A request through a client's channel gets the server's answer to this very request — proved
*Source:* net_io/clients/queued_channel.cc: SendRequest, TrySendNext, OnCodecMessage, OnRequestTimeout, OnCodecClosed; net_io/codec/http/http_codec_service.cc: SendRequest, OnDataReceived; net_io/tcp_channel.cc: HandleRead, HandleWrite. *How:* Client/Ordered.lean over an abstract connection: simulation invariant relating the channel's wire and answer lists to what each end sent and was handed on; instantiated with the TCP and TLS pairs of C169, C173 (Net/Link.lean)
*Note:* the connection by C169 / C173; the queued channel with the pointer copied before it is popped (C22).
*Theorems:* `Client.Ordered.Web.c185_own_answer`, `Client.Ordered.Web.c185_own_answer_tls`, `Client.Ordered.Web.c185_complete`

### C186 A request given to a channel whose connection has closed fails at once — partial
*Source:* net_io/codec/http/http_codec_service.cc: SendRequest, RequestToBuffer; net_io/clients/queued_channel.cc: OnRequestTimeout, OnCodecClosed; net_io/clients/client_channel.h: Ready. *How:* as C185; counterexample for every closed idle channel and every continuation without timers
*Note:* proved: it is failed within the time-outs of the requests before it and its own; violation proved for every state of a closed idle channel: not before, and the closing is reported twice.
*Theorems:* `Client.Ordered.Web.c186_closed_takes_violated`, `Client.QueueDeadline.c184_queued`

### C187 Requests through a client's channel on a redis connection get the server's replies to their own commands — partial
*Source:* net_io/codec/redis/resp_codec_service.cc: OnDataReceived, SendRequest; net_io/clients/queued_channel.cc: SendRequest, TrySendNext, OnCodecMessage, OnRequestTimeout; net_io/clients/client.cc: AsyncDoRequest, DoRequest. *How:* as C188; counterexample families over all replies, splits and continuations
*Note:* proved for one request at a time (C188); violations proved for all replies and splits: a second request or heartbeat given meanwhile is never answered, or gets an empty response and a third one gets its reply; a request arriving after the connection was lost aborts.
*Theorems:* `Redis.Rpc.c188_own_replies`, `Redis.Rpc.c187_hangs_violated`, `Redis.Rpc.c187_wrong_answer_violated`, `Redis.Rpc.c187_heartbeat_violated`, `Redis.Rpc.c187_crash_violated`

### C188 A redis connection used for one request at a time pairs requests and replies — proved
*Source:* net_io/codec/redis/resp_codec_service.cc: OnDataReceived, SendRequest; net_io/clients/queued_channel.cc: SendRequest, TrySendNext, OnCodecMessage, OnRequestTimeout, OnCodecClosed. *How:* Redis/Rpc.lean: redis codec, queued channel and server composed; inductive invariant: idle, or waiting for exactly the rest of the reply stream of the request in progress (C35's Waiting)
*Note:* the queued channel with the pointer copied before it is popped (C22).
*Theorems:* `Redis.Rpc.c188_own_replies`, `Redis.Rpc.c188_complete`

### C189 Every configuration of a source is accepted or refused, and an accepted one can be loaded — partial
*Source:* components/source_loader/source.cc: Source::Initialize; components/source_loader/parser/column_parser.cc: ColumnParser::Initialize, from_json; components/source_loader/parser/parser.cc: Parser::Initialize, CheckDefault, ToSourceValueType; components/source_loader/loader/loader_factory.cc: CreateLoader; components/source_loader/loader/file_loader.cc: ParseAndCheckConfig, Load. *How:* as C190; counterexample families
*Note:* proved: what is accepted (C190); violations proved for families of configurations: undefined behaviour, abort, exception, and accepted configurations that never load anything.
*Theorems:* `Source.Config.c190_accepted_iff`, `Source.Config.c189_missing_member_violated`, `Source.Config.c189_abort_violated`, `Source.Config.c189_throws_violated`, `Source.Config.c189_useless_violated`, `Source.Config.c189_mode_violated`

### C19 Ring-hash routing is consistent — partial
*Source:* net_io/common/load_balance/consistent_hash_map.h: find, insert, erase; net_io/clients/router/ringhash_router.cc. *How:* sorted ring of virtual nodes; lookup characterised as clockwise nearest
*Note:* order independence holds without virtual-node collisions; systematic label collisions make it false (violation proved for every hash function).
*Theorems:* `Router.c19_total`, `Router.c19_nearest`, `Router.c19_add_moves_only_to_new`, `Router.c19_erase_moves_only_served`, `Router.c19_order_independent_partial`, `Router.vnode_label_collision`, `Router.c19_order_violated`

### C190 A source is set up exactly as its configuration describes — proved
*Source:* components/source_loader/source.cc: Source::Initialize; components/source_loader/source_impl/name_struct_source.h: Initialize; components/source_loader/parser/column_parser.cc: ColumnParser::Initialize, from_json; components/source_loader/parser/parser.cc: Parser::Initialize, CheckDefault, ToSourceValueType; components/source_loader/loader/file_loader.cc: ParseAndCheckConfig. *How:* Source/Config.lean: the initializers over JSON trees, with a result that distinguishes refusal, exception, abort and undefined behaviour; both directions against a declarative description by inversion and induction over the lists
*Note:* nlohmann::json by its contract; the initial registry of parsers.
*Theorems:* `Source.Config.c190_accepted_iff`

### C191 A query on an asynchronous mysql connection runs on the right database and reports its own outcome — partial
*Source:* integration/async_mysql/mysql_async_con.cc: HandleState, HandleStateSelectDB, HandleStateIDLE, StartQuery, Close, SyncClose, DoneCurrentQuery; integration/async_mysql/mysql_client_impl.cc: PendingQuery, get_client. *How:* as C192; counterexample families over queries, databases and continuations
*Note:* proved: what C192 says; violations proved for families of histories, most for every continuation; the client library by its contract.
*Theorems:* `Mysql.c192_rows`, `Mysql.c192_no_rows`, `Mysql.c192_database`, `Mysql.c191_default_db_violated`, `Mysql.c191_uninitialised_violated`, `Mysql.c191_code_violated`, `Mysql.c191_after_close_violated`, `Mysql.c191_no_reconnect_violated`, `Mysql.c191_close_violated`, `Mysql.c191_not_ready_violated`, `Mysql.c191_cells_violated`, `Mysql.c191_late_violated`

### C192 Queries on an asynchronous mysql connection are answered once, in order, with their own rows — proved
*Source:* integration/async_mysql/mysql_async_con.cc: HandleState, HandleStateSelectDB, HandleStateConnect, HandleStateIDLE, StartQuery, clean_up, ~MysqlAsyncConnect; integration/async_mysql/mysql_client_impl.cc: get_client. *How:* Mysql/Model.lean: the connection's state machine, one library call per step, with a ghost server session (database selected, queries executed); inductive invariant linking state, selected database and query in progress; conversations with arbitrary waits by induction
*Note:* the client library by its contract; a session is given once.
*Theorems:* `Mysql.c192_once_in_order`, `Mysql.c192_database`, `Mysql.c192_rows`, `Mysql.c192_no_rows`, `Mysql.c192_ended`, `Mysql.c192_in_turn`

### C193 A byte buffer of the redis library is a string of bytes — partial
*Source:* thirdparty/resp/resp/buffer.hpp: append, reserve, resize, operator=, buffer(buffer&&). *How:* as C194; counterexamples after every careful history
*Note:* proved: what C194 says; violations proved for every careful history before.
*Theorems:* `Redis.Buffer.c194_contents`, `Redis.Buffer.c193_self_append_violated`, `Redis.Buffer.c193_shrink_ref_violated`, `Redis.Buffer.c193_self_move_violated`

### C194 Byte buffers of the redis library keep their contents and their memory — proved
*Source:* thirdparty/resp/resp/buffer.hpp: append, reserve, resize, clear, reset, operator=, buffer(buffer&&), ~buffer. *How:* Redis/Buffer.lean: buffers over a heap, undefined behaviour as failure; inductive invariant (each buffer refers, is small, or owns a block of its room; blocks owned once) with the contents refined to strings
*Note:* realloc always moves; sizes far below 2^64.
*Theorems:* `Redis.Buffer.c194_contents`, `Redis.Buffer.c194_memory`

### C195 A redis connection becomes ready or is closed, whatever the server answers to the commands it starts with — partial
*Source:* net_io/codec/redis/resp_codec_service.cc: StartProtocolService, OnDataReceived, HandleInitResponse; net_io/codec/redis/redis_response.cc: IsHeartbeat; thirdparty/resp/resp/unique_value.hpp: unique_value; thirdparty/resp/resp/buffer.hpp: append. *How:* as C196; counterexamples for every configuration, chunking and number of moves
*Note:* proved: what C196 says; violations proved for all configurations, chunkings and moves: the empty status crashes, the status O is compared with uninitialised memory, a failed send is reported twice.
*Theorems:* `Redis.Startup.c196_startup`, `Redis.Startup.c195_empty_violated`, `Redis.Startup.c195_garbage_violated`, `Redis.Startup.c195_pong_violated`, `Redis.Startup.c195_twice_violated`

### C196 Authentication and database selection of a redis connection — proved
*Source:* net_io/codec/redis/resp_codec_service.cc: StartProtocolService, OnDataReceived, HandleInitResponse, SendRequest; thirdparty/resp/resp/unique_value.hpp: unique_value; thirdparty/resp/resp/buffer.hpp: append. *How:* Redis/Startup.lean: the comparison of an answer runs over the memory of its resp::buffer (C194) after any number of moves; its shape by induction over the moves; the codec's handling of the answers by induction over the chunks; the channel's invariant (C188) from the state start-up leaves
*Note:* replies of printable characters; the rest of the handling of replies as in C35, C188.
*Theorems:* `Redis.Startup.c196_startup`, `Redis.Startup.c196_not_before`, `Redis.Startup.c196_plain`, `Redis.Startup.c196_then_requests`, `Redis.Startup.c196_pong`

### C197 The object of a connection is not used after it was deleted — partial
*Source:* net_io/codec/codec_service.cc: HandleEvent, CloseService, NotifyCodecClosed, TryFlushChannel; net_io/codec/http/http_codec_service.cc: SendRequest, SendResponse, OnDataReceived; net_io/codec/http/h2/h2_codec_service.cc: HandleEvent; net_io/clients/client.cc: OnClientChannelClosed; net_io/io_service.cc: OnCodecClosed. *How:* as C198; counterexamples for every course of the event
*Note:* proved: what C198 says; violations proved: the client with one loop, for http, redis, h2 and websocket, whatever the event; races of owners in another thread; late replies on a server.
*Theorems:* `Net.Lifetime.c198_deleted`, `Net.Lifetime.c198_plain`, `Net.Lifetime.c198_server`, `Net.Lifetime.c197_client_violated`, `Net.Lifetime.c197_h2_violated`, `Net.Lifetime.c197_race_violated`, `Net.Lifetime.c197_flush_violated`, `Net.Lifetime.c197_late_violated`

### C198 How long the object of a connection lives — proved
*Source:* net_io/codec/codec_service.cc: HandleEvent, CloseService, NotifyCodecClosed, TryFlushChannel; net_io/codec/http/http_codec_service.cc: SendRequest, SendResponse, OnDataReceived; net_io/clients/client.cc: OnClientChannelClosed; net_io/clients/async_channel.cc: SendRequest; net_io/io_service.cc: OnCodecClosed. *How:* Net/Lifetime.lean: one object with its references (owner, closures, time-outs, users) and the tasks that have none; handlers are sequences of accesses interleaved with everything else; inductive invariants: freed iff no reference; installed only if the owner has it; a handler in progress has a reference; no flush task after a removal in the queue
*Note:* handlers as sequences of accesses; the owner itself stays.
*Theorems:* `Net.Lifetime.c198_deleted`, `Net.Lifetime.c198_event`, `Net.Lifetime.c198_shared`, `Net.Lifetime.c198_plain`, `Net.Lifetime.c198_server`, `Net.Lifetime.c198_replies`

### C199 A TLS connection is trusted as configured — partial
*Source:* base/crypto/lt_ssl.cc: SSLCtx, UseVerifyCA, UseCertification, DefaultServerCtx, DefaultClientCtx, NewSSLSession; net_io/clients/client_base.h: ClientSSLCtxProvider; net_io/clients/client.cc: GetClientSSLContext, OnConnected; net_io/server/generic_server.h: GetSSLContext. *How:* as C200; counterexamples for every infrastructure, configuration and history
*Note:* proved: what C200 says; violations proved for every infrastructure and history: the host is never checked, a CA file or directory alone leaves the context null, UseVerifyCA ignores its directory, the defaults are one context, an uninitialised pointer.
*Theorems:* `Net.TlsTrust.c200_client`, `Net.TlsTrust.c199_host_violated`, `Net.TlsTrust.c199_ca_alone_violated`, `Net.TlsTrust.c199_unusable_violated`, `Net.TlsTrust.c199_path_violated`, `Net.TlsTrust.c199_system_violated`, `Net.TlsTrust.c199_shared_violated`, `Net.TlsTrust.c199_default_server_violated`, `Net.TlsTrust.c199_garbage_violated`

### C20 Round-robin routing is fair — partial
*Source:* net_io/clients/router/roundrobin_router.cc: RoundRobinRouter::GetNextClient. *How:* counter modulo 2^32; counting residues in windows
*Note:* fair in every window that does not cross the 2^32 wrap, and always when n divides 2^32; violated at the wrap otherwise.
*Theorems:* `Router.c20_fair_partial`, `Router.c20_cycle_partial`, `Router.c20_power_of_two`, `Router.c20_wrap_violated`, `Router.c20_empty_ub`

### C200 Whom a TLS connection trusts — proved
*Source:* base/crypto/lt_ssl.cc: SSLCtx, UseVerifyCA, UseCertification, SetVerifyMode, NewSSLSession; net_io/clients/client.cc: GetClientSSLContext, OnConnected; net_io/io_service.cc: CreateCodeService. *How:* Net/TlsTrust.lean: contexts with authorities, mode, certificate and key over an abstract file system and relation 'issued'; calls with a null context are undefined; invariant linking each context to a declarative description of the history of calls
*Note:* OpenSSL by its contract; ciphers, versions, times and revocation left out.
*Theorems:* `Net.TlsTrust.c200_create`, `Net.TlsTrust.c200_client`, `Net.TlsTrust.c200_server`, `Net.TlsTrust.c200_fit`, `Net.TlsTrust.c200_certificate`, `Net.TlsTrust.c200_present`, `Net.TlsTrust.c200_connect`, `Net.TlsTrust.c200_default`

### C201 HTTP responses without content are sent and read as such — partial
*Source:* net_io/codec/http/http_codec_service.cc: SendResponse, ResponseToBuffer, OnDataReceived; net_io/codec/http/http_util.h: expect_response_body; net_io/codec/http/parser_context.h: OnHeaderFinish. *How:* as C202; counterexamples for every such response
*Note:* proved: what C202 says; violations proved for all such responses: their bodies are sent and read as the next response (also a forged one), a length is sent with 204, the client waits for the content of an answer to HEAD and takes the next response for it.
*Theorems:* `Http.NoContent.c202_stream`, `Http.NoContent.c202_client`, `Http.NoContent.c201_body_violated`, `Http.NoContent.c201_forged_violated`, `Http.NoContent.c201_length_violated`, `Http.NoContent.c201_head_waits_violated`, `Http.NoContent.c201_head_swallows_violated`

### C202 Responses of a connection are read as given if those without content have none — proved
*Source:* net_io/codec/http/http_codec_service.cc: SendResponse, ResponseToBuffer, OnDataReceived; net_io/codec/http/parser_context.h: OnHeaderFinish, OnMessageBody, OnMessageParsed. *How:* Http/NoContent.lean: the encoder of C43 against a reader that knows the methods (RFC 7230, 3.3.3), induction over the responses; the client's parser by the contract of llhttp
*Note:* status line, headers and length as in C31, C43; llhttp by its contract (C169).
*Theorems:* `Http.NoContent.c202_stream`, `Http.NoContent.c202_empty_sent`, `Http.NoContent.c202_client`, `Http.NoContent.c202_expect`

### C203 A server answers every request HTTP allows, once, with its handler's response — partial
*Source:* net_io/codec/http/http_codec_service.cc: OnDataReceived, SendResponse; net_io/codec/http/parser_context.h: Parse, OnHeaderFinish, OnMessageParsed; net_io/server/http_server/http_context.cc: Response. *How:* as C204; counterexamples for every such request and history
*Note:* proved: what C204 says; violations proved, with llhttp's documented pause: after the answer to a request with Connection: upgrade comes a 400 and the connection is closed; nobody answers Expect: 100-continue.
*Theorems:* `Http.Serve.c204_answers`, `Http.Serve.c203_upgrade_violated`, `Http.Serve.c203_expect_violated`

### C204 From bytes to bytes: a server's HTTP connection — proved
*Source:* net_io/codec/http/http_codec_service.cc: OnDataReceived, SendResponse, ResponseToBuffer, BeforeSendResponse; net_io/codec/http/parser_context.h: Parse, OnMessageParsed; net_io/server/http_server/http_context.cc: Response. *How:* Http/Serve.lean: parser, handler and encoder composed; run lemma over pieces by induction, contract of llhttp for the callbacks, C202 for the reader; a tokenizer meeting the contract is constructed
*Note:* llhttp by a contract shown satisfiable; handlers answer at once; what is written reaches the peer (C24, C45); keep-alive requests.
*Theorems:* `Http.Serve.c204_answers`, `Http.Serve.c204_prefix`, `Http.Serve.c204_coding`, `Http.Serve.c204_undecodable`, `Http.Serve.c204_refused`, `Http.Serve.c204_bad_request`

### C205 A synchronously dialled connection works like any other — partial
*Source:* net_io/clients/ws_client.cc: DialSync; net_io/clients/client_connector.cc: DialSync; net_io/socket_utils.cc: CreateBlockTCPSocket, SetSocketBlocking; net_io/tcp_channel.cc: HandleRead, Send, HandleWrite. *How:* as C206; counterexamples for every history
*Note:* proved: what C206 says; violations proved: each refused attempt leaks its socket; descriptor 0 is taken for a failure and leaks; the socket is blocking, so the first read event stops the loop until the peer ends the connection, and nothing is handed on before that; a message larger than the socket's buffer stops the loop until the peer takes something.
*Theorems:* `Client.DialSync.c206_dial`, `Client.DialSync.c206_told`, `Client.DialSync.c206_bytes`, `Client.DialSync.c205_leak_violated`, `Client.DialSync.c205_descriptor_zero_violated`, `Client.DialSync.c205_nothing_handed_violated`, `Client.DialSync.c205_loop_stands_violated`, `Client.DialSend.c205_send_stands_violated`

### C206 Reading and sending keep all bytes in order, and on non-blocking sockets never hold the loop — proved
*Source:* net_io/clients/client_connector.cc: DialSync; net_io/tcp_channel.cc: HandleRead, Send, HandleWrite; net_io/codec/codec_service.cc: HandleEvent, SocketReadWrite. *How:* Client/DialSync.lean: descriptors as a list, the operating system's answers arbitrary; reading as a transition system of world and loop steps, invariant over all runs; terminating runs of the loop constructed from every reachable state; Client/DialSend.lean: the same for Send and HandleWrite, with the room in the socket's buffer
*Note:* what the peer sends and when, and how much each read gives, is arbitrary; read(2) on blocking and non-blocking sockets as POSIX says; errors of a read count as the end of the peer's bytes; errors of a write are not modelled.
*Theorems:* `Client.DialSync.c206_dial`, `Client.DialSync.c206_told`, `Client.DialSync.c206_bytes`, `Client.DialSync.c206_returns`, `Client.DialSync.c206_delivers`, `Client.DialSend.c206_sent`, `Client.DialSend.c206_send_returns`

### C207 Error texts are right on every thread — partial
*Source:* base/utils/sys_error.cc: StrError. *How:* as C208; a schedule constructed for every unknown error and every other error
*Note:* proved: what C208 says; violation proved: all calls share one buffer, so for every error unknown to the library and every other error there is an interleaving in which the description is empty.
*Theorems:* `Text.StrError.c208_known`, `Text.StrError.c208_serial`, `Text.StrError.c207_overlap_violated`

### C208 Error texts are right for known errors, and for all without overlap — proved
*Source:* base/utils/sys_error.cc: StrError. *How:* Text/StrError.lean: calls as state machines over a shared buffer, a step per byte; invariants over all schedules, a measure for the end of a call
*Note:* glibc's strerror_r as documented, one byte per step; C++ itself leaves overlapping accesses undefined.
*Theorems:* `Text.StrError.c208_known`, `Text.StrError.c208_serial`, `Text.StrError.c208_ends`

### C209 Sizes are written in the unit that fits — partial
*Source:* base/sys/sys_info.h: PrettyBytes. *How:* as C210; counterexamples for every such size
*Note:* proved: what C210 says; violation proved: every size less than half a hundredth of a unit below 1024 of it is written as 1024.00 of it.
*Theorems:* `Text.PrettyBytes.c210_close`, `Text.PrettyBytes.c210_unit`, `Text.PrettyBytes.c209_next_unit_violated`

### C21 Async client channel completes every request exactly once — partial
*Source:* net_io/clients/async_channel.cc: SendRequest, OnRequestTimeout, OnCodecMessage, OnCodecClosed, BeforeCloseChannel. *How:* channel as a transition system over user, response, timeout and close events; invariant over reachable states
*Note:* proved for every interleaving with distinct request objects and ids and no submission after shutdown; without these hypotheses it is false (three violations proved).
*Theorems:* `Client.Async.c21_exactly_once_partial`, `Client.Async.c21_completed_partial`, `Client.Async.c21_id_reuse_violated`, `Client.Async.c21_shared_id_violated`, `Client.Async.c21_late_send_violated`

### C210 Sizes written are close, and in order — proved
*Source:* base/sys/sys_info.h: PrettyBytes. *How:* Text/PrettyBytes.lean: rounding half to even on naturals, shown close and monotone; the loop's unit by cases; the text against a reader
*Note:* double as IEEE 754 rounding to 53 bits, half to even; two decimals of the exact value, half to even, as glibc's printf.
*Theorems:* `Text.PrettyBytes.c210_close`, `Text.PrettyBytes.c210_ties`, `Text.PrettyBytes.c210_unit`, `Text.PrettyBytes.c210_monotone`, `Text.PrettyBytes.c210_text`

### C211 Ending a loop's thread leaves no coroutine behind and no trap — partial
*Source:* base/coroutine/co_runner.cc: ~CoroRunnerImpl, Resume, MakeResumer, LoopGone. *How:* as C212; counterexamples from every reachable state with a waiting coroutine or a closure
*Note:* proved: what C212 says; violations proved, for every reachable state: a coroutine that waits at the end is never destroyed; any resume closure called afterwards reads the destroyed runner, before it looks whether its coroutine exists.
*Theorems:* `Coro.c212_destroyed`, `Coro.c211_leak_violated`, `Coro.c211_touch_violated`

### C212 The end of a loop's thread destroys the finished coroutines, each once — proved
*Source:* base/coroutine/co_runner.cc: ~CoroRunnerImpl, FreeCoros, GC. *How:* Coro/RunnerEnd.lean: the destructor as a last step of the runner's model (C28), whose invariant gives where every coroutine is
*Note:* the runner's model is that of C28; the thread_local is destroyed on the main coroutine.
*Theorems:* `Coro.c212_destroyed`, `Coro.c212_can_end`

### C22 Queued client channel is FIFO with one request in flight — partial
*Source:* net_io/clients/queued_channel.cc: SendRequest, TrySendNext, OnRequestTimeout, OnCodecMessage, OnCodecClosed, BeforeCloseChannel. *How:* as C21, with the list element reference made explicit (freed flag)
*Note:* TrySendNext uses a reference to a popped list element (use after free, proved to happen at the first request); with the pointer copied first, FIFO and exactly-once are proved for every interleaving.
*Theorems:* `Client.Queued.c22_fifo_partial`, `Client.Queued.c22_all_completed_partial`, `Client.Queued.c22_use_after_free_violated`, `Client.Queued.c22_use_after_free_always_violated`, `Client.Queued.c22_late_send_violated`

### C23 Message loop runs every posted task exactly once, in order, with no lost wake-up — partial
*Source:* base/message_loop/message_loop.cc: PostTask, WakeUpIfNeeded, HandleTaskEvent, RunScheduledTask, RunNestedTask, ThreadMain. *How:* labelled transition system, one shared access per step, any number of threads; inductive invariant
*Note:* proved for all interleavings of any number of posting threads while the loop runs; at shutdown a task can be lost, and posting from a task aborts (violations proved).
*Theorems:* `Loop.Msg.c23_exactly_once_in_order`, `Loop.Msg.c23_no_lost_wakeup`, `Loop.Msg.c23_poll_reports`, `Loop.Msg.c23_notify_never_fails`, `Loop.Msg.c23_round_runs_all`, `Loop.Msg.c23_nested_run`, `Loop.Msg.c23_loop_never_stuck`, `Loop.Msg.c23_shutdown_loop_tasks`, `Loop.Msg.c23_shutdown_remote_partial`, `Loop.Msg.c23_violation_lost_at_shutdown`, `Loop.Msg.c23_violation_post_while_stopping`, `Loop.Msg.c23_loop_posts`, `Loop.Msg.c23_witness`, `Loop.Msg.c23_witness_nested`

### C24 TCP channel sends the byte stream without loss, duplication or reordering — partial
*Source:* net_io/tcp_channel.cc: Send, HandleWrite, HandleRead. *How:* send/read loops with an arbitrary script of kernel answers; refinement to streams; TLS variant with WANT_READ/WRITE
*Note:* stream integrity proved for every pattern of partial results for payloads < 2^31 (TCP) and for TLS; violations proved: empty send reports failure, 32-bit length truncation, retry of SSL_write after the output buffer moved.
*Theorems:* `Net.c24_safe`, `Net.c24_stream`, `Net.c24_prefix`, `Net.c24_input`, `Net.c24_write_interest`, `Net.c24_write_until_eagain`, `Net.c24_read_until_eagain`, `Net.c24_read_failure`, `Net.c24_return_value`, `Net.c24_failure_is_real_partial`, `Net.c24_drains`, `Net.c24_violation_empty_send`, `Net.c24_violation_interest_without_data`, `Net.c24_violation_length_truncated`, `Net.c24_witness`, `Net.Ssl.c24_ssl_safe`, `Net.Ssl.c24_ssl_stream`, `Net.Ssl.c24_ssl_prefix`, `Net.Ssl.c24_ssl_input`, `Net.Ssl.c24_ssl_write_interest`, `Net.Ssl.c24_violation_ssl_moved_buffer`, `Net.Ssl.c24_ssl_witness`

### C25 Fd event registry is a partial map with accurate results — proved
*Source:* base/message_loop/fdev_mgr.cc: Add, Remove, GetFdEvent. *How:* array of registered events; refinement to a partial map
*Theorems:* `Loop.FdReg.c25_add`, `Loop.FdReg.c25_remove`, `Loop.FdReg.c25_get`, `Loop.FdReg.c25_registry_agrees`, `Loop.FdReg.c25_install`, `Loop.FdReg.c25_uninstall`, `Loop.FdReg.c25_update`

### C26 A loop timer fires when due, once, and never after it is removed — partial
*Source:* base/message_loop/event_pump.cc: AddTimeoutEvent, RemoveTimeoutEvent, ProcessTimerEvent, NextTimeout; thirdparty/timeout/timeout.c: timeouts_add, timeouts_del, timeouts_update, timeouts_get, timeouts_timeout. *How:* bit-exact model of the timing wheel (wheel/slot bitmaps); refinement to a set of deadlines for every clock history
*Note:* full for one-shot timers and for the timing wheel itself, for every history and clock; a repeating timer's first period is counted from the loop's last clock update instead of the time of registration (violation proved).
*Theorems:* `Wheel.c26_refines`, `Wheel.c26_due`, `Wheel.c26_cancelled`, `Wheel.c26_not_early`, `Wheel.c26_sleep`, `Wheel.c26_pass`, `Wheel.c26_oneshot`, `Wheel.c26_violation_repeating`, `Wheel.c26_violation_at_once`, `Wheel.c26_wait`, `Wheel.c26_witness`

### C27 Wait group wakes waiters exactly when all work is done — partial
*Source:* base/coroutine/wait_group.cc: Add, Done, Wait. *How:* transition system of Add/Done/timer/waiter with the posted wake-up; inductive invariant
*Note:* never left sleeping, resumed once, for every interleaving; success means done only if the count does not return to zero before the last Add (violation proved for every number of remaining tasks); timeout may be reported though all was done in time (violation).
*Theorems:* `Coro.WG.c27_not_left`, `Coro.WG.c27_once`, `Coro.WG.c27_timeout`, `Coro.WG.c27_success_partial`, `Coro.WG.c27_violation_early`, `Coro.WG.c27_violation_timeout_done`, `Coro.WG.c27_witness`

### C28 A coroutine is resumed at most once per suspension — partial
*Source:* base/coroutine/co_runner.cc: Resume, MakeResumer, Yield. *How:* transition system of the coroutine runner with ready/free/gc lists and resume ids; inductive invariant
*Note:* at most one wake-up per suspension, stale closures inert, no lost wake-up: for every interleaving; violations proved: a closure of a task that ended without waiting wakes the next task of the same coroutine, or aborts the process.
*Theorems:* `Coro.c28_once`, `Coro.c28_stale`, `Coro.c28_not_lost`, `Coro.c28_progress`, `Coro.c28_lists`, `Coro.c28_no_abort_partial`, `Coro.c28_violation_other_task`, `Coro.c28_violation_abort`, `Coro.c28_witness`, `Coro.c28_reuse_partial`, `Coro.c28_spawn_reuse`, `Coro.c28_pool`, `Coro.c28_freed`

### C29 Intrusive linked list behaves as a sequence — partial
*Source:* base/queue/linked_list.h; base/queue/double_linked_list.h. *How:* pointer-level heap model of the links; representation predicate and frame lemmas
*Note:* sequence behaviour for every allowed operation history; violations proved: popping does not decrease the reported size, destroying a non-empty DoubleLinkedList dereferences null, pushing a node of another list corrupts that list.
*Theorems:* `Links.c29_sequence`, `Links.c29_frame`, `Links.c29_size_partial`, `Links.c29_violation_pop_size`, `Links.c29_double_push`, `Links.c29_double_remove`, `Links.c29_destroy_empty`, `Links.c29_violation_destructor`, `Links.c29_violation_steal`

### C30 HTTP header lookup is case-insensitive and consistent — partial
*Source:* net_io/codec/http/http_message.cc: InsertHeader, HasHeader, GetHeader, RemoveHeader. *How:* ordered header map with lower-cased keys; lookup lemmas
*Note:* for names without NUL characters (with NUL lower-casing stops: violation proved) and, for lookup, non-empty names.
*Theorems:* `Http.c30_lookup_partial`, `Http.c30_case_insensitive_partial`, `Http.c30_nul_violated`

### C31 HTTP status lines are well formed — partial
*Source:* net_io/codec/http/http_constants.cc: http_resp_head_line. *How:* status table as data; exhaustive case analysis over the table plus a format lemma
*Note:* codes in 100..511 without a table entry give an empty line (violation proved for all of them).
*Theorems:* `Http.c31_status_line_partial`, `Http.c31_missing_code_violated`, `Http.c31_minor_violated`

### C32 Split inverts Join — partial
*Source:* base/utils/string/str_utils.cc: StrUtil::Split, Join. *How:* find/substr model of Split and Join; induction over pieces
*Note:* exact for one-character separators; ignore_empty still yields an empty last piece for texts that are empty or end with the separator; longer separators are not skipped entirely; the empty separator throws (violations proved for all texts).
*Theorems:* `Text.c32_split_join`, `Text.c32_join_split`, `Text.c32_splitChar`, `Text.c32_ignore_empty_partial`, `Text.c32_ignore_empty_violated`, `Text.c32_long_separator_violated`, `Text.c32_empty_separator_violated`

### C33 Integer formatting is correct in every base — proved
*Source:* base/utils/ns_convertor.cc: itoa_r. *How:* digit loop and reversal; induction on the value
*Theorems:* `Itoa.c33_itoa`, `Itoa.c33_bad_base`, `Itoa.c33_value`

### C34 Byte order conversion round-trips — proved
*Source:* base/sys/byteorders.h. *How:* byte lists of words; big-endian specification
*Theorems:* `ByteOrder.c34_network_is_big_endian`, `ByteOrder.c34_little_endian`, `ByteOrder.c34_roundtrip`

### C35 Redis responses pair with requests by command count — partial
*Source:* net_io/codec/redis/resp_codec_service.cc: OnDataReceived, SendRequest. *How:* byte-level RESP decoder and service counter; chunk independence and reply pairing by induction
*Note:* pairing proved for every sequence of exchanges and every fragmentation when replies are well-formed and no request is sent from within delivery; violations proved: request sent from the response callback, unsolicited data, non-ASCII text lines, long numbers, stale array state after an error.
*Theorems:* `Redis.decode_append`, `Redis.decode_enc`, `Redis.strtol_saturates`, `Redis.strtol_out_of_range`, `Redis.c35_pairing_partial`, `Redis.c35_leftover_partial`, `Redis.c35_startup`, `Redis.c35_violation_reentrant`, `Redis.c35_violation_unsolicited`, `Redis.c35_violation_text`, `Redis.c35_violation_number`, `Redis.c35_violation_stale_array`

### C36 Server connection accounting and shutdown notification — partial
*Source:* net_io/server/generic_server.h: IncreaseChannelCount, DecreaseChannelCount, CanCreateNewChannel, IOServiceStoped; net_io/io_service.cc. *How:* transition system of accept/close/stop over n io services; inductive invariant and progress measure
*Note:* count exact always; limit exact for one io service, exceeded by up to n-1 with n (violation proved for every limit); the stop callback runs at least once and only after everything is gone, but twice if a connection closes while stopping (violation proved).
*Theorems:* `Server.c36_count`, `Server.c36_limit_single`, `Server.c36_limit_partial`, `Server.c36_callback_not_early`, `Server.c36_callback_eventually`, `Server.c36_shutdown_progress`, `Server.c36_callback_once_partial`, `Server.c36_violation_callback_twice`, `Server.c36_violation_limit`, `Server.c36_witness`

### C37 URL parsing recovers its components — partial
*Source:* net_io/url_utils.cc: ParseURI, ParseRemote. *How:* position arithmetic of the parser on character lists, with wrapping casts; structured texts as specification
*Note:* exact for every choice of components free of the delimiters that end them; proved violations: '://host' gives an empty scheme, reused records keep old components, '@' or '://' in a query, ':' in a password, empty or too large port, resolved IP padded with NULs, failed resolution reported as success.
*Theorems:* `Url.c37_parse_remote`, `Url.c37_parse_remote_fresh`, `Url.c37_parse_uri`, `Url.c37_resolve_partial`, `Url.c37_resolve_fail`, `Url.c37_violation_empty_scheme`, `Url.c37_violation_resolved_nul`, `Url.c37_violation_resolve_stale`, `Url.c37_violation_stale`, `Url.c37_violation_password_colon`, `Url.c37_violation_query_at`, `Url.c37_violation_query_scheme`, `Url.c37_violation_empty_port`, `Url.c37_violation_port_overflow`, `Url.c37_violation_query_eq`

### C38 Client keeps its configured number of connections and round-robins ready ones — partial
*Source:* net_io/clients/client.cc: OnConnected, OnConnectFailed, OnClientChannelClosed, get_ready_channel, launch_next_if_need. *How:* client bookkeeping as transition system; probing of channels with an adversarial counter
*Note:* back-off, the single-connection client, ready-only selection and spreading in full; completeness of selection for up to 11 channels; violations proved: unbounded connections with 2 or more configured, a client that never dials again, a dial calling a destroyed client back, selection missing a ready channel.
*Theorems:* `Pool.c38_backoff_bound`, `Pool.c38_backoff_linear`, `Pool.c38_single`, `Pool.c38_violation_too_many`, `Pool.c38_violation_unbounded`, `Pool.c38_alive_partial`, `Pool.c38_violation_dead`, `Pool.c38_violation_dangling`, `Pool.c38_no_dangling_partial`, `Pool.c38_select_ready`, `Pool.c38_select_complete_partial`, `Pool.c38_select_spread`, `Pool.c38_violation_select_far`, `Pool.c38_violation_select_wrap`, `Pool.c38_violation_select_race`, `Pool.c38_select_witness`

### C39 WebSocket parser is memory safe on every byte stream — partial
*Source:* net_io/codec/websocket/websocket_parser.c: websocket_parser_execute. *How:* announced length arithmetic on BitVec 64; reachability of the bad copy only with lengths >= 2^63
*Note:* violated by announced lengths >= 2^63; these are proved to be the only way.
*Theorems:* `WebSocket.c39_hostile_length_ub`, `WebSocket.c39_only_hostile_length_partial`

### C40 Closing a connection is notified to its owner exactly once — partial
*Source:* net_io/codec/codec_service.cc: HandleEvent, CloseService, NotifyCodecClosed, TryFlushChannel; net_io/codec/http/http_codec_service.cc: OnDataReceived, SendResponse; net_io/server/http_server/http_context.cc: Response. *How:* codec/channel/context close paths as one sequential machine over events and kernel scripts; counting notifications
*Note:* proved for keep-alive connections with well-formed data; three causes of double notification proved.
*Theorems:* `Net.c40_event_partial`, `Net.c40_cause`, `Net.close_spec`, `Net.tryFlush_empty`, `Net.c40_keepalive_exactly_once_partial`, `Net.c40_witness`, `Net.c40_violation_close_response`, `Net.c40_violation_parse_error_eof`, `Net.c40_violation_scheduled_drain`

### C41 String helpers do what their names say — partial
*Source:* base/utils/string/str_utils.cc: Trim, StartsWith, EndsWith, Contains, Replace, ReplaceLast, IgnoreCaseEquals. *How:* string functions as list functions against existential specifications
*Note:* IgnoreCaseEquals is correct only for equal lengths: it accepts every prefix and over-reads otherwise (proved).
*Theorems:* `Text.c41_trim`, `Text.isTrim_unique`, `Text.c41_startsWith`, `Text.c41_endsWith`, `Text.c41_contains_partial`, `Text.c41_contains_empty_violated`, `Text.c41_replace`, `Text.c41_replaceLast`, `Text.c41_ignoreCase_partial`, `Text.c41_ignoreCase_prefix_violated`, `Text.c41_ignoreCase_overread_violated`

### C42 HTTP messages are assembled independently of fragmentation — partial
*Source:* net_io/codec/http/parser_context.h: OnMessageBegin, OnHeaderField, OnHeaderValue, OnHeaderFinish, OnMessageBody, OnMessageEnd. *How:* header/body callbacks of the HTTP parser as a fold over callback sequences (llhttp assumed)
*Note:* for messages without trailers; a trailer value leaks into the first header of the next message (violation proved for every trailer); llhttp itself is not modelled.
*Theorems:* `Http.c42_assembled_partial`, `Http.c42_trailer_leak_violated`

### C43 Encoded HTTP messages are framed correctly — partial
*Source:* net_io/codec/http/http_codec_service.cc: RequestToBuffer, ResponseToBuffer, BeforeSendResponse. *How:* text of encoded messages; framing specification and injectivity
*Note:* for CR-free headers and user lengths matching the body; compression after a user-set Content-Length and CR LF in values break it (proved).
*Theorems:* `Http.c43_response_partial`, `Http.c43_request_partial`, `Http.c43_stream_partial`, `Http.c43_compressed_length_violated`, `Http.c43_header_injection_violated`

### C44 Fired fd events are delivered to the handler they were fired for — partial
*Source:* base/message_loop/event_pump.cc: Run, InvokeFiredEvent; base/message_loop/io_mux_epoll.cc; base/message_loop/fdev_mgr.cc. *How:* event batch with handlers that re-register; invariant that invoked events are installed
*Note:* proved when no descriptor is re-registered within a round; with descriptor reuse the new handler gets the old event (violation proved).
*Theorems:* `Loop.FdReg.c44_invokes_installed`, `Loop.FdReg.c44_right_handler_partial`, `Loop.FdReg.c44_violation_fd_reuse`

### C45 Responses are delivered completely before the connection is dropped — partial
*Source:* net_io/server/http_server/http_context.cc: Response; net_io/codec/http/http_codec_service.cc: SendResponse; net_io/codec/codec_service.cc: TryFlushChannel, CloseService. *How:* combined codec and TCP channel machine; accepted bytes = socket + buffer
*Note:* no loss or reordering before close for every history; pending bytes always have a flush or write event on keep-alive connections; non-keep-alive responses that do not fit the socket buffer are truncated (violation proved).
*Theorems:* `Net.c45_stream`, `Net.c45_will_send_partial`, `Net.c45_delivered_partial`, `Net.c45_violation_truncated`

### C46 Starting and stopping a message loop terminates and is synchronous — partial
*Source:* base/message_loop/message_loop.cc: Start, SyncStop, WaitLoopEnd, ThreadMain. *How:* start/stop condition variable protocol as transition system; deadlock witnesses are reachable states closed under steps
*Note:* the predicate is changed and notified without the mutex: Start and SyncStop can hang, SyncStop can return early (violations proved).
*Theorems:* `Loop.StartStop.c46_start_returns_live`, `Loop.StartStop.c46_stop_returns_stopped`, `Loop.StartStop.c46_start_wakes_partial`, `Loop.StartStop.c46_violation_start_hangs`, `Loop.StartStop.c46_violation_stop_hangs`, `Loop.StartStop.c46_violation_stop_returns_early`

### C47 A redis request is encoded as exactly its commands — partial
*Source:* net_io/codec/redis/redis_request.cc: Get, Set, MSet, MGet, AddCmd; net_io/codec/redis/redis_request.h: AsHeartbeat, IsHeartbeat; thirdparty/resp/resp/encoder.hpp. *How:* request builder and RESP encoder on bytes; decoding back
*Note:* encoding exact for every command sequence whose sizes fit; IsHeartbeat is false for every heartbeat request (violation proved).
*Theorems:* `Redis.Encode.c47_request_encoding`, `Redis.Encode.c47_request_roundtrip`, `Redis.Encode.c47_injective`, `Redis.Encode.c47_violation_heartbeat`

### C48 Reading or printing a redis response does not change it — partial
*Source:* thirdparty/resp/resp/unique_array.hpp; net_io/codec/redis/redis_response.cc: DebugDump. *How:* chunked storage array model; moved-from values
*Note:* storage exact when reserved (as the decoder does); DebugDump empties every array it prints (violation proved).
*Theorems:* `Redis.Storage.c48_array_storage`, `Redis.Storage.c48_reserve_chunks`, `Redis.Storage.c48_violation_no_reserve`, `Redis.Storage.c48_dump_partial`, `Redis.Storage.c48_violation_dump`

### C49 IP addresses: prefixes, order, classification, text and socket forms agree with their meaning — partial
*Source:* net_io/common/ip_address.cc: IPAddressPrefixCheck, IPAddressMatchesPrefix, CommonPrefixLength, MaskPrefixLength, ConvertIPv4MappedIPv6ToIPv4, ParseCIDRBlock, ParseURLHostnameToAddress, ToString; net_io/common/ip_endpoint.cc: ToSockAddr, FromSockAddr, operator<. *How:* addresses as byte lists; bitwise specification of prefixes and ranges
*Note:* violations proved: mapping back to IPv4 never works (range end of another array), so IsPubliclyRoutable of mapped addresses neither; every CIDR literal and every bracketed IPv6 literal is rejected; ToString is NUL padded.
*Theorems:* `Ip.c49_matches_prefix`, `Ip.c49_common_prefix`, `Ip.c49_mask_length`, `Ip.c49_order`, `Ip.c49_endpoint_order`, `Ip.c49_routable_v4`, `Ip.c49_routable_v6`, `Ip.c49_zero`, `Ip.w_c49_routable_v6`, `Ip.c49_loopback`, `Ip.c49_link_local`, `Ip.c49_to_mapped`, `Ip.c49_hostname`, `Ip.c49_to_string_partial`, `Ip.c49_sockaddr`, `Ip.c49_violation_from_mapped`, `Ip.c49_violation_routable_mapped`, `Ip.c49_violation_cidr`, `Ip.c49_cidr_range`, `Ip.w_c49_cidr`, `Ip.c49_violation_bracketed`, `Ip.c49_violation_to_string`, `Ip.c49_violation_to_string_invalid`

### C50 Coroutine mutex: mutual exclusion, hand-over in order, no forgotten waiter — partial
*Source:* base/coroutine/co_mutex.cc: lock, unlock, try_lock. *How:* transition system of lock/try_lock/unlock/resume; inductive invariant
*Note:* full for executions in which a waiting coroutine is woken by the mutex only; a closure made earlier in the same running period breaks exclusion (violation proved).
*Theorems:* `Coro.Mutex.c50_exclusion`, `Coro.Mutex.c50_no_lost`, `Coro.Mutex.c50_fifo`, `Coro.Mutex.c50_handover`, `Coro.Mutex.c50_violation_stray`, `Coro.Mutex.c50_witness`

### C51 Waiting for a descriptor in a coroutine returns the first outcome — partial
*Source:* base/coroutine/io_event.cc: Wait, HandleEvent. *How:* transition system of Wait/HandleEvent/timer; inductive invariant with ghost first outcome
*Note:* first outcome always wins; violations proved: an event while suspended elsewhere calls an empty closure, a stray wake-up fails a check.
*Theorems:* `Coro.IoEv.c51_first_wins`, `Coro.IoEv.c51_ends`, `Coro.IoEv.c51_violation_crash`, `Coro.IoEv.c51_violation_stray`, `Coro.IoEv.c51_witness`

### C52 A dial is reported exactly once, as what it was — partial
*Source:* net_io/clients/client_connector.cc: Dial, HandleEvent, HandleWrite, HandleError, RemoveFromInprogress, Stop; base/message_loop/io_mux_epoll.cc: ToLtEvent, ToEpollEvent. *How:* connector as event machine with epoll flag decoding; ghost report log
*Note:* one report per dial in full; violations proved: late successes are reported as failures, refused dials leak the socket, the count in progress is stale.
*Theorems:* `Connector.c52_once`, `Connector.c52_sockets`, `Connector.c52_report_partial`, `Connector.c52_violation_established`, `Connector.c52_violation_inverted`, `Connector.c52_violation_leak`, `Connector.c52_violation_count`, `Connector.c52_witness`, `Connector.c52_count_partial`, `Connector.c52_told`

### C53 A repeating timer's Stop is final and returns — partial
*Source:* base/message_loop/repeating_timer.cc: Start, Stop; base/message_loop/event_pump.cc: ProcessTimerEvent. *How:* transition system of user thread, loop and callback with mutex and condition variable; inductive invariant
*Note:* finality of Stop in full; violations proved: lost wake-up, notification of a destroyed condition variable, self-stop leaves a dangling event, Stop when not running crashes or deadlocks.
*Theorems:* `Repeating.c53_quiet`, `Repeating.c53_safe`, `Repeating.c53_no_uaf_partial`, `Repeating.c53_violation_hang`, `Repeating.c53_hang_forever`, `Repeating.c53_violation_destroy`, `Repeating.c53_violation_self_stop`, `Repeating.c53_violation_unstarted`, `Repeating.c53_witness`

### C54 A query of the inverted index returns exactly the matching documents — partial
*Source:* components/inverted_indexer/indexer.cc: AddDocument, BuildIndexer, UnifyQuery; components/inverted_indexer/bitmap_merger.cc; components/inverted_indexer/posting_field/posting_list_manager.cc; components/inverted_indexer/posting_field/bitmap_posting_list.cc. *How:* bitmaps as 64-bit words, posting list table keyed by digest, merge; bit-level refinement to sets of documents
*Note:* every answer is exact for every input without digest collision, and with 1 to 63 documents and a wildcard document per field every query is answered; violations proved: a number of documents that is a multiple of 64 or a field on which every document includes values kills the process at any query; sets with the same 64-bit digest are confused, and exist for every digest.
*Theorems:* `Inv.c54_exact`, `Inv.c54_answers`, `Inv.c54_small`, `Inv.c54_violation_multiple_of_64`, `Inv.c54_violation_no_wildcard`, `Inv.c54_collision_confuses`, `Inv.c54_violation_collision`, `Inv.w_query`

### C55 A range field finds exactly the numbers of its ranges — partial
*Source:* components/inverted_indexer/posting_field/range_field.cc; base/utils/string/str_utils.h: ParseTo. *How:* istream extraction of int32, range splitting; case analysis over all decimal texts
*Note:* violated: plain numbers never find anything; a-b indexes 0 to b; single numbers index nothing; what the code does instead is proved for every decimal text.
*Theorems:* `Inv.c55_violation_never_found`, `Inv.c55_found_with_trailing`, `Inv.c55_violation_start_ignored`, `Inv.c55_violation_single_ignored`, `Inv.c55_violation_overlap`, `Inv.c55_not_a_number`, `Inv.isWs_iff`

### C56 Address prefix matching and prefix lengths count bits exactly — proved
*Source:* net_io/common/ip_address.cc: IPAddressPrefixCheck, IPAddressMatchesPrefix, CommonPrefixLength, MaskPrefixLength. *How:* the model of C49: addresses as byte lists; bitwise specification of prefixes and ranges
*Note:* the unconditional part of C49.
*Theorems:* `Ip.c49_matches_prefix`, `Ip.c49_common_prefix`, `Ip.c49_mask_length`

### C57 Addresses and end points are totally ordered — proved
*Source:* net_io/common/ip_address.cc: operator<; net_io/common/ip_endpoint.cc: operator<. *How:* the model of C49: addresses as byte lists; bitwise specification of prefixes and ranges
*Note:* the unconditional part of C49.
*Theorems:* `Ip.c49_order`, `Ip.c49_endpoint_order`

### C58 End points survive the socket-address form — proved
*Source:* net_io/common/ip_endpoint.cc: ToSockAddr, FromSockAddr. *How:* the model of C49: addresses as byte lists; bitwise specification of prefixes and ranges
*Note:* the unconditional part of C49.
*Theorems:* `Ip.c49_sockaddr`

### C59 The timing wheel delivers exactly the due timers — proved
*Source:* thirdparty/timeout/timeout.c: timeouts_add, timeouts_del, timeouts_update, timeouts_get. *How:* the model of C26: bit-exact model of the timing wheel (wheel/slot bitmaps); refinement to a set of deadlines for every clock history
*Note:* the wheel itself; the loop's use of it is C26.
*Theorems:* `Wheel.c26_refines`, `Wheel.c26_due`, `Wheel.c26_cancelled`, `Wheel.c26_not_early`, `Wheel.c26_sleep`

### C60 The TCP channel's byte streams are exact in both directions — proved
*Source:* net_io/tcp_channel.cc: Send, HandleWrite, HandleRead. *How:* the model of C24: send/read loops with an arbitrary script of kernel answers; refinement to streams; TLS variant with WANT_READ/WRITE
*Note:* the unconditional part of C24.
*Theorems:* `Net.c24_safe`, `Net.c24_stream`, `Net.c24_prefix`, `Net.c24_input`, `Net.c24_drains`, `Net.c24_witness`

### C61 The server's connection count is exact — proved
*Source:* net_io/server/generic_server.h; net_io/io_service.cc. *How:* the model of C36: transition system of accept/close/stop over n io services; inductive invariant and progress measure
*Note:* the unconditional part of C36.
*Theorems:* `Server.c36_count`, `Server.c36_limit_single`, `Server.c36_witness`

### C62 The stop callback means the server is empty, and comes — proved
*Source:* net_io/server/generic_server.h: StopServer, OnConnectionClose, IOServiceStoped; net_io/io_service.cc. *How:* the model of C36: transition system of accept/close/stop over n io services; inductive invariant and progress measure
*Note:* that it may come twice is C36.
*Theorems:* `Server.c36_callback_not_early`, `Server.c36_callback_eventually`, `Server.c36_shutdown_progress`

### C63 While a loop runs, posted tasks run exactly once, in order, without lost wake-up — proved
*Source:* base/message_loop/message_loop.cc: PostTask, RunScheduledTask, RunNestedTask. *How:* the model of C23: labelled transition system, one shared access per step, any number of threads; inductive invariant
*Note:* shutdown is C23.
*Theorems:* `Loop.Msg.c23_exactly_once_in_order`, `Loop.Msg.c23_no_lost_wakeup`, `Loop.Msg.c23_poll_reports`, `Loop.Msg.c23_round_runs_all`, `Loop.Msg.c23_nested_run`, `Loop.Msg.c23_loop_never_stuck`

### C64 A suspension of a coroutine ends at most once and no wake-up is lost — proved
*Source:* base/coroutine/co_runner.cc; base/coroutine/co_runner.h. *How:* the model of C28: transition system of the coroutine runner with ready/free/gc lists and resume ids; inductive invariant
*Note:* closures that outlive their task are C28.
*Theorems:* `Coro.c28_once`, `Coro.c28_stale`, `Coro.c28_not_lost`, `Coro.c28_progress`, `Coro.c28_lists`, `Coro.c28_witness`

### C65 Ring-hash routing is total and moves few keys — proved
*Source:* net_io/clients/router/ringhash_router.cc; net_io/common/load_balance/consistent_hash_map.h. *How:* the model of C19: sorted ring of virtual nodes; lookup characterised as clockwise nearest
*Note:* order independence is C19.
*Theorems:* `Router.c19_total`, `Router.c19_nearest`, `Router.c19_add_moves_only_to_new`, `Router.c19_erase_moves_only_served`

### C66 Client channel selection returns ready channels, and back-off is bounded — proved
*Source:* net_io/clients/client.cc; net_io/clients/client_connector.cc. *How:* the model of C38: client bookkeeping as transition system; probing of channels with an adversarial counter
*Note:* the unconditional part of C38; spreading until the 32-bit counter wraps.
*Theorems:* `Pool.c38_select_ready`, `Pool.c38_select_spread`, `Pool.c38_backoff_bound`, `Pool.c38_backoff_linear`, `Pool.c38_single`

### C67 Every dial has exactly one outcome — proved
*Source:* net_io/clients/client_connector.cc. *How:* the model of C52: connector as event machine with epoll flag decoding; ghost report log
*Note:* what is reported is C52.
*Theorems:* `Connector.c52_once`, `Connector.c52_sockets`, `Connector.c52_witness`

### C68 Stop of a repeating timer is final — proved
*Source:* base/message_loop/repeating_timer.cc. *How:* the model of C53: transition system of user thread, loop and callback with mutex and condition variable; inductive invariant
*Note:* termination of Stop is C53.
*Theorems:* `Repeating.c53_quiet`, `Repeating.c53_safe`, `Repeating.c53_witness`

### C69 The redis reply decoder is independent of fragmentation and inverts the encoder — proved
*Source:* thirdparty/resp/resp/decoder.hpp. *How:* the model of C35: byte-level RESP decoder and service counter; chunk independence and reply pairing by induction
*Note:* replies well-formed in the sense of the protocol's printable subset (C35 has the exceptions).
*Theorems:* `Redis.decode_append`, `Redis.decode_enc`

### C70 Redis requests carry exactly their commands — proved
*Source:* net_io/codec/redis/redis_request.cc; thirdparty/resp/resp/encoder.hpp. *How:* the model of C47: request builder and RESP encoder on bytes; decoding back
*Note:* IsHeartbeat is C47.
*Theorems:* `Redis.Encode.c47_request_encoding`, `Redis.Encode.c47_request_roundtrip`, `Redis.Encode.c47_injective`

### C71 The websocket frame size is computed exactly — proved
*Source:* net_io/codec/websocket/websocket_parser.c: websocket_calc_frame_size, websocket_build_frame. *How:* the model of C05: arithmetic on the three length classes; the int conversion of the send path modelled on BitVec
*Note:* the C++ send path is C05.
*Theorems:* `WebSocket.c05_frame_size`

### C72 One-character Split and Join are inverse — proved
*Source:* base/utils/string/str_utils.cc: Split; base/utils/string/str_utils.h: Join. *How:* the model of C32: find/substr model of Split and Join; induction over pieces
*Note:* longer separators and ignore_empty are C32.
*Theorems:* `Text.c32_split_join`, `Text.c32_join_split`

### C73 Trim, StartsWith, EndsWith, Replace and ReplaceLast do what they say — proved
*Source:* base/utils/string/str_utils.cc. *How:* the model of C41: string functions as list functions against existential specifications
*Note:* the other helpers are C41.
*Theorems:* `Text.c41_trim`, `Text.isTrim_unique`, `Text.c41_startsWith`, `Text.c41_endsWith`, `Text.c41_replace`, `Text.c41_replaceLast`

### C74 The wait group never leaves its waiter asleep — proved
*Source:* base/coroutine/wait_group.cc. *How:* the model of C27: transition system of Add/Done/timer/waiter with the posted wake-up; inductive invariant
*Note:* when success is reported is C27.
*Theorems:* `Coro.WG.c27_not_left`, `Coro.WG.c27_once`, `Coro.WG.c27_timeout`, `Coro.WG.c27_witness`

### C75 An intrusive list iterates as the plain list, and its operations are local — proved
*Source:* base/queue/linked_list.h. *How:* the model of C29: pointer-level heap model of the links; representation predicate and frame lemmas
*Note:* DoubleLinkedList and sizes are C29.
*Theorems:* `Links.c29_sequence`, `Links.c29_frame`

### C76 The count-min estimate is the row minimum — proved
*Source:* components/count_min_sketch/count_min_sketch.cc. *How:* the model of C17: table of mod-256 cells; induction over the history
*Note:* under-estimation by overflow is C17.
*Theorems:* `CountMin.c17_estimate_exact`, `CountMin.c17_single_key_exact`

### C77 Raw messages are delivered byte-exact whatever arrives — proved
*Source:* net_io/codec/raw/raw_message.cc: Decode. *How:* the model of C09: decoder with wrapping 64-bit arithmetic; case analysis of the length test
*Note:* the crashing inputs are C09.
*Theorems:* `Raw.c09_delivered_exact`, `Raw.c09_crash_iff`

### C78 A response's bytes reach the socket in order until the connection is dropped — proved
*Source:* net_io/codec/http/http_codec_service.cc; net_io/tcp_channel.cc. *How:* the model of C45: combined codec and TCP channel machine; accepted bytes = socket + buffer
*Note:* delivery after close is C45.
*Theorems:* `Net.c45_stream`

### C79 The spin lock excludes, loses no update and is never left behind — proved
*Source:* base/memory/spin_lock.cc: lock, try_lock, unlock; base/memory/spin_lock.h: SpinLockGuard. *How:* transition system of single atomic accesses per thread; inductive invariant; bounded progress from every reachable state
*Note:* sequentially consistent interleavings; the code's acquire/release orders are not modelled.
*Theorems:* `Sync.Spin.c79_exclusion`, `Sync.Spin.c79_no_lost_update`, `Sync.Spin.c79_trylock`, `Sync.Spin.c79_progress`, `Sync.Spin.c79_live`, `Sync.Spin.w_c79`

### C80 A lazy instance is constructed once, and nobody sees it half made — proved
*Source:* base/memory/lazy_instance.h: ptr, hasInstance; base/memory/lazy_instance.cc: WaitForInstance, CompleteLazyInstance, NeedsLazyInstance. *How:* transition system of the state word and constructing thread; inductive invariant; progress by explicit schedules
*Note:* sequentially consistent interleavings; limits proved: a constructor that uses its own instance hangs, hasInstance is true before the constructor runs.
*Theorems:* `Sync.Lazy.c80_once`, `Sync.Lazy.c80_complete`, `Sync.Lazy.c80_progress`, `Sync.Lazy.c80_hasInstance_after`, `Sync.Lazy.c80_reentry_hangs`, `Sync.Lazy.c80_hasInstance_early`, `Sync.Lazy.w_c80`

### C81 The tagged free list is linearizable — proved
*Source:* base/lockfree/freelist_dcas.hpp: add, try_get. *How:* transition system with tagged head; forward simulation to an atomic stack (linearization points), ghost change counter
*Note:* sequentially consistent interleavings, fewer than 2^64 changes of the head.
*Theorems:* `Sync.Tagged.c81_linearizable`, `Sync.Tagged.c81_no_double`, `Sync.Tagged.c81_no_loss`, `Sync.Tagged.c81_fail_means_progress`, `Sync.Tagged.w_c81`

### C82 The reference counted free list hands out every node once and loses none — proved
*Source:* base/lockfree/freelist.hpp: add, try_get, add_knowing_refcount_is_zero. *How:* transition system with reference counts as numbers; invariant that counts holders per node
*Note:* sequentially consistent interleavings; limit proved: add may return before the node can be found.
*Theorems:* `Sync.RefList.c82_no_double`, `Sync.RefList.c82_no_loss`, `Sync.RefList.c82_accounted`, `Sync.RefList.c82_no_abort`, `Sync.RefList.c82_added_not_found`, `Sync.RefList.w_c82`

### C83 Reference counted objects live exactly as long as a reference to them — proved
*Source:* base/memory/refcountedobject.h; base/memory/scoped_ref_ptr.h. *How:* pointer slots and objects; invariant that the count is the number of references
*Note:* sequentially consistent interleavings.
*Theorems:* `Sync.RefPtr.c83_alive`, `Sync.RefPtr.c83_alive_assign`, `Sync.RefPtr.c83_once`, `Sync.RefPtr.c83_deleted_iff`, `Sync.RefPtr.c83_count`, `Sync.RefPtr.w_c83`

### C84 A scope guard runs its function exactly once unless dismissed — partial
*Source:* base/memory/defer.h; base/memory/scoped_guard.h. *How:* histories of operations on guard objects; induction over the history
*Note:* full for guards not moved or copied; violations proved: destroying a moved-from Defer ends the process, moving revives a cancelled guard, a copied ScopedGuard runs twice.
*Theorems:* `Guards.c84_exactly_once`, `Guards.c84_safe`, `Guards.c84_move_terminates`, `Guards.c84_move_uncancels`, `Guards.c84_copy_twice`, `Guards.w_c84`

### C85 Metric values are summarised right — partial
*Source:* components/log_metrics/metrics_container.cc: UpdateMinMax, Merge, IncrBucketByValue, CalculatePecentile. *How:* values as integers, summaries as folds; bucket counts against interval predicates
*Note:* count, sum, latest, buckets and single percentile in full for ranges that begin at zero; violations proved: minimum and maximum include zero, other ranges are accessed out of bounds, histograms are not merged, the list of percentiles is wrong.
*Theorems:* `Metrics.c85_gauge`, `Metrics.c85_minmax`, `Metrics.c85_gauge_merge`, `Metrics.c85_hist`, `Metrics.c85_percentile`, `Metrics.u32_spec`, `Metrics.c85_default`, `Metrics.c85_merge_sizes`, `Metrics.c85_min_is_zero`, `Metrics.c85_range_out_of_bounds`, `Metrics.c85_merge_loses`, `Metrics.c85_percentiles_wrong`, `Metrics.c85_percentiles_zero`, `Metrics.ok_default`, `Metrics.w_c85`

### C86 The accumulator collector delivers everything collected exactly once — partial
*Source:* components/utils/data_accumulator.h: AccumulatorCollector. *How:* transition system over any commutative monoid; conservation and round invariants
*Note:* full while the collector runs; violation proved: Stop loses what was collected since the last round.
*Theorems:* `Metrics.Acc.c86_conservation`, `Metrics.Acc.c86_delivered`, `Metrics.Acc.c86_round`, `Metrics.Acc.c86_stop_loses`, `Metrics.Acc.w_c86`

### C87 The metrics stash reports everything stashed exactly once — partial
*Source:* components/log_metrics/metrics_stash.cc. *How:* transition system of both threads, queues as bags, clock; conservation invariant per item, explicit schedule for delivery
*Note:* conservation for every schedule and delivery without turbo mode; violations proved: StopSync reports nothing of what is inside, turbo mode loses histograms, the interval set is not used.
*Theorems:* `Metrics.Stash.c87_conservation`, `Metrics.Stash.c87_at_most_once`, `Metrics.Stash.c87_lost`, `Metrics.Stash.c87_interval`, `Metrics.Stash.c87_live`, `Metrics.Stash.c87_delivered`, `Metrics.Stash.c87_round_robin`, `Metrics.Stash.c87_interval_ignored`, `Metrics.Stash.c87_turbo_loses`, `Metrics.Stash.c87_stop_loses`, `Metrics.Stash.w_c87`

### C88 Gauges are exact, and so are histograms whose range begins at zero — proved
*Source:* components/log_metrics/metrics_container.cc. *How:* the model of C85: values as integers, summaries as folds; bucket counts against interval predicates
*Note:* the unconditional part of C85.
*Theorems:* `Metrics.c85_gauge`, `Metrics.c85_gauge_merge`, `Metrics.c85_hist`, `Metrics.c85_percentile`, `Metrics.u32_spec`, `Metrics.c85_default`, `Metrics.ok_default`, `Metrics.w_c85`

### C89 While it runs, the accumulator collector neither loses nor duplicates — proved
*Source:* components/utils/data_accumulator.h: AccumulatorCollector. *How:* the model of C86: transition system over any commutative monoid; conservation and round invariants
*Note:* the unconditional part of C86.
*Theorems:* `Metrics.Acc.c86_conservation`, `Metrics.Acc.c86_delivered`, `Metrics.Acc.c86_round`, `Metrics.Acc.w_c86`

### C90 The metrics stash neither duplicates items nor loses gauges — proved
*Source:* components/log_metrics/metrics_stash.cc. *How:* the model of C87: transition system of both threads, queues as bags, clock; conservation invariant per item, explicit schedule for delivery
*Note:* the unconditional part of C87; delivery without turbo mode, queues of at most 10000 items.
*Theorems:* `Metrics.Stash.c87_conservation`, `Metrics.Stash.c87_at_most_once`, `Metrics.Stash.c87_lost`, `Metrics.Stash.c87_interval`, `Metrics.Stash.c87_live`, `Metrics.Stash.c87_delivered`, `Metrics.Stash.w_c87`

### C91 The file source loads every row of its files — partial
*Source:* components/source_loader/loader/file_loader.cc; components/source_loader/parser/column_parser.cc; components/source_loader/source_impl/name_struct_source.h. *How:* files as text with a read error flag, ifstream line loop, splitting, table as association list; induction over lines and files
*Note:* lines and table in full for one-character delimiters and readable or missing files; violations proved: the header line is loaded, defaults are used for JSON only, missing files count as success, longer delimiters cut wrongly, an unreadable path hangs the loader.
*Theorems:* `Source.c91_lines`, `Source.c91_table`, `Source.c91_int`, `Source.c91_int_forms`, `Source.c91_values`, `Source.c91_header_loaded`, `Source.c91_default_unused`, `Source.c91_missing_succeeds`, `Source.c91_long_delimiter`, `Source.c91_broken_hangs`, `Source.w_c91`

### C92 Random numbers are in range and unbiased — proved
*Source:* base/utils/rand_util.cc; base/utils/rand_util_posix.cc. *How:* rejection loop over arbitrary word lists; cardinality of preimages; induction over read results
*Note:* the source's words are arbitrary; the double is modelled by its numerator over 2^53 (ldexp is exact).
*Theorems:* `Rand.c92_in_range`, `Rand.c92_uniform`, `Rand.c92_accepts_half`, `Rand.c92_ends`, `Rand.c92_randInt`, `Rand.c92_unit`, `Rand.c92_unit_uniform`, `Rand.c92_bytes`, `Rand.w_c92`

### C93 With a one-character delimiter, the file source's table is the last row of each name — proved
*Source:* components/source_loader/loader/file_loader.cc; components/source_loader/parser/column_parser.cc; components/source_loader/source_impl/name_struct_source.h. *How:* the model of C91: files as text with a read error flag, ifstream line loop, splitting, table as association list; induction over lines and files
*Note:* the unconditional part of C91.
*Theorems:* `Source.c91_lines`, `Source.c91_table`, `Source.c91_int`, `Source.c91_int_forms`, `Source.c91_values`, `Source.w_c91`

### C94 Time deltas behave as saturating exact numbers — partial
*Source:* base/time/time_delta.h; base/time/time_delta.cc; base/time/time_base.h; base/numerics/clamped_math_impl.h. *How:* deltas as integers in the 64-bit range, checked and clamped operations; case analysis with linear arithmetic against division-free specifications
*Note:* floating-point conversions are not modelled; violations proved: infinity plus or times a number is finite, differences of times wrap around, rounding near the limits overflows, negative deltas give invalid timespecs.
*Theorems:* `Time.c94_add_sub`, `Time.c94_infinite`, `Time.c94_mul_div`, `Time.c94_div_zero`, `Time.c94_neg_magnitude`, `Time.c94_from`, `Time.c94_in`, `Time.c94_in_infinite`, `Time.c94_floor_ceil`, `Time.c94_round`, `Time.c94_int_div`, `Time.c94_time`, `Time.c94_timespec`, `Time.c94_nanoseconds_finite`, `Time.c94_negative_timespec`, `Time.c94_time_wraps`, `Time.c94_round_overflows`, `Time.c94_infinity_lost`, `Time.c94_opposite_infinite`, `Time.w_c94`

### C95 The calendar is the Gregorian one — partial
*Source:* base/time/nspr/prtime.cc: PR_NormalizeTime, PR_ImplodeTime. *How:* the code's carries, month loops and day counts against the calendar defined by year and month lengths; induction over years and loop rounds
*Note:* full from year 1 on; violation proved: year 0 is taken for a common year.
*Theorems:* `Time.Cal.c95_normalize`, `Time.Cal.c95_implode`, `Time.Cal.c95_unique`, `Time.Cal.year_iff`, `Time.Cal.valid_instant`, `Time.Cal.c95_year_zero`, `Time.Cal.w_c95`

### C96 Dates are parsed to their instants — partial
*Source:* base/time/nspr/prtime.cc: PR_ParseTimeString; base/time/time.cc: FromStringInternal. *How:* the whole tokenizer as a loop over character lists; one lemma per token, chained over each format; the calendar of C95
*Note:* formats in full, default-GMT mode; violations proved: the zone -0001 is GMT, ISO 8601 years below 100 are misread, impossible dates are accepted.
*Theorems:* `Time.Parse.c96_rfc1123`, `Time.Parse.c96_zone`, `Time.Parse.c96_named_zone`, `Time.Parse.c96_rfc850`, `Time.Parse.c96_asctime`, `Time.Parse.c96_iso8601`, `Time.Parse.c96_fromUTCString`, `Time.Parse.c96_minus_one_minute`, `Time.Parse.c96_small_years`, `Time.Parse.c96_impossible`, `Time.Parse.w_c96`

### C97 Conversions of Time are exact — partial
*Source:* base/time/time.cc; base/time/time_utils.cc: ms_to_timeval. *How:* the code over integers with a library contract for gmtime_r and timegm; uniqueness of calendar fields from C95
*Note:* gmtime_r and timegm by contract, local time and doubles not modelled; violations proved: a timeval of whole seconds ends the process, early times come back wrong or end the process, timevals before 1970 have negative microseconds.
*Theorems:* `Time.Conv.c97_explode`, `Time.Conv.c97_from_exploded`, `Time.Conv.c97_round_trip`, `Time.Conv.c97_midnight`, `Time.Conv.c97_time_t`, `Time.Conv.c97_timeval`, `Time.Conv.c97_ms_timeval`, `Time.Conv.c97_early_midnight`, `Time.Conv.c97_time_t_wrong`, `Time.Conv.c97_timeval_wrong`, `Time.Conv.w_c97`

### C98 Finite time deltas are exact or saturate — proved
*Source:* base/time/time_delta.h; base/time/time_delta.cc; base/numerics/clamped_math_impl.h. *How:* the model of C94: deltas as integers in the 64-bit range, checked and clamped operations; case analysis with linear arithmetic against division-free specifications
*Note:* the unconditional part of C94.
*Theorems:* `Time.c94_add_sub`, `Time.c94_infinite`, `Time.c94_mul_div`, `Time.c94_div_zero`, `Time.c94_neg_magnitude`, `Time.c94_from`, `Time.c94_in`, `Time.c94_in_infinite`, `Time.c94_floor_ceil`, `Time.c94_round`, `Time.c94_int_div`, `Time.c94_time`, `Time.c94_timespec`, `Time.w_c94`

### C99 From year 1 on, the calendar is the Gregorian one — proved
*Source:* base/time/nspr/prtime.cc: PR_NormalizeTime, PR_ImplodeTime. *How:* the model of C95: the code's carries, month loops and day counts against the calendar defined by year and month lengths; induction over years and loop rounds
*Note:* the unconditional part of C95.
*Theorems:* `Time.Cal.c95_normalize`, `Time.Cal.c95_implode`, `Time.Cal.c95_unique`, `Time.Cal.year_iff`, `Time.Cal.valid_instant`, `Time.Cal.w_c95`

## 4. Findings: violations proved of the code

- C05 `WebSocket.c05_send_path_violated`: **C05, violation.** A 4 GiB + 5 byte payload is announced and sent as a 5-byte one (silent truncation), and a 2 GiB payload yields a negative size: the space reserved does not cover it.
- C07 `WebSocket.c07_interleaved_control_violated`: **C07, violation.** Whenever a ping arrives between two fragments of a text message, the application is handed a bogus PING message containing the first fragment, and the second fragment as a separate TEXT message; the message that was sent is never delivered. This holds for every payload.
- C08 `Raw.c08_huge_payload_violated`: **C08 is violated for payloads of 2^32 bytes**: the payload size is truncated to `int32_t` by `Send`, so a message the API accepts is put on the stream without its payload, and a receiver that gets everything that was sent decodes nothing. (`c08_roundtrip_partial` therefore excludes payloads of 2^31 bytes and more.)
- C09 `Raw.c09_hostile_length_violated`: **C09 is violated**: 24 bytes from any peer (all bytes arbitrary except the length field 2^64-24) make the decoder leave the receive buffer / terminate the process.
- C10 `Line.c10_pipelined_lines_violated`: **C10 is violated by pipelining**: any two (or more) lines arriving in one read event, with no later event on the connection, yield only the first line; all the others stay in the buffer.
- C102 `Gzip.c102_gunzip_padded`: **C102, violation.** `decompress_gzip` does not cut its output: data shorter than 16 KiB come back followed by what the output string held there before, or zero bytes, 16 KiB in all.
- C102 `Gzip.c102_large_input`: **C102, violation.** Of an input of 4 GiB or more, only as many bytes as the remainder of its size by 4 GiB are compressed, and success is reported.
- C104 `H2.c104_twice`: **C104, violation.** A request with a body is delivered twice: when its header fields are there, without body, and once more at the end.
- C104 `H2.c104_trailers`: **C104, violation.** The body of a request with trailers is never delivered: the handler gets the request once, without body.
- C104 `H2.c104_cookie_lost`: **C104, violation.** Of several fields of a name all but the first are lost, such as the parts of a cookie, which HTTP/2 clients may send as fields of their own.
- C106 `H2.c106_large`: **C106, violation.** A body of more than 16 KiB, which is more than nghttp2 ever offers, is not sent: the header fields are, and the connection is closed with all its streams.
- C106 `H2.c106_prefix_lost`: **C106, violation.** Fields whose names begin `connection` or `content-length` are lost, such as `content`.
- C106 `H2.c106_push_silent`: **C106, violation.** From another loop, or when the connection is gone, the callback of a push is never called.
- C11 `Base64.c11_unpadded_violated`: **C11, memory safety violated**: unpadded base64 (as used by JWT and base64url) of length 2 or 3 modulo 4 makes `base64_decode` store past the end of the string it allocated.
- C110 `Hash.Md5.c110_large_violated`: **C110 (an append of 2^28 bytes or more is undefined)**: violation. `md5_append` takes an `int` length, but a length of 256 MiB already overflows the `int` shift that turns it into bits.
- C115 `WebSocket.Server.c115_missing_key_violated`: **C115 (a handshake without key is accepted)**: violation. RFC 6455 requires the key; a request without it is answered with a 101 all the same.
- C115 `WebSocket.Server.c115_case_violated`: **C115 (the value of Upgrade is compared as written)**: violation. RFC 6455 has the value compared without regard to case; "WebSocket" is refused with a 400.
- C115 `WebSocket.Server.c115_llhttp_violated`: **C115 (no client is ever accepted)**: violation. With llhttp as documented and clients that conform to RFC 6455, for every set of registered topics and every history of a connection no service is ever opened and no message is ever delivered.
- C115 `WebSocket.Server.c115_two_answers_violated`: **C115 (101 and then 400)**: violation. With llhttp as documented a conforming handshake on a registered path is answered with a 101, then with a 400; the connection is closed, and the service of the path is told that a connection it has never seen opened is closed.
- C116 `WebSocket.Server.c116_close_and_eof_violated`: **C116 (closed twice)**: violation. A peer that sends a CLOSE frame and closes the connection, both seen in one socket event, makes the service be told twice that the connection is closed.
- C116 `WebSocket.Server.c116_close_and_stop_violated`: **C116 (closed twice by stopping)**: violation. A connection that has closed but is still in the table of the service when it is stopped is reported closed a second time.
- C116 `WebSocket.Server.c116_after_close_violated`: **C116 (messages after the closing)**: violation. What follows a CLOSE frame in the same read is still delivered, after the service was told that the connection is closed; the payload has that of the CLOSE frame in front.
- C116 `WebSocket.Server.c116_never_opened_violated`: **C116 (closed but never opened)**: violation. Two requests in one read, the first a handshake on a registered path and the second not: the peer gets a 101 and a 400, and the service is told that a connection it has never seen is closed.
- C117 `WebSocket.WsClient.c117_accept_unchecked_violated`: **C117 (the accept value is not checked)**: violation. RFC 6455 has the client fail the connection unless Sec-WebSocket-Accept is the value derived from the key it sent; any non-empty value is taken.
- C117 `WebSocket.WsClient.c117_llhttp_violated`: **C117 (no connection ever opens)**: violation. With llhttp as documented, no history of a client makes the open callback, whatever the server answers, and no frame is ever written.
- C117 `WebSocket.WsClient.c118_no_close_violated`: **C118 (no close callback)**: violation. A user who releases resources in the close callback never gets it for a connection whose write failed, whatever happens later.
- C120 `Http.UrlParser.c120_long_violated`: **C120 (long targets)**: violation. Lengths are kept in 16 bits: of a path of 64 KiB or more only its length modulo 65536 is reported, so a path of 65537 bytes is reported as its first byte.
- C121 `Http.RequestUrl.c121_replace_violated`: **C121 (replacing a URL)**: violation. After a URL with a path, setting a URL that does not parse, or one without a path such as `http://h`, leaves `Path()` pointing into the characters of the old URL.
- C121 `Http.RequestUrl.c121_pieces_violated`: **C121 (pieces of a bad URL)**: violation. If a first piece parses and has a path but the URL with the second piece does not, `Path()` points into the characters the string had before.
- C124 `Net.Acceptor.c124_deaf_violated`: **C124 (errors are final)**: violation. If an error cannot be repaired at once, the acceptor stays deaf for all later events until somebody starts it again; the actor is not told (`OnFatalError` and `AutoRestart` have no caller).
- C124 `Net.Acceptor.c124_stop_violated`: **C124 (stopping)**: violation. `StopListen` only removes the event: the kernel keeps completing connections of clients, which nobody serves, until the acceptor is destroyed.
- C125 `Net.Acceptor.c125_peer_v6_violated`: **C125 (IPv6 peers)**: violation. A `struct sockaddr` is too small for IPv6: whatever the peer's address, the actor gets an empty address and port 0.
- C125 `Net.Acceptor.c125_endpoint_v6_violated`: **C125 (IPv6 end points)**: violation. For IPv6 eight bytes behind the structure are read: the second half of the address is whatever lies on the stack.
- C126 `Net.Udp.c126_cut_violated`: **C126 (large datagrams)**: violation. A datagram of more than 1920 bytes is cut without a notice: two datagrams that differ only behind the 1920th byte are handled alike (`msg_flags` is not looked at).
- C127 `Net.Udp.c127_abort_violated`: **C127 (stopping ends the process)**: violation. `StopService` closes the socket but leaves its event registered: when the next component gets the same descriptor (the kernel gives the lowest free one) and installs an event for it, `CHECK(fd_mgr_.Add(fd_ev) == Success)` fails and the process ends.
- C127 `Net.Udp.c127_double_close_violated`: **C127 (stopping twice)**: violation. A second `StopService`, or the end of the service after a stop, closes the descriptor again: whoever got that number in the meantime loses it.
- C127 `Net.Udp.c127_dangling_violated`: **C127 (end)**: violation. When a started service ends, its event stays in the registry although the object is gone: looking the descriptor up gives a freed event.
- C128 `Text.StringView.c128_find_end_violated`: **C128 (find an empty text at the end)**: violation. The standard's `find` gives the position; this one gives `npos`, already for an empty text in an empty view.
- C130 `Text.StringView.c130_default_violated`: **C130 (default alignment)**: violation. A stream on which no alignment was set pads on the wrong side: `setw(n) << view` is left-aligned, where every other string is right-aligned.
- C132 `Num.c132_mod_violated`: **C132 (remainder with uint64)**: violation. The remainder of a negative number by a uint64 is computed from the number plus 2^64 and given as valid: `CheckMod(-1, uint64_t{10})` is a valid 5, where the remainder is -1.
- C132 `Num.c132_div_violated`: **C132 (division with uint64)**: violation. A negative number divided by a uint64 is always invalid, in the assignment form too, where the quotient is always a value of the type: `CheckedNumeric<int64_t>(-100) /= uint64_t{10}` is invalid.
- C132 `Num.c132_neg_violated`: **C132 (negating unsigned numbers)**: violation. The negation of a positive unsigned number is valid and wraps.
- C132 `Num.c132_not_violated`: **C132 (complement of signed numbers)**: violation. The complement of a nonnegative signed number is invalid, though its value -x-1 is in the type.
- C133 `Num.c133_add_violated`: **C133 (addition of mixed signs)**: violation. A negative signed number plus an unsigned one whose type is at least as wide saturates to the largest value if the sum is negative, instead of to 0: `ClampAdd(-5, 3u)` is 4294967295; with the operands exchanged it is 0.
- C133 `Num.c133_div_violated`: **C133 (assigned division by uint64)**: violation. `ClampedNumeric<int64_t>(-100) /= uint64_t{10}` is the lowest int64, for every negative signed number and every positive uint64.
- C133 `Num.c133_mod_violated`: **C133 (remainder of mixed signs)**: violation. If the result type is unsigned and the remainder negative, the result is not saturated to 0 but the dividend modulo a power of two: `ClampMod(-5, 3u)` is 4294967291.
- C137 `Base64.UrlSafe.c137_high_bytes_violated`: **C137 violation.** The decoding table has only 14 of its 16 rows, so every byte from 0xE0 to 0xFF is not refused but taken as `A`: with every `A` of an encoding replaced by such a byte, it decodes to the same bytes.
- C137 `Base64.UrlSafe.c137_padding_violated`: **C137 violation.** A padding character is accepted everywhere and counted as a digit of value 64: `A=AA`, `====` and `A=` are accepted although they encode nothing.
- C14 `BoolIndex.c14_code_violation`: **C14 violated by the code**: a document is returned although only one of its two include expressions is met.
- C140 `Loop.Epoll.c140_install_violated`: **C140 violation.** Installing an event whose descriptor cannot be polled (a regular file) reports success, but nothing is watched: epoll's refusal is ignored.
- C140 `Loop.Epoll.c140_edge_violated`: **C140 violation.** Changing the trigger mode of an installed event has no effect on the kernel: after any such history, an installed event in level-triggered mode stays so in the kernel although it says that it is edge-triggered.
- C140 `Loop.Epoll.c140_closed_violated`: **C140 violation.** If the descriptor of an installed event is closed and its number given out again, everything enabled on the event is lost: whatever is then enabled, disabled or set, the kernel watches nothing, although the event counts as installed.
- C140 `Loop.Epoll.c140_error_violated`: **C140 violation.** No handler is ever told of an error: whatever the kernel reports, the error flag of the event handed to the handler is clear.
- C140 `Loop.Epoll.c140_disabled_violated`: **C140 violation.** A handler is called for events that are not enabled: with everything disabled, the peer's shutdown is reported as something to read, and a hang-up as something to read and to write, as often as the loop polls (the interest is level-triggered unless set otherwise).
- C140 `Loop.Epoll.c140_wait_violated`: **C140 violation.** A coroutine waiting for a descriptor is told `Ok` at every error and hang-up, whichever of reading and writing it waits for.
- C143 `Server.Reply.c143_http_twice_violated`: **C143, violation.** `HttpRequestCtx::Response` does not look at `did_reply_` (http_context.cc:75-76): called twice for one request it sends two responses; on a keep-alive connection the client takes the second one for the answer to its next request.
- C143 `Server.Reply.c143_race_violated`: **C143, violation.** The test and the setting of `did_reply_` are not one step (raw_server.cc:37-44): two threads answering the same request at the same time both pass the test, and two responses are sent.
- C143 `Server.Reply.c143_order_violated`: **C143, violation.** Responses to pipelined requests are sent in the order the handlers finish, not in the order of the requests: request 0 answered from a worker thread, then request 1 answered on the loop, leaves as 1, 0 although the answers were given in order.
- C143 `Server.Reply.c143_close_twice_violated`: **C143, violation.** After the reply to a request that does not keep the connection alive has closed it, a pipelined request's reply is still written, and the connection is closed a second time.
- C143 `Server.Reply.c143_file_violated`: **C143, violation.** `HttpRequestCtx::File` aborts the process (http_context.cc:38-42) unless the request was answered before.
- C145 `Server.Registry.c145_rawssl_plain_violated`: **C145, violation.** `rawSSL` is built in with the same codec as `raw`, whose `UseSSLChannel` is the base class's `false` (codec_factory.cc:107-111, codec_service.h:119): a `rawSSL://` server and its clients talk in the clear.
- C145 `Server.Registry.c145_empty_creator_violated`: **C145, violation.** `HasCreator` does not look whether the creator is empty (codec_factory.cc:81-84): a server for a scheme registered with an empty creator starts, and drops every connection.
- C145 `Server.Registry.c145_null_codec_violated`: **C145, violation.** A creator that returns null crashes the process at the first connection (codec_factory.cc:62-64).
- C147 `Server.Assign.c147_shared_counter_violated`: **C147, violation.** The counter is shared by all servers of the same configuration: two servers with two loops each that accept in turn use one loop each — all connections of the first go to its loop 0, all of the second to its loop 1, for ever.
- C147 `Server.Assign.c147_wrap_violated`: **C147, violation.** When the 32-bit counter wraps, a server with three loops gives two connections in a row to the same loop, and the loops drift apart by one connection per wrap.
- C149 `Server.Assign.c149_restart_violated`: **C149, violation.** A server that is started again while it is still stopping — the flag allows it (generic_server.h:75, 110) — forgets the callback of the first stop: the list of services is not empty when the old one reports, and the callback is replaced by the next stop's.
- C149 `Server.Assign.c149_restart_twice_violated`: **C149, violation.** In the same situation a second stop is told to the old service too, and the second callback is called twice.
- C15 `Lru.c15_zero_capacity_ub`: A capacity of zero is not supported: the first `Add` is undefined behaviour.
- C151 `Loop.Delay.c151_reply_loop_violated`: **C151, violation.** The comment says that the reply runs in the caller's loop if there is one (message_loop.h:82-84); the code passes `this`, the target (message_loop.h:86-90): called on loop 1, the reply of a task for loop 2 runs on loop 2.
- C151 `Loop.Delay.c151_reply_gone_violated`: **C151, violation.** When the loop that is to run the reply has ended, running the task aborts the process.
- C151 `Loop.Delay.c151_stopped_violated`: **C151, violation.** A delayed task whose loop ends before its time is dropped without a notice, though `PostDelayTask` returned true: from then on it never runs.
- C153 `Coro.Server.c153_handler_waits_violated`: **C153, violation.** A handler that waits in the connection's coroutine (`co_sleep`, a `WaitGroup`, a request to another server): anything more from the peer, or its closing, calls the empty resumer, and the exception ends the process.
- C153 `Coro.Server.c153_close_elsewhere_violated`: **C153, violation.** A service closed from outside the connection's coroutine (a reply given by another coroutine or a task that closes the connection) does not close the descriptor: as long as the peer does nothing, the connection stays open, whatever the server does.
- C153 `Coro.Server.c153_after_close_violated`: **C153, violation.** And what the peer sends after the service was closed is still given to the codec and the handler.
- C153 `Coro.Server.c153_unknown_codec_violated`: **C153, violation.** With the name of an unknown codec the server starts, and the first connection ends the process.
- C153 `Coro.Server.c153_peer_v6_violated`: **C153, violation.** The address of an IPv6 peer is lost.
- C155 `BoolIndex.Build.c155_duplicate_violated`: **C155, violation.** Two including expressions on the same field: in a release build the second is ignored but counted.
- C155 `BoolIndex.Build.c155_unreachable_violated`: **C155, violation.** So its id asks for two fields, its entries are in the lists of one: a query on this field alone never finds the document, whichever value it has (with the line of index_scanner.cc as written, or as intended).
- C155 `BoolIndex.Build.c155_late_violated`: **C155, violation.** Expressions added to a conjunction after it was added to its document: its id still has the old size, so the index takes one matching field for enough.
- C155 `BoolIndex.Build.c155_copy_violated`: **C155, violation.** Copying a document: both delete its conjunctions.
- C155 `BoolIndex.Build.c155_move_leak_violated`: **C155, violation.** Moving a document into another that has conjunctions: those are never deleted.
- C160 `Net.E2E.LinePair.c160_stuck_violated`: **C160, violation.** Two lines arrive together: everything is written, has arrived and has been read without an error, and the application has the first one only.
- C162 `Coro.Sched.c162_duel_violated`: C162 violation. Two coroutines that make each other ready (say two that hand a token to and fro) keep one call of `Run` from returning for as long as they go on: a task that was waiting when `Run` began (number 2) is not started, however many turns they take, and the loop (timers, sockets, other tasks) stands still meanwhile.
- C162 `Coro.Sched.c162_nobody_runs_violated`: C162 violation. `CO_GO f` on the thread of a loop puts the task into the shared queue and wakes that loop; if no thread of the program has made itself a runner, nothing takes it from there: the task is never started, however long the loops run. (Off a loop's thread `CO_GO f` starts the background runner.)
- C165 `Text.Num.c165_parseTo_violated`: C165 violation. `ParseTo` answers whether the stream is still "good", which it is not once the number ends with the text: for every well-formed number the answer is false (the value is stored), for a number followed by anything else it is true.
- C165 `Text.Num.c165_trailing_violated`: C165 violation. `ToInt` and `ToInt64` take a number followed by anything for that number.
- C165 `Text.Num.c165_blank_violated`: C165 violation. `Parse` of an empty or blank text returns an uninitialised variable; `ParseArray` keeps such values for empty pieces.
- C167 `Inv.Json.c167_no_field_violated`: C167 violation. Reading an expression from an object without the key `field` is undefined behaviour (`operator[]` of a constant object); so is reading a document one of whose conditions lacks it.
- C167 `Inv.Json.c167_empty_violated`: C167 violation. A document without conditions (it matches every query) is written with `"cond": null` and not accepted back.
- C167 `Inv.Json.c167_id_violated`: C167 violation. Ids that are no 64-bit integers are not rejected: a fraction is cut off, and a number from 2^63 to 2^64 - 1 becomes negative.
- C168 `Http.Conn.c168_gzip_padded_violated`: **C168, violation.** A body of more than 8096 and less than 16384 bytes that the library compresses with gzip (every such request; every such response to a client that accepts gzip, as the library's own does by default) is handed on with NUL bytes after it, up to 16384, because the result of decompression is not cut to its length (gzip_utils.cc:195-239, C102).
- C17 `CountMin.c17_overflow_violated`: **C17 is violated by counter overflow**: 256 increments by one make the estimate 0, for every hash function and sketch size.
- C170 `Http.Conn.c170_request_violated`: **C170, violation.** A request the library compressed and undid is sent on with the length it had compressed: it says less than its body has.
- C170 `Http.Conn.c170_response_violated`: **C170, violation.** A response of the library that was too large to go uncompressed to a client that accepts gzip, received uncompressed and sent on to such a client, is compressed but keeps the length it had: it says more than its body has, and the client waits for the rest.
- C172 `Http.ConnTls.c172_second_message_violated`: **C172, violation.** On an HTTPS connection, for every end and every two messages of more than 1024 bytes together: if the socket cannot take the first one at once and the second one is sent before it can, no later flush writes anything, whatever the network does, the next write event closes the connection, and neither message ever reaches the peer — the output buffer has been moved under the record TLS has begun to write (tcp_channel_ssl.cc:175-213, io_buffer.cc:59-80, without SSL_MODE_ACCEPT_MOVING_WRITE_BUFFER, lt_ssl.cc:61-114).
- C172 `Http.WssPair.c172_second_frame_violated`: **C172, violation.** The same for WebSocket messages over TLS.
- C175 `Inv.BitSet.c175_intersect_violated`: C175 violation. After `Intersect` with a shorter list, positions that the other list does not hold are still in the result: the rest is cleared by a `memset` that is given a number of words, not of bytes (bitmap_posting_list.cc:41). For every size: a list of all positions of `n + 1` words, intersected with a list without room for any position, keeps position `64 * n`.
- C175 `Inv.BitSet.c175_union_violated`: C175 violation. `Union` with a longer list loses the positions beyond the last word of the first (bitmap_posting_list.cc:28-33), although the other list holds them.
- C177 `WebSocket.Upgrade.c177_host_port_violated`: C177 violation. Whenever the address has a port that is not the default one of its scheme, the request names a `Host` without it (ws_codec_service.cc:149): not what RFC 6455 (4.1, item 4) asks for.
- C177 `WebSocket.Upgrade.c177_default_port_violated`: C177 violation. An address without a port is not dialled at the default port of its scheme: the first such dial goes to port 0.
- C179 `Client.WsLife.c179_never_connected_violated`: C179 violation. Letting go of a client that never connected (dialling failed, or was never tried) ends in a null pointer being followed: the destructor posts `CloseService` of a transport that does not exist (ws_client.cc:27).
- C179 `Client.WsLife.c179_dialing_violated`: C179 violation. If the client is let go while an attempt is under way and the attempt ends before the loop runs the destructor's tasks, the connector calls the deleted client.
- C179 `Client.WsLife.c179_connected_violated`: C179 violation. If the client is let go while connected and a message arrives, or the peer closes, before the loop runs the destructor's tasks, the codec calls the deleted client.
- C179 `Client.WsLife.c179_redial_violated`: C179 violation. `Dial` while connected: when the second connection is up the first is deleted with its socket still registered; the process ends (a failed CHECK) when a later socket is given the same number.
- C18 `Maglev.c18_termination_violated`: **C18 violated.** For the default ring size (65537, prime) there are two perfectly valid endpoints with distinct hashes for which table generation never returns.
- C181 `Client.Rpc.c181_dropped_violated`: **C181 violation.** `AsyncDoRequest` from code that keeps no reference to the request, with a callback on another loop than the channel's: the callback is handed a pointer to a response that has been deleted.
- C181 `Client.Rpc.c181_finalized_violated`: **C181 violation.** A client finalized while a request is on its way to its channel: the call never returns, whatever happens afterwards; a coroutine in `SendRecieve` stays suspended for ever.
- C181 `Client.Rpc.c181_code_violated`: **C181 violation.** A request that failed and is sent again keeps its old code: the second call succeeds, and `FailCode()` still says time-out.
- C183 `Client.Deadline.c183_retry_violated`: **C183 violation.** A request that was answered and is sent again `a` later, while the timer of the first time is still there, is failed with a time-out as soon as that timer is due: after `T - a` instead of `T`, for every `a` up to `T`; the loop runs its timers in time.
- C183 `Client.QueueDeadline.c183_queued_retry_violated`: **C183 violation (queued).** A request that was answered and is sent again `a` later is failed with a time-out after `T - a`, and the connection is closed with it.
- C186 `Client.Ordered.Web.c186_closed_takes_violated`: **C186 violation.** A channel with no request in it whose connection has closed accepts a request (http_codec_service.cc:130-147 succeeds always): it is put into the buffer of the closed connection, nothing is sent, and whatever the server, the network and the loop do, the caller hears nothing until the time-out; then the channel reports its closing a second time.
- C187 `Redis.Rpc.c187_hangs_violated`: **C187 violation.** Two requests given to the channel one right after the other, and both answered at once by the server: if the answer to the second arrives in one piece, its caller never gets it, whatever the server and the network do, until the time-out closes the connection.
- C187 `Redis.Rpc.c187_wrong_answer_violated`: **C187 violation.** If the answer to the second arrives in two pieces, its caller is given an empty response when the first piece arrives, and the caller of a third request, given to the channel now, is given the server's answer to the second.
- C187 `Redis.Rpc.c187_heartbeat_violated`: **C187 violation.** The same happens to the heartbeat if its timer fires while a request is in progress: the server's answer to it is not recognised, the time-out of the heartbeat comes although the server has answered everything, and the connection is closed and reported lost.
- C187 `Redis.Rpc.c187_crash_violated`: **C187 violation.** A request posted to the channel (client.cc:287, 304) that arrives after the connection broke, or was closed by a time-out, while another was in progress aborts the process (`CHECK`, resp_codec_service.cc:142).
- C189 `Source.Config.c189_missing_member_violated`: **C189, violation.** A configuration in which a column leaves out its name, `allow_null`, default or type is neither accepted nor refused: its reading is undefined (`operator[]` of a constant object, an assertion in debug builds; the `catch` around it does not help).
- C189 `Source.Config.c189_abort_violated`: **C189, violation.** A name of a loader other than "file", or a resource that is not an object, ends the process; so does a configuration that is not an object.
- C189 `Source.Config.c189_throws_violated`: **C189, violation.** An exception leaves the call if the loader has no type.
- C189 `Source.Config.c189_useless_violated`: **C189, violation.** A column whose type is no type (misspelt) is accepted if its default is null, and no line of any file is ever loaded.
- C189 `Source.Config.c189_mode_violated`: **C189, violation.** A content mode that does not exist is accepted, and nothing is ever loaded.
- C19 `Router.c19_order_violated`: **C19 violated (order independence).** For every hash function and the default 50 virtual nodes, two routers with the same set of clients `10.0.0.1:80` and `10.0.0.1:801`, added in different orders, route the key `10.0.0.1:8011` to different clients.
- C191 `Mysql.c191_default_db_violated`: **C191 violation.** A query that names no database is not run on the connection's own one but on whichever the query before it named.
- C191 `Mysql.c191_uninitialised_violated`: **C191 violation.** `err_no_` is never initialised, and it is what is looked at when a query has had to wait: unless it happens to be zero, the query is reported as successful, without rows, at the first event, before the server has answered.
- C191 `Mysql.c191_code_violated`: **C191 violation.** The library's calls return 1 for an error, not its code: a refusal found at once is reported as 1, the same refusal found after a wait as its code `e`; and a lost connection found at once is not noticed: the connection goes on as ready.
- C191 `Mysql.c191_after_close_violated`: **C191 violation.** A query given to a connection after it was closed is never answered, whatever happens, until the connection is destroyed or closed again.
- C191 `Mysql.c191_no_reconnect_violated`: The same after the connection was lost and has closed itself: it never connects again.
- C191 `Mysql.c191_close_violated`: **C191 violation.** `Close` on a connection that has nothing to do closes nothing: it stays connected until a query is given, which is then still executed.
- C191 `Mysql.c191_not_ready_violated`: **C191 violation.** A query given through the client fails at once if the connection whose turn it is is not ready, although another one is.
- C191 `Mysql.c191_cells_violated`: **C191 violation.** NULL is stored as the text NULL, and a text with a NUL character is cut off there.
- C191 `Mysql.c191_late_violated`: **C191 violation.** The client hands the loop a plain pointer: if it is destroyed before the loop runs the task, the task uses the destroyed connection.
- C193 `Redis.Buffer.c193_self_append_violated`: **C193 violation.** Appending a part of a buffer's own data to it when its block has to grow reads the block that has just been given back.
- C193 `Redis.Buffer.c193_shrink_ref_violated`: **C193 violation.** Asking for less room than the data a buffer refers to, or cutting such a buffer, writes all of that data into the smaller room.
- C193 `Redis.Buffer.c193_self_move_violated`: **C193 violation.** A buffer moved onto itself loses its data.
- C195 `Redis.Startup.c195_empty_violated`: **C195 violation.** A server that answers AUTH (or SELECT, AUTH having been accepted) with an empty status, `+\r\n`, makes the client read at a null pointer: `string().data()` of an empty reply is null (resp_codec_service.cc:112, 122; buffer.hpp:19-25, 323-329), however its bytes arrive.
- C195 `Redis.Startup.c195_garbage_violated`: **C195 violation.** The status "O" is compared with what the memory held before: the same reply makes the connection ready or closes it.
- C195 `Redis.Startup.c195_pong_violated`: **C195 violation.** An empty status as the answer to a heartbeat's PING is read at a null pointer too (redis_response.cc:37, client_channel.cc:115).
- C195 `Redis.Startup.c195_twice_violated`: **C195 violation.** If the commands cannot be sent the connection is reported closed twice: by `CloseService` (codec_service.cc:79-81) and again (resp_codec_service.cc:63-64).
- C197 `Net.Lifetime.c197_client_violated`: **C197 violation.** A client whose work loop is the connection's own, an http, redis, h2 or websocket connection, and bytes which the codec closes it for, while nothing else holds a reference: the client lets the object go inside the notification and the rest of `HandleEvent` uses it (codec_service.cc:133-142).
- C197 `Net.Lifetime.c197_h2_violated`: **C197 violation.** An h2 client with such a work loop uses the object of every connection the peer closes: after `CodecService::HandleEvent` has closed it, `H2CodecService::HandleEvent` asks whether it is closed (h2_codec_service.cc:394-396).
- C197 `Net.Lifetime.c197_race_violated`: **C197 violation.** With the owner in another thread the same handlers are a race: the removal may run right after the notification.
- C197 `Net.Lifetime.c197_flush_violated`: **C197 violation.** A server with several loops, an http request with "Connection: close", answered at once: the flush task, which has only a plain pointer, is posted, the connection closed, and the acceptor's thread removes it before the task runs. (It is this task that would have sent the reply.)
- C197 `Net.Lifetime.c197_late_violated`: **C197 violation.** A server with one loop: another thread has a request's reply posted (http_context.cc:93-100) just after the peer has closed. The connection is removed, the reply still written, and the flush task it posts runs when the object is gone.
- C199 `Net.TlsTrust.c199_host_violated`: **C199 violation.** A client never checks that the certificate is for the host it dials: what it accepts for one host it accepts for every other.
- C199 `Net.TlsTrust.c199_ca_alone_violated`: **C199 violation.** Parameters that name a file of authorities or a directory of them, but not both, leave the context null (the other, empty name is passed and refused, lt_ssl.cc:73-81), whatever the file holds; the constructor does not report it and the first connection is undefined behaviour.
- C199 `Net.TlsTrust.c199_unusable_violated`: **C199 violation.** The same with a certificate or key that cannot be loaded or do not fit: nothing is reported, and the first connection is undefined behaviour (lt_ssl.cc:114-116).
- C199 `Net.TlsTrust.c199_path_violated`: **C199 violation.** `UseVerifyCA` ignores the directory it is given (lt_ssl.cc:146): alone it is refused, and with a file only the file counts.
- C199 `Net.TlsTrust.c199_system_violated`: **C199 violation.** A client's context can be made to trust an authority of one's own only in addition to the system's: after every configuration of contexts, one made for clients accepts what the system's authorities issued.
- C199 `Net.TlsTrust.c199_shared_violated`: **C199 violation.** The default context of servers is that of clients (lt_ssl.cc:47-49): a program that tells its server not to ask clients for certificates has its clients accept every certificate.
- C199 `Net.TlsTrust.c199_default_server_violated`: **C199 violation.** A server left to the default context has no certificate and serves nobody.
- C199 `Net.TlsTrust.c199_garbage_violated`: **C199 violation.** A client on which `SetSSLCtx` was never called goes by a pointer no constructor sets (client_base.h:35): unless the memory happened to be zero, its first connection is undefined behaviour.
- C20 `Router.c20_wrap_violated`: **C20 violated.** Whatever the initial value of the index, after some number of selections a router with three clients picks the same client twice in a row, and three consecutive selections leave a client out.
- C20 `Router.c20_empty_ub`: With no client configured the selection divides by zero.
- C201 `Http.NoContent.c201_body_violated`: **C201 violated: the body of a response without content is taken for the next response.** Whatever a handler answers to a HEAD request, or with 204, 304 or a 1xx code: its body is written too, and a client takes it for the beginning of what comes next.
- C201 `Http.NoContent.c201_forged_violated`: **C201 violated: a client is made to read a response that was never given.** If the body of a response to HEAD (or with 204, 304 or 1xx) is itself the text of a response `r2`, the next request of the client gets `r2` for an answer, whatever it asked for and whatever was answered to it.
- C201 `Http.NoContent.c201_length_violated`: **C201 violated: a length is sent where there must be none.** RFC 7230 (3.3.2) forbids Content-Length in 204 and 1xx responses; each such response of the library has one.
- C201 `Http.NoContent.c201_head_waits_violated`: **C201 violated: the answer to HEAD never arrives.** Whatever response a conforming server would give to GET, with a body that is not empty: when it sends it, without the body, to a HEAD request of the library's client, the application is handed nothing.
- C201 `Http.NoContent.c201_head_swallows_violated`: **C201 violated: the answer to HEAD swallows the next response.** The first bytes of the next response are handed on as the content of the answer to HEAD, whatever these responses are.
- C203 `Http.Serve.c203_upgrade_violated`: **C203 violated: a request that asks for an upgrade is answered twice, or refused.** A server may ignore Upgrade (RFC 7230, 6.7). Here, with llhttp as documented: after any requests, whatever a request that asks for an upgrade is and however the bytes are cut, its handler is called and its answer written, and then a 400, which a client reads as the answer to its next request; the connection is closed, and whatever it asks later is neither handled nor answered.
- C203 `Http.Serve.c203_expect_violated`: **C203 violated: who waits for 100 Continue waits for ever.** A server that has received the header fields of a request with `Expect: 100-continue` must answer: with 100 or with a final response (RFC 7231, 5.1.1). Whatever the requests before and however the bytes are cut, nothing is written and nobody is told.
- C205 `Client.DialSync.c205_leak_violated`: **C205, violation.** Every attempt the peer refuses leaves its socket open: after any number of them no connection was made, and as many more descriptors are open, for ever.
- C205 `Client.DialSync.c205_descriptor_zero_violated`: **C205, violation.** A process whose descriptor 0 is free: the attempt succeeds, the user is told it was refused, and the connection stays open.
- C205 `Client.DialSync.c205_nothing_handed_violated`: **C205, violation.** A connection made by `DialSync` hands on nothing as long as the peer does not end it, so its handshake is never answered to the user and no message is ever received, whatever is sent and whatever the loop does.
- C205 `Client.DialSync.c205_loop_stands_violated`: **C205, violation.** The first bytes the peer sends stop the loop: it takes the event, and until the peer ends the connection no task posted to it is run any more, no other connection is served.
- C205 `Client.DialSend.c205_send_stands_violated`: **C205, violation.** On a connection made by `DialSync`, a message larger than the room in the socket's buffer stops the loop until the peer takes something: until then `Send` does not return and no task posted to the loop is run any more, so no other connection is served and no timeout fires.
- C207 `Text.StrError.c207_overlap_violated`: **C207, violation.** A call for any error the library does not know, beside a call for any other error in another thread: there is an order of their steps in which it gives nothing.
- C209 `Text.PrettyBytes.c209_next_unit_violated`: **C209, violation.** Sizes just below 1024 of a unit (from KB on) are written as 1024.00 of it, not as 1.00 of the next.
- C21 `Client.Async.c21_id_reuse_violated`: **C21 violated when an id is reused** (for every pair of requests with the same id): a late timer of an already answered request takes away the other request's entry: the first request is completed twice, the second never, even after its own timer and a close.
- C21 `Client.Async.c21_shared_id_violated`: **C21 violated when two outstanding requests share an id**: the second is never completed.
- C21 `Client.Async.c21_late_send_violated`: **C21 violated after shutdown**: a request whose send task runs after the channel was shut down is completed towards nobody; the caller is never told.
- C211 `Coro.c211_leak_violated`: **C211, violation.** A coroutine that waits when the thread ends, even one whose wake-up has been called already, is never destroyed and never goes on: its stack and what it holds are lost.
- C211 `Coro.c211_touch_violated`: **C211, violation.** A resume closure that is called after the thread has ended reads the destroyed runner, whichever coroutine it is for, even one that had long been resumed or destroyed, where the closure is meant to do nothing.
- C22 `Client.Queued.c22_use_after_free_violated`: **C22 is violated by the code as written**: in the code (`copy = false`) the first request ever submitted to a queued channel makes it use a destroyed pointer, whatever the codec answers.
- C22 `Client.Queued.c22_use_after_free_always_violated`: More generally every request submitted to an idle channel does so, in every state.
- C22 `Client.Queued.c22_late_send_violated`: A request submitted after the channel was shut down and rejected by the codec completes without anybody being told.
- C23 `Loop.Msg.c23_violation_lost_at_shutdown`: C23 VIOLATION: a task accepted by `PostTask` (which returned true) while the loop was running when it was called is never run: the loop has ended with the task in its queue.
- C23 `Loop.Msg.c23_violation_post_while_stopping`: C23 VIOLATION: code that runs on the loop after the quit request was read and posts a task (as any task may) aborts the process.
- C24 `Net.c24_violation_empty_send`: C24 VIOLATION: sending zero bytes on an idle, healthy channel (a raw message with empty content, raw_message.cc:94, or an empty line, line_codec_service.cc:63) reports failure whenever errno still holds an unrelated value: the code tests errno after `write` returned 0.
- C24 `Net.c24_violation_interest_without_data`: C24 VIOLATION: with a stale EAGAIN the same call leaves write interest registered with nothing pending, and `HandleWrite` never removes it.
- C24 `Net.c24_violation_length_truncated`: C24 VIOLATION: `Send(const std::string&)` of a string of 2^32 bytes sends nothing and reports whatever an empty send reports; the length is truncated to `int32_t`.
- C24 `Net.Ssl.c24_violation_ssl_moved_buffer`: C24 VIOLATION (for every reachable idle TLS channel and every non-empty message): when TLS asks `Send` to wait for writability, the message is moved to the output buffer, and the very next write event fails and closes the connection, whatever the network then does — because SSL_MODE_ACCEPT_MOVING_WRITE_BUFFER is not set.
- C26 `Wheel.c26_violation_repeating`: **C26 violated: a repeating timer is counted from the last clock update of the loop, not from now.** If the loop was busy since `cur` (a task that ran for `now - cur` milliseconds), a repeating timer of `ms` milliseconds added at `now` is armed for `cur + ms`: early by `now - cur`, and at once if the loop was busy for longer than the period.
- C26 `Wheel.c26_violation_at_once`: So for every period there is a history in which a repeating timer is delivered in the very millisecond in which it is added: the loop updates its clock at 1000, runs a task for `ms` milliseconds, which ends by adding the timer, and delivers it in the pass that follows at once.
- C27 `Coro.WG.c27_violation_early`: **C27 violated: success although work remains.** The pattern of the header's example: `Add`, start a task, `Add`, start a task, `Wait`. If the first task is done before the second `Add`, its wake-up ends the wait while the second task still runs – for every number of further tasks.
- C27 `Coro.WG.c27_violation_timeout_done`: **C27 violated: a timeout although everything was done in time.** The last `Done` happens while the waiter sleeps and the timer has not fired; the timer runs before the posted wake-up.
- C28 `Coro.c28_violation_other_task`: **C28 violated: a closure of an earlier task resumes the next one.** A task makes a closure and ends without waiting; the same coroutine runs the next task, which waits with a closure of its own that is never called; calling the first task's closure ends that wait.
- C28 `Coro.c28_violation_abort`: **C28 violated: calling a closure of a task that ended without waiting aborts the process**, when it is called from a later task of the same coroutine.
- C29 `Links.c29_violation_pop_size`: **C29 violated: `PopAndRemove` does not count down.** After popping a non-empty list of the reported size, the reported size is one more than the number of elements.
- C29 `Links.c29_violation_destructor`: **C29 violated: destroying a non-empty DoubleLinkedList** of any number of elements dereferences a null pointer: after `Remove` of the first one its `next_` is null, so the loop never meets the end, whatever its length.
- C29 `Links.c29_violation_steal`: **C29 violated: pushing a node that is in another list** succeeds and breaks that list: it still reports its size, but walking it from the front ends in the other list's end.
- C30 `Http.c30_nul_violated`: **C30 violated for names containing NUL**: lower-casing stops there.
- C31 `Http.c31_missing_code_violated`: **C31 violated**: every code in 100..511 without a table entry (418, 422, 429, 451, ...) gets an empty status line: the response starts with its headers.
- C31 `Http.c31_minor_violated`: Any other minor version indexes outside the two tables.
- C32 `Text.c32_ignore_empty_violated`: **C32 violated**: with `ignore_empty`, every empty text and every text ending with the separator still yields an empty piece.
- C32 `Text.c32_long_separator_violated`: **Longer separators are not skipped entirely**: for every separator of two different characters, the second piece keeps the separator's second character.
- C32 `Text.c32_empty_separator_violated`: **An empty separator** makes `Split` throw, for every text.
- C35 `Redis.c35_violation_reentrant`: **C35 violated: a request sent from the response callback is never answered.** The queued client channel sends the next waiting request from inside the callback for the previous response (queued_channel.cc:117-130). `OnDataReceived` then resets the number of awaited replies to 0 (resp_codec_service.cc:99-101). When the complete and correct reply to the second request arrives, no response is delivered, and a further request aborts the process (`CHECK`, line 142).
- C35 `Redis.c35_violation_unsolicited`: **C35 violated: an unsolicited reply.** A reply that arrives while no request is outstanding (for example the late reply to a request that timed out) makes the next request abort the process.
- C35 `Redis.c35_violation_text`: **C35 violated: a status or error line with a byte outside printable ASCII** (a tab, or any UTF-8 letter: RESP only excludes CR and LF) is dropped by the client: the request stays unanswered although its whole reply has arrived, and the rest of the line stays in the buffer to be taken for the start of a reply.
- C35 `Redis.c35_violation_number`: **C35 violated: a number of 32 or more characters** in a reply overruns the decoder's 32-byte buffer (an assertion failure in debug builds).
- C35 `Redis.c35_violation_stale_array`: **C35 violated: the state after an error depends on the chunking.** A nested array broken by a bad byte in one chunk leaves the decoder clean; the same bytes in two chunks leave the outer array open, so that later replies are swallowed as its elements.
- C36 `Server.c36_violation_callback_twice`: C36 VIOLATION: a connection that closes on its own just before the server is stopped makes the stop callback run twice (already with one io service and one connection).
- C36 `Server.c36_violation_limit`: C36 VIOLATION: with two io services (LTIO_ENABLE_REUSER_PORT) the limit is exceeded, whatever it is: both pass the test before either stores.
- C37 `Url.c37_violation_empty_scheme`: **C37 violated: the documented default scheme.** `://host...` is documented to mean `http` but parses to the empty scheme, for every host and port.
- C37 `Url.c37_violation_resolved_nul`: **C37 violated: the resolved address is not the address text** but the text followed by NUL characters, for every address (at most 15 characters for IPv4, 45 for IPv6).
- C37 `Url.c37_violation_resolve_stale`: **C37 violated: a failed resolution reports success** with the address of an earlier call: only status -1 (`EAI_BADFLAGS`) is taken for an error.
- C37 `Url.c37_violation_stale`: **A record that is used again keeps components of the previous address.**
- C37 `Url.c37_violation_password_colon`: **A colon in a password** (any password text after the colon is dropped).
- C37 `Url.c37_violation_query_at`: **A `@` in a query** of an address without credentials: the host is taken for the user and the end of the query for the host.
- C37 `Url.c37_violation_query_scheme`: **`://` inside a query** of an address without scheme: everything before it becomes the scheme.
- C37 `Url.c37_violation_empty_port`: **An empty port** (`host:`): the port is whatever was on the stack.
- C37 `Url.c37_violation_port_overflow`: **A port above 65535** is silently replaced by 65535.
- C37 `Url.c37_violation_query_eq`: **A query value containing `=`** is dropped.
- C38 `Pool.c38_violation_too_many`: **C38 violated: more connections than configured.** If every dial connects at once, a client configured for `n` connections opens `min(10, n) + n - 1` of them: 19 instead of 10.
- C38 `Pool.c38_violation_unbounded`: **C38 violated: no bound at all.** With two configured connections, each time one comes up and breaks again a dial is added: for every `m` there is an execution with `m` connections.
- C38 `Pool.c38_violation_dead`: **C38 violated: a client that never dials again.** The stale number of dials in progress makes the client believe that enough are under way: it ends with no connection and no dial, not stopped.
- C38 `Pool.c38_violation_dangling`: **C38 violated: a dial outlives the client.** A client destroyed while a repeated dial is delayed (or queued) is called back by it.
- C38 `Pool.c38_violation_select_far`: **C38 violated: a request refused although a channel is ready.** With twelve or more channels a call looks at eleven consecutive ones only.
- C38 `Pool.c38_violation_select_wrap`: **C38 violated: the counter wraps.** With six channels, of which the fifth is ready, the call during which the 32-bit counter wraps finds none.
- C38 `Pool.c38_violation_select_race`: **C38 violated: two threads select at once.** With two channels and one of them ready, a call whose probes alternate with another's finds none.
- C39 `WebSocket.c39_hostile_length_ub`: **C39 (violation).** A peer can drive the parser into undefined behaviour: a 64-bit length with the top bit set, followed by one payload byte.
- C40 `Net.c40_violation_close_response`: C40 VIOLATION (every "Connection: close" answer): the owner is told twice — once by `HttpRequestCtx::Response`, again when the posted flush drains the buffer.
- C40 `Net.c40_violation_parse_error_eof`: C40 VIOLATION: a malformed request followed by end of stream in the same event notifies twice.
- C40 `Net.c40_violation_scheduled_drain`: C40 VIOLATION (any codec): a write event that drains the output of a connection scheduled to close notifies twice within one `HandleEvent`.
- C41 `Text.c41_contains_empty_violated`: **C41 violated**: the empty string does not contain the empty string.
- C41 `Text.c41_ignoreCase_prefix_violated`: **C41 violated**: every prefix of the second string is "equal" to it ...
- C41 `Text.c41_ignoreCase_overread_violated`: ... and comparing a string with a proper prefix of it reads out of bounds.
- C42 `Http.c42_trailer_leak_violated`: **C42 violated by trailers**: after a message with a trailer field `t`, the value of `t` is prepended to the value of the first header of the next message on the connection, and the trailer itself is lost. For every trailer and every following message.
- C43 `Http.c43_compressed_length_violated`: **C43 violated by compression**: if the user set a (correct) Content-Length and the body is compressed on the way out, the length written is that of the uncompressed body; a reader takes the wrong number of bytes. For every compressor that changes the size.
- C43 `Http.c43_header_injection_violated`: **C43 violated by CR LF in a value**: header injection; one header set by the user is read as two.
- C44 `Loop.FdReg.c44_violation_fd_reuse`: C44 VIOLATION: loop 0 polls fds 3 and 4 (events 0 and 1). While event 0's handler runs, event 1 is closed and another loop accepts a connection that gets fd 4 again (event 2, installed on loop 1). Loop 0 then invokes event 2: a handler of another loop, for an event that was never reported.
- C45 `Net.c45_violation_truncated`: C45 VIOLATION: a "Connection: close" response that the socket cannot take in one go is truncated: after the flush task hit EAGAIN nothing that can still happen delivers the rest, because the fd event was already removed.
- C46 `Loop.StartStop.c46_violation_start_hangs`: C46 VIOLATION: `Start` can hang: its test of `running_` fails, then the loop thread starts and announces it (without the mutex), then the caller goes to sleep. As long as nobody asks the loop to quit, no execution whatsoever wakes it.
- C46 `Loop.StartStop.c46_violation_stop_hangs`: C46 VIOLATION: `SyncStop` can hang forever: the loop thread ends (and notifies, without the mutex) between the caller's test and its sleep; afterwards nothing in any execution wakes the caller.
- C46 `Loop.StartStop.c46_violation_stop_returns_early`: C46 VIOLATION: `SyncStop` can return while the loop thread is still executing (it has read the quit request but not run its final round of tasks).
- C47 `Redis.Encode.c47_violation_heartbeat`: **Violated: a heartbeat request is not recognised as one.** `IsHeartbeat` compares the encoded body with the bare word, so it is false for every request the API can build.
- C48 `Redis.Storage.c48_violation_no_reserve`: **C48 violated: without the reservation** the ninth element is written through a pointer read beyond the end of the node table (`unique_value::copy` does exactly this, unique_value.hpp:113-124).
- C48 `Redis.Storage.c48_violation_dump`: **C48 violated.** Printing a response (which the client does itself at verbose log levels before handing the response to the user, queued_channel.cc:119) empties every array in it.
- C49 `Ip.c49_violation_from_mapped`: **C49 violated: mapping back never works.** The end of the copied range is the end of another array: wherever the two objects are placed, the conversion throws, aborts or reads outside the address.
- C49 `Ip.c49_violation_routable_mapped`: ... and so asking whether an IPv4-mapped address is publicly routable never gives an answer.
- C49 `Ip.c49_violation_cidr`: **C49 violated: every CIDR literal is rejected.** Whatever the address text and the prefix length, `address/length` is refused, because the end of the text is reached while reading the length.
- C49 `Ip.c49_violation_bracketed`: **C49 violated: every bracketed IPv6 literal is rejected**, because the text handed to `inet_pton` still ends with the bracket (which no address contains).
- C49 `Ip.c49_violation_to_string`: **C49 violated: the text of an IPv4 address** is padded with NUL characters, so it is not the address text unless that has 15 characters ("127.0.0.1" for instance never compares equal).
- C49 `Ip.c49_violation_to_string_invalid`: **C49 violated: the text of an invalid (empty) address** is documented to be empty, but always has 45 characters or more.
- C50 `Coro.Mutex.c50_violation_stray`: **C50 violated: a stray wake-up.** A coroutine that made a resume closure for something else before calling `lock` enters when that closure is called, while another one is inside.
- C51 `Coro.IoEv.c51_violation_crash`: **C51 violated: an event while the coroutine is suspended elsewhere** (before the first or between two waits) calls an empty closure.
- C51 `Coro.IoEv.c51_violation_stray`: **C51 violated: a stray wake-up in `Wait` fails a check**: the process aborts.
- C52 `Connector.c52_violation_established`: **C52 violated: a connection that is established is reported as failed and closed.** Whenever `connect` has to wait, the completion event is "writable", which is taken for an error.
- C52 `Connector.c52_violation_inverted`: **C52 violated: only connections that the peer has already closed are reported as connected.**
- C52 `Connector.c52_violation_leak`: **C52 violated: the socket of a refused dial is never closed** (and nobody else knows it).
- C52 `Connector.c52_violation_count`: **C52 violated: the number of dials in progress is misreported.** It is not updated when a dial starts, nor when it ends by the path above.
- C53 `Repeating.c53_violation_hang`: **C53, violated**: `removed` is set and `notify_all` called without the mutex, so both can fall between the predicate and the sleep; `Stop` then sleeps with nobody left to wake it: the only step of its thread is a spurious wake-up, and it stays so whatever the loop does.
- C53 `Repeating.c53_violation_destroy`: **C53, violated**: `Stop` returns as soon as it sees `removed`; destroying the timer then races with the loop's `cv.notify_all()` on the destroyed condition variable.
- C53 `Repeating.c53_violation_self_stop`: **C53, violated**: a callback that stops its own timer destroys the `TimeoutEvent` whose handler is running; `ProcessTimerEvent` then reads it (event_pump.cc:129-132).
- C53 `Repeating.c53_violation_unstarted`: **C53, violated**: `Stop` on a timer that was never started follows a null pointer in the loop; called in the loop's own thread (here from the callback, after a first `Stop`) it waits for itself.
- C54 `Inv.c54_violation_multiple_of_64`: C54 violated: with a number of documents that is a multiple of 64 (none, for example) every query kills the process.
- C54 `Inv.c54_violation_no_wildcard`: C54 violated: if every document includes values on some registered field, every query kills the process (the field's null wildcard list is followed).
- C54 `Inv.c54_violation_collision`: C54 violated: whatever the 64-bit digest, there are at most five documents with distinct 64-bit ids, one of them without conditions, and two queries of which at least one is answered wrongly (or kills the process), in every order of traversal.
- C55 `Inv.c55_violation_never_found`: C55 violated: no decimal text finds anything, whatever was indexed: a document that includes ranges on a range field is never found by a number.
- C55 `Inv.c55_violation_start_ignored`: C55 violated: the text `a-b` of two numbers indexes the numbers from 0 to `b`, whatever `a`.
- C55 `Inv.c55_violation_single_ignored`: C55 violated: the text of a single positive number indexes nothing.
- C55 `Inv.c55_violation_overlap`: C55 violated: a later range overwrites an earlier one: where two ranges on a field overlap, only the documents of the last one indexed are found.
- C80 `Sync.Lazy.c80_hasInstance_early`: **C80, violation.** `hasInstance` is true as soon as somebody has begun: here thread 1 is told that there is an instance while its constructor has not even started.
- C82 `Sync.RefList.c82_added_not_found`: **C82, violation.** `add` may return with the node not on the list: here thread 1 adds node 5 and its own next `try_get` returns a null pointer although nobody has taken the node.
- C84 `Guards.c84_move_terminates`: **C84, violation.** Moving a `Defer` ends the process: the object moved from still calls its function, which is empty now. This is so for every history, function and pair of guards.
- C84 `Guards.c84_move_uncancels`: **C84, violation.** Moving a cancelled `CancelableDefer` revives it: the function runs although it was cancelled.
- C84 `Guards.c84_copy_twice`: **C84, violation.** A `ScopedGuard` can be copied or "moved", and the function runs twice.
- C85 `Metrics.c85_min_is_zero`: **C85, violation.** So the reported minimum of positive values is zero, and the reported maximum of negative values too.
- C85 `Metrics.c85_range_out_of_bounds`: **C85, violation.** A range that does not begin at zero makes the histogram write outside of its buckets: with ten buckets for the range 1000 to 2000, the value 1500 goes to position 15.
- C85 `Metrics.c85_merge_loses`: **C85, violation.** Merging two histograms of the same name (hence of the same shape) does nothing and reports failure, so the values of the other one are lost, whatever they are.
- C85 `Metrics.c85_percentiles_wrong`: **C85, violation.** The reported percentiles of two hundred equal values are all different: each percentile moves on by at least one bucket, although all values are in one.
- C85 `Metrics.c85_percentiles_zero`: **C85, violation.** And when the values are in the last bucket, all but the first are zero.
- C86 `Metrics.Acc.c86_stop_loses`: **C86, violation.** `Stop` loses what was collected since the last round: here the value 5 is collected while the collector runs, then it is stopped, and the handler never gets it, whatever is done afterwards.
- C87 `Metrics.Stash.c87_interval_ignored`: **C87, violation.** The interval set by the user is not used: with sixty seconds set, here are reports at 5 and 10 seconds.
- C87 `Metrics.Stash.c87_turbo_loses`: **C87, violation.** Histogram items processed by the turbo thread are lost: one item is stashed, handled by the turbo thread, merged; and the report is empty.
- C87 `Metrics.Stash.c87_stop_loses`: **C87, violation.** `StopSync` leaves what is in the stash: the item 7, stashed before the stop, is never reported unless the stash is started again.
- C91 `Source.c91_header_loaded`: **C91, violation.** `ignore_header_line` is not used: the header line is loaded as a row.
- C91 `Source.c91_default_unused`: **C91, violation.** The default of a column is used for JSON columns only: an empty or a wrong number is zero, not the default 5.
- C91 `Source.c91_missing_succeeds`: **C91, violation.** Missing files are not reported: loading nothing but missing files succeeds, for every configuration.
- C91 `Source.c91_long_delimiter`: **C91, violation.** With a delimiter of two characters the columns are wrong: the second one begins with the rest of the delimiter.
- C91 `Source.c91_broken_hangs`: **C91, violation.** A path that can be opened but not read (a directory, a read error) hangs the loader: however long it runs, the loop is not over, and a line has been delivered in each of its rounds.
- C94 `Time.c94_nanoseconds_finite`: **C94, violation.** The largest number of nanoseconds is not the infinite delta, unlike those of the other units.
- C94 `Time.c94_negative_timespec`: **C94, violation.** Every negative delta above -2^53 seconds or so converts to an invalid `timespec`: no seconds and a negative number of nanoseconds.
- C94 `Time.c94_time_wraps`: **C94, violation.** The difference of two times wraps around: a later time minus an earlier one can be negative.
- C94 `Time.c94_round_overflows`: **C94, violation.** Rounding the largest finite delta, which is even, to a multiple of two microseconds gives the infinite delta.
- C94 `Time.c94_infinity_lost`: **C94, violation.** Infinity does not stay infinite: minus one microsecond, times minus one and halved it is finite.
- C94 `Time.c94_opposite_infinite`: **C94, violation.** The smallest finite delta has an infinite opposite and an infinite magnitude.
- C95 `Time.Cal.c95_year_zero`: **C95, violation.** In year 0, a leap year of the calendar, dates are a day late: the first of January is imploded to the day after the one before the first of January of year 1 minus 366 days.
- C96 `Time.Parse.c96_minus_one_minute`: **C96, violation.** The zone `-0001` is read as GMT: its offset is the value for "unknown".
- C96 `Time.Parse.c96_small_years`: **C96, violation.** ISO 8601 years below 100 are misread: `0075` is 1975, and `0012-11-10` is the eleventh of December 2010.
- C96 `Time.Parse.c96_impossible`: **C96, violation.** Impossible dates are accepted: the thirtieth of February, and month 0.
- C97 `Time.Conv.c97_early_midnight`: **C97, violation.** The time of an instant early in the range cannot be converted back, and asking for its midnight ends the process: so for the least time.
- C97 `Time.Conv.c97_time_t_wrong`: **C97, violation.** The first second of 1601, a time that exists, is taken for the null time and comes back as 1970; times in the first 369 years that can be represented come back as far in the future.
- C97 `Time.Conv.c97_timeval_wrong`: **C97, violation.** A `timeval` of whole seconds ends the process, and so does the null one that the code below the check is for; a time before 1970 gives a `timeval` with negative microseconds.

## 5. Axioms of each theorem

Printed by `#print axioms` (`tools/gen_design.py --axioms`). No other axiom occurs.

**none** (29): `Raw.create_fields`, `Text.c41_contains_empty_violated`, `Net.close_spec`, `Net.c40_witness`, `Net.c40_violation_close_response`, `Net.c40_violation_parse_error_eof`, `Net.c40_violation_scheduled_drain`, `Url.c37_violation_resolve_stale`, `Coro.WG.c27_violation_timeout_done`, `Coro.WG.c27_witness`, `Coro.Mutex.c50_violation_stray`, `Coro.Mutex.c50_witness`, `Coro.IoEv.c51_violation_stray`, `Coro.IoEv.c51_witness`, `Pool.c38_violation_dead`, `Connector.c52_told`, `Metrics.c85_min_is_zero`, `Rand.w_c92`, `Time.c94_in_infinite`, `Time.c94_nanoseconds_finite`, `Time.c94_time_wraps`, `Time.c94_opposite_infinite`, `Time.Conv.c97_time_t_wrong`, `Time.Conv.c97_timeval_wrong`, `H2.c106_push_silent`, `Net.Acceptor.c123_start`, `Net.Acceptor.c123_reopened`, `Server.Assign.c147_wrap_violated`, `Redis.Startup.c196_plain`

**propext** (116): `IOBuffer.move_transfers`, `Router.vnode_label_collision`, `Router.c20_empty_ub`, `BoolIndex.c12_out_of_range`, `Text.isTrim_unique`, `Text.c41_startsWith`, `Text.c41_endsWith`, `Text.c41_ignoreCase_prefix_violated`, `Text.c41_ignoreCase_overread_violated`, `Http.c30_case_insensitive_partial`, `Http.c31_missing_code_violated`, `Net.c24_violation_empty_send`, `Net.c24_violation_interest_without_data`, `Net.c24_violation_length_truncated`, `Net.c24_witness`, `Net.Ssl.c24_ssl_witness`, `Loop.FdReg.c25_get`, `Loop.FdReg.c44_violation_fd_reuse`, `Net.c40_event_partial`, `Net.c40_keepalive_exactly_once_partial`, `Loop.Msg.c23_loop_posts`, `Loop.StartStop.c46_start_wakes_partial`, `Redis.Storage.c48_violation_no_reserve`, `Redis.Storage.c48_violation_dump`, `Url.c37_resolve_fail`, `Links.c29_destroy_empty`, `Coro.WG.c27_once`, `Pool.c38_no_dangling_partial`, `Pool.c38_select_ready`, `Pool.c38_violation_select_wrap`, `Pool.c38_violation_select_race`, `Pool.c38_select_witness`, `Repeating.c53_no_uaf_partial`, `Repeating.c53_violation_hang`, `Repeating.c53_hang_forever`, `Repeating.c53_violation_destroy`, `Repeating.c53_violation_self_stop`, `Repeating.c53_violation_unstarted`, `Repeating.c53_witness`, `Inv.c55_violation_overlap`, `Inv.c55_not_a_number`, `Sync.Spin.w_c79`, `Sync.Lazy.c80_hasInstance_early`, `Sync.Lazy.w_c80`, `Sync.Tagged.w_c81`, `Sync.RefList.c82_added_not_found`, `Sync.RefList.w_c82`, `Sync.RefPtr.w_c83`, `Guards.c84_move_uncancels`, `Guards.c84_copy_twice`, `Metrics.c85_range_out_of_bounds`, `Metrics.c85_merge_loses`, `Metrics.c85_percentiles_wrong`, `Metrics.c85_percentiles_zero`, `Metrics.ok_default`, `Metrics.w_c85`, `Metrics.Acc.c86_stop_loses`, `Metrics.Acc.w_c86`, `Metrics.Stash.c87_round_robin`, `Metrics.Stash.c87_interval_ignored`, `Metrics.Stash.c87_turbo_loses`, `Metrics.Stash.c87_stop_loses`, `Metrics.Stash.w_c87`, `Source.c91_broken_hangs`, `Rand.c92_in_range`, `Rand.c92_unit`, `Time.c94_infinite`, `Time.c94_round_overflows`, `Time.c94_infinity_lost`, `Time.w_c94`, `Time.Cal.c95_year_zero`, `Time.Cal.w_c95`, `Time.Parse.c96_fromUTCString`, `Time.Parse.c96_minus_one_minute`, `Time.Parse.c96_small_years`, `Net.Udp.c127_abort_violated`, `Net.Udp.c127_double_close_violated`, `Net.Udp.c127_dangling_violated`, `Text.StringView.c129_remove`, `Server.Registry.c144_sides_agree`, `Server.Registry.c145_rawssl_plain_violated`, `Loop.Delay.c151_reply_loop_violated`, `Loop.Delay.c151_reply_gone_violated`, `Loop.Delay.c151_stopped_violated`, `Coro.Server.c152_stream`, `Coro.Server.c152_safe`, `Coro.Server.c152_progress`, `Coro.Server.c152_ended`, `Coro.Server.c152_accepted`, `Coro.Server.c152_accepts`, `Coro.Server.c153_handler_waits_violated`, `Coro.Server.c153_close_elsewhere_violated`, `Coro.Server.c153_after_close_violated`, `Coro.Server.c153_unknown_codec_violated`, `BoolIndex.Build.c155_duplicate_violated`, `BoolIndex.Build.c155_copy_violated`, `BoolIndex.Build.c155_move_leak_violated`, `Coro.Sched.c162_nobody_runs_violated`, `Text.Num.c164_toInt_fail`, `Mysql.c191_not_ready_violated`, `Mysql.c192_in_turn`, `Redis.Startup.c195_twice_violated`, `Net.Lifetime.c197_client_violated`, `Net.Lifetime.c197_h2_violated`, `Net.Lifetime.c197_race_violated`, `Net.Lifetime.c197_flush_violated`, `Net.Lifetime.c197_late_violated`, `Net.TlsTrust.c199_host_violated`, `Net.TlsTrust.c199_path_violated`, `Net.TlsTrust.c199_garbage_violated`, `Client.DialSync.c206_bytes`, `Client.DialSync.c205_nothing_handed_violated`, `Client.DialSync.c205_loop_stands_violated`, `Client.DialSync.c206_returns`, `Client.DialSync.c206_delivers`, `Text.StrError.c208_known`

**propext, Quot.sound** (264): `IOBuffer.findCRLF_correct`, `WebSocket.c05_frame_size`, `WebSocket.c05_send_path_partial`, `WebSocket.c05_send_path_violated`, `Raw.c08_encode`, `Raw.c08_roundtrip_partial`, `Raw.c08_client_delivery`, `Raw.c08_huge_payload_violated`, `Raw.sendRequest_ids_distinct`, `Raw.c09_delivered_exact`, `Raw.c09_crash_iff`, `Raw.c09_stream_safe_partial`, `Raw.c09_hostile_length_violated`, `Line.c10_no_loss_no_reorder_partial`, `Line.c10_prompt_delivery_partial`, `Line.c10_pipelined_lines_violated`, `Line.one_line_per_event`, `Base64.c11_decode_any`, `Lru.c15_lru`, `Lru.c15_bounded`, `Lru.c15_zero_capacity_ub`, `Bloom.c16_no_false_negatives`, `Bloom.c16_test_and_set`, `Router.c20_wrap_violated`, `BoolIndex.c12_size_major`, `BoolIndex.c13_initialize`, `BoolIndex.c14_unknown_field`, `Client.Async.c21_late_send_violated`, `Client.Queued.c22_use_after_free_violated`, `Client.Queued.c22_use_after_free_always_violated`, `Client.Queued.c22_late_send_violated`, `Text.c32_splitChar`, `Text.c41_trim`, `Text.c41_contains_partial`, `Text.c41_replace`, `Text.c41_replaceLast`, `ByteOrder.c34_network_is_big_endian`, `ByteOrder.c34_little_endian`, `ByteOrder.c34_roundtrip`, `Http.c31_minor_violated`, `Http.c42_assembled_partial`, `Http.c42_trailer_leak_violated`, `Loop.FdReg.c25_add`, `Loop.FdReg.c25_remove`, `Loop.FdReg.c25_registry_agrees`, `Loop.FdReg.c25_install`, `Loop.FdReg.c25_uninstall`, `Loop.FdReg.c25_update`, `Loop.FdReg.c44_invokes_installed`, `Loop.FdReg.c44_right_handler_partial`, `Net.tryFlush_empty`, `Net.c45_violation_truncated`, `Loop.Msg.c23_exactly_once_in_order`, `Loop.Msg.c23_no_lost_wakeup`, `Loop.Msg.c23_poll_reports`, `Loop.Msg.c23_notify_never_fails`, `Loop.Msg.c23_round_runs_all`, `Loop.Msg.c23_nested_run`, `Loop.Msg.c23_loop_never_stuck`, `Loop.Msg.c23_shutdown_loop_tasks`, `Loop.Msg.c23_shutdown_remote_partial`, `Loop.Msg.c23_violation_lost_at_shutdown`, `Loop.Msg.c23_violation_post_while_stopping`, `Loop.Msg.c23_witness`, `Loop.Msg.c23_witness_nested`, `Loop.StartStop.c46_start_returns_live`, `Loop.StartStop.c46_stop_returns_stopped`, `Loop.StartStop.c46_violation_start_hangs`, `Loop.StartStop.c46_violation_stop_hangs`, `Loop.StartStop.c46_violation_stop_returns_early`, `Server.c36_shutdown_progress`, `Server.c36_violation_callback_twice`, `Server.c36_witness`, `Redis.Storage.c48_array_storage`, `Redis.Storage.c48_reserve_chunks`, `Redis.Storage.c48_dump_partial`, `Url.c37_resolve_partial`, `Ip.c49_sockaddr`, `Ip.c49_violation_from_mapped`, `Ip.c49_violation_to_string_invalid`, `Links.c29_double_push`, `Links.c29_violation_steal`, `Coro.c28_stale`, `Coro.c28_progress`, `Coro.c28_violation_other_task`, `Coro.c28_violation_abort`, `Coro.c28_witness`, `Coro.c28_pool`, `Coro.WG.c27_not_left`, `Coro.WG.c27_timeout`, `Coro.Mutex.c50_exclusion`, `Coro.Mutex.c50_no_lost`, `Coro.Mutex.c50_fifo`, `Coro.Mutex.c50_handover`, `Coro.IoEv.c51_first_wins`, `Coro.IoEv.c51_ends`, `Coro.IoEv.c51_violation_crash`, `Pool.c38_backoff_bound`, `Pool.c38_backoff_linear`, `Pool.c38_single`, `Pool.c38_violation_too_many`, `Pool.c38_violation_unbounded`, `Pool.c38_alive_partial`, `Pool.c38_violation_dangling`, `Pool.c38_select_complete_partial`, `Pool.c38_select_spread`, `Pool.c38_violation_select_far`, `Connector.c52_report_partial`, `Connector.c52_witness`, `Wheel.c26_witness`, `Repeating.c53_quiet`, `Repeating.c53_safe`, `Inv.w_query`, `Inv.c55_violation_never_found`, `Inv.c55_found_with_trailing`, `Sync.Spin.c79_exclusion`, `Sync.Spin.c79_no_lost_update`, `Sync.Spin.c79_progress`, `Sync.Spin.c79_live`, `Sync.Lazy.c80_once`, `Sync.Lazy.c80_complete`, `Sync.Lazy.c80_progress`, `Sync.Lazy.c80_hasInstance_after`, `Sync.Lazy.c80_reentry_hangs`, `Sync.Tagged.c81_linearizable`, `Sync.Tagged.c81_no_double`, `Sync.Tagged.c81_no_loss`, `Sync.Tagged.c81_fail_means_progress`, `Guards.c84_exactly_once`, `Guards.c84_safe`, `Guards.c84_move_terminates`, `Guards.w_c84`, `Metrics.u32_spec`, `Metrics.c85_default`, `Metrics.c85_merge_sizes`, `Metrics.Acc.c86_round`, `Metrics.Stash.c87_conservation`, `Metrics.Stash.c87_at_most_once`, `Metrics.Stash.c87_lost`, `Metrics.Stash.c87_interval`, `Metrics.Stash.c87_live`, `Metrics.Stash.c87_delivered`, `Rand.c92_randInt`, `Time.c94_div_zero`, `Time.Conv.c97_timeval`, `H2.c106_push`, `Hash.Sha1.c108_length`, `Hash.Md5.c110_large_violated`, `Hash.Crc.c111_blocks`, `Hash.Crc.c111_crc32_le`, `Hash.Crc.c111_crc64`, `Hash.Crc.c112_rev_crc`, `Hash.Crc.c112_crc_rev`, `Hash.Crc.c112_start`, `Http.UrlParser.c120_within`, `Http.RequestUrl.c121_pieces`, `Http.RequestUrl.c121_reset`, `Http.RequestUrl.c121_empty`, `Http.RequestUrl.c121_pieces_violated`, `Net.Acceptor.c123_tidy`, `Net.Acceptor.c123_once`, `Net.Acceptor.c123_stopped`, `Net.Acceptor.c123_error`, `Net.Acceptor.c124_deaf_violated`, `Net.Acceptor.c124_stop_violated`, `Net.Acceptor.c125_peer_v4`, `Net.Acceptor.c125_endpoint_v4`, `Net.Acceptor.c125_self_v4`, `Net.Acceptor.c125_self_v6`, `Net.Acceptor.c125_peer_v6_violated`, `Net.Udp.c127_start`, `Net.Udp.c127_stays`, `Text.StringView.c128_find_empty`, `Text.StringView.c128_last_of`, `Text.StringView.c128_find_end_violated`, `Text.StringView.c130_insert_partial`, `Text.StringView.c130_default_violated`, `Num.c133_add_violated`, `Base64.UrlSafe.c138_refused`, `Base64.UrlSafe.c138_bound`, `Loop.Epoll.c139_interest`, `Loop.Epoll.c139_only_installed`, `Loop.Epoll.c141_reported`, `Loop.Epoll.c141_enabled`, `Loop.Epoll.c140_edge_violated`, `Loop.Epoll.c140_closed_violated`, `Loop.Epoll.c140_error_violated`, `Loop.Epoll.c140_disabled_violated`, `Loop.Epoll.c140_wait_violated`, `Loop.Epoll.c141_wait`, `Server.Reply.c142_first_answer`, `Server.Reply.c142_at_most_once`, `Server.Reply.c142_all_sent`, `Server.Reply.c142_order_on_loop`, `Server.Reply.c142_order_off_loop`, `Server.Reply.c142_closes`, `Server.Reply.c142_responded`, `Server.Reply.c142_call_enabled`, `Server.Reply.c142_send_closes`, `Server.Reply.c143_http_twice_violated`, `Server.Reply.c143_race_violated`, `Server.Reply.c143_order_violated`, `Server.Reply.c143_close_twice_violated`, `Server.Reply.c143_file_violated`, `Server.Registry.c144_last_wins`, `Server.Registry.c144_builtin`, `Server.Registry.c144_independent`, `Server.Registry.c144_builtin_serves`, `Server.Assign.c146_even`, `Server.Assign.c146_valid`, `Server.Assign.c146_consecutive`, `Server.Assign.c147_shared_counter_violated`, `Server.Assign.c148_callbacks`, `Server.Assign.c148_completes`, `Server.Assign.c148_alternate`, `Server.Assign.c149_restart_violated`, `Server.Assign.c149_restart_twice_violated`, `Loop.Delay.c150_exactly_once`, `Loop.Delay.c150_not_early`, `Loop.Delay.c150_when_due`, `Loop.Delay.c150_helper`, `Loop.Delay.c150_reply_after`, `Coro.Server.c152_peer_v4`, `Coro.Server.c153_peer_v6_violated`, `BoolIndex.Build.c154_conj`, `BoolIndex.Build.c154_doc`, `BoolIndex.Build.c154_log`, `Net.E2E.RawPair.demo_answers`, `Net.E2E.LinePair.c160_stuck_violated`, `Coro.Sched.c161_background`, `Coro.Sched.c161_go_once`, `Coro.Sched.c162_duel_violated`, `Text.Num.c164_toInt`, `Text.Num.c165_blank_violated`, `Inv.BitSet.c175_union_any`, `Inv.BitSet.c175_union_violated`, `Inv.BitSet.c176_dump`, `Client.WsLife.c179_never_connected_violated`, `Client.WsLife.c179_dialing_violated`, `Client.WsLife.c179_connected_violated`, `Client.WsLife.c179_redial_violated`, `Client.Rpc.c181_dropped_violated`, `Client.Rpc.c181_code_violated`, `Client.QueueDeadline.c184_queued_not_early`, `Client.Deadline.c183_retry_violated`, `Client.QueueDeadline.c183_queued_retry_violated`, `Client.QueueDeadline.c184_queued_all`, `Net.Lifetime.c198_deleted`, `Net.Lifetime.c198_plain`, `Net.Lifetime.c198_server`, `Net.Lifetime.c198_event`, `Net.Lifetime.c198_shared`, `Net.Lifetime.c198_replies`, `Client.DialSync.c206_dial`, `Client.DialSync.c206_told`, `Client.DialSync.c205_leak_violated`, `Client.DialSync.c205_descriptor_zero_violated`, `Client.DialSend.c205_send_stands_violated`, `Client.DialSend.c206_sent`, `Client.DialSend.c206_send_returns`, `Text.StrError.c208_serial`, `Text.StrError.c207_overlap_violated`, `Coro.c211_touch_violated`, `Coro.c212_can_end`

**propext, Classical.choice, Quot.sound** (562): `IOBuffer.c01_fifo`, `IOBuffer.c01_suffix_of_written`, `IOBuffer.c01_reader_prefix_stable`, `IOBuffer.findCRLF_none`, `IOBuffer.move_continues`, `IOBuffer.hasALine_iff`, `IOBuffer.c02_ensure`, `IOBuffer.c02_no_out_of_bounds`, `IOBuffer.c02_ub_iff`, `WebSocket.c03_build_parse_roundtrip`, `WebSocket.c03_stream_roundtrip`, `WebSocket.c04_chunking_independent`, `WebSocket.c04_service_chunking_independent`, `WebSocket.c06_mask_involution`, `WebSocket.c06_streamed_unmask`, `WebSocket.c06_mask_rfc`, `WebSocket.c07_messages_reassembled_partial`, `WebSocket.c07_interleaved_control_violated`, `WebSocket.c07_close`, `WebSocket.c39_hostile_length_ub`, `WebSocket.c39_only_hostile_length_partial`, `Raw.c08_server_delivery`, `Raw.createResponse_fields`, `Base64.c11_encode_rfc`, `Base64.c11_encode_length`, `Base64.c11_roundtrip`, `Base64.c11_decode_safe_partial`, `Base64.c11_unpadded_violated`, `Base64.c11_every_text`, `Bloom.uninitialised_false_positive`, `CountMin.c17_estimate_exact`, `CountMin.c17_no_underestimate_partial`, `CountMin.c17_single_key_exact`, `CountMin.c17_overflow_violated`, `CountMin.distinct_not_overcounted`, `Maglev.c18_complete_partial`, `Maglev.c18_probe_permutation_partial`, `Maglev.c18_even_partial`, `Maglev.c18_router_total_partial`, `Maglev.c18_termination_violated`, `Router.c19_total`, `Router.c19_nearest`, `Router.c19_add_moves_only_to_new`, `Router.c19_erase_moves_only_served`, `Router.c19_order_independent_partial`, `Router.c19_order_violated`, `Router.c20_fair_partial`, `Router.c20_cycle_partial`, `Router.c20_power_of_two`, `BoolIndex.c12_conj_roundtrip`, `BoolIndex.c12_conj_injective`, `BoolIndex.c12_entries`, `BoolIndex.c13_skipTo`, `BoolIndex.c13_skip`, `BoolIndex.c13_field`, `BoolIndex.c14_intended`, `BoolIndex.c14_code_partial`, `BoolIndex.c14_code_sound_weak`, `BoolIndex.c14_code_violation`, `Client.Async.c21_exactly_once_partial`, `Client.Async.c21_completed_partial`, `Client.Async.c21_id_reuse_violated`, `Client.Async.c21_shared_id_violated`, `Client.Queued.c22_fifo_partial`, `Client.Queued.c22_all_completed_partial`, `Text.c32_split_join`, `Text.c32_join_split`, `Text.c32_ignore_empty_partial`, `Text.c32_ignore_empty_violated`, `Text.c32_long_separator_violated`, `Text.c32_empty_separator_violated`, `Text.c41_ignoreCase_partial`, `Itoa.c33_itoa`, `Itoa.c33_bad_base`, `Itoa.c33_value`, `Http.c30_lookup_partial`, `Http.c30_nul_violated`, `Http.c31_status_line_partial`, `Http.c43_response_partial`, `Http.c43_request_partial`, `Http.c43_stream_partial`, `Http.c43_compressed_length_violated`, `Http.c43_header_injection_violated`, `Net.c24_safe`, `Net.c24_stream`, `Net.c24_prefix`, `Net.c24_input`, `Net.c24_write_interest`, `Net.c24_write_until_eagain`, `Net.c24_read_until_eagain`, `Net.c24_read_failure`, `Net.c24_return_value`, `Net.c24_failure_is_real_partial`, `Net.c24_drains`, `Net.Ssl.c24_ssl_safe`, `Net.Ssl.c24_ssl_stream`, `Net.Ssl.c24_ssl_prefix`, `Net.Ssl.c24_ssl_input`, `Net.Ssl.c24_ssl_write_interest`, `Net.Ssl.c24_violation_ssl_moved_buffer`, `Net.c40_cause`, `Net.c45_stream`, `Net.c45_will_send_partial`, `Net.c45_delivered_partial`, `Server.c36_count`, `Server.c36_limit_single`, `Server.c36_limit_partial`, `Server.c36_callback_not_early`, `Server.c36_callback_eventually`, `Server.c36_callback_once_partial`, `Server.c36_violation_limit`, `Redis.decode_append`, `Redis.decode_enc`, `Redis.strtol_saturates`, `Redis.strtol_out_of_range`, `Redis.c35_pairing_partial`, `Redis.c35_leftover_partial`, `Redis.c35_startup`, `Redis.c35_violation_reentrant`, `Redis.c35_violation_unsolicited`, `Redis.c35_violation_text`, `Redis.c35_violation_number`, `Redis.c35_violation_stale_array`, `Redis.Encode.c47_request_encoding`, `Redis.Encode.c47_request_roundtrip`, `Redis.Encode.c47_injective`, `Redis.Encode.c47_violation_heartbeat`, `Url.c37_parse_remote`, `Url.c37_parse_remote_fresh`, `Url.c37_parse_uri`, `Url.c37_violation_empty_scheme`, `Url.c37_violation_resolved_nul`, `Url.c37_violation_stale`, `Url.c37_violation_password_colon`, `Url.c37_violation_query_at`, `Url.c37_violation_query_scheme`, `Url.c37_violation_empty_port`, `Url.c37_violation_port_overflow`, `Url.c37_violation_query_eq`, `Ip.c49_matches_prefix`, `Ip.c49_common_prefix`, `Ip.c49_mask_length`, `Ip.c49_order`, `Ip.c49_endpoint_order`, `Ip.c49_routable_v4`, `Ip.c49_routable_v6`, `Ip.c49_zero`, `Ip.w_c49_routable_v6`, `Ip.c49_loopback`, `Ip.c49_link_local`, `Ip.c49_to_mapped`, `Ip.c49_hostname`, `Ip.c49_to_string_partial`, `Ip.c49_violation_routable_mapped`, `Ip.c49_violation_cidr`, `Ip.c49_cidr_range`, `Ip.w_c49_cidr`, `Ip.c49_violation_bracketed`, `Ip.c49_violation_to_string`, `Links.c29_sequence`, `Links.c29_frame`, `Links.c29_size_partial`, `Links.c29_violation_pop_size`, `Links.c29_double_remove`, `Links.c29_violation_destructor`, `Coro.c28_once`, `Coro.c28_not_lost`, `Coro.c28_lists`, `Coro.c28_no_abort_partial`, `Coro.c28_reuse_partial`, `Coro.c28_spawn_reuse`, `Coro.c28_freed`, `Coro.WG.c27_success_partial`, `Coro.WG.c27_violation_early`, `Connector.c52_once`, `Connector.c52_sockets`, `Connector.c52_violation_established`, `Connector.c52_violation_inverted`, `Connector.c52_violation_leak`, `Connector.c52_violation_count`, `Connector.c52_count_partial`, `Wheel.c26_refines`, `Wheel.c26_due`, `Wheel.c26_cancelled`, `Wheel.c26_not_early`, `Wheel.c26_sleep`, `Wheel.c26_pass`, `Wheel.c26_oneshot`, `Wheel.c26_violation_repeating`, `Wheel.c26_violation_at_once`, `Wheel.c26_wait`, `Inv.c54_exact`, `Inv.c54_answers`, `Inv.c54_small`, `Inv.c54_violation_multiple_of_64`, `Inv.c54_violation_no_wildcard`, `Inv.c54_collision_confuses`, `Inv.c54_violation_collision`, `Inv.c55_violation_start_ignored`, `Inv.c55_violation_single_ignored`, `Inv.isWs_iff`, `Sync.Spin.c79_trylock`, `Sync.RefList.c82_no_double`, `Sync.RefList.c82_no_loss`, `Sync.RefList.c82_accounted`, `Sync.RefList.c82_no_abort`, `Sync.RefPtr.c83_alive`, `Sync.RefPtr.c83_alive_assign`, `Sync.RefPtr.c83_once`, `Sync.RefPtr.c83_deleted_iff`, `Sync.RefPtr.c83_count`, `Metrics.c85_gauge`, `Metrics.c85_minmax`, `Metrics.c85_gauge_merge`, `Metrics.c85_hist`, `Metrics.c85_percentile`, `Metrics.Acc.c86_conservation`, `Metrics.Acc.c86_delivered`, `Source.c91_lines`, `Source.c91_table`, `Source.c91_int`, `Source.c91_int_forms`, `Source.c91_values`, `Source.c91_header_loaded`, `Source.c91_default_unused`, `Source.c91_missing_succeeds`, `Source.c91_long_delimiter`, `Source.w_c91`, `Rand.c92_uniform`, `Rand.c92_accepts_half`, `Rand.c92_ends`, `Rand.c92_unit_uniform`, `Rand.c92_bytes`, `Time.c94_add_sub`, `Time.c94_mul_div`, `Time.c94_neg_magnitude`, `Time.c94_from`, `Time.c94_in`, `Time.c94_floor_ceil`, `Time.c94_round`, `Time.c94_int_div`, `Time.c94_time`, `Time.c94_timespec`, `Time.c94_negative_timespec`, `Time.Cal.c95_normalize`, `Time.Cal.c95_implode`, `Time.Cal.c95_unique`, `Time.Cal.year_iff`, `Time.Cal.valid_instant`, `Time.Parse.c96_rfc1123`, `Time.Parse.c96_zone`, `Time.Parse.c96_named_zone`, `Time.Parse.c96_rfc850`, `Time.Parse.c96_asctime`, `Time.Parse.c96_iso8601`, `Time.Parse.c96_impossible`, `Time.Parse.w_c96`, `Time.Conv.c97_explode`, `Time.Conv.c97_from_exploded`, `Time.Conv.c97_round_trip`, `Time.Conv.c97_midnight`, `Time.Conv.c97_time_t`, `Time.Conv.c97_ms_timeval`, `Time.Conv.c97_early_midnight`, `Time.Conv.w_c97`, `Gzip.c102_gunzip_prefix`, `Gzip.c103_deflate_round_trip`, `Gzip.c103_compress`, `Gzip.c102_gunzip_padded`, `Gzip.c102_large_input`, `Gzip.w_c102`, `Gzip.c103_inflate`, `Gzip.c103_large_output`, `H2.c104_independent`, `H2.c104_no_body`, `H2.c104_body`, `H2.c104_closed`, `H2.c104_twice`, `H2.c104_trailers`, `H2.c104_cookie_lost`, `H2.w_c104`, `H2.c105_lookup`, `H2.c105_none`, `H2.w_c105`, `H2.c106_fits`, `H2.c106_fields`, `H2.c106_large`, `H2.c106_prefix_lost`, `Hash.Sha1.c108_sha1`, `Hash.Sha1.c108_in_bounds`, `Hash.Sha1.c108_reuse`, `Hash.Sha1.c108_string`, `Hash.Sha1.c109_accept_key`, `Hash.Sha1.c109_zero_byte`, `Hash.Md5.c110_md5`, `Hash.Md5.c110_in_bounds`, `Hash.Crc.c111_crc8`, `Hash.Crc.c111_crc16_ansi`, `Hash.Crc.c111_crc16_ccitt`, `Hash.Crc.c111_crc32`, `Hash.Crc.c112_burst`, `Hash.Crc.c112_burst_narrow`, `Hash.Murmur.c113_x86_32`, `Hash.Murmur.c113_x64_128`, `Hash.Murmur.c113_only_key`, `Hash.Murmur.c114_word32`, `Hash.Murmur.c114_block128`, `Hash.Murmur.c114_short`, `Hash.Murmur.c114_seed`, `Hash.Murmur.c114_families`, `WebSocket.Server.c115_answers`, `WebSocket.Server.c115_accepted`, `WebSocket.Server.c115_unregistered`, `WebSocket.Server.c115_accept_value`, `WebSocket.Server.c115_missing_key_violated`, `WebSocket.Server.c115_case_violated`, `WebSocket.Server.c115_llhttp_violated`, `WebSocket.Server.c115_two_answers_violated`, `WebSocket.Server.c116_order`, `WebSocket.Server.c116_closed_final`, `WebSocket.Server.c116_proper_partial`, `WebSocket.Server.c116_close_and_eof_violated`, `WebSocket.Server.c116_close_and_stop_violated`, `WebSocket.Server.c116_after_close_violated`, `WebSocket.Server.c116_never_opened_violated`, `WebSocket.WsClient.c117_ready_iff`, `WebSocket.WsClient.c117_order`, `WebSocket.WsClient.c117_key`, `WebSocket.WsClient.c117_accept_unchecked_violated`, `WebSocket.WsClient.c117_llhttp_violated`, `WebSocket.WsClient.c118_no_close_violated`, `WebSocket.WsClient.c118_accounted`, `WebSocket.WsClient.c118_send`, `WebSocket.WsClient.c118_failed_final`, `Http.UrlParser.c120_iff`, `Http.UrlParser.c120_origin`, `Http.UrlParser.c120_origin_iff`, `Http.UrlParser.c120_absolute`, `Http.UrlParser.c120_connect`, `Http.UrlParser.c120_long_violated`, `Http.RequestUrl.c121_target`, `Http.RequestUrl.c121_set`, `Http.RequestUrl.c121_replace_violated`, `Net.Acceptor.c125_endpoint_v6_violated`, `Net.Udp.c126_datagrams`, `Net.Udp.c126_cut_violated`, `Text.StringView.c128_find`, `Text.StringView.c128_rfind`, `Text.StringView.c128_first_of`, `Text.StringView.c128_first_not_of`, `Text.StringView.c128_last_not_of`, `Text.StringView.c129_compare`, `Text.StringView.c129_substr`, `Text.StringView.c129_affix`, `Num.c131_in_range`, `Num.c131_checked_cast`, `Num.c131_saturated_cast`, `Num.c131_compare`, `Num.c131_contained`, `Num.c132_op`, `Num.c132_expr`, `Num.c132_in_type`, `Num.c132_read`, `Num.c132_div_sound`, `Num.c132_mod_violated`, `Num.c132_div_violated`, `Num.c132_neg_violated`, `Num.c132_not_violated`, `Num.c133_add`, `Num.c133_sub`, `Num.c133_mul`, `Num.c133_div`, `Num.c133_mod`, `Num.c133_lsh`, `Num.c133_rsh`, `Num.c133_max_min`, `Num.c133_neg_abs`, `Num.c133_div_violated`, `Num.c133_mod_violated`, `Base64.UrlSafe.c136_rfc`, `Base64.UrlSafe.c136_size`, `Base64.UrlSafe.c136_roundtrip`, `Base64.UrlSafe.c138_exact`, `Base64.UrlSafe.c137_high_bytes_violated`, `Base64.UrlSafe.c137_padding_violated`, `Base64.UrlSafe.c138_padded`, `Loop.Epoll.c139_answers`, `Loop.Epoll.c140_install_violated`, `Server.Registry.c144_unknown`, `Server.Registry.c144_tls`, `Server.Registry.c145_secure_otherwise`, `Server.Registry.c145_empty_creator_violated`, `Server.Registry.c145_null_codec_violated`, `Server.Assign.c147_shared_counter_load`, `BoolIndex.Build.c154_owned`, `BoolIndex.Build.c154_no_leak`, `BoolIndex.Build.c155_unreachable_violated`, `BoolIndex.Build.c155_late_violated`, `Time.Ticks.c156_ticks`, `Time.Ticks.c156_ticks_order`, `Time.Ticks.c156_time_us`, `Time.Ticks.c156_delta`, `Time.Ticks.c156_time_now`, `Time.Ticks.c156_epoch`, `Time.Ticks.c156_stamp`, `Time.Ticks.c156_stamp_order`, `Net.E2E.RawPair.c157_prefix`, `Net.E2E.RawPair.c157_complete`, `Net.E2E.RawPair.c157_progress`, `Net.E2E.RawPair.c158_answers`, `Net.E2E.RawPair.c158_rpc`, `Net.E2E.WsPair.c159_prefix`, `Net.E2E.WsPair.c159_complete`, `Net.E2E.WsPair.c159_progress`, `Net.E2E.LinePair.c160_prefix_partial`, `Coro.Sched.c161_once`, `Coro.Sched.c161_order`, `Coro.Sched.c161_round`, `Coro.Sched.c161_next_round`, `Coro.Sched.c161_bounded`, `Coro.Sched.c161_progress`, `Http.Alpn.c163_safe`, `Http.Alpn.c163_choice`, `Http.Alpn.c163_own`, `Text.Num.c164_toInt_text`, `Text.Num.c164_parse`, `Text.Num.c164_array`, `Text.Num.c164_bool`, `Text.Num.c165_parseTo_violated`, `Text.Num.c165_trailing_violated`, `Inv.Json.c166_expr_exact`, `Inv.Json.c166_expr_roundtrip`, `Inv.Json.c166_doc_exact`, `Inv.Json.c166_doc_roundtrip`, `Inv.Json.c167_no_field_violated`, `Inv.Json.c167_empty_violated`, `Inv.Json.c167_id_violated`, `Http.Conn.c168_prefix_partial`, `Http.Conn.c168_complete_partial`, `Http.Conn.c168_gzip_padded_violated`, `Http.Conn.c169_prefix`, `Http.Conn.c169_complete`, `Http.Conn.c169_progress`, `Http.Conn.c171_request`, `Http.Conn.c171_chain`, `Http.Conn.c171_response`, `Http.Conn.c170_request_violated`, `Http.Conn.c170_response_violated`, `Http.Conn.c171_chain_response`, `Http.ConnTls.c172_progress_partial`, `Http.ConnTls.c172_second_message_violated`, `Http.WssPair.c172_second_frame_violated`, `Http.ConnTls.c173_prefix`, `Http.ConnTls.c173_complete`, `Http.ConnTls.c173_progress`, `Http.WssPair.c174_prefix`, `Http.WssPair.c174_complete`, `Http.WssPair.c174_progress`, `Http.WssPair.c174_spaced_progress`, `Inv.BitSet.c176_set_of_positions`, `Inv.BitSet.c175_intersect_shorter`, `Inv.BitSet.c175_substract_any`, `Inv.BitSet.c175_intersect_violated`, `Inv.BitSet.c176_dies_iff`, `Inv.BitSet.c176_new`, `WebSocket.Upgrade.c178_upgrade_request`, `WebSocket.Upgrade.c178_port`, `WebSocket.Upgrade.c177_host_port_violated`, `WebSocket.Upgrade.c177_default_port_violated`, `WebSocket.Upgrade.c178_server_accepts`, `Client.WsLife.c180_careful`, `Client.WsLife.c180_held`, `Client.WsLife.c180_released`, `Client.Rpc.c182_results`, `Client.Rpc.c181_finalized_violated`, `Client.Rpc.c182_all_done`, `Client.Rpc.c182_own_answer`, `Client.Rpc.c182_code`, `Client.Deadline.c184_not_early`, `Client.Deadline.c184_in_time`, `Client.Deadline.c184_never_longer`, `Client.QueueDeadline.c184_queued`, `Client.Ordered.Web.c185_own_answer`, `Client.Ordered.Web.c185_own_answer_tls`, `Client.Ordered.Web.c185_complete`, `Client.Ordered.Web.c186_closed_takes_violated`, `Redis.Rpc.c188_own_replies`, `Redis.Rpc.c187_hangs_violated`, `Redis.Rpc.c187_wrong_answer_violated`, `Redis.Rpc.c187_heartbeat_violated`, `Redis.Rpc.c187_crash_violated`, `Redis.Rpc.c188_complete`, `Source.Config.c190_accepted_iff`, `Source.Config.c189_missing_member_violated`, `Source.Config.c189_abort_violated`, `Source.Config.c189_throws_violated`, `Source.Config.c189_useless_violated`, `Source.Config.c189_mode_violated`, `Mysql.c192_rows`, `Mysql.c192_no_rows`, `Mysql.c192_database`, `Mysql.c191_default_db_violated`, `Mysql.c191_uninitialised_violated`, `Mysql.c191_code_violated`, `Mysql.c191_after_close_violated`, `Mysql.c191_no_reconnect_violated`, `Mysql.c191_close_violated`, `Mysql.c191_cells_violated`, `Mysql.c191_late_violated`, `Mysql.c192_once_in_order`, `Mysql.c192_ended`, `Redis.Buffer.c194_contents`, `Redis.Buffer.c193_self_append_violated`, `Redis.Buffer.c193_shrink_ref_violated`, `Redis.Buffer.c193_self_move_violated`, `Redis.Buffer.c194_memory`, `Redis.Startup.c196_startup`, `Redis.Startup.c195_empty_violated`, `Redis.Startup.c195_garbage_violated`, `Redis.Startup.c195_pong_violated`, `Redis.Startup.c196_not_before`, `Redis.Startup.c196_then_requests`, `Redis.Startup.c196_pong`, `Net.TlsTrust.c200_client`, `Net.TlsTrust.c199_ca_alone_violated`, `Net.TlsTrust.c199_unusable_violated`, `Net.TlsTrust.c199_system_violated`, `Net.TlsTrust.c199_shared_violated`, `Net.TlsTrust.c199_default_server_violated`, `Net.TlsTrust.c200_create`, `Net.TlsTrust.c200_server`, `Net.TlsTrust.c200_fit`, `Net.TlsTrust.c200_certificate`, `Net.TlsTrust.c200_present`, `Net.TlsTrust.c200_connect`, `Net.TlsTrust.c200_default`, `Http.NoContent.c202_stream`, `Http.NoContent.c202_client`, `Http.NoContent.c201_body_violated`, `Http.NoContent.c201_forged_violated`, `Http.NoContent.c201_length_violated`, `Http.NoContent.c201_head_waits_violated`, `Http.NoContent.c201_head_swallows_violated`, `Http.NoContent.c202_empty_sent`, `Http.NoContent.c202_expect`, `Http.Serve.c204_answers`, `Http.Serve.c203_upgrade_violated`, `Http.Serve.c203_expect_violated`, `Http.Serve.c204_prefix`, `Http.Serve.c204_coding`, `Http.Serve.c204_undecodable`, `Http.Serve.c204_refused`, `Http.Serve.c204_bad_request`, `Text.StrError.c208_ends`, `Text.PrettyBytes.c210_close`, `Text.PrettyBytes.c210_unit`, `Text.PrettyBytes.c209_next_unit_violated`, `Text.PrettyBytes.c210_ties`, `Text.PrettyBytes.c210_monotone`, `Text.PrettyBytes.c210_text`, `Coro.c212_destroyed`, `Coro.c211_leak_violated`
