# Formal model of echoface/ltio in Lean 4

This file is generated by `tools/gen_design.py` (head: `tools/design_head.md`). The first version was the plan; it was
extended as the model grew.

## 1. Method

* Every modelled component has a directory under `lean/Verif/`. Model definitions are total executable Lean functions (or
  labelled transition systems `step : State → Label → Option State` for concurrent code), each with a comment citing the
  file and lines of /repo it follows and the simplifications made.
* Undefined behaviour, failed CHECKs, exceptions and null dereferences are a distinct outcome (`none`, `.crash`, `.ub`, or
  a ghost flag in the state), so safety is a theorem, not an assumption.
* Things outside the code — kernel answers to read/write/connect/epoll, other threads' interleavings, hash functions,
  digest functions, clock values, hash-map traversal orders, getaddrinfo answers — are universally quantified parameters.
* Specifications are separate small definitions (`Spec.lean` or a "Specification" section) that do not use the model's
  helpers. Ghost state (logs of what happened) is only written, never read, by `step`.
* Where the code violates a property, the violation is proved (for every member of a family of inputs where possible) and
  the largest part found to hold is proved under the suffix `_partial`, or stated as a property of its own (C56-C78).
* Theorems are tested against wrong programs: `seeded/seeds*.py` edit model definitions, `tools/seed.py` rebuilds in a
  scratch copy, `seeded/LOG.jsonl` records which theorems fail.
* Beside the theorems of each component there is a concrete witness (`*_witness`, `w_*` or an `example`) showing that the
  hypotheses are met by a non-trivial case.

## 2. Trusted base

* Lean 4.33.0's kernel; Mathlib only as a library of kernel-checked lemmas. Axioms used: `propext`, `Classical.choice`,
  `Quot.sound` (section 5, per theorem). No axioms of our own, no compiled evaluation.
* The tie between model and C++ is by reading: each definition cites its source. Nothing was compiled or run.
* Memory model: shared accesses of concurrent models are sequentially consistent single steps; `std::atomic` and mutexes
  as documented. Weak-memory effects are not modelled.
* Third-party contracts assumed (not modelled inside): moodycamel::ConcurrentQueue (FIFO per producer), llhttp (callback
  sequences), nghttp2, OpenSSL (SSL_read/SSL_write result contract), zlib, boost/libaco context switching, glog CHECK,
  getaddrinfo, epoll (level/edge semantics as documented), the C++ standard containers and iostreams.

### Modelled code

| Lean directory | source |
|---|---|
| Base64 | base/utils/base64/base64.hpp, thirdparty/urlsafe64 |
| BoolIndex | components/boolean_indexer (ids, cursors, scanner, builder, containers, building and ownership of documents) |
| Client | net_io/clients: async_channel, queued_channel, client_channel, client (connections, selection), client_connector, ws_client (life cycle), requests and their results, time-outs |
| Common | helper lemmas on byte orders and streams (no source) |
| Containers | base/queue/linked_list.h, double_linked_list.h |
| Coro | base/coroutine: co_runner (resume protocol, scheduling of tasks, CO_GO), wait_group, co_mutex, io_event; net_io/coronet/io_service |
| Http | net_io/codec/http: http_message headers and URL views, thirdparty/url-parser, http_constants, parser_context (callbacks, decompression), http_codec_service (encoding, compression, both ends of a connection; llhttp by contract `Tok.Meets`; the client side's use of the request parser's type for the response parser is taken to work), h2 (h2_codec_service server side, nghttp2_util, h2_tls_context choice of the protocol) |
| IOBuffer | net_io/io_buffer |
| Inverted | components/inverted_indexer (all but the debug dumps; JSON values, not texts) |
| Line | net_io/codec/line |
| Loop | base/message_loop: message_loop (queues, start/stop), fdev_mgr, io_mux_epoll, fd_event, event_pump dispatch; PostDelayTask, PostTaskAndReply, timer_task_helper, TaskWithCleanup |
| Lru | components/lru_cache |
| Maglev | net_io/common/load_balance/maglev2, clients/router/maglev_router |
| Mysql | integration/async_mysql: mysql_async_con (state machine), mysql_client_impl (choice of a connection), query_session |
| Net | net_io/tcp_channel, codec_service HandleEvent (both ends of a connection), tcp_channel_ssl, codec_service close paths and the lifetime of its object, base/crypto/lt_ssl (TLS contexts), http_context, ip_address, ip_endpoint, socket_acceptor, address functions of socket_utils, udp_io/udp_service |
| Raw | net_io/codec/raw |
| Redis | net_io/codec/redis, thirdparty/resp |
| Router | ringhash_router, consistent_hash_map, roundrobin_router |
| Server | generic_server.h, io_service.cc (accounting, life cycle, loop assignment), raw_server.cc, http_context.cc replies, codec_factory.cc |
| Sketch | components/bloomfilter, components/count_min_sketch |
| Text | base/utils/string/str_utils, base/utils/ns_convertor (itoa_r), base/sys/byteorders.h, base/string/string_view.hpp |
| Num | base/numerics/safe_conversions, checked_math, clamped_math (and their _impl headers), safe_math_clang_gcc_impl, safe_math_shared_impl, for integers |
| Timer | thirdparty/timeout, event_pump timers, timeout_event, repeating_timer |
| Url | net_io/url_utils |
| WebSocket | net_io/codec/websocket (C parser and service), net_io/server/ws_server/ws_server.h, net_io/clients/ws_client.cc |
| Sync | base/memory (spin_lock, lazy_instance, refcountedobject, scoped_ref_ptr, defer, scoped_guard), base/lockfree |
| Metrics | components/log_metrics, components/utils/data_accumulator.h |
| Source | components/source_loader (file loader, column parser, name_struct_source, configuration) |
| Util | base/utils/rand_util, base/utils/gzip (zlib itself by contract) |
| Time | base/time (time_delta, time_base, nspr/prtime, time, time_utils) and the clamped operations of base/numerics |
| Hash | thirdparty/hash (sha1, md5, crc, murmurhash3 x86_32 and x64_128), net_io/codec/websocket/ws_util.cc |
@@EXTRA_ROWS@@
### Not modelled

base/numerics for floating point and on ARM; containers of base/string beyond string_view;
OpenSSL itself (its contract is stated in Net/SslChannel.lean and Net/TlsTrust.lean); nghttp2 itself and its client side;
mysql_loader; the mysql client library; examples; kqueue multiplexer; logging and debug dumps; thirdparty/hash
beyond the functions listed; stack switching itself (bstctx/libaco).
