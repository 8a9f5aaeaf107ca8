HOW={
'C01':"index and storage model of the buffer; refinement to a byte list by induction over operation sequences",
'C02':"storage writes out of range are `none`; invariant over operation sequences; exact characterisation of the UB inputs",
'C03':"C state machine byte by byte; parse of the built frame computed by induction on the payload",
'C04':"byte-at-a-time semantics: parsing a chunk is a fold, so folds over appended chunks agree",
'C05':"arithmetic on the three length classes; the int conversion of the send path modelled on BitVec",
'C06':"induction over bytes with the mask offset; comparison with the RFC formula",
'C07':"frame callbacks of the service as a fold over frames; control frame interleaving as a witness family",
'C08':"encode/decode on bytes with little-endian lemmas; loop over arbitrary chunkings by a stream lemma",
'C09':"decoder with wrapping 64-bit arithmetic; case analysis of the length test",
'C10':"one line per readable event, any chunking; induction over events",
'C11':"blocks of three bytes; strong induction; RFC 4648 spec with bit strings",
'C12':"bit fields on BitVec 64; bit-level extensionality",
'C13':"sorted posting lists, galloping seek; loop invariant by strong induction",
'C14':"documents, conjunction postings, scanner loop; invariant of the merge against the boolean semantics",
'C15':"list + map model; refinement to a recency list",
'C16':"bit table; monotonicity of set bits",
'C17':"table of mod-256 cells; induction over the history",
'C18':"permutation slots by coprimality, rounds and a termination measure; failing instance shown non-terminating by invariant",
'C19':"sorted ring of virtual nodes; lookup characterised as clockwise nearest",
'C20':"counter modulo 2^32; counting residues in windows",
'C21':"channel as a transition system over user, response, timeout and close events; invariant over reachable states",
'C22':"as C21, with the list element reference made explicit (freed flag)",
'C23':"labelled transition system, one shared access per step, any number of threads; inductive invariant",
'C24':"send/read loops with an arbitrary script of kernel answers; refinement to streams; TLS variant with WANT_READ/WRITE",
'C25':"array of registered events; refinement to a partial map",
'C26':"bit-exact model of the timing wheel (wheel/slot bitmaps); refinement to a set of deadlines for every clock history",
'C27':"transition system of Add/Done/timer/waiter with the posted wake-up; inductive invariant",
'C28':"transition system of the coroutine runner with ready/free/gc lists and resume ids; inductive invariant",
'C29':"pointer-level heap model of the links; representation predicate and frame lemmas",
'C30':"ordered header map with lower-cased keys; lookup lemmas",
'C31':"status table as data; exhaustive case analysis over the table plus a format lemma",
'C32':"find/substr model of Split and Join; induction over pieces",
'C33':"digit loop and reversal; induction on the value",
'C34':"byte lists of words; big-endian specification",
'C35':"byte-level RESP decoder and service counter; chunk independence and reply pairing by induction",
'C36':"transition system of accept/close/stop over n io services; inductive invariant and progress measure",
'C37':"position arithmetic of the parser on character lists, with wrapping casts; structured texts as specification",
'C38':"client bookkeeping as transition system; probing of channels with an adversarial counter",
'C39':"announced length arithmetic on BitVec 64; reachability of the bad copy only with lengths >= 2^63",
'C40':"codec/channel/context close paths as one sequential machine over events and kernel scripts; counting notifications",
'C41':"string functions as list functions against existential specifications",
'C42':"header/body callbacks of the HTTP parser as a fold over callback sequences (llhttp assumed)",
'C43':"text of encoded messages; framing specification and injectivity",
'C44':"event batch with handlers that re-register; invariant that invoked events are installed",
'C45':"combined codec and TCP channel machine; accepted bytes = socket + buffer",
'C46':"start/stop condition variable protocol as transition system; deadlock witnesses are reachable states closed under steps",
'C47':"request builder and RESP encoder on bytes; decoding back",
'C48':"chunked storage array model; moved-from values",
'C49':"addresses as byte lists; bitwise specification of prefixes and ranges",
'C50':"transition system of lock/try_lock/unlock/resume; inductive invariant",
'C51':"transition system of Wait/HandleEvent/timer; inductive invariant with ghost first outcome",
'C52':"connector as event machine with epoll flag decoding; ghost report log",
'C53':"transition system of user thread, loop and callback with mutex and condition variable; inductive invariant",
'C54':"bitmaps as 64-bit words, posting list table keyed by digest, merge; bit-level refinement to sets of documents",
'C55':"istream extraction of int32, range splitting; case analysis over all decimal texts",
}
for a,b in {'C56':'C49','C57':'C49','C58':'C49','C59':'C26','C60':'C24','C61':'C36','C62':'C36','C63':'C23','C64':'C28','C65':'C19','C66':'C38','C67':'C52','C68':'C53','C69':'C35','C70':'C47','C71':'C05','C72':'C32','C73':'C41','C74':'C27','C75':'C29','C76':'C17','C77':'C09','C78':'C45'}.items():
    HOW[a]=f"the model of {b}: {HOW[b]}"

HOW.update({
'C79':"transition system of single atomic accesses per thread; inductive invariant; bounded progress from every reachable state",
'C80':"transition system of the state word and constructing thread; inductive invariant; progress by explicit schedules",
'C81':"transition system with tagged head; forward simulation to an atomic stack (linearization points), ghost change counter",
'C82':"transition system with reference counts as numbers; invariant that counts holders per node",
'C83':"pointer slots and objects; invariant that the count is the number of references",
'C84':"histories of operations on guard objects; induction over the history",
'C85':"values as integers, summaries as folds; bucket counts against interval predicates",
'C86':"transition system over any commutative monoid; conservation and round invariants",
'C87':"transition system of both threads, queues as bags, clock; conservation invariant per item, explicit schedule for delivery",
})
for a,b in {'C88':'C85','C89':'C86','C90':'C87'}.items():
    HOW[a]=f"the model of {b}: {HOW[b]}"

HOW.update({
'C91':"files as text with a read error flag, ifstream line loop, splitting, table as association list; induction over lines and files",
'C92':"rejection loop over arbitrary word lists; cardinality of preimages; induction over read results",
})
HOW['C93']=f"the model of C91: {HOW['C91']}"

HOW.update({
'C94':"deltas as integers in the 64-bit range, checked and clamped operations; case analysis with linear arithmetic against division-free specifications",
'C95':"the code's carries, month loops and day counts against the calendar defined by year and month lengths; induction over years and loop rounds",
'C96':"the whole tokenizer as a loop over character lists; one lemma per token, chained over each format; the calendar of C95",
'C97':"the code over integers with a library contract for gmtime_r and timegm; uniqueness of calendar fields from C95",
})
for a,b in {'C98':'C94','C99':'C95','C100':'C96','C101':'C97'}.items():
    HOW[a]=f"the model of {b}: {HOW[b]}"

HOW.update({
'C102':"zlib as any stream with the contract of its manual, the code's buffer loop; induction over the rounds (capacity doubles)",
})
HOW['C103']=f"the model of C102: {HOW['C102']}"

HOW.update({
'C104':"callback state machine per connection; projection onto one stream, then folds over header blocks and data frames",
'C105':"the nested switch, generated from the source; all leaves decided by one lemma on prefix and last character",
'C106':"the response as frames for any length offered by nghttp2; case analysis, prefix characterisation of IgnoreCaseEquals",
})
HOW['C107']=f"the models of C104 and C106"

HOW.update({
'C108':"the object's byte buffer, length and state words; invariant over Update calls (buffer = unprocessed rest), padding cases, compression function equal to the FIPS one word by word",
'C109':"C108 and the base64 model composed; the C string length stops at a zero byte",
'C110':"as C108, against RFC 1321",
'C111':"tables checked entry by entry against eight register steps, then induction over the octets by splitting the register",
'C112':"the register step is a bijection; windows by induction, the reverse table checked entry by entry",
'C113':"the code over a memory of which only the key is known; the fall-through switch proved bit by bit to read the zero-padded rest",
'C114':"odd multipliers have inverses, rotations and xor-shifts are injective; folds of injective steps",
})

HOW.update({
'C115':"llhttp is any machine from bytes to completed requests and a result code; the fold over the requests of a read computed; the documented pause of llhttp as a contract for the violation, by an invariant over histories",
'C116':"the connection with handshake, frame parser, closing and registry as one machine; shape of the calls as an invariant over all histories, each violation as a history, the proper order by a second invariant over clean histories",
'C117':"the client as one machine over any response parser; invariants over histories; the key by injectivity of MurmurHash3 on 8 bytes (C114) and of base64 (C11)",
'C118':"counting over histories; the closed state is absorbing",
'C119':"the models of C115, C116 and C117",
})

HOW.update({
'C120':"both state machines of the parser as written, with 16-bit offsets; runs and pieces composed for the forward direction, inverses of each state for the converse, an invariant over both loops for the bounds",
'C121':"url_ with a generation that every change increases; a string_view is an origin with offset and length and dangles if its generation is old",
'C122':"set fields grow with the URL, so views of pieces are renewed; by induction over the pieces",
})

HOW.update({
'C123':"the acceptor as a machine over outcomes of socket, bind, listen and accept; invariants over all histories",
'C124':"the same machine; absorbing deaf state by induction over later events",
'C125':"socket addresses as byte strings (C49) cut to the 16 bytes of struct sockaddr, the stack behind it as an arbitrary list",
'C126':"slots as byte buffers that recvmmsg overwrites; induction over batches",
'C127':"the registry of C25 with a table of open descriptors; each violation for every started service",
})

HOW.update({
'C128':"the standard algorithms as recursive functions; least and greatest places by induction over the view",
'C129':"views as byte lists; induction over both lists",
'C130':"the bytes written as a function of width, fill and alignment, for every view",
})

HOW.update({
'C131':"types as an enumeration with their limits, values as integers, static_cast as reduction modulo 2^bits; range facts for pairs of types by case analysis, then one argument for all values",
'C132':"each operation as written with its promotion types; exactness for all values by the range lemmas of C131, expressions by induction",
'C133':"the direction of saturation from the signs of the operands, by cases on which limit is exceeded",
'C134':"as C132",
'C135':"as C133",
})

HOW.update({
'C136':"encoder and decoder as recursive functions over groups, the tables copied from the source; the specification is RFC 4648 on 24-bit numbers with the two characters replaced and padding dropped; induction over groups",
'C137':"texts of URL-safe characters and refused bytes by induction; the two holes as theorems",
'C138':"induction over groups with the bytes already written as accumulator",
})

HOW.update({
'C139':"events' masks, registry and the epoll lists of all loops as a state machine; invariant that each list entry is the encoding of the event's current mask, by induction over histories; what is wanted is read off the history",
'C140':"consequences of the translation for every reported mask and every history",
'C141':"bit facts for all 32-bit masks",
})

HOW.update({
'C142':"request contexts, the loop's queue and the connection as a state machine with whole calls and split calls; induction over histories against the specification firstAnswers, read off the history",
'C143':"counterexample histories for all messages",
'C144':"the registry as an association list; the specification is the last registration in the history",
'C145':"evaluation of the built-in table, and histories ending in a bad registration",
'C146':"counting residues of consecutive numbers, by induction; transfer to the counter modulo 2^32",
'C147':"induction over the number of rounds of two servers accepting in turn",
'C148':"the list of services, flag and callback as a state machine; invariant over histories",
'C149':"counterexample histories",
})

HOW.update({
'C150':"loops, waiting items, clock and log as a state machine; permutation invariant between what was asked for and what ran or waits, and a time invariant, by induction over histories; 64-bit arithmetic of the helper",
'C151':"counterexample histories",
})

HOW.update({
'C152':"connection coroutine and accept loop as state machines; invariants by induction over histories",
'C153':"counterexample histories for all bytes; for the close an invariant over all quiet histories",
})

HOW.update({
'C154':"building as folds, by induction over the expressions and conjunctions; ownership as a state machine with a permutation invariant",
'C155':"counterexamples for all expressions and ids; for the scan one step of the scanner unfolded",
})

HOW.update({
'C156':"integer arithmetic with wrap-around and checks at 64 bits, by linear arithmetic for all readings",
})

HOW.update({
'C157':"both ends as channels (C24) with a codec and a network between them; generic invariant over all histories, instantiated with the raw decoder (C08)",
'C158':"invariant over histories that the server has only sent answers; composed with C157 and C21",
'C159':"as C157, instantiated with the WebSocket parser (C03, C07)",
'C160':"as C157 with the line splitter (C10); the counterexample is computed by the kernel",
})

HOW.update({
'C161':"transition system of Run and the queues; invariant (a permutation of the submitted tasks, order of the own ones), a round invariant and a decreasing measure, for all histories",
'C162':"counterexamples for every number of turns (induction) and every history without a runner",
})

HOW.update({
'C163':"the scan over the bytes with explicit bounds; induction over the list",
'C164':"contracts of the standard conversions; induction over texts",
'C165':"counterexample families, for every number",
'C166':"JSON as a tree; both directions of an exact characterisation, by induction over the conditions",
'C167':"counterexample families",
})

HOW.update({
'C168':"as C169; the violation from C102 for every such message",
'C169':"as C157, instantiated with encoder, contract of llhttp (callbacks of well-formed messages, cut anyhow), the callbacks as a state machine and the compression of C102, C103; induction over messages and callbacks",
})
HOW.update({
'C170':"as C171; counterexample families for every message that compresses to less than its length",
'C171':"the set of headers that arrives is closed under the encoder (nothing is left to add); induction over the chain",
})
HOW.update({
'C172':"EndToEndTls.lean: invariant over both ends, fair continuation; the violation for every such pair of messages from the buffer's growth",
'C173':"as C169 over the TLS channel of C24, with the posted flush as an operation of its own whose failure is ignored; invariant that a record under way stays where it was",
'C174':"as C159 over the TLS channel of C24",
})
HOW.update({
'C175':"as C176; the effect of each operation on each bit for arguments of any size, counterexample family",
'C176':"refinement of sets of numbers by induction over the calls",
})
HOW.update({
'C177':"as C178; each violation for every such address",
'C178':"C37 for the address, C43 for the message, C30 for what the server looks up; for every order of the header map",
'C179':"as C180; each violation from every state of its kind",
'C180':"state machine of client, connector, codec, queue and descriptor table; inductive invariant that the table holds exactly the owned descriptors and at most one thing is under way",
})
HOW.update({
'C181':"as C182; counterexample families, the second for every continuation",
'C182':"Rpc.lean: state machine of loops, tasks, objects and channels; per request an inductive phase invariant (idle, posted, in the channel, result posted)",
'C183':"as C184; counterexample for every time-out and every time of the second sending",
'C184':"Deadline.lean, QueueDeadline.lean: clock, timers and requests in progress; inductive invariant that each request in progress has a timer due at its time, and for the queue that the k-th waiting one fits in k + 1 time-outs",
})
HOW.update({
'C185':"Client/Ordered.lean over an abstract connection: simulation invariant relating the channel's wire and answer lists to what each end sent and was handed on; instantiated with the TCP and TLS pairs of C169, C173 (Net/Link.lean)",
'C186':"as C185; counterexample for every closed idle channel and every continuation without timers",
})
HOW.update({
'C187':"as C188; counterexample families over all replies, splits and continuations",
'C188':"Redis/Rpc.lean: redis codec, queued channel and server composed; inductive invariant: idle, or waiting for exactly the rest of the reply stream of the request in progress (C35's Waiting)",
})
HOW.update({
'C189':"as C190; counterexample families",
'C190':"Source/Config.lean: the initializers over JSON trees, with a result that distinguishes refusal, exception, abort and undefined behaviour; both directions against a declarative description by inversion and induction over the lists",
})
HOW.update({
'C191':"as C192; counterexample families over queries, databases and continuations",
'C192':"Mysql/Model.lean: the connection's state machine, one library call per step, with a ghost server session (database selected, queries executed); inductive invariant linking state, selected database and query in progress; conversations with arbitrary waits by induction",
})
HOW.update({
'C193':"as C194; counterexamples after every careful history",
'C194':"Redis/Buffer.lean: buffers over a heap, undefined behaviour as failure; inductive invariant (each buffer refers, is small, or owns a block of its room; blocks owned once) with the contents refined to strings",
})
HOW.update({
'C195':"as C196; counterexamples for every configuration, chunking and number of moves",
'C196':"Redis/Startup.lean: the comparison of an answer runs over the memory of its resp::buffer (C194) after any number of moves; its shape by induction over the moves; the codec's handling of the answers by induction over the chunks; the channel's invariant (C188) from the state start-up leaves",
})
HOW.update({
'C197':"as C198; counterexamples for every course of the event",
'C198':"Net/Lifetime.lean: one object with its references (owner, closures, time-outs, users) and the tasks that have none; handlers are sequences of accesses interleaved with everything else; inductive invariants: freed iff no reference; installed only if the owner has it; a handler in progress has a reference; no flush task after a removal in the queue",
})
HOW.update({
'C199':"as C200; counterexamples for every infrastructure, configuration and history",
'C200':"Net/TlsTrust.lean: contexts with authorities, mode, certificate and key over an abstract file system and relation 'issued'; calls with a null context are undefined; invariant linking each context to a declarative description of the history of calls",
})
HOW.update({
'C201':"as C202; counterexamples for every such response",
'C202':"Http/NoContent.lean: the encoder of C43 against a reader that knows the methods (RFC 7230, 3.3.3), induction over the responses; the client's parser by the contract of llhttp",
})
HOW.update({
'C203':"as C204; counterexamples for every such request and history",
'C204':"Http/Serve.lean: parser, handler and encoder composed; run lemma over pieces by induction, contract of llhttp for the callbacks, C202 for the reader; a tokenizer meeting the contract is constructed",
})
HOW.update({
'C205':"as C206; counterexamples for every history",
'C206':"Client/DialSync.lean: descriptors as a list, the operating system's answers arbitrary; reading as a transition system of world and loop steps, invariant over all runs; terminating runs of the loop constructed from every reachable state; Client/DialSend.lean: the same for Send and HandleWrite, with the room in the socket's buffer",
})
HOW.update({
'C207':"as C208; a schedule constructed for every unknown error and every other error",
'C208':"Text/StrError.lean: calls as state machines over a shared buffer, a step per byte; invariants over all schedules, a measure for the end of a call",
})
HOW.update({
'C209':"as C210; counterexamples for every such size",
'C210':"Text/PrettyBytes.lean: rounding half to even on naturals, shown close and monotone; the loop's unit by cases; the text against a reader",
})
HOW.update({
'C211':"as C212; counterexamples from every reachable state with a waiting coroutine or a closure",
'C212':"Coro/RunnerEnd.lean: the destructor as a last step of the runner's model (C28), whose invariant gives where every coroutine is",
})
