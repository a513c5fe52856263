{"id": "C01", "title": "read_exactly returns exactly the next n bytes whatever the segmentation", "statement": "After any segments s1..sk have arrived (or will arrive) on a read protocol, `read_exactly(n)` yields exactly the first n bytes of the not yet consumed byte stream, and every later read continues with byte n+1; no byte is lost, duplicated or reordered. If the stream ends before n bytes arrived the read fails instead of returning short data.", "quantifier": "all byte streams, all ways of cutting them into segments, all n, all start offsets left by earlier reads", "why_tests_cant": "the number of segmentations of a stream is exponential and the bugs sit at the coincidence of segment boundary and request size", "anchors": ["scarletio/core/protocols_and_transports/protocol.py:ReadProtocolBase.read_exactly", "scarletio/core/protocols_and_transports/protocol.py:ReadProtocolBase._read_exactly", "scarletio/core/protocols_and_transports/protocol.py:ReadProtocolBase._read_exactly_by_chunk"]}
{"id": "C02", "title": "read_until returns the bytes before the first boundary whatever the segmentation", "statement": "`read_until(boundary)` returns exactly the bytes preceding the first occurrence of `boundary` in the unconsumed stream, and the next read continues right after that occurrence, independently of how the stream was cut into segments.", "quantifier": "all byte streams containing the boundary, all non-empty boundaries, all segmentations, all start offsets", "why_tests_cant": "segmentation is chosen by the network; a finite suite cannot cover partial-match / segment-boundary interplay", "anchors": ["scarletio/core/protocols_and_transports/protocol.py:ReadProtocolBase.read_until", "scarletio/core/protocols_and_transports/protocol.py:ReadProtocolBase._read_until_by_chunk", "scarletio/core/protocols_and_transports/protocol.py:_get_end_intersection_sizes"]}
{"id": "C03", "title": "read_until_eof returns everything that was received and not yet consumed", "statement": "Once end of stream was signalled, `read_until_eof()` returns the concatenation of all unconsumed bytes, in order, and nothing remains afterwards.", "quantifier": "all segment sequences and all offsets left by earlier reads", "why_tests_cant": "depends on every possible history of earlier reads", "anchors": ["scarletio/core/protocols_and_transports/protocol.py:ReadProtocolBase._read_until_eof"]}
{"id": "C04", "title": "WebSocket frame write/read round trip", "statement": "Reading the bytes produced by writing a frame yields a frame with the same FIN/RSV bits, opcode and payload, for masked and unmasked connections, and leaves the bytes following the frame untouched; this holds for every payload length, across the 7 bit / 16 bit / 64 bit length encodings.", "quantifier": "all head bytes, all payloads shorter than 2^63, all 4 byte masks, all following bytes", "why_tests_cant": "payload lengths are unbounded and the length-encoding boundaries (125/126/65535/65536) interact with masking", "anchors": ["scarletio/web_common/http_protocol.py:HttpReadWriteProtocol.write_web_socket_frame", "scarletio/web_common/http_protocol.py:HttpReadProtocol.read_web_socket_frame", "scarletio/web_common/web_socket_frame.py:WebSocketFrame"]}
{"id": "C05", "title": "WebSocket masking is the positional XOR of RFC 6455 and its own inverse", "statement": "Applying the mask twice with the same key returns the original data, the length is kept, and byte i of the result is byte i of the data XOR byte (i mod 4) of the key.", "quantifier": "all payloads of any length and all 4 byte keys", "why_tests_cant": "the loop runs over stripes; tests sample only a few lengths modulo 4", "anchors": ["scarletio/web_common/web_socket_frame.py:apply_web_socket_mask"]}
{"id": "C06", "title": "WebSocket frame reading rejects wrong masking and oversized frames", "statement": "A frame whose mask bit differs from what the endpoint expects is rejected, and a frame whose announced payload length exceeds the configured maximum is rejected before any payload byte is returned; every other complete frame is accepted.", "quantifier": "all frame headers, all maximum sizes, both endpoint roles", "why_tests_cant": "announced lengths are attacker controlled 64 bit numbers", "anchors": ["scarletio/web_common/http_protocol.py:HttpReadProtocol.read_web_socket_frame"]}
{"id": "C07", "title": "WebSocket frame validity check is exactly the RFC 6455 rule", "statement": "The frame check raises iff a reserved bit is set, or the opcode is unknown, or the frame is a control frame which is fragmented or carries more than 125 payload bytes.", "quantifier": "all 256 head bytes and all payload lengths", "why_tests_cant": "decision table over an unbounded payload length", "anchors": ["scarletio/web_common/web_socket_frame.py:WebSocketFrame.check"]}
{"id": "C08", "title": "Chunked transfer encoding round trip", "statement": "For any sequence of body writes followed by end of body, decoding the produced bytes with the chunked reader yields exactly the concatenation of the written pieces, and the bytes following the body stay unread; empty writes never terminate the body early; finishing twice writes the terminator once.", "quantifier": "all sequences of write calls with arbitrary byte pieces, all trailing bytes", "why_tests_cant": "number and sizes of writes are unbounded; an empty piece encodes the terminator", "anchors": ["scarletio/web_common/http_stream_writer.py:HTTPStreamWriter.write", "scarletio/web_common/http_stream_writer.py:HTTPStreamWriter.write_eof", "scarletio/web_common/http_protocol.py:HttpReadProtocol._read_chunked"]}
{"id": "C09", "title": "Chunked decoding does not depend on TCP segmentation", "statement": "Decoding a chunked body gives the same result for every way of cutting the same byte stream into segments.", "quantifier": "all chunked bodies and all segmentations", "why_tests_cant": "segmentation is chosen by the network", "anchors": ["scarletio/web_common/http_protocol.py:HttpReadProtocol._read_chunked", "scarletio/core/protocols_and_transports/protocol.py:ReadProtocolBase._read_until_by_chunk"]}
{"id": "C10", "title": "Chunk-size lines are accepted only when they are plain hexadecimal numbers", "statement": "The chunked reader accepts a size line only if it consists of one or more hexadecimal digits (before an optional `;` extension); anything else is rejected as a payload error.", "quantifier": "all byte lines", "why_tests_cant": "lenient integer parsing (sign, underscore, prefix, white space) is a request smuggling vector and the space of lines is infinite", "anchors": ["scarletio/web_common/http_protocol.py:HttpReadProtocol._read_chunked"]}
{"id": "C11", "title": "A future is completed at most once and its outcome never changes", "statement": "Whatever sequence of set_result / set_exception / their *_if_pending forms / cancel / cancel_with is applied to a future, the first one that takes effect fixes the outcome; every later get_result/get_exception returns or raises that same outcome, and later completion attempts raise InvalidStateError or report 0.", "quantifier": "all operation histories", "why_tests_cant": "histories are unbounded; the state is a bit field on which unforeseen combinations can arise", "anchors": ["scarletio/core/traps/future.py:Future.set_result", "scarletio/core/traps/future.py:Future.cancel", "scarletio/core/traps/future.py:Future.get_result", "scarletio/core/traps/future_states.py"]}
{"id": "C12", "title": "Every done callback is scheduled exactly once, and only after completion", "statement": "A callback registered on a future and not removed is handed to the event loop exactly once after the future completed (also if it was registered after completion), and never before; a removed callback is never handed over; removing reports how many registrations were dropped.", "quantifier": "all interleavings of add/remove/complete operations", "why_tests_cant": "depends on unbounded histories of registrations and removals", "anchors": ["scarletio/core/traps/future.py:Future.add_done_callback", "scarletio/core/traps/future.py:Future.remove_done_callback", "scarletio/core/event_loop/event_loop.py:EventThread._schedule_callbacks"]}
{"id": "C13", "title": "Cancelling a task which is still pending ends it", "statement": "If `cancel()` or `cancel_with(exception)` reports success on a pending task, then the task's coroutine sees the respective exception at its next step (unless it is already finished), whether or not the future it waits on is already done.", "quantifier": "all task states and all states of the awaited future", "why_tests_cant": "the window between completion of the awaited future and the resumption of the task is a race tests do not hit", "anchors": ["scarletio/core/traps/task.py:Task.cancel", "scarletio/core/traps/task.py:Task.cancel_with", "scarletio/core/traps/task.py:Task._step"]}
{"id": "C14", "title": "Shielding protects the inner awaitable from cancellation and mirrors its outcome", "statement": "Cancelling the future returned by `shield` never changes the protected future; if the outer future is not cancelled it ends with exactly the outcome of the protected one.", "quantifier": "all interleavings of cancelling the outer future, completing the inner one and loop steps", "why_tests_cant": "interleavings of cancellation and completion", "anchors": ["scarletio/core/traps/future_chaining.py:shield", "scarletio/core/traps/future_chaining.py:_FutureChainer", "scarletio/core/traps/future_chaining.py:_ChainRemover"]}
{"id": "C15", "title": "A lock of size n admits at most n holders", "statement": "At every moment of every execution at most one task holds a Lock, and at most `size` tasks hold a ScarletLock, including executions in which waiting tasks are cancelled.", "quantifier": "all numbers of tasks, all schedules of acquire, release and cancellation, all sizes", "why_tests_cant": "schedules are unbounded", "anchors": ["scarletio/core/traps/locks.py:Lock", "scarletio/core/traps/locks.py:ScarletLock"]}
{"id": "C16", "title": "Locks are granted in arrival order", "statement": "Waiting acquirers obtain the lock in the order in which they asked for it, skipping only those that were cancelled.", "quantifier": "all schedules of acquire, release and cancellation", "why_tests_cant": "fairness is a property of all schedules", "anchors": ["scarletio/core/traps/locks.py:Lock", "scarletio/core/traps/locks.py:ScarletLock"]}
{"id": "C17", "title": "Cancelling an acquirer never wedges the lock", "statement": "If every holder releases the lock and every not cancelled acquirer is run to completion, the lock becomes free again: cancellation of an acquirer, at any moment before it owns the lock, leaves no slot occupied.", "quantifier": "all schedules, all moments of cancellation", "why_tests_cant": "the critical window (granted but not yet resumed) is a single loop step wide", "anchors": ["scarletio/core/traps/locks.py:Lock.acquire", "scarletio/core/traps/locks.py:ScarletLock.acquire"]}
{"id": "C18", "title": "Async queue delivers every element exactly once, in FIFO order", "statement": "The sequence of elements obtained by consumers of an AsyncQueue is a prefix of the sequence of elements put into it, and elements not obtained yet are still in the queue, in order.", "quantifier": "all histories of set_result and await, any number of consumers", "why_tests_cant": "histories and consumer counts are unbounded", "anchors": ["scarletio/core/traps/queues.py:AsyncQueue"]}
{"id": "C19", "title": "Cancelling a queue consumer loses nothing", "statement": "If a task waiting for an element of an AsyncQueue is cancelled, the next element put into the queue is still delivered to the next consumer.", "quantifier": "all histories with cancelled consumers", "why_tests_cant": "needs a cancellation exactly while the queue is empty and being awaited", "anchors": ["scarletio/core/traps/queues.py:AsyncQueue.__await__", "scarletio/core/traps/queues.py:AsyncQueue.set_result"]}
{"id": "C20", "title": "A bounded queue wakes blocked producers when space becomes available", "statement": "If a producer is blocked in `set_result_wait` because the queue is full, consuming an element unblocks it.", "quantifier": "all histories of a bounded queue", "why_tests_cant": "needs a full queue and specific consumption path", "anchors": ["scarletio/core/traps/queues.py:AsyncQueue.set_result_wait", "scarletio/core/traps/queues.py:AsyncQueue._poll_from_set_result_waiters"]}
{"id": "C21", "title": "LIFO queue returns the most recently added element", "statement": "Without waiting consumers, retrieving from an AsyncLifoQueue always yields the most recently put, not yet retrieved element, by every public retrieval method.", "quantifier": "all histories of put and get", "why_tests_cant": "several retrieval methods share inherited code", "anchors": ["scarletio/core/traps/queues.py:AsyncLifoQueue"]}
{"id": "C22", "title": "Event wakes every waiter and only when set", "statement": "A task waiting on an Event resumes iff the event is set after it began waiting (or was set already); setting wakes all waiters; clearing and waiting again blocks again.", "quantifier": "all histories of set, clear and wait", "why_tests_cant": "unbounded number of waiters and histories", "anchors": ["scarletio/core/traps/event.py:Event"]}
{"id": "C23", "title": "A task group partitions its futures into done and pending", "statement": "At any time after callbacks ran every future added to a TaskGroup and not popped is reported either as pending or as done, never both, never neither, and `done` contains exactly the completed ones.", "quantifier": "all histories of add, completion, pop and cancel", "why_tests_cant": "unbounded histories", "anchors": ["scarletio/core/traps/task_group.py:TaskGroup"]}
{"id": "C24", "title": "ScarletExecutor never runs more than `limit` added tasks at once", "statement": "With one adding task, the number of added and unfinished tasks never exceeds `limit`, and when `add` returns it is below `limit`.", "quantifier": "all limits, all completion orders, any number of tasks", "why_tests_cant": "completion order is nondeterministic", "anchors": ["scarletio/core/traps/async_executing.py:ScarletExecutor.add"]}
{"id": "C25", "title": "ScarletExecutor reports a failure of any added task", "statement": "If any task added to a ScarletExecutor raises an exception other than CancelledError, leaving the `async with` block raises an exception.", "quantifier": "all completion orders relative to leaving the block", "why_tests_cant": "depends on whether the failing task finished before the block was left", "anchors": ["scarletio/core/traps/async_executing.py:ScarletExecutor.__aexit__"]}
{"id": "C26", "title": "Event loop runs call_soon callbacks in order, exactly once, never if cancelled", "statement": "Callbacks scheduled by call_soon run exactly once, in scheduling order, unless their handle was cancelled before they ran, in which case they never run.", "quantifier": "all histories, including callbacks which schedule and cancel other callbacks", "why_tests_cant": "unbounded dynamic behaviours", "anchors": ["scarletio/core/event_loop/event_loop.py:EventThread.call_soon", "scarletio/core/event_loop/event_loop.py:EventThread.runner", "scarletio/core/event_loop/handles.py:Handle"]}
{"id": "C27", "title": "Timers never fire early and fire in deadline order", "statement": "A callback scheduled with call_at(t) never runs before time t (up to the clock resolution), runs at most once, never after cancellation, and among due timers those with earlier deadline run first.", "quantifier": "all sets of timers, all clock readings, all cancellations", "why_tests_cant": "time and heap contents are unbounded", "anchors": ["scarletio/core/event_loop/event_loop.py:EventThread.call_at", "scarletio/core/event_loop/event_loop.py:EventThread.runner", "scarletio/core/event_loop/handles.py:TimerHandle"]}
{"id": "C28", "title": "A due timer eventually runs however busy the ready queue is", "statement": "If a timer is due and the loop keeps running callbacks, the timer's callback runs after finitely many callbacks, even if callbacks keep scheduling new ones with call_soon.", "quantifier": "all callback programs", "why_tests_cant": "liveness over infinite executions", "anchors": ["scarletio/core/event_loop/event_loop.py:EventThread.runner"]}
{"id": "C29", "title": "A cycler has at most one armed timer and runs its functions by priority", "statement": "Whatever sequence of operations is applied to a Cycler, at most one armed timer exists for it, no cycle function runs after `cancel()`, and functions run in ascending priority order.", "quantifier": "all operation histories, including operations made by cycle functions", "why_tests_cant": "histories and re-entrancy are unbounded", "anchors": ["scarletio/core/event_loop/cycler.py:Cycler"]}
{"id": "C30", "title": "Thread-blocking queue delivers each element once and repr has no effect", "statement": "Each element put into a SyncQueue is obtained by at most one consumer, in FIFO order; cancelling wakes a blocked consumer; formatting the queue does not change it.", "quantifier": "all interleavings of producer and consumer threads", "why_tests_cant": "thread schedules", "anchors": ["scarletio/core/event_loop/executor.py:SyncQueue"]}
{"id": "C31", "title": "Socket transport sends written bytes in order, without loss or duplication", "statement": "The bytes handed to the socket are always a prefix of the concatenation of all data passed to `write`, and the rest is exactly what is buffered; when the buffer drains all of it has been sent.", "quantifier": "all sequences of writes and all partial-send counts the OS may report", "why_tests_cant": "the OS may accept any number of bytes on any call", "anchors": ["scarletio/core/protocols_and_transports/transport_layer.py:SocketTransportLayer.write", "scarletio/core/protocols_and_transports/transport_layer.py:SocketTransportLayer._write_ready"]}
{"id": "C32", "title": "Flow control pauses above the high water mark and resumes below the low one", "statement": "The protocol receives alternating pause_writing / resume_writing notifications; it is paused after every write that leaves more than the high mark buffered, and it is resumed once a send leaves at most the low mark.", "quantifier": "all sequences of writes and partial sends, all limits", "why_tests_cant": "OS dependent partial sends", "anchors": ["scarletio/core/protocols_and_transports/transport_layer.py:SocketTransportLayerBase._maybe_pause_protocol", "scarletio/core/protocols_and_transports/transport_layer.py:SocketTransportLayerBase._maybe_resume_protocol"]}
{"id": "C33", "title": "Payload stream yields exactly the received body", "statement": "Awaiting a payload stream yields the concatenation of all chunks received before successful completion; iterating it yields the same bytes piece by piece in order; no chunk is lost or repeated.", "quantifier": "all interleavings of receiving chunks, completion and reading", "why_tests_cant": "interleavings of network and consumer", "anchors": ["scarletio/core/protocols_and_transports/payload_stream.py:PayloadStream"]}
{"id": "C34", "title": "Payload stream ends exactly once and its done callbacks run exactly once", "statement": "A payload stream enters exactly one terminal state (success, exception, cancelled, aborted); later attempts report failure and change nothing; each done callback runs exactly once.", "quantifier": "all operation histories", "why_tests_cant": "unbounded histories", "anchors": ["scarletio/core/protocols_and_transports/payload_stream.py:PayloadStream"]}
{"id": "C35", "title": "Multi value dictionary behaves as an insertion ordered map to non-empty lists of distinct values", "statement": "After any sequence of operations a MultiValueDictionary maps each present key to a non-empty list of distinct values; item assignment appends a not yet present value, lookup returns the oldest, deletion removes the oldest and drops the key with its last value.", "quantifier": "all operation histories", "why_tests_cant": "unbounded histories; the invariant is relied on by every lookup", "anchors": ["scarletio/utils/multi_value_dictionary.py:MultiValueDictionary"]}
{"id": "C36", "title": "Sorted list stays sorted without duplicates and answers membership correctly", "statement": "After any sequence of add, remove, extend, pop, reverse operations a SortedList is strictly sorted in its direction, and membership, index and keyed lookup answer as a linear search would.", "quantifier": "all operation histories over any linear order", "why_tests_cant": "binary search index errors appear only at particular positions and sizes", "anchors": ["scarletio/utils/sorted_list.py:SortedList"]}
{"id": "C37", "title": "Header dictionaries treat names case-insensitively in every operation", "statement": "For an IgnoreCaseMultiValueDictionary, lookup, membership test, assignment and deletion give the same answer for two spellings of a name which differ only by case; and for case-ignoring strings `!=` is the negation of `==`.", "quantifier": "all header names and spellings", "why_tests_cant": "2^n spellings per name, several lookup paths", "anchors": ["scarletio/utils/ignore_case_multi_value_dictionary.py:IgnoreCaseMultiValueDictionary", "scarletio/utils/ignore_case_string.py:IgnoreCaseString"]}
{"id": "C38", "title": "Percent quoting round trip", "statement": "`unquote(quote(s)) == s` for every text s, and for query strings as well.", "quantifier": "all strings", "why_tests_cant": "per byte table with 256 entries times multi byte sequences", "anchors": ["scarletio/web_common/quoting.py:quote", "scarletio/web_common/quoting.py:unquote"]}
{"id": "C39", "title": "Quoted text contains only characters allowed in a URL", "statement": "The output of `quote` consists only of unreserved characters, the permitted punctuation for the mode, characters explicitly declared safe or protected, `+` and well formed `%XX` escapes.", "quantifier": "all strings, all safe/protected sets", "why_tests_cant": "all inputs", "anchors": ["scarletio/web_common/quoting.py:quote"]}
{"id": "C40", "title": "URL path normalisation removes dot segments exactly as a stack machine would", "statement": "The normalised path contains no `.` or `..` part and equals the result of walking the parts from the root, dropping `.` and letting `..` remove the previous part (never escaping the root).", "quantifier": "all lists of path parts", "why_tests_cant": "index arithmetic during in-place deletion over unbounded lists; path traversal safety", "anchors": ["scarletio/web_common/url/url_path.py:normalize_path_parts", "scarletio/web_common/url/url_path.py:URLPath._parse"]}
{"id": "C41", "title": "Query string serialisation round trip", "statement": "Parsing a serialised query gives back the same multi value mapping.", "quantifier": "all multi value mappings without an empty key/value pair", "why_tests_cant": "separator characters may occur in keys and values", "anchors": ["scarletio/web_common/url/url_query.py:parse_query", "scarletio/web_common/url/url_query.py:serialize_query"]}
{"id": "C42", "title": "URL host info equality is an equivalence that respects the host", "statement": "Two URL host infos compare equal only if kind of host and all domain parts are equal.", "quantifier": "all pairs of host infos", "why_tests_cant": "pairs of arbitrary values", "anchors": ["scarletio/web_common/url/url_host_info.py:URLHostInfo.__eq__"]}
{"id": "C43", "title": "DNS query building and parsing round trip", "statement": "Parsing the message built from a DNS query (any number of questions with valid labels) yields the same transaction id, flags and questions.", "quantifier": "all queries with labels of 1..63 bytes and 16 bit fields", "why_tests_cant": "unbounded label lists", "anchors": ["scarletio/dns_query/building_and_parsing.py:build_query_data", "scarletio/dns_query/building_and_parsing.py:parse_result_data"]}
{"id": "C44", "title": "Parsing any DNS message terminates", "statement": "Parsing an arbitrary received datagram always ends with a result or a parsing error.", "quantifier": "all byte strings", "why_tests_cant": "compression pointers can form cycles; input is attacker controlled", "anchors": ["scarletio/dns_query/building_and_parsing.py:_parse_labels"]}
{"id": "C45", "title": "Domain name text and label list round trip", "statement": "Converting a list of labels to a domain name and parsing that name gives back the labels.", "quantifier": "all non-empty lists of valid labels", "why_tests_cant": "escaping interplay over arbitrary bytes", "anchors": ["scarletio/dns_query/helpers.py:build_name_from_labels", "scarletio/dns_query/helpers.py:parse_labels_from_name"]}
{"id": "C46", "title": "IP address text and number round trip", "statement": "Formatting any 32 bit number as IPv4 text and parsing it gives the number; the same for any 128 bit number and IPv6 text.", "quantifier": "all 2^32 and 2^128 addresses", "why_tests_cant": "2^128 inputs", "anchors": ["scarletio/dns_query/helpers.py:produce_ip_v4_string", "scarletio/dns_query/helpers.py:parse_ip_v4_string", "scarletio/dns_query/helpers.py:produce_ip_v6_string", "scarletio/dns_query/helpers.py:parse_ip_v6_string"]}
{"id": "C47", "title": "Address ordering keeps every address exactly once", "statement": "Ordering resolved addresses for connection attempts yields a permutation of the given addresses.", "quantifier": "all address lists", "why_tests_cant": "unbounded lists", "anchors": ["scarletio/dns_query/helpers.py:iter_intermediate_intermediate_addresses_ordered"]}
{"id": "C48", "title": "Search domains are appended to relative names", "statement": "For a relative name the candidate names with search domains are the name followed by the search domain, as in resolv.conf semantics.", "quantifier": "all label lists and search lists", "why_tests_cant": "all inputs", "anchors": ["scarletio/dns_query/helpers.py:iter_labels_with_searches"]}
{"id": "C49", "title": "WebSocket extension and subprotocol headers round trip", "statement": "Parsing the header built from a list of extensions with parameters, or of sub-protocols, gives back the list, for all token names.", "quantifier": "all lists of tokens", "why_tests_cant": "unbounded lists and names", "anchors": ["scarletio/web_common/header_building_and_parsing.py:build_extensions", "scarletio/web_common/header_building_and_parsing.py:parse_extensions", "scarletio/web_common/header_building_and_parsing.py:build_subprotocols", "scarletio/web_common/header_building_and_parsing.py:parse_subprotocols"]}
{"id": "C50", "title": "HTTP header block parsing inverts header writing", "statement": "Parsing the header block written for an HTTP message gives back the same (name, value) sequence, with folded lines joined, for all names that are tokens and all values without line breaks and surrounding white space; what is behind the head stays in the stream.", "quantifier": "all header lists", "why_tests_cant": "unbounded lists", "anchors": ["scarletio/web_common/helpers.py:parse_http_headers", "scarletio/web_common/http_protocol.py:HttpReadWriteProtocol.write_http_request"]}
{"id": "C51", "title": "A pooled connection is never used by two requests at once and only for its own host", "statement": "In every execution of a connector each protocol is held by at most one live connection, is never both in use and available, and is only handed out for the connection key it was created for.", "quantifier": "all histories of connect, release, close, detach, clean-up", "why_tests_cant": "histories are unbounded", "anchors": ["scarletio/http_client/connector_base.py:ConnectorBase", "scarletio/http_client/protocol_basket.py:ProtocolBasket", "scarletio/http_client/connection.py:Connection"]}
{"id": "C52", "title": "The pool only hands out live, unexpired protocols, oldest expiration first", "statement": "`pop_available_protocol` returns a protocol only if its transport is present, it is not expired and it need not be closed, and it has the smallest expiration among those; protocols skipped are dropped, none else.", "quantifier": "all pool contents and times", "why_tests_cant": "unbounded pool contents", "anchors": ["scarletio/http_client/protocol_basket.py:ProtocolBasket.pop_available_protocol"]}
{"id": "C53", "title": "A protocol leaving the pool because it expired is closed", "statement": "Every protocol which leaves the pool without being handed to a connection has been closed or lost its transport.", "quantifier": "all histories", "why_tests_cant": "a leak is not visible in a functional test", "anchors": ["scarletio/http_client/protocol_basket.py:ProtocolBasket.clean_up_expired_protocols", "scarletio/http_client/protocol_basket.py:ProtocolBasket.pop_available_protocol"]}
{"id": "C54", "title": "A cookie is only sent where RFC 6265 allows", "statement": "A stored cookie is only attached to a request whose host matches the cookie's domain (exactly for host-only cookies), whose path matches the cookie's path, and over a secure scheme if it is marked secure; and a host can store a cookie only for a domain it itself matches.", "quantifier": "all histories of responses and requests", "why_tests_cant": "histories and host/path strings are unbounded", "anchors": ["scarletio/web_common/cookiejar.py:CookieJar.update_cookies", "scarletio/web_common/cookiejar.py:CookieJar.filter_cookies", "scarletio/web_common/cookiejar.py:do_domains_match", "scarletio/web_common/cookiejar.py:do_paths_match"]}
{"id": "C55", "title": "Host rotation tries every resolved address once, starting at each in turn", "statement": "Every rotation of a host info basket yields each host info exactly once, in cyclic order, and n consecutive rotations of n host infos start at n different ones.", "quantifier": "all baskets and all numbers of rotations", "why_tests_cant": "all sizes and histories", "anchors": ["scarletio/http_client/host_info_basket.py:HostInfoBasket.iter_next_rotation"]}
{"id": "C56", "title": "Archive name deduplication never produces the same name twice", "statement": "The names produced by the name deduplicator of zip streaming are pairwise distinct, for every sequence of requested names.", "quantifier": "all sequences of names", "why_tests_cant": "unbounded sequences with crafted suffixes", "anchors": ["scarletio/streaming/zip_streaming/name_deduplication.py:name_deduplicator_default"]}
{"id": "C57", "title": "TaskGroup waiters finish when nothing is pending any more, and wait_all not earlier", "statement": "Whenever a TaskGroup has no pending future left, no waiter created by its `wait_*` methods is left unfinished; `wait_all` finishes only when nothing is pending; and a waiter propagates what its documentation says.", "quantifier": "all histories of add, completion, pop, waiting and cancelling waiters", "why_tests_cant": "depends on the interleaving of completions, waiters and callbacks", "anchors": ["scarletio/core/traps/task_group.py:_handler_wait_all", "scarletio/core/traps/task_group.py:_handler_wait_next", "scarletio/core/traps/task_group.py:_handler_wait_first_n", "scarletio/core/traps/task_group.py:TaskGroup._waited_done_callback"]}
{"id": "C58", "title": "The event loop does not sleep on ready work or past a deadline", "statement": "Whenever the loop is blocked in `select` while a handle is ready (and no other thread is between appending and waking it) or while the deadline of a scheduled timer has come, `select` returns without waiting.", "quantifier": "all histories of scheduling from the loop and from other threads, all clock values", "why_tests_cant": "depends on the interleaving of other threads with the loop's check and its going to sleep", "anchors": ["scarletio/core/event_loop/event_loop.py:EventThread.runner", "scarletio/core/event_loop/event_loop.py:EventThread.call_soon_thread_safe", "scarletio/core/event_loop/event_loop.py:EventThread.wake_up"]}
{"id": "C59", "title": "drain waits exactly while writing is paused", "statement": "`drain` blocks exactly while the transport has paused writing; a task blocked in it is woken when writing resumes and when the connection is lost.", "quantifier": "all histories of received data, reads, writing pauses, drains and connection loss", "why_tests_cant": "depends on the interleaving of reading and writing pauses, which share one flag", "anchors": ["scarletio/core/protocols_and_transports/protocol.py:ReadWriteProtocolBase._drain_helper", "scarletio/core/protocols_and_transports/protocol.py:ReadWriteProtocolBase.connection_lost", "scarletio/core/protocols_and_transports/protocol.py:ReadWriteProtocolBase.resume_writing"]}
{"id": "C60", "title": "Reading is paused above the limit and always resumed", "statement": "After receiving data the transport's reading is paused whenever more than the limit is buffered, and it is resumed once a reader waits for more data.", "quantifier": "all histories of received data, reads, writing pauses and drains", "why_tests_cant": "needs large buffers on both sides at once", "anchors": ["scarletio/core/protocols_and_transports/protocol.py:ReadProtocolBase._pause_reading", "scarletio/core/protocols_and_transports/protocol.py:ReadProtocolBase._resume_reading", "scarletio/core/protocols_and_transports/protocol.py:ReadWriteProtocolBase.pause_writing"]}
{"id": "C61", "title": "Copying a multi value dictionary through the copy protocol gives an equal dictionary", "statement": "`copy.copy(d)` and `d.copy()` of a MultiValueDictionary, and constructing one from another, give a dictionary with the same keys and values in the same order.", "quantifier": "all dictionaries", "why_tests_cant": "Round trip through `__reduce__` holds for the empty dictionary, the only one most tests would copy.", "anchors": ["scarletio/utils/multi_value_dictionary.py:MultiValueDictionary.__reduce__", "scarletio/utils/multi_value_dictionary.py:MultiValueDictionary.copy"]}
{"id": "C62", "title": "Unquoting leaves everything that is not a decodable escape as it is", "statement": "`unquote` of a text replaces the escapes which decode and, in its usual mode, `+`; every other character of the text, including escapes which cannot be decoded and a `%` which begins no escape, is returned unchanged and in its place.", "quantifier": "all texts", "why_tests_cant": "Tests unquote well formed strings; lost characters need several undecodable escapes or a truncated one.", "anchors": ["scarletio/web_common/quoting.py:unquote"]}
{"id": "C63", "title": "The parts of a URL path survive being written and parsed", "statement": "Writing the parts of a parsed path, encoded or not, and parsing the text in the same way gives the same parts, so that no part can break up into others.", "quantifier": "all parsed paths", "why_tests_cant": "Depends on slashes which came from escapes within a part; unbounded lists of parts.", "anchors": ["scarletio/web_common/url/url_path.py:URLPath._parse", "scarletio/web_common/url/url_path.py:URLPath._serialize"]}
{"id": "C64", "title": "Compressed domain names are read as RFC 1035 describes", "statement": "If the bytes at a position encode a list of labels by RFC 1035 (labels, ending in a zero byte or in a pointer to an earlier encoding), reading labels at the position gives exactly these labels and the position right behind the encoding.", "quantifier": "all messages, positions and encodings, with any chain of pointers", "why_tests_cant": "The number and nesting of pointers is unbounded.", "anchors": ["scarletio/dns_query/building_and_parsing.py:_parse_labels"]}
{"id": "C65", "title": "The name of a pointer record is the name its message holds", "statement": "The name asked from a PTR record of a response is the name which is encoded in the response for it, and asking for it never raises.", "quantifier": "all messages with a PTR record", "why_tests_cant": "Servers which compress the name in the record data break what servers which do not compress it cannot show.", "anchors": ["scarletio/dns_query/building_and_parsing.py:parse_domain_name_pointer_data"]}
{"id": "C66", "title": "A query goes to each name server at most once, in order", "statement": "The name servers a query is sent to while none answers are the configured ones in their order, starting from a rotated position when rotation is on, each at most once, and as many as the attempts allow.", "quantifier": "all numbers of servers and attempts, all transaction ids", "why_tests_cant": "Depends on the transaction id, which is random.", "anchors": ["scarletio/dns_query/requests.py:async_iter_execute_query_async"]}
{"id": "C67", "title": "Reverse lookup names are the units of the address, lowest first", "statement": "The labels for the reverse lookup of an IPv4 address are its decimal octets from the last one, then in-addr and arpa; of an IPv6 address its 32 hexadecimal digits from the last one, then ip6 and arpa. Distinct addresses have distinct labels.", "quantifier": "all addresses", "why_tests_cant": "2^128 addresses.", "anchors": ["scarletio/dns_query/helpers.py:parse_reversed_labels_from_address"]}
{"id": "C68", "title": "A zone behind an IPv6 address does not change its value", "statement": "Parsing an IPv6 address which is followed by `%` and a zone gives the same value as parsing the address alone.", "quantifier": "all addresses and zones", "why_tests_cant": "One address form has its own code path.", "anchors": ["scarletio/dns_query/helpers.py:parse_ip_v6_string"]}
{"id": "C69", "title": "A sort list element selects exactly the addresses of its network", "statement": "A sort list element `address/bits` selects exactly the addresses of its type whose upper bits agree with those of its address.", "quantifier": "all addresses and numbers of bits", "why_tests_cant": "Needs elements whose address has further bits set.", "anchors": ["scarletio/dns_query/resolve_configuration.py:parse_sort_list_element", "scarletio/dns_query/helpers.py:iter_intermediate_intermediate_addresses_ordered"]}
{"id": "C70", "title": "Every option of an options line of resolv.conf takes effect", "statement": "Reading a line `options a b c` of resolv.conf applies each of the options, in their order.", "quantifier": "all lines", "why_tests_cant": "Tests with one option per line pass.", "anchors": ["scarletio/dns_query/resolve_configuration.py:update_resolve_configuration_from_file_content"]}
{"id": "C71", "title": "A sortlist line of resolv.conf gives sort list elements", "statement": "After reading a file with `sortlist` lines the sort list is made of the elements which the words of the lines describe, and addresses can be ordered by it.", "quantifier": "all files", "why_tests_cant": "The reading and the use are tested apart from each other.", "anchors": ["scarletio/dns_query/resolve_configuration.py:update_resolve_configuration_from_file_content", "scarletio/dns_query/helpers.py:iter_intermediate_intermediate_addresses_ordered"]}
{"id": "C72", "title": "The numeric options of resolv.conf stay within their thresholds", "statement": "Whatever a file says, ndots is between 1 and 30, the timeout between 1 and 30 and the attempts between 1 and 5 after reading it; values within the thresholds are taken over unchanged.", "quantifier": "all files", "why_tests_cant": "Unbounded numbers and lines.", "anchors": ["scarletio/dns_query/resolve_configuration.py:update_resolve_configuration_from_file_content"]}
{"id": "C73", "title": "Name servers and search domains are those of resolv.conf, in order", "statement": "After reading a file the name servers and the search domains are exactly those its lines name, in the order of the lines; those which the file does not mention are as before.", "quantifier": "all files and configurations", "why_tests_cant": "Unbounded number and order of lines.", "anchors": ["scarletio/dns_query/resolve_configuration.py:update_resolve_configuration_from_file_content"]}
{"id": "C74", "title": "Reading resolv.conf does not raise", "statement": "Reading a resolv.conf file never raises, whatever is in it: what cannot be understood is ignored.", "quantifier": "all files", "why_tests_cant": "Needs malformed search domains; the file is read on import.", "anchors": ["scarletio/dns_query/resolve_configuration.py:update_resolve_configuration_from_file_content"]}
{"id": "C75", "title": "Merging configurations prefers the later value unless it is empty", "statement": "After merging one configuration into another the value of each key of each section is the one of the merged configuration if that is given and not empty, and otherwise the one from before, if there is one.", "quantifier": "all configurations", "why_tests_cant": "Unbounded sections and keys.", "anchors": ["scarletio/dns_query/resolve_configuration.py:merge_configuration"]}
{"id": "C76", "title": "The last line for a key of a section wins in a configuration file", "statement": "After parsing a configuration file the value of a key of a section is the value of the last line which gives it while that section is open, also when a section is opened more than once.", "quantifier": "all files", "why_tests_cant": "Unbounded sections and lines.", "anchors": ["scarletio/dns_query/resolve_configuration.py:parse_configuration_file_content"]}
{"id": "C77", "title": "The text of an IPv6 address is the canonical one", "statement": "The text produced for an IPv6 address is the one of RFC 5952: the longest sequence of at least two zero units is left out, the first one of several equally long ones, and nothing else.", "quantifier": "all addresses", "why_tests_cant": "2^128 addresses; depends on the positions of several sequences of zeros.", "anchors": ["scarletio/dns_query/helpers.py:produce_ip_v6_string"]}
{"id": "C78", "title": "Parsed list headers consist of tokens", "statement": "Whatever header value is parsed, the connections, the extension names, their parameter keys and their parameter values are non-empty tokens, and every upgrade is a token with an optional version that is a token.", "quantifier": "all header values that are accepted", "why_tests_cant": "All malformed header values.", "anchors": ["scarletio/web_common/header_building_and_parsing.py:parse_connections", "scarletio/web_common/header_building_and_parsing.py:parse_extensions", "scarletio/web_common/header_building_and_parsing.py:parse_upgrades"]}
{"id": "C79", "title": "Parsing a list header always ends", "statement": "Parsing a connection, subprotocol, upgrade or extension header returns or raises after at most as many rounds of its loops as the header has characters, whatever the header is.", "quantifier": "all header values", "why_tests_cant": "Termination for every input.", "anchors": ["scarletio/web_common/header_building_and_parsing.py:parse_connections", "scarletio/web_common/header_building_and_parsing.py:parse_extensions", "scarletio/web_common/header_building_and_parsing.py:parse_upgrades"]}
{"id": "C80", "title": "Content disposition types and keys are tokens", "statement": "A content disposition header is built only if its type and all its keys are non-empty tokens.", "quantifier": "all types and parameters", "why_tests_cant": "All characters at all positions.", "anchors": ["scarletio/web_common/header_building_and_parsing.py:build_content_disposition_header"]}
{"id": "C81", "title": "A built content disposition header says what was asked for", "statement": "Read by the grammar of RFC 6266 a built content disposition header has exactly the type and the parameters it was built from, in order.", "quantifier": "all types and parameters", "why_tests_cant": "Values with separators, quotes, backslashes and non-ASCII characters in all combinations.", "anchors": ["scarletio/web_common/header_building_and_parsing.py:build_content_disposition_header"]}
{"id": "C82", "title": "A built content disposition header is a single line", "statement": "A built content disposition header contains neither a carriage return nor a line feed, whatever the values are.", "quantifier": "all types, parameters and modes", "why_tests_cant": "Header injection needs particular values.", "anchors": ["scarletio/web_common/header_building_and_parsing.py:build_content_disposition_header"]}
{"id": "C83", "title": "Parsing a content disposition header inverts building it", "statement": "Parsing a content disposition header that was built gives back its type and its parameters.", "quantifier": "all types and parameters", "why_tests_cant": "All values.", "anchors": ["scarletio/web_common/header_building_and_parsing.py:build_content_disposition_header", "scarletio/web_common/multipart.py:parse_content_disposition"]}
{"id": "C84", "title": "A file name in numbered parts is joined in numeric order", "statement": "The file name of a header with the parameters filename*0, filename*1, ... is the concatenation of their values in numeric order, in whatever order the parameters are.", "quantifier": "all numbers of parts and all orders", "why_tests_cant": "Needs more than ten parts.", "anchors": ["scarletio/web_common/multipart.py:get_content_disposition_file_name"]}
{"id": "C85", "title": "Reading a request gives the request that was written", "statement": "The method, the path and the version of a request that is written are those of the request that is read.", "quantifier": "all methods, paths and versions", "why_tests_cant": "All versions; the tests use 1.1.", "anchors": ["scarletio/web_common/helpers.py:parse_http_request", "scarletio/web_common/http_protocol.py:write_http_request"]}
{"id": "C86", "title": "Reading a response gives the response that was written", "statement": "The version, the status and the reason phrase of a response that is written are those of the response that is read (an empty phrase being none).", "quantifier": "all versions, statuses with three digits, phrases", "why_tests_cant": "All phrases, with blanks in them.", "anchors": ["scarletio/web_common/helpers.py:parse_http_response", "scarletio/web_common/http_protocol.py:write_http_response"]}
{"id": "C87", "title": "Accepted header names are tokens and values are single lines", "statement": "Whatever head is parsed: if it is accepted, all header names are tokens and there is no line break in a value.", "quantifier": "all heads", "why_tests_cant": "Request smuggling needs malformed heads.", "anchors": ["scarletio/web_common/helpers.py:parse_http_headers"]}
{"id": "C88", "title": "The request line is one line", "statement": "Whatever head is parsed: if it is accepted, the method and the path (of a response: the reason) are not empty and come from one line.", "quantifier": "all heads", "why_tests_cant": "Request smuggling needs malformed heads.", "anchors": ["scarletio/web_common/helpers.py:parse_http_request", "scarletio/web_common/helpers.py:parse_http_response"]}
{"id": "C89", "title": "A written request has the headers it was given and no others", "statement": "Whatever the values of the headers are, the head that is written has exactly these headers.", "quantifier": "all headers", "why_tests_cant": "Header injection needs particular values.", "anchors": ["scarletio/web_common/http_protocol.py:write_http_request"]}
{"id": "C90", "title": "The payload of a message is framed as RFC 7230 says", "statement": "The way the payload of a message is read is the one of RFC 7230, section 3.3.3, depending on its status, transfer codings and lengths; messages with contradicting lengths are refused.", "quantifier": "all messages", "why_tests_cant": "All combinations of headers.", "anchors": ["scarletio/web_common/http_protocol.py:get_payload_reader_task", "scarletio/web_common/http_message.py:RawMessage.chunked"]}
{"id": "C91", "title": "Payloads are decoded according to their content encoding", "statement": "Whatever the framing of a payload is, it is decoded according to its content encoding, or refused if that is not known.", "quantifier": "all messages", "why_tests_cant": "All combinations of headers.", "anchors": ["scarletio/web_common/http_protocol.py:get_payload_reader_task", "scarletio/web_common/compressors.py:get_decompressor_for"]}
{"id": "C92", "title": "A connection is kept alive if and only if the message allows it", "statement": "Whether a connection is kept alive is decided by the connection options and the version of the message as RFC 7230, section 6.3, says.", "quantifier": "all messages", "why_tests_cant": "All combinations of headers and versions.", "anchors": ["scarletio/web_common/http_message.py:RawMessage.keep_alive"]}
{"id": "C93", "title": "A protocol that is handed out for another request is as good as new", "statement": "A protocol the pool hands out for another request neither streams a payload nor failed, has no unread data and did not receive the end of the stream.", "quantifier": "all histories", "why_tests_cant": "Needs the server to send or close at the right moment.", "anchors": ["scarletio/web_common/http_protocol.py:HttpReadProtocol.should_close", "scarletio/http_client/protocol_basket.py:ProtocolBasket.pop_available_protocol"]}
{"id": "C94", "title": "A cookie is not sent after its end", "statement": "What is sent with a request is what was set last under its domain and name, and has not ended by its Max-Age or else its Expires.", "quantifier": "all histories of responses and requests, all clock values", "why_tests_cant": "Needs particular clock values and histories.", "anchors": ["scarletio/web_common/cookiejar.py:CookieJar._do_expiration", "scarletio/web_common/cookiejar.py:CookieJar._expire_cookie", "scarletio/web_common/cookiejar.py:CookieJar.update_cookies"]}
{"id": "C95", "title": "A cookie is sent until its end", "statement": "A cookie that has not ended, has not been replaced by one of the same name, domain and path, and may go with a request, is sent with it.", "quantifier": "all histories of responses and requests", "why_tests_cant": "Needs particular histories: what was set before must not matter.", "anchors": ["scarletio/web_common/cookiejar.py:CookieJar.update_cookies", "scarletio/web_common/cookiejar.py:CookieJar.filter_cookies"]}
{"id": "C96", "title": "The date of a cookie is parsed as RFC 6265 says", "statement": "The date of an Expires attribute is the one of the algorithm of RFC 6265, section 5.1.1, and absent when that fails.", "quantifier": "all texts", "why_tests_cant": "All texts; the ways to be malformed are many.", "anchors": ["scarletio/web_common/cookiejar.py:parse_cookie_date"]}
{"id": "C97", "title": "A content type is read as what it says", "statement": "Whatever media type of RFC 9110, section 8.3.1, is parsed, the type, the subtype, the suffix and the values of the parameters are those that are written in it, and there is no error.", "quantifier": "all media types, all spellings of their parameters", "why_tests_cant": "All tokens and all spellings of quoted strings.", "anchors": ["scarletio/web_common/content_type.py:parse_content_type", "scarletio/web_common/content_type.py:ContentType.get_parameter"]}
{"id": "C98", "title": "The boundary of a multipart body is read back from its content type", "statement": "For every boundary a multipart writer takes, the boundary parameter of its parsed content type is the boundary.", "quantifier": "all boundaries", "why_tests_cant": "All characters a boundary may have.", "anchors": ["scarletio/web_common/multipart.py:MultipartWriter.__init__", "scarletio/web_common/content_type.py:parse_content_type"]}
{"id": "C99", "title": "The size of a multipart body is the number of bytes it writes", "statement": "Whatever was appended to a multipart writer, its size, if it has one, is the number of bytes it writes.", "quantifier": "all lists of payloads", "why_tests_cant": "All combinations of payloads; the size is declared as the content length of the request.", "anchors": ["scarletio/web_common/multipart.py:MultipartWriter.append_payload", "scarletio/web_common/multipart.py:MultipartWriter.write"]}
{"id": "C100", "title": "Base 64 encoded parts do not depend on the chunks of the data", "statement": "What is written for the data of a part with base64 as its transfer encoding is decoded to the data, in whatever chunks it comes.", "quantifier": "all data, all ways to cut it", "why_tests_cant": "All ways to cut the data into chunks.", "anchors": ["scarletio/web_common/multipart.py:MultipartPayloadWriter.write", "scarletio/web_common/multipart.py:MultipartPayloadWriter.write_eof"]}
{"id": "C101", "title": "A multipart body is read back", "statement": "Of the body a multipart writer writes the parts are read in order, each with its headers and its data.", "quantifier": "all lists of payloads", "why_tests_cant": "All data, also with the boundary in it.", "anchors": ["scarletio/web_common/multipart.py:MultipartWriter.write", "scarletio/web_common/http_protocol.py:HttpReadProtocol.read_multipart", "scarletio/web_common/http_protocol.py:HttpReadProtocol._read_single_multipart"]}
{"id": "C102", "title": "The Host header names the host of the request", "statement": "Every request that is made has one Host header, which is the host of its url and the port unless it is the default port of the scheme; unless the caller gave another one.", "quantifier": "all requests, all redirects", "why_tests_cant": "Needs redirects to other hosts.", "anchors": ["scarletio/http_client/client_request.py:ClientRequest.__new__", "scarletio/http_client/http_client.py:HTTPClient._request", "scarletio/http_client/http_client.py:HTTPClient._request2"]}
{"id": "C103", "title": "Cookies are sent only where the cookie jar lets them go", "statement": "Every request that is made has exactly the cookies the cookie jar gives for its url.", "quantifier": "all cookies, all redirects", "why_tests_cant": "Needs redirects to other hosts after cookies were sent.", "anchors": ["scarletio/http_client/client_request.py:ClientRequest.__new__", "scarletio/http_client/http_client.py:HTTPClient._request", "scarletio/http_client/http_client.py:HTTPClient._request2"]}
{"id": "C104", "title": "Credentials stay with their origin", "statement": "The credentials of a request are sent to the origin of its url, and behind redirects as long as these stay within the origin, and never to another one.", "quantifier": "all urls, all redirects", "why_tests_cant": "Needs redirects to other origins and several ways to give credentials.", "anchors": ["scarletio/http_client/http_client.py:HTTPClient._request", "scarletio/http_client/http_client.py:HTTPClient._request2", "scarletio/http_client/client_request.py:ClientRequest.__new__"]}
{"id": "C105", "title": "As many redirects are followed as are allowed", "statement": "If n redirects are allowed then up to n of them are followed, and there is an error if there is one more.", "quantifier": "all numbers, all answers of servers", "why_tests_cant": "All numbers; servers which redirect for ever.", "anchors": ["scarletio/http_client/http_client.py:HTTPClient._request", "scarletio/http_client/http_client.py:HTTPClient._request2"]}
{"id": "C106", "title": "Method and data behind a redirect are as RFC 9110 says", "statement": "A request behind a redirect has the method and the data of the one before, except behind 303 (unless HEAD), and behind 301 and 302 after POST, where it is GET without data.", "quantifier": "all methods, all statuses, all redirects", "why_tests_cant": "All combinations over several redirects.", "anchors": ["scarletio/http_client/http_client.py:HTTPClient._request", "scarletio/http_client/http_client.py:HTTPClient._request2"]}
{"id": "C107", "title": "Requests without data have no headers describing data", "statement": "A request without data has no Content-Encoding, Content-Length, Content-Type or Transfer-Encoding header.", "quantifier": "all headers, all redirects", "why_tests_cant": "Needs particular headers and redirects; a stray Transfer-Encoding desynchronises the connection.", "anchors": ["scarletio/http_client/client_request.py:ClientRequest.__new__", "scarletio/http_client/http_client.py:HTTPClient._request"]}
{"id": "C108", "title": "The data of a request is framed in exactly one way", "statement": "A request with data has either one Content-Length, or Transfer-Encoding with chunked, and never both.", "quantifier": "all headers, all data, all redirects", "why_tests_cant": "All combinations of headers; both together allow request smuggling.", "anchors": ["scarletio/http_client/client_request.py:ClientRequest.__new__"]}
{"id": "C109", "title": "Redirects lead to the url of the Location header", "statement": "A request behind a redirect goes to the url the Location header of the response refers to, relative to the url of the request.", "quantifier": "all urls, all redirects", "why_tests_cant": "All urls, all forms of references.", "anchors": ["scarletio/http_client/http_client.py:HTTPClient._request", "scarletio/http_client/http_client.py:HTTPClient._request2", "scarletio/web_common/url/url.py:URL.join"]}
{"id": "C110", "title": "Web socket messages are received as they were sent", "statement": "Messages of a web socket are received completely and in order, however they are cut into frames and whatever pings come in between, and frames which are no messages in pieces are refused.", "quantifier": "all messages, all fragmentations, all control frames in between, all operations of users meanwhile", "why_tests_cant": "All fragmentations and interleavings.", "anchors": ["scarletio/web_socket/web_socket_common_protocol.py:WebSocketCommonProtocol.read_message", "scarletio/web_socket/web_socket_common_protocol.py:WebSocketCommonProtocol.read_data_frame", "scarletio/web_socket/web_socket_common_protocol.py:WebSocketCommonProtocol.transfer_data"]}
{"id": "C111", "title": "The maximal size of a web socket message is kept exactly", "statement": "A message is delivered if it is valid and has at most max_size bytes, and none with more is, whatever control frames come in between.", "quantifier": "all sizes, all fragmentations, all control frames", "why_tests_cant": "Sizes at the limit combined with fragmentation and control frames.", "anchors": ["scarletio/web_socket/web_socket_common_protocol.py:WebSocketCommonProtocol.read_message"]}
{"id": "C112", "title": "Pings are answered, and do not keep a web socket from being closed", "statement": "For every ping that is received while the connection is open a pong with its payload is written, in order among the other frames; a ping received while it is closing does not stop the closing handshake.", "quantifier": "all sequences of frames and operations", "why_tests_cant": "Needs a ping which arrives between the two close frames.", "anchors": ["scarletio/web_socket/web_socket_common_protocol.py:WebSocketCommonProtocol._process_control_frame", "scarletio/web_socket/web_socket_common_protocol.py:WebSocketCommonProtocol.ensure_open", "scarletio/web_socket/web_socket_common_protocol.py:WebSocketCommonProtocol.pong"]}
{"id": "C113", "title": "A pong completes the pings it answers", "statement": "A pong with the payload of a ping completes its waiter (and those of the pings before), and other pongs are ignored.", "quantifier": "all payloads, all sequences", "why_tests_cant": "All sequences of pings and pongs.", "anchors": ["scarletio/web_socket/web_socket_common_protocol.py:WebSocketCommonProtocol._process_control_frame", "scarletio/web_socket/web_socket_common_protocol.py:WebSocketCommonProtocol.ping"]}
{"id": "C114", "title": "Close codes and reasons are transferred", "statement": "The code and the reason given to close are those which the peer has then, who answers with the same; and codes which must not be sent are never sent.", "quantifier": "all codes, all reasons, all sequences of operations", "why_tests_cant": "All codes and lengths of reasons, all ways to end.", "anchors": ["scarletio/web_socket/web_socket_common_protocol.py:WebSocketCommonProtocol.close", "scarletio/web_socket/web_socket_common_protocol.py:WebSocketCommonProtocol._serialize_close", "scarletio/web_socket/web_socket_common_protocol.py:WebSocketCommonProtocol._process_control_frame", "scarletio/web_socket/web_socket_common_protocol.py:WebSocketCommonProtocol.fail_connection"]}
{"id": "C115", "title": "All frames which are written are valid", "statement": "Every frame a web socket writes is one the peer has to accept: control frames have at most 125 bytes.", "quantifier": "all sequences of operations", "why_tests_cant": "All payloads, all operations.", "anchors": ["scarletio/web_socket/web_socket_common_protocol.py:WebSocketCommonProtocol.write_frame", "scarletio/web_socket/web_socket_common_protocol.py:WebSocketCommonProtocol.ping", "scarletio/web_socket/web_socket_common_protocol.py:WebSocketCommonProtocol.pong"]}
{"id": "C116", "title": "Nothing is written behind a Close frame", "statement": "A web socket writes at most one Close frame, and nothing behind it, whatever tasks are writing meanwhile; frames are written in the order in which they are given.", "quantifier": "all interleavings of writers", "why_tests_cant": "Needs particular interleavings of tasks under back pressure.", "anchors": ["scarletio/web_socket/web_socket_common_protocol.py:WebSocketCommonProtocol.write_frame", "scarletio/web_socket/web_socket_common_protocol.py:WebSocketCommonProtocol.write_close_frame", "scarletio/web_socket/web_socket_common_protocol.py:WebSocketCommonProtocol.fail_connection"]}
{"id": "C117", "title": "The connection of a web socket is closed in the end", "statement": "Behind the end of the transfer the transport is closed, and aborted if the connection is not lost within the close timeout.", "quantifier": "all roles, all transports", "why_tests_cant": "Needs peers which do not close.", "anchors": ["scarletio/web_socket/web_socket_common_protocol.py:WebSocketCommonProtocol.close_connection", "scarletio/web_socket/web_socket_common_protocol.py:WebSocketCommonProtocol.wait_for_connection_lost"]}
{"id": "C118", "title": "Clients and servers of the library open web sockets with each other", "statement": "The request of a web socket client is accepted by a web socket server, its response is accepted by the client, and both have the same subprotocol.", "quantifier": "all keys, subprotocols, additional headers", "why_tests_cant": "All random keys, all lists of subprotocols, all orders of a set.", "anchors": ["scarletio/web_socket/web_socket_client.py:WebSocketClient.__new__", "scarletio/web_socket/web_socket_server_protocol.py:WebSocketServerProtocol.handshake"]}
{"id": "C119", "title": "A web socket server accepts exactly the valid requests", "statement": "A request is accepted only if it is a GET of HTTP 1.1 or later with a host which asks for an upgrade to websocket, with one key of sixteen bytes and version 13; and such a request is accepted.", "quantifier": "all requests", "why_tests_cant": "All texts of headers, all layouts of lists.", "anchors": ["scarletio/web_socket/web_socket_server_protocol.py:WebSocketServerProtocol.handshake"]}
{"id": "C120", "title": "A web socket client accepts exactly the valid responses", "statement": "A response is accepted only if it has status 101, asks for the upgrade to websocket, has the accept key of the key that was sent and a subprotocol that was offered; every other one raises InvalidHandshake.", "quantifier": "all responses", "why_tests_cant": "All texts of headers, all layouts of lists.", "anchors": ["scarletio/web_socket/web_socket_client.py:WebSocketClient.__new__"]}
{"id": "C121", "title": "The origin restricts who may connect", "statement": "A web socket server which has an origin refuses requests of other origins with 403.", "quantifier": "all origins, all requests", "why_tests_cant": "Needs a server with an origin; the attribute is overwritten.", "anchors": ["scarletio/web_socket/web_socket_server_protocol.py:WebSocketServerProtocol.handshake", "scarletio/web_socket/web_socket_server_protocol.py:WebSocketServerProtocol.__new__"]}
{"id": "C122", "title": "The subprotocol is determined by the preferences", "statement": "The subprotocol of a connection is one of both sides, is chosen by the order of preference, and does not depend on anything else; none is chosen only if there is none of both.", "quantifier": "all lists, all orders of a set", "why_tests_cant": "Hashes of texts are random, so is the order of a set.", "anchors": ["scarletio/web_socket/web_socket_server_protocol.py:WebSocketServerProtocol.handshake"]}
{"id": "C123", "title": "Extensions are negotiated", "statement": "Extensions which both sides support are used by both, other ones which are offered are declined; a client accepts only those it has offered.", "quantifier": "all offers", "why_tests_cant": "All lists of extensions and parameters.", "anchors": ["scarletio/web_socket/web_socket_server_protocol.py:WebSocketServerProtocol.handshake", "scarletio/web_socket/web_socket_client.py:WebSocketClient.__new__"]}
{"id": "C124", "title": "Refused handshakes are answered with the right status", "statement": "A request which is no upgrade to web sockets is answered with 426, one with a wrong key or version with 400, one at shutdown with 503, and one which the request processor aborts with its response.", "quantifier": "all requests, all aborts", "why_tests_cant": "All malformed headers, all types of responses.", "anchors": ["scarletio/web_socket/web_socket_server_protocol.py:WebSocketServerProtocol.handshake"]}
{"id": "C125", "title": "The request of a web socket client is well formed", "statement": "The request has each header once: Upgrade, Connection, key, version, the host as in the url with its port, origin, the authorization of the url, extensions and subprotocols.", "quantifier": "all urls, all additional headers", "why_tests_cant": "All urls, with credentials, ports and international names.", "anchors": ["scarletio/web_socket/web_socket_client.py:WebSocketClient.__new__"]}
{"id": "C126", "title": "Containers with weak keys behave as plain ones", "statement": "A WeakSet, WeakMap or WeakKeyDictionary gives back what a plain dictionary gives which loses an item the moment its key is collected.", "quantifier": "all sequences of operations, all moments of death, all equalities of objects, all iterators", "why_tests_cant": "The moments at which objects die cannot be enumerated.", "anchors": ["scarletio/utils/weak_set.py:WeakSet", "scarletio/utils/weak_map.py:WeakMap", "scarletio/utils/weak_key_dictionary.py:WeakKeyDictionary"]}
{"id": "C127", "title": "The length of a container with weak keys", "statement": "len of a WeakSet, WeakMap or WeakKeyDictionary is the number of its living items, at every moment.", "quantifier": "all sequences of operations, all moments of death", "why_tests_cant": "Needs deaths between the steps of several iterators.", "anchors": ["scarletio/utils/weak_set.py:WeakSet.__len__", "scarletio/utils/weak_map.py:WeakMap.__len__", "scarletio/utils/weak_key_dictionary.py:WeakKeyDictionary.__len__"]}
{"id": "C128", "title": "Dead keys are removed", "statement": "When nobody iterates over a WeakSet, WeakMap or WeakKeyDictionary, it holds no reference to a dead object.", "quantifier": "all sequences of operations, all moments of death", "why_tests_cant": "Needs deaths between the steps of several iterators.", "anchors": ["scarletio/utils/weak_set.py:WeakSet._commit_removals", "scarletio/utils/weak_map.py:WeakMap._commit_removals", "scarletio/utils/weak_key_dictionary.py:WeakKeyDictionary._commit_removals"]}
{"id": "C129", "title": "Iterating while objects die", "statement": "An iterator over a WeakSet, WeakMap or WeakKeyDictionary gives in order exactly the objects which are alive when it comes to them, and deaths never change the container under it.", "quantifier": "all containers, all moments of death", "why_tests_cant": "All moments of death.", "anchors": ["scarletio/utils/weak_set.py:WeakSet.__iter__", "scarletio/utils/weak_map.py:WeakMap.__iter__", "scarletio/utils/weak_key_dictionary.py:WeakKeyDictionary.__iter__"]}
{"id": "C130", "title": "The algebra of weak sets", "statement": "Intersection, union, difference, symmetric difference (new or in place) and comparison of two weak sets are those of the sets of their living members, also if both are the same set.", "quantifier": "all sets, all equalities, all dead members", "why_tests_cant": "Sets with dead references exist only during iterations.", "anchors": ["scarletio/utils/weak_set.py:WeakSet.__and__", "scarletio/utils/weak_set.py:WeakSet.__isub__", "scarletio/utils/weak_set.py:WeakSet.__ixor__", "scarletio/utils/weak_set.py:WeakSet.__eq__"]}
{"id": "C131", "title": "Dictionaries with weak values behave as plain ones", "statement": "A WeakValueDictionary or HybridValueDictionary gives back what a plain dictionary gives which loses an item the moment its value is collected.", "quantifier": "all sequences of operations, all moments of death", "why_tests_cant": "The moments at which objects die cannot be enumerated.", "anchors": ["scarletio/utils/weak_value_dictionary.py:WeakValueDictionary", "scarletio/utils/hybrid_value_dictionary.py:HybridValueDictionary"]}
{"id": "C132", "title": "The length of a dictionary with weak values", "statement": "len of a WeakValueDictionary or HybridValueDictionary is the number of its living items, and dead values are removed once nobody iterates.", "quantifier": "all sequences of operations, all moments of death", "why_tests_cant": "Needs deaths during iterations.", "anchors": ["scarletio/utils/weak_value_dictionary.py:WeakValueDictionary._commit_removals", "scarletio/utils/hybrid_value_dictionary.py:HybridValueDictionary._commit_removals", "scarletio/utils/weak_core.py:add_to_pending_removals"]}
{"id": "C133", "title": "Dictionaries with weak items behave as plain ones", "statement": "A WeakItemDictionary gives back what a plain dictionary gives which loses an item the moment its key or its value is collected; living items are never lost.", "quantifier": "all sequences of operations, all moments of death, all equalities of keys", "why_tests_cant": "The moments at which objects die cannot be enumerated.", "anchors": ["scarletio/utils/weak_item_dictionary.py:WeakItemDictionary", "scarletio/utils/weak_item_dictionary.py:_WeakItemDictionaryValueCallback"]}
{"id": "C134", "title": "Copies of weak containers are independent", "statement": "A copy of a weak container has the living items of the original; afterwards neither is changed by what happens to the other one, and both lose what dies.", "quantifier": "all containers, all later operations", "why_tests_cant": "All moments of death after copying.", "anchors": ["scarletio/utils/weak_set.py:WeakSet.copy", "scarletio/utils/weak_map.py:WeakMap.copy", "scarletio/utils/weak_key_dictionary.py:WeakKeyDictionary.copy", "scarletio/utils/weak_item_dictionary.py:WeakItemDictionary.copy"]}
{"id": "C135", "title": "pop with a default does not raise", "statement": "pop(key, default) of a dictionary with weak values gives the default if nothing is stored under the key.", "quantifier": "all dictionaries, all keys", "why_tests_cant": "All dictionaries.", "anchors": ["scarletio/utils/weak_value_dictionary.py:WeakValueDictionary.pop", "scarletio/utils/hybrid_value_dictionary.py:HybridValueDictionary.pop"]}
{"id": "C136", "title": "Functions in threads are started once and in order", "statement": "Each function given to an Executor or a ClaimedExecutor is started at most once, by the thread it was given to; a thread starts functions in the order in which they were given to it, one after the other.", "quantifier": "all sequences of calls, all interleavings of threads, event loop, cancellations and timers", "why_tests_cant": "Interleavings of threads cannot be enumerated.", "anchors": ["scarletio/core/event_loop/executor.py:ExecutorThread.run", "scarletio/core/event_loop/executor.py:Executor.run_in_executor", "scarletio/core/event_loop/executor.py:ClaimedExecutor.execute"]}
{"id": "C137", "title": "A future gets what its own function returned", "statement": "The future of a call in a thread gets the result or the exception of the function of the same call (RuntimeError for StopIteration), or is cancelled by somebody; once done it stays, and a function whose future is done is not started.", "quantifier": "all sequences of calls, all interleavings", "why_tests_cant": "Interleavings of threads cannot be enumerated.", "anchors": ["scarletio/core/event_loop/executor.py:ExecutorThread.run", "scarletio/core/event_loop/executor.py:ExecutionPair"]}
{"id": "C138", "title": "No thread is forgotten", "statement": "The free, the running and the claimed threads of an Executor are exactly the threads which were not told to stop, each once; cancel_executors and release_executors tell all to stop and do not raise.", "quantifier": "all sequences of operations, all interleavings", "why_tests_cant": "Needs all histories of giving and taking back.", "anchors": ["scarletio/core/event_loop/executor.py:Executor._get_free_executor", "scarletio/core/event_loop/executor.py:Executor._sync_keep", "scarletio/core/event_loop/executor.py:Executor.cancel_executors", "scarletio/core/event_loop/executor.py:Executor.release_executors"]}
{"id": "C139", "title": "A free thread has nothing to do", "statement": "A thread among the free ones runs no function and has none to run, so a new call is started at once.", "quantifier": "all sequences of operations, all interleavings", "why_tests_cant": "Depends on when calls are cancelled and executors are released.", "anchors": ["scarletio/core/event_loop/executor.py:Executor._execution_ended", "scarletio/core/event_loop/executor.py:Executor._claim_ended"]}
{"id": "C140", "title": "A released ClaimedExecutor is given back", "statement": "Releasing a ClaimedExecutor gives its thread back, at once or when its calls are done.", "quantifier": "all states at the release", "why_tests_cant": "The queue may be in any state.", "anchors": ["scarletio/core/event_loop/executor.py:ClaimedExecutor.release", "scarletio/core/event_loop/executor.py:ExecutorThread._shrink_queue", "scarletio/core/event_loop/executor.py:_ClaimEndedCallback"]}
{"id": "C141", "title": "Every call in a thread comes to an end", "statement": "The future of each call becomes done once the functions end and the event loop runs.", "quantifier": "all sequences of operations, all interleavings", "why_tests_cant": "Liveness over all schedules.", "anchors": ["scarletio/core/event_loop/executor.py:ClaimedExecutor.execute", "scarletio/core/event_loop/executor.py:Executor.release_executors", "scarletio/core/event_loop/executor.py:ExecutorThread.cancel"]}
{"id": "C142", "title": "cancel_executors cancels what was not started", "statement": "cancel_executors cancels the calls which were not started yet: their functions never run and their futures are cancelled; it does not touch those which were started.", "quantifier": "all states, all later schedules", "why_tests_cant": "Races with the threads.", "anchors": ["scarletio/core/event_loop/executor.py:Executor.cancel_executors", "scarletio/core/event_loop/executor.py:ExecutorThread.cancel"]}
{"id": "C143", "title": "Threads which are not used go away", "statement": "While no calls are made, each firing of the release timer releases a free thread until there is none.", "quantifier": "all states, all delays of the timer", "why_tests_cant": "Needs long waiting times.", "anchors": ["scarletio/core/event_loop/executor.py:Executor._release_executor_step", "scarletio/core/event_loop/executor.py:Executor._sync_keep"]}
{"id": "C144", "title": "repeat_timeout never interrupts too early", "statement": "repeat_timeout cancels the task only if the current iteration (or, before the first, the time since its creation) has lasted at least the timeout, up to the resolution of the clock.", "quantifier": "all timeouts, all times and numbers of iterations, all delays of the timer", "why_tests_cant": "The timer is set lazily; the interesting coincidences depend on timing.", "anchors": ["scarletio/core/traps/timeouting.py:repeat_timeout.__call__", "scarletio/core/traps/timeouting.py:repeat_timeout.__next__"]}
{"id": "C145", "title": "repeat_timeout interrupts every iteration which takes too long", "statement": "While the block is not left, an iteration which lasts longer than the timeout is interrupted as soon as the loop runs its timers.", "quantifier": "all timeouts, all times and numbers of iterations, all reactions of the block", "why_tests_cant": "Needs long and unusual runs.", "anchors": ["scarletio/core/traps/timeouting.py:repeat_timeout.__call__", "scarletio/core/traps/timeouting.py:repeat_timeout.__new__"]}
{"id": "C146", "title": "repeat_timeout raises TimeoutError exactly for its own interruption", "statement": "Leaving the block raises TimeoutError exactly if it is left by the CancelledError caused by the timer; everything else passes through unchanged, and after it the task is not cancelled any more.", "quantifier": "all runs before and after, all ways to leave", "why_tests_cant": "Depends on who cancels and when.", "anchors": ["scarletio/core/traps/timeouting.py:repeat_timeout.__exit__", "scarletio/core/traps/timeouting.py:repeat_timeout.__call__"]}
{"id": "C147", "title": "sleep ends after its delay", "statement": "The future of sleep is completed by its timer with None, not before the delay is over; as long as it is pending its timer is in the loop; whoever completes it first decides; when it is done no timer is left behind.", "quantifier": "all delays, all interleavings of the timer, others completing the future, and callbacks", "why_tests_cant": "Races between timer and completion.", "anchors": ["scarletio/core/traps/task_suppression.py:sleep", "scarletio/core/traps/handle_cancellers.py:_SleepHandleCanceller.__call__"]}
{"id": "C148", "title": "apply_timeout times out what is still pending", "statement": "apply_timeout answers whether the future was pending, and if it was, times it out if it is still pending when the timeout is over, not earlier; of several timeouts the first to run decides; no timer is left behind.", "quantifier": "all sequences of timeouts, completions and callbacks", "why_tests_cant": "Races between timers and completion.", "anchors": ["scarletio/core/traps/future.py:Future.apply_timeout", "scarletio/core/traps/future.py:_set_timeout_if_pending", "scarletio/core/traps/future.py:_cancel_handle_callback"]}
{"id": "C149", "title": "Waiting in another thread reports the outcome of the future", "statement": "FutureWrapperSync.wait which does not time out reports the outcome with which the future was completed, the same for every waiting thread; a done future stays done.", "quantifier": "any number of waiting, setting and cancelling threads, all interleavings of their steps and the loop", "why_tests_cant": "Interleavings between single reads and writes cannot be tested.", "anchors": ["scarletio/core/traps/future_wrapper_sync.py:FutureWrapperSync.wait", "scarletio/core/traps/future.py:Future.set_result", "scarletio/core/traps/future.py:Future.set_exception", "scarletio/core/traps/future.py:Future.cancel", "scarletio/core/traps/future.py:Future.get_result"]}
{"id": "C150", "title": "No thread waits for a completed future for ever", "statement": "When the future is done and nothing happens any more, no thread is blocked in FutureWrapperSync.wait.", "quantifier": "any number of waiting, setting and cancelling threads, all interleavings", "why_tests_cant": "A lost wake up needs a switch between two adjacent operations.", "anchors": ["scarletio/core/traps/future_wrapper_sync.py:FutureWrapperSync.wait", "scarletio/core/traps/future.py:Future.add_done_callback", "scarletio/core/traps/future.py:Future.remove_done_callback", "scarletio/core/event_loop/event_loop.py:EventThread._schedule_callbacks"]}
{"id": "C151", "title": "A wait times out only while the future is pending, and cleans up", "statement": "FutureWrapperSync.wait raises TimeoutError only if the future is still pending when the timeout is over, and leaves no callback behind.", "quantifier": "any number of threads, all interleavings", "why_tests_cant": "Races between timeout and completion.", "anchors": ["scarletio/core/traps/future_wrapper_sync.py:FutureWrapperSync.wait", "scarletio/core/traps/future.py:Future.remove_done_callback"]}
{"id": "C152", "title": "Waiting and setting in threads do not raise IndexError", "statement": "Neither FutureWrapperSync.wait with a timeout nor set_result, set_exception and cancel fail with an internal IndexError.", "quantifier": "any number of threads, all interleavings", "why_tests_cant": "Races on the list of callbacks.", "anchors": ["scarletio/core/traps/future.py:Future.remove_done_callback", "scarletio/core/event_loop/event_loop.py:EventThread._schedule_callbacks"]}
{"id": "C153", "title": "A task which enters the executor is not lost", "statement": "After `async with enter_executor()` was begun, the task is done, or something will continue it, whenever it is cancelled.", "quantifier": "all bodies of the block, all interleavings of loop, executor thread and cancellations", "why_tests_cant": "Cancellation must strike in short windows between the threads.", "anchors": ["scarletio/core/traps/task_thread_switcher.py:enter_executor._executor_task", "scarletio/core/traps/task_thread_switcher.py:enter_executor._enter_executor", "scarletio/core/traps/task_thread_switcher.py:enter_executor.__aenter__", "scarletio/core/traps/task_thread_switcher.py:enter_executor.__aexit__"]}
{"id": "C154", "title": "enter_executor: the block runs in the executor thread, the rest on the loop", "statement": "The code of the block is always executed in the executor thread and the code behind it always on the event loop.", "quantifier": "all bodies, all interleavings", "why_tests_cant": "The thread depends on when the task is cancelled.", "anchors": ["scarletio/core/traps/task_thread_switcher.py:enter_executor._executor_task", "scarletio/core/traps/task_thread_switcher.py:enter_executor.__aexit__"]}
{"id": "C155", "title": "enter_executor: cancellation reaches the block at its next await", "statement": "If the task is cancelled while it is in the block, the block meets one CancelledError, at its next await.", "quantifier": "all bodies, all interleavings", "why_tests_cant": "All moments of cancellation.", "anchors": ["scarletio/core/traps/task_thread_switcher.py:enter_executor._executor_task", "scarletio/core/traps/task_thread_switcher.py:enter_executor._cancel_callback", "scarletio/core/traps/task.py:Task.cancel"]}
{"id": "C156", "title": "enter_executor: who waits for the task is told when it ends", "statement": "When a task which used enter_executor is done, its callbacks are scheduled.", "quantifier": "all bodies, all interleavings", "why_tests_cant": "The branch is reached only by cancelled tasks.", "anchors": ["scarletio/core/traps/task_thread_switcher.py:enter_executor._executor_task", "scarletio/core/event_loop/event_loop.py:EventThread._schedule_callbacks"]}
{"id": "C157", "title": "Streamed zip archives can be read", "statement": "If the stream ends without error, a reader of the archive (central directory found from the end, zip64 fields, local headers at the given offsets) finds exactly the given files in order: name, flags, method, date, crc of the contents, size, and stored data.", "quantifier": "all lists of files, all contents in all chunks, all deflaters", "why_tests_cant": "Offsets, sizes and checksums must agree for every number, size and chunking of files.", "anchors": ["scarletio/streaming/zip_streaming/zip_stream.py:stream_zip", "scarletio/streaming/zip_streaming/zip_stream.py:_create_local_file_header", "scarletio/streaming/zip_streaming/zip_stream.py:_create_central_directory_file_header", "scarletio/streaming/zip_streaming/zip_stream.py:_create_zip64_extra_field", "scarletio/streaming/zip_streaming/zip_stream.py:_create_zip64_end_of_central_directory_record", "scarletio/streaming/zip_streaming/zip_stream.py:_create_zip64_end_of_central_directory_locator", "scarletio/streaming/zip_streaming/zip_stream.py:_create_end_of_central_directory_record", "scarletio/streaming/zip_streaming/compression.py:CompressorBase.process", "scarletio/streaming/zip_streaming/compression.py:CompressorZlibDeflate.process"]}
{"id": "C158", "title": "Every list of files which the format can hold can be streamed", "statement": "If names have less than 65536 bytes and sizes, offsets and the number of files fit into 8 bytes, the stream ends without error.", "quantifier": "all lists of files", "why_tests_cant": "Needs more files or bytes than tests have.", "anchors": ["scarletio/streaming/zip_streaming/zip_stream.py:stream_zip", "scarletio/streaming/zip_streaming/zip_stream.py:_create_end_of_central_directory_record", "scarletio/streaming/zip_streaming/zip_stream.py:_create_zip64_end_of_central_directory_record"]}
{"id": "C159", "title": "Zip: the date of a file is kept", "statement": "The date and the time (up to two seconds) of a file can be read back from the archive.", "quantifier": "all dates", "why_tests_cant": "All dates of all years.", "anchors": ["scarletio/streaming/zip_streaming/file_state.py:ZipStreamFileState.__new__"]}
{"id": "C160", "title": "Zip: archives can be read from their front", "statement": "A reader which follows the specification and reads from the front finds after the data of every file its checksum and sizes, followed by the next file.", "quantifier": "all lists of files", "why_tests_cant": "The descriptors of all sizes.", "anchors": ["scarletio/streaming/zip_streaming/zip_stream.py:_create_data_descriptor", "scarletio/streaming/zip_streaming/zip_stream.py:_create_local_file_header"]}
{"id": "C161", "title": "Grouping frames conserves them", "statement": "Grouping ends, and the groups show exactly the given frames in order: a group which is not repeated holds the frames themselves, a repeated one the frames of its first round, and all rounds are alike.", "quantifier": "all lists of frames", "why_tests_cant": "Recursions of every shape, nested and overlapping.", "anchors": ["scarletio/utils/trace/frame_grouping.py:group_frames", "scarletio/utils/trace/frame_grouping.py:_group_frames_to_frame_groups", "scarletio/utils/trace/frame_grouping.py:_merge_frame_groups", "scarletio/utils/trace/frame_grouping.py:_separate_repeats_in_frame_groups", "scarletio/utils/trace/frame_group.py:FrameGroup.try_add_frame", "scarletio/utils/trace/frame_group.py:FrameGroup.try_merge", "scarletio/utils/trace/frame_group.py:FrameGroup.iter_separate_repeated", "scarletio/utils/trace/frame_group.py:FrameGroup.iter_frames"]}
{"id": "C162", "title": "The repeat strategies find the repeat they describe", "statement": "A repeat (saving at least two frames) is found exactly if there is one; the found one has the smallest chunk, of these it is the bottom-most (top-most), of these the longest.", "quantifier": "all lists of items", "why_tests_cant": "All overlapping repeats.", "anchors": ["scarletio/utils/trace/repeat_strategies.py:get_repeat_with_strategy_top", "scarletio/utils/trace/repeat_strategies.py:get_repeat_with_strategy_bot"]}
{"id": "C163", "title": "Groups of frames are normalised", "statement": "Every group is one of singles or a repeat which saves at least two frames, no two groups of singles follow each other, and nothing is repeated within a group; without repeats there is one group.", "quantifier": "all lists of frames", "why_tests_cant": "All shapes of recursions.", "anchors": ["scarletio/utils/trace/frame_grouping.py:group_frames", "scarletio/utils/trace/frame_group.py:FrameGroup.try_merge", "scarletio/utils/trace/frame_group.py:FrameGroup.iter_separate_repeated"]}
{"id": "C164", "title": "Filtering groups of frames filters the frames", "statement": "After a filter was applied to the groups they show exactly the frames which pass the filter.", "quantifier": "all lists of frames, all filters", "why_tests_cant": "Filters which look at the variables of repeated frames.", "anchors": ["scarletio/utils/trace/frame_group.py:FrameGroup.apply_frame_filter", "scarletio/utils/trace/frame_group.py:FrameGroup.drop_ignored_frames"]}
{"id": "C165", "title": "What is written to an ssl layer does not leave in the clear", "statement": "Every chunk the ssl layer gives to the underlying transport came out of the ssl object; plaintext never does.", "quantifier": "all engines, all interleavings of the transport's, the loop's and the user's calls", "why_tests_cant": "Races between close notify, close and write; partial buffers.", "anchors": ["scarletio/core/protocols_and_transports/ssl_pipe.py:SSLPipe.feed_application_data", "scarletio/core/protocols_and_transports/ssl_pipe.py:SSLPipe.shutdown", "scarletio/core/protocols_and_transports/ssl_transport_layer.py:SSLBidirectionalTransportLayer.write", "scarletio/core/protocols_and_transports/ssl_transport_layer.py:SSLBidirectionalTransportLayer._process_write_backlog", "scarletio/core/protocols_and_transports/ssl_transport_layer.py:SSLBidirectionalTransportLayer.close", "scarletio/core/protocols_and_transports/ssl_transport_layer.py:SSLBidirectionalTransportLayer.data_received"]}
{"id": "C166", "title": "Writes to an ssl layer are conserved", "statement": "What was written is what the ssl object took followed by what is in the backlog, in order and once; a buffer the ssl object refused is the next one it is given.", "quantifier": "all engines whose write is all or nothing, all interleavings", "why_tests_cant": "Retries, marks of handshake and shutdown between data.", "anchors": ["scarletio/core/protocols_and_transports/ssl_pipe.py:SSLPipe.feed_application_data", "scarletio/core/protocols_and_transports/ssl_transport_layer.py:SSLBidirectionalTransportLayer._process_write_backlog", "scarletio/core/protocols_and_transports/ssl_transport_layer.py:SSLBidirectionalTransportLayer.write"]}
{"id": "C167", "title": "What is decrypted is given to the protocol", "statement": "The protocol is given exactly the bytes the ssl object decrypted, in order and once.", "quantifier": "all engines, all interleavings", "why_tests_cant": "Errors in the middle of a batch of records.", "anchors": ["scarletio/core/protocols_and_transports/ssl_pipe.py:SSLPipe.feed_ssl_data", "scarletio/core/protocols_and_transports/ssl_transport_layer.py:SSLBidirectionalTransportLayer.data_received", "scarletio/core/protocols_and_transports/ssl_transport_layer.py:SSLBidirectionalTransportLayer.abort"]}
{"id": "C168", "title": "The waiter of an ssl connection tells how the handshake ended", "statement": "The waiter is settled at most once; it is settled when the handshake completed and when the connection is lost; its result is set only if the handshake completed.", "quantifier": "all engines, all interleavings", "why_tests_cant": "Losing or aborting the connection at every moment.", "anchors": ["scarletio/core/protocols_and_transports/ssl_transport_layer.py:SSLBidirectionalTransportLayer._wake_up_connection_made_waiter", "scarletio/core/protocols_and_transports/ssl_transport_layer.py:SSLBidirectionalTransportLayer._handshake_completed", "scarletio/core/protocols_and_transports/ssl_transport_layer.py:SSLBidirectionalTransportLayer.connection_lost", "scarletio/core/protocols_and_transports/ssl_transport_layer.py:SSLBidirectionalTransportLayer.eof_received", "scarletio/core/protocols_and_transports/ssl_transport_layer.py:SSLBidirectionalTransportLayer.abort"]}
{"id": "C169", "title": "The protocol over ssl is told its lifecycle in order", "statement": "The protocol is told of the connection once and first, then of data and eof, and of the loss at most once and last; it is told of the loss exactly if it was told of the connection.", "quantifier": "all engines, all interleavings of a calm transport", "why_tests_cant": "Errors, eof and loss in every state of the handshake.", "anchors": ["scarletio/core/protocols_and_transports/ssl_transport_layer.py:SSLBidirectionalTransportLayer._handshake_completed", "scarletio/core/protocols_and_transports/ssl_transport_layer.py:SSLBidirectionalTransportLayer.connection_lost", "scarletio/core/protocols_and_transports/ssl_transport_layer.py:SSLBidirectionalTransportLayer.eof_received", "scarletio/core/protocols_and_transports/ssl_transport_layer.py:SSLBidirectionalTransportLayer.data_received"]}
{"id": "C170", "title": "Written data does not stay in an ssl layer", "statement": "Once the session is established what was written is given to the ssl object as soon as that is able to take it.", "quantifier": "all states with an established session", "why_tests_cant": "Writes waiting for data of the peer.", "anchors": ["scarletio/core/protocols_and_transports/ssl_transport_layer.py:SSLBidirectionalTransportLayer._process_write_backlog", "scarletio/core/protocols_and_transports/ssl_transport_layer.py:SSLBidirectionalTransportLayer.data_received", "scarletio/core/protocols_and_transports/ssl_pipe.py:SSLPipe.feed_application_data"]}
{"id": "C171", "title": "Keys of a paste edit the text at the cursor", "statement": "Seen as one text with a cursor, every key of a paste does what it says: characters, line breaks and four spaces are put before the cursor, deleting takes the character before or after it, arrows, home and end move it without changing the text.", "quantifier": "all texts, all positions of the cursor, all sequences of keys", "why_tests_cant": "Joining and splitting of lines at every border.", "anchors": ["scarletio/tools/asynchronous_interactive_console/editors/editor_advanced.py:EditorAdvanced.execute_enter", "scarletio/tools/asynchronous_interactive_console/editors/editor_advanced.py:EditorAdvanced.execute_arrow_left", "scarletio/tools/asynchronous_interactive_console/editors/editor_advanced.py:EditorAdvanced.execute_arrow_right", "scarletio/tools/asynchronous_interactive_console/editors/editor_advanced.py:EditorAdvanced.execute_arrow_up", "scarletio/tools/asynchronous_interactive_console/editors/editor_advanced.py:EditorAdvanced.execute_arrow_down", "scarletio/tools/asynchronous_interactive_console/editors/editor_advanced.py:EditorAdvanced.execute_delete_left", "scarletio/tools/asynchronous_interactive_console/editors/editor_advanced.py:EditorAdvanced.execute_delete_right", "scarletio/tools/asynchronous_interactive_console/editors/editor_advanced.py:EditorAdvanced.execute_print", "scarletio/tools/asynchronous_interactive_console/editors/editor_advanced.py:EditorAdvanced.process_input"]}
{"id": "C172", "title": "Keys pressed alone format the text", "statement": "Enter begins a line with the spaces of the one it leaves, four more after a colon, four less after pass, return, continue and break; tab goes to the next multiple of four using the spaces there; back tab goes to the multiple before; other keys do what they do in a paste.", "quantifier": "all texts, all positions of the cursor", "why_tests_cant": "Spaces on both sides of the cursor, lines of every length.", "anchors": ["scarletio/tools/asynchronous_interactive_console/editors/editor_advanced.py:EditorAdvanced.execute_enter", "scarletio/tools/asynchronous_interactive_console/editors/editor_advanced.py:EditorAdvanced.execute_tab", "scarletio/tools/asynchronous_interactive_console/editors/editor_advanced.py:EditorAdvanced.execute_arrow_back_tab", "scarletio/tools/asynchronous_interactive_console/editors/editor_advanced.py:get_starting_space_count", "scarletio/tools/asynchronous_interactive_console/editors/editor_advanced.py:line_ends_with", "scarletio/tools/asynchronous_interactive_console/editors/editor_advanced.py:line_starts_with_word_any"]}
{"id": "C173", "title": "The cursor of the editor is in its text", "statement": "After whatever was read the editor has at least one line, the cursor is on one of them and not past its end, and no line contains a line break.", "quantifier": "all sequences of reads, all histories, all names", "why_tests_cant": "History moves and completions change the text under the cursor.", "anchors": ["scarletio/tools/asynchronous_interactive_console/editors/editor_advanced.py:EditorAdvanced.poll_and_process_input", "scarletio/tools/asynchronous_interactive_console/editors/editor_advanced.py:EditorAdvanced.process_input", "scarletio/tools/asynchronous_interactive_console/editors/editor_advanced.py:EditorAdvanced.try_rewind_in_history", "scarletio/tools/asynchronous_interactive_console/editors/editor_advanced.py:EditorAdvanced.try_forward_in_history", "scarletio/tools/asynchronous_interactive_console/editors/editor_advanced.py:EditorAdvanced.checkout_indexed_input", "scarletio/tools/asynchronous_interactive_console/editors/display_state.py:DisplayState"]}
{"id": "C174", "title": "What is read is what was typed", "statement": "Keys and characters which arrive together are read as those keys and characters in order; a key which arrives in parts is still that key; a key which is not known does not change the text.", "quantifier": "all sequences of keys, all ways to split them into reads", "why_tests_cant": "Reads split at every place.", "anchors": ["scarletio/tools/asynchronous_interactive_console/editors/editor_advanced.py:_read_from_node_map", "scarletio/tools/asynchronous_interactive_console/editors/editor_advanced.py:InputTokenizer.next", "scarletio/tools/asynchronous_interactive_console/editors/editor_advanced.py:InputTokenizer.is_length_greater_than", "scarletio/tools/asynchronous_interactive_console/editors/editor_advanced.py:EditorAdvanced.poll_and_process_input", "scarletio/tools/asynchronous_interactive_console/editors/editor_advanced.py:KeyNode"]}
{"id": "C175", "title": "A tab completes to the longest common beginning", "statement": "The word before the cursor is completed to the longest common beginning of the names it begins, whatever order these are found in; it is left alone if there is nothing to add.", "quantifier": "all words, all lists of names", "why_tests_cant": "The order of a set is not fixed.", "anchors": ["scarletio/tools/asynchronous_interactive_console/auto_completer.py:AutoCompleter.get_common_prefix", "scarletio/tools/asynchronous_interactive_console/auto_completer.py:AutoCompleter._iter_matches", "scarletio/tools/asynchronous_interactive_console/editors/editor_advanced.py:_get_identifier_to_autocomplete", "scarletio/tools/asynchronous_interactive_console/editors/editor_advanced.py:EditorAdvanced.execute_tab"]}
{"id": "C176", "title": "Walking in the history is reversible", "statement": "Going back shows the nearest earlier entry which differs from the one shown, going forward the nearest later one; going one way and then the other shows the entry again; going back from a new input shows every entry.", "quantifier": "all histories, all positions", "why_tests_cant": "Missing and equal entries, both ends.", "anchors": ["scarletio/tools/asynchronous_interactive_console/history.py:History.get_previous", "scarletio/tools/asynchronous_interactive_console/history.py:History.get_next", "scarletio/tools/asynchronous_interactive_console/history.py:History.maybe_add_buffer_of", "scarletio/tools/asynchronous_interactive_console/history.py:History.reset_cursor_index"]}
{"id": "C177", "title": "Edited text is not replaced by the history", "statement": "Up and down do not replace a text which was edited since it was given by the history, unless it is blank.", "quantifier": "all sequences of keys", "why_tests_cant": "The mark of an edited text is set by every key on its own.", "anchors": ["scarletio/tools/asynchronous_interactive_console/editors/editor_advanced.py:EditorAdvanced.can_move_in_history", "scarletio/tools/asynchronous_interactive_console/editors/editor_advanced.py:EditorAdvanced.should_move_in_history", "scarletio/tools/asynchronous_interactive_console/editors/editor_advanced.py:EditorAdvanced.try_rewind_in_history", "scarletio/tools/asynchronous_interactive_console/editors/editor_advanced.py:EditorAdvanced.execute_tab"]}
{"id": "C178", "title": "A reusable buffer gives back what was written last", "statement": "What was written since the last read is what is read after close, as often as wanted and in any portions, and nothing of what was in the buffer before.", "quantifier": "all sequences of writes, reads, moves and closes", "why_tests_cant": "Sessions of different lengths, every order of uses.", "anchors": ["scarletio/core/ios.py:ReuBytesIO.write", "scarletio/core/ios.py:ReuBytesIO.read", "scarletio/core/ios.py:ReuBytesIO.seek", "scarletio/core/ios.py:ReuBytesIO.close"]}
{"id": "C179", "title": "The length of a reusable buffer is the length of its content", "statement": "The length of a reusable buffer is how many bytes a read from its start gives.", "quantifier": "all sequences of uses", "why_tests_cant": "Writing over what was written.", "anchors": ["scarletio/core/ios.py:ReuBytesIO.__len__", "scarletio/core/ios.py:ReuBytesIO.write", "scarletio/core/ios.py:ReuBytesIO.seek"]}
{"id": "C180", "title": "A reusable file is read from its start after close", "statement": "The first read after close begins at the start of the file, every other where the one before it ended.", "quantifier": "all orders of reads, closes and runs of the executor", "why_tests_cant": "The executor runs in another thread.", "anchors": ["scarletio/core/ios.py:ReuAsyncIO.close", "scarletio/core/ios.py:ReuAsyncIO.read", "scarletio/core/ios.py:ReuAsyncIO._seek_and_call"]}
{"id": "C181", "title": "The executor of an asynchronous file is released once", "statement": "The executor claimed for an asynchronous file is released exactly once, when it is closed or not used anymore, also if it can not be opened or is detached.", "quantifier": "all lives of a file object, both kinds of executors", "why_tests_cant": "Failures and the garbage collector.", "anchors": ["scarletio/core/ios.py:AsyncIO.__new__", "scarletio/core/ios.py:AsyncIO.wrap", "scarletio/core/ios.py:AsyncIO.__del__", "scarletio/core/ios.py:AsyncIO.detach", "scarletio/core/ios.py:get_executor", "scarletio/core/event_loop/executor.py:ClaimedExecutor.release"]}
{"id": "C182", "title": "A pipe gets the bytes it was given", "statement": "What the system takes from the write end of a pipe is what was given to it, in order and without gaps; until it is closed nothing is dropped; a protocol which is told that the connection was closed without an exception had everything taken, and if something is dropped it is told of an exception.", "quantifier": "all sequences of writes, short writes, failures, closes and ends of the other side", "why_tests_cant": "Short writes at every border, failures at every moment.", "anchors": ["scarletio/core/protocols_and_transports/unix_pipe_transport_layer.py:UnixWritePipeTransportLayer.write", "scarletio/core/protocols_and_transports/unix_pipe_transport_layer.py:UnixWritePipeTransportLayer._write_ready", "scarletio/core/protocols_and_transports/unix_pipe_transport_layer.py:UnixWritePipeTransportLayer.write_eof", "scarletio/core/protocols_and_transports/unix_pipe_transport_layer.py:UnixWritePipeTransportLayer._read_ready", "scarletio/core/protocols_and_transports/unix_pipe_transport_layer.py:UnixWritePipeTransportLayer._close"]}
{"id": "C183", "title": "The protocol of a pipe is paused, resumed and ended", "statement": "The protocol of the write end is told to pause and to resume in turn and once, at the end, that the connection is lost; while it is not paused not more than the high limit is kept; if it is paused or the transport is closing, something will tell it.", "quantifier": "all sequences of events, all limits", "why_tests_cant": "Limits which change while it is paused, ends while it is paused.", "anchors": ["scarletio/core/protocols_and_transports/unix_pipe_transport_layer.py:UnixWritePipeTransportLayer._maybe_pause_protocol", "scarletio/core/protocols_and_transports/unix_pipe_transport_layer.py:UnixWritePipeTransportLayer._maybe_resume_protocol", "scarletio/core/protocols_and_transports/unix_pipe_transport_layer.py:UnixWritePipeTransportLayer._call_connection_lost", "scarletio/core/protocols_and_transports/unix_pipe_transport_layer.py:UnixWritePipeTransportLayer.set_write_buffer_limits"]}
{"id": "C184", "title": "The read end of a pipe gives what it receives, then its end", "statement": "The protocol of the read end gets what is received while reading is not paused, in order, then its end if there is one, and once and last that the connection is lost.", "quantifier": "all sequences of reads, pauses, closes, failures and runs of the loop", "why_tests_cant": "Calls which are delayed by the loop.", "anchors": ["scarletio/core/protocols_and_transports/unix_pipe_transport_layer.py:UnixReadPipeTransportLayer._read_ready", "scarletio/core/protocols_and_transports/unix_pipe_transport_layer.py:UnixReadPipeTransportLayer.pause_reading", "scarletio/core/protocols_and_transports/unix_pipe_transport_layer.py:UnixReadPipeTransportLayer.resume_reading", "scarletio/core/protocols_and_transports/unix_pipe_transport_layer.py:UnixReadPipeTransportLayer.close", "scarletio/core/protocols_and_transports/unix_pipe_transport_layer.py:UnixReadPipeTransportLayer._close", "scarletio/core/protocols_and_transports/unix_pipe_transport_layer.py:UnixReadPipeTransportLayer._call_connection_lost"]}
{"id": "C185", "title": "A closed pipe does not touch the callbacks of its number", "statement": "After the pipe of a transport was closed the transport does not remove callbacks registered for its number, which may belong to another file.", "quantifier": "all sequences of events", "why_tests_cant": "Needs a number which is used again.", "anchors": ["scarletio/core/protocols_and_transports/unix_pipe_transport_layer.py:UnixWritePipeTransportLayer._close", "scarletio/core/protocols_and_transports/unix_pipe_transport_layer.py:UnixWritePipeTransportLayer.abort", "scarletio/core/protocols_and_transports/unix_pipe_transport_layer.py:UnixWritePipeTransportLayer.write_eof"]}
{"id": "C186", "title": "The end of a process is noticed", "statement": "After a process ended, `wait` ends with its code for everyone who waits and for everyone who waits later.", "quantifier": "all choices of pipes, all sequences of ends, waits, stops and closes", "why_tests_cant": "Needs a process without pipes; the order of ends and waits.", "anchors": ["scarletio/core/subprocess/subprocess.py:AsyncProcess._maybe_process_exited", "scarletio/core/subprocess/subprocess.py:AsyncProcess._process_exited", "scarletio/core/subprocess/subprocess.py:AsyncProcess.wait", "scarletio/core/subprocess/subprocess.py:AsyncProcess.close"]}
{"id": "C187", "title": "Who waits for a process is told its code, once", "statement": "Every answer of `wait` is the code with which the process ended; nobody is told more often than they asked; nobody is left waiting when the code is known; who stopped waiting is not told.", "quantifier": "all sequences of ends, waits, stops and closes", "why_tests_cant": "Waits which stop in the very moment when the process ends.", "anchors": ["scarletio/core/subprocess/subprocess.py:AsyncProcess.wait", "scarletio/core/subprocess/subprocess.py:AsyncProcess._process_exited"]}
{"id": "C188", "title": "Only closing and killing ends a process", "statement": "If a process is neither closed nor killed, the library does not end it: its code is its own.", "quantifier": "all sequences of ends and lost connections", "why_tests_cant": "Needs a process which closes its outputs before it ends.", "anchors": ["scarletio/core/subprocess/subprocess.py:AsyncProcess._do_pipe_connection_lost", "scarletio/core/subprocess/subprocess.py:AsyncProcess._maybe_process_exited", "scarletio/core/subprocess/subprocess.py:AsyncProcess.close"]}
{"id": "C189", "title": "Who waits for the input of a process to be drained goes on", "statement": "A call of `drain` ends at once if writing is not paused, with an exception if the connection is lost, and if it has to wait it ends when writing is resumed or the connection is lost.", "quantifier": "all sequences of drains, pauses, resumes and lost connections", "why_tests_cant": "Needs input larger than the limits of the transport and of the pipe.", "anchors": ["scarletio/core/subprocess/subprocess.py:AsyncProcess._drain_helper", "scarletio/core/subprocess/subprocess.py:AsyncProcess.resume_writing", "scarletio/core/subprocess/subprocess.py:AsyncProcess._do_connection_lost"]}
{"id": "C190", "title": "The readers of a process get everything from the beginning", "statement": "Once a process is connected, the readers of its outputs have every byte which came from their pipes since the beginning, in order, and are told of the ends, also of what came while it was being connected.", "quantifier": "all sequences of data and ends before and after the process is connected", "why_tests_cant": "Data which comes while the next pipe is being connected.", "anchors": ["scarletio/core/subprocess/subprocess.py:AsyncProcess._pipe_data_received", "scarletio/core/subprocess/subprocess.py:AsyncProcess._do_pipe_data_received", "scarletio/core/subprocess/subprocess.py:AsyncProcess._pipe_connection_lost", "scarletio/core/subprocess/subprocess.py:AsyncProcess._do_pipe_connection_lost"]}
{"id": "C191", "title": "A semaphore lets in as many as it may", "statement": "The calls of `acquire` which returned and the value of a semaphore are together its first value and the releases; the value of a bounded semaphore is never above its first value.", "quantifier": "all sequences of acquires, releases, cancellations and resumed calls", "why_tests_cant": "Cancellations at the moment of a release.", "anchors": ["scarletio/ext/asyncio/asyncio.py:Semaphore.acquire", "scarletio/ext/asyncio/asyncio.py:Semaphore.release", "scarletio/ext/asyncio/asyncio.py:BoundedSemaphore.release"]}
{"id": "C192", "title": "Nobody waits for a semaphore which is free", "statement": "After the loop resumed everything, either the value of a semaphore is zero or nobody waits for it.", "quantifier": "all sequences of acquires, releases, cancellations and resumed calls", "why_tests_cant": "A waiter which is cancelled after it was woken must wake the next one.", "anchors": ["scarletio/ext/asyncio/asyncio.py:Semaphore.acquire", "scarletio/ext/asyncio/asyncio.py:Semaphore.release", "scarletio/ext/asyncio/asyncio.py:Semaphore._wake_up_next"]}
{"id": "C193", "title": "A semaphore is given in the order of asking", "statement": "Calls of `acquire` return in the order in which they were made.", "quantifier": "all sequences of acquires, releases, cancellations and resumed calls", "why_tests_cant": "Needs a call between the release and the resumption of a waiter.", "anchors": ["scarletio/ext/asyncio/asyncio.py:Semaphore.acquire", "scarletio/ext/asyncio/asyncio.py:Semaphore.release", "scarletio/ext/asyncio/asyncio.py:Semaphore._wake_up_next"]}
{"id": "C194", "title": "A stream reader loses no byte", "statement": "What left the buffer of a stream reader, in order, what a call keeps and what is in the buffer is what was fed to it.", "quantifier": "all sequences of feeding, ends, failures and calls of all reading methods", "why_tests_cant": "Separators and lengths across the borders of the chunks.", "anchors": ["scarletio/ext/asyncio/asyncio.py:StreamReader.feed_data", "scarletio/ext/asyncio/asyncio.py:StreamReader.read", "scarletio/ext/asyncio/asyncio.py:StreamReader.readuntil", "scarletio/ext/asyncio/asyncio.py:StreamReader.readexactly"]}
{"id": "C195", "title": "A stream reader answers what was asked", "statement": "Each answer of a stream reader has the asked length, or ends at the first separator; less, or nothing, is given only after the end of the stream.", "quantifier": "all sequences of feeding, ends, failures and calls of all reading methods", "why_tests_cant": "Ends at every place of a line.", "anchors": ["scarletio/ext/asyncio/asyncio.py:StreamReader.readline", "scarletio/ext/asyncio/asyncio.py:StreamReader.readuntil", "scarletio/ext/asyncio/asyncio.py:StreamReader.read", "scarletio/ext/asyncio/asyncio.py:StreamReader.readexactly"]}
{"id": "C196", "title": "A stream reader pauses and resumes its transport", "statement": "While a call waits for data the transport is not paused; when a call leaves no more than the limit it is resumed; with a transport which obeys, the buffer stays bounded.", "quantifier": "all sequences of feeding, ends, failures and calls, all limits", "why_tests_cant": "Calls which ask for more than the limit.", "anchors": ["scarletio/ext/asyncio/asyncio.py:StreamReader.feed_data", "scarletio/ext/asyncio/asyncio.py:StreamReader._maybe_resume_transport", "scarletio/ext/asyncio/asyncio.py:StreamReader._wait_for_data"]}
{"id": "C197", "title": "One task at a time holds the lock of a condition", "statement": "Between entering and leaving, except while it waits to be notified, a task which uses a condition holds its lock alone.", "quantifier": "all sequences of acquires, releases, waits, notifications, cancellations and resumed calls", "why_tests_cant": "Needs a cancellation between the notification and the moment when the lock is taken again.", "anchors": ["scarletio/ext/asyncio/asyncio.py:Condition.wait", "scarletio/ext/asyncio/asyncio.py:Condition.notify", "scarletio/ext/asyncio/asyncio.py:Condition.release"]}
{"id": "C198", "title": "Notifying a condition wakes those who wait longest", "statement": "`notify(n)` wakes the first `n` of those who wait and were not woken, in their order, or all if there are fewer; `notify_all` wakes all; nobody is woken twice.", "quantifier": "all states, all numbers, all sequences of operations", "why_tests_cant": "Cancelled waiters between others.", "anchors": ["scarletio/ext/asyncio/asyncio.py:Condition.notify", "scarletio/ext/asyncio/asyncio.py:Condition.notify_all", "scarletio/ext/asyncio/asyncio.py:Condition.wait"]}
{"id": "C199", "title": "Nobody is left behind at a barrier", "statement": "When no call can go on, nobody waits for others to leave, those who wait for the barrier to trip are fewer than its parties, and nobody waits at a broken barrier.", "quantifier": "all numbers of parties, all sequences of arrivals, cancellations, resets and aborts", "why_tests_cant": "Resets while the barrier drains, cancellations of the last one who leaves.", "anchors": ["scarletio/ext/asyncio/asyncio.py:Barrier.wait", "scarletio/ext/asyncio/asyncio.py:Barrier._block", "scarletio/ext/asyncio/asyncio.py:Barrier._exit", "scarletio/ext/asyncio/asyncio.py:Barrier.reset", "scarletio/ext/asyncio/asyncio.py:Barrier.abort"]}
{"id": "C200", "title": "A barrier lets pass those it was waiting for", "statement": "A barrier trips when as many different calls as it has parties are at it; until it trips again only those pass, each once.", "quantifier": "all numbers of parties, all sequences of arrivals, cancellations, resets and aborts", "why_tests_cant": "Calls which arrive while the barrier drains.", "anchors": ["scarletio/ext/asyncio/asyncio.py:Barrier.wait", "scarletio/ext/asyncio/asyncio.py:Barrier._release", "scarletio/ext/asyncio/asyncio.py:Barrier._wait"]}
{"id": "C201", "title": "Those who pass a barrier get different indexes", "statement": "The calls which pass at one trip of a barrier get different indexes, all below the number of parties.", "quantifier": "all numbers of parties, all sequences of arrivals, cancellations, resets and aborts", "why_tests_cant": "Needs a call which is cancelled while it waits.", "anchors": ["scarletio/ext/asyncio/asyncio.py:Barrier.wait"]}
{"id": "C202", "title": "Gathering gives the results of all in the order of the arguments", "statement": "If all futures finish, `gather` gives their results in the order of its arguments, as many as there are arguments; if one fails and exceptions are not asked for, the first exception is given.", "quantifier": "all lists of futures, all orders of finishing, all orders of iterating over sets", "why_tests_cant": "The order in which a set is iterated depends on addresses.", "anchors": ["scarletio/ext/asyncio/asyncio.py:gather", "scarletio/ext/asyncio/asyncio.py:_gatherer_done_callback_raise", "scarletio/ext/asyncio/asyncio.py:_gatherer_done_callback_return_exceptions"]}
{"id": "C203", "title": "Waiting ends when it should, with all the futures", "statement": "`wait` ends when the first future is done, when the first one failed or all are done, or when all are done, as was asked; every given future is in one of the two returned sets.", "quantifier": "all lists of futures, all orders of finishing", "why_tests_cant": "Waiting for the first exception while others finish.", "anchors": ["scarletio/ext/asyncio/asyncio.py:wait"]}
{"id": "C204", "title": "Who waits for a server to close is told, when it is closed", "statement": "`wait_closed` returns once the server is closed and the last of its connections is lost, for everybody who called it, and not before.", "quantifier": "all sequences of starting, closing, waiting, cancellations, accepted and lost connections", "why_tests_cant": "Needs a waiter which is cancelled, or a connection which was accepted just before closing.", "anchors": ["scarletio/core/event_loop/server.py:Server.wait_closed", "scarletio/core/event_loop/server.py:Server.close", "scarletio/core/event_loop/server.py:Server._detach", "scarletio/core/event_loop/server.py:Server._wake_up_close_waiters"]}
{"id": "C205", "title": "A server counts its connections", "statement": "The active count of a server is the number of its transports which did not lose their connection; it is never negative.", "quantifier": "all sequences of starting, closing, waiting, cancellations, accepted and lost connections", "why_tests_cant": "Connections lost after closing.", "anchors": ["scarletio/core/event_loop/server.py:Server._attach", "scarletio/core/event_loop/server.py:Server._detach"]}
{"id": "C206", "title": "A server accepts until it is closed", "statement": "A server which serves and is open watches its socket or will watch it again; a closed one does not and never will; every connection which the system gives becomes a transport, in order and once.", "quantifier": "all sequences of operations, all answers of the system", "why_tests_cant": "The system must run out of file descriptors.", "anchors": ["scarletio/core/event_loop/event_loop.py:EventThread._start_serving", "scarletio/core/event_loop/event_loop.py:EventThread._stop_serving", "scarletio/core/event_loop/event_loop.py:EventThread._accept_connection", "scarletio/core/event_loop/event_loop.py:EventThread._accept_connection_task"]}
{"id": "C207", "title": "A lack of resources delays accepting once", "statement": "If the system has no resources for a connection the server stops watching its socket and schedules one retry.", "quantifier": "all backlogs, all answers of the system", "why_tests_cant": "The system must run out of file descriptors.", "anchors": ["scarletio/core/event_loop/event_loop.py:EventThread._accept_connection", "scarletio/core/event_loop/event_loop.py:EventThread._start_serving"]}
{"id": "C208", "title": "A closed server does not say that it serves", "statement": "`serving` is true only while the server is open.", "quantifier": "all sequences of operations", "why_tests_cant": "Needs a call after closing.", "anchors": ["scarletio/core/event_loop/server.py:Server.start", "scarletio/core/event_loop/server.py:Server.close"]}
{"id": "C209", "title": "A basic authorization is read from its header", "statement": "`from_header` gives back the user and the password of every authorization of which `to_header` made the header, with the same encoding.", "quantifier": "all users, passwords and encodings", "why_tests_cant": "Newlines, and encodings which are no superset of ASCII.", "anchors": ["scarletio/web_common/basic_authorization.py:BasicAuthorization.to_header", "scarletio/web_common/basic_authorization.py:BasicAuthorization.from_header", "scarletio/web_common/basic_authorization.py:BasicAuthorization.__new__"]}
{"id": "C210", "title": "Only headers of basic authorization are accepted", "statement": "`from_header` accepts exactly the headers which consist of the method `basic` in any case, white space and a token in base 64 of a user and perhaps a colon and a password; the user has no colon.", "quantifier": "all headers, all encodings", "why_tests_cant": "Unicode letters which are folded to those of ASCII, characters which are no digits of base 64.", "anchors": ["scarletio/web_common/basic_authorization.py:BasicAuthorization.from_header"]}
{"id": "C211", "title": "Keep-alive information is read from its header", "statement": "`from_header_value` gives back the information of which `to_header_value` made the value.", "quantifier": "all timeouts and numbers of requests", "why_tests_cant": "Timeouts which are not whole.", "anchors": ["scarletio/web_common/keep_alive_info.py:KeepAliveInfo.from_header_value", "scarletio/web_common/keep_alive_info.py:KeepAliveInfo.to_header_value", "scarletio/web_common/keep_alive_info.py:KeepAliveInfo.create_default"]}
{"id": "C212", "title": "The parameters of a keep-alive header count", "statement": "The timeout and the number of requests of a header are the last ones which can be read, whatever white space and whatever other parameters are around them; else the defaults.", "quantifier": "all lists of parameters, all white space around them", "why_tests_cant": "Parameters which have no value.", "anchors": ["scarletio/web_common/keep_alive_info.py:KeepAliveInfo.from_header_value"]}
{"id": "C213", "title": "A file descriptor is watched for what it has callbacks for", "statement": "The selector watches a file descriptor for reading exactly if a callback for reading is registered, and for writing exactly if one for writing is; changing one of them does not touch the other, and removing tells whether there was one.", "quantifier": "all sequences of adding, removing, cancelling and events, all file descriptors", "why_tests_cant": "Both directions of one descriptor, cancelled handles which are only noticed at their event.", "anchors": ["scarletio/core/event_loop/event_loop.py:EventThread.add_reader", "scarletio/core/event_loop/event_loop.py:EventThread.remove_reader", "scarletio/core/event_loop/event_loop.py:EventThread.add_writer", "scarletio/core/event_loop/event_loop.py:EventThread.remove_writer", "scarletio/core/event_loop/event_loop.py:EventThread.runner"]}
{"id": "C214", "title": "The callbacks of reported events run, those which were removed do not", "statement": "If events are reported then exactly their callbacks run, each once, in order and reading before writing; a callback which was removed, replaced or cancelled never runs again, even if its event was already reported.", "quantifier": "all sequences of operations, all events", "why_tests_cant": "A callback which is replaced while it waits to run.", "anchors": ["scarletio/core/event_loop/event_loop.py:EventThread.runner", "scarletio/core/event_loop/event_loop.py:EventThread.add_reader", "scarletio/core/event_loop/event_loop.py:EventThread.remove_reader", "scarletio/core/event_loop/event_loop.py:EventThread.add_writer", "scarletio/core/event_loop/event_loop.py:EventThread.remove_writer"]}
{"id": "C215", "title": "Received bytes are given out once and in order", "statement": "What the calls of `socket_receive` returned, in the order of their completion, and then what waits in the socket, is what arrived; a call returns at most once, not more than it asked for, and cancelled calls consume nothing.", "quantifier": "all interleavings of calls, arriving bytes, cancellations and callbacks", "why_tests_cant": "A cancellation between the event and its callback.", "anchors": ["scarletio/core/event_loop/event_loop.py:EventThread.socket_receive", "scarletio/core/event_loop/event_loop.py:EventThread._socket_receive", "scarletio/core/event_loop/event_loop.py:EventThread._socket_read_done_callback"]}
{"id": "C216", "title": "A call which waits for a socket is completed", "statement": "When there are bytes then every call of `socket_receive` which waits is completed sooner or later, so its callback is registered.", "quantifier": "all interleavings of calls, arriving bytes, cancellations and callbacks", "why_tests_cant": "Two calls on one socket at the same time.", "anchors": ["scarletio/core/event_loop/event_loop.py:EventThread.socket_receive", "scarletio/core/event_loop/event_loop.py:EventThread.add_reader", "scarletio/core/event_loop/event_loop.py:EventThread._socket_read_done_callback"]}
{"id": "C217", "title": "Sending sends everything", "statement": "When `socket_send_all` returns, the system took exactly the bytes of the data; until then it took a prefix of them, and gets further whenever there is room.", "quantifier": "all data, all ways in which the system takes it, cancellations", "why_tests_cant": "Memoryviews whose items are larger than a byte.", "anchors": ["scarletio/core/event_loop/event_loop.py:EventThread.socket_send_all", "scarletio/core/event_loop/event_loop.py:EventThread._socket_send_all", "scarletio/core/event_loop/event_loop.py:EventThread._socket_write_done_callback"]}
{"id": "C218", "title": "Asynchronous generators are closed at shutdown", "statement": "`shutdown_async_generators` closes every asynchronous generator which was iterated on the loop and was not finalized.", "quantifier": "all sequences of iterating, finalizing and shutting down", "why_tests_cant": "Any generator which is alive at the shutdown.", "anchors": ["scarletio/core/event_loop/event_loop.py:EventThread.shutdown_async_generators", "scarletio/core/event_loop/event_loop_functionality_helpers.py:_async_generator_first_iteration_hook", "scarletio/core/event_loop/event_loop_functionality_helpers.py:_async_generator_finalizer_hook"]}
{"id": "C219", "title": "The tasks of a loop are those which can be reached", "statement": "`get_tasks` ends, and finds exactly the futures which can be reached from the running task and the handles of the loop through callbacks, methods, weak references and task groups, each once.", "quantifier": "all graphs of futures, all orders in which a set is emptied", "why_tests_cant": "Cycles, and orders of `set.pop`.", "anchors": ["scarletio/core/event_loop/event_loop.py:EventThread.get_tasks", "scarletio/core/event_loop/event_loop_functionality_helpers.py:_iter_futures_of"]}
{"id": "C220", "title": "The fields of an urlencoded form are read back", "statement": "Reading the body of a form which is not multipart, as `application/x-www-form-urlencoded`, gives every name and every value, in order and in the encoding of the form; a sequence gives one pair for each of its items.", "quantifier": "all fields, all names and values, all encodings", "why_tests_cant": "Any characters: separators, spaces, percents, bytes of any encoding.", "anchors": ["scarletio/web_common/form_data.py:FormData._generate_form_urlencoded", "scarletio/web_common/form_data.py:FormData.generate_form"]}
{"id": "C221", "title": "A form is multipart exactly if a field needs it", "statement": "A form is multipart exactly if one of its fields is a file, bytes or json, or has a content type, a file name or a transfer encoding; a field which was refused changes nothing.", "quantifier": "all sequences of calls with any parameters", "why_tests_cant": "Calls which raise in the middle.", "anchors": ["scarletio/web_common/form_data.py:FormData.add_field", "scarletio/web_common/form_data.py:FormData.add_json", "scarletio/web_common/form_data.py:FormData.__new__"]}
{"id": "C222", "title": "The fields of a multipart form are its parts", "statement": "If each field of a form can be sent, then the form can be, and a multipart body has one part for each field, in order, with its name, its file name and its content.", "quantifier": "all lists of fields", "why_tests_cant": "Fields of different kinds in one form.", "anchors": ["scarletio/web_common/form_data.py:FormData._generate_form_data", "scarletio/web_common/form_data.py:FormData.generate_form", "scarletio/web_common/multipart.py:create_payload"]}
{"id": "C223", "title": "The content type of a part", "statement": "The content type of the part of a field is the one which was given for it, else it is guessed from the file name which was given for it, else from the name of the file; strings are plain text in the encoding of the form.", "quantifier": "all fields, all guesses", "why_tests_cant": "Files without a name, or with another one.", "anchors": ["scarletio/web_common/form_data.py:FormData._generate_form_data", "scarletio/web_common/multipart.py:PayloadBase.__init__", "scarletio/web_common/multipart.py:IOBasePayload.__init__"]}
{"id": "C224", "title": "A part has one content type", "statement": "Every part has exactly one content type: for `MultipartWriter.append` the one in the given headers, if there is one.", "quantifier": "all values, all headers", "why_tests_cant": "Headers which are merged from two sources.", "anchors": ["scarletio/web_common/multipart.py:MultipartWriter.append", "scarletio/web_common/multipart.py:PayloadBase.__init__", "scarletio/web_common/form_data.py:FormData._generate_form_data"]}
{"id": "C225", "title": "Tokens cut the content into pieces", "statement": "Parsing for highlighting ends for every content, and the tokens with a length are the content cut into pieces: they are in order, none overlaps, none is missing, and a line break is a token of its own.", "quantifier": "all contents, all lexers of spaces and words which consume something", "why_tests_cant": "Strings in format codes in strings, unterminated at any place.", "anchors": ["scarletio/utils/highlight/parser_context.py:HighlightParserContext.add_token", "scarletio/utils/highlight/matching.py:_keep_python_parsing", "scarletio/utils/highlight/matching.py:_consume_format_string_until"]}
{"id": "C226", "title": "The place of a token", "statement": "The line and the column of a token are those of the place in the content where it begins, and a token without a length, which closes what was left open, stands where that is closed.", "quantifier": "all contents", "why_tests_cant": "Tokens which are not in the content.", "anchors": ["scarletio/utils/highlight/parser_context.py:HighlightParserContext.add_token"]}
{"id": "C227", "title": "Braces are balanced", "statement": "The opening and closing tokens are balanced, also if the braces of the content are not, and each layer reaches from an opening token to the closing one which belongs to it.", "quantifier": "all contents", "why_tests_cant": "Braces and quotes which are mixed up or left open.", "anchors": ["scarletio/utils/highlight/parser_context.py:HighlightParserContext.add_token", "scarletio/utils/highlight/matching.py:_consume_format_string_until"]}
{"id": "C228", "title": "The layer of a token", "statement": "Searching for the layer of a token finds the innermost layer which the token is in, and none only if there is none.", "quantifier": "all lists of layers, all tokens", "why_tests_cant": "Layers in layers at any depth.", "anchors": ["scarletio/utils/highlight/utils.py:search_layer_index"]}
{"id": "C229", "title": "The lines of a file", "statement": "For each line of the content the line which is got by its index is that line with its line break; for an index which has none nothing or an empty line is got.", "quantifier": "all contents, all indexes", "why_tests_cant": "Lines whose tokens have no length, strings over many lines.", "anchors": ["scarletio/utils/highlight/utils.py:search_line_start_index_in_tokens", "scarletio/utils/highlight/utils.py:search_line_end_index_in_tokens", "scarletio/utils/trace/expression_parsing/file_info.py:FileInfo.get_line"]}
{"id": "C230", "title": "A word pattern matches the longest word", "statement": "A word pattern matches the longest of its words which the string begins with at the index, and nothing only if it begins with none of them.", "quantifier": "all lists of words, all strings", "why_tests_cant": "Words which are the begin of others, the empty word, repeated words.", "anchors": ["scarletio/utils/highlight/word_pattern.py:WordNode.add_node", "scarletio/utils/highlight/word_pattern.py:WordNode._match_index", "scarletio/utils/highlight/word_pattern.py:WordNode.match", "scarletio/utils/highlight/word_pattern.py:create_word_pattern"]}
{"id": "C231", "title": "The query and the fragment of a url", "statement": "The fragment of a url is what is after the first `#` of its text, its query what is between the first `?` before that and it; and neither decides anything else: the url is read as the text before them is, with them added.", "quantifier": "all texts", "why_tests_cant": "Marks which are in each other, in paths and in users.", "anchors": ["scarletio/web_common/url/constants.py:URL_RP", "scarletio/web_common/url/url.py:URL.__new__"]}
{"id": "C232", "title": "The host of a url", "statement": "If the text is a scheme, `://` and an authority, the host, user and port of the url are the ones which the authority names as of RFC 3986, and never another part of the text; what is no valid authority is refused.", "quantifier": "all texts", "why_tests_cant": "Users which look like hosts, hosts which look like paths.", "anchors": ["scarletio/web_common/url/constants.py:URL_RP", "scarletio/web_common/url/constants.py:HOST_RP", "scarletio/web_common/url/url.py:_create_host", "scarletio/web_common/url/url.py:URL.__new__"]}
{"id": "C233", "title": "The text of a url reads back", "statement": "Reading the text of a url gives the url again: with the same scheme, user, host, port, path, query and fragment.", "quantifier": "all urls", "why_tests_cant": "Parts which are empty or hold the marks of others, urls without a scheme.", "anchors": ["scarletio/web_common/url/url.py:_build_value", "scarletio/web_common/url/url.py:URL.__new__", "scarletio/web_common/url/constants.py:URL_RP"]}
{"id": "C234", "title": "Joining urls", "statement": "Joining a url with a reference gives what RFC 3986 resolves it to: a full url stands for itself, a path is from the root, and what is missing in the reference is taken from the base.", "quantifier": "all urls, all references", "why_tests_cant": "References with hosts, with paths, with queries and with none of them.", "anchors": ["scarletio/web_common/url/url.py:URL.join"]}
{"id": "C235", "title": "Deriving urls", "statement": "Putting a name behind a url or replacing its name makes that its name and keeps its parent; the parent has neither query nor fragment, nor has the url whose name was replaced; a replaced host is written as it was given; the origin with the relative part behind it is the url.", "quantifier": "all urls, all names, all hosts", "why_tests_cant": "Names with dots, hosts of all kinds.", "anchors": ["scarletio/web_common/url/url.py:URL.__truediv__", "scarletio/web_common/url/url.py:URL.parent", "scarletio/web_common/url/url.py:URL.name", "scarletio/web_common/url/url.py:URL.with_name", "scarletio/web_common/url/url.py:URL.with_host", "scarletio/web_common/url/url.py:URL.with_user", "scarletio/web_common/url/url.py:URL.with_password", "scarletio/web_common/url/url.py:URL.origin", "scarletio/web_common/url/url.py:URL.relative"]}
{"id": "C236", "title": "Waiting for the lookup of a host", "statement": "Of a host there is one lookup at a time, shared by all who ask for it. Whoever asks gets the result of the lookup, unless it gave up before; what is remembered of a host is what was found for it the last time. No waiter is ever forgotten.", "quantifier": "all sequences of askings, steps, ends of lookups, cancellations and closings", "why_tests_cant": "The order of closing and of the first step of the task.", "anchors": ["scarletio/http_client/connector_tcp.py:ConnectorTCP.get_resolve_host_waiter", "scarletio/http_client/connector_tcp.py:ConnectorTCP.resolve_host", "scarletio/http_client/connector_tcp.py:ConnectorTCP.close", "scarletio/core/traps/task.py:Task._step"]}
{"id": "C237", "title": "The addresses tried for a host", "statement": "For a host the addresses known of it are tried, each once, if they are not expired; else those which are found by a lookup, each once. A failed lookup is told.", "quantifier": "all baskets, rotations and results of lookups", "why_tests_cant": "Baskets which overlap, rotated by others.", "anchors": ["scarletio/http_client/connector_tcp.py:ConnectorTCP.resolve_host_iterator", "scarletio/http_client/host_info_basket.py:HostInfoBasket.iter_next_rotation", "scarletio/http_client/host_info.py:HostInfo.from_ip"]}
{"id": "C238", "title": "The first address which works", "statement": "The addresses are tried in order; the connection returned is that of the first at which somebody answers who has the certificate asked for. If there is none then the errors of all addresses tried are told, in their order.", "quantifier": "all lists of addresses, all behaviours of the others", "why_tests_cant": "Mixtures of refused connections and wrong certificates.", "anchors": ["scarletio/http_client/connector_tcp.py:ConnectorTCP.create_direct_connection"]}
{"id": "C239", "title": "Who is at the other end of a secure connection", "statement": "The connection of a secure request is to somebody whose certificate is trusted, and has the fingerprint given with the request or the connector, directly and through a proxy; the name asked for is the same.", "quantifier": "all settings of requests, connectors and proxies, all certificates", "why_tests_cant": "Needs servers with wrong certificates behind proxies.", "anchors": ["scarletio/http_client/connector_tcp.py:ConnectorTCP.get_ssl_context", "scarletio/http_client/connector_tcp.py:ConnectorTCP.get_ssl_fingerprint", "scarletio/http_client/connector_tcp.py:ConnectorTCP.create_direct_connection", "scarletio/http_client/connector_tcp.py:ConnectorTCP.create_proxy_connection", "scarletio/http_client/ssl_fingerprint.py:SSLFingerprint.check"]}
{"id": "C240", "title": "Connecting leaves nothing open", "statement": "Of the connections made while connecting all but the one returned are closed, however it ends, directly and through proxies.", "quantifier": "all lists of addresses, all behaviours of the others, all ends of the proxy's response", "why_tests_cant": "Failures in the middle, closing the connector in between.", "anchors": ["scarletio/http_client/connector_tcp.py:ConnectorTCP.create_direct_connection", "scarletio/http_client/connector_tcp.py:ConnectorTCP.create_proxy_connection", "scarletio/http_client/connection.py:Connection.close", "scarletio/http_client/connector_base.py:ConnectorBase.release"]}
{"id": "C241", "title": "Connecting to one of more addresses", "statement": "`create_connection_to` connects to the first of the addresses for which a socket can be made, bound to one of the local addresses and connected; if there is none, all errors are told. All other sockets are closed.", "quantifier": "all lists of addresses and local addresses, all failures", "why_tests_cant": "Failures of sockets, of binding and of connecting at each address.", "anchors": ["scarletio/core/event_loop/event_loop.py:EventThread.create_connection_to", "scarletio/core/event_loop/event_loop.py:EventThread._create_connection_transport"]}
{"id": "C242", "title": "The connection of a response is given back once", "statement": "The connection of a response is given back exactly once, at the latest when the response is closed, released or deleted; a closed response holds no connection, and no writer of its request runs on.", "quantifier": "all sequences of arriving data, ends, failures, readings, cancellations, closings and releases", "why_tests_cant": "Orders of callbacks of the stream and of closing.", "anchors": ["scarletio/http_client/client_response.py:ClientResponse._response_eof", "scarletio/http_client/client_response.py:ClientResponse._release_connection", "scarletio/http_client/client_response.py:ClientResponse.close", "scarletio/http_client/client_response.py:ClientResponse.release", "scarletio/http_client/client_response.py:ClientResponse.__del__", "scarletio/http_client/connection.py:Connection.release", "scarletio/http_client/connection.py:Connection.close", "scarletio/http_client/connection.py:Connection.detach"]}
{"id": "C243", "title": "A connection is kept only after the whole exchange", "statement": "A connection is stored to be used again only if the response allows it, its limit of requests is not reached, and when the whole request was written and the whole response arrived.", "quantifier": "all sequences of arriving data, ends, failures, readings, cancellations, closings and releases", "why_tests_cant": "The moment at which a read is cancelled, and responses sent before the request was read.", "anchors": ["scarletio/http_client/client_response.py:ClientResponse.read", "scarletio/http_client/client_response.py:ClientResponse._response_eof", "scarletio/http_client/client_response.py:ClientResponse._clean_up_writer", "scarletio/http_client/connection.py:Connection.release", "scarletio/core/protocols_and_transports/payload_stream.py:PayloadStream._abort", "scarletio/core/protocols_and_transports/protocol.py:ReadProtocolBase._payload_stream_abortion_callback"]}
{"id": "C244", "title": "A connection is used again", "statement": "After a response that allows it, the whole of which arrived, however it was cut into pieces, the connection is stored to be used again.", "quantifier": "all responses, all ways to cut them into pieces", "why_tests_cant": "Whether a connection is used again is not seen from outside.", "anchors": ["scarletio/http_client/client_response.py:ClientResponse._response_eof", "scarletio/web_common/http_protocol.py:HttpReadProtocol.should_close", "scarletio/core/protocols_and_transports/protocol.py:ReadProtocolBase.data_received"]}
{"id": "C245", "title": "What reads of a response give", "statement": "A read gives the body of the response or the failure it came to, and every later read the same again.", "quantifier": "all sequences of arriving data, ends, failures, readings, cancellations, closings and releases", "why_tests_cant": "Reads after a cancelled and after a failed one.", "anchors": ["scarletio/http_client/client_response.py:ClientResponse.read", "scarletio/http_client/client_response.py:ClientResponse.start_processing", "scarletio/core/protocols_and_transports/payload_stream.py:PayloadStream.__await__"]}
{"id": "C246", "title": "Late bytes are not a response", "statement": "Bytes which come after a connection was stored, and belong to the exchange before, make it be closed before it is used again.", "quantifier": "all sequences of arriving data, ends, failures, readings, cancellations, closings and releases", "why_tests_cant": "The rest of a body nobody waits for, taken for the head of the next response.", "anchors": ["scarletio/web_common/http_protocol.py:HttpReadProtocol.should_close", "scarletio/http_client/client_response.py:ClientResponse.read", "scarletio/core/protocols_and_transports/protocol.py:ReadProtocolBase.eof_received"]}
{"id": "C247", "title": "Broken connections are not kept", "statement": "A connection which broke or ended while its response was read is not stored to be used again.", "quantifier": "all sequences of arriving data, ends, failures, readings, cancellations, closings and releases", "why_tests_cant": "Servers which end in the middle of a body.", "anchors": ["scarletio/core/protocols_and_transports/protocol.py:ReadProtocolBase.eof_received", "scarletio/core/protocols_and_transports/protocol.py:ReadProtocolBase.set_exception", "scarletio/web_common/http_protocol.py:HttpReadProtocol.should_close", "scarletio/http_client/connector_base.py:ConnectorBase.release"]}
{"id": "C248", "title": "Starting a loop", "statement": "However many threads start a loop, by calls or by `.run`, one thread of the system runs it; no call raises for that, and each call returns, after the loop began to run.", "quantifier": "all interleavings of any number of threads", "why_tests_cant": "Races between the starting threads and the new one.", "anchors": ["scarletio/core/event_loop/event_loop.py:EventThread._maybe_start", "scarletio/core/event_loop/event_loop.py:EventThread._do_start", "scarletio/core/event_loop/event_loop.py:EventThread.is_started", "scarletio/core/event_loop/event_loop_functionality_helpers.py:EventThreadRunDescriptor.__get__", "scarletio/core/event_loop/event_thread_type.py:EventThreadContextManager.__enter__"]}
{"id": "C249", "title": "Nothing runs while the loop is paused", "statement": "While a thread is in the block of a pausing context no callback of the loop is run, and no other thread is in such a block.", "quantifier": "all interleavings of any number of threads and contexts", "why_tests_cant": "Contexts entered again, blocks entered before the loop runs.", "anchors": ["scarletio/core/event_loop/event_thread_suspender.py:ThreadSuspenderContext.__enter__", "scarletio/core/event_loop/event_thread_suspender.py:ThreadSuspenderContext.__exit__", "scarletio/core/event_loop/event_thread_suspender.py:ThreadSuspenderContext._give_control_cb", "scarletio/core/event_loop/event_loop.py:EventThread.runner"]}
{"id": "C250", "title": "Pausing the loop comes to an end", "statement": "Threads which wait for a loop to pause get in, in the order in which they asked.", "quantifier": "all interleavings of any number of threads and contexts, with stopping", "why_tests_cant": "The loop stopping between the test and the append.", "anchors": ["scarletio/core/event_loop/event_thread_suspender.py:ThreadSuspenderContext.__enter__", "scarletio/core/event_loop/event_thread_suspender.py:ThreadSuspenderContext._give_control_cb", "scarletio/core/event_loop/event_loop.py:EventThread.runner", "scarletio/core/event_loop/event_loop.py:EventThread.stop", "scarletio/core/event_loop/event_thread_type.py:EventThreadContextManager.__exit__"]}
{"id": "C251", "title": "Accepted callbacks are run", "statement": "Every callback for which a handle was returned to another thread is run, in the order in which they were accepted.", "quantifier": "all interleavings of any number of threads, with stopping", "why_tests_cant": "The loop stopping between the test and the append.", "anchors": ["scarletio/core/event_loop/event_loop.py:EventThread.call_soon_thread_safe", "scarletio/core/event_loop/event_loop.py:EventThread.runner", "scarletio/core/event_loop/event_loop.py:EventThread.stop", "scarletio/core/event_loop/event_loop.py:EventThread._stop", "scarletio/core/event_loop/event_thread_type.py:EventThreadContextManager.__exit__"]}
{"id": "C252", "title": "Every datagram has one fate", "statement": "The datagrams given to the socket, refused by it or dropped when the transport is forced to close, followed by the ones still waiting, are exactly the datagrams that callers were allowed to send, in the order of the calls.", "quantifier": "all sequences of sends, readiness of the socket with any outcomes, closings and aborts", "why_tests_cant": "Orders of sends and of a socket that blocks in the middle.", "anchors": ["scarletio/core/protocols_and_transports/transport_layer.py:DatagramSocketTransportLayer.send_to", "scarletio/core/protocols_and_transports/transport_layer.py:DatagramSocketTransportLayer._send_to_ready", "scarletio/core/protocols_and_transports/transport_layer.py:SocketTransportLayerBase._force_close"]}
{"id": "C253", "title": "Datagrams go to the bound address", "statement": "A transport bound to an address sends to that address only and refuses any other, without changing anything; an unbound one sends where it is told.", "quantifier": "all addresses, all histories", "why_tests_cant": "Every history and address.", "anchors": ["scarletio/core/protocols_and_transports/transport_layer.py:DatagramSocketTransportLayer.send_to", "scarletio/core/protocols_and_transports/transport_layer.py:DatagramSocketTransportLayer._send_to_ready"]}
{"id": "C254", "title": "A datagram without an address harms nobody", "statement": "Sending without an address on a transport bound to none is refused to the caller, and the transport goes on working.", "quantifier": "all states of an unbound transport, all data", "why_tests_cant": "Whether anything waits before and behind it.", "anchors": ["scarletio/core/protocols_and_transports/transport_layer.py:DatagramSocketTransportLayer.send_to", "scarletio/core/protocols_and_transports/transport_layer.py:DatagramSocketTransportLayer._send_to_ready", "scarletio/core/protocols_and_transports/transport_layer.py:DatagramSocketTransportLayer._fatal_error"]}
{"id": "C255", "title": "A datagram protocol is told the end once, and nothing afterwards", "statement": "After connection_lost a protocol is called no more: no second connection_lost, no datagram, no error, no pausing or resuming.", "quantifier": "all sequences of sends, readiness of the socket with any outcomes, closings and aborts", "why_tests_cant": "Orders of scheduled calls, closings and aborts.", "anchors": ["scarletio/core/protocols_and_transports/transport_layer.py:SocketTransportLayerBase._call_connection_lost", "scarletio/core/protocols_and_transports/transport_layer.py:SocketTransportLayerBase.close", "scarletio/core/protocols_and_transports/transport_layer.py:SocketTransportLayerBase._force_close", "scarletio/core/protocols_and_transports/transport_layer.py:DatagramSocketTransportLayer._send_to_ready", "scarletio/core/protocols_and_transports/transport_layer.py:DatagramSocketTransportLayer._read_ready"]}
{"id": "C256", "title": "No callback stays on a closed socket", "statement": "When a datagram transport has closed its socket, neither its reader nor its writer is registered at the loop.", "quantifier": "all sequences of sends, readiness of the socket with any outcomes, closings and aborts", "why_tests_cant": "The failure of the last waiting datagram.", "anchors": ["scarletio/core/protocols_and_transports/transport_layer.py:SocketTransportLayerBase._force_close", "scarletio/core/protocols_and_transports/transport_layer.py:SocketTransportLayerBase.close", "scarletio/core/protocols_and_transports/transport_layer.py:DatagramSocketTransportLayer._send_to_ready", "scarletio/core/protocols_and_transports/transport_layer.py:DatagramSocketTransportLayer._add_reader"]}
{"id": "C257", "title": "Closing sends what waits", "statement": "Closing a datagram transport sends the waiting datagrams in order when the socket takes them, then tells the protocol; with nothing waiting the protocol is told by the next callback.", "quantifier": "all states of an open transport", "why_tests_cant": "Every amount of waiting datagrams.", "anchors": ["scarletio/core/protocols_and_transports/transport_layer.py:SocketTransportLayerBase.close", "scarletio/core/protocols_and_transports/transport_layer.py:DatagramSocketTransportLayer._send_to_ready", "scarletio/core/protocols_and_transports/transport_layer.py:SocketTransportLayerBase._maybe_resume_protocol"]}
{"id": "C258", "title": "The reason of an abort is told", "statement": "A datagram protocol whose transport is aborted with an exception is told that exception.", "quantifier": "all sequences of sends, readiness of the socket with any outcomes, closings and aborts", "why_tests_cant": "The socket being writable between the abort and the scheduled call.", "anchors": ["scarletio/core/protocols_and_transports/transport_layer.py:SocketTransportLayerBase.abort", "scarletio/core/protocols_and_transports/transport_layer.py:SocketTransportLayerBase._force_close", "scarletio/core/protocols_and_transports/transport_layer.py:DatagramSocketTransportLayer._send_to_ready", "scarletio/core/protocols_and_transports/transport_layer.py:SocketTransportLayerBase._call_connection_lost"]}
{"id": "C259", "title": "A paused datagram protocol is resumed", "statement": "A protocol is paused when more than the high limit waits; while it is paused the writer is registered, and it is resumed when the socket takes what waits.", "quantifier": "all sequences of sends, readiness of the socket with any outcomes, closings and aborts", "why_tests_cant": "Sizes of datagrams around the limits.", "anchors": ["scarletio/core/protocols_and_transports/transport_layer.py:SocketTransportLayerBase._maybe_pause_protocol", "scarletio/core/protocols_and_transports/transport_layer.py:SocketTransportLayerBase._maybe_resume_protocol", "scarletio/core/protocols_and_transports/transport_layer.py:DatagramSocketTransportLayer.get_write_buffer_size", "scarletio/core/protocols_and_transports/transport_layer.py:DatagramSocketTransportLayer.send_to"]}
{"id": "C260", "title": "Readers by address are not mixed", "statement": "There is a reader for exactly the addresses heard from, and it holds the non-empty datagrams of its address, one chunk each, in order.", "quantifier": "all sequences of datagrams, waits, timeouts and the loss of the connection", "why_tests_cant": "Interleavings of peers.", "anchors": ["scarletio/core/protocols_and_transports/protocol.py:DatagramAddressedReadProtocol.datagram_received", "scarletio/core/protocols_and_transports/protocol.py:DatagramAddressedReadProtocol.connection_lost"]}
{"id": "C261", "title": "Waiting for an address gives its reader", "statement": "Waiting for data from an address ends with the reader of that address only.", "quantifier": "all sequences of datagrams, waits, timeouts and the loss of the connection", "why_tests_cant": "Another peer sending first.", "anchors": ["scarletio/core/protocols_and_transports/protocol.py:DatagramAddressedReadProtocol.wait_for_receive", "scarletio/core/protocols_and_transports/protocol.py:DatagramAddressedReadProtocol.datagram_received"]}
{"id": "C262", "title": "Waits for datagrams end with the connection", "statement": "When the connection is lost every wait for a datagram ends, and a later wait does not begin.", "quantifier": "all sequences of datagrams, waits, timeouts and the loss of the connection", "why_tests_cant": "A wait that never ends is not seen by a test.", "anchors": ["scarletio/core/protocols_and_transports/protocol.py:DatagramAddressedReadProtocol.wait_for_receive", "scarletio/core/protocols_and_transports/protocol.py:DatagramAddressedReadProtocol.connection_lost"]}
{"id": "C263", "title": "A connection is registered while its task runs", "statement": "A web socket server has registered exactly the connections whose lifetime task is running.", "quantifier": "all sequences of connections, requests, handlers, losses and closings", "why_tests_cant": "Interleavings of many connections with closing the server.", "anchors": ["scarletio/web_socket/web_socket_server.py:register", "scarletio/web_socket/web_socket_server.py:unregister", "scarletio/web_socket/web_socket_server_protocol.py:connection_made", "scarletio/web_socket/web_socket_server_protocol.py:lifetime_handler"]}
{"id": "C264", "title": "A connection does not outlive its handler", "statement": "When the task of a connection has ended, however it ended, its transport is closed.", "quantifier": "all sequences of connections, requests, handlers, losses and closings", "why_tests_cant": "A connection that is left open is not seen from outside.", "anchors": ["scarletio/web_socket/web_socket_server_protocol.py:lifetime_handler", "scarletio/web_socket/web_socket_server_protocol.py:handshake"]}
{"id": "C265", "title": "A closed web socket server has no open connection", "statement": "When closing of a server is done, no handler runs or is going to be started, and every connection that was made before is closed.", "quantifier": "all sequences of connections, requests, handlers, losses and closings", "why_tests_cant": "The moment of closing relative to every connection.", "anchors": ["scarletio/web_socket/web_socket_server.py:close", "scarletio/web_socket/web_socket_server.py:_close", "scarletio/web_socket/web_socket_server_protocol.py:lifetime_handler", "scarletio/web_socket/web_socket_server_protocol.py:handshake"]}
{"id": "C266", "title": "No handler is started on a closed server", "statement": "A handler is started only while the server is serving, on a web socket that was not closed.", "quantifier": "all sequences of connections, requests, handlers, losses and closings", "why_tests_cant": "A request processor that waits while the server is closed.", "anchors": ["scarletio/web_socket/web_socket_server.py:is_serving", "scarletio/web_socket/web_socket_server.py:_close", "scarletio/web_socket/web_socket_server_protocol.py:handshake"]}
{"id": "C267", "title": "A server knows whether it is secure", "statement": "The flag telling a connection whether it is secure is set exactly if the server uses an ssl context.", "quantifier": "all ways to give ssl", "why_tests_cant": "All four kinds of values of the deprecated parameter.", "anchors": ["scarletio/web_socket/web_socket_server.py:__new__"]}
{"id": "C268", "title": "Waiting on another loop gives the future's result", "statement": "A wait for a future of another loop that returns gives what the future was completed with, so all waits agree, and no wait asks a pending future for its result.", "quantifier": "any number of waits, all interleavings with completion, timers and cancellations", "why_tests_cant": "Interleavings of threads.", "anchors": ["scarletio/core/traps/future_wrapper_async.py:FutureWrapperAsync.wait", "scarletio/core/traps/future_wrapper_async.py:FutureWrapperAsync.wait_for_completion", "scarletio/core/traps/future_wrapper_async.py:_set_future_waiter_callback"]}
{"id": "C269", "title": "A wait on another loop times out only on a pending future", "statement": "TimeoutError is raised only if the timeout is over and the future is still pending.", "quantifier": "any number of waits, all interleavings with completion, timers and cancellations", "why_tests_cant": "The moment between completing the future and the callback of it.", "anchors": ["scarletio/core/traps/future_wrapper_async.py:FutureWrapperAsync.wait"]}
{"id": "C270", "title": "A wait on another loop leaves no timer", "statement": "When a wait has ended, its timer is not scheduled any more.", "quantifier": "any number of waits, all interleavings with completion, timers and cancellations", "why_tests_cant": "A timer which does nothing is not seen.", "anchors": ["scarletio/core/traps/future_wrapper_async.py:FutureWrapperAsync.wait"]}
{"id": "C271", "title": "A wait on another loop ends when the future is completed", "statement": "When the future is completed every wait for it is going to be told.", "quantifier": "any number of waits, all interleavings with completion, timers and cancellations", "why_tests_cant": "The moment between looking at the future and adding the callback.", "anchors": ["scarletio/core/traps/future_wrapper_async.py:FutureWrapperAsync.wait", "scarletio/core/traps/future.py:Future.add_done_callback"]}
{"id": "C272", "title": "A wait on another loop leaves no callback", "statement": "When a wait has ended its callback is not in the list of the future, and late callbacks and timers do not change how it ended.", "quantifier": "any number of waits, all interleavings with completion, timers and cancellations", "why_tests_cant": "Interleavings of threads.", "anchors": ["scarletio/core/traps/future_wrapper_async.py:FutureWrapperAsync.wait", "scarletio/core/traps/future.py:Future.remove_done_callback"]}
{"id": "C273", "title": "A closed stream socket has no reader", "statement": "When a socket transport closes or has closed its socket, its reader is not registered at the loop.", "quantifier": "all sequences of scheduled callbacks, readable sockets, pausing, resuming, closing, aborting, writes and their ends", "why_tests_cant": "A protocol that closes within connection_made.", "anchors": ["scarletio/core/protocols_and_transports/transport_layer.py:SocketTransportLayer.__new__", "scarletio/core/protocols_and_transports/transport_layer.py:SocketTransportLayerBase.close", "scarletio/core/protocols_and_transports/transport_layer.py:SocketTransportLayerBase._force_close", "scarletio/core/protocols_and_transports/transport_layer.py:SocketTransportLayer.resume_reading"]}
{"id": "C274", "title": "A closing stream transport reads nothing", "statement": "After a socket transport began to close its protocol is told neither data nor the end of the stream.", "quantifier": "all sequences of scheduled callbacks, readable sockets, pausing, resuming, closing, aborting, writes and their ends", "why_tests_cant": "The order of close and the callbacks scheduled by the constructor.", "anchors": ["scarletio/core/protocols_and_transports/transport_layer.py:SocketTransportLayer.__new__", "scarletio/core/protocols_and_transports/transport_layer.py:SocketTransportLayerBase.close", "scarletio/core/protocols_and_transports/transport_layer.py:SocketTransportLayer._read_ready"]}
{"id": "C275", "title": "A paused stream transport reads nothing", "statement": "While reading is paused nothing is read; resuming reads again; pausing twice or resuming twice changes nothing.", "quantifier": "all sequences of scheduled callbacks, readable sockets, pausing, resuming, closing, aborting, writes and their ends", "why_tests_cant": "Pausing before the reader was added.", "anchors": ["scarletio/core/protocols_and_transports/transport_layer.py:SocketTransportLayer.pause_reading", "scarletio/core/protocols_and_transports/transport_layer.py:SocketTransportLayer.resume_reading", "scarletio/core/protocols_and_transports/transport_layer.py:SocketTransportLayer.__new__"]}
{"id": "C276", "title": "The end of the stream is told once", "statement": "After a protocol was told the end of the stream, it is told neither data nor the end again.", "quantifier": "all sequences of scheduled callbacks, readable sockets, pausing, resuming, closing, aborting, writes and their ends", "why_tests_cant": "Pausing and resuming of a connection kept open.", "anchors": ["scarletio/core/protocols_and_transports/transport_layer.py:SocketTransportLayer._read_ready", "scarletio/core/protocols_and_transports/transport_layer.py:SocketTransportLayer.pause_reading", "scarletio/core/protocols_and_transports/transport_layer.py:SocketTransportLayer.resume_reading"]}
{"id": "C277", "title": "The story of a stream connection", "statement": "A protocol is told that it is connected, then what comes from the peer, then, once and last, that the connection is lost.", "quantifier": "all sequences of scheduled callbacks, readable sockets, pausing, resuming, closing, aborting, writes and their ends", "why_tests_cant": "All orders of closings and aborts.", "anchors": ["scarletio/core/protocols_and_transports/transport_layer.py:SocketTransportLayer.__new__", "scarletio/core/protocols_and_transports/transport_layer.py:SocketTransportLayer._read_ready", "scarletio/core/protocols_and_transports/transport_layer.py:SocketTransportLayerBase._call_connection_lost", "scarletio/core/protocols_and_transports/transport_layer.py:SocketTransportLayerBase.close", "scarletio/core/protocols_and_transports/transport_layer.py:SocketTransportLayerBase._force_close"]}
{"id": "C278", "title": "The reason of a failed read is told", "statement": "When reading fails, the next callback tells the protocol the loss with that reason, and no other reason is ever told.", "quantifier": "all sequences of scheduled callbacks, readable sockets, pausing, resuming, closing, aborting, writes and their ends", "why_tests_cant": "Whatever happens between failing and telling.", "anchors": ["scarletio/core/protocols_and_transports/transport_layer.py:SocketTransportLayer._read_ready", "scarletio/core/protocols_and_transports/transport_layer.py:SocketTransportLayer._fatal_error", "scarletio/core/protocols_and_transports/transport_layer.py:SocketTransportLayerBase._force_close"]}
{"id": "C279", "title": "Client values are equal when their parts are", "statement": "Two connection keys, host infos, credentials or keep alive infos are equal exactly if all their parts are equal, and equal ones have equal hashes.", "quantifier": "all values of the class, all hash functions of their parts", "why_tests_cant": "Needs all pairs of values and all hash functions.", "anchors": ["scarletio/http_client/connection_key.py:ConnectionKey.__eq__", "scarletio/http_client/connection_key.py:ConnectionKey.__hash__", "scarletio/http_client/host_info.py:HostInfo.__eq__", "scarletio/web_common/basic_authorization.py:BasicAuthorization.__eq__", "scarletio/web_common/keep_alive_info.py:KeepAliveInfo.__eq__"]}
{"id": "C280", "title": "DNS values are equal when their parts are", "statement": "Two questions, resource records, queries or results are equal exactly if all their parts are equal, equal ones have equal hashes, and the hash depends on the parts.", "quantifier": "all values of the class, all hash functions of their parts", "why_tests_cant": "Needs all pairs of values and all hash functions.", "anchors": ["scarletio/dns_query/question.py:Question.__hash__", "scarletio/dns_query/resource_record.py:ResourceRecord.__hash__", "scarletio/dns_query/query.py:Query.__hash__", "scarletio/dns_query/result.py:Result.__hash__"]}
{"id": "C281", "title": "Equal request infos have equal hashes", "statement": "Two request infos which are equal, whatever the order and the case of their header names, have equal hashes.", "quantifier": "all headers, all case foldings, all hash functions", "why_tests_cant": "Needs headers that differ in case and sort differently.", "anchors": ["scarletio/web_common/helpers.py:freeze_headers", "scarletio/http_client/request_info.py:RequestInfo.__hash__", "scarletio/http_client/request_info.py:RequestInfo.__eq__"]}
{"id": "C282", "title": "Equal proxies have equal hashes", "statement": "Two proxies which are equal have equal hashes, also when a header was added after a hash was taken.", "quantifier": "all headers, all case foldings, all hash functions", "why_tests_cant": "Needs a change between two hashes.", "anchors": ["scarletio/http_client/proxy.py:Proxy.__hash__", "scarletio/http_client/proxy.py:Proxy.__eq__", "scarletio/web_common/helpers.py:freeze_headers"]}
{"id": "C283", "title": "Strings that ignore case are lawful values", "statement": "Equality with a string that ignores case is an equivalence, is the opposite of inequality, raises nothing, and equal values have equal hashes.", "quantifier": "all texts, all case foldings, all hash functions", "why_tests_cant": "Needs mixed comparisons with plain texts.", "anchors": ["scarletio/utils/ignore_case_string.py:IgnoreCaseString.__eq__", "scarletio/utils/ignore_case_string.py:IgnoreCaseString.__hash__"]}
{"id": "C284", "title": "Timer handles are ordered by time", "statement": "Of two timer handles one is at most the other by <=; < is a strict order by time; != is the opposite of ==; equal ones have equal hashes.", "quantifier": "all handles", "why_tests_cant": "Needs handles due at the same time.", "anchors": ["scarletio/core/event_loop/handles.py:TimerHandle.__le__", "scarletio/core/event_loop/handles.py:TimerHandle.__ge__", "scarletio/core/event_loop/handles.py:TimerHandle.__lt__", "scarletio/core/event_loop/handles.py:TimerHandle.__eq__", "scarletio/core/event_loop/handles.py:TimerHandle.__hash__"]}
{"id": "C285", "title": "Name servers are asked only over allowed transports", "statement": "With a transport preferred name servers are asked over it alone; else over TLS, unless a server is known not to support it or refused it, which is then remembered.", "quantifier": "all behaviours of all name servers, all configurations, all questions", "why_tests_cant": "All combinations of refusals, levels and questions.", "anchors": ["scarletio/dns_query/requests.py:async_iter_execute_query_async", "scarletio/dns_query/requests.py:_execute_query_tls_with_tcp_fallback"]}
{"id": "C286", "title": "The next name server is asked when one fails", "statement": "A query ends with the answer of the first of the tried name servers that answers it, whatever the servers before it do.", "quantifier": "all behaviours of all name servers, all configurations, all questions", "why_tests_cant": "All ways in which servers fail.", "anchors": ["scarletio/dns_query/requests.py:async_iter_execute_query_async"]}
{"id": "C287", "title": "Every question is put to the name servers until it is answered", "statement": "Each question of a query is answered if one of the tried name servers answers it; what is yielded are answers of servers to the questions.", "quantifier": "all behaviours of all name servers, all configurations, all questions", "why_tests_cant": "Servers which answer some questions only.", "anchors": ["scarletio/dns_query/requests.py:async_iter_execute_query_async"]}
{"id": "C288", "title": "A permanent failure is called permanent", "statement": "A query that fails says that the failure is permanent exactly if TLS is required and no name server supports it.", "quantifier": "all behaviours of all name servers, all configurations, all questions", "why_tests_cant": "Counting over servers, attempts and questions.", "anchors": ["scarletio/dns_query/requests.py:async_iter_execute_query_async"]}
{"id": "C289", "title": "An address info is as it was asked for", "statement": "An address info that is returned is not empty and all its entries are of the family, type, protocol and port asked for; numeric hosts are not looked up.", "quantifier": "all requests, all behaviours of name servers", "why_tests_cant": "All combinations of arguments and answers.", "anchors": ["scarletio/dns_query/requests.py:get_address_info_async"]}
{"id": "C290", "title": "Asking for a socket type narrows an address info", "statement": "Asking an address info for a socket type gives the entries of that type of asking for any type.", "quantifier": "all requests, all behaviours of name servers", "why_tests_cant": "Needs all pairs of requests.", "anchors": ["scarletio/dns_query/requests.py:get_address_info_async"]}
{"id": "C291", "title": "Addresses of a name are those of the name", "statement": "Every address that is looked up is given by a name server in a record of a candidate name and of the right type, in an answer to a question about that name.", "quantifier": "all requests, all behaviours of name servers", "why_tests_cant": "Needs all answers, also forged ones.", "anchors": ["scarletio/dns_query/requests.py:get_address_info_async", "scarletio/dns_query/requests.py:_execute_query_udp"]}
{"id": "C292", "title": "The next candidate name is looked up when one has no address", "statement": "Candidate names are looked up in order until one has an address; those behind it are not asked for.", "quantifier": "all candidate names, all behaviours of name servers", "why_tests_cant": "All ways in which lookups fail.", "anchors": ["scarletio/dns_query/requests.py:get_address_info_async"]}
{"id": "C293", "title": "A name info is a pointer record or the address", "statement": "The name of an address is the one of a pointer record a server gave for it; if there is none it is the address with its scope, or an error if a name is required.", "quantifier": "all requests, all behaviours of name servers", "why_tests_cant": "Needs all answers.", "anchors": ["scarletio/dns_query/requests.py:get_name_info_async"]}
{"id": "C294", "title": "Highlighted text is shown in the style of its type", "statement": "A terminal shows every piece of highlighted text with the decoration and the colours of its type of token, and is left as it was found.", "quantifier": "all sequences of details and texts", "why_tests_cant": "All changes of decorations and colours, after any number of others.", "anchors": ["scarletio/utils/highlight/formatter_detail/ansi.py:FormatterDetailANSI.transition", "scarletio/utils/highlight/highlight_streamer.py:_highlight_streamer"]}
{"id": "C295", "title": "Highlighting keeps the text", "statement": "When format codes are split off highlighted text, exactly the text is left, in its order.", "quantifier": "all sequences of details, all texts without escape characters", "why_tests_cant": "Combines streamer, production and splitting of codes for all inputs.", "anchors": ["scarletio/utils/highlight/highlight_streamer.py:_highlight_step", "scarletio/utils/highlight/ansi.py:iter_produce_ansi_format_code", "scarletio/utils/highlight/ansi.py:iter_split_ansi_format_codes"]}
{"id": "C296", "title": "A text is split into its format codes and the rest", "statement": "Splitting gives every format code, as far as it is there, and every other character, in order and without loss; there is only one such splitting.", "quantifier": "all texts", "why_tests_cant": "Codes may be broken off anywhere.", "anchors": ["scarletio/utils/highlight/ansi.py:iter_split_ansi_format_codes"]}
{"id": "C297", "title": "A stream is split like its text", "statement": "A stream of parts is split as its text would be, wherever the parts end.", "quantifier": "all texts, all ways of cutting them", "why_tests_cant": "Number of ways of cutting grows exponentially.", "anchors": ["scarletio/utils/highlight/ansi.py:stream_split_ansi_format_codes"]}
{"id": "C298", "title": "Highlighted html is well formed and shows the text", "statement": "Spans are not nested and all end, every text is in a span of its class, no text can be taken for html and line breaks are shown.", "quantifier": "all sequences of details and texts", "why_tests_cant": "All texts, also hostile ones.", "anchors": ["scarletio/utils/highlight/formatter_detail/html.py:FormatterDetailHTML", "scarletio/utils/highlight/highlight_streamer.py:_highlight_step"]}
{"id": "C299", "title": "A type of token has the nearest detail", "statement": "The detail of a type of token is the one set for it, or the one of the type it belongs to when none is set or it was removed.", "quantifier": "all trees of types, all sequences of calls", "why_tests_cant": "All orders of setting and removing over a tree.", "anchors": ["scarletio/utils/highlight/formatter_node.py:FormatterNode.set_detail", "scarletio/utils/highlight/formatter_context.py:HighlightFormatterContext.set_highlight_html_all"]}
{"id": "C300", "title": "Every descriptor is in exactly one shard", "statement": "When a system can not be asked for all descriptors at once, they are cut into shards of not more than 500 descriptors, with every reader and writer in exactly one of them.", "quantifier": "all numbers of readers and writers", "why_tests_cant": "Borders of shards depend on the number of readers and writers together.", "anchors": ["scarletio/core/event_loop/selector.py:DefaultSelector._select"]}
{"id": "C301", "title": "Exactly the ready descriptors are reported on Windows", "statement": "Exactly the readers and writers which are ready are reported and exactly the broken ones are unregistered, however many there are.", "quantifier": "all sets of descriptors, all states of them", "why_tests_cant": "All combinations of ready, failed and broken descriptors, over several shards.", "anchors": ["scarletio/core/event_loop/selector.py:DefaultSelector._select"]}
{"id": "C302", "title": "The loop can be woken up on Windows", "statement": "The descriptor of the socket which wakes the loop up is reported whenever it is readable.", "quantifier": "all sets of descriptors, all states of them", "why_tests_cant": "Needs more descriptors than the system's limit.", "anchors": ["scarletio/core/event_loop/selector.py:DefaultSelector._select"]}
{"id": "C303", "title": "An included name has the exported object", "statement": "A variable for which a module includes a name has the object which is exported under it, in whatever order modules are loaded.", "quantifier": "all sequences of includes and exports", "why_tests_cant": "All orders of loading of modules.", "anchors": ["scarletio/utils/export_include.py:include", "scarletio/utils/export_include.py:export"]}
{"id": "C304", "title": "An include callback is called exactly once", "statement": "A callback which is given for a name is called exactly once, with the object exported under it: at once when there is one, else with the first.", "quantifier": "all sequences of includes and exports", "why_tests_cant": "All orders.", "anchors": ["scarletio/utils/export_include.py:include_with_callback", "scarletio/utils/export_include.py:export"]}
{"id": "C305", "title": "A name is waited for exactly if it is included and not exported", "statement": "The check of satisfaction tells exactly of those names which are included, by modules or callbacks, and were never exported.", "quantifier": "all sequences of includes and exports, also with raising callbacks", "why_tests_cant": "All orders.", "anchors": ["scarletio/utils/export_include.py:check_satisfaction"]}
{"id": "C306", "title": "Pasted lines of a console give what was typed in", "statement": "What was typed in a console (of scarletio, CPython, PyPy) is given back when its lines, with their prompts, are pasted.", "quantifier": "all typed in lines, all numbers of prompts", "why_tests_cant": "All texts.", "anchors": ["scarletio/tools/asynchronous_interactive_console/editors/prefix_trimming.py:trim_console_prefix", "scarletio/tools/asynchronous_interactive_console/editors/prefix_trimming.py:PrefixTrimmer.apply"]}
{"id": "C307", "title": "Text without prompts is left alone", "statement": "Pasted text which has no prompts in its lines is not changed.", "quantifier": "all texts", "why_tests_cant": "All texts.", "anchors": ["scarletio/tools/asynchronous_interactive_console/editors/prefix_trimming.py:trim_console_prefix", "scarletio/tools/asynchronous_interactive_console/editors/prefix_trimming.py:PrefixTrimmer.checkout"]}
{"id": "C308", "title": "The parameters of a callable are those of its function", "statement": "Analyzing a function gives its parameters as they are written: names, kinds and default values in order, the first ones reserved for methods.", "quantifier": "all valid signatures", "why_tests_cant": "All combinations of kinds and defaults.", "anchors": ["scarletio/utils/analyzer.py:CallableAnalyzer.__new__"]}
{"id": "C309", "title": "The range of positional arguments is right", "statement": "The minimal and maximal number of positional arguments which are told for a callable are exactly the bounds of the numbers it accepts.", "quantifier": "all valid signatures, all numbers of reserved parameters", "why_tests_cant": "All signatures and all numbers of arguments.", "anchors": ["scarletio/utils/analyzer.py:CallableAnalyzer.get_non_reserved_positional_parameter_range"]}
{"id": "C310", "title": "The counts of parameters are right", "statement": "The positional parameters that are not reserved, those which must be given, and the number of keyword only parameters which must be given are right.", "quantifier": "all valid signatures, all numbers of reserved parameters", "why_tests_cant": "All signatures.", "anchors": ["scarletio/utils/analyzer.py:CallableAnalyzer.get_non_reserved_positional_parameters", "scarletio/utils/analyzer.py:CallableAnalyzer.get_non_reserved_non_default_parameter_count", "scarletio/utils/analyzer.py:CallableAnalyzer.get_non_default_keyword_only_parameter_count"]}
{"id": "C311", "title": "A type is told to be instanceable exactly if it can be called without arguments", "statement": "A type is instanced to an async callable exactly if its constructor accepts a call without arguments.", "quantifier": "all valid signatures", "why_tests_cant": "All signatures.", "anchors": ["scarletio/utils/analyzer.py:CallableAnalyzer.can_instance_to_async_callable", "scarletio/utils/analyzer.py:CallableAnalyzer.instance"]}
{"id": "C312", "title": "Splitting a name to words loses nothing", "statement": "The words of a name are, one behind the other, the name without its underscores; no word is empty, has an underscore, mixes numbers with other characters, or goes on with an upper case letter behind a lower case one.", "quantifier": "all names, all character tables", "why_tests_cant": "All names.", "anchors": ["scarletio/utils/trace/exception_representation/suggestion/helpers_familiarity.py:_iter_split_name_to_words", "scarletio/utils/trace/exception_representation/suggestion/helpers_familiarity.py:_split_part_by_numbers", "scarletio/utils/trace/exception_representation/suggestion/helpers_familiarity.py:_split_part_by_casing"]}
{"id": "C313", "title": "Names are split only where words end", "statement": "A name without underscores is split only between a number and something else, before an upper case letter behind one which is not, and before the last of upper case letters which begins a capitalized word.", "quantifier": "all names, all character tables", "why_tests_cant": "All names.", "anchors": ["scarletio/utils/trace/exception_representation/suggestion/helpers_familiarity.py:_split_part_by_numbers", "scarletio/utils/trace/exception_representation/suggestion/helpers_familiarity.py:_split_part_by_casing"]}
{"id": "C314", "title": "A normalized name is normalized", "statement": "Normalizing a normalized name changes nothing.", "quantifier": "all names, all character tables whose case folding is stable", "why_tests_cant": "All names.", "anchors": ["scarletio/utils/trace/exception_representation/suggestion/helpers_familiarity.py:_normalize_name"]}
{"id": "C315", "title": "Camel case and snake case of the same words are normalized the same", "statement": "A name written of capitalized words and the name of the same words in lower case with underscores between them are normalized to the same name.", "quantifier": "all lists of words, all character tables whose case folding is stable", "why_tests_cant": "All lists of words.", "anchors": ["scarletio/utils/trace/exception_representation/suggestion/helpers_familiarity.py:_normalize_name", "scarletio/utils/trace/exception_representation/suggestion/helpers_familiarity.py:_iter_split_name_to_words"]}
{"id": "C316", "title": "Dedenting removes exactly the common indentation", "statement": "From every line of an expression exactly the told number of blanks is removed in front and all white space at the end, and no greater number could be removed.", "quantifier": "all lists of lines", "why_tests_cant": "All lists of lines.", "anchors": ["scarletio/utils/trace/expression_parsing/expression_info.py:normalize_and_dedent_lines"]}
{"id": "C317", "title": "An extra info is what was set the last, or the default", "statement": "After any infos were set, asking for one gives what was set the last under its name, or else under its alternative name, or else the given default.", "quantifier": "all sequences of infos set, all names, all defaults", "why_tests_cant": "All sequences and names.", "anchors": ["scarletio/core/protocols_and_transports/extra_info.py:get_extra_info", "scarletio/core/protocols_and_transports/extra_info.py:set_extra_info"]}
{"id": "C318", "title": "Whether an extra info is present is told right", "statement": "An info is told to be present exactly if it was set under its name or its alternative name, the same by both functions, and with the value which was set.", "quantifier": "all sequences of infos set, all names", "why_tests_cant": "All sequences and names.", "anchors": ["scarletio/core/protocols_and_transports/extra_info.py:has_extra_info", "scarletio/core/protocols_and_transports/extra_info.py:get_has_extra_info"]}
{"id": "C319", "title": "An extra info is found under both of its names", "statement": "An info which was set under one of its two names is found under the other too.", "quantifier": "all names with alternatives, all values", "why_tests_cant": "All names.", "anchors": ["scarletio/core/protocols_and_transports/extra_info.py:get_extra_info", "scarletio/core/protocols_and_transports/extra_info.py:has_extra_info"]}
{"id": "C320", "title": "The getter of a cached property is called at most once", "statement": "However often cached properties of an instance are read and set, the getter of each is called at most once while the cache is not dropped.", "quantifier": "all sequences of accesses, all getters", "why_tests_cant": "All sequences of accesses.", "anchors": ["scarletio/utils/properties.py:cached_property.__get__", "scarletio/utils/properties.py:cached_property.__set__"]}
{"id": "C321", "title": "A cached property keeps its value", "statement": "What a cached property gave or was set to, it gives until it is set or the cache is dropped.", "quantifier": "all sequences of accesses, all getters", "why_tests_cant": "All sequences of accesses.", "anchors": ["scarletio/utils/properties.py:cached_property.__get__", "scarletio/utils/properties.py:cached_property.__set__"]}
{"id": "C322", "title": "An attribute of a proxy is its own overwrite or that of the proxied object", "statement": "Reading an attribute of a proxy gives what was set on this very proxy or on the one it was deeply copied of before, and else the attribute of the proxied object; other proxies and copies are never affected.", "quantifier": "all sequences of operations on any number of proxies", "why_tests_cant": "All sequences and aliasings.", "anchors": ["scarletio/utils/type_proxies/proxy_base.py:ProxyBase._get_value", "scarletio/utils/type_proxies/proxy_base.py:ProxyBase._get_overwrite", "scarletio/utils/type_proxies/proxy_base.py:ProxyBase._set_overwrite", "scarletio/utils/type_proxies/proxy_base.py:ProxyBase._del_overwrite", "scarletio/utils/type_proxies/proxy_base.py:ProxyBase._copy_self_deep", "scarletio/utils/type_proxies/proxy_base.py:ProxyBase._copy_self_clean", "scarletio/utils/type_proxies/proxy_base.py:ProxyBase.__new__"]}
{"id": "C323", "title": "A proxy has a dictionary of overwrites exactly while it overwrites something", "statement": "The dictionary of overwrites of a proxy is there exactly while the proxy overwrites something, and no two proxies share it.", "quantifier": "all sequences of operations on any number of proxies", "why_tests_cant": "All sequences and aliasings.", "anchors": ["scarletio/utils/type_proxies/proxy_base.py:ProxyBase._set_overwrite", "scarletio/utils/type_proxies/proxy_base.py:ProxyBase._del_overwrite", "scarletio/utils/type_proxies/proxy_base.py:ProxyBase._copy_self_deep"]}
{"id": "C324", "title": "A source is told empty exactly if it has blanks and comments only", "statement": "A source typed into the console is told empty exactly if every line is of blanks, with maybe a comment behind them; such a source is not compiled.", "quantifier": "all lists of lines", "why_tests_cant": "All texts.", "anchors": ["scarletio/tools/asynchronous_interactive_console/editors/compilation.py:is_source_empty", "scarletio/tools/asynchronous_interactive_console/editors/compilation.py:maybe_compile"]}
{"id": "C325", "title": "Code is given exactly if the source can be compiled", "statement": "Compiling a source gives code exactly if Python compiles it as a single statement, or else as many; a wrong indentation in the first attempt is final.", "quantifier": "all sources, all behaviours of the compiler", "why_tests_cant": "All behaviours of the compiler.", "anchors": ["scarletio/tools/asynchronous_interactive_console/editors/compilation.py:maybe_compile", "scarletio/tools/asynchronous_interactive_console/editors/compilation.py:_try_compile"]}
{"id": "C326", "title": "Only sources which are wrong for good are refused", "statement": "A syntax error is raised only if the source is compiled in neither mode and more lines would not be waited for by the compiler.", "quantifier": "all sources, all behaviours of the compiler", "why_tests_cant": "All behaviours of the compiler.", "anchors": ["scarletio/tools/asynchronous_interactive_console/editors/compilation.py:maybe_compile", "scarletio/tools/asynchronous_interactive_console/editors/compilation.py:_try_compile"]}
{"id": "C327", "title": "Sources which are wrong for good are refused", "statement": "If Python refuses a source in both modes for other reasons than that it is not finished, a syntax error is raised.", "quantifier": "all sources, all behaviours of the compiler", "why_tests_cant": "All behaviours of the compiler and shapes of errors.", "anchors": ["scarletio/tools/asynchronous_interactive_console/editors/compilation.py:maybe_compile", "scarletio/utils/trace/exception_representation/syntax_error_helpers.py:is_syntax_error", "scarletio/utils/trace/exception_representation/syntax_error_helpers.py:is_syntax_error_details_omitted", "scarletio/utils/trace/exception_representation/syntax_error_helpers.py:fixup_syntax_error_details_omitted", "scarletio/utils/trace/exception_representation/syntax_error_helpers.py:right_strip_syntax_error_line"]}
{"id": "C328", "title": "What is compiled is what was typed", "statement": "The source which is compiled consists of the lines as they were typed.", "quantifier": "all lists of lines", "why_tests_cant": "All texts.", "anchors": ["scarletio/tools/asynchronous_interactive_console/editors/compilation.py:maybe_compile"]}
{"id": "C329", "title": "A function of a modulized type is the same function in the new module", "statement": "A function of a type which is made to a module sees the names of the new module and is the same otherwise: code, name, defaults and closure; functions of other modules are left alone.", "quantifier": "all functions, all names", "why_tests_cant": "All functions.", "anchors": ["scarletio/utils/type_modulizer.py:_modulize_function"]}
{"id": "C330", "title": "Types in a modulized type are moved with it", "statement": "Every function of the types defined in a type which is made to a module, however deep, is moved to the new module and is the same kind of method as before.", "quantifier": "all nestings of types", "why_tests_cant": "All nestings.", "anchors": ["scarletio/utils/type_modulizer.py:_modulize_type"]}
{"id": "C331", "title": "The module of a type has exactly its names", "statement": "The module a type is made to is registered under its path and has exactly the names of the type which are not special.", "quantifier": "all types, all loaded modules", "why_tests_cant": "All types.", "anchors": ["scarletio/utils/type_modulizer.py:modulize"]}
{"id": "C332", "title": "Modulizing a type again updates its module", "statement": "When a type is made to a module whose path is loaded already, that module is updated and given, and no other module is changed.", "quantifier": "all types, all loaded modules", "why_tests_cant": "All types and loaded modules.", "anchors": ["scarletio/utils/type_modulizer.py:modulize"]}
{"id": "C333", "title": "A group of causes has exactly the given exceptions", "statement": "A group is made of the given causes in order, types being instanced, and TypeError is raised exactly if one of them is no exception.", "quantifier": "all lists of causes", "why_tests_cant": "All lists of causes.", "anchors": ["scarletio/utils/cause_group.py:CauseGroup.__new__", "scarletio/utils/cause_group.py:_iter_validate_causes"]}
{"id": "C334", "title": "What a compound type has was implemented by one of its layers", "statement": "If a compound type is built, every attribute of it is implemented by the type itself, its base type or a component, and is a slot only if one of these has it so.", "quantifier": "all layers", "why_tests_cant": "All layers and orders.", "anchors": ["scarletio/utils/compound_type.py:build_type_structure", "scarletio/utils/compound_type.py:CompoundLogicUnit.try_get_base_implementation_for"]}
{"id": "C335", "title": "Of an attribute there is exactly one implementation among components", "statement": "If components expect or implement an attribute, it is the one which is implemented, in whatever order they are; building is refused if there is none or more than one.", "quantifier": "all lists of components", "why_tests_cant": "All orders and numbers of components.", "anchors": ["scarletio/utils/compound_type.py:build_type_structure", "scarletio/utils/compound_type.py:_check_method_match", "scarletio/utils/compound_type.py:_maybe_transfer_method_implementation"]}
{"id": "C336", "title": "An expected property is satisfied by any component", "statement": "A property which is expected by a component is taken from the component which implements it, in whatever order they are.", "quantifier": "all components", "why_tests_cant": "All orders of components.", "anchors": ["scarletio/utils/compound_type.py:ImplementationDetail.apply_layer_implementation"]}
{"id": "C337", "title": "Constants are the same in all components", "statement": "A constant implemented by many components is accepted exactly if it has the same value in all of these.", "quantifier": "all lists of constants", "why_tests_cant": "All values and numbers of components.", "anchors": ["scarletio/utils/compound_type.py:_check_constant_match"]}
{"id": "C338", "title": "Slots are exactly those the base type lacks", "statement": "An instance attribute is put into the slots of the new type exactly if the base type does not have it, however many layers have it.", "quantifier": "all numbers of layers", "why_tests_cant": "All numbers of layers.", "anchors": ["scarletio/utils/compound_type.py:build_type_structure", "scarletio/utils/compound_type.py:_maybe_transfer_instance_attribute_implementation"]}
{"id": "C339", "title": "Placeholders are replaced by implementations", "statement": "An attribute which is NotImplemented in a layer is what another layer implements.", "quantifier": "all implementations", "why_tests_cant": "All implementations.", "anchors": ["scarletio/utils/compound_type.py:_maybe_transfer_implementation"]}
{"id": "C340", "title": "Base types of a compound are one type and components", "statement": "The base types given are separated to at most one type and to the components in order; TypeError is raised exactly if there are more types or what is no type.", "quantifier": "all lists of base types", "why_tests_cant": "All lists.", "anchors": ["scarletio/utils/compound_type.py:separate_base_type_from_components"]}
{"id": "C341", "title": "The type itself goes before its base type", "statement": "What the type itself implements is taken over what the base type does, and what it lacks or expects is taken from the base type.", "quantifier": "all implementations", "why_tests_cant": "All implementations.", "anchors": ["scarletio/utils/compound_type.py:CompoundLogicUnit.try_get_base_implementation_for"]}
{"id": "C342", "title": "A rendered exception is shown with all which led to it", "statement": "What is rendered of an exception is what led to it, the earliest first, with the title telling how, each member of a group of causes with all which led to that, and at last the exception itself.", "quantifier": "all exceptions referring to each other in any way", "why_tests_cant": "Chains and groups nest without bound.", "anchors": ["scarletio/utils/trace/trace.py:_produce_exception", "scarletio/utils/trace/trace.py:_produce_exception_step"]}
{"id": "C343", "title": "Rendering of an exception ends", "statement": "Every exception is rendered, whatever the exceptions it refers to.", "quantifier": "all exceptions referring to each other in any way", "why_tests_cant": "Tests do not try cyclic chains, as these do not end.", "anchors": ["scarletio/utils/trace/trace.py:_produce_exception_step"]}
{"id": "C344", "title": "All causes of a group are shown", "statement": "If a group of causes is among the exceptions rendered, each of its causes is shown.", "quantifier": "all exceptions referring to each other in any way", "why_tests_cant": "Groups occur at any place of a chain.", "anchors": ["scarletio/utils/trace/trace.py:_produce_exception_step"]}
{"id": "C345", "title": "All frames can be read back from what is shown", "statement": "What is shown of groups of frames tells all frames in order, each as often as it is repeated, and can be read in one way only.", "quantifier": "all lists of groups", "why_tests_cant": "All groups.", "anchors": ["scarletio/utils/trace/rendering.py:produce_frame_groups", "scarletio/utils/trace/rendering.py:produce_frame_group"]}
{"id": "C346", "title": "Exactly the frames told to be ignored are left out", "statement": "A frame is shown exactly if ignoring was never told for its file, name and line, and the filter lets it through.", "quantifier": "all histories of ignoring, all frames and filters", "why_tests_cant": "All histories.", "anchors": ["scarletio/utils/trace/frame_ignoring.py:ignore_frame", "scarletio/utils/trace/frame_ignoring.py:should_keep_frame", "scarletio/utils/trace/frame_ignoring.py:should_keep_frame_from_defaults"]}
{"id": "C347", "title": "Every frame gets the info of its own place", "statement": "After populating every frame has the expression info which was given last by a frame at the same place, or else the one looked up for that place.", "quantifier": "all lists of frames", "why_tests_cant": "All lists.", "anchors": ["scarletio/utils/trace/frame_proxy/frame_proxying.py:populate_frame_proxies"]}
{"id": "C348", "title": "A response is released exactly once by its context manager", "statement": "However a context manager of a request (or of a web socket) is entered, awaited and left, the request is made at most once, and the response got is released exactly once, when the context is left first after it.", "quantifier": "all sequences of entering and leaving", "why_tests_cant": "All sequences.", "anchors": ["scarletio/http_client/request_context_manager.py:RequestContextManager.__aenter__", "scarletio/http_client/request_context_manager.py:RequestContextManager.__aexit__", "scarletio/http_client/web_socket_context_manager.py:WebSocketContextManager.__aenter__", "scarletio/http_client/web_socket_context_manager.py:WebSocketContextManager.__aexit__"]}
{"id": "C349", "title": "Awaiting a context manager gives its response", "statement": "Entering or awaiting a context manager again gives the same response, or tells that there is none any more.", "quantifier": "all sequences of entering and leaving", "why_tests_cant": "All sequences.", "anchors": ["scarletio/http_client/request_context_manager.py:RequestContextManager.__aenter__"]}
{"id": "C350", "title": "A failed request is told whenever it is awaited", "statement": "If the request failed, every entering or awaiting of its context manager raises that failure, and nothing is released.", "quantifier": "all sequences of entering and leaving", "why_tests_cant": "All sequences.", "anchors": ["scarletio/http_client/request_context_manager.py:RequestContextManager.__aenter__", "scarletio/http_client/request_context_manager.py:RequestContextManager.__aexit__"]}
{"id": "C351", "title": "Exactly the wanted exceptions are caught", "statement": "An exception writer catches an exception exactly if it is not excluded, is included if something is to be, and is not the closing of the running task.", "quantifier": "all exceptions and sets of types", "why_tests_cant": "All sets of types.", "anchors": ["scarletio/core/top_level/trace.py:ExceptionWriterContextManager._should_capture"]}
{"id": "C352", "title": "What ends a task is not caught", "statement": "Neither the closing nor the cancelling of a task is caught by a plain exception writer in it.", "quantifier": "all exceptions", "why_tests_cant": "All exceptions.", "anchors": ["scarletio/core/top_level/trace.py:ExceptionWriterContextManager._should_capture"]}
{"id": "C353", "title": "The title of a caught exception tells where it was caught", "statement": "The title tells the location given, else the running task, else the first frame outside of the module.", "quantifier": "all stacks of frames", "why_tests_cant": "All stacks.", "anchors": ["scarletio/core/top_level/trace.py:ExceptionWriterContextManager._get_location_message", "scarletio/core/top_level/trace.py:ExceptionWriterContextManager._create_location_message_from_tracing"]}
{"id": "C354", "title": "Titles are shown as they were given", "statement": "The lines shown before or after an exception are the text given, or the texts of the list given after each other, without the line breaks at the end.", "quantifier": "all texts", "why_tests_cant": "All texts.", "anchors": ["scarletio/core/top_level/trace.py:_build_additional_title_lines_str", "scarletio/core/top_level/trace.py:_build_additional_title_lines_list"]}
{"id": "C355", "title": "The variables of a module are there in the console", "statement": "A console run for a module has its variables, or those it makes public if it is a package.", "quantifier": "all modules", "why_tests_cant": "All modules.", "anchors": ["scarletio/tools/asynchronous_interactive_console/console_helpers.py:collect_module_variables"]}
{"id": "C356", "title": "relative_index splits an ascending list", "statement": "In an ascending list all elements before the position given are smaller than the value and none after it is, so inserting there keeps the list ascending.", "quantifier": "all lists and values", "why_tests_cant": "All lists.", "anchors": ["scarletio/utils/utils.py:relative_index"]}
{"id": "C357", "title": "change_on_switch tells the new positions", "statement": "If a value of an ascending list is moved, each element which changes its position is told with its new position; a value which is not in the list is refused.", "quantifier": "all lists, values and positions", "why_tests_cant": "All lists.", "anchors": ["scarletio/utils/utils.py:change_on_switch"]}
{"id": "C358", "title": "list_difference gives what is only in one of them", "statement": "Of two ascending lists or sets the results have each element as many times as it is in the one more than in the other; both are empty exactly if they have the same elements.", "quantifier": "all lists and sets", "why_tests_cant": "All lists.", "anchors": ["scarletio/utils/utils.py:list_difference"]}
{"id": "C359", "title": "Unpacked pairs are those of the generator", "statement": "Merging an un_map_pack into a dictionary gives each key its value.", "quantifier": "all generators of pairs", "why_tests_cant": "All generators.", "anchors": ["scarletio/utils/utils.py:un_map_pack"]}
{"id": "C360", "title": "Views of dictionaries are equal exactly if their contents are", "statement": "A view of values equals something iterable exactly if both have the same values the same times, and a view of keys equals another one exactly if both have the same keys.", "quantifier": "all dictionaries", "why_tests_cant": "All dictionaries.", "anchors": ["scarletio/utils/dict_iterator_bases.py:DictionaryValueIteratorBase.__eq__", "scarletio/utils/dict_iterator_bases.py:DictionaryKeyIteratorBase.__eq__"]}
{"id": "C361", "title": "Lookups find the first one", "statement": "any_to_any tells whether two containers have an element in common, where gives the first element wanted and raises exactly if there is none.", "quantifier": "all containers", "why_tests_cant": "All containers.", "anchors": ["scarletio/utils/utils.py:any_to_any", "scarletio/utils/utils.py:where"]}
{"id": "C362", "title": "A thread gets an event loop which works", "statement": "A loop gets itself. Another thread gets the loop it is linked to while that works, else the first listed one which is not a daemon; a RuntimeError is raised exactly if there is none.", "quantifier": "all states of threads and loops", "why_tests_cant": "All states.", "anchors": ["scarletio/core/top_level/event_loop.py:get_event_loop", "scarletio/core/top_level/event_loop.py:_try_detect_event_loop"]}
{"id": "C363", "title": "A thread keeps its event loop", "statement": "A thread which got an event loop gets the same one until that ends or another one is set.", "quantifier": "all sequences of calls, starts and ends", "why_tests_cant": "All sequences.", "anchors": ["scarletio/core/top_level/event_loop.py:_try_detect_event_loop", "scarletio/core/event_loop/event_loop.py:EventThread.is_stopped"]}
{"id": "C364", "title": "An event loop is created only if there is none", "statement": "get_or_create_event_loop creates a loop exactly if get_event_loop would raise, and the new one is got from then on; create_event_loop always creates one, and does not change what the thread got.", "quantifier": "all sequences of calls, starts and ends", "why_tests_cant": "All sequences.", "anchors": ["scarletio/core/top_level/event_loop.py:get_or_create_event_loop", "scarletio/core/top_level/event_loop.py:create_event_loop", "scarletio/core/top_level/event_loop.py:_maybe_set_event_loop"]}
{"id": "C365", "title": "Threads share one event loop", "statement": "Threads which did not set a loop get the same one.", "quantifier": "all sequences of calls, starts and ends", "why_tests_cant": "All sequences.", "anchors": ["scarletio/core/top_level/event_loop.py:_try_detect_event_loop", "scarletio/core/top_level/event_loop.py:get_or_create_event_loop"]}
{"id": "C366", "title": "A task made from another thread wakes its loop up", "statement": "A task or future is made on the loop given, else on the one of the thread, and that loop is woken up exactly if it is not the caller.", "quantifier": "all states of threads and loops", "why_tests_cant": "All states.", "anchors": ["scarletio/core/top_level/task.py:create_task", "scarletio/core/top_level/task.py:create_future", "scarletio/core/top_level/event_loop.py:_get_event_loop_is_current_thread"]}
{"id": "C367", "title": "The event loop set is got", "statement": "After set_event_loop the thread gets that loop, no other thread is changed; a loop cannot set one.", "quantifier": "all states of threads and loops", "why_tests_cant": "All states.", "anchors": ["scarletio/core/top_level/event_loop.py:set_event_loop"]}
{"id": "C368", "title": "The kind of a function is the kind of what it gives", "statement": "A function or method is told to be a coroutine function, a generator function or a coroutine generator function exactly if its call gives a coroutine, a generator or a coroutine generator.", "quantifier": "all flags of codes", "why_tests_cant": "All flags.", "anchors": ["scarletio/utils/async_utils.py:is_coroutine_function", "scarletio/utils/async_utils.py:is_coroutine", "scarletio/utils/async_utils.py:is_awaitable", "scarletio/utils/async_utils.py:is_coroutine_generator"]}
{"id": "C369", "title": "The kinds of functions exclude each other", "statement": "At most one of the kinds is told of a function.", "quantifier": "all flags of codes", "why_tests_cant": "All flags.", "anchors": ["scarletio/utils/async_utils.py:is_coroutine_function", "scarletio/utils/async_utils.py:is_generator_function", "scarletio/utils/async_utils.py:is_coroutine_generator_function"]}
{"id": "C370", "title": "The kind is told of every object", "statement": "Asking for the kind of an object never raises.", "quantifier": "all objects", "why_tests_cant": "All objects.", "anchors": ["scarletio/utils/async_utils.py:is_coroutine_function", "scarletio/utils/type_methodizer.py:methodize.__get__"]}
{"id": "C371", "title": "to_coroutine makes coroutine functions", "statement": "A generator function is made a coroutine function, only its flag for that changes; a coroutine function stays as it is and anything else is refused; making it again changes nothing.", "quantifier": "all flags of codes", "why_tests_cant": "All flags.", "anchors": ["scarletio/utils/async_utils.py:to_coroutine"]}
{"id": "C372", "title": "Method likes are told by their types", "statement": "An object is an instance of a method like type exactly if its type inherits from it, and its count of reserved parameters is that of its type.", "quantifier": "all types", "why_tests_cant": "All sets of types.", "anchors": ["scarletio/utils/method_like.py:SubCheckType.__instancecheck__", "scarletio/utils/method_like.py:MethodLike.get_reserved_parameter_count"]}
{"id": "C373", "title": "Lines of the console are broken without loss", "statement": "However the highlighter splits the text, each line of the buffer is drawn as rows of the width of the content with a backslash behind each but the last one, which has the rest; the first row has the prefix of the line and the others a blank one.", "quantifier": "all buffers, splits into parts, prefixes and widths", "why_tests_cant": "All buffers and widths.", "anchors": ["scarletio/tools/asynchronous_interactive_console/editors/display_state.py:DisplayState.get_line_render_intermediates"]}
{"id": "C374", "title": "Rows of the console are counted as drawn", "statement": "The number of rows counted for a line or a buffer is the number of rows drawn, those above the cursor, the one of the cursor and those below are all of them, and the cursor is put right behind the character before it.", "quantifier": "all buffers, cursors and widths", "why_tests_cant": "All buffers and widths.", "anchors": ["scarletio/tools/asynchronous_interactive_console/editors/display_state.py:_get_line_line_count_same_or_increased", "scarletio/tools/asynchronous_interactive_console/editors/display_state.py:_get_line_cursor_index", "scarletio/tools/asynchronous_interactive_console/editors/display_state.py:DisplayState.get_cursor_from_start_display_line_count", "scarletio/tools/asynchronous_interactive_console/editors/display_state.py:DisplayState.get_cursor_till_end_display_line_count"]}
{"id": "C375", "title": "Rows are counted right after the terminal became narrower", "statement": "After the terminal became narrower the number of rows counted for a line is the number of rows its rows are folded to.", "quantifier": "all lines, widths and prefixes", "why_tests_cant": "All lengths and widths.", "anchors": ["scarletio/tools/asynchronous_interactive_console/editors/display_state.py:_get_line_line_count_reduced"]}
{"id": "C376", "title": "Jumps reach their target", "statement": "Jumping between rows or columns only changes the row or the column, to the wanted one.", "quantifier": "all positions", "why_tests_cant": "All positions.", "anchors": ["scarletio/tools/asynchronous_interactive_console/editors/display_state.py:_jump_vertical", "scarletio/tools/asynchronous_interactive_console/editors/display_state.py:_jump_horizontal"]}
{"id": "C377", "title": "Clearing erases exactly the rows of the buffer", "statement": "Clearing of a drawn state erases its rows and no other one and goes to the start of its first row, while the terminal did not become narrower.", "quantifier": "all states, screens and positions", "why_tests_cant": "All screens.", "anchors": ["scarletio/tools/asynchronous_interactive_console/editors/display_state.py:DisplayState.clear", "scarletio/tools/asynchronous_interactive_console/editors/display_state.py:DisplayState._clear_from_end", "scarletio/tools/asynchronous_interactive_console/editors/display_state.py:DisplayState._jump_to_end"]}
{"id": "C378", "title": "Writing shows the rows and the cursor", "statement": "Writing to a blank part of the screen shows the rows there, leaves the rows above, and then the cursor is where the cursor of the buffer is.", "quantifier": "all rows, states and screens", "why_tests_cant": "All screens.", "anchors": ["scarletio/tools/asynchronous_interactive_console/editors/display_state.py:DisplayState.write", "scarletio/tools/asynchronous_interactive_console/editors/display_state.py:DisplayState.write_cursor"]}
{"id": "C379", "title": "The difference of a row turns it into the new one", "statement": "Writing only the difference of a row onto the old one shows the new one and changes no other row.", "quantifier": "all pairs of rows with any formats", "why_tests_cant": "All pairs of rows.", "anchors": ["scarletio/tools/asynchronous_interactive_console/editors/display_state.py:DisplayState.write_difference", "scarletio/tools/asynchronous_interactive_console/editors/display_state.py:_cut_same_prefix"]}
{"id": "C380", "title": "The difference of the screen turns it into the new one", "statement": "Writing only the difference onto a screen showing the old rows shows the new ones and nothing below, leaves the rows above and goes to the row of the cursor.", "quantifier": "all pairs of lists of rows", "why_tests_cant": "All pairs of screens.", "anchors": ["scarletio/tools/asynchronous_interactive_console/editors/display_state.py:DisplayState.write_difference"]}
{"id": "C381", "title": "After writing the difference the cursor is in its column", "statement": "After the difference was written the cursor is in the column of the cursor of the buffer.", "quantifier": "all pairs of lists of rows and positions of the cursor", "why_tests_cant": "All pairs of screens.", "anchors": ["scarletio/tools/asynchronous_interactive_console/editors/display_state.py:DisplayState.write_difference"]}
{"id": "C382", "title": "Hooks of extensions are not called again and not lost", "statement": "Whatever hooks do when they are called, also load extensions and add hooks, no hook is called more times than it was added, and one which was not called still waits.", "quantifier": "all sequences of loading and adding, all behaviours of hooks", "why_tests_cant": "Arbitrary nesting of calls.", "anchors": ["scarletio/ext/__init__.py:register_library_extension", "scarletio/ext/__init__.py:add_library_extension_hook"]}
{"id": "C383", "title": "Hooks are called only with their requirements loaded", "statement": "Whatever hooks do, a hook is called only if all extensions it requires are loaded.", "quantifier": "all sequences of loading and adding, all behaviours of hooks", "why_tests_cant": "Arbitrary nesting of calls.", "anchors": ["scarletio/ext/__init__.py:register_library_extension", "scarletio/ext/__init__.py:add_library_extension_hook"]}
{"id": "C384", "title": "Hooks are called once all they require is loaded", "statement": "A hook is called exactly once for each time it was added if all it requires is loaded and not at all before, and loading of an extension does not raise.", "quantifier": "all sequences of loading and adding, all behaviours of hooks", "why_tests_cant": "Arbitrary nesting of calls.", "anchors": ["scarletio/ext/__init__.py:register_library_extension", "scarletio/ext/__init__.py:add_library_extension_hook"]}
{"id": "C385", "title": "Extending of a class copies the attributes of the new one", "statement": "After extending, the old class has every attribute of the new class but those with special names, a missing documentation and those which are object's; all its other attributes stay.", "quantifier": "all classes", "why_tests_cant": "All classes.", "anchors": ["scarletio/utils/keep_type.py:KeepType.__call__"]}
{"id": "C386", "title": "Extending of a class keeps existing attributes", "statement": "Attributes the old class already has are not overwritten, as documented.", "quantifier": "all classes", "why_tests_cant": "All classes.", "anchors": ["scarletio/utils/keep_type.py:KeepType"]}
{"id": "C387", "title": "Pairs are given up to the first element which is none", "statement": "Updating from an iterable gives the pairs before the first element which is no pair, then raises telling its position and its length, or that it has more than 9000.", "quantifier": "all iterables", "why_tests_cant": "All lengths.", "anchors": ["scarletio/utils/dict_update_iterable_iterator.py:_dict_update_iterable_iterator"]}
{"id": "C388", "title": "Parts of urls read the same whatever was read before", "statement": "A part made of a decoded, an encoded or a parsed value gives it unchanged and its other form, in whatever order and however many times they are read.", "quantifier": "all values, codings and sequences of reads", "why_tests_cant": "All sequences of reads.", "anchors": ["scarletio/web_common/url/url_part_base.py:URLPartBase", "scarletio/web_common/url/url_part_base_parsed.py:URLPartBaseParsed"]}
{"id": "C389", "title": "Parts of urls are equal if they decode to the same", "statement": "Parts are equal exactly if they decode to the same value whatever was read before, user infos exactly if both names and both passwords are, where a missing one is only equal to a missing one.", "quantifier": "all parts and sequences of reads", "why_tests_cant": "All sequences of reads.", "anchors": ["scarletio/web_common/url/url_part_base.py:URLPartBase.__eq__", "scarletio/web_common/url/url_user_info.py:URLUserInfo.__eq__"]}
{"id": "C390", "title": "Running of an awaitable leaves no event loop behind", "statement": "Called by an event loop it is refused; else it runs on the loop of the thread, or if there is none on a new one, which is ended afterwards and which no other thread ever gets.", "quantifier": "all callers and histories of event loops", "why_tests_cant": "All histories.", "anchors": ["scarletio/core/top_level/flow.py:run"]}
{"id": "C391", "title": "Running of a coroutine blocks only threads which are no event loop", "statement": "The task itself is given exactly to the event loop it runs on, another event loop gets a future of its own, other threads are blocked until the end; the loop is woken up exactly if it is not the caller; without any loop it fails.", "quantifier": "all callers and histories of event loops", "why_tests_cant": "All histories.", "anchors": ["scarletio/core/top_level/flow.py:run_coroutine"]}
{"id": "C392", "title": "Exceptions are represented by name and parameters", "statement": "An exception with the default constructors and at most one parameter is written as its name and its parameter, every other one as its repr tells, and if that raises as its name and all its parameters.", "quantifier": "all exceptions and behaviours of repr", "why_tests_cant": "All behaviours of user code.", "anchors": ["scarletio/utils/trace/exception_representation/representation_helpers.py:get_exception_representation_generic", "scarletio/utils/trace/exception_representation/representation_helpers.py:_get_exception_representation_simple", "scarletio/utils/trace/exception_representation/representation_helpers.py:_get_exception_representation_fallback"]}
{"id": "C393", "title": "Representing of an exception raises nothing", "statement": "Representing of an exception raises nothing but a KeyboardInterrupt or a SystemExit raised by user code meanwhile, which is let out.", "quantifier": "all exceptions and behaviours of user code", "why_tests_cant": "All behaviours of user code.", "anchors": ["scarletio/utils/trace/exception_representation/representation_helpers.py:get_exception_representation_generic", "scarletio/utils/trace/exception_representation/representation_helpers.py:_get_value_representation", "scarletio/utils/trace/exception_representation/representation_helpers.py:_get_type_name"]}
{"id": "C394", "title": "The check of kept console inputs keeps the newest", "statement": "Checking keeps the newest inputs as long as they have less characters than the limit together, no older ones, in every history; no name is kept twice.", "quantifier": "all histories, limits and periods", "why_tests_cant": "All histories.", "anchors": ["scarletio/utils/trace/expression_parsing/console_input.py:check_console_cache_overflow", "scarletio/utils/trace/expression_parsing/console_input.py:add_console_input"]}
{"id": "C395", "title": "The newest console input is kept", "statement": "An input is kept right after it was added, as the newest one.", "quantifier": "all histories, limits and periods", "why_tests_cant": "All histories.", "anchors": ["scarletio/utils/trace/expression_parsing/console_input.py:add_console_input"]}
{"id": "C396", "title": "Kept console inputs stay under their limit", "statement": "The kept inputs never have more characters together than the limit.", "quantifier": "all histories, limits and periods", "why_tests_cant": "All histories.", "anchors": ["scarletio/utils/trace/expression_parsing/console_input.py:add_console_input", "scarletio/utils/trace/expression_parsing/console_input.py:check_console_cache_overflow"]}
{"id": "C397", "title": "Marks of syntax errors are under the characters told", "statement": "The line of a syntax error is shown without white space around and exactly those of its characters are marked which the error told of.", "quantifier": "all lines and details of errors", "why_tests_cant": "All lines and offsets.", "anchors": ["scarletio/utils/trace/exception_representation/exception_representation_syntax_error.py:ExceptionRepresentationSyntaxError"]}
{"id": "C398", "title": "Marks of syntax errors are inside their line", "statement": "Something of the line is marked and nothing outside of it, also if the error ends on a later line.", "quantifier": "all lines and details of errors", "why_tests_cant": "All lines and offsets.", "anchors": ["scarletio/utils/trace/exception_representation/exception_representation_syntax_error.py:ExceptionRepresentationSyntaxError"]}
{"id": "C399", "title": "Formatted callbacks show what is called", "statement": "The function and the parameters shown of a callback, however deep its wrapping, are those of the call it makes in the end.", "quantifier": "all nestings of partial and incendiary functions", "why_tests_cant": "Arbitrary nesting.", "anchors": ["scarletio/utils/trace/formatters.py:format_callback", "scarletio/utils/trace/formatters.py:_merge_nullable_tuples", "scarletio/utils/trace/formatters.py:_merge_nullable_dicts"]}
{"id": "C400", "title": "Formatted callbacks list all parameters", "statement": "The text is the name and, between parentheses with commas between, the positional parameters in order and the keyword ones sorted by name.", "quantifier": "all parameters", "why_tests_cant": "All numbers of parameters.", "anchors": ["scarletio/utils/trace/formatters.py:format_callback"]}
{"id": "C401", "title": "File names are cut at the first path they are under", "statement": "A file name is shown without the first path of the system paths under which it is, keeping the separator; as it is if there is none; nothing exactly for an empty one.", "quantifier": "all file names and system paths", "why_tests_cant": "All paths.", "anchors": ["scarletio/utils/trace/formatters.py:_cut_file_name"]}
{"id": "C402", "title": "Representations of futures show results by their state", "statement": "A result is shown exactly if it was returned, a cancellation exception only if it tells more than that, an exception only if raised; exceptions are shown on one short line.", "quantifier": "all states and results", "why_tests_cant": "All combinations.", "anchors": ["scarletio/core/traps/future_repr.py:render_result_into", "scarletio/core/traps/future_repr.py:get_exception_short_representation"]}
{"id": "C403", "title": "Suggestions look at every variable once", "statement": "Every name is looked at once, with the value it has for the frame: local, else global, else built-in.", "quantifier": "all frames", "why_tests_cant": "All frames.", "anchors": ["scarletio/utils/trace/exception_representation/suggestion/helpers_variables.py:_iter_unique_variables", "scarletio/utils/trace/exception_representation/suggestion/helpers_variables.py:_iter_variables"]}
{"id": "C404", "title": "Suggested variables have the attribute", "statement": "At most the maximal number of names is suggested, sorted, each once, each of a variable which has the attribute; they are the first such, and none only if there is no such variable.", "quantifier": "all frames and variables", "why_tests_cant": "All frames.", "anchors": ["scarletio/utils/trace/exception_representation/suggestion/matching_variable_names_with_attribute.py:get_matching_variable_names_with_attribute"]}
{"id": "C405", "title": "Familiar attributes are taken from all others of the instance", "statement": "Familiar names are looked for among all names the instance lists but the missing one, and it is told whether that is listed.", "quantifier": "all instances", "why_tests_cant": "All behaviours of user code.", "anchors": ["scarletio/utils/trace/exception_representation/suggestion/familiar_instance_attribute_names.py:get_familiar_instance_attribute_names", "scarletio/utils/trace/exception_representation/suggestion/familiar_instance_attribute_names.py:_get_instance_attributes"]}
{"id": "C406", "title": "Representing of an attribute error raises nothing", "statement": "Looking for suggestions raises nothing, whatever variables and instances do.", "quantifier": "all frames and instances", "why_tests_cant": "All behaviours of user code.", "anchors": ["scarletio/utils/trace/exception_representation/exception_representation_attribute_error.py:ExceptionRepresentationAttributeError.__new__", "scarletio/utils/trace/exception_representation/suggestion/matching_variable_names_with_attribute.py:get_matching_variable_names_with_attribute", "scarletio/utils/trace/exception_representation/suggestion/familiar_instance_attribute_names.py:_get_instance_attributes"]}
{"id": "C407", "title": "Inputs of the console give their own results", "statement": "Every input of the console gives its own value, that of its task, or has its own exception written; a task whose awaiting is interrupted is cancelled; nothing of it stays behind.", "quantifier": "all sequences of inputs and interruptions", "why_tests_cant": "All interleavings of the event loop and interrupts.", "anchors": ["scarletio/tools/asynchronous_interactive_console/console.py:AsynchronousInteractiveConsole.run_code", "scarletio/tools/asynchronous_interactive_console/console.py:run_code_callback"]}
{"id": "C408", "title": "SystemExit raised by an input ends the console", "statement": "An input which raises SystemExit ends the console.", "quantifier": "all inputs and states", "why_tests_cant": "All states.", "anchors": ["scarletio/tools/asynchronous_interactive_console/console.py:AsynchronousInteractiveConsole.run_code", "scarletio/tools/asynchronous_interactive_console/console.py:run_code_callback"]}
{"id": "C409", "title": "File names of console inputs are distinct", "statement": "An input has always the same file name, and no two inputs of any consoles have the same.", "quantifier": "all histories of consoles", "why_tests_cant": "All histories.", "anchors": ["scarletio/tools/asynchronous_interactive_console/console.py:AsynchronousInteractiveConsole.get_file_name", "scarletio/tools/asynchronous_interactive_console/console.py:AsynchronousInteractiveConsole._create_file_name", "scarletio/tools/asynchronous_interactive_console/console.py:AsynchronousInteractiveConsole.increment_input_counter"]}
{"id": "C410", "title": "The history of the console has every input under its number", "statement": "Inputs are numbered one after the other and what was entered in each is in the history under its number, also if it was interrupted or wrong; nothing else is.", "quantifier": "all sequences of rounds", "why_tests_cant": "All sequences.", "anchors": ["scarletio/tools/asynchronous_interactive_console/console.py:AsynchronousInteractiveConsole.interact"]}
{"id": "C411", "title": "The console ends with the first exit", "statement": "The console ends with the first round which exits or raises something unexpected, or if it stops on interruptions is interrupted while nothing is entered; interrupting twice ends it then.", "quantifier": "all sequences of rounds", "why_tests_cant": "All sequences.", "anchors": ["scarletio/tools/asynchronous_interactive_console/console.py:AsynchronousInteractiveConsole.interact"]}
{"id": "C412", "title": "The console writes its banner and its exit message", "statement": "The banner is written first and once, the exit message when the console exits.", "quantifier": "all sequences of rounds", "why_tests_cant": "All sequences.", "anchors": ["scarletio/tools/asynchronous_interactive_console/console.py:AsynchronousInteractiveConsole.interact"]}
{"id": "C413", "title": "The simple editor gives the first lines which compile", "statement": "The simple editor leaves out blank lines before the first other one, asks for lines until those entered compile or are wrong and gives just that; the end of the input exits.", "quantifier": "all inputs and behaviours of the compiler", "why_tests_cant": "All inputs.", "anchors": ["scarletio/tools/asynchronous_interactive_console/editors/editor_simple.py:EditorSimple.__call__"]}
{"id": "C414", "title": "Sessions of the line cache keep infos of files", "statement": "While a session is entered, every lookup of a file gives the info of the first one in it, whatever else is entered, exited, collected or written; without holder a new one is made.", "quantifier": "all histories", "why_tests_cant": "All histories, collection of garbage at any time.", "anchors": ["scarletio/utils/trace/expression_parsing/file_info.py:get_file_info", "scarletio/utils/trace/expression_parsing/line_cache_session.py:LineCacheSession"]}
{"id": "C415", "title": "Infos of files have the present content", "statement": "A lookup of a file gives its present content.", "quantifier": "all histories", "why_tests_cant": "All histories, collection of garbage at any time.", "anchors": ["scarletio/utils/trace/expression_parsing/file_info.py:get_file_info"]}
{"id": "C416", "title": "Sessions of the line cache can be entered and exited", "statement": "A session is entered until it was exited as many times as it was entered, and exiting does not raise.", "quantifier": "all histories", "why_tests_cant": "All histories.", "anchors": ["scarletio/utils/trace/expression_parsing/line_cache_session.py:LineCacheSession.__enter__", "scarletio/utils/trace/expression_parsing/line_cache_session.py:LineCacheSession.__exit__"]}
{"id": "C417", "title": "Exceptions are alike if their frames are", "statement": "Exceptions without empty groups are alike exactly if they are represented the same and their groups written out are the same frames.", "quantifier": "all representations and groups", "why_tests_cant": "All numbers of groups.", "anchors": ["scarletio/utils/trace/exception_proxy/exception_proxy_base.py:ExceptionProxyBase._is_alike", "scarletio/utils/trace/frame_group.py:FrameGroup._is_alike"]}
{"id": "C418", "title": "A process counts as lost when it ended and its pipes are lost", "statement": "A process counts as lost exactly if its code is known and all its pipes are lost, or the pipe of its input is lost.", "quantifier": "all choices of pipes, all orders of the end, losses and data", "why_tests_cant": "All orders of events of three pipes.", "anchors": ["scarletio/core/subprocess/subprocess.py:AsyncProcess._try_finish", "scarletio/core/subprocess/subprocess.py:AsyncProcess._pipe_connection_lost"]}
{"id": "C419", "title": "Protocols of pipes tell the process of data and of the loss", "statement": "A process is told once of every pipe which is lost, gets the data of its outputs until then in order, a lost pipe counts as disconnected, and what comes later does not raise.", "quantifier": "all choices of pipes, all orders of the end, losses and data", "why_tests_cant": "All orders of events of three pipes.", "anchors": ["scarletio/core/subprocess/subprocess_protocols.py:SubprocessWritePipeProtocol.connection_lost", "scarletio/core/subprocess/subprocess_protocols.py:SubprocessReadPipeProtocol.data_received"]}
{"id": "C420", "title": "Escaped inputs can be read back", "statement": "An escaped text read as Python reads escapes is the text, so different texts are escaped differently, and escapes are of visible ASCII characters.", "quantifier": "all texts", "why_tests_cant": "All texts of all code points.", "anchors": ["scarletio/main/key_debug/command.py:_escape_character", "scarletio/main/key_debug/command.py:_escape_string"]}
{"id": "C421", "title": "One input is read and the terminal is restored", "statement": "The first input which is not empty is returned, and once the reading ended, also by an exception, the terminal is as before.", "quantifier": "all sequences of rounds of the loop, all settings, failures of setting", "why_tests_cant": "All sequences of rounds and places of failures.", "anchors": ["scarletio/main/key_debug/command.py:input_once"]}
{"id": "C422", "title": "The name of an input tells which it was", "statement": "Keys have their names, other inputs are shown as they are or escaped, and different inputs have different names.", "quantifier": "all inputs", "why_tests_cant": "All inputs.", "anchors": ["scarletio/main/key_debug/command.py:_determine_input_name", "scarletio/tools/keys.py:KEY_NAMES"]}
{"id": "C423", "title": "Properties of names and modules give those of the class and of the instance", "statement": "A name property gives its name when accessed through the class, a module property the module set last; through an instance both give what their function gives for the instance.", "quantifier": "all properties and histories of setting", "why_tests_cant": "All histories.", "anchors": ["scarletio/utils/properties.py:name_property", "scarletio/utils/properties.py:module_property"]}
{"id": "C424", "title": "Class properties call their functions with the class", "statement": "Every access of a class property, through the class or an instance, calls the function for it with the class, and raises if there is none.", "quantifier": "all properties and sequences of accesses", "why_tests_cant": "All sequences of accesses.", "anchors": ["scarletio/utils/properties.py:class_property"]}
{"id": "C425", "title": "Class properties are built of the functions added last", "statement": "A class property has the functions added last, else those it was made with; its documentation is the given one, else that of the first getter which has one.", "quantifier": "all functions and sequences of additions", "why_tests_cant": "All sequences of additions.", "anchors": ["scarletio/utils/properties.py:class_property.getter", "scarletio/utils/properties.py:class_property.setter", "scarletio/utils/properties.py:class_property.deleter"]}
{"id": "C426", "title": "Dropping the variables of frames drops all of them and nothing else", "statement": "After dropping of variables no frame of an exception has any, nor its tracing function, and everything else is the same; frozen with variables a frame has all of them.", "quantifier": "all groups of all frames", "why_tests_cant": "All frames and groups.", "anchors": ["scarletio/utils/trace/frame_proxy/frame_proxy_virtual.py:FrameProxyVirtual.__new__", "scarletio/utils/trace/frame_group.py:FrameGroup.drop_variables", "scarletio/utils/trace/frame_group.py:FrameGroup.copy_without_variables"]}
{"id": "C427", "title": "Virtual proxies of exceptions are independent of what they were made of", "statement": "A virtual proxy of an exception has its variables or none as asked, and dropping the variables of one of them leaves the other as it is.", "quantifier": "all proxies and sequences of drops", "why_tests_cant": "All sequences of drops.", "anchors": ["scarletio/utils/trace/exception_proxy/exception_proxy_virtual.py:ExceptionProxyVirtual.__new__", "scarletio/utils/trace/exception_proxy/exception_proxy_base.py:ExceptionProxyBase.drop_variables"]}
{"id": "C428", "title": "Resource streams are equal if their functions and parameters are", "statement": "Two resource streams are equal exactly if their functions and positional parameters are the same and their keyword parameters are, in any order.", "quantifier": "all streams", "why_tests_cant": "All parameters.", "anchors": ["scarletio/streaming/resource_streaming/resource_stream.py:ResourceStream.__eq__"]}
{"id": "C429", "title": "Resource streams call their function anew with their parameters and show them", "statement": "Every iteration of a resource stream calls its function with its parameters, whichever streams are made and iterated; the parameters are shown in order with commas between them.", "quantifier": "all histories and parameters", "why_tests_cant": "All histories.", "anchors": ["scarletio/streaming/resource_streaming/resource_stream.py:ResourceStream.__aiter__", "scarletio/streaming/resource_streaming/resource_stream.py:ResourceStream.__repr__", "scarletio/streaming/resource_streaming/resource_stream_function.py:ResourceStreamFunction.__call__"]}
{"id": "C430", "title": "The frame of an attribute error is the one of the lookup", "statement": "The frame taken for an attribute error is the last one, but the one before if that is __getattr__ of a rich error.", "quantifier": "all lists of frames", "why_tests_cant": "All lists of frames.", "anchors": ["scarletio/utils/trace/exception_representation/attribute_error_helpers.py:extract_last_attribute_error_context_frame"]}
{"id": "C431", "title": "Json has the elements, items and values of what it is made of", "statement": "The json of an object has the elements of what is iterated, the items of what maps and the values of members of enums, at any depth; TypeError is raised exactly if something in it can not be turned into json.", "quantifier": "all nested objects", "why_tests_cant": "All depths of nesting.", "anchors": ["scarletio/utils/json.py:added_json_serializer", "scarletio/utils/json.py:to_json"]}
{"id": "C432", "title": "Closed connections tell the reason", "statement": "The reason of a closed connection is at every reading the given one, else the one registered for the code.", "quantifier": "all codes, reasons and numbers of readings", "why_tests_cant": "All codes and numbers of readings.", "anchors": ["scarletio/web_common/exceptions.py:get_close_reason", "scarletio/web_common/exceptions.py:ConnectionClosed.reason"]}
{"id": "C433", "title": "A copied function is called as the original", "statement": "A copy of a function is a new function with the same name, code, globals, closure, defaults, defaults of keywords and documentation; the functions there were stay as they are.", "quantifier": "all functions and histories of copying and setting", "why_tests_cant": "All histories.", "anchors": ["scarletio/utils/function_tools.py:copy_func"]}
{"id": "C434", "title": "Copied functions are independent", "statement": "Whatever is set on one of a function and its copies, the others are called as before.", "quantifier": "all functions and histories of copying and setting", "why_tests_cant": "All histories.", "anchors": ["scarletio/utils/function_tools.py:copy_func"]}
