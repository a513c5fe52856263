# Formal model of scarletio - design

Subject: `HuyaneMatsu/scarletio` (Python), source read as text from `/repo`. All file/line references below and in the Lean
comments are relative to `/repo/scarletio`.

This file is put together by `tools/design.py` from `tools/design_head.md`, `tools/areas.json`, `properties.jsonl` and
`MANIFEST.json`. `MANIFEST.json` is put together by `tools/manifest.py` from the theorems in the `Props*.lean` files and
`tools/notes.json`; `AXIOMS.md` by `tools/axioms.py`.

## Layout

* `lean/Verif/<Area>/Model.lean` (and others without prefix) - definitions mirroring the Python functions branch by branch.
  Every definition cites file and lines and says what was simplified.
* `lean/Verif/<Area>/Spec.lean` - small independent specifications (only where the statement needs vocabulary; otherwise the
  specification is at the beginning of the `Props` file).
* `lean/Verif/<Area>/*Lemmas.lean` - helper lemmas.
* `lean/Verif/<Area>/Props*.lean` - the property theorems, each with a concrete non-trivial instance beside it. Only names
  from these files appear in `MANIFEST.json`.
* `seeded/LOG.jsonl` - wrong programs the theorems were tested against: one line for every change made to a model in a scratch
  copy, with the theorems that stopped being provable, and those tightened because a wrong program was not noticed.

Naming: `Cxx_...` proves property Cxx of `properties.jsonl`; `Cxx_..._partial` proves only part of it (the doc comment says
what is missing); `Cxx_..._violated` proves that the code as it exists does *not* have the property, by a concrete reachable
witness or a family of them. A property with a `_violated` theorem cannot be proved for this code; its status is `partial`,
and the `_partial` theorems say for which inputs or histories it does hold.

## Modelling conventions

* Bytes are `UInt8` (or an arbitrary type with decidable equality where the code never looks at the value); text is
  `List Char`; Python `int` is `Nat`/`Int`; `None` is `Option.none`; a `deque`/`list` is `List`; identity of Python objects
  is a `Nat` identifier.
* Python exceptions are values (`Except`, or an `Outcome` inductive) - every error branch of a modelled function is present.
* Coroutines are cut at their suspension points. A coroutine which only suspends in order to receive the next chunk of data
  is modelled as a function consuming the list "chunks buffered now ++ chunks that will arrive before EOF": the coroutine
  asks for a new chunk only if the buffer is empty, and everything received meanwhile is appended at the end of the buffer
  (`protocol.py` 487-531, 779-794), so this list is exactly what it observes under every arrival schedule.
* Concurrent objects (futures, locks, queues, pools, loop) are transition systems `step : State -> Op -> State x Out`, and
  theorems quantify over all finite operation lists (no bound) or over all reachable states.
* Loops which may not end are given a number of rounds (fuel); the theorems say what happens for every number of rounds.
* Time is an arbitrary `Nat`/`Int` supplied by the operation (the model never assumes it advances, unless stated).
* What Python's Unicode tables say (`str.casefold`, `str.isspace`, idna, ...) is a parameter of the model unless the comment of
  the definition says otherwise; theorems hold for every such table.

## Trusted base

* Lean 4.33.0 kernel. No own axioms, no `sorry`, no `native_decide`, no `bv_decide`. Theorems depend at most on `propext`,
  `Classical.choice`, `Quot.sound`; `AXIOMS.md` lists the axioms of every theorem of `MANIFEST.json`.
* `decide` and `decide +kernel` are used for complete finite tables (all bytes, all head bytes), for the instances beside the
  theorems and for the witnesses of violations; never in place of a proof about all inputs.
* The hand translation Python -> Lean (the comments give the source lines so that it can be audited).
* Semantics of Python builtins that are modelled: `deque`/`list`/`dict`/`set` operations, `bytes.find`, slicing, `int(x, 16)`,
  `str` methods used by the parsers, the regular expressions of the modelled functions, UTF-8 encoding/decoding.
* Not modelled: the selector and sockets of the OS (they appear as arbitrary inputs), TLS, threads other than where stated,
  garbage collection (where weak references matter, the death of an object is an operation), compression, repr methods
  (other than where stated), logging, deprecations.

## What is modelled

| Area (`lean/Verif/...`) | Code | Not modelled of it | Properties |
|---|---|---|---|
| Stream | core/protocols_and_transports/protocol.py: `_read_exactly_*`, `_read_until*`, `_read_until_eof` | `read_line`, `read_once`; transports | C01, C02, C03 |
| WebSocket | web_common/web_socket_frame.py, frame reader and writer of web_common/http_protocol.py | see WsProtocol for messages | C04, C05, C06, C07 |
| Chunked | chunk reader of web_common/http_protocol.py 459-531, web_common/http_stream_writer.py | compression | C08, C09, C10 |
| Future | core/traps/future.py, `call_soon` and `_schedule_callbacks` of the loop | repr, deprecated methods | C11, C12 |
| Task | core/traps/task.py: stepping, `cancel`, `cancel_with` | awaiting another task whose coroutine swallows the cancellation; stacks, repr | C11, C13 |
| Shield | core/traps/future_chaining.py `shield` | - | C14 |
| Lock | core/traps/locks.py | - | C15, C16, C17 |
| AsyncQueue | core/traps/queues.py | `clear`, `copy`, `reverse`, `iterable` of the constructor | C18, C19, C20, C21 |
| Event | core/traps/event.py | - | C22 |
| TaskGroup | core/traps/task_group.py | `cancel_*`, `iter_futures` | C23, C57 |
| ScarletExecutor | core/traps/async_executing.py | several adders at once | C24, C25 |
| EventLoop | scheduling part of core/event_loop/event_loop.py, handles.py | selector, signals, servers, connections | C26, C27, C28, C58 |
| Cycler | core/event_loop/cycler.py | async cycle functions are tasks and not followed | C29 |
| SyncQueue | `SyncQueue`, `SyncWait` of core/event_loop/executor.py | `max_length`, deque operations | C30 |
| Transport | writing side of `SocketTransportLayer`, core/protocols_and_transports/transport_layer.py | reading side, datagrams, TLS | C31, C32 |
| FlowControl | pausing and `drain` of core/protocols_and_transports/protocol.py | - | C59, C60 |
| PayloadStream | core/protocols_and_transports/payload_stream.py | - | C33, C34 |
| MultiDict | utils/multi_value_dictionary.py, ignore_case_multi_value_dictionary.py, ignore_case_string.py | iterators' repr | C35, C37, C61 |
| SortedList | utils/sorted_list.py | - | C36 |
| Text | UTF-8 as of Python's codec | surrogates | - |
| Quoting | web_common/quoting.py | caches | C38, C39, C62 |
| Url | web_common/url/url_path.py, url_query.py, url_host_info.py | most of url.py | C40, C41, C42, C63 |
| Dns | dns_query/building_and_parsing.py, helpers.py, resolve_configuration.py, server choice of requests.py | sockets, idna | C43, C44, C45, C46, C47, C48, C64, C65, C66, C67, C68, C69, C70, C71, C72, C73, C74, C75, C76, C77 |
| Header | web_common/header_building_and_parsing.py | - | C49, C78, C79, C80, C81, C82, C83, C84 |
| Http | message heads of web_common/helpers.py and http_protocol.py, payload framing of http_protocol.py, http_message.py | - | C50, C85, C86, C87, C88, C89, C90, C91, C92 |
| Pool | http_client/protocol_basket.py, connector_base.py, connection.py | creating connections | C51, C52, C53, C93 |
| Rotation | http_client/host_info_basket.py `iter_next_rotation` | - | C55 |
| Dedup | streaming/zip_streaming/name_deduplication.py | - | C56 |
| Cookie | web_common/cookiejar.py | pickling | C54, C94, C95, C96 |
| ContentType | web_common/content_type.py | repr, hash | C97, C98 |
| Multipart | writers of web_common/multipart.py, readers of web_common/http_protocol.py | payload types reading files | C99, C100, C101 |
| Redirect | ClientRequest.__new__ of http_client/client_request.py, loops of HTTPClient._request and _request2 of http_client/http_client.py | proxies, timeouts, the connection; url parsing is in Url; parsing and writing of cookies is a parameter | C102, C103, C104, C105, C106, C107, C108, C109 |
| WebSocketSession | web_socket/web_socket_common_protocol.py | extensions, iterators as messages of send, random ping payloads (an input), the text codec (a parameter), the task which is cancelled by the garbage collector | C110, C111, C112, C113, C114, C115, C116, C117 |
| Handshake | WebSocketClient.__new__ of web_socket/web_socket_client.py, WebSocketServerProtocol.handshake of web_socket/web_socket_server_protocol.py | SHA 1 (a parameter), the order of sets (any), parameters of extensions (any check), bytes on the wire (Http), b64decode as of Python 3.11 and later | C118, C119, C120, C121, C122, C123, C124, C125 |
| Weak | utils/weak_core.py, weak_set.py, weak_map.py, weak_key_dictionary.py, weak_value_dictionary.py, hybrid_value_dictionary.py, weak_item_dictionary.py | repr, pickling, update and operators with other iterables, values().__contains__, the order in which callbacks of one death are called, mutation of a container by the body of a loop over it | C126, C127, C128, C129, C130, C131, C132, C133, C134, C135 |
| ThreadPool | Executor, ExecutorThread, ClaimedExecutor of core/event_loop/executor.py | the stack methods and reprs, an event loop that stops, ExecutorThread.cancel interleaved with its own thread, SyncQueue itself (SyncQueue) | C136, C137, C138, C139, C140, C141, C142, C143 |
| Timeouts | repeat_timeout (core/traps/timeouting.py), sleep (core/traps/task_suppression.py) with _SleepHandleCanceller, Future.apply_timeout | floating point times, the delivery of the cancellation to the task (Task), apply_timeout of a Task, _TimeoutHandleCanceller (unused) | C144, C145, C146, C147, C148 |
| CrossThread | FutureWrapperSync.wait against Future.set_result / set_exception / cancel from other threads, step by step | propagate_cancellation, interrupted waits, FutureWrapperAsync, stopped loops, flags other than the done ones | C149, C150, C151, C152 |
| EnterExecutor | enter_executor (core/traps/task_thread_switcher.py) with Task.cancel and Task._step | nested use, cancel_with, values, _cancel_callback, the cross thread wait itself (see CrossThread), stopped loops | C153, C154, C155, C156 |
| Zip | streaming/zip_streaming: stream_zip, the records, ZipStreamFileState, the compressors | zlib (an arbitrary machine), name deduplication (Dedup), exceptions of the files' generators, ResourceStream | C157, C158, C159, C160 |
| Frames | utils/trace: frame_grouping.py, FrameGroup (adding, merging, separating, iterating, filtering), repeat_strategies.py | rendering, frame proxies (a key and an identity), expression infos, reprs, copies | C161, C162, C163, C164 |
| Ssl | core/protocols_and_transports: ssl_pipe.py (SSLPipe), ssl_transport_layer.py (SSLBidirectionalTransportLayer), of transport_layer.py what these call (close, _force_close, write up to its buffer) | the python ssl module (an arbitrary engine), pausing and resuming, extra info, protocols calling back into the layer from their callbacks, the rest of ext/asyncio (its start_tls returns the underlying transport instead of the ssl layer) | C165, C166, C167, C168, C169, C170 |
| Editor | tools/asynchronous_interactive_console: editors/editor_advanced.py (the keys, the tokenizer, poll_and_process_input, history moves, completion), of editors/display_state.py the text and cursor, history.py, auto_completer.py, tools/keys.py | drawing on the terminal, decoding of input, async output, compiling (whether a text is run is a parameter), the trimming of prompts (a parameter), isprintable, isidentifier and the regular expression for indexed inputs (parameters) | C171, C172, C173, C174, C175, C176, C177 |
| ReuIO | core/ios.py: ReuBytesIO (with the BytesIO below it), ReuAsyncIO close and read with its executor, the claim and release of executors by AsyncIO | the content of asynchronous files (positions only), readline, readinto, seek and tell of ReuAsyncIO, the iterators, inherited methods of BytesIO which ignore the size, files of which close raises | C178, C179, C180, C181 |
| Pipe | core/protocols_and_transports/unix_pipe_transport_layer.py: both transports | construction and its failures, exceptions raised by protocols, set_protocol, collection of a transport which was not closed | C182, C183, C184, C185 |
| Process | core/subprocess/subprocess.py: close, kill, wait, _process_exited, lost connections, _drain_helper, pausing and resuming, pending calls | starting the process, the transports (see Pipe), communicate, signals other than kill, the time between a signal and the end of the process, _try_finish | C186, C187, C188, C189, C190 |
| Asyncio | ext/asyncio/asyncio.py: Semaphore, BoundedSemaphore, StreamReader, Condition, Barrier, gather, wait | the rest of the extension: policies, queues, servers, subprocesses, as_completed, wait_for, timeouts of wait, what a cancelled gathering does to its futures; several tasks which read from one stream; the fairness of the loop | C191, C192, C193, C194, C195, C196, C197, C198, C199, C200, C201, C202, C203 |
| Server | core/event_loop/server.py; event_loop.py: _start_serving, _stop_serving, _accept_connection, _accept_connection_task; attaching and detaching in transport_layer.py | servers with several sockets, creating the sockets, failing protocol factories, ssl, the transports (see Transport, Ssl) | C204, C205, C206, C207, C208 |
| Credentials | web_common/basic_authorization.py; web_common/keep_alive_info.py and its pattern in web_common/constants.py | types of parameters, representations, hashes; str.casefold only for the characters which matter; encodings are parameters; base64 and re are modelled from the documentation and source of CPython; float without exponents, inf and nan, int without underscores | C209, C210, C211, C212 |
| LoopIO | core/event_loop/event_loop.py: add_reader, remove_reader, add_writer, remove_writer, the events of runner, socket_receive, socket_send_all and their callbacks, shutdown_async_generators, get_tasks; event_loop_functionality_helpers.py: the hooks of asynchronous generators, _iter_futures_of | starting a loop which does not run, the selector itself, errors of sockets, socket_accept, socket_connect and socket_receive_into (alike), writing the exceptions of generators which fail to close | C213, C214, C215, C216, C217, C218, C219 |
| FormData | `web_common/form_data.py`; `create_payload`, the constructors of the payloads and `MultipartWriter.append` of `web_common/multipart.py` | asynchronous payloads and StringIO, the constructor from mappings and sequences, quoting of the disposition (area Header), the effect of transfer encodings on the content; `urllib.parse.urlencode` is modelled from CPython, encodings, `str`, `to_json` and `guess_type` are parameters | C220, C221, C222, C223, C224 |
| Highlight | `utils/highlight/parser_context.py` (`add_token`, nesting), `matching.py` (the parsers and the consumers of strings), the searches of `utils.py`, `word_pattern.py`; `FileInfo.get_line` of `utils/trace/expression_parsing/file_info.py` | the regular expressions of spaces, console prefixes, numbers, identifiers and operators (a parameter with stated properties), retyping of escaped line breaks, token types which are neither braces nor line breaks, formatters | C225, C226, C227, C228, C229, C230 |
| UrlText | `web_common/url/constants.py` (`HOST_RP` and `URL_RP`, as patterns which a backtracking matcher like that of `re` runs), `url.py` (`URL.__new__`, `_create_host`, `_build_value`, `_build_host_into`, `join`, `__truediv__`, `parent`, `name`, `with_*`, `origin`, `relative`) | encoded texts (the area Url has paths and queries of both kinds), cached values, `with_query` of unnormalized queries, `extend_query`; case folding of characters which are not ASCII; `\d` and `\s` are parameters, of which only the ASCII part is assumed | C231, C232, C233, C234, C235 |
| Connect | `http_client/connector_tcp.py` (lookups and their waiters, `close`, `resolve_host_iterator`, `get_ssl_context`, `get_ssl_fingerprint`, `create_direct_connection`, `create_proxy_connection`), `host_info.py`, `ssl_fingerprint.py`, `event_loop.py` (`create_connection_to`, `_create_connection_transport`) | the lookup itself (the area Dns has its messages), the handshake (the area Ssl), headers and parsing of the `CONNECT` request; whether a certificate is trusted and what its hash is are parameters | C236, C237, C238, C239, C240, C241 |
| Response | `http_client/client_response.py` (`start_processing` after the head, `read`, `close`, `release`, `__del__`, the callbacks), `http_client/connection.py` (`close`, `release`, `detach`), `should_close`, `protocol.py` (payload reader, `data_received`, `eof_received`, `set_exception`), `payload_stream.py` (ending, awaiting), the writer task of `client_request.py` | the head of the message and the readers of bodies (areas Http and Chunked), cookies, encodings, callbacks of connections, a closed connector, more tasks that read at a time | C242, C243, C244, C245, C246, C247 |
| Life | `core/event_loop/event_loop.py` (`_maybe_start`, `is_started`, `_do_start`, `stop`, `_stop`, the loop of `runner`, `call_soon_thread_safe`), the descriptor of `EventThread.run`, `event_thread_type.py` (`EventThreadContextManager`), `event_thread_suspender.py` | timers, sockets, `wake_up` and executors when it ends; one access of the descriptor is one step; `threading.Thread.start` is as before Python 3.13 | C248, C249, C250, C251 |
| Datagram | `transport_layer.py` (`SocketTransportLayerBase.close`, `abort`, `_call_connection_lost`, `_force_close`, `_maybe_pause_protocol`, `_maybe_resume_protocol`; `DatagramSocketTransportLayer`), `protocol.py` (`DatagramAddressedReadProtocol`) | a known peer name (no creator passes one), `resume_writing` sending from inside, the types of data, creating of the socket | C252, C253, C254, C255, C256, C257, C258, C259, C260, C261, C262 |
| WsServer | `web_socket_server.py` (`__new__` parts, `register`, `unregister`, `is_serving`, `close`, `_close`), `web_socket_server_protocol.py` (`connection_made`, `lifetime_handler`, order of the steps of `handshake`) | what the handshake checks (area Handshake), the closing handshake (area WebSocketSession), creating of the server | C263, C264, C265, C266, C267 |
| WrapAsync | `core/traps/future_wrapper_async.py` (`wait`, `wait_for_completion`), `add_done_callback` and `remove_done_callback` of `future.py` against a loop in another thread | `propagate_cancellation`, the steps within completing a future (area CrossThread) | C268, C269, C270, C271, C272 |
| Reading | `transport_layer.py` (`SocketTransportLayer.__new__`, `pause_reading`, `resume_reading`, `_read_ready`, the end of `_write_ready`, `close`, `abort`, `_force_close`, `_call_connection_lost`) | the bytes of the write buffer (area Transport), `eof_received` calling back into the transport | C273, C274, C275, C276, C277, C278 |
| Equality | `__eq__` and `__hash__` of `ConnectionKey`, `HostInfo`, `RequestInfo`, `Proxy`, `BasicAuthorization`, `KeepAliveInfo`, of the values of `dns_query`, `freeze_headers`, `IgnoreCaseString`, the comparisons of `TimerHandle` | comparisons with values of other types (except of strings), the wrap around of hashes | C279, C280, C281, C282, C283, C284 |
| Resolve | `dns_query/requests.py` (`async_iter_execute_query_async`, which transports the `_execute_query_*` functions use, `get_address_info_async`, `get_name_info_async`) | the bytes of messages (area Dns), the connections themselves, canonical names, service names, scopes which are names of interfaces | C285, C286, C287, C288, C289, C290, C291, C292, C293 |
| Styling | `utils/highlight/`: `ansi.py`, `formatter_detail/ansi.py`, `formatter_detail/html.py`, `highlight_streamer.py` (`_highlight_step`, `_highlight_streamer`), `formatter_node.py` (`set_detail`), `formatter_context.py` (`set_highlight_html_all`) | the borders between split pieces of the same kind, other types of details, decimal numbers (any digits), the names of types and classes | C294, C295, C296, C297, C298, C299 |
| WinSelect | `core/event_loop/selector.py` (the whole file) | timeouts, descriptors whose state changes during a call, `select` without descriptors (raises) | C300, C301, C302 |
| Includes | `utils/export_include.py` (the whole file) | how the module of a frame and the name of an object are found | C303, C304, C305 |
| Trim | `tools/asynchronous_interactive_console/editors/prefix_trimming.py` (the whole file) | line ends other than `\n`, digits other than ASCII ones | C306, C307 |
| Analyzer | `utils/analyzer.py`: what `CallableAnalyzer.__new__` makes of a function, and the methods which ask for parameters | how the function of a callable and the number of reserved parameters are found, annotations, `%` | C308, C309, C310, C311 |
| Naming | `helpers_familiarity.py`: how names are split to words and normalized; `expression_info.py`: dedenting of lines | the comparing of names behind it; the tables of characters are parameters | C312, C313, C314, C315, C316 |
| Attributes | `extra_info.py`: setting and asking for infos of transports; `properties.py`: `cached_property`; `type_proxies/proxy_base.py`: overwrites and copies of proxies | getters which use the cache themselves, comparing and hashing of proxies | C317, C318, C319, C320, C321, C322, C323 |
| Compiling | `editors/compilation.py`: when a source is empty, compiled, refused or waited for; `syntax_error_helpers.py`: how errors are compared | Python's `compile` itself (a parameter), file names in errors | C324, C325, C326, C327, C328 |
| Modulize | `type_modulizer.py`: functions, types in types and the module made; `cause_group.py`: validation of causes | inherited attributes of types | C329, C330, C331, C332, C333 |
| Compound | `compound_type.py`: merging of the layers of an attribute (checks, transfers, slots) and separating of base types | collecting of attributes from types (`collect_attributes_per_type_from_type_attributes`, `CompoundLayer.from_*`), names of sources in errors, matching of parameters (a parameter) | C334, C335, C336, C337, C338, C339, C340, C341 |
| Rendering | `trace/trace.py`: chains of exceptions and groups of causes, with the queue of steps; `trace/rendering.py`: groups of frames; `trace/frame_ignoring.py`; `frame_proxying.py`: populating | texts of single frames and exceptions, token types and highlighting, frames changing while they are rendered | C342, C343, C344, C345, C346, C347 |
| Contexts | `request_context_manager.py`, `web_socket_context_manager.py`: entering, awaiting and leaving; `core/top_level/trace.py`: what is caught, titles and locations; `console_helpers.py`: variables | two tasks awaiting one manager at a time, representations, texts of the messages, banner | C348, C349, C350, C351, C352, C353, C354, C355 |
| Lists | `utils/utils.py`: positions, differences, lookups, `un_map_pack`; `dict_iterator_bases.py`: `__eq__` of views | elements other than integers, a key of `change_on_switch`, weak references dying during a comparison | C356, C357, C358, C359, C360, C361 |
| Loops | `core/top_level/event_loop.py`, `core/top_level/task.py`, `core/top_level/flow.py`: which loop a thread gets, creating, setting, waking up; `EventThread.is_stopped` | threads running in between of one call, `start_later = False`, order of `threading.enumerate` beyond a list | C362, C363, C364, C365, C366, C367, C390, C391 |
| Kinds | `async_utils.py`: kinds of functions and objects, `to_coroutine`; `method_like.py` | fields of code objects other than flags, metatypes beyond the shared set | C368, C369, C370, C371, C372 |
| Display | `editors/display_state.py`, `line_render_intermediate.py`, `terminal_control_commands.py`: breaking of lines, counting of rows, clearing, writing, difference, on a terminal in raw mode | colours of characters, prefixes with formats inside, scrolling of the terminal, wide characters, parts of the highlighter with a line break behind other characters | C373, C374, C375, C376, C377, C378, C379, C380, C381 |
| Extensions | `ext/__init__.py`: loading of extensions and hooks, with hooks which load extensions and add hooks | what the hooks are, how exceptions are written out | C382, C383, C384 |
| Helpers | `utils/keep_type.py`, `utils/dict_update_iterable_iterator.py` | attributes which cannot be set, `__class__` with metaclasses, iterables whose iterating raises, infinite iterables | C385, C386, C387 |
| Parts | `web_common/url/url_part_base.py`, `url_part_base_parsed.py`, `url_user_info.py`: caching of both forms, equality | quoting itself (area `Quoting`), subclasses' parsing, `__repr__` | C388, C389 |
| Describe | `trace/exception_representation/representation_helpers.py` | how the kinds of constructors and parameters are found out, attribute and syntax errors | C392, C393 |
| Recent | `utils/trace/expression_parsing/console_input.py`, `FileInfo.is_up_to_date` of console inputs | contents of inputs, line cache of the standard library | C394, C395, C396 |
| Marks | `exception_representation_syntax_error.py`: `__new__` | type and message, colouring | C397, C398 |
| Callbacks | `utils/trace/formatters.py`: `_cut_file_name`, merging, `format_callback`; `core/traps/future_repr.py`: which result is shown | `short_repr`, names of functions, formatting of coroutines and built-ins | C399, C400, C401, C402 |
| Suggest | `exception_representation/suggestion/*`: variables, names with an attribute, attributes of instances; what raises in `ExceptionRepresentationAttributeError.__new__` | measure of familiarity (floating point numbers), `frames` choosing | C403, C404, C405, C406 |
| Console | `tools/asynchronous_interactive_console/console.py`: `run_code`, `run_code_callback`, file names, `interact`; `editors/editor_simple.py` | what is written besides, prefixes (their length uses floating point numbers), interrupts at other moments, tasks which end just when interrupted | C407, C408, C409, C410, C411, C412, C413 |
| Files | `trace/expression_parsing/file_info.py`: `get_file_info`; `line_cache_session.py`; `exception_proxy_base.py`, `frame_group.py`: alike | parsing of the content, files changed between stat and read, sessions which outlive their exit | C414, C415, C416, C417 |
| Finishing | `core/subprocess/subprocess_protocols.py`; `subprocess.py`: `_try_finish`, `_pipe_connection_lost`, `_pipe_data_received` | calls before the process is connected and waiting for draining (in `Process`), pausing of writing | C418, C419 |
| Keys | `main/key_debug/command.py`; `tools/keys.py`: `KEY_NAMES` | `termios` and `select` themselves, which characters are printable | C420, C421, C422 |
| Owned | `utils/properties.py`: `name_property`, `module_property`, `class_property` | `docs_property`, attributes of instances of the same name | C423, C424, C425 |
| Frozen | `trace/frame_proxy/frame_proxy_virtual.py`; `frame_group.py`: dropping of variables; `exception_proxy_virtual.py` | `from_fields`, counts of alike frames, infos of expressions | C426, C427 |
| Resource | `streaming/resource_streaming/*`; `trace/exception_representation/attribute_error_helpers.py`: the frame | types of streams, names of functions, which exceptions are attribute errors | C428, C429, C430 |
| Json | `utils/json.py`: what is turned into json; `web_common/exceptions.py`: `get_close_reason`, `ConnectionClosed.reason` | the text of json, circular objects, keys which are not text, negative codes | C431, C432 |
| CopyFunc | `utils/function_tools.py`: `copy_func` | `alchemy_incendiary`, the other attributes of functions, what codes do when run | C433, C434 |

## Properties

434 properties, 172 proved as stated, 262 shown not to hold for this code (`_violated`).

| Id | Property | Status | What is proved |
|---|---|---|---|
| C01 | read_exactly returns exactly the next n bytes whatever the segmentation | proved, violated by the code | Full statement proved for every segmentation, offset and read sequence. C01_size_after_eof_violated is a side finding (offset left stale by a failed read makes the size report wrong), it does not touch the data claim. |
| C02 | read_until returns the bytes before the first boundary whatever the segmentation | partial, violated by the code | The code does not have the property (three witnesses and the negation of the full statement). Proved for all GoodSegments segmentations, for boundaries of at most two bytes read from a segment start, and for single byte boundaries without restriction. |
| C03 | read_until_eof returns everything that was received and not yet consumed | proved | Proved for every segmentation and after any reads. |
| C04 | WebSocket frame write/read round trip | proved | Proved for every payload below 2^64 bytes, every mask, every segmentation and any following bytes; also for sequences of frames. |
| C05 | WebSocket masking is the positional XOR of RFC 6455 and its own inverse | proved | Proved for every key and payload. |
| C06 | WebSocket frame reading rejects wrong masking and oversized frames | proved | Proved: wrong mask bit, oversize, truncated and accepted frames. |
| C07 | WebSocket frame validity check is exactly the RFC 6455 rule | proved | Proved as an equivalence with the RFC 6455 rule. |
| C08 | Chunked transfer encoding round trip | proved | Proved for every sequence of writes, later calls and following bytes; delivered in one segment, or in any segmentation not cutting a CRLF (see C09). |
| C09 | Chunked decoding does not depend on TCP segmentation | partial, violated by the code | The code does not have the property (cut inside a CRLF after the first size line). Proved for all segmentations not cutting a CRLF, by refinement to a whole-stream decoder. |
| C10 | Chunk-size lines are accepted only when they are plain hexadecimal numbers | partial, violated by the code | The code does not have the property (lenient int(line, 16)). Proved: plain lines accepted with their value, exact shape of accepted lines, rejection of all lines with other bytes or without digits. |
| C11 | A future is completed at most once and its outcome never changes | proved | Proved by refinement to a write-once cell over all histories. |
| C12 | Every done callback is scheduled exactly once, and only after completion | partial, violated by the code | Proved while the loop runs; when the loop is stopped callbacks of a completed future are dropped (witness). |
| C13 | Cancelling a task which is still pending ends it | partial, violated by the code | Proved for cancel (except while awaiting only completion) and cancel_with (except when the awaited future is already done); both exceptions are witnessed as violations. |
| C14 | Shielding protects the inner awaitable from cancellation and mirrors its outcome | proved | Proved: non-interference, mirroring, completion and finality, over all interleavings of user calls and loop steps. |
| C15 | A lock of size n admits at most n holders | proved | Lock is the case size = 1. Holders are computed from what the operations returned. |
| C16 | Locks are granted in arrival order | proved | Order among calls that had to wait; a call that gets in at once does so only when nobody waits. For size >= 2 a newcomer may enter while a granted call has not run yet (its slot is reserved). |
| C17 | Cancelling an acquirer never wedges the lock | partial, violated by the code | The code violates the property in two windows; both witnesses are proved, including that no call ever obtains the lock afterwards. Proved for all histories outside these windows. |
| C18 | Async queue delivers every element exactly once, in FIFO order | partial, violated by the code | Violated by the code for two waiting consumers (same element twice), for two consumers (overtaking) and for bounded queues (evicted element, consumer passed over); all four witnesses proved. Proved for a single consumer (order) and for consumers that do not wait at the same time (exactly once). |
| C19 | Cancelling a queue consumer loses nothing | partial, violated by the code | Violated: an element is lost, later consumers get CancelledError; both proved. Proved: at most one element is lost per cancelled consumer. |
| C20 | A bounded queue wakes blocked producers when space becomes available | partial, violated by the code | Violated for await / get_result (deadlock), AsyncLifoQueue, and a producer cancelled after being woken; proved for the other retrieval methods. |
| C21 | LIFO queue returns the most recently added element | partial, violated by the code | Violated by get_result (inherited FIFO version); proved for the other methods. |
| C22 | Event wakes every waiter and only when set | proved | All histories of set, clear, waiting calls, cancellations and loop steps. |
| C23 | A task group partitions its futures into done and pending | partial, violated by the code | Never both, and done = completed, hold for all histories. Never neither holds unless a popping waiter is cancelled and still registered when a completion is processed; then the future is lost (C23_lost_violated). Also two popping waiters receive the same future (C23_handed_out_twice). |
| C24 | ScarletExecutor never runs more than `limit` added tasks at once | partial, violated by the code | Holds for one adder that does not go on adding after add raised; otherwise violated (C24_violated). Waiting never gets stuck for any adder. |
| C25 | ScarletExecutor reports a failure of any added task | partial, violated by the code | Violated: a failure processed before the body ends is dropped when nothing is left to wait for; and one not yet processed when the body is cancelled. The partial theorem says these are the only ways. |
| C26 | Event loop runs call_soon callbacks in order, exactly once, never if cancelled | proved | All histories; callbacks that schedule and cancel are covered, as what they do are operations between two steps of the loop. |
| C27 | Timers never fire early and fire in deadline order | proved | All histories and all clock readings; the timer heap is used only through the least deadline being on top. |
| C28 | A due timer eventually runs however busy the ready queue is | partial, violated by the code | Holds for timers due when an iteration begins, once that iteration's ready handles are processed; violated in general: the loop drains its ready queue until it is empty, so a callback that keeps scheduling itself starves timers for ever (C28_starved_violated, for every n). |
| C29 | A cycler has at most one armed timer and runs its functions by priority | partial, violated by the code | The code does not have the property (six witnesses: cancel, reschedule or call_now from a cycle function, a cycler created by another thread, adding or removing functions during a cycle). Proved when cancel, call_now and reschedule are not called by cycle functions and the cycler was created by the loop's thread; the order of the functions held is proved without conditions. |
| C30 | Thread-blocking queue delivers each element once and repr has no effect | partial, violated by the code | The code does not have the property (two blocked consumers obtain the same element, cancel raises AttributeError, repr appends to the queue). Proved for one blocked consumer at a time and a queue that is not formatted; that no consumer is blocked beside a queued element is proved without conditions. |
| C31 | Socket transport sends written bytes in order, without loss or duplication | proved | Proved for every operation sequence, every behaviour of the socket and both variants of _write_ready. Assumes callers do not change a bytearray after passing it to write (the code keeps a reference). |
| C32 | Flow control pauses above the high water mark and resumes below the low one | proved | Proved for every operation sequence. C32_not_stuck adds that a paused protocol always has bytes to come out. |
| C33 | Payload stream yields exactly the received body | partial, violated by the code | Proved for one consumer, with any interleaving of data, completion, resumption and cancellation. With two consumers the code does not have the property (witnesses: second awaiter gets nothing, two iterators share one chunk). |
| C34 | Payload stream ends exactly once and its done callbacks run exactly once | proved | Proved for every operation sequence with any number of consumers. |
| C35 | Multi value dictionary behaves as an insertion ordered map to non-empty lists of distinct values | proved | Proved for all operation histories: invariant, key-by-key answers and order, construction from pairs. |
| C36 | Sorted list stays sorted without duplicates and answers membership correctly | partial, violated by the code | Order, membership, index, pop and contents are proved for all histories over any linear order. Strictness fails: extend keeps equal elements (C36_duplicates_violated); strictness is proved without extend. Keyed lookup is proved for key functions which agree with the order. Extending a list with itself never ends (C36_extend_self_violated). |
| C37 | Header dictionaries treat names case-insensitively in every operation | partial, violated by the code | Proved for all overridden operations, any case folding. Membership tests with plain names, !=, comparison with other str sub-types and construction from a dict violate it. |
| C38 | Percent quoting round trip | partial, violated by the code | Violated: the digits 8 and 9 of escapes are read back as 0 and 1 (so 'é' comes back as 'á', in every text around it), a '+' which is not quoted comes back as a space, and in queries '+', '&' and '=' come back as escapes. C38_partial: every text of characters outside these cases comes back, for every ASCII safe and protected set and for each pairing of the query flags. |
| C39 | Quoted text contains only characters allowed in a URL | proved | All texts, safe and protected sets and both modes. quote returns for ASCII sets (C39_returns); with safe characters which are not ASCII it can raise (C39_raises), then there is no output. |
| C40 | URL path normalisation removes dot segments exactly as a stack machine would | proved | All lists of parts. C40_walk gives the whole result: a walk from the root in which '.' stays and '..' goes back but not beyond the root; a '.' at the end leaves an empty last part (the slash at the end), and the root alone is no path. The model keeps the index arithmetic of the in-place deletions and shows that no index error occurs. |
| C41 | Query string serialisation round trip | partial, violated by the code | Violated: '=' in keys is not escaped (every key a=b with value v comes back as key a with value b=v), and values which do not survive quoting change. Partial: every dictionary without '=' in keys, with characters which survive quoting (encoded) or without '&' (not encoded) comes back with the same keys and values; the order of the keys becomes the sorted one. |
| C42 | URL host info equality is an equivalence that respects the host | partial, violated by the code | Violated: hosts of different kinds always compare equal, and equality is not transitive. Partial: hosts of the same kind are equal exactly if all parts are. Host parts are compared by their decoded text; idna decoding is not modelled. |
| C43 | DNS query building and parsing round trip | proved | Query building followed by result parsing echoes every field; QueryOk demands 16/32 bit field values and labels of 1..63 bytes, as the format does. build_query_data raises OverflowError beyond. |
| C44 | Parsing any DNS message terminates | partial, violated by the code | Violated: a compression pointer to itself or back into the same name (C00C at offset 12) makes the parser loop forever, for every such message. Partial: messages without pointer bytes always end, and a message ends within length+1 rounds or never. |
| C45 | Domain name text and label list round trip | partial, violated by the code | Labels of ASCII bytes without 'xn--' round trip; violated for the single label '@', which is written escaped but parsed as the root. IDNA labels are not modelled. |
| C46 | IP address text and number round trip | proved | Every address value; the text forms are those produce_ip_*_string writes. |
| C47 | Address ordering keeps every address exactly once | proved | Every list of addresses and every sort list made of elements (see C71). |
| C48 | Search domains are appended to relative names | partial, violated by the code | Violated: the search domain is put in front of the name instead of behind it. Partial: which names are tried and how many. |
| C49 | WebSocket extension and subprotocol headers round trip | proved | Connections, subprotocols, upgrades and extensions, for every layout of the list (spaces, empty elements, quoted values). |
| C50 | HTTP header block parsing inverts header writing | proved | Strings are their bytes in UTF-8. All layouts of header lines, and what write_http_request and write_http_response write; the cut at the empty line is that of an ideal read_until (C02). |
| C51 | A pooled connection is never used by two requests at once and only for its own host | proved | Proved over all histories of connect (split at its await), release, close, detach, clean up and closing of the connector, with socket events in between; the identity of protocols is their creation number. |
| C52 | The pool only hands out live, unexpired protocols, oldest expiration first | proved | About pop_available_protocol for all contents, and about connect in all histories. |
| C53 | A protocol leaving the pool because it expired is closed | partial, violated by the code | Violated: the clean up drops expired protocols of connections that are not secure without closing them (C53_clean_up_violated, for every such element; C53_plain_request_violated, a history). Partial: every other step, and the clean up of secure ones. |
| C54 | A cookie is only sent where RFC 6265 allows | partial, violated by the code | Partial: for all histories in which every set of cookies comes with a host. Violated for cookies the program sets without one: path and secure flag are ignored. |
| C55 | Host rotation tries every resolved address once, starting at each in turn | proved | A rotation is what one generator yields; the start index is stored before anything is yielded. |
| C56 | Archive name deduplication never produces the same name twice | partial, violated by the code | Violated for names whose path part ends with something like an index (a (1) (5)) and for names with line feeds. Partial: all sequences of all other names; C56_form: all names. |
| C57 | TaskGroup waiters finish when nothing is pending any more, and wait_all not earlier | partial, violated by the code | Holds for all waiters but wait_next on a group with nothing pending and wait_first_n with a number above the number of futures; wait_next also propagates None instead of the future. |
| C58 | The event loop does not sleep on ready work or past a deadline | proved | All histories; what the selector is told to wait is compared with the ready queue and the earliest live timer. |
| C59 | drain waits exactly while writing is paused | partial, violated by the code | The code does not have the property: reading and writing share the _paused attribute, there is one drain waiter, and the flag survives connection loss (five witnesses). Proved for histories in which these do not meet (Separate). |
| C60 | Reading is paused above the limit and always resumed | partial, violated by the code | The code does not have the property: after a writing pause and resume reading is never resumed (for every continuation), and while writing is paused reading is never paused. Proved when the transport does not pause writing. |
| C61 | Copying a multi value dictionary through the copy protocol gives an equal dictionary | partial, violated by the code | copy() and construction from another dictionary are proved; copy.copy raises for every dictionary which is not empty. |
| C62 | Unquoting leaves everything that is not a decodable escape as it is | partial, violated by the code | Violated: of several undecodable escapes only the last is kept, a truncated escape is dropped, and a '%' not followed by two hex digits raises. Partial: plain text, and a single undecodable escape within plain text, are kept. |
| C63 | The parts of a URL path survive being written and parsed | partial, violated by the code | Violated: a slash in a part (from %2F) is not escaped when the path is written, so '..%2F..%2Fb' becomes path traversal on the next parse; an empty first part is lost. Partial: normal paths without slashes in parts and without an empty first part. |
| C64 | Compressed domain names are read as RFC 1035 describes | proved | Messages in which every pointer leads backwards to labels; the reading is the one RFC 1035 4.1.4 describes, and it is unique. |
| C65 | The name of a pointer record is the name its message holds | partial, violated by the code | Violated: a compressed name in the record data is read relative to the data instead of the message, and a parsing error raises TypeError. Partial: uncompressed names. |
| C66 | A query goes to each name server at most once, in order | proved | All configurations; sockets and answers are arbitrary. |
| C67 | Reverse lookup names are the units of the address, lowest first | proved | Every IPv4 and IPv6 address; different addresses have different names. |
| C68 | A zone behind an IPv6 address does not change its value | partial, violated by the code | Violated for the address '::' with a zone. Partial: every other address. |
| C69 | A sort list element selects exactly the addresses of its network | partial, violated by the code | Violated: an element whose address has bits outside its mask selects nothing. Partial: elements without such bits. Masks of N upper bits are proved bit by bit. |
| C70 | Every option of an options line of resolv.conf takes effect | partial, violated by the code | Violated: only the first option of a line is read. Partial: lines with one option; what is on behind a file. |
| C71 | A sortlist line of resolv.conf gives sort list elements | partial, violated by the code | Violated: raw strings are put into the sort list and ordering then raises AttributeError. Partial: sort lists made of elements. |
| C72 | The numeric options of resolv.conf stay within their thresholds | proved | Every file content (lines as lists of words). |
| C73 | Name servers and search domains are those of resolv.conf, in order | proved | Every file content (lines as lists of words). |
| C74 | Reading resolv.conf does not raise | partial, violated by the code | Violated: an improper search domain raises ValueError (on import). Partial: files whose search domains are proper names. |
| C75 | Merging configurations prefers the later value unless it is empty | proved | Every pair of configurations. |
| C76 | The last line for a key of a section wins in a configuration file | proved | Comment removal and stripping of lines are not modelled. |
| C77 | The text of an IPv6 address is the canonical one | partial, violated by the code | Violated: a single zero unit is left out too, and of two equally long sequences the second one is left out when the first is at the start. Partial: as many zeros as possible are left out. |
| C78 | Parsed list headers consist of tokens | proved | Every header text that is accepted; names are read exactly from the texts which are written as them. |
| C79 | Parsing a list header always ends | proved | Every header text: one round of the loop more than there are characters is enough. |
| C80 | Content disposition types and keys are tokens | partial, violated by the code | Violated: a comma and a tab are accepted (the set of separators contains the string ', ' of two characters; a tab is removed twice by the symmetric differences). Partial: everything accepted consists of token characters, commas and tabs, and tokens are accepted. |
| C81 | A built content disposition header says what was asked for | partial, violated by the code | Violated: a semicolon in a value that is not ASCII is not quoted, so a value adds parameters. Partial: values without that, and all values with quote_fields = False. |
| C82 | A built content disposition header is a single line | partial, violated by the code | Violated: with quote_fields = False line breaks are copied. Partial: not with quote_fields = True. |
| C83 | Parsing a content disposition header inverts building it | partial, violated by the code | Violated: a quoted value never comes back; an extended value comes back wrong as the charset is passed to unquote as its unsafe parameter. Partial: unquoted tokens. |
| C84 | A file name in numbered parts is joined in numeric order | partial, violated by the code | Violated: from eleven parts on only the first two are joined, as the parts are sorted as text. Partial: up to ten parts in any order. |
| C85 | Reading a request gives the request that was written | partial, violated by the code | Violated for every version whose numbers differ: the major version is written twice, HTTP/1.0 as HTTP/1.1. Partial: versions with equal numbers. |
| C86 | Reading a response gives the response that was written | proved | All versions, statuses, reasons and headers a response can be written with; strings are their bytes. |
| C87 | Accepted header names are tokens and values are single lines | partial, violated by the code | Violated: blanks in front of the colon belong to the name, and there are headers with an empty name. Partial: no colon and no line break in names, no line break in values. |
| C88 | The request line is one line | partial, violated by the code | Violated: method and path may contain line breaks. Partial: they are not empty and have no blanks; reasons are single lines. |
| C89 | A written request has the headers it was given and no others | partial, violated by the code | Violated: values with line breaks write further headers. Partial: values without. |
| C90 | The payload of a message is framed as RFC 7230 says | partial, violated by the code | Violated: 'chunked' anywhere in the first transfer coding line counts, of several lines only the first counts, contradicting lengths are not refused, payloads of responses with an upgrade header are not read, requests raise AttributeError. Partial: responses with at most the coding chunked and one length. |
| C91 | Payloads are decoded according to their content encoding | partial, violated by the code | Violated for payloads read to the end of the connection. Partial: chunks and known lengths. |
| C92 | A connection is kept alive if and only if the message allows it | partial, violated by the code | Violated: close on a second line is not seen, and any option keeps an HTTP/1.0 connection open. Partial: no option, or the single option close or keep-alive. |
| C93 | A protocol that is handed out for another request is as good as new | partial, violated by the code | Violated: should_close ignores unread data once the end of the stream was received, so such a protocol is handed out until the connection is told to be lost. Partial: all but the end of the stream. |
| C94 | A cookie is not sent after its end | partial, violated by the code | Partial: nothing is sent that ended a second ago or earlier, by Max-Age or by Expires read on the clock of the event loop. Violated: Max-Age=0 is still sent until the second is over; Expires (posix time) is compared with the monotonic clock; an invalid Max-Age hides Expires. |
| C95 | A cookie is sent until its end | partial, violated by the code | Partial, with provisos on earlier settings under the same key. Violated: an old end stays when the cookie is set again without one; an old host-only flag stays when it is set again with a domain; cookies of different paths replace each other; of one name for two domains only one is sent. |
| C96 | The date of a cookie is parsed as RFC 6265 says | partial, violated by the code | Partial: agreement with RFC 6265 5.1.1 for texts whose tokens are of ordinary size and order, and every IMF-fixdate is read back. Violated: ValueError for a day the month does not have; the year in front is taken for the day; full month names are not recognised; too many digits accepted. |
| C97 | A content type is read as what it says | partial, violated by the code | Holds for media types whose tokens have no apostrophe and whose quoted strings only escape the quote and the backslash (C97_read_partial). Violated: an apostrophe, which is a tchar of RFC 9110, ends a token and is an error (C97_apostrophe_violated); a quoted pair of any other character keeps its backslash (C97_pair_violated). |
| C98 | The boundary of a multipart body is read back from its content type | partial, violated by the code | Holds for every boundary which is not a token with an apostrophe in it (C98_boundary_partial). Violated for all those: such a boundary is written unquoted, and only what is in front of the apostrophe is read (C98_apostrophe_violated). |
| C99 | The size of a multipart body is the number of bytes it writes | partial, violated by the code | Holds if the sizes of the payloads are right (C99_size_partial; C99_known says when there is a size, C99_nested is for writers within writers). Violated: a writer which is extended after it was appended to another (C99_stale_violated), and text files, whose size is the one of the file and not of the encoded text (C99_text_violated). |
| C100 | Base 64 encoded parts do not depend on the chunks of the data | proved | For base64, with and without a compressor (a parameter). quoted-printable, which is encoded chunk by chunk, is not modelled. |
| C101 | A multipart body is read back | partial, violated by the code | Holds for _read_single_multipart in a loop, with the boundary as bytes, on received data (C101_read_partial; C101_headers: which headers a part has; C101_base64: base64 never has the boundary in it). Violated: read_multipart passes the boundary as str, so that bytes + str raises TypeError; it never yields a part (C101_read_multipart_violated). |
| C102 | The Host header names the host of the request | partial, violated by the code | Violated behind a redirect: the Host header of the first url stays in the headers and is sent to the other host (C102_violated, C102_redirect_violated). Holds for the first request and as long as no Host header was sent before. |
| C103 | Cookies are sent only where the cookie jar lets them go | partial, violated by the code | Violated behind a redirect: the Cookie header of the first request stays in the headers and is sent to any other host. |
| C104 | Credentials stay with their origin | partial, violated by the code | Violated by _request2, which never removes the header, and by _request if there are two values, since del removes only the first. Holds for _request with at most one value and no user info in urls. |
| C105 | As many redirects are followed as are allowed | partial, violated by the code | Violated: of n allowed redirects n - 1 are followed; with a negative number there is no end. Holds: never more than n requests (1 if n is 0). |
| C106 | Method and data behind a redirect are as RFC 9110 says | proved |  |
| C107 | Requests without data have no headers describing data | partial, violated by the code | Violated: del removes only the first of several values, and 'chunked' is added beside a given coding, so it stays on the request behind the redirect. |
| C108 | The data of a request is framed in exactly one way | partial, violated by the code | Violated: another Transfer-Encoding is kept beside the Content-Length. |
| C109 | Redirects lead to the url of the Location header | partial, violated by the code | Violated for relative references: their scheme is None, which is not among 'http', 'https', ''; an error is raised. |
| C110 | Web socket messages are received as they were sent | proved |  |
| C111 | The maximal size of a web socket message is kept exactly | partial, violated by the code | Violated: a control frame between the pieces of a message is measured by the size left for the message (1009). Proved: nothing larger is delivered, and messages in one frame up to max_size are. |
| C112 | Pings are answered, and do not keep a web socket from being closed | partial, violated by the code | Violated: a ping received while closing makes transfer_data wait for close_connection, which waits for transfer_data; the Close of the peer is never read. Proved: the exact sequence of what an open connection writes. |
| C113 | A pong completes the pings it answers | partial, violated by the code | Violated: clients call set_resultd_if_pending, which does not exist; servers look up a bytearray, which is not hashable: no ping is ever answered. Proved: a client ignores pongs it did not ask for. |
| C114 | Close codes and reasons are transferred | partial, violated by the code | Violated: reasons of more than 123 bytes are sent and refused by the peer; 1013 is taken although documented otherwise. Proved: transfer and echo of codes and shorter reasons, and no forbidden code is sent in any execution. |
| C115 | All frames which are written are valid | partial, violated by the code | Violated: pings, pongs with more than 125 bytes (and Close with a long reason) are written. Proved for users who keep the sizes, in all executions. |
| C116 | Nothing is written behind a Close frame | partial, violated by the code | Violated: fail_connection writes its Close without the lock, and a writer which waits for it writes behind it. Proved: in all executions with one writer at a time, and with several unless the connection is failed while one waits. |
| C117 | The connection of a web socket is closed in the end | partial, violated by the code | Violated: wait_for_connection_lost has its test inverted and always says that the connection is lost, so it is never aborted; a client without ssl never closes behind a received Close. Proved: it is closed in the other cases. |
| C118 | Clients and servers of the library open web sockets with each other | partial, violated by the code | Subprotocols agree; additional headers which are added to those of the handshake break it (shown). Without extensions on one side: see C123. |
| C119 | A web socket server accepts exactly the valid requests | partial, violated by the code | Violated: any single name in Upgrade is accepted, method, HTTP version and Host are not looked at; valid requests with another protocol before websocket are refused. What is checked is proved, for every layout of the lists. |
| C120 | A web socket client accepts exactly the valid responses | partial, violated by the code | Violated: any single name in Upgrade is accepted, a missing Upgrade and an empty subprotocol are an IndexError. Everything else is proved in both directions. |
| C121 | The origin restricts who may connect | partial, violated by the code | Violated for all servers and requests: the attribute is overwritten with None, and the header would be looked for in itself. |
| C122 | The subprotocol is determined by the preferences | partial, violated by the code | Violated: ties are decided by the order of a set, the list of the server is not its preference, the result of a selector is not checked. Proved: in both, least sum of positions, one is chosen if there is one of both. |
| C123 | Extensions are negotiated | partial, violated by the code | Violated: a server never accepts an extension (500), and refuses unknown ones (400). The client's side is proved exactly. |
| C124 | Refused handshakes are answered with the right status | partial, violated by the code | Violated: 500 without Upgrade and for malformed lists, shutdown and aborts of the request processor are not answered. Statuses of the other requests are proved. |
| C125 | The request of a web socket client is well formed | partial, violated by the code | Violated: credentials raise AttributeError, a given host is a second one, international hosts are not encoded. Everything else is proved. |
| C126 | Containers with weak keys behave as plain ones | proved | Refinement, for every equality of objects. |
| C127 | The length of a container with weak keys | partial, violated by the code | Right as long as nothing is popped during an iteration and no set with dead references is xor-ed in (always for WeakMap); otherwise wrong, even negative. |
| C128 | Dead keys are removed | partial, violated by the code | Proved for WeakSet and WeakMap; WeakKeyDictionary keeps dead keys after a popitem during an iteration, because the loop of _commit_removals returns at a missing key. |
| C129 | Iterating while objects die | proved | Exact, for every schedule of deaths. |
| C130 | The algebra of weak sets | partial, violated by the code | New sets and in place with another set are exact; s -= s and s ^= s raise; comparison sees dead references. |
| C131 | Dictionaries with weak values behave as plain ones | proved | Refinement; what is excepted is C132 and C135. |
| C132 | The length of a dictionary with weak values | partial, violated by the code | Right if nothing dies during an iteration; otherwise the end of the iteration never removes anything, because a WeakHasher is compared by identity with the reference. |
| C133 | Dictionaries with weak items behave as plain ones | partial, violated by the code | Exact for distinct keys and no deaths during iterations; otherwise living items are lost or dead ones kept. |
| C134 | Copies of weak containers are independent | partial, violated by the code | Proved for WeakSet, WeakMap, WeakKeyDictionary; a copy of a WeakItemDictionary is created with the callbacks of the original. |
| C135 | pop with a default does not raise | partial, violated by the code | Proved for WeakValueDictionary; HybridValueDictionary raises TypeError for every missing key. |
| C136 | Functions in threads are started once and in order | proved | Executor threads: started once, in order, by the thread a call was given to; all interleavings. |
| C137 | A future gets what its own function returned | proved | Outcome of the own function only; done futures are final. |
| C138 | No thread is forgotten | proved | Also: when nothing is left to do, no thread is in use (C138_given_back). |
| C139 | A free thread has nothing to do | partial, violated by the code | Violated: cancelling a running call (or releasing a ClaimedExecutor whose thread runs one) puts a thread which still runs a function among the free ones; the next call waits behind it. Partial: holds if neither happens. |
| C140 | A released ClaimedExecutor is given back | partial, violated by the code | Violated: release raises AttributeError whenever the queue is not empty (_shrink_queue asks pairs for is_done). Partial: empty queue. |
| C141 | Every call in a thread comes to an end | partial, violated by the code | Violated: a call given to a ClaimedExecutor after release_executors or cancel_executors is never settled. Partial: holds otherwise, with a bound on the steps. |
| C142 | cancel_executors cancels what was not started | partial, violated by the code | Violated: a call which its thread has taken, but not started, is started after cancel_executors. Partial: calls in queues. |
| C143 | Threads which are not used go away | partial, violated by the code | Violated: every second firing does nothing, and a free thread is never released while another one runs and few are to be kept. Partial: all free threads are released after 2n+2 firings if nothing runs. |
| C144 | repeat_timeout never interrupts too early | proved | all runs |
| C145 | repeat_timeout interrupts every iteration which takes too long | partial, violated by the code | violated: after the block swallows the interruption the timer is not set again (C145_violated, for all timeouts); C145_armed_partial / C145_in_time_partial: until the timer strikes |
| C146 | repeat_timeout raises TimeoutError exactly for its own interruption | partial, violated by the code | violated: after a swallowed interruption a cancellation by others becomes TimeoutError (C146_violated); the exact condition is C146_exit_partial; C146_silent_after holds fully |
| C147 | sleep ends after its delay | proved | all runs |
| C148 | apply_timeout times out what is still pending | partial, violated by the code | violated on a stopped loop, where 1 is answered and nothing set (C148_violated); C148_ends_partial on a running loop |
| C149 | Waiting in another thread reports the outcome of the future | partial, violated by the code | violated: cancel in another thread makes a wait raise InvalidStateError (C149_invalid_state_violated), racing setters give different outcomes (C149_two_outcomes_violated, C149_confused_violated); C149_outcome_partial: if add_done_callback, remove_done_callback, cancel, and check-and-mark are not interleaved (Orderly); C149_done_stays: all runs |
| C150 | No thread waits for a completed future for ever | partial, violated by the code | violated in three ways (add, cancel, remove); C150_no_lost_wakeup_partial for Orderly runs |
| C151 | A wait times out only while the future is pending, and cleans up | partial, violated by the code | violated: TimeoutError although the future is done (C151_violated); C151_timed_out_partial: only if the loop has not run the callback; C151_no_callback_left: all runs |
| C152 | Waiting and setting in threads do not raise IndexError | partial, violated by the code | violated for wait and for set_result; C152_no_index_error_partial for Orderly runs |
| C153 | A task which enters the executor is not lost | partial, violated by the code | violated: cancelled while entering, in the last section, while leaving, or before returning in the executor the task never ends (C153_*_violated); C153_not_lost_partial: cancelled only while the block waits for a future or after it was given back (Calm) |
| C154 | enter_executor: the block runs in the executor thread, the rest on the loop | partial, violated by the code | C154_body_in_executor: all runs; violated for the code behind the block if cancelled before its first await (C154_violated); C154_after_on_loop_partial for Calm runs |
| C155 | enter_executor: cancellation reaches the block at its next await | partial, violated by the code | violated: cancelled before the first await nothing is cancelled (C155_first_section_violated), one cancellation may be thrown any number of times (C155_repeated_violated); C155_waiting_partial, C155_computing_partial |
| C156 | enter_executor: who waits for the task is told when it ends | partial, violated by the code | violated: _schedule_callbacks is called with the context manager, so a task which ends in the executor never tells its waiters (C156_violated, for all such runs); C156_told_partial for Calm runs |
| C157 | Streamed zip archives can be read | proved | Proved for every deflater; that the stored data inflates to the contents is a property of zlib. |
| C158 | Every list of files which the format can hold can be streamed | partial, violated by the code | Exact condition proved; more than 65535 files raise struct.error after everything was sent, since the count of the last record is not masked by 0xffff. |
| C159 | Zip: the date of a file is kept | partial, violated by the code | Years outside 1980-2107 wrap around silently. |
| C160 | Zip: archives can be read from their front | partial, violated by the code | The descriptor has 8 byte sizes, but the local header lacks the zip64 extra field which announces them (APPNOTE 4.3.9.2). |
| C161 | Grouping frames conserves them | proved |  |
| C162 | The repeat strategies find the repeat they describe | proved |  |
| C163 | Groups of frames are normalised | proved |  |
| C164 | Filtering groups of frames filters the frames | partial, violated by the code | Holds for filters which do not distinguish alike frames; otherwise only the frames of the first round are asked, and all rounds are dropped or kept together. |
| C165 | What is written to an ssl layer does not leave in the clear | partial, violated by the code | Polite writers (not before the connection is made, not while is_closing()) never leak, whatever the engine. Violated otherwise: when the peer's close notify ends the session the pipe goes back to UNWRAPPED but the layer keeps it, so as long as the underlying transport still has bytes buffered, anything written goes out in plaintext; so does what is written before connection_made. |
| C166 | Writes to an ssl layer are conserved | proved | For all runs which do not hang; engines whose write takes all or raises (as the docstring of feed_application_data states). |
| C167 | What is decrypted is given to the protocol | partial, violated by the code | Prefix always, equality unless aborted, for a calm transport. Violated: an ssl error after successful reads of the same feed_ssl_data drops the chunks already decrypted; data ahead of the first scheduled callback is passed through raw. |
| C168 | The waiter of an ssl connection tells how the handshake ended | partial, violated by the code | Violated: abort() during the handshake ends in connection_lost(None), which sets the result of the waiter, so the connecting side takes the connection as established. |
| C169 | The protocol over ssl is told its lifecycle in order | proved | For call_connection_made = True and a calm transport (made once, data and eof only after the first scheduled callback and not while closing). |
| C170 | Written data does not stay in an ssl layer | partial, violated by the code | For engines which take every write. Violated: a write refused with WANT_READ in the wrapped state is not tried again when data arrives; data_received never looks at the backlog. |
| C171 | Keys of a paste edit the text at the cursor | proved |  |
| C172 | Keys pressed alone format the text | proved |  |
| C173 | The cursor of the editor is in its text | proved |  |
| C174 | What is read is what was typed | partial, violated by the code | Whole keys in one read are proved to be read back and processed; a key split over two reads loses its escape character and the rest becomes text (C174_split_read_violated, for every state), and so does an unknown key. |
| C175 | A tab completes to the longest common beginning | proved |  |
| C176 | Walking in the history is reversible | partial, violated by the code | Nearest entries, walk over all entries, back then forward: proved. Forward then back holds unless forward ran past the newest entry: then the cursor stays on the newest while nothing is shown, and going back skips it (C176_newest_skipped_violated, for every history with a newest entry). |
| C177 | Edited text is not replaced by the history | partial, violated by the code | Holds for all runs in which no tab is pressed that changes nothing after an edit; execute_tab then clears the mark and home, up replace the text (C177_edits_lost_violated). |
| C178 | A reusable buffer gives back what was written last | partial, violated by the code | Holds for uses which write at the end or after a read, read amounts which are not negative and move inside what was written; a negative amount or a move past the end shows bytes of an earlier session, and moving to the end does not move. |
| C179 | The length of a reusable buffer is the length of its content | partial, violated by the code | Holds for the same uses; writing over what was written adds to the length although nothing is added. |
| C180 | A reusable file is read from its start after close | partial, violated by the code | Holds if each read is awaited before the next use; a close while the first read after a close waits is lost, and two reads given after a close both begin at the start. |
| C181 | The executor of an asynchronous file is released once | partial, violated by the code | Never twice; released at the latest when the object is collected, for claimed executors and if no call waits. A thread started outside of an event loop is not stopped by detach; a file collected while a call waits keeps its executor. |
| C182 | A pipe gets the bytes it was given | proved |  |
| C183 | The protocol of a pipe is paused, resumed and ended | proved |  |
| C184 | The read end of a pipe gives what it receives, then its end | proved |  |
| C185 | A closed pipe does not touch the callbacks of its number | partial, violated by the code | Holds if the transport is not aborted; aborting it after its pipe was closed removes the callbacks of its old number. |
| C186 | The end of a process is noticed | partial, violated by the code | Proved if stdout or stderr is a pipe. Violated if neither is: nothing closes the process, so its end is never noticed and wait never ends. |
| C187 | Who waits for a process is told its code, once | proved |  |
| C188 | Only closing and killing ends a process | partial, violated by the code | Proved for runs in which the last pipe is lost after the process ended. Violated otherwise: losing the last output closes the process, which kills it. |
| C189 | Who waits for the input of a process to be drained goes on | partial, violated by the code | Calls which do not have to wait end at once. Violated for calls which have to wait: the future is given the process as its loop, which can not schedule the callbacks, so they never end. |
| C190 | The readers of a process get everything from the beginning | proved |  |
| C191 | A semaphore lets in as many as it may | proved | Every sequence; see Semaphore.lean for the model of the calls. |
| C192 | Nobody waits for a semaphore which is free | proved | Every sequence of operations. |
| C193 | A semaphore is given in the order of asking | partial, violated by the code | Proved for sequences in which calls come only when the loop has nothing to resume. Violated in general: a call which comes between a release and the resumption of the woken one takes what that one was woken for, and this can go on without end. |
| C194 | A stream reader loses no byte | proved | One reading task. |
| C195 | A stream reader answers what was asked | proved | One reading task. |
| C196 | A stream reader pauses and resumes its transport | proved | One reading task; the bound needs a transport which delivers nothing while it is paused. |
| C197 | One task at a time holds the lock of a condition | partial, violated by the code | Proved if no task is cancelled while it waits for the lock. Violated: when a notified call is cancelled while it takes the lock again, a future is added to the lock and the block which is left releases the future of another one, so a third task gets the lock while it is held. |
| C198 | Notifying a condition wakes those who wait longest | proved | Every state and every sequence. |
| C199 | Nobody is left behind at a barrier | proved | All parties, all sequences including cancellations, resets and aborts. |
| C200 | A barrier lets pass those it was waiting for | proved | All parties, all sequences including cancellations, resets and aborts. |
| C201 | Those who pass a barrier get different indexes | partial, violated by the code | Proved without cancellations. Violated: a cancelled call lowers the count, so the next one gets an index which is taken. |
| C202 | Gathering gives the results of all in the order of the arguments | partial, violated by the code | Proved: the results are those of the different futures, in some order, and an exception is the one of a failed future. Violated: the order of the arguments, the number of results for repeated arguments and the first exception. |
| C203 | Waiting ends when it should, with all the futures | partial, violated by the code | Proved: the two sets, and that waiting ends. Violated: waiting for the first exception ends at the first future which is done. |
| C204 | Who waits for a server to close is told, when it is closed | partial, violated by the code | Violated: a call made after close returns at once although connections are open (early); a cancelled waiter makes set_result raise, so the waiters after it are never told (cancelled); a connection of which the task did not run yet is not counted (in_flight). Without cancellations: exactly once, in that moment, for calls made while open. |
| C205 | A server counts its connections | proved |  |
| C206 | A server accepts until it is closed | proved | The transports are made by the tasks of the connections; the protocol factory does not fail. |
| C207 | A lack of resources delays accepting once | partial, violated by the code | Violated: the loop goes on after the failure, so up to backlog retries are scheduled in one tick. |
| C208 | A closed server does not say that it serves | partial, violated by the code | Violated: start of a closed server sets serving, then raises TypeError. |
| C209 | A basic authorization is read from its header | partial, violated by the code | Violated for newlines (the dot of the pattern does not match them) and for encodings which do not contain ASCII (the base 64 text is decoded with the encoding). Proved for all encodings which contain ASCII. |
| C210 | Only headers of basic authorization are accepted | partial, violated by the code | Violated: the long s is folded to s; base 64 is not decoded strictly, so anything behind the padding is accepted. |
| C211 | Keep-alive information is read from its header | partial, violated by the code | Violated: the timeout is written without its fraction, so no timeout which is not whole is read back. |
| C212 | The parameters of a keep-alive header count | partial, violated by the code | Violated: the pattern of a key allows commas, so a parameter without a value hides the next one unless a blank is between. |
| C213 | A file descriptor is watched for what it has callbacks for | proved | The registry of the selector refines two independent maps of readers and writers, for every history. |
| C214 | The callbacks of reported events run, those which were removed do not | proved | Removed, replaced and cancelled handles never run; reported events run exactly the live handles in order, if nothing else waits and no descriptor is reported twice (as selectors do). |
| C215 | Received bytes are given out once and in order | proved | Every interleaving of one socket's receive calls. |
| C216 | A call which waits for a socket is completed | partial, violated by the code | Violated: a second call on the same socket replaces the callback of the first, which is never completed. Proved for calls which follow one another. |
| C217 | Sending sends everything | partial, violated by the code | Violated for memoryviews with items of more than one byte, in two ways. Proved for views of bytes and calls which follow one another. |
| C218 | Asynchronous generators are closed at shutdown | partial, violated by the code | Violated: the condition is inverted, so nothing is closed if there is something to close. Proved: closing by the finalizer. |
| C219 | The tasks of a loop are those which can be reached | proved | For all graphs and all orders of popping; spec by inductive predicates. |
| C220 | The fields of an urlencoded form are read back | proved | For every encoding whose bytes are bytes; the reader of the statement is written independently. |
| C221 | A form is multipart exactly if a field needs it | partial, violated by the code | Violated by calls which raise after the flag was set (a file with a file name which is not a string). Proved: as long as all calls return, the flag is set exactly if a field needs it; which calls raise. |
| C222 | The fields of a multipart form are its parts | partial, violated by the code | Violated: numbers and sequences can be sent urlencoded, but not beside a file; files opened by their descriptor cannot be sent although they got a file name. Proved for strings, bytes and other files. |
| C223 | The content type of a part | partial, violated by the code | Violated: the file name of the field is given to the payload only beside a content type, where it is not needed; so nothing is guessed from it. Proved for given content types, strings and names of files. |
| C224 | A part has one content type | partial, violated by the code | Violated by MultipartWriter.append: the default content type stays beside the given one. Proved for the parts of forms. |
| C225 | Tokens cut the content into pieces | proved | All contents, any lexer of the words which consumes at least one character; flags of a whole content. |
| C226 | The place of a token | partial, violated by the code | Line and column hold for all tokens. A token which closes what is open at the end of the content is put to the begin of the last token instead of its end. |
| C227 | Braces are balanced | partial, violated by the code | Proved for contents in which no format string begins. In a format string a layer which is left open is never closed and the layer of the code ends at the quote. |
| C228 | The layer of a token | partial, violated by the code | What is found contains the token, and it is found if no layer is in another one. A token after an inner layer is not found, and for three layers the one in the middle is. |
| C229 | The lines of a file | proved | All contents and all indexes. |
| C230 | A word pattern matches the longest word | proved | All lists of words, all strings. |
| C231 | The query and the fragment of a url | proved | The pattern is run as a backtracking matcher (modelled in Regex.lean, greedy and lazy loops, captures) for every text; which parts a text is cut into after the path is proved from the text alone. |
| C232 | The host of a url | partial, violated by the code | Proved whenever a host is found at all; violated by names of one label, names with underscores, ports of one digit, 0.0.0.0 (they become part of the path) and mailto urls (witnesses). |
| C233 | The text of a url reads back | partial, violated by the code | Proved for relative urls and for urls with a scheme and a host whose parts read back alone; the code violates it for urls without a scheme, paths whose first part is empty, ports with leading zeros and empty parts (witnesses). |
| C234 | Joining urls | partial, violated by the code | Proved for references without scheme and host against bases without a path, and what the code computes in general; violated for every reference with a scheme and another host, for every path behind a path, and for a fragment alone behind a query (families). |
| C235 | Deriving urls | partial, violated by the code | Proved of the name, host, user, password, origin and relative part; violated by parent keeping the fragment and with_name keeping query and fragment, contrary to their documentation. |
| C236 | Waiting for the lookup of a host | partial, violated by the code | Proved for all runs without closing; violated: a task cancelled by closing before its first step never enters its coroutine, its waiters and all later ones of that host wait forever (for all continuations). |
| C237 | The addresses tried for a host | partial, violated by the code | Proved for each case of what is known; violated for every expired basket: its addresses are tried before those found anew. |
| C238 | The first address which works | partial, violated by the code | Proved for all lists if the iteration ends normally; violated if the lookup fails after known addresses were tried (for all such lists). |
| C239 | Who is at the other end of a secure connection | partial, violated by the code | Fingerprints proved for direct connections, trust with a verifying context for both; violated without any context, behind proxies, for the proxy itself and for names with a dot at the end. |
| C240 | Connecting leaves nothing open | partial, violated by the code | Proved for direct connections and for proxies while the connector is open; violated for every failed response of a proxy after the connector was closed. |
| C241 | Connecting to one of more addresses | partial, violated by the code | Proved if sockets can be made; violated by every address for which no socket can be made. |
| C242 | The connection of a response is given back once | proved | For every order of events of one exchange, with closings, releases, deletion and detaching. |
| C243 | A connection is kept only after the whole exchange | partial, violated by the code | Proved: kept only if the message permits it (all orders); without cancelled reads, ends and failures also only after the whole response arrived. Violated: a cancelled read keeps the connection with the rest outstanding, and a response which comes before the request was written keeps it and cancels the writer. |
| C244 | A connection is used again | partial, violated by the code | Violated: if anything of the body arrives after the head was read the connection is closed, as data_received ends the stream before it clears _payload_stream. Proved where the whole body is there before, or there is none. |
| C245 | What reads of a response give | partial, violated by the code | Proved: bytes given by a read are the body, and reads after one that gave it give it again. Violated: reads after a cancelled or failed one give None. |
| C246 | Late bytes are not a response | partial, violated by the code | Proved without cancelled reads, ends and failures. Violated after a cancelled read: at_eof is set, so late bytes do not make should_close true. |
| C247 | Broken connections are not kept | partial, violated by the code | Proved for connections lost with an exception. Violated: an end in the middle of the body, or the end of a body that lasts until the end, keeps the connection. |
| C248 | Starting a loop | partial, violated by the code | Proved: at most one runner; calls return after the loop runs as long as none raised; calls can end as long as .run did not give runner to another thread. Violated by both races. |
| C249 | Nothing runs while the loop is paused | partial, violated by the code | Proved for contexts entered once, after the loop runs. Violated by contexts entered again and by blocks entered before the loop runs. |
| C250 | Pausing the loop comes to an end | partial, violated by the code | The order is proved for all executions, getting in as long as the loop is not stopped and does not wait for itself. Violated otherwise. |
| C251 | Accepted callbacks are run | partial, violated by the code | The order is proved for all executions; that all can be run as long as it is not stopped, and those accepted before the stop if it is. Violated for those accepted while it ends. |
| C252 | Every datagram has one fate | proved |  |
| C253 | Datagrams go to the bound address | proved |  |
| C254 | A datagram without an address harms nobody | partial, violated by the code | Violated: send_to without an address on an unbound transport closes it (C254_unaddressed_send_kills_transport_violated, for every state with nothing waiting), and when queued it takes the datagrams behind it along. Proved in part: with addresses named and OSErrors only the transport stays open. |
| C255 | A datagram protocol is told the end once, and nothing afterwards | proved |  |
| C256 | No callback stays on a closed socket | partial, violated by the code | Violated: _force_close removes the writer only if something waits, therefore the failure of the last waiting datagram, or an abort after a refused one, closes the socket with its writer registered (for all continuations without a writable event). Proved in part: the reader is always removed, and the writer too if no waiting datagram failed. |
| C257 | Closing sends what waits | proved |  |
| C258 | The reason of an abort is told | partial, violated by the code | Violated: the writer left registered tells connection_lost(None) before the scheduled call with the exception (for all continuations). Proved in part: exact if no waiting datagram failed before. |
| C259 | A paused datagram protocol is resumed | proved |  |
| C260 | Readers by address are not mixed | proved |  |
| C261 | Waiting for an address gives its reader | partial, violated by the code | Violated: the code compares the received address with itself, so a wait for an address ends with the reader of any other address (every state, every pair of addresses). Proved in part: addresses known before, one peer only, answers were heard from. |
| C262 | Waits for datagrams end with the connection | partial, violated by the code | Violated: connection_lost does not wake waits, and waits begun later wait as well (for all continuations without a datagram or timeout). Proved in part: a datagram or the timeout ends a wait, readers are told. |
| C263 | A connection is registered while its task runs | proved |  |
| C264 | A connection does not outlive its handler | partial, violated by the code | Violated: lifetime_handler writes the exception of a raising handler and returns, leaving the connection open and unregistered. Proved for connections whose handler does not raise. |
| C265 | A closed web socket server has no open connection | partial, violated by the code | Violated through C264: the server does not know the connection any more. Proved: no handler is left, and everything is closed if no handler raised; late requests are refused; the server is closed for good. |
| C266 | No handler is started on a closed server | partial, violated by the code | Violated: is_serving is asked before an asynchronous request processor is awaited, and connection_open opens a web socket closed meanwhile. Proved without asynchronous processors; such late handlers are waited for. |
| C267 | A server knows whether it is secure | partial, violated by the code | Violated: is_ssl compares the deprecated parameter with None, its default is an ellipsis. Proved: a secure server says so. |
| C268 | Waiting on another loop gives the future's result | proved |  |
| C269 | A wait on another loop times out only on a pending future | partial, violated by the code | Violated: the timer only looks at its waiter, which is set by a callback on the future's loop; a future completed before the timer is due times out if the callback did not run yet. Proved once the callback has run, and for waits without timeout. |
| C270 | A wait on another loop leaves no timer | partial, violated by the code | Violated: the handle is cancelled only when the wait is interrupted. Proved for the other ends. |
| C271 | A wait on another loop ends when the future is completed | partial, violated by the code | Violated: add_done_callback reads the state and appends in two steps; a future completed in between never calls the callback. Proved for callbacks added in time and for waits with a timeout. |
| C272 | A wait on another loop leaves no callback | proved |  |
| C273 | A closed stream socket has no reader | partial, violated by the code | Violated: the constructor schedules loop.add_reader itself, which does not look whether the transport was closed or aborted in connection_made; the reader stays on a closed descriptor for ever. Proved when it is not closed before the reader was added. |
| C274 | A closing stream transport reads nothing | partial, violated by the code | Violated the same way while something waits to be written. Proved when the reader was added before. |
| C275 | A paused stream transport reads nothing | partial, violated by the code | Violated: pausing in connection_made is undone by the scheduled add_reader. Proved when paused later; resuming and idempotence proved. |
| C276 | The end of the stream is told once | partial, violated by the code | Violated: resume_reading adds the reader behind the end of the stream. Proved as long as nothing is resumed. |
| C277 | The story of a stream connection | proved |  |
| C278 | The reason of a failed read is told | proved |  |
| C279 | Client values are equal when their parts are | proved |  |
| C280 | DNS values are equal when their parts are | partial, violated by the code | Equality is exact and respected by the hashes; the hash of a result is the constant True (violated). |
| C281 | Equal request infos have equal hashes | partial, violated by the code | Violated: names are sorted as written; equal headers differing in case freeze to different orders. Proved for names in lower case. |
| C282 | Equal proxies have equal hashes | partial, violated by the code | Violated by the cached hash of changed headers (and by C281's order). Proved for unchanged proxies with names in lower case. |
| C283 | Strings that ignore case are lawful values | partial, violated by the code | Violated: against plain texts the hash law and transitivity fail, != is case sensitive, other objects raise. Proved among strings that ignore case. |
| C284 | Timer handles are ordered by time | partial, violated by the code | Violated: <= and >= relate no two different handles due at the same time. Proved for <, >, ==, != and hashes. |
| C285 | Name servers are asked only over allowed transports | proved |  |
| C286 | The next name server is asked when one fails | partial, violated by the code | Violated: a refused connection (or any OSError) of one server fails the query unless TLS is preferred. Proved when the servers before only time out, give nothing or lack TLS. |
| C287 | Every question is put to the name servers until it is answered | partial, violated by the code | Violated: with questions asked one by one, a question the first answering server leaves open is put to no other. Proved: what is yielded are answers of one server, at least one. |
| C288 | A permanent failure is called permanent | partial, violated by the code | Violated: with fewer attempts than servers a permanent failure is called temporary. Proved otherwise, in both directions. |
| C289 | An address info is as it was asked for | proved |  |
| C290 | Asking for a socket type narrows an address info | partial, violated by the code | Violated for raw sockets, which are given when any type is asked for and refused by themselves. Proved for datagrams and streams. |
| C291 | Addresses of a name are those of the name | partial, violated by the code | Violated: neither the names of records nor transaction ids are compared. Proved: each address stands in a record of the right type in an answer to a question about a candidate. |
| C292 | The next candidate name is looked up when one has no address | partial, violated by the code | Violated: a candidate for which no server answers fails the lookup. Proved for candidates without addresses. |
| C293 | A name info is a pointer record or the address | partial, violated by the code | Violated: a name that cannot be read is not an error when required; the first record is taken whatever its type; silence is an error though no name is required. Proved otherwise. |
| C294 | Highlighted text is shown in the style of its type | partial, violated by the code | violated: a transition from one decoration to another emits only the second, so both are drawn (C294_decorations_add_up_violated); right when decorations do not change into others, colours and the end are always right |
| C295 | Highlighting keeps the text | proved |  |
| C296 | A text is split into its format codes and the rest | proved |  |
| C297 | A stream is split like its text | partial, violated by the code | violated: end_block stays set behind a broken code, the next part is then taken for the inside of a code (C297_text_taken_for_a_code_violated); right for whole codes, single parts and highlighted text |
| C298 | Highlighted html is well formed and shows the text | partial, violated by the code | violated: text of types without a detail is not escaped beside html (C298_not_escaped_violated); a line break inside of a text is not <br> (C298_line_break_stays_violated) |
| C299 | A type of token has the nearest detail | partial, violated by the code | violated: a detail can not be removed from a type without a parent, nor after set_highlight_html_all |
| C300 | Every descriptor is in exactly one shard | proved |  |
| C301 | Exactly the ready descriptors are reported on Windows | proved |  |
| C302 | The loop can be woken up on Windows | partial, violated by the code | violated: with more descriptors than the limit of the system the waking socket is never reported by its descriptor; the socket object is, only when nothing else is ready (C302_not_reported_violated, C302_socket_instead_violated) |
| C303 | An included name has the exported object | partial, violated by the code | violated: under another variable the placeholder stays (C303_other_name_violated), a second export is not seen (C303_exported_again_violated), nor is one behind a callback which raises (C303_behind_raising_violated) |
| C304 | An include callback is called exactly once | partial, violated by the code | right without raising callbacks; violated behind one which raises (C304_behind_raising_violated) |
| C305 | A name is waited for exactly if it is included and not exported | proved |  |
| C306 | Pasted lines of a console give what was typed in | proved |  |
| C307 | Text without prompts is left alone | partial, violated by the code | violated: an ellipsis statement in the last line is taken for a prompt and dropped (C307_ellipsis_lost_violated); right for texts with an unprompted line in their middle and single lines which begin with none of dot, greater than, I, space |
| C308 | The parameters of a callable are those of its function | partial, violated by the code | violated: keyword only parameters with a default before ones without make analyzing raise KeyError (C308_keyword_defaults_violated) |
| C309 | The range of positional arguments is right | partial, violated by the code | violated: reserved parameters are counted when there is a default (C309_method_violated), and so are parameters which are not positional (C309_others_counted_violated) |
| C310 | The counts of parameters are right | proved |  |
| C311 | A type is told to be instanceable exactly if it can be called without arguments | partial, violated by the code | sound; violated the other way: with variable parameters a type is never told to be instanceable (C311_variable_parameters_violated) |
| C312 | Splitting a name to words loses nothing | proved |  |
| C313 | Names are split only where words end | proved |  |
| C314 | A normalized name is normalized | proved | stable case folding: gives no upper case, keeps being numeric, folds no further |
| C315 | Camel case and snake case of the same words are normalized the same | partial, violated by the code | proved for words of at least two letters; violated for words of a single letter, which are taken for one (C315_single_letters_violated) |
| C316 | Dedenting removes exactly the common indentation | proved |  |
| C317 | An extra info is what was set the last, or the default | partial, violated by the code | violated: while no info is set at all, None is given and not the default (C317_default_violated) |
| C318 | Whether an extra info is present is told right | proved |  |
| C319 | An extra info is found under both of its names | partial, violated by the code | from the alternative name to the first; violated the other way: an info set under its first name is not found under the alternative one (C319_first_name_violated) |
| C320 | The getter of a cached property is called at most once | partial, violated by the code | violated for a getter which gives Ellipsis: it is called at every access (C320_ellipsis_violated) |
| C321 | A cached property keeps its value | proved |  |
| C322 | An attribute of a proxy is its own overwrite or that of the proxied object | proved |  |
| C323 | A proxy has a dictionary of overwrites exactly while it overwrites something | proved |  |
| C324 | A source is told empty exactly if it has blanks and comments only | proved |  |
| C325 | Code is given exactly if the source can be compiled | proved |  |
| C326 | Only sources which are wrong for good are refused | proved |  |
| C327 | Sources which are wrong for good are refused | partial, violated by the code | proved if both modes tell the same, or the first finds many statements; violated if they tell different errors: more is waited for (C327_different_violated) |
| C328 | What is compiled is what was typed | partial, violated by the code | violated: white space at the ends of lines is dropped, also in strings over many lines (C328_trailing_violated) |
| C329 | A function of a modulized type is the same function in the new module | partial, violated by the code | violated: defaults of keyword only parameters are lost (C329_keyword_defaults_violated) |
| C330 | Types in a modulized type are moved with it | partial, violated by the code | violated: static methods of types in the type become plain functions (C330_static_violated) |
| C331 | The module of a type has exactly its names | partial | unless a module named module_path is loaded, see C332 |
| C332 | Modulizing a type again updates its module | partial, violated by the code | violated: the literal module_path is looked up instead of the path, so another module is made (C332_again_violated), or one named so is taken for all types (C332_literal_violated) |
| C333 | A group of causes has exactly the given exceptions | partial, violated by the code | for two or more causes; violated for a single one, which is not validated (C333_single_violated) |
| C334 | What a compound type has was implemented by one of its layers | proved |  |
| C335 | Of an attribute there is exactly one implementation among components | partial, violated by the code | Violated: only methods are checked. Of two properties or two class methods the first is taken silently, and a constant hides a method. The partial theorem covers methods whose parameters match. |
| C336 | An expected property is satisfied by any component | partial, violated by the code | Violated: implementations are transferred for methods and placeholders only, so an expected property in front of its implementation is reported as never implemented, while it works in the other order. |
| C337 | Constants are the same in all components | proved |  |
| C338 | Slots are exactly those the base type lacks | proved |  |
| C339 | Placeholders are replaced by implementations | partial, violated by the code | Violated for properties and instance attributes: NotImplemented is no get-descriptor, so these are refused as mismatching before the transfer. |
| C340 | Base types of a compound are one type and components | proved |  |
| C341 | The type itself goes before its base type | partial, violated by the code | Violated: a method the type expects with Theory is reported as never implemented though its base type implements it. A constant of the base type cannot be changed, by design. |
| C342 | A rendered exception is shown with all which led to it | proved |  |
| C343 | Rendering of an exception ends | partial, violated by the code | Violated: the collecting loop remembers nothing, so an exception raised from itself (raise e from e), or any cycle of causes, is followed for ever while the list grows. Exceptions which do not refer to themselves are rendered. |
| C344 | All causes of a group are shown | partial, violated by the code | Violated: only a group which is the direct cause is expanded. A group rendered itself, one which was being handled, and one inside another group are shown as plain exceptions without their causes. |
| C345 | All frames can be read back from what is shown | proved |  |
| C346 | Exactly the frames told to be ignored are left out | proved |  |
| C347 | Every frame gets the info of its own place | proved |  |
| C348 | A response is released exactly once by its context manager | proved |  |
| C349 | Awaiting a context manager gives its response | partial, violated by the code | Violated: after leaving, entering gives None without an error. |
| C350 | A failed request is told whenever it is awaited | partial, violated by the code | Violated: the coroutine stays in the manager after it failed, so awaiting again raises RuntimeError (cannot reuse already awaited coroutine) instead of the failure. |
| C351 | Exactly the wanted exceptions are caught | proved |  |
| C352 | What ends a task is not caught | partial, violated by the code | Violated: only GeneratorExit is let through, so a cancellation thrown into the task is caught and the task carries on. |
| C353 | The title of a caught exception tells where it was caught | proved |  |
| C354 | Titles are shown as they were given | proved |  |
| C355 | The variables of a module are there in the console | partial, violated by the code | Violated: the package of a module at the top is the empty text, not None, so it is taken for a package; without a list of public names none of its variables is there. |
| C356 | relative_index splits an ascending list | proved |  |
| C357 | change_on_switch tells the new positions | partial, violated by the code | Violated: the index is increased before the position is computed, so each other element is told with its present position, and every move to the front raises TypeError, as list.index is called instead of insert. |
| C358 | list_difference gives what is only in one of them | proved |  |
| C359 | Unpacked pairs are those of the generator | partial, violated by the code | Violated if the keys are taken first, as CPython does when it merges a mapping which is not a dict (outside of the repository): every key gets the last value. |
| C360 | Views of dictionaries are equal exactly if their contents are | partial, violated by the code | Violated: two views are compared by their dictionaries, so keys matter for views of values and values for views of keys. |
| C361 | Lookups find the first one | proved |  |
| C362 | A thread gets an event loop which works | proved |  |
| C363 | A thread keeps its event loop | partial, violated by the code | Violated while a loop is starting: it counts as stopped between its start and its running, and the thread may be linked to another loop for good. |
| C364 | An event loop is created only if there is none | proved |  |
| C365 | Threads share one event loop | partial, violated by the code | Violated: a loop which was not started yet or which is a daemon is not found by other threads, which make further ones. |
| C366 | A task made from another thread wakes its loop up | proved |  |
| C367 | The event loop set is got | partial, violated by the code | Violated for a loop which is stopped or starting: it is set without an error and never got. |
| C368 | The kind of a function is the kind of what it gives | proved |  |
| C369 | The kinds of functions exclude each other | partial, violated by the code | Violated for generators made coroutines by to_coroutine, which are both. |
| C370 | The kind is told of every object | partial, violated by the code | Violated: a method of a type, as methodize makes, has no code, so AttributeError is raised. |
| C371 | to_coroutine makes coroutine functions | proved |  |
| C372 | Method likes are told by their types | partial, violated by the code | Violated: all types share one set, so every method like is an instance of each of them. |
| C373 | Lines of the console are broken without loss | proved | Parts are taken as the highlighter gives them: a line break is a part alone. part[:-2] would lose a character otherwise (example). |
| C374 | Rows of the console are counted as drawn | proved |  |
| C375 | Rows are counted right after the terminal became narrower | partial, violated by the code | A line which fills two or more rows exactly is overcounted: last_line_length is set to line_length instead of content_width. Clearing then erases rows above the input. Proved: right for all other lines, never too few. |
| C376 | Jumps reach their target | proved |  |
| C377 | Clearing erases exactly the rows of the buffer | proved |  |
| C378 | Writing shows the rows and the cursor | proved |  |
| C379 | The difference of a row turns it into the new one | proved |  |
| C380 | The difference of the screen turns it into the new one | proved |  |
| C381 | After writing the difference the cursor is in its column | partial, violated by the code | If the last row which changed continues in the next one it fills the terminal, the cursor stays in the last column there, and the jump to the left which assumes it is behind goes one column too far. Proved: exactly then one column left, else right. |
| C382 | Hooks of extensions are not called again and not lost | proved |  |
| C383 | Hooks are called only with their requirements loaded | proved |  |
| C384 | Hooks are called once all they require is loaded | partial, violated by the code | Proved for hooks which neither load extensions nor add hooks. Violated otherwise: the loop goes over the indexes of the list as it was before, so a hook which loads an extension for which an earlier hook waits makes the loop raise an IndexError, and a hook whose requirements are all loaded is never called. |
| C385 | Extending of a class copies the attributes of the new one | proved |  |
| C386 | Extending of a class keeps existing attributes | partial, violated by the code | Violated: attributes of both classes are overwritten although the documentation tells otherwise; also the built-in class methods of object are bound anew at each access, so an own __init_subclass__ of the old class is lost even if the new class defines none. |
| C387 | Pairs are given up to the first element which is none | proved |  |
| C388 | Parts of urls read the same whatever was read before | proved |  |
| C389 | Parts of urls are equal if they decode to the same | proved |  |
| C390 | Running of an awaitable leaves no event loop behind | proved |  |
| C391 | Running of a coroutine blocks only threads which are no event loop | proved |  |
| C392 | Exceptions are represented by name and parameters | proved |  |
| C393 | Representing of an exception raises nothing | partial, violated by the code | Violated: str is called unprotected on text parameters and on what repr gives, so a subclass of str whose __str__ raises makes the representing raise. Proved if no such text is given. |
| C394 | The check of kept console inputs keeps the newest | proved |  |
| C395 | The newest console input is kept | partial, violated by the code | violated: an input added again under its name keeps the old position and may be deleted at once; an input as big as the limit deletes everything |
| C396 | Kept console inputs stay under their limit | partial, violated by the code | violated: the size is only checked when the number of inputs is a multiple of 17, between it may be as big as wanted |
| C397 | Marks of syntax errors are under the characters told | proved |  |
| C398 | Marks of syntax errors are inside their line | partial, violated by the code | violated: the end offset of an error which ends on a later line is used for the first line, so that marks are outside of it or missing |
| C399 | Formatted callbacks show what is called | proved |  |
| C400 | Formatted callbacks list all parameters | proved |  |
| C401 | File names are cut at the first path they are under | proved |  |
| C402 | Representations of futures show results by their state | proved |  |
| C403 | Suggestions look at every variable once | proved |  |
| C404 | Suggested variables have the attribute | proved |  |
| C405 | Familiar attributes are taken from all others of the instance | proved |  |
| C406 | Representing of an attribute error raises nothing | partial, violated by the code | violated: hasattr is used on every variable of the frame, so a property raising something else than AttributeError makes the representing raise; so does a __dir__ which gives no names |
| C407 | Inputs of the console give their own results | partial, violated by the code | violated: code which awaits and is interrupted before the event loop got to it runs nevertheless and sets the task of the console, so the next input gives its result instead of its own value |
| C408 | SystemExit raised by an input ends the console | partial, violated by the code | violated: SystemExit raised by code which awaits nothing is caught by run_code_callback and written like any exception |
| C409 | File names of console inputs are distinct | partial, violated by the code | violated: the identifier is left out while the console is the newest, so the inputs of a console and of a later one have the same file names |
| C410 | The history of the console has every input under its number | proved |  |
| C411 | The console ends with the first exit | proved |  |
| C412 | The console writes its banner and its exit message | partial, violated by the code | violated: the loop of interact has no break, what writes the exit message is never reached |
| C413 | The simple editor gives the first lines which compile | proved |  |
| C414 | Sessions of the line cache keep infos of files | proved |  |
| C415 | Infos of files have the present content | partial, violated by the code | violated: is_up_to_date is never called, as long as anything holds the info the old content is given |
| C416 | Sessions of the line cache can be entered and exited | partial, violated by the code | violated: entered again while entered it is exited by the inner exit, the outer one raises KeyError |
| C417 | Exceptions are alike if their frames are | proved |  |
| C418 | A process counts as lost when it ended and its pipes are lost | partial, violated by the code | A process without all three pipes never counts as lost by its end; one with all three counts as lost at its end while none of its pipes is lost, for _try_finish returns if a pipe is missing or disconnected instead of if it is connected. Proved: when exactly it counts as lost. |
| C419 | Protocols of pipes tell the process of data and of the loss | partial, violated by the code | If telling the loss raises, the pipe never counts as disconnected; data of a lost pipe raises. Proved: told once, data in order, disconnected if telling did not raise. |
| C420 | Escaped inputs can be read back | proved |  |
| C421 | One input is read and the terminal is restored | partial, violated by the code | If tty.setraw raises, or tcsetattr does in the finally, reading stays without blocking. Proved: restored if the terminal can be set. |
| C422 | The name of an input tells which it was | partial, violated by the code | Both characters of new lines have one name, and the text of an escape has the name of what it escapes. Proved: names of keys, and different names among printable and among unprintable inputs. |
| C423 | Properties of names and modules give those of the class and of the instance | partial, violated by the code | name_property looks up class_name of the class instead of its own, module_property calls its function without the instance. Proved: the module set last. |
| C424 | Class properties call their functions with the class | partial, violated by the code | Setting and deleting through the class replaces the property, as Python does for descriptors. Proved: reading, and setting and deleting through instances. |
| C425 | Class properties are built of the functions added last | proved |  |
| C426 | Dropping the variables of frames drops all of them and nothing else | partial, violated by the code | A virtual frame which has only a tracing function keeps it, for it counts as having no variables. Proved for frames made by proxying. |
| C427 | Virtual proxies of exceptions are independent of what they were made of | partial, violated by the code | Of a virtual proxy asked for with variables the very same object is given, so dropping its variables drops those of the first. Proved for proxies which are not virtual. |
| C428 | Resource streams are equal if their functions and parameters are | proved |  |
| C429 | Resource streams call their function anew with their parameters and show them | proved |  |
| C430 | The frame of an attribute error is the one of the lookup | proved |  |
| C431 | Json has the elements, items and values of what it is made of | partial, violated by the code | Mappings which are not dictionaries become the array of their keys, their values are lost. Proved without them, and when TypeError is raised. |
| C432 | Closed connections tell the reason | partial, violated by the code | 1012, registered as the restart of the service, is said to be reserved. Proved for all other codes. |
| C433 | A copied function is called as the original | partial, violated by the code | Calls are proved alike after any history; violated for the documentation: one which was set, and annotations, are not copied. |
| C434 | Copied functions are independent | partial, violated by the code | Proved for histories which change no dictionary of defaults inside; violated otherwise: __kwdefaults__ is the same dictionary in the copy. |
