[
["Stream", "core/protocols_and_transports/protocol.py: `_read_exactly_*`, `_read_until*`, `_read_until_eof`", "`read_line`, `read_once`; transports"],
["WebSocket", "web_common/web_socket_frame.py, frame reader and writer of web_common/http_protocol.py", "see WsProtocol for messages"],
["Chunked", "chunk reader of web_common/http_protocol.py 459-531, web_common/http_stream_writer.py", "compression"],
["Future", "core/traps/future.py, `call_soon` and `_schedule_callbacks` of the loop", "repr, deprecated methods"],
["Task", "core/traps/task.py: stepping, `cancel`, `cancel_with`", "awaiting another task whose coroutine swallows the cancellation; stacks, repr"],
["Shield", "core/traps/future_chaining.py `shield`", "-"],
["Lock", "core/traps/locks.py", "-"],
["AsyncQueue", "core/traps/queues.py", "`clear`, `copy`, `reverse`, `iterable` of the constructor"],
["Event", "core/traps/event.py", "-"],
["TaskGroup", "core/traps/task_group.py", "`cancel_*`, `iter_futures`"],
["ScarletExecutor", "core/traps/async_executing.py", "several adders at once"],
["EventLoop", "scheduling part of core/event_loop/event_loop.py, handles.py", "selector, signals, servers, connections"],
["Cycler", "core/event_loop/cycler.py", "async cycle functions are tasks and not followed"],
["SyncQueue", "`SyncQueue`, `SyncWait` of core/event_loop/executor.py", "`max_length`, deque operations"],
["Transport", "writing side of `SocketTransportLayer`, core/protocols_and_transports/transport_layer.py", "reading side, datagrams, TLS"],
["FlowControl", "pausing and `drain` of core/protocols_and_transports/protocol.py", "-"],
["PayloadStream", "core/protocols_and_transports/payload_stream.py", "-"],
["MultiDict", "utils/multi_value_dictionary.py, ignore_case_multi_value_dictionary.py, ignore_case_string.py", "iterators' repr"],
["SortedList", "utils/sorted_list.py", "-"],
["Text", "UTF-8 as of Python's codec", "surrogates"],
["Quoting", "web_common/quoting.py", "caches"],
["Url", "web_common/url/url_path.py, url_query.py, url_host_info.py", "most of url.py"],
["Dns", "dns_query/building_and_parsing.py, helpers.py, resolve_configuration.py, server choice of requests.py", "sockets, idna"],
["Header", "web_common/header_building_and_parsing.py", "-"],
["Http", "message heads of web_common/helpers.py and http_protocol.py, payload framing of http_protocol.py, http_message.py", "-"],
["Pool", "http_client/protocol_basket.py, connector_base.py, connection.py", "creating connections"],
["Rotation", "http_client/host_info_basket.py `iter_next_rotation`", "-"],
["Dedup", "streaming/zip_streaming/name_deduplication.py", "-"],
["Cookie", "web_common/cookiejar.py", "pickling"],
["ContentType", "web_common/content_type.py", "repr, hash"],
["Multipart", "writers of web_common/multipart.py, readers of web_common/http_protocol.py", "payload types reading files"],
["Redirect", "ClientRequest.__new__ of http_client/client_request.py, loops of HTTPClient._request and _request2 of http_client/http_client.py", "proxies, timeouts, the connection; url parsing is in Url; parsing and writing of cookies is a parameter"],
["WebSocketSession", "web_socket/web_socket_common_protocol.py", "extensions, iterators as messages of send, random ping payloads (an input), the text codec (a parameter), the task which is cancelled by the garbage collector"],
["Handshake", "WebSocketClient.__new__ of web_socket/web_socket_client.py, WebSocketServerProtocol.handshake of web_socket/web_socket_server_protocol.py", "SHA 1 (a parameter), the order of sets (any), parameters of extensions (any check), bytes on the wire (Http), b64decode as of Python 3.11 and later"],
["Weak", "utils/weak_core.py, weak_set.py, weak_map.py, weak_key_dictionary.py, weak_value_dictionary.py, hybrid_value_dictionary.py, weak_item_dictionary.py", "repr, pickling, update and operators with other iterables, values().__contains__, the order in which callbacks of one death are called, mutation of a container by the body of a loop over it"],
["ThreadPool", "Executor, ExecutorThread, ClaimedExecutor of core/event_loop/executor.py", "the stack methods and reprs, an event loop that stops, ExecutorThread.cancel interleaved with its own thread, SyncQueue itself (SyncQueue)"],
["Timeouts", "repeat_timeout (core/traps/timeouting.py), sleep (core/traps/task_suppression.py) with _SleepHandleCanceller, Future.apply_timeout", "floating point times, the delivery of the cancellation to the task (Task), apply_timeout of a Task, _TimeoutHandleCanceller (unused)"],
["CrossThread", "FutureWrapperSync.wait against Future.set_result / set_exception / cancel from other threads, step by step", "propagate_cancellation, interrupted waits, FutureWrapperAsync, stopped loops, flags other than the done ones"],
["EnterExecutor", "enter_executor (core/traps/task_thread_switcher.py) with Task.cancel and Task._step", "nested use, cancel_with, values, _cancel_callback, the cross thread wait itself (see CrossThread), stopped loops"],
["Zip", "streaming/zip_streaming: stream_zip, the records, ZipStreamFileState, the compressors", "zlib (an arbitrary machine), name deduplication (Dedup), exceptions of the files' generators, ResourceStream"],
["Frames", "utils/trace: frame_grouping.py, FrameGroup (adding, merging, separating, iterating, filtering), repeat_strategies.py", "rendering, frame proxies (a key and an identity), expression infos, reprs, copies"],
["Ssl", "core/protocols_and_transports: ssl_pipe.py (SSLPipe), ssl_transport_layer.py (SSLBidirectionalTransportLayer), of transport_layer.py what these call (close, _force_close, write up to its buffer)", "the python ssl module (an arbitrary engine), pausing and resuming, extra info, protocols calling back into the layer from their callbacks, the rest of ext/asyncio (its start_tls returns the underlying transport instead of the ssl layer)"],
["Editor", "tools/asynchronous_interactive_console: editors/editor_advanced.py (the keys, the tokenizer, poll_and_process_input, history moves, completion), of editors/display_state.py the text and cursor, history.py, auto_completer.py, tools/keys.py", "drawing on the terminal, decoding of input, async output, compiling (whether a text is run is a parameter), the trimming of prompts (a parameter), isprintable, isidentifier and the regular expression for indexed inputs (parameters)"],
["ReuIO", "core/ios.py: ReuBytesIO (with the BytesIO below it), ReuAsyncIO close and read with its executor, the claim and release of executors by AsyncIO", "the content of asynchronous files (positions only), readline, readinto, seek and tell of ReuAsyncIO, the iterators, inherited methods of BytesIO which ignore the size, files of which close raises"],
["Pipe", "core/protocols_and_transports/unix_pipe_transport_layer.py: both transports", "construction and its failures, exceptions raised by protocols, set_protocol, collection of a transport which was not closed"],
["Process", "core/subprocess/subprocess.py: close, kill, wait, _process_exited, lost connections, _drain_helper, pausing and resuming, pending calls", "starting the process, the transports (see Pipe), communicate, signals other than kill, the time between a signal and the end of the process, _try_finish"],
["Asyncio", "ext/asyncio/asyncio.py: Semaphore, BoundedSemaphore, StreamReader, Condition, Barrier, gather, wait", "the rest of the extension: policies, queues, servers, subprocesses, as_completed, wait_for, timeouts of wait, what a cancelled gathering does to its futures; several tasks which read from one stream; the fairness of the loop"],
["Server", "core/event_loop/server.py; event_loop.py: _start_serving, _stop_serving, _accept_connection, _accept_connection_task; attaching and detaching in transport_layer.py", "servers with several sockets, creating the sockets, failing protocol factories, ssl, the transports (see Transport, Ssl)"],
["Credentials", "web_common/basic_authorization.py; web_common/keep_alive_info.py and its pattern in web_common/constants.py", "types of parameters, representations, hashes; str.casefold only for the characters which matter; encodings are parameters; base64 and re are modelled from the documentation and source of CPython; float without exponents, inf and nan, int without underscores"],
["LoopIO", "core/event_loop/event_loop.py: add_reader, remove_reader, add_writer, remove_writer, the events of runner, socket_receive, socket_send_all and their callbacks, shutdown_async_generators, get_tasks; event_loop_functionality_helpers.py: the hooks of asynchronous generators, _iter_futures_of", "starting a loop which does not run, the selector itself, errors of sockets, socket_accept, socket_connect and socket_receive_into (alike), writing the exceptions of generators which fail to close"],
["FormData", "`web_common/form_data.py`; `create_payload`, the constructors of the payloads and `MultipartWriter.append` of `web_common/multipart.py`", "asynchronous payloads and StringIO, the constructor from mappings and sequences, quoting of the disposition (area Header), the effect of transfer encodings on the content; `urllib.parse.urlencode` is modelled from CPython, encodings, `str`, `to_json` and `guess_type` are parameters"],
["Highlight", "`utils/highlight/parser_context.py` (`add_token`, nesting), `matching.py` (the parsers and the consumers of strings), the searches of `utils.py`, `word_pattern.py`; `FileInfo.get_line` of `utils/trace/expression_parsing/file_info.py`", "the regular expressions of spaces, console prefixes, numbers, identifiers and operators (a parameter with stated properties), retyping of escaped line breaks, token types which are neither braces nor line breaks, formatters"],
["UrlText", "`web_common/url/constants.py` (`HOST_RP` and `URL_RP`, as patterns which a backtracking matcher like that of `re` runs), `url.py` (`URL.__new__`, `_create_host`, `_build_value`, `_build_host_into`, `join`, `__truediv__`, `parent`, `name`, `with_*`, `origin`, `relative`)", "encoded texts (the area Url has paths and queries of both kinds), cached values, `with_query` of unnormalized queries, `extend_query`; case folding of characters which are not ASCII; `\\d` and `\\s` are parameters, of which only the ASCII part is assumed"],
["Connect", "`http_client/connector_tcp.py` (lookups and their waiters, `close`, `resolve_host_iterator`, `get_ssl_context`, `get_ssl_fingerprint`, `create_direct_connection`, `create_proxy_connection`), `host_info.py`, `ssl_fingerprint.py`, `event_loop.py` (`create_connection_to`, `_create_connection_transport`)", "the lookup itself (the area Dns has its messages), the handshake (the area Ssl), headers and parsing of the `CONNECT` request; whether a certificate is trusted and what its hash is are parameters"],
["Response", "`http_client/client_response.py` (`start_processing` after the head, `read`, `close`, `release`, `__del__`, the callbacks), `http_client/connection.py` (`close`, `release`, `detach`), `should_close`, `protocol.py` (payload reader, `data_received`, `eof_received`, `set_exception`), `payload_stream.py` (ending, awaiting), the writer task of `client_request.py`", "the head of the message and the readers of bodies (areas Http and Chunked), cookies, encodings, callbacks of connections, a closed connector, more tasks that read at a time"],
["Life", "`core/event_loop/event_loop.py` (`_maybe_start`, `is_started`, `_do_start`, `stop`, `_stop`, the loop of `runner`, `call_soon_thread_safe`), the descriptor of `EventThread.run`, `event_thread_type.py` (`EventThreadContextManager`), `event_thread_suspender.py`", "timers, sockets, `wake_up` and executors when it ends; one access of the descriptor is one step; `threading.Thread.start` is as before Python 3.13"],
["Datagram", "`transport_layer.py` (`SocketTransportLayerBase.close`, `abort`, `_call_connection_lost`, `_force_close`, `_maybe_pause_protocol`, `_maybe_resume_protocol`; `DatagramSocketTransportLayer`), `protocol.py` (`DatagramAddressedReadProtocol`)", "a known peer name (no creator passes one), `resume_writing` sending from inside, the types of data, creating of the socket"],
["WsServer", "`web_socket_server.py` (`__new__` parts, `register`, `unregister`, `is_serving`, `close`, `_close`), `web_socket_server_protocol.py` (`connection_made`, `lifetime_handler`, order of the steps of `handshake`)", "what the handshake checks (area Handshake), the closing handshake (area WebSocketSession), creating of the server"],
["WrapAsync", "`core/traps/future_wrapper_async.py` (`wait`, `wait_for_completion`), `add_done_callback` and `remove_done_callback` of `future.py` against a loop in another thread", "`propagate_cancellation`, the steps within completing a future (area CrossThread)"],
["Reading", "`transport_layer.py` (`SocketTransportLayer.__new__`, `pause_reading`, `resume_reading`, `_read_ready`, the end of `_write_ready`, `close`, `abort`, `_force_close`, `_call_connection_lost`)", "the bytes of the write buffer (area Transport), `eof_received` calling back into the transport"],
["Equality", "`__eq__` and `__hash__` of `ConnectionKey`, `HostInfo`, `RequestInfo`, `Proxy`, `BasicAuthorization`, `KeepAliveInfo`, of the values of `dns_query`, `freeze_headers`, `IgnoreCaseString`, the comparisons of `TimerHandle`", "comparisons with values of other types (except of strings), the wrap around of hashes"],
["Resolve", "`dns_query/requests.py` (`async_iter_execute_query_async`, which transports the `_execute_query_*` functions use, `get_address_info_async`, `get_name_info_async`)", "the bytes of messages (area Dns), the connections themselves, canonical names, service names, scopes which are names of interfaces"],
["Styling", "`utils/highlight/`: `ansi.py`, `formatter_detail/ansi.py`, `formatter_detail/html.py`, `highlight_streamer.py` (`_highlight_step`, `_highlight_streamer`), `formatter_node.py` (`set_detail`), `formatter_context.py` (`set_highlight_html_all`)", "the borders between split pieces of the same kind, other types of details, decimal numbers (any digits), the names of types and classes"],
["WinSelect", "`core/event_loop/selector.py` (the whole file)", "timeouts, descriptors whose state changes during a call, `select` without descriptors (raises)"],
["Includes", "`utils/export_include.py` (the whole file)", "how the module of a frame and the name of an object are found"],
["Trim", "`tools/asynchronous_interactive_console/editors/prefix_trimming.py` (the whole file)", "line ends other than `\\n`, digits other than ASCII ones"],
["Analyzer", "`utils/analyzer.py`: what `CallableAnalyzer.__new__` makes of a function, and the methods which ask for parameters", "how the function of a callable and the number of reserved parameters are found, annotations, `%`"],
["Naming", "`helpers_familiarity.py`: how names are split to words and normalized; `expression_info.py`: dedenting of lines", "the comparing of names behind it; the tables of characters are parameters"],
["Attributes", "`extra_info.py`: setting and asking for infos of transports; `properties.py`: `cached_property`; `type_proxies/proxy_base.py`: overwrites and copies of proxies", "getters which use the cache themselves, comparing and hashing of proxies"],
["Compiling", "`editors/compilation.py`: when a source is empty, compiled, refused or waited for; `syntax_error_helpers.py`: how errors are compared", "Python's `compile` itself (a parameter), file names in errors"],
["Modulize", "`type_modulizer.py`: functions, types in types and the module made; `cause_group.py`: validation of causes", "inherited attributes of types"],
["Compound", "`compound_type.py`: merging of the layers of an attribute (checks, transfers, slots) and separating of base types", "collecting of attributes from types (`collect_attributes_per_type_from_type_attributes`, `CompoundLayer.from_*`), names of sources in errors, matching of parameters (a parameter)"],
["Rendering", "`trace/trace.py`: chains of exceptions and groups of causes, with the queue of steps; `trace/rendering.py`: groups of frames; `trace/frame_ignoring.py`; `frame_proxying.py`: populating", "texts of single frames and exceptions, token types and highlighting, frames changing while they are rendered"],
["Contexts", "`request_context_manager.py`, `web_socket_context_manager.py`: entering, awaiting and leaving; `core/top_level/trace.py`: what is caught, titles and locations; `console_helpers.py`: variables", "two tasks awaiting one manager at a time, representations, texts of the messages, banner"],
["Lists", "`utils/utils.py`: positions, differences, lookups, `un_map_pack`; `dict_iterator_bases.py`: `__eq__` of views", "elements other than integers, a key of `change_on_switch`, weak references dying during a comparison"],
["Loops", "`core/top_level/event_loop.py`, `core/top_level/task.py`, `core/top_level/flow.py`: which loop a thread gets, creating, setting, waking up; `EventThread.is_stopped`", "threads running in between of one call, `start_later = False`, order of `threading.enumerate` beyond a list"],
["Kinds", "`async_utils.py`: kinds of functions and objects, `to_coroutine`; `method_like.py`", "fields of code objects other than flags, metatypes beyond the shared set"],
["Display", "`editors/display_state.py`, `line_render_intermediate.py`, `terminal_control_commands.py`: breaking of lines, counting of rows, clearing, writing, difference, on a terminal in raw mode", "colours of characters, prefixes with formats inside, scrolling of the terminal, wide characters, parts of the highlighter with a line break behind other characters"],
["Extensions", "`ext/__init__.py`: loading of extensions and hooks, with hooks which load extensions and add hooks", "what the hooks are, how exceptions are written out"],
["Helpers", "`utils/keep_type.py`, `utils/dict_update_iterable_iterator.py`", "attributes which cannot be set, `__class__` with metaclasses, iterables whose iterating raises, infinite iterables"],
["Parts", "`web_common/url/url_part_base.py`, `url_part_base_parsed.py`, `url_user_info.py`: caching of both forms, equality", "quoting itself (area `Quoting`), subclasses' parsing, `__repr__`"],
["Describe", "`trace/exception_representation/representation_helpers.py`", "how the kinds of constructors and parameters are found out, attribute and syntax errors"],
["Recent", "`utils/trace/expression_parsing/console_input.py`, `FileInfo.is_up_to_date` of console inputs", "contents of inputs, line cache of the standard library"],
["Marks", "`exception_representation_syntax_error.py`: `__new__`", "type and message, colouring"],
["Callbacks", "`utils/trace/formatters.py`: `_cut_file_name`, merging, `format_callback`; `core/traps/future_repr.py`: which result is shown", "`short_repr`, names of functions, formatting of coroutines and built-ins"],
["Suggest", "`exception_representation/suggestion/*`: variables, names with an attribute, attributes of instances; what raises in `ExceptionRepresentationAttributeError.__new__`", "measure of familiarity (floating point numbers), `frames` choosing"],
["Console", "`tools/asynchronous_interactive_console/console.py`: `run_code`, `run_code_callback`, file names, `interact`; `editors/editor_simple.py`", "what is written besides, prefixes (their length uses floating point numbers), interrupts at other moments, tasks which end just when interrupted"],
["Files", "`trace/expression_parsing/file_info.py`: `get_file_info`; `line_cache_session.py`; `exception_proxy_base.py`, `frame_group.py`: alike", "parsing of the content, files changed between stat and read, sessions which outlive their exit"],
["Finishing", "`core/subprocess/subprocess_protocols.py`; `subprocess.py`: `_try_finish`, `_pipe_connection_lost`, `_pipe_data_received`", "calls before the process is connected and waiting for draining (in `Process`), pausing of writing"],
["Keys", "`main/key_debug/command.py`; `tools/keys.py`: `KEY_NAMES`", "`termios` and `select` themselves, which characters are printable"],
["Owned", "`utils/properties.py`: `name_property`, `module_property`, `class_property`", "`docs_property`, attributes of instances of the same name"],
["Frozen", "`trace/frame_proxy/frame_proxy_virtual.py`; `frame_group.py`: dropping of variables; `exception_proxy_virtual.py`", "`from_fields`, counts of alike frames, infos of expressions"],
["Resource", "`streaming/resource_streaming/*`; `trace/exception_representation/attribute_error_helpers.py`: the frame", "types of streams, names of functions, which exceptions are attribute errors"],
["Json", "`utils/json.py`: what is turned into json; `web_common/exceptions.py`: `get_close_reason`, `ConnectionClosed.reason`", "the text of json, circular objects, keys which are not text, negative codes"],
["CopyFunc", "`utils/function_tools.py`: `copy_func`", "`alchemy_incendiary`, the other attributes of functions, what codes do when run"]
]
