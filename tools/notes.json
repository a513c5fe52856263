{
"C01": {
"note": "Full statement proved for every segmentation, offset and read sequence. C01_size_after_eof_violated is a side finding (offset left stale by a failed read makes the size report wrong), it does not touch the data claim.",
"status": "proved"
},
"C02": {
"note": "The code does not have the property (three witnesses and the negation of the full statement). Proved for all GoodSegments segmentations, for boundaries of at most two bytes read from a segment start, and for single byte boundaries without restriction."
},
"C03": {
"note": "Proved for every segmentation and after any reads."
},
"C04": {
"note": "Proved for every payload below 2^64 bytes, every mask, every segmentation and any following bytes; also for sequences of frames."
},
"C05": {
"note": "Proved for every key and payload."
},
"C06": {
"note": "Proved: wrong mask bit, oversize, truncated and accepted frames."
},
"C07": {
"note": "Proved as an equivalence with the RFC 6455 rule."
},
"C08": {
"note": "Proved for every sequence of writes, later calls and following bytes; delivered in one segment, or in any segmentation not cutting a CRLF (see C09)."
},
"C09": {
"note": "The code does not have the property (cut inside a CRLF after the first size line). Proved for all segmentations not cutting a CRLF, by refinement to a whole-stream decoder."
},
"C10": {
"note": "The code does not have the property (lenient int(line, 16)). Proved: plain lines accepted with their value, exact shape of accepted lines, rejection of all lines with other bytes or without digits."
},
"C100": {
"note": "For base64, with and without a compressor (a parameter). quoted-printable, which is encoded chunk by chunk, is not modelled."
},
"C101": {
"note": "Holds for _read_single_multipart in a loop, with the boundary as bytes, on received data (C101_read_partial; C101_headers: which headers a part has; C101_base64: base64 never has the boundary in it). Violated: read_multipart passes the boundary as str, so that bytes + str raises TypeError; it never yields a part (C101_read_multipart_violated)."
},
"C102": {
"note": "Violated behind a redirect: the Host header of the first url stays in the headers and is sent to the other host (C102_violated, C102_redirect_violated). Holds for the first request and as long as no Host header was sent before."
},
"C103": {
"note": "Violated behind a redirect: the Cookie header of the first request stays in the headers and is sent to any other host."
},
"C104": {
"note": "Violated by _request2, which never removes the header, and by _request if there are two values, since del removes only the first. Holds for _request with at most one value and no user info in urls."
},
"C105": {
"note": "Violated: of n allowed redirects n - 1 are followed; with a negative number there is no end. Holds: never more than n requests (1 if n is 0)."
},
"C107": {
"note": "Violated: del removes only the first of several values, and 'chunked' is added beside a given coding, so it stays on the request behind the redirect."
},
"C108": {
"note": "Violated: another Transfer-Encoding is kept beside the Content-Length."
},
"C109": {
"note": "Violated for relative references: their scheme is None, which is not among 'http', 'https', ''; an error is raised."
},
"C11": {
"note": "Proved by refinement to a write-once cell over all histories."
},
"C111": {
"note": "Violated: a control frame between the pieces of a message is measured by the size left for the message (1009). Proved: nothing larger is delivered, and messages in one frame up to max_size are."
},
"C112": {
"note": "Violated: a ping received while closing makes transfer_data wait for close_connection, which waits for transfer_data; the Close of the peer is never read. Proved: the exact sequence of what an open connection writes."
},
"C113": {
"note": "Violated: clients call set_resultd_if_pending, which does not exist; servers look up a bytearray, which is not hashable: no ping is ever answered. Proved: a client ignores pongs it did not ask for."
},
"C114": {
"note": "Violated: reasons of more than 123 bytes are sent and refused by the peer; 1013 is taken although documented otherwise. Proved: transfer and echo of codes and shorter reasons, and no forbidden code is sent in any execution."
},
"C115": {
"note": "Violated: pings, pongs with more than 125 bytes (and Close with a long reason) are written. Proved for users who keep the sizes, in all executions."
},
"C116": {
"note": "Violated: fail_connection writes its Close without the lock, and a writer which waits for it writes behind it. Proved: in all executions with one writer at a time, and with several unless the connection is failed while one waits."
},
"C117": {
"note": "Violated: wait_for_connection_lost has its test inverted and always says that the connection is lost, so it is never aborted; a client without ssl never closes behind a received Close. Proved: it is closed in the other cases."
},
"C118": {
"note": "Subprotocols agree; additional headers which are added to those of the handshake break it (shown). Without extensions on one side: see C123."
},
"C119": {
"note": "Violated: any single name in Upgrade is accepted, method, HTTP version and Host are not looked at; valid requests with another protocol before websocket are refused. What is checked is proved, for every layout of the lists."
},
"C12": {
"note": "Proved while the loop runs; when the loop is stopped callbacks of a completed future are dropped (witness)."
},
"C120": {
"note": "Violated: any single name in Upgrade is accepted, a missing Upgrade and an empty subprotocol are an IndexError. Everything else is proved in both directions."
},
"C121": {
"note": "Violated for all servers and requests: the attribute is overwritten with None, and the header would be looked for in itself."
},
"C122": {
"note": "Violated: ties are decided by the order of a set, the list of the server is not its preference, the result of a selector is not checked. Proved: in both, least sum of positions, one is chosen if there is one of both."
},
"C123": {
"note": "Violated: a server never accepts an extension (500), and refuses unknown ones (400). The client's side is proved exactly."
},
"C124": {
"note": "Violated: 500 without Upgrade and for malformed lists, shutdown and aborts of the request processor are not answered. Statuses of the other requests are proved."
},
"C125": {
"note": "Violated: credentials raise AttributeError, a given host is a second one, international hosts are not encoded. Everything else is proved."
},
"C126": {
"note": "Refinement, for every equality of objects."
},
"C127": {
"note": "Right as long as nothing is popped during an iteration and no set with dead references is xor-ed in (always for WeakMap); otherwise wrong, even negative."
},
"C128": {
"note": "Proved for WeakSet and WeakMap; WeakKeyDictionary keeps dead keys after a popitem during an iteration, because the loop of _commit_removals returns at a missing key."
},
"C129": {
"note": "Exact, for every schedule of deaths."
},
"C13": {
"note": "Proved for cancel (except while awaiting only completion) and cancel_with (except when the awaited future is already done); both exceptions are witnessed as violations."
},
"C130": {
"note": "New sets and in place with another set are exact; s -= s and s ^= s raise; comparison sees dead references."
},
"C131": {
"note": "Refinement; what is excepted is C132 and C135."
},
"C132": {
"note": "Right if nothing dies during an iteration; otherwise the end of the iteration never removes anything, because a WeakHasher is compared by identity with the reference."
},
"C133": {
"note": "Exact for distinct keys and no deaths during iterations; otherwise living items are lost or dead ones kept."
},
"C134": {
"note": "Proved for WeakSet, WeakMap, WeakKeyDictionary; a copy of a WeakItemDictionary is created with the callbacks of the original."
},
"C135": {
"note": "Proved for WeakValueDictionary; HybridValueDictionary raises TypeError for every missing key."
},
"C136": {
"note": "Executor threads: started once, in order, by the thread a call was given to; all interleavings."
},
"C137": {
"note": "Outcome of the own function only; done futures are final."
},
"C138": {
"note": "Also: when nothing is left to do, no thread is in use (C138_given_back)."
},
"C139": {
"note": "Violated: cancelling a running call (or releasing a ClaimedExecutor whose thread runs one) puts a thread which still runs a function among the free ones; the next call waits behind it. Partial: holds if neither happens."
},
"C14": {
"note": "Proved: non-interference, mirroring, completion and finality, over all interleavings of user calls and loop steps."
},
"C140": {
"note": "Violated: release raises AttributeError whenever the queue is not empty (_shrink_queue asks pairs for is_done). Partial: empty queue."
},
"C141": {
"note": "Violated: a call given to a ClaimedExecutor after release_executors or cancel_executors is never settled. Partial: holds otherwise, with a bound on the steps."
},
"C142": {
"note": "Violated: a call which its thread has taken, but not started, is started after cancel_executors. Partial: calls in queues."
},
"C143": {
"note": "Violated: every second firing does nothing, and a free thread is never released while another one runs and few are to be kept. Partial: all free threads are released after 2n+2 firings if nothing runs."
},
"C144": {
"note": "all runs"
},
"C145": {
"note": "violated: after the block swallows the interruption the timer is not set again (C145_violated, for all timeouts); C145_armed_partial / C145_in_time_partial: until the timer strikes"
},
"C146": {
"note": "violated: after a swallowed interruption a cancellation by others becomes TimeoutError (C146_violated); the exact condition is C146_exit_partial; C146_silent_after holds fully"
},
"C147": {
"note": "all runs"
},
"C148": {
"note": "violated on a stopped loop, where 1 is answered and nothing set (C148_violated); C148_ends_partial on a running loop"
},
"C149": {
"note": "violated: cancel in another thread makes a wait raise InvalidStateError (C149_invalid_state_violated), racing setters give different outcomes (C149_two_outcomes_violated, C149_confused_violated); C149_outcome_partial: if add_done_callback, remove_done_callback, cancel, and check-and-mark are not interleaved (Orderly); C149_done_stays: all runs"
},
"C15": {
"note": "Lock is the case size = 1. Holders are computed from what the operations returned."
},
"C150": {
"note": "violated in three ways (add, cancel, remove); C150_no_lost_wakeup_partial for Orderly runs"
},
"C151": {
"note": "violated: TimeoutError although the future is done (C151_violated); C151_timed_out_partial: only if the loop has not run the callback; C151_no_callback_left: all runs"
},
"C152": {
"note": "violated for wait and for set_result; C152_no_index_error_partial for Orderly runs"
},
"C153": {
"note": "violated: cancelled while entering, in the last section, while leaving, or before returning in the executor the task never ends (C153_*_violated); C153_not_lost_partial: cancelled only while the block waits for a future or after it was given back (Calm)"
},
"C154": {
"note": "C154_body_in_executor: all runs; violated for the code behind the block if cancelled before its first await (C154_violated); C154_after_on_loop_partial for Calm runs"
},
"C155": {
"note": "violated: cancelled before the first await nothing is cancelled (C155_first_section_violated), one cancellation may be thrown any number of times (C155_repeated_violated); C155_waiting_partial, C155_computing_partial"
},
"C156": {
"note": "violated: _schedule_callbacks is called with the context manager, so a task which ends in the executor never tells its waiters (C156_violated, for all such runs); C156_told_partial for Calm runs"
},
"C157": {
"note": "Proved for every deflater; that the stored data inflates to the contents is a property of zlib."
},
"C158": {
"note": "Exact condition proved; more than 65535 files raise struct.error after everything was sent, since the count of the last record is not masked by 0xffff."
},
"C159": {
"note": "Years outside 1980-2107 wrap around silently."
},
"C16": {
"note": "Order among calls that had to wait; a call that gets in at once does so only when nobody waits. For size >= 2 a newcomer may enter while a granted call has not run yet (its slot is reserved)."
},
"C160": {
"note": "The descriptor has 8 byte sizes, but the local header lacks the zip64 extra field which announces them (APPNOTE 4.3.9.2)."
},
"C164": {
"note": "Holds for filters which do not distinguish alike frames; otherwise only the frames of the first round are asked, and all rounds are dropped or kept together."
},
"C165": {
"note": "Polite writers (not before the connection is made, not while is_closing()) never leak, whatever the engine. Violated otherwise: when the peer's close notify ends the session the pipe goes back to UNWRAPPED but the layer keeps it, so as long as the underlying transport still has bytes buffered, anything written goes out in plaintext; so does what is written before connection_made."
},
"C166": {
"note": "For all runs which do not hang; engines whose write takes all or raises (as the docstring of feed_application_data states)."
},
"C167": {
"note": "Prefix always, equality unless aborted, for a calm transport. Violated: an ssl error after successful reads of the same feed_ssl_data drops the chunks already decrypted; data ahead of the first scheduled callback is passed through raw."
},
"C168": {
"note": "Violated: abort() during the handshake ends in connection_lost(None), which sets the result of the waiter, so the connecting side takes the connection as established."
},
"C169": {
"note": "For call_connection_made = True and a calm transport (made once, data and eof only after the first scheduled callback and not while closing)."
},
"C17": {
"note": "The code violates the property in two windows; both witnesses are proved, including that no call ever obtains the lock afterwards. Proved for all histories outside these windows."
},
"C170": {
"note": "For engines which take every write. Violated: a write refused with WANT_READ in the wrapped state is not tried again when data arrives; data_received never looks at the backlog."
},
"C174": {
"note": "Whole keys in one read are proved to be read back and processed; a key split over two reads loses its escape character and the rest becomes text (C174_split_read_violated, for every state), and so does an unknown key."
},
"C176": {
"note": "Nearest entries, walk over all entries, back then forward: proved. Forward then back holds unless forward ran past the newest entry: then the cursor stays on the newest while nothing is shown, and going back skips it (C176_newest_skipped_violated, for every history with a newest entry)."
},
"C177": {
"note": "Holds for all runs in which no tab is pressed that changes nothing after an edit; execute_tab then clears the mark and home, up replace the text (C177_edits_lost_violated)."
},
"C178": {
"note": "Holds for uses which write at the end or after a read, read amounts which are not negative and move inside what was written; a negative amount or a move past the end shows bytes of an earlier session, and moving to the end does not move."
},
"C179": {
"note": "Holds for the same uses; writing over what was written adds to the length although nothing is added."
},
"C18": {
"note": "Violated by the code for two waiting consumers (same element twice), for two consumers (overtaking) and for bounded queues (evicted element, consumer passed over); all four witnesses proved. Proved for a single consumer (order) and for consumers that do not wait at the same time (exactly once)."
},
"C180": {
"note": "Holds if each read is awaited before the next use; a close while the first read after a close waits is lost, and two reads given after a close both begin at the start."
},
"C181": {
"note": "Never twice; released at the latest when the object is collected, for claimed executors and if no call waits. A thread started outside of an event loop is not stopped by detach; a file collected while a call waits keeps its executor."
},
"C185": {
"note": "Holds if the transport is not aborted; aborting it after its pipe was closed removes the callbacks of its old number."
},
"C186": {
"note": "Proved if stdout or stderr is a pipe. Violated if neither is: nothing closes the process, so its end is never noticed and wait never ends."
},
"C188": {
"note": "Proved for runs in which the last pipe is lost after the process ended. Violated otherwise: losing the last output closes the process, which kills it."
},
"C189": {
"note": "Calls which do not have to wait end at once. Violated for calls which have to wait: the future is given the process as its loop, which can not schedule the callbacks, so they never end."
},
"C19": {
"note": "Violated: an element is lost, later consumers get CancelledError; both proved. Proved: at most one element is lost per cancelled consumer."
},
"C191": {
"note": "Every sequence; see Semaphore.lean for the model of the calls."
},
"C192": {
"note": "Every sequence of operations."
},
"C193": {
"note": "Proved for sequences in which calls come only when the loop has nothing to resume. Violated in general: a call which comes between a release and the resumption of the woken one takes what that one was woken for, and this can go on without end."
},
"C194": {
"note": "One reading task."
},
"C195": {
"note": "One reading task."
},
"C196": {
"note": "One reading task; the bound needs a transport which delivers nothing while it is paused."
},
"C197": {
"note": "Proved if no task is cancelled while it waits for the lock. Violated: when a notified call is cancelled while it takes the lock again, a future is added to the lock and the block which is left releases the future of another one, so a third task gets the lock while it is held."
},
"C198": {
"note": "Every state and every sequence."
},
"C199": {
"note": "All parties, all sequences including cancellations, resets and aborts."
},
"C20": {
"note": "Violated for await / get_result (deadlock), AsyncLifoQueue, and a producer cancelled after being woken; proved for the other retrieval methods."
},
"C200": {
"note": "All parties, all sequences including cancellations, resets and aborts."
},
"C201": {
"note": "Proved without cancellations. Violated: a cancelled call lowers the count, so the next one gets an index which is taken."
},
"C202": {
"note": "Proved: the results are those of the different futures, in some order, and an exception is the one of a failed future. Violated: the order of the arguments, the number of results for repeated arguments and the first exception."
},
"C203": {
"note": "Proved: the two sets, and that waiting ends. Violated: waiting for the first exception ends at the first future which is done."
},
"C204": {
"note": "Violated: a call made after close returns at once although connections are open (early); a cancelled waiter makes set_result raise, so the waiters after it are never told (cancelled); a connection of which the task did not run yet is not counted (in_flight). Without cancellations: exactly once, in that moment, for calls made while open."
},
"C206": {
"note": "The transports are made by the tasks of the connections; the protocol factory does not fail."
},
"C207": {
"note": "Violated: the loop goes on after the failure, so up to backlog retries are scheduled in one tick."
},
"C208": {
"note": "Violated: start of a closed server sets serving, then raises TypeError."
},
"C209": {
"note": "Violated for newlines (the dot of the pattern does not match them) and for encodings which do not contain ASCII (the base 64 text is decoded with the encoding). Proved for all encodings which contain ASCII."
},
"C21": {
"note": "Violated by get_result (inherited FIFO version); proved for the other methods."
},
"C210": {
"note": "Violated: the long s is folded to s; base 64 is not decoded strictly, so anything behind the padding is accepted."
},
"C211": {
"note": "Violated: the timeout is written without its fraction, so no timeout which is not whole is read back."
},
"C212": {
"note": "Violated: the pattern of a key allows commas, so a parameter without a value hides the next one unless a blank is between."
},
"C213": {
"note": "The registry of the selector refines two independent maps of readers and writers, for every history."
},
"C214": {
"note": "Removed, replaced and cancelled handles never run; reported events run exactly the live handles in order, if nothing else waits and no descriptor is reported twice (as selectors do)."
},
"C215": {
"note": "Every interleaving of one socket's receive calls."
},
"C216": {
"note": "Violated: a second call on the same socket replaces the callback of the first, which is never completed. Proved for calls which follow one another."
},
"C217": {
"note": "Violated for memoryviews with items of more than one byte, in two ways. Proved for views of bytes and calls which follow one another."
},
"C218": {
"note": "Violated: the condition is inverted, so nothing is closed if there is something to close. Proved: closing by the finalizer."
},
"C219": {
"note": "For all graphs and all orders of popping; spec by inductive predicates."
},
"C22": {
"note": "All histories of set, clear, waiting calls, cancellations and loop steps."
},
"C220": {
"note": "For every encoding whose bytes are bytes; the reader of the statement is written independently."
},
"C221": {
"note": "Violated by calls which raise after the flag was set (a file with a file name which is not a string). Proved: as long as all calls return, the flag is set exactly if a field needs it; which calls raise."
},
"C222": {
"note": "Violated: numbers and sequences can be sent urlencoded, but not beside a file; files opened by their descriptor cannot be sent although they got a file name. Proved for strings, bytes and other files."
},
"C223": {
"note": "Violated: the file name of the field is given to the payload only beside a content type, where it is not needed; so nothing is guessed from it. Proved for given content types, strings and names of files."
},
"C224": {
"note": "Violated by MultipartWriter.append: the default content type stays beside the given one. Proved for the parts of forms."
},
"C225": {
"note": "All contents, any lexer of the words which consumes at least one character; flags of a whole content."
},
"C226": {
"note": "Line and column hold for all tokens. A token which closes what is open at the end of the content is put to the begin of the last token instead of its end."
},
"C227": {
"note": "Proved for contents in which no format string begins. In a format string a layer which is left open is never closed and the layer of the code ends at the quote."
},
"C228": {
"note": "What is found contains the token, and it is found if no layer is in another one. A token after an inner layer is not found, and for three layers the one in the middle is."
},
"C229": {
"note": "All contents and all indexes."
},
"C23": {
"note": "Never both, and done = completed, hold for all histories. Never neither holds unless a popping waiter is cancelled and still registered when a completion is processed; then the future is lost (C23_lost_violated). Also two popping waiters receive the same future (C23_handed_out_twice)."
},
"C230": {
"note": "All lists of words, all strings."
},
"C231": {
"note": "The pattern is run as a backtracking matcher (modelled in Regex.lean, greedy and lazy loops, captures) for every text; which parts a text is cut into after the path is proved from the text alone."
},
"C232": {
"note": "Proved whenever a host is found at all; violated by names of one label, names with underscores, ports of one digit, 0.0.0.0 (they become part of the path) and mailto urls (witnesses)."
},
"C233": {
"note": "Proved for relative urls and for urls with a scheme and a host whose parts read back alone; the code violates it for urls without a scheme, paths whose first part is empty, ports with leading zeros and empty parts (witnesses)."
},
"C234": {
"note": "Proved for references without scheme and host against bases without a path, and what the code computes in general; violated for every reference with a scheme and another host, for every path behind a path, and for a fragment alone behind a query (families)."
},
"C235": {
"note": "Proved of the name, host, user, password, origin and relative part; violated by parent keeping the fragment and with_name keeping query and fragment, contrary to their documentation."
},
"C236": {
"note": "Proved for all runs without closing; violated: a task cancelled by closing before its first step never enters its coroutine, its waiters and all later ones of that host wait forever (for all continuations)."
},
"C237": {
"note": "Proved for each case of what is known; violated for every expired basket: its addresses are tried before those found anew."
},
"C238": {
"note": "Proved for all lists if the iteration ends normally; violated if the lookup fails after known addresses were tried (for all such lists)."
},
"C239": {
"note": "Fingerprints proved for direct connections, trust with a verifying context for both; violated without any context, behind proxies, for the proxy itself and for names with a dot at the end."
},
"C24": {
"note": "Holds for one adder that does not go on adding after add raised; otherwise violated (C24_violated). Waiting never gets stuck for any adder."
},
"C240": {
"note": "Proved for direct connections and for proxies while the connector is open; violated for every failed response of a proxy after the connector was closed."
},
"C241": {
"note": "Proved if sockets can be made; violated by every address for which no socket can be made."
},
"C242": {
"note": "For every order of events of one exchange, with closings, releases, deletion and detaching."
},
"C243": {
"note": "Proved: kept only if the message permits it (all orders); without cancelled reads, ends and failures also only after the whole response arrived. Violated: a cancelled read keeps the connection with the rest outstanding, and a response which comes before the request was written keeps it and cancels the writer."
},
"C244": {
"note": "Violated: if anything of the body arrives after the head was read the connection is closed, as data_received ends the stream before it clears _payload_stream. Proved where the whole body is there before, or there is none."
},
"C245": {
"note": "Proved: bytes given by a read are the body, and reads after one that gave it give it again. Violated: reads after a cancelled or failed one give None."
},
"C246": {
"note": "Proved without cancelled reads, ends and failures. Violated after a cancelled read: at_eof is set, so late bytes do not make should_close true."
},
"C247": {
"note": "Proved for connections lost with an exception. Violated: an end in the middle of the body, or the end of a body that lasts until the end, keeps the connection."
},
"C248": {
"note": "Proved: at most one runner; calls return after the loop runs as long as none raised; calls can end as long as .run did not give runner to another thread. Violated by both races."
},
"C249": {
"note": "Proved for contexts entered once, after the loop runs. Violated by contexts entered again and by blocks entered before the loop runs."
},
"C25": {
"note": "Violated: a failure processed before the body ends is dropped when nothing is left to wait for; and one not yet processed when the body is cancelled. The partial theorem says these are the only ways."
},
"C250": {
"note": "The order is proved for all executions, getting in as long as the loop is not stopped and does not wait for itself. Violated otherwise."
},
"C251": {
"note": "The order is proved for all executions; that all can be run as long as it is not stopped, and those accepted before the stop if it is. Violated for those accepted while it ends."
},
"C254": {
"note": "Violated: send_to without an address on an unbound transport closes it (C254_unaddressed_send_kills_transport_violated, for every state with nothing waiting), and when queued it takes the datagrams behind it along. Proved in part: with addresses named and OSErrors only the transport stays open."
},
"C256": {
"note": "Violated: _force_close removes the writer only if something waits, therefore the failure of the last waiting datagram, or an abort after a refused one, closes the socket with its writer registered (for all continuations without a writable event). Proved in part: the reader is always removed, and the writer too if no waiting datagram failed."
},
"C258": {
"note": "Violated: the writer left registered tells connection_lost(None) before the scheduled call with the exception (for all continuations). Proved in part: exact if no waiting datagram failed before."
},
"C26": {
"note": "All histories; callbacks that schedule and cancel are covered, as what they do are operations between two steps of the loop."
},
"C261": {
"note": "Violated: the code compares the received address with itself, so a wait for an address ends with the reader of any other address (every state, every pair of addresses). Proved in part: addresses known before, one peer only, answers were heard from."
},
"C262": {
"note": "Violated: connection_lost does not wake waits, and waits begun later wait as well (for all continuations without a datagram or timeout). Proved in part: a datagram or the timeout ends a wait, readers are told."
},
"C264": {
"note": "Violated: lifetime_handler writes the exception of a raising handler and returns, leaving the connection open and unregistered. Proved for connections whose handler does not raise."
},
"C265": {
"note": "Violated through C264: the server does not know the connection any more. Proved: no handler is left, and everything is closed if no handler raised; late requests are refused; the server is closed for good."
},
"C266": {
"note": "Violated: is_serving is asked before an asynchronous request processor is awaited, and connection_open opens a web socket closed meanwhile. Proved without asynchronous processors; such late handlers are waited for."
},
"C267": {
"note": "Violated: is_ssl compares the deprecated parameter with None, its default is an ellipsis. Proved: a secure server says so."
},
"C269": {
"note": "Violated: the timer only looks at its waiter, which is set by a callback on the future's loop; a future completed before the timer is due times out if the callback did not run yet. Proved once the callback has run, and for waits without timeout."
},
"C27": {
"note": "All histories and all clock readings; the timer heap is used only through the least deadline being on top."
},
"C270": {
"note": "Violated: the handle is cancelled only when the wait is interrupted. Proved for the other ends."
},
"C271": {
"note": "Violated: add_done_callback reads the state and appends in two steps; a future completed in between never calls the callback. Proved for callbacks added in time and for waits with a timeout."
},
"C273": {
"note": "Violated: the constructor schedules loop.add_reader itself, which does not look whether the transport was closed or aborted in connection_made; the reader stays on a closed descriptor for ever. Proved when it is not closed before the reader was added."
},
"C274": {
"note": "Violated the same way while something waits to be written. Proved when the reader was added before."
},
"C275": {
"note": "Violated: pausing in connection_made is undone by the scheduled add_reader. Proved when paused later; resuming and idempotence proved."
},
"C276": {
"note": "Violated: resume_reading adds the reader behind the end of the stream. Proved as long as nothing is resumed."
},
"C28": {
"note": "Holds for timers due when an iteration begins, once that iteration's ready handles are processed; violated in general: the loop drains its ready queue until it is empty, so a callback that keeps scheduling itself starves timers for ever (C28_starved_violated, for every n)."
},
"C280": {
"note": "Equality is exact and respected by the hashes; the hash of a result is the constant True (violated)."
},
"C281": {
"note": "Violated: names are sorted as written; equal headers differing in case freeze to different orders. Proved for names in lower case."
},
"C282": {
"note": "Violated by the cached hash of changed headers (and by C281's order). Proved for unchanged proxies with names in lower case."
},
"C283": {
"note": "Violated: against plain texts the hash law and transitivity fail, != is case sensitive, other objects raise. Proved among strings that ignore case."
},
"C284": {
"note": "Violated: <= and >= relate no two different handles due at the same time. Proved for <, >, ==, != and hashes."
},
"C286": {
"note": "Violated: a refused connection (or any OSError) of one server fails the query unless TLS is preferred. Proved when the servers before only time out, give nothing or lack TLS."
},
"C287": {
"note": "Violated: with questions asked one by one, a question the first answering server leaves open is put to no other. Proved: what is yielded are answers of one server, at least one."
},
"C288": {
"note": "Violated: with fewer attempts than servers a permanent failure is called temporary. Proved otherwise, in both directions."
},
"C29": {
"note": "The code does not have the property (six witnesses: cancel, reschedule or call_now from a cycle function, a cycler created by another thread, adding or removing functions during a cycle). Proved when cancel, call_now and reschedule are not called by cycle functions and the cycler was created by the loop's thread; the order of the functions held is proved without conditions."
},
"C290": {
"note": "Violated for raw sockets, which are given when any type is asked for and refused by themselves. Proved for datagrams and streams."
},
"C291": {
"note": "Violated: neither the names of records nor transaction ids are compared. Proved: each address stands in a record of the right type in an answer to a question about a candidate."
},
"C292": {
"note": "Violated: a candidate for which no server answers fails the lookup. Proved for candidates without addresses."
},
"C293": {
"note": "Violated: a name that cannot be read is not an error when required; the first record is taken whatever its type; silence is an error though no name is required. Proved otherwise."
},
"C294": {
"note": "violated: a transition from one decoration to another emits only the second, so both are drawn (C294_decorations_add_up_violated); right when decorations do not change into others, colours and the end are always right"
},
"C297": {
"note": "violated: end_block stays set behind a broken code, the next part is then taken for the inside of a code (C297_text_taken_for_a_code_violated); right for whole codes, single parts and highlighted text"
},
"C298": {
"note": "violated: text of types without a detail is not escaped beside html (C298_not_escaped_violated); a line break inside of a text is not <br> (C298_line_break_stays_violated)"
},
"C299": {
"note": "violated: a detail can not be removed from a type without a parent, nor after set_highlight_html_all"
},
"C30": {
"note": "The code does not have the property (two blocked consumers obtain the same element, cancel raises AttributeError, repr appends to the queue). Proved for one blocked consumer at a time and a queue that is not formatted; that no consumer is blocked beside a queued element is proved without conditions."
},
"C302": {
"note": "violated: with more descriptors than the limit of the system the waking socket is never reported by its descriptor; the socket object is, only when nothing else is ready (C302_not_reported_violated, C302_socket_instead_violated)"
},
"C303": {
"note": "violated: under another variable the placeholder stays (C303_other_name_violated), a second export is not seen (C303_exported_again_violated), nor is one behind a callback which raises (C303_behind_raising_violated)"
},
"C304": {
"note": "right without raising callbacks; violated behind one which raises (C304_behind_raising_violated)"
},
"C307": {
"note": "violated: an ellipsis statement in the last line is taken for a prompt and dropped (C307_ellipsis_lost_violated); right for texts with an unprompted line in their middle and single lines which begin with none of dot, greater than, I, space"
},
"C308": {
"note": "violated: keyword only parameters with a default before ones without make analyzing raise KeyError (C308_keyword_defaults_violated)"
},
"C309": {
"note": "violated: reserved parameters are counted when there is a default (C309_method_violated), and so are parameters which are not positional (C309_others_counted_violated)"
},
"C31": {
"note": "Proved for every operation sequence, every behaviour of the socket and both variants of _write_ready. Assumes callers do not change a bytearray after passing it to write (the code keeps a reference)."
},
"C311": {
"note": "sound; violated the other way: with variable parameters a type is never told to be instanceable (C311_variable_parameters_violated)"
},
"C314": {
"note": "stable case folding: gives no upper case, keeps being numeric, folds no further"
},
"C315": {
"note": "proved for words of at least two letters; violated for words of a single letter, which are taken for one (C315_single_letters_violated)"
},
"C317": {
"note": "violated: while no info is set at all, None is given and not the default (C317_default_violated)"
},
"C319": {
"note": "from the alternative name to the first; violated the other way: an info set under its first name is not found under the alternative one (C319_first_name_violated)"
},
"C32": {
"note": "Proved for every operation sequence. C32_not_stuck adds that a paused protocol always has bytes to come out."
},
"C320": {
"note": "violated for a getter which gives Ellipsis: it is called at every access (C320_ellipsis_violated)"
},
"C327": {
"note": "proved if both modes tell the same, or the first finds many statements; violated if they tell different errors: more is waited for (C327_different_violated)"
},
"C328": {
"note": "violated: white space at the ends of lines is dropped, also in strings over many lines (C328_trailing_violated)"
},
"C329": {
"note": "violated: defaults of keyword only parameters are lost (C329_keyword_defaults_violated)"
},
"C33": {
"note": "Proved for one consumer, with any interleaving of data, completion, resumption and cancellation. With two consumers the code does not have the property (witnesses: second awaiter gets nothing, two iterators share one chunk)."
},
"C330": {
"note": "violated: static methods of types in the type become plain functions (C330_static_violated)"
},
"C331": {
"note": "unless a module named module_path is loaded, see C332"
},
"C332": {
"note": "violated: the literal module_path is looked up instead of the path, so another module is made (C332_again_violated), or one named so is taken for all types (C332_literal_violated)"
},
"C333": {
"note": "for two or more causes; violated for a single one, which is not validated (C333_single_violated)"
},
"C335": {
"note": "Violated: only methods are checked. Of two properties or two class methods the first is taken silently, and a constant hides a method. The partial theorem covers methods whose parameters match."
},
"C336": {
"note": "Violated: implementations are transferred for methods and placeholders only, so an expected property in front of its implementation is reported as never implemented, while it works in the other order."
},
"C339": {
"note": "Violated for properties and instance attributes: NotImplemented is no get-descriptor, so these are refused as mismatching before the transfer."
},
"C34": {
"note": "Proved for every operation sequence with any number of consumers."
},
"C341": {
"note": "Violated: a method the type expects with Theory is reported as never implemented though its base type implements it. A constant of the base type cannot be changed, by design."
},
"C343": {
"note": "Violated: the collecting loop remembers nothing, so an exception raised from itself (raise e from e), or any cycle of causes, is followed for ever while the list grows. Exceptions which do not refer to themselves are rendered."
},
"C344": {
"note": "Violated: only a group which is the direct cause is expanded. A group rendered itself, one which was being handled, and one inside another group are shown as plain exceptions without their causes."
},
"C349": {
"note": "Violated: after leaving, entering gives None without an error."
},
"C35": {
"note": "Proved for all operation histories: invariant, key-by-key answers and order, construction from pairs."
},
"C350": {
"note": "Violated: the coroutine stays in the manager after it failed, so awaiting again raises RuntimeError (cannot reuse already awaited coroutine) instead of the failure."
},
"C352": {
"note": "Violated: only GeneratorExit is let through, so a cancellation thrown into the task is caught and the task carries on."
},
"C355": {
"note": "Violated: the package of a module at the top is the empty text, not None, so it is taken for a package; without a list of public names none of its variables is there."
},
"C357": {
"note": "Violated: the index is increased before the position is computed, so each other element is told with its present position, and every move to the front raises TypeError, as list.index is called instead of insert."
},
"C359": {
"note": "Violated if the keys are taken first, as CPython does when it merges a mapping which is not a dict (outside of the repository): every key gets the last value."
},
"C36": {
"note": "Order, membership, index, pop and contents are proved for all histories over any linear order. Strictness fails: extend keeps equal elements (C36_duplicates_violated); strictness is proved without extend. Keyed lookup is proved for key functions which agree with the order. Extending a list with itself never ends (C36_extend_self_violated)."
},
"C360": {
"note": "Violated: two views are compared by their dictionaries, so keys matter for views of values and values for views of keys."
},
"C363": {
"note": "Violated while a loop is starting: it counts as stopped between its start and its running, and the thread may be linked to another loop for good."
},
"C365": {
"note": "Violated: a loop which was not started yet or which is a daemon is not found by other threads, which make further ones."
},
"C367": {
"note": "Violated for a loop which is stopped or starting: it is set without an error and never got."
},
"C369": {
"note": "Violated for generators made coroutines by to_coroutine, which are both."
},
"C37": {
"note": "Proved for all overridden operations, any case folding. Membership tests with plain names, !=, comparison with other str sub-types and construction from a dict violate it."
},
"C370": {
"note": "Violated: a method of a type, as methodize makes, has no code, so AttributeError is raised."
},
"C372": {
"note": "Violated: all types share one set, so every method like is an instance of each of them."
},
"C373": {
"note": "Parts are taken as the highlighter gives them: a line break is a part alone. part[:-2] would lose a character otherwise (example)."
},
"C375": {
"note": "A line which fills two or more rows exactly is overcounted: last_line_length is set to line_length instead of content_width. Clearing then erases rows above the input. Proved: right for all other lines, never too few."
},
"C38": {
"note": "Violated: the digits 8 and 9 of escapes are read back as 0 and 1 (so '\u00e9' comes back as '\u00e1', in every text around it), a '+' which is not quoted comes back as a space, and in queries '+', '&' and '=' come back as escapes. C38_partial: every text of characters outside these cases comes back, for every ASCII safe and protected set and for each pairing of the query flags."
},
"C381": {
"note": "If the last row which changed continues in the next one it fills the terminal, the cursor stays in the last column there, and the jump to the left which assumes it is behind goes one column too far. Proved: exactly then one column left, else right."
},
"C384": {
"note": "Proved for hooks which neither load extensions nor add hooks. Violated otherwise: the loop goes over the indexes of the list as it was before, so a hook which loads an extension for which an earlier hook waits makes the loop raise an IndexError, and a hook whose requirements are all loaded is never called."
},
"C386": {
"note": "Violated: attributes of both classes are overwritten although the documentation tells otherwise; also the built-in class methods of object are bound anew at each access, so an own __init_subclass__ of the old class is lost even if the new class defines none."
},
"C39": {
"note": "All texts, safe and protected sets and both modes. quote returns for ASCII sets (C39_returns); with safe characters which are not ASCII it can raise (C39_raises), then there is no output."
},
"C393": {
"note": "Violated: str is called unprotected on text parameters and on what repr gives, so a subclass of str whose __str__ raises makes the representing raise. Proved if no such text is given."
},
"C395": {
"note": "violated: an input added again under its name keeps the old position and may be deleted at once; an input as big as the limit deletes everything"
},
"C396": {
"note": "violated: the size is only checked when the number of inputs is a multiple of 17, between it may be as big as wanted"
},
"C398": {
"note": "violated: the end offset of an error which ends on a later line is used for the first line, so that marks are outside of it or missing"
},
"C40": {
"note": "All lists of parts. C40_walk gives the whole result: a walk from the root in which '.' stays and '..' goes back but not beyond the root; a '.' at the end leaves an empty last part (the slash at the end), and the root alone is no path. The model keeps the index arithmetic of the in-place deletions and shows that no index error occurs."
},
"C406": {
"note": "violated: hasattr is used on every variable of the frame, so a property raising something else than AttributeError makes the representing raise; so does a __dir__ which gives no names"
},
"C407": {
"note": "violated: code which awaits and is interrupted before the event loop got to it runs nevertheless and sets the task of the console, so the next input gives its result instead of its own value"
},
"C408": {
"note": "violated: SystemExit raised by code which awaits nothing is caught by run_code_callback and written like any exception"
},
"C409": {
"note": "violated: the identifier is left out while the console is the newest, so the inputs of a console and of a later one have the same file names"
},
"C41": {
"note": "Violated: '=' in keys is not escaped (every key a=b with value v comes back as key a with value b=v), and values which do not survive quoting change. Partial: every dictionary without '=' in keys, with characters which survive quoting (encoded) or without '&' (not encoded) comes back with the same keys and values; the order of the keys becomes the sorted one."
},
"C412": {
"note": "violated: the loop of interact has no break, what writes the exit message is never reached"
},
"C415": {
"note": "violated: is_up_to_date is never called, as long as anything holds the info the old content is given"
},
"C416": {
"note": "violated: entered again while entered it is exited by the inner exit, the outer one raises KeyError"
},
"C418": {
"note": "A process without all three pipes never counts as lost by its end; one with all three counts as lost at its end while none of its pipes is lost, for _try_finish returns if a pipe is missing or disconnected instead of if it is connected. Proved: when exactly it counts as lost."
},
"C419": {
"note": "If telling the loss raises, the pipe never counts as disconnected; data of a lost pipe raises. Proved: told once, data in order, disconnected if telling did not raise."
},
"C42": {
"note": "Violated: hosts of different kinds always compare equal, and equality is not transitive. Partial: hosts of the same kind are equal exactly if all parts are. Host parts are compared by their decoded text; idna decoding is not modelled."
},
"C421": {
"note": "If tty.setraw raises, or tcsetattr does in the finally, reading stays without blocking. Proved: restored if the terminal can be set."
},
"C422": {
"note": "Both characters of new lines have one name, and the text of an escape has the name of what it escapes. Proved: names of keys, and different names among printable and among unprintable inputs."
},
"C423": {
"note": "name_property looks up class_name of the class instead of its own, module_property calls its function without the instance. Proved: the module set last."
},
"C424": {
"note": "Setting and deleting through the class replaces the property, as Python does for descriptors. Proved: reading, and setting and deleting through instances."
},
"C426": {
"note": "A virtual frame which has only a tracing function keeps it, for it counts as having no variables. Proved for frames made by proxying."
},
"C427": {
"note": "Of a virtual proxy asked for with variables the very same object is given, so dropping its variables drops those of the first. Proved for proxies which are not virtual."
},
"C43": {
"note": "Query building followed by result parsing echoes every field; QueryOk demands 16/32 bit field values and labels of 1..63 bytes, as the format does. build_query_data raises OverflowError beyond."
},
"C431": {
"note": "Mappings which are not dictionaries become the array of their keys, their values are lost. Proved without them, and when TypeError is raised."
},
"C432": {
"note": "1012, registered as the restart of the service, is said to be reserved. Proved for all other codes."
},
"C433": {
"note": "Calls are proved alike after any history; violated for the documentation: one which was set, and annotations, are not copied."
},
"C434": {
"note": "Proved for histories which change no dictionary of defaults inside; violated otherwise: __kwdefaults__ is the same dictionary in the copy."
},
"C44": {
"note": "Violated: a compression pointer to itself or back into the same name (C00C at offset 12) makes the parser loop forever, for every such message. Partial: messages without pointer bytes always end, and a message ends within length+1 rounds or never."
},
"C45": {
"note": "Labels of ASCII bytes without 'xn--' round trip; violated for the single label '@', which is written escaped but parsed as the root. IDNA labels are not modelled."
},
"C46": {
"note": "Every address value; the text forms are those produce_ip_*_string writes."
},
"C47": {
"note": "Every list of addresses and every sort list made of elements (see C71)."
},
"C48": {
"note": "Violated: the search domain is put in front of the name instead of behind it. Partial: which names are tried and how many."
},
"C49": {
"note": "Connections, subprotocols, upgrades and extensions, for every layout of the list (spaces, empty elements, quoted values)."
},
"C50": {
"note": "Strings are their bytes in UTF-8. All layouts of header lines, and what write_http_request and write_http_response write; the cut at the empty line is that of an ideal read_until (C02)."
},
"C51": {
"note": "Proved over all histories of connect (split at its await), release, close, detach, clean up and closing of the connector, with socket events in between; the identity of protocols is their creation number."
},
"C52": {
"note": "About pop_available_protocol for all contents, and about connect in all histories."
},
"C53": {
"note": "Violated: the clean up drops expired protocols of connections that are not secure without closing them (C53_clean_up_violated, for every such element; C53_plain_request_violated, a history). Partial: every other step, and the clean up of secure ones."
},
"C54": {
"note": "Partial: for all histories in which every set of cookies comes with a host. Violated for cookies the program sets without one: path and secure flag are ignored."
},
"C55": {
"note": "A rotation is what one generator yields; the start index is stored before anything is yielded."
},
"C56": {
"note": "Violated for names whose path part ends with something like an index (a (1) (5)) and for names with line feeds. Partial: all sequences of all other names; C56_form: all names."
},
"C57": {
"note": "Holds for all waiters but wait_next on a group with nothing pending and wait_first_n with a number above the number of futures; wait_next also propagates None instead of the future."
},
"C58": {
"note": "All histories; what the selector is told to wait is compared with the ready queue and the earliest live timer."
},
"C59": {
"note": "The code does not have the property: reading and writing share the _paused attribute, there is one drain waiter, and the flag survives connection loss (five witnesses). Proved for histories in which these do not meet (Separate)."
},
"C60": {
"note": "The code does not have the property: after a writing pause and resume reading is never resumed (for every continuation), and while writing is paused reading is never paused. Proved when the transport does not pause writing."
},
"C61": {
"note": "copy() and construction from another dictionary are proved; copy.copy raises for every dictionary which is not empty."
},
"C62": {
"note": "Violated: of several undecodable escapes only the last is kept, a truncated escape is dropped, and a '%' not followed by two hex digits raises. Partial: plain text, and a single undecodable escape within plain text, are kept."
},
"C63": {
"note": "Violated: a slash in a part (from %2F) is not escaped when the path is written, so '..%2F..%2Fb' becomes path traversal on the next parse; an empty first part is lost. Partial: normal paths without slashes in parts and without an empty first part."
},
"C64": {
"note": "Messages in which every pointer leads backwards to labels; the reading is the one RFC 1035 4.1.4 describes, and it is unique."
},
"C65": {
"note": "Violated: a compressed name in the record data is read relative to the data instead of the message, and a parsing error raises TypeError. Partial: uncompressed names."
},
"C66": {
"note": "All configurations; sockets and answers are arbitrary."
},
"C67": {
"note": "Every IPv4 and IPv6 address; different addresses have different names."
},
"C68": {
"note": "Violated for the address '::' with a zone. Partial: every other address."
},
"C69": {
"note": "Violated: an element whose address has bits outside its mask selects nothing. Partial: elements without such bits. Masks of N upper bits are proved bit by bit."
},
"C70": {
"note": "Violated: only the first option of a line is read. Partial: lines with one option; what is on behind a file."
},
"C71": {
"note": "Violated: raw strings are put into the sort list and ordering then raises AttributeError. Partial: sort lists made of elements."
},
"C72": {
"note": "Every file content (lines as lists of words)."
},
"C73": {
"note": "Every file content (lines as lists of words)."
},
"C74": {
"note": "Violated: an improper search domain raises ValueError (on import). Partial: files whose search domains are proper names."
},
"C75": {
"note": "Every pair of configurations."
},
"C76": {
"note": "Comment removal and stripping of lines are not modelled."
},
"C77": {
"note": "Violated: a single zero unit is left out too, and of two equally long sequences the second one is left out when the first is at the start. Partial: as many zeros as possible are left out."
},
"C78": {
"note": "Every header text that is accepted; names are read exactly from the texts which are written as them."
},
"C79": {
"note": "Every header text: one round of the loop more than there are characters is enough."
},
"C80": {
"note": "Violated: a comma and a tab are accepted (the set of separators contains the string ', ' of two characters; a tab is removed twice by the symmetric differences). Partial: everything accepted consists of token characters, commas and tabs, and tokens are accepted."
},
"C81": {
"note": "Violated: a semicolon in a value that is not ASCII is not quoted, so a value adds parameters. Partial: values without that, and all values with quote_fields = False."
},
"C82": {
"note": "Violated: with quote_fields = False line breaks are copied. Partial: not with quote_fields = True."
},
"C83": {
"note": "Violated: a quoted value never comes back; an extended value comes back wrong as the charset is passed to unquote as its unsafe parameter. Partial: unquoted tokens."
},
"C84": {
"note": "Violated: from eleven parts on only the first two are joined, as the parts are sorted as text. Partial: up to ten parts in any order."
},
"C85": {
"note": "Violated for every version whose numbers differ: the major version is written twice, HTTP/1.0 as HTTP/1.1. Partial: versions with equal numbers."
},
"C86": {
"note": "All versions, statuses, reasons and headers a response can be written with; strings are their bytes."
},
"C87": {
"note": "Violated: blanks in front of the colon belong to the name, and there are headers with an empty name. Partial: no colon and no line break in names, no line break in values."
},
"C88": {
"note": "Violated: method and path may contain line breaks. Partial: they are not empty and have no blanks; reasons are single lines."
},
"C89": {
"note": "Violated: values with line breaks write further headers. Partial: values without."
},
"C90": {
"note": "Violated: 'chunked' anywhere in the first transfer coding line counts, of several lines only the first counts, contradicting lengths are not refused, payloads of responses with an upgrade header are not read, requests raise AttributeError. Partial: responses with at most the coding chunked and one length."
},
"C91": {
"note": "Violated for payloads read to the end of the connection. Partial: chunks and known lengths."
},
"C92": {
"note": "Violated: close on a second line is not seen, and any option keeps an HTTP/1.0 connection open. Partial: no option, or the single option close or keep-alive."
},
"C93": {
"note": "Violated: should_close ignores unread data once the end of the stream was received, so such a protocol is handed out until the connection is told to be lost. Partial: all but the end of the stream."
},
"C94": {
"note": "Partial: nothing is sent that ended a second ago or earlier, by Max-Age or by Expires read on the clock of the event loop. Violated: Max-Age=0 is still sent until the second is over; Expires (posix time) is compared with the monotonic clock; an invalid Max-Age hides Expires."
},
"C95": {
"note": "Partial, with provisos on earlier settings under the same key. Violated: an old end stays when the cookie is set again without one; an old host-only flag stays when it is set again with a domain; cookies of different paths replace each other; of one name for two domains only one is sent."
},
"C96": {
"note": "Partial: agreement with RFC 6265 5.1.1 for texts whose tokens are of ordinary size and order, and every IMF-fixdate is read back. Violated: ValueError for a day the month does not have; the year in front is taken for the day; full month names are not recognised; too many digits accepted."
},
"C97": {
"note": "Holds for media types whose tokens have no apostrophe and whose quoted strings only escape the quote and the backslash (C97_read_partial). Violated: an apostrophe, which is a tchar of RFC 9110, ends a token and is an error (C97_apostrophe_violated); a quoted pair of any other character keeps its backslash (C97_pair_violated)."
},
"C98": {
"note": "Holds for every boundary which is not a token with an apostrophe in it (C98_boundary_partial). Violated for all those: such a boundary is written unquoted, and only what is in front of the apostrophe is read (C98_apostrophe_violated)."
},
"C99": {
"note": "Holds if the sizes of the payloads are right (C99_size_partial; C99_known says when there is a size, C99_nested is for writers within writers). Violated: a writer which is extended after it was appended to another (C99_stale_violated), and text files, whose size is the one of the file and not of the encoded text (C99_text_violated)."
}
}