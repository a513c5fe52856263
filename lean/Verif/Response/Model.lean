/-! Model of one exchange of the http client: `ClientResponse` (`http_client/client_response.py`) on its `Connection`
(`http_client/connection.py` 159-222), the payload reader and payload stream of its protocol
(`core/protocols_and_transports/protocol.py` 425-660, `payload_stream.py` 173-360) and the writer task of the request
(`http_client/client_request.py` 451-515).

The head of the message is taken as read: `Op.start` gives it, and the bytes counted are those which follow it. A chunked body is counted by
the bytes it takes on the wire, as if its length were known; `Op.broken` is data its reader refuses. One task reads the response at a time.
The connector is open; `add_available_protocol` is the entry `kept`. Cookies, encodings and callbacks of the connection are left out. -/
namespace Verif.Response

abbrev Bytes := List UInt8

/-- `KeepAliveInfo` of a message, by its `max_requests`; `none` is `KEEP_ALIVE_MAX_REQUESTS_DEFAULT`. -/
structure Keep where
  max : Option Nat := none
deriving DecidableEq, Repr

/-- What `get_payload_reader_task` gives for a message (`web_common/http_protocol.py` 394-456). -/
inductive Body where
  | empty
  /-- `_read_exactly` and the chunked readers -/
  | exactly (n : Nat)
  /-- `_read_until_eof` -/
  | untilEof
deriving DecidableEq, Repr

/-- `RawResponseMessage`. -/
structure Msg where
  /-- `keep_alive` -/
  keep : Option Keep := some {}
  upgraded : Bool := false
  body : Body := .empty
deriving DecidableEq, Repr

inductive Method where
  | connect
  | head
  | other
deriving DecidableEq, Repr

/-- What the running payload reader waits for. -/
inductive Need where
  /-- so many bytes -/
  | left (n : Nat)
  | eof
deriving DecidableEq, Repr

/-- `STREAM_FLAG_DONE_*`. -/
inductive Done where
  | success
  | exception
  | aborted
deriving DecidableEq, Repr

/-- What became of the protocol of the connection. -/
inductive Gave where
  /-- closed by the connector -/
  | closed
  /-- stored to be used again -/
  | kept
  /-- taken out of the connector by `Connection.detach` -/
  | detached
deriving DecidableEq, Repr

/-- The task of `ClientRequest.write_body`. -/
inductive Writer where
  | running
  | ended
  | cancelled
deriving DecidableEq, Repr

/-- What a `read` came to. -/
inductive Out where
  | bytes (b : Bytes)
  /-- `None` -/
  | nothing
  | error
  | cancelled
deriving DecidableEq, Repr

structure State where
  method : Method := .other
  /-- `connection.performed_requests` -/
  performed : Nat := 0
  /-- `connector.force_close` -/
  forceClose : Bool := false
  /-- `response.connection is not None` -/
  conn : Bool := true
  /-- `connection.protocol is not None` -/
  proto : Bool := true
  given : List Gave := []
  /-- `response._released` -/
  released : Bool := false
  /-- `response.closed` -/
  closed : Bool := false
  /-- `response.raw_message` -/
  message : Option Msg := none
  /-- `response.payload_stream is not None` -/
  has : Bool := false
  /-- `response.body` -/
  body : Option Bytes := none
  /-- `protocol._payload_reader` -/
  reader : Option Need := none
  /-- `protocol._payload_stream is not None` -/
  set : Bool := false
  /-- `protocol._exception is not None` -/
  failed : Bool := false
  /-- `protocol._at_eof` -/
  atEof : Bool := false
  /-- `protocol._chunks` from `protocol._offset` on -/
  buffer : Bytes := []
  /-- `payload_stream._flags` -/
  done : Option Done := none
  /-- `payload_stream._chunks` -/
  chunks : Bytes := []
  /-- `payload_stream._done_callbacks` holds the two callbacks of lines 204-205 -/
  watched : Bool := false
  /-- a task is in `await payload_stream` of `read` -/
  reading : Bool := false
  writer : Writer := .running
  outs : List Out := []
deriving DecidableEq, Repr

/-- `should_close` (`web_common/http_protocol.py` 73-90). -/
def shouldClose (s : State) : Bool :=
  if s.set then true
  else if s.failed then true
  else if !s.atEof && !s.buffer.isEmpty then true
  else false

/-- Whether the limit of requests of the message is reached (`connection.py` 197-198). -/
def reached (k : Keep) (performed : Nat) : Bool :=
  match k.max with
  | none => false
  | some m => decide (m ≤ performed)

/-- Lines 184-205 of `connection.py` with the test of lines 297 of `connector_base.py`. -/
def decideGive (s : State) : Gave :=
  if shouldClose s then .closed
  else
    match s.message.bind (·.keep) with
    | none => .closed
    | some k =>
      if reached k (s.performed + 1) then .closed
      else if s.forceClose then .closed
      else .kept

/-- `Connection.release` (171-207). -/
def connRelease (s : State) : State :=
  if s.proto then { s with proto := false, given := s.given ++ [decideGive s] } else s

/-- `Connection.close` (159-168). -/
def connClose (s : State) : State :=
  if s.proto then { s with proto := false, given := s.given ++ [.closed] } else s

/-- `_release_connection` (247-264). -/
def releaseConn (s : State) : State :=
  if s.conn then connRelease { s with conn := false } else s

/-- `_clean_up_writer` (283-291). -/
def cleanUp (s : State) : State :=
  match s.writer with
  | .running => { s with writer := .cancelled }
  | _ => s

/-- `raw_message.upgraded`. -/
def isUpgraded (s : State) : Bool :=
  match s.message with
  | none => false
  | some m => m.upgraded

/-- `_response_eof` (222-244). -/
def responseEof (s : State) : State :=
  if s.closed then s
  else if s.conn then
    if s.proto && isUpgraded s then s
    else cleanUp { releaseConn { s with released := true } with closed := true }
  else cleanUp { s with closed := true }

/-- `_run_done_callbacks` (`payload_stream.py` 298-309): the last added is run first. It is `_payload_stream_abortion_callback`
(`protocol.py` 648-659), that runs `eof_received` (440-483) for a stream which is done already; then comes `_response_eof`. -/
def runCallbacks (s : State) : State :=
  if s.watched then
    responseEof
      (if s.done = some .aborted then
        { s with watched := false, atEof := true, reader := none, set := false }
      else { s with watched := false })
  else s

/-- `set_done_success` (173-193), `set_done_exception` (221-248) and `_abort` (337-359). -/
def finish (s : State) (d : Done) : State :=
  if s.done.isSome then s
  else runCallbacks { s with done := some d, chunks := if d = .exception then [] else s.chunks }

/-- `set_exception` (`protocol.py` 426-437). -/
def setException (s : State) : State :=
  if s.set then { finish { s with failed := true, set := false } .exception with reader := none }
  else { s with failed := true }

/-- `eof_received` (441-483). -/
def eofReceived (s : State) : State :=
  match s.reader with
  | none => { s with atEof := true }
  | some .eof => finish { s with atEof := true, reader := none, set := false } .success
  | some (.left _) => finish { s with atEof := true, reader := none, set := false } .exception

/-- `data_received` (487-531): the reader is run and the stream finished before the two fields are cleared. -/
def received (s : State) (bs : Bytes) : State :=
  match s.reader with
  | none => { s with buffer := s.buffer ++ bs }
  | some .eof => { s with chunks := s.chunks ++ bs }
  | some (.left n) =>
    if bs.length < n then { s with chunks := s.chunks ++ bs, reader := some (.left (n - bs.length)) }
    else
      { finish { s with chunks := s.chunks ++ bs.take n, buffer := bs.drop n } .success with reader := none, set := false }

/-- `data_received` with data which the reader refuses (519-528). -/
def broken (s : State) : State :=
  match s.reader with
  | none => s
  | some _ => { finish s .exception with reader := none, set := false }

/-- `set_payload_reader` (580-635). -/
def setReader (s : State) (b : Body) : State :=
  if s.failed then { s with done := some .exception }
  else
    match b with
    | .empty => s
    | .exactly n =>
      if n ≤ s.buffer.length then
        { s with done := some .success, chunks := s.buffer.take n, buffer := s.buffer.drop n }
      else if s.atEof then { s with done := some .exception, buffer := [] }
      else { s with chunks := s.buffer, buffer := [], reader := some (.left (n - s.buffer.length)), set := true }
    | .untilEof =>
      if s.atEof then { s with done := some .success, chunks := s.buffer, buffer := [] }
      else { s with chunks := s.buffer, buffer := [], reader := some .eof, set := true }

/-- `add_done_callback` (279-295) with `_response_eof`, and `handle_payload_stream_abortion` (638-645). -/
def watch (s : State) : State :=
  if s.done.isSome then responseEof s else { s with watched := true }

/-- `start_processing` (179-219) after the head of the message was read. -/
def start (s : State) (m : Msg) : State :=
  match s.message with
  | some _ => s
  | none =>
    match s.method with
    | .connect => { s with message := some m }
    | .head => responseEof { s with message := some m }
    | .other =>
      match m.body with
      | .empty => responseEof { s with message := some m }
      | b => { watch (setReader { s with message := some m } b) with has := true }

/-- `_notify_content` (267-280). -/
def notify (s : State) : State :=
  if s.released then s
  else { (if s.has && s.conn && s.proto then setException s else s) with released := true }

/-- `close` (453-470). -/
def close (s : State) : State :=
  let s := notify s
  if s.closed then s
  else cleanUp (if s.conn then connClose { s with closed := true, conn := false } else { s with closed := true })

/-- `release` (473-486). -/
def release (s : State) : State :=
  let s := notify s
  if s.closed then s
  else cleanUp (releaseConn { s with closed := true })

/-- `__del__` (119-124). -/
def del (s : State) : State :=
  if s.closed then s else releaseConn s

/-- The end of `__await__` of the stream (`payload_stream.py` 436, 451-454) and of `read` (308-313). -/
def readEnds (s : State) : State :=
  match s.done with
  | some .success =>
    { s with has := false, reading := false, body := some s.chunks, chunks := [], outs := s.outs ++ [.bytes s.chunks] }
  | _ => { s with has := false, reading := false, outs := s.outs ++ [.error] }

/-- `read` (294-313) up to where it waits. -/
def read (s : State) : State :=
  if s.reading then s
  else if s.has then
    if s.done.isSome then readEnds s else { s with reading := true }
  else
    match s.body with
    | none => { s with outs := s.outs ++ [.nothing] }
    | some b => { s with outs := s.outs ++ [.bytes b] }

/-- The waiting task goes on. -/
def wake (s : State) : State :=
  if s.reading && s.done.isSome then readEnds s else s

/-- The waiting task is cancelled: `_abort` of the stream (`payload_stream.py` 447-449), then the `finally` of `read`. -/
def cancelRead (s : State) : State :=
  if s.reading then
    { finish s .aborted with has := false, reading := false, outs := s.outs ++ [.cancelled] }
  else s

/-- `write_body` ends: its body is written (484-485). -/
def writerEnds (s : State) : State :=
  match s.writer with
  | .running => { s with writer := .ended }
  | _ => s

/-- `write_body` fails (468-471, 480-482). -/
def writerFails (s : State) : State :=
  match s.writer with
  | .running => if s.proto then { setException s with writer := .ended } else { s with writer := .ended }
  | _ => s

/-- `Connection.detach` (210-222), as the web socket client calls it. -/
def detach (s : State) : State :=
  if s.conn && s.proto then { s with proto := false, given := s.given ++ [.detached] } else s

inductive Op where
  | receive (bs : Bytes)
  | broken
  | eof
  /-- `connection_lost` with an exception -/
  | lost
  | start (m : Msg)
  /-- reading the head fails or is cancelled (217-219) -/
  | startFails
  | read
  | wake
  | cancelRead
  | close
  | release
  | del
  | writerEnds
  | writerFails
  | detach
deriving DecidableEq, Repr

def step (s : State) : Op → State
  | .receive bs => received s bs
  | .broken => broken s
  | .eof => eofReceived s
  | .lost => setException s
  | .start m => start s m
  | .startFails => match s.message with
    | none => close s
    | some _ => s
  | .read => read s
  | .wake => wake s
  | .cancelRead => cancelRead s
  | .close => close s
  | .release => release s
  | .del => del s
  | .writerEnds => writerEnds s
  | .writerFails => writerFails s
  | .detach => detach s

def run (s : State) (ops : List Op) : State := ops.foldl step s

/-- A new response (73-100) of a request with a body to write, or none. -/
def fresh (method : Method) (performed : Nat) (forceClose : Bool) : State :=
  { method := method, performed := performed, forceClose := forceClose }

end Verif.Response
