import Verif.WebSocket.Model

/-!
# Web socket connections

Model of `WebSocketCommonProtocol` (`scarletio/web_socket/web_socket_common_protocol.py`).

`Session` is the protocol with its task `transfer_data`, between two frames: `read_message`, `read_data_frame` and
`_process_control_frame` are its step on a frame that was received (`Verif.WebSocket`: how it is read from the bytes).

* The codec is a parameter.  `DECODER`, an incremental decoder which is used for the fragments of one message without a break, is
  `decode` of all of them.
* In `Session` writing does not block; `Writer` is about writing while others are writing.  `Closing` is `close_connection`.
* No extensions.  Random payloads of pings are an input.
-/
namespace Verif.WebSocketSession
open Verif.WebSocket

abbrev Bytes := List Byte
abbrev Text := List Char

structure Codec where
  encode : Text → Bytes
  /-- `none` is a `UnicodeDecodeError` -/
  decode : Bytes → Option Text

inductive Phase where
  | opened | closing | closed
deriving DecidableEq, Repr

inductive Message where
  | text (t : Text)
  | binary (data : Bytes)
deriving DecidableEq, Repr

structure Config where
  client : Bool
  maxSize : Nat
  codec : Codec

structure Session where
  phase : Phase
  closeCode : Nat
  closeReason : Option Text
  /-- `pings`, with the number of the waiter -/
  pings : List (Bytes × Nat)
  /-- the waiters which have a result -/
  answered : List Nat
  /-- the next waiter -/
  next : Nat
  /-- `frames` of `read_message`, and whether it is a text -/
  parts : Option (Bool × List Bytes)
  /-- `max_size` of the next frame -/
  room : Nat
  /-- put into `messages`, the oldest first -/
  messages : List Message
  /-- frames written -/
  wire : List (Byte × Bytes)
  /-- `transfer_data` is over, with this close code -/
  ended : Option Nat
  /-- `transfer_data` waits for `close_connection`, which waits for `transfer_data` -/
  stuck : Bool
deriving DecidableEq, Repr

/-- `connection_open`, lines 216-226. -/
def Session.initial (c : Config) : Session :=
  ⟨.opened, 0, none, [], [], 0, none, c.maxSize, [], [], none, false⟩

/-- `code in EXTERNAL_CLOSE_CODES or 2999 < code < 5000`, lines 31, 433 and 796. -/
def allowedCode (code : Nat) : Bool :=
  code = 1000 || code = 1001 || code = 1002 || code = 1003 || code = 1007 || code = 1008 || code = 1009 || code = 1010 || code = 1011 ||
    code = 1013 || (2999 < code && code < 5000)

/-- `_serialize_close`, lines 411-438; `none` is a `WebSocketProtocolError`. -/
def serializeClose (c : Codec) (code : Nat) (reason : Text) : Option Bytes :=
  if allowedCode code then some (beBytes 2 code ++ c.encode reason) else none

/-- The close frame of `fail_connection`, lines 1067-1085; `transfer_data`, lines 579-622, gives only allowed codes and 1006. -/
def Session.fail (s : Session) (code : Nat) : Session :=
  if code ≠ 1006 ∧ s.phase = .opened then { s with phase := .closing, wire := s.wire ++ [(8, beBytes 2 code)] } else s

/-- `transfer_data` is over because of an exception: lines 579-622, 634-636. -/
def Session.abort (s : Session) (code : Nat) : Session := { s.fail code with ended := some code }

/-- `write_close_frame`, lines 916-945. -/
def Session.writeClose (s : Session) (data : Bytes) : Session :=
  if s.phase = .opened then { s with phase := .closing, wire := s.wire ++ [(8, data)] } else s

/-- A close frame was received: lines 790-810; then the message is over, lines 664-666 and 698-699. -/
def Session.closeFrame (c : Config) (s : Session) (data : Bytes) : Session :=
  if 2 ≤ data.length then
    let code := beNat (data.take 2)
    if allowedCode code then
      match c.codec.decode (data.drop 2) with
      | none => s.abort 1007
      | some reason => finish { s with closeCode := code, closeReason := some reason }
    else s.abort 1002
  else if data.length = 0 then finish { s with closeCode := 1005 }
  else s.abort 1002
where
  finish (s : Session) : Session :=
    let s := s.writeClose data
    if s.parts = none then { s with ended := some (if s.closeCode = 0 then 1000 else s.closeCode) } else s.abort 1002

/-- A ping was received: lines 813-815, `pong` and `ensure_open` (lines 487-556).  `ConnectionClosed` is an unexpected exception of
`transfer_data`. -/
def Session.pingFrame (s : Session) (data : Bytes) : Session :=
  match s.phase with
  | .opened => { s with wire := s.wire ++ [(10, data)] }
  | .closing => if s.closeCode = 0 then { s with stuck := true } else s.abort 1011
  | .closed => s.abort 1011

/-- A pong was received: lines 816-823.  On the side of the server the data is a `bytearray`, which is not hashable.  There is no
`set_resultd_if_pending`. -/
def Session.pongFrame (c : Config) (s : Session) (data : Bytes) : Session :=
  if c.client then
    if s.pings.any (·.1 = data) then { s with pings := s.pings.tail }.abort 1011 else s
  else s.abort 1011

/-- A message is complete: lines 678-684 and 708-717, 570-577. -/
def Session.deliver (c : Config) (s : Session) (text : Bool) (data : Bytes) : Session :=
  if text then
    match c.codec.decode data with
    | none => s.abort 1007
    | some t => { s with messages := s.messages ++ [.text t], parts := none, room := c.maxSize }
  else { s with messages := s.messages ++ [.binary data], parts := none, room := c.maxSize }

/-- A data frame, `read_message`, lines 664-706. -/
def Session.dataFrame (c : Config) (s : Session) (f : Frame) : Session :=
  match s.parts with
  | none =>
    if f.operationCode = 0 then s.abort 1002
    else if f.final then s.deliver c (f.operationCode = 1) f.data
    else { s with parts := some (decide (f.operationCode = 1), [f.data]), room := c.maxSize - f.data.length }
  | some (text, datas) =>
    if f.operationCode ≠ 0 then s.abort 1002
    else if f.final then s.deliver c text (datas ++ [f.data]).flatten
    else { s with parts := some (text, datas ++ [f.data]), room := s.room - f.data.length }

/-- `read_data_frame`, lines 747-765, with the check of the size of `read_web_socket_frame` (http_protocol.py lines 380-381). -/
def Session.frame (c : Config) (s : Session) (f : Frame) : Session :=
  if s.room < f.data.length then s.abort 1009
  else match f.check with
    | .error _ => s.abort 1002
    | .ok () =>
      if f.operationCode = 0 ∨ f.operationCode = 1 ∨ f.operationCode = 2 then s.dataFrame c f
      else if f.operationCode = 8 then s.closeFrame c f.data
      else if f.operationCode = 9 then s.pingFrame f.data
      else s.pongFrame c f.data

inductive Op where
  /-- `transfer_data` reads a frame -/
  | frame (f : Frame)
  /-- there is nothing to read any more: `EOFError`, `ConnectionError` -/
  | eof
  /-- `send` -/
  | send (m : Message)
  /-- `ping`, with a payload that is not among the pings -/
  | ping (data : Bytes)
  /-- `pong` -/
  | pong (data : Bytes)
  /-- `close`, up to the close frame -/
  | close (code : Nat) (reason : Text)
  /-- `connection_lost` -/
  | lost
  /-- the `close_timeout` of a `close` is over, and `transfer_data` gets a `TimeoutError` -/
  | timeout
deriving DecidableEq, Repr

inductive Out where
  | none
  /-- `ping` waits for this waiter -/
  | waits (waiter : Nat)
  /-- `ConnectionClosed` (maybe behind the end of `close_connection`) -/
  | closed
  /-- `WebSocketProtocolError` -/
  | badCode
deriving DecidableEq, Repr

/-- `ensure_open` of a user, lines 526-556, is passed. -/
def Session.usable (s : Session) : Bool := s.phase = .opened && s.ended = none

/-- One step.  `send`: lines 344-356, `ping`: 440-486, `pong`: 487-521, `close`: 382-388, and 392-396 with
`cancel_with(TimeoutError)`; `connection_lost`: 1095-1114. -/
def Session.step (c : Config) (s : Session) : Op → Session × Out
  | .frame f => if s.ended = none ∧ s.stuck = false then (s.frame c f, .none) else (s, .none)
  | .eof => if s.ended = none ∧ s.stuck = false then (s.abort 1006, .none) else (s, .none)
  | .send m =>
    if s.usable then
      match m with
      | .text t => ({ s with wire := s.wire ++ [(1, c.codec.encode t)] }, .none)
      | .binary data => ({ s with wire := s.wire ++ [(2, data)] }, .none)
    else (s, .closed)
  | .ping data =>
    if s.usable then
      ({ s with pings := s.pings ++ [(data, s.next)], next := s.next + 1, wire := s.wire ++ [(9, data)] }, .waits s.next)
    else (s, .closed)
  | .pong data => if s.usable then ({ s with wire := s.wire ++ [(10, data)] }, .none) else (s, .closed)
  | .close code reason => match serializeClose c.codec code reason with
    | none => (s, .badCode)
    | some data => (s.writeClose data, .none)
  | .lost => ({ s with phase := .closed, closeCode := if s.closeCode = 0 then 1006 else s.closeCode }, .none)
  | .timeout => if s.ended = none ∧ s.phase ≠ .opened then (s.abort 1006, .none) else (s, .none)

/-- The session behind the operations. -/
def Session.run (c : Config) (s : Session) (ops : List Op) : Session := ops.foldl (fun s op => (s.step c op).1) s

/-! ### Writing while others are writing -/

/-- `write_frame` holds `_drain_lock` (first come, first served: C16) until the data is drained. -/
structure Writer where
  phase : Phase
  /-- `_drain_lock` is held -/
  held : Bool
  /-- frames of those who wait for the lock -/
  waiting : List (Byte × Bytes)
  wire : List (Byte × Bytes)
deriving DecidableEq, Repr

inductive WriteOp where
  /-- `write_frame`, lines 892-913, with the state checked before: `send`, `ping`, `pong` -/
  | write (op : Byte) (data : Bytes)
  /-- `write_close_frame`, lines 942-945 -/
  | close (data : Bytes)
  /-- `fail_connection` with a code other than 1006, lines 1067-1085 -/
  | fail (data : Bytes)
  /-- the data of the one who has the lock is drained -/
  | drained
deriving DecidableEq, Repr

/-- Lines 897-908: to get the lock, and to write. -/
def Writer.put (w : Writer) (f : Byte × Bytes) : Writer :=
  if w.held then { w with waiting := w.waiting ++ [f] } else { w with held := true, wire := w.wire ++ [f] }

def Writer.step (w : Writer) : WriteOp → Writer
  | .write op data => if w.phase = .opened then w.put (op, data) else w
  | .close data => if w.phase = .opened then { w with phase := .closing }.put (8, data) else w
  | .fail data => if w.phase = .opened then { w with phase := .closing, wire := w.wire ++ [(8, data)] } else w
  | .drained => match w.waiting with
    | [] => { w with held := false }
    | f :: fs => if w.held then { w with waiting := fs, wire := w.wire ++ [f] } else w

def Writer.initial : Writer := ⟨.opened, false, [], []⟩

def Writer.run (w : Writer) (ops : List WriteOp) : Writer := ops.foldl Writer.step w

/-! ### The end of a connection -/

structure Closing where
  client : Bool
  ssl : Bool
  /-- `can_write_eof()` -/
  canEof : Bool
  /-- there is a `transfer_data_task` -/
  transfer : Bool
  /-- there is a `_transport` -/
  transport : Bool
deriving DecidableEq, Repr

/-- What is done, in order. -/
inductive Act where
  | eof | close | abort | wait
deriving DecidableEq, Repr

/-- `wait_for_connection_lost`, lines 1008-1032, with `lost`: `connection_lost_waiter.is_done()` at its begin, `after`: at the end of a
wait. -/
def waitForConnectionLost (lost after : Bool) : Bool × List Act :=
  if !lost then (true, []) else (lost || after, [.wait])

/-- The part of `finally`, lines 986-1005. -/
def closeFinally (k : Closing) (lost : Bool) (after : Bool) : List Act :=
  if lost && !k.ssl then [] else
    if k.transport then
      let (r, acts) := waitForConnectionLost lost after
      if r then .close :: acts
      else .close :: acts ++ [.abort] ++ (waitForConnectionLost lost after).2
    else (waitForConnectionLost lost after).2

/-- `close_connection`, lines 948-1005, behind the end of `transfer_data`; `lost`: whether `connection_lost_waiter` is done already. -/
def closeConnection (k : Closing) (lost after : Bool) : List Act :=
  let (r, acts) := if k.client && k.transfer then waitForConnectionLost lost after else (false, [])
  if r then acts ++ closeFinally k lost after
  else if k.canEof then acts ++ .eof :: (waitForConnectionLost lost after).2 ++ closeFinally k lost after
  else acts ++ closeFinally k lost after

/-- `connection_lost_waiter` is done behind `transfer_data`: lines 624-632 (a client, behind a close frame), or `connection_lost`
was called. -/
def waiterDone (client closeFrame lost : Bool) : Bool := lost || (client && closeFrame)

end Verif.WebSocketSession
