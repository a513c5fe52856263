/-! Model of the writing side of `SocketTransportLayer` (`core/protocols_and_transports/transport_layer.py`).

The operating system's answer to a send is part of the operation. `pause_writing` and `resume_writing` of the protocol do not call back into
the transport (those of `ReadWriteProtocolBase` only set a future's result). Data given to `write` is not changed by the caller afterwards
(the code keeps a reference to a `bytearray` or a view of it, it does not copy). -/
namespace Verif.Transport

abbrev Bytes := List UInt8

/-- What `socket.send` or `sendmsg` does. -/
inductive Send where
  /-- accepts some bytes from the front of the offered ones -/
  | accepts (n : Nat)
  /-- `BlockingIOError`, `InterruptedError` -/
  | blocks
  /-- any other exception -/
  | fails
deriving DecidableEq, Repr

structure State where
  /-- `_buffer` -/
  buffer : List Bytes := []
  /-- `_connection_lost` -/
  lost : Bool := false
  /-- `_closing` -/
  closing : Bool := false
  /-- `_at_eof` -/
  atEof : Bool := false
  /-- `_socket is not None` -/
  socket : Bool := true
  /-- `_protocol is not None` -/
  protocol : Bool := true
  /-- `_protocol_paused` -/
  paused : Bool := false
  /-- `_write_ready` is registered at the loop -/
  writer : Bool := false
  /-- `call_soon(self._call_connection_lost, ...)`s that wait in the loop -/
  pendingLost : Nat := 0
  high : Nat := 65536
  low : Nat := 16384
deriving DecidableEq, Repr

inductive Op where
  | write (data : Bytes) (send : Send)
  /-- the loop calls `_write_ready` -/
  | writeReady (send : Send)
  | writeEof
  | close
  | abort
  /-- the loop runs a scheduled `_call_connection_lost` -/
  | runLost
  | setLimits (high low : Option Nat)
deriving DecidableEq, Repr

/-- Notifications of the protocol. -/
inductive Note where
  | pause
  | resume
  | connectionLost
deriving DecidableEq, Repr

structure Out where
  /-- bytes the socket accepted in this step -/
  sent : Bytes := []
  notes : List Note := []
  /-- the socket's writing side was shut down -/
  shut : Bool := false
  raised : Bool := false
deriving DecidableEq, Repr

/-- `get_write_buffer_size` 649-656. -/
def State.size (s : State) : Nat := (s.buffer.map List.length).sum

/-- `_maybe_pause_protocol` 366-390. -/
def State.maybePause (s : State) : State × List Note :=
  if s.size ≤ s.high then (s, [])
  else if s.paused then (s, [])
  else ({ s with paused := true }, if s.protocol then [.pause] else [])

/-- `_maybe_resume_protocol` 473-494. -/
def State.maybeResume (s : State) : State × List Note :=
  if !s.paused || s.size > s.low then (s, [])
  else ({ s with paused := false }, if s.protocol then [.resume] else [])

/-- `_call_connection_lost` 338-358, of both classes. -/
def State.callLost (s : State) : State × List Note :=
  ({ s with socket := false, protocol := false }, if s.protocol then [.connectionLost] else [])

/-- `_force_close` 434-461. -/
def State.forceClose (s : State) : State :=
  if s.lost then s
  else { s with buffer := [], writer := if s.buffer = [] then s.writer else false, closing := true, lost := true, pendingLost := s.pendingLost + 1 }

/-- The loop of the `sendmsg` variant of `_write_ready` that removes what was sent (784-803). -/
def consume : List Bytes → Nat → List Bytes
  | [], _ => []
  | data :: buffer, n =>
    if data.length > n then data.drop n :: buffer
    else if buffer = [] then []
    else if data.length = n then buffer
    else consume buffer (n - data.length)

/-- The end of both variants of `_write_ready` (752-763, 805-814). -/
def State.afterSend (s : State) (sent : Bytes) : State × Out :=
  let r := s.maybeResume
  if r.1.buffer = [] then
    let s := { r.1 with writer := false }
    if s.closing then
      let l := s.callLost
      (l.1, { sent, notes := r.2 ++ l.2 })
    else (s, { sent, notes := r.2, shut := s.atEof })
  else (r.1, { sent, notes := r.2 })

/-- The marks chosen by `_set_write_buffer_limits` (411-420), high and low. -/
def limits : Option Nat → Option Nat → Nat × Nat
  | none, none => (65536, 16384)
  | none, some l => (l <<< 2, l)
  | some h, none => (h, h >>> 2)
  | some h, some l => (h, l)

/-- `max` is `MAX_SENT_MESSAGES`, which selects the variant of `_write_ready` (724). -/
def State.step (max : Nat) (s : State) : Op → State × Out
  -- 588-630
  | .write data send =>
    if s.atEof then (s, { raised := true })
    else if data = [] then (s, {})
    else if s.lost then (s, {})
    else if s.buffer = [] then
      if !s.socket then (s.forceClose, {}) else
      match send with
      | .fails => (s.forceClose, {})
      | .blocks =>
        let p := { s with writer := true, buffer := s.buffer ++ [data] }.maybePause
        (p.1, { notes := p.2 })
      | .accepts n =>
        if n ≥ data.length then (s, { sent := data })
        else
          let p := { s with writer := true, buffer := s.buffer ++ [data.drop n] }.maybePause
          (p.1, { sent := data.take n, notes := p.2 })
    else
      let p := { s with buffer := s.buffer ++ [data] }.maybePause
      (p.1, { notes := p.2 })
  | .writeReady send =>
    if !s.writer || s.lost then (s, {})
    else if max = 0 then
      -- 724-763
      match s.buffer with
      -- `buffer[0]` raises
      | [] => (s, { raised := true })
      | data :: buffer =>
        match send with
        | .blocks => (s, {})
        | .fails => ({ s with writer := false, buffer := [] }.forceClose, {})
        | .accepts n =>
          if n > 0 then
            if n ≥ data.length then { s with buffer }.afterSend data
            else { s with buffer := data.drop n :: buffer }.afterSend (data.take n)
          else s.afterSend []
    else
      -- 765-814; `send` can accept no more than was offered
      match send with
      | .blocks => (s, {})
      | .fails => ({ s with writer := false, buffer := [] }.forceClose, {})
      | .accepts n =>
        let offered := (s.buffer.take max).flatten
        let n := min n offered.length
        if n > 0 then { s with buffer := consume s.buffer n }.afterSend (offered.take n)
        else s.afterSend []
  -- 634-642
  | .writeEof =>
    if s.atEof then (s, {})
    else if s.buffer = [] then
      if s.socket then ({ s with atEof := true }, { shut := true }) else ({ s with atEof := true }, { raised := true })
    else ({ s with atEof := true }, {})
  -- 314-325
  | .close =>
    if s.closing then (s, {})
    else if s.buffer = [] then ({ s with closing := true, lost := true, writer := false, pendingLost := s.pendingLost + 1 }, {})
    else ({ s with closing := true }, {})
  -- 328-329
  | .abort => (s.forceClose, {})
  | .runLost =>
    if s.pendingLost = 0 then (s, {})
    else
      let l := { s with pendingLost := s.pendingLost - 1 }.callLost
      (l.1, { notes := l.2 })
  -- `_set_write_buffer_limits` 393-431, `set_write_buffer_limits` 333-335
  | .setLimits high low =>
    if (limits high low).1 < (limits high low).2 then (s, { raised := true })
    else
      let p := { s with high := (limits high low).1, low := (limits high low).2 }.maybePause
      (p.1, { notes := p.2 })

def State.runAll (max : Nat) (s : State) (ops : List Op) : State := ops.foldl (fun s op => (s.step max op).1) s

def trace (max : Nat) (s : State) : List Op → List (Op × Out)
  | [] => []
  | op :: ops => (op, (s.step max op).2) :: trace max (s.step max op).1 ops

end Verif.Transport
