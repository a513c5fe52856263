/-!
# Datagram transports

Modelled code: `scarletio/core/protocols_and_transports/transport_layer.py`,
`SocketTransportLayerBase` lines 289–355 and 362–495 (close, abort, `_call_connection_lost`,
`_force_close`, pausing and resuming of the protocol) and `DatagramSocketTransportLayer`
lines 815–1067.

Simplified: addresses are numbers, the outcome of every `socket.sendto` and `socket.recvfrom` is
chosen by the environment; the peer name is never known (the only creator of the transport,
`event_loop.py` 2580, passes `extra = None`), therefore `sendto` is always the method used.
A protocol calling back into the transport is modelled as the next operation, which is exact for
`error_received`, `datagram_received` and `pause_writing`, because the transport does nothing after
calling those; `resume_writing` calling `send_to` from inside is not modelled.
-/

namespace Verif.Datagram

/-- What a socket call does (`transport_layer.py` 1011–1026, 1046–1061): takes the datagram, would
block, raises an `OSError`, raises anything else. -/
inductive Out
  | ok | blocked | os | other
  deriving DecidableEq, Repr

/-- What happens at the socket and at the protocol, in order. `dropped` marks `buffer.clear()`. -/
inductive Ev
  | sent (d : List Nat) (a : Option Nat)
  | failed (d : List Nat) (a : Option Nat)
  | dropped (ds : List (List Nat × Option Nat))
  | received (d : List Nat) (a : Nat)
  | errorReceived
  | connectionLost (e : Option Nat)
  | pauseWriting
  | resumeWriting
  deriving DecidableEq, Repr

/-- `transport_layer.py` 162–211, 862–896. `alive` stands for `_socket` and `_protocol` being set,
`_call_connection_lost` clears both. `soon` are the scheduled calls of `_call_connection_lost`. -/
structure T where
  address : Option Nat
  buffer : List (List Nat × Option Nat) := []
  closing : Bool := false
  lost : Bool := false
  reader : Bool := false
  writer : Bool := false
  alive : Bool := true
  paused : Bool := false
  high : Nat := 65536
  low : Nat := 16384
  soon : List (Option Nat) := []
  log : List Ev := []
  deriving DecidableEq, Repr

/-- `get_write_buffer_size` (`transport_layer.py` 910–916). -/
def size : List (List Nat × Option Nat) → Nat
  | [] => 0
  | (d, _) :: r => d.length + size r

/-- `_call_connection_lost` (`transport_layer.py` 335–357). -/
def callLost (s : T) (e : Option Nat) : T :=
  { s with alive := false, log := s.log ++ (if s.alive then [Ev.connectionLost e] else []) }

/-- `_maybe_pause_protocol` (`transport_layer.py` 365–391). -/
def maybePause (s : T) : T :=
  if size s.buffer ≤ s.high then s
  else if s.paused then s
  else { s with paused := true, log := s.log ++ (if s.alive then [Ev.pauseWriting] else []) }

/-- `_maybe_resume_protocol` (`transport_layer.py` 473–495). -/
def maybeResume (s : T) : T :=
  if s.paused = false ∨ size s.buffer > s.low then s
  else { s with paused := false, log := s.log ++ (if s.alive then [Ev.resumeWriting] else []) }

/-- `_force_close` (`transport_layer.py` 434–461). The writer is removed only if something waits in
the buffer. -/
def forceClose (s : T) (e : Option Nat) : T :=
  if s.lost then s
  else
    { s with
      buffer := []
      writer := if s.buffer = [] then s.writer else false
      reader := if s.closing then s.reader else false
      closing := true
      lost := true
      soon := s.soon ++ [e]
      log := s.log ++ [Ev.dropped s.buffer] }

/-- `close` (`transport_layer.py` 314–326). -/
def close (s : T) : T :=
  if s.closing then s
  else if s.buffer = [] then
    { s with closing := true, reader := false, lost := true, writer := false, soon := s.soon ++ [none] }
  else { s with closing := true, reader := false }

/-- What `self._socket.sendto(data, address)` does: the socket being `None` gives an
`AttributeError`, the address being `None` gives a `TypeError`. -/
def sendto (s : T) (a : Option Nat) (o : Out) : Out :=
  if s.alive = false then .other else if a = none then .other else o

/-- The exception of `sendto` given to `_fatal_error` has the code 0 here. -/
def fatal (s : T) : T := forceClose s (some 0)

/-- `protocol.error_received` (`transport_layer.py` 979, 1019, 1056). -/
def errorReceived (s : T) : T :=
  { s with log := s.log ++ (if s.alive then [Ev.errorReceived] else []) }

/-- What a caller of `send_to` sees. -/
inductive Res
  | done | valueError
  deriving DecidableEq, Repr

/-- The address a datagram goes to, `none` for the `ValueError`
(`transport_layer.py` 1001–1008). -/
def target (s : T) (a : Option Nat) : Option (Option Nat) :=
  match s.address with
  | none => some a
  | some fixed =>
    match a with
    | none => some (some fixed)
    | some given => if given = fixed then some (some fixed) else none

/-- The part of `send_to` behind the checks (`transport_layer.py` 1013–1035). -/
def sendTaken (s : T) (d : List Nat) (a : Option Nat) (o : Out) : T :=
  if s.buffer = [] then
    match sendto s a o with
    | .ok => { s with log := s.log ++ [Ev.sent d a] }
    | .blocked => maybePause { s with writer := true, buffer := [(d, a)] }
    | .os => errorReceived { s with log := s.log ++ [Ev.failed d a] }
    | .other => fatal { s with log := s.log ++ [Ev.failed d a] }
  else maybePause { s with buffer := s.buffer ++ [(d, a)] }

/-- `send_to` (`transport_layer.py` 975–1035). -/
def sendTo (s : T) (d : List Nat) (a : Option Nat) (o : Out) : T × Res :=
  if d = [] then (s, .done)
  else
    match target s a with
    | none => (s, .valueError)
    | some a' => if s.lost then (s, .done) else (sendTaken s d a' o, .done)

/-- The end of `_send_to_ready` (`transport_layer.py` 1063–1067). -/
def readyEnd (s : T) : T :=
  let s1 := maybeResume s
  if s1.buffer = [] then
    let s2 := { s1 with writer := false }
    if s2.closing then callLost s2 none else s2
  else s1

/-- The loop of `_send_to_ready` (`transport_layer.py` 1044–1067) over what is left of the buffer.
A missing outcome stands for a socket that would block. -/
def sendReady (s : T) : List (List Nat × Option Nat) → List Out → T
  | [], _ => readyEnd { s with buffer := [] }
  | (d, a) :: r, outs =>
    match sendto s a (outs.headD .blocked) with
    | .ok => sendReady { s with buffer := r, log := s.log ++ [Ev.sent d a] } r outs.tail
    | .blocked => readyEnd { s with buffer := (d, a) :: r }
    | .os => errorReceived { s with buffer := r, log := s.log ++ [Ev.failed d a] }
    | .other => fatal { s with buffer := r, log := s.log ++ [Ev.failed d a] }

/-- `_read_ready` (`transport_layer.py` 958–975); the exception has the code 1. -/
def readReady (s : T) (d : List Nat) (a : Nat) (o : Out) : T :=
  if s.lost then s
  else
    match (if s.alive then o else Out.other) with
    | .ok => { s with log := s.log ++ [Ev.received d a] }
    | .blocked => s
    | .os => errorReceived s
    | .other => forceClose s (some 1)

/-- Everything that can happen to a transport. -/
inductive Op
  /-- `_add_reader` (`transport_layer.py` 947–955). -/
  | addReader
  | sendTo (d : List Nat) (a : Option Nat) (o : Out)
  /-- The socket is writable and the writer callback is registered. -/
  | writable (outs : List Out)
  /-- The socket is readable and the reader callback is registered. -/
  | readable (d : List Nat) (a : Nat) (o : Out)
  | close
  | abort (e : Option Nat)
  /-- The loop runs the first scheduled `_call_connection_lost`. -/
  | runSoon
  deriving Repr

/-- One operation. -/
def step (s : T) : Op → T
  | .addReader => if s.closing then s else { s with reader := true }
  | .sendTo d a o => (sendTo s d a o).1
  | .writable outs => if s.writer then sendReady s s.buffer outs else s
  | .readable d a o => if s.reader then readReady s d a o else s
  | .close => close s
  | .abort e => forceClose s e
  | .runSoon =>
    match s.soon with
    | [] => s
    | e :: r => callLost { s with soon := r } e

def run (s : T) : List Op → T
  | [] => s
  | o :: os => run (step s o) os

/-- A new transport (`transport_layer.py` 885–899). -/
def init (address : Option Nat) : T := { address := address }

theorem run_append (s : T) (xs ys : List Op) : run s (xs ++ ys) = run (run s xs) ys := by
  induction xs generalizing s with
  | nil => rfl
  | cons x xs ih => exact ih (step s x)

end Verif.Datagram
