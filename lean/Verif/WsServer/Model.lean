/-!
# A web socket server and its connections

Modelled code: `scarletio/web_socket/web_socket_server.py` (`__new__` lines 204–210, `register`,
`unregister`, `is_serving`, `close`, `_close`, lines 257–353),
`scarletio/web_socket/web_socket_server_protocol.py` (`connection_made` 195–207, `lifetime_handler`
210–254, the order of the steps of `handshake` 268–292, 494–497 and 505–575) and what `close`,
`fail_connection` and `connection_lost` of `web_socket_common_protocol.py` (359–408, 1035–1091,
1095–1115) do to a connection.

Simplified: what is asked and answered in the handshake is modelled in the area Handshake, the
closing handshake in the area WebSocketSession: here a request is accepted or refused, and closing
an open web socket is one step. A connection is a number.
-/

namespace Verif.WsServer

/-- Where the `lifetime_handler` task of a connection is. -/
inductive Life
  /-- There was no connection with this number yet. -/
  | absent
  /-- `read_http_request` (`web_socket_server_protocol.py` 269). -/
  | reading
  /-- The server was serving, and `await early_response` (line 281) of an asynchronous
  `request_processor`. -/
  | processing
  /-- `await self.handler(self)` (line 222). -/
  | handling
  /-- The task is done. -/
  | ended
  deriving DecidableEq, Repr

/-- `state` of the web socket; CLOSING is not told apart from CLOSED. -/
inductive Ws
  | connecting | opened | closed
  deriving DecidableEq, Repr

/-- A connection. `transport`: its transport is open. -/
structure Conn where
  life : Life := .absent
  ws : Ws := .connecting
  transport : Bool := false
  registered : Bool := false
  deriving DecidableEq, Repr

/-- How far `_close` is: not called, the server closed (line 328) but the cycle after it not over
(line 334), the web sockets closed (line 338), the handlers of `waits` waited for (lines 340–353),
done. -/
inductive Stage
  | serving | stopping | closing | waiting | done
  deriving DecidableEq, Repr

/-- The server. `ids` are the numbers of the connections made. `starts` are the handlers started:
number of the connection, whether the server was closed already, state of the web socket just
before it was opened. -/
structure S where
  conns : Nat → Conn := fun _ => {}
  ids : List Nat := []
  stage : Stage := .serving
  waits : List Nat := []
  starts : List (Nat × Bool × Ws) := []

def put (f : Nat → Conn) (i : Nat) (c : Conn) : Nat → Conn := fun j => if j = i then c else f j

/-- `is_serving` (`web_socket_server.py` 281–296): the sockets are there until the server is
closed. -/
def isServing (s : S) : Bool :=
  match s.stage with
  | .serving => true
  | _ => false

/-- The end of a refused handshake and of the task (`web_socket_server_protocol.py` 556–575 and
252–254): a response is written, `fail_connection` closes the transport. -/
def refuse (c : Conn) : Conn :=
  { c with life := .ended, registered := false, transport := false, ws := .closed }

/-- The handshake succeeded (`web_socket_server_protocol.py` 494–497, 222;
`web_socket_common_protocol.py` 216–226): the state is set to OPEN whatever it was. -/
def accept (s : S) (i : Nat) : S :=
  { s with
    conns := put s.conns i { s.conns i with life := .handling, ws := .opened }
    starts := s.starts ++ [(i, !isServing s, (s.conns i).ws)] }

/-- `close(1001)` by the server (`web_socket_common_protocol.py` 381–408): an open web socket is
closed with its transport, one still connecting is only told that its connection is lost. -/
def closeConn (c : Conn) : Conn :=
  match c.ws with
  | .opened => { c with ws := .closed, transport := false }
  | .connecting => { c with ws := .closed }
  | .closed => c

/-- What happens. -/
inductive Op
  /-- `connection_made` (also late, after a TLS handshake). -/
  | connect (i : Nat)
  /-- A whole request came; `async` : the request processor is asynchronous. -/
  | request (i : Nat) (good : Bool) (async : Bool)
  /-- The end of the stream is seen by a task that waits for the request. -/
  | eof (i : Nat)
  /-- The asynchronous request processor returns. -/
  | processed (i : Nat) (good : Bool)
  | handlerReturns (i : Nat)
  | handlerRaises (i : Nat)
  /-- The lifetime task is cancelled. -/
  | cancelled (i : Nat)
  /-- The connection is closed by the peer or lost. -/
  | lost (i : Nat)
  /-- `close()`; the second call gives the same task. -/
  | close
  /-- The cycle after `server.close()` is over, the registered web sockets are closed. -/
  | closeSockets
  /-- They are closed; the tasks of the web sockets registered now are going to be waited for. -/
  | snapshot
  /-- The handlers waited for are done. -/
  | closeDone
  deriving Repr

/-- One step. -/
def step (s : S) : Op → S
  | .connect i =>
    match (s.conns i).life with
    | .absent =>
      { s with
        conns := put s.conns i { life := .reading, ws := .connecting, transport := true, registered := true }
        ids := s.ids ++ [i] }
    | _ => s
  | .request i good async =>
    match (s.conns i).life, (s.conns i).ws with
    | .reading, .connecting =>
      if isServing s = false then { s with conns := put s.conns i (refuse (s.conns i)) }
      else if async then { s with conns := put s.conns i { s.conns i with life := .processing } }
      else if good then accept s i
      else { s with conns := put s.conns i (refuse (s.conns i)) }
    | _, _ => s
  | .eof i =>
    match (s.conns i).life, (s.conns i).ws with
    | .reading, .closed => { s with conns := put s.conns i (refuse (s.conns i)) }
    | _, _ => s
  | .processed i good =>
    match (s.conns i).life with
    | .processing =>
      if good then accept s i else { s with conns := put s.conns i (refuse (s.conns i)) }
    | _ => s
  | .handlerReturns i =>
    match (s.conns i).life with
    | .handling =>
      { s with
        conns := put s.conns i { closeConn (s.conns i) with life := .ended, registered := false } }
    | _ => s
  | .handlerRaises i =>
    match (s.conns i).life with
    | .handling => { s with conns := put s.conns i { s.conns i with life := .ended, registered := false } }
    | _ => s
  | .cancelled i =>
    match (s.conns i).life with
    | .absent | .ended => s
    | _ => { s with conns := put s.conns i (refuse (s.conns i)) }
  | .lost i =>
    match (s.conns i).life with
    | .absent => s
    | _ => { s with conns := put s.conns i { s.conns i with ws := .closed, transport := false } }
  | .close =>
    match s.stage with
    | .serving => { s with stage := .stopping }
    | _ => s
  | .closeSockets =>
    match s.stage with
    | .stopping =>
      { s with
        stage := .closing
        conns := fun i => if (s.conns i).registered then closeConn (s.conns i) else s.conns i }
    | _ => s
  | .snapshot =>
    match s.stage with
    | .closing =>
      { s with stage := .waiting, waits := s.ids.filter (fun i => (s.conns i).registered) }
    | _ => s
  | .closeDone =>
    match s.stage with
    | .waiting =>
      if s.waits.all (fun i => (s.conns i).life = .ended) then { s with stage := .done } else s
    | _ => s

def run (s : S) : List Op → S
  | [] => s
  | o :: os => run (step s o) os

def start : S := {}

theorem run_append (s : S) (xs ys : List Op) : run s (xs ++ ys) = run (run s xs) ys := by
  induction xs generalizing s with
  | nil => rfl
  | cons x xs ih => exact ih (step s x)

/-- What a caller of `WebSocketServer` gives as `ssl`: nothing (the default `...`), `None`, `False`,
or `True` or a context. -/
inductive SslArg
  | default | none | off | given
  deriving DecidableEq, Repr

/-- `is_ssl` and whether an ssl context is in use (`web_socket_server.py` 204–210,
`event_loop_functionality_helpers.py` 237–247). `context`: one was given as `ssl_context`. -/
def isSsl (arg : SslArg) (context : Bool) : Bool × Bool :=
  (match arg with
    | .none => false
    | _ => true,
   match arg with
    | .default => context
    | .none => false
    | .off => false
    | .given => true)

end Verif.WsServer
