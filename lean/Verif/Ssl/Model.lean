/-!
# Model of the ssl pipe and of the ssl transport layer

Source: `/repo/scarletio/core/protocols_and_transports/ssl_pipe.py` (class `SSLPipe`),
`/repo/scarletio/core/protocols_and_transports/ssl_transport_layer.py`
(class `SSLBidirectionalTransportLayer`), and of
`/repo/scarletio/core/protocols_and_transports/transport_layer.py` the parts of `SocketTransportLayer` the ssl layer
calls: `close` (315-324), `abort`/`_force_close` (328-329, 434-461), the head of `write` (590-606).

The python `ssl` module (an `SSLObject` between two `MemoryBIO`s) is a parameter: a structure `Engine` of arbitrary
total functions over an arbitrary state. Everything is proved for all of them.

Simplified:
* The wrapped protocol only records what it is told; it does not call back into the layer from inside
  `connection_made`, `data_received` and `connection_lost`.
* `getpeercert`, `cipher` and `compression` do not fail after a handshake that succeeded; the extra info is not kept.
* The underlying transport is what `SocketTransportLayer` does with `write`, `close` and `_force_close`, without bytes
  being counted: whether its buffer is empty when `close` is called is the parameter `Cfg.busy`. It never calls
  `data_received` or `eof_received` after `connection_lost` (`_call_connection_lost` drops the protocol).
* Pausing of reading and the wrapped protocol's `pause_writing`/`resume_writing` are not modelled.
* The two `while True` loops are cut after `Cfg.fuel` rounds; the layer then hangs (`hung`) and does nothing more.
-/

namespace Verif.Ssl

/-- `bytes`. -/
abbrev Bytes := List Nat

/-- Exceptions. The first five are `SSLError`s: by `errno` `SSL_ERROR_WANT_READ`, `SSL_ERROR_WANT_WRITE`,
`SSL_ERROR_SYSCALL`; with the reason `PROTOCOL_IS_SHUTDOWN`; any other. `reset` is `ConnectionResetError`. -/
inductive Err where
  | wantRead | wantWrite | syscall | protoShutdown | ssl (n : Nat)
  | runtime | assertion | reset | other (n : Nat)
  deriving DecidableEq, Repr

/-- `isinstance(err, SSLError)`. -/
def Err.isSsl : Err → Bool
  | .wantRead | .wantWrite | .syscall | .protoShutdown | .ssl _ => true
  | _ => false

/-- `errno in (SSL_ERROR_WANT_READ, SSL_ERROR_WANT_WRITE, SSL_ERROR_SYSCALL)` - ssl_pipe.py:291-292. -/
def Err.retry : Err → Bool
  | .wantRead | .wantWrite | .syscall => true
  | _ => false

/-- What an `SSLObject` over two `MemoryBIO`s does: `wrap` is `wrap_bio`, `feed` is `_incoming.write`, `drain` is
`_outgoing.read` (nothing pending is `[]`), the others are the methods of the same name. -/
structure Engine where
  σ : Type
  init : σ
  wrap : σ → σ
  feed : σ → Bytes → σ
  handshake : σ → σ × Except Err Unit
  read : σ → σ × Except Err Bytes
  write : σ → Bytes → σ × Except Err Nat
  unwrap : σ → σ × Except Err Unit
  drain : σ → σ × Bytes

/-- The states of the pipe - ssl_pipe.py:6-9. -/
inductive PS where
  | unwrapped | handshake | wrapped | shutdown
  deriving DecidableEq, Repr

/-- A chunk given to the underlying transport: out of `_outgoing` or passed through as it is. -/
inductive Wire where
  | record (b : Bytes)
  | plain (b : Bytes)
  deriving DecidableEq, Repr

/-- What the wrapped protocol is told. -/
inductive App where
  | made | data (b : Bytes) | eof | lost
  deriving DecidableEq, Repr

/-- The parameters of a layer: `call_connection_made`, whether the underlying transport has bytes buffered when it is
closed, and how many rounds of a `while True` are looked at. -/
structure Cfg where
  callMade : Bool
  busy : Bool
  fuel : Nat

/-- The layer, its pipe, its underlying transport, and what was observed. -/
structure St (E : Engine) where
  /-- `_ssl_pipe._ssl_object`, `_incoming`, `_outgoing` -/
  eng : E.σ
  /-- `_ssl_pipe._state` -/
  ps : PS := .unwrapped
  /-- `_ssl_pipe._need_ssl_data` -/
  need : Bool := false
  /-- `_write_backlog` -/
  backlog : List (Bytes × Nat) := []
  /-- `_transport is not None` -/
  tr : Bool := false
  /-- `_transport._closing` -/
  trClosing : Bool := false
  /-- `_transport._connection_lost` -/
  trLost : Bool := false
  /-- `_in_handshake` -/
  inHs : Bool := false
  /-- `_closing` -/
  closing : Bool := false
  /-- `_session_established` -/
  est : Bool := false
  /-- `_connection_made_waiter is not None` -/
  waiter : Bool := true
  /-- how the waiter was settled: `none` is `set_result(None)` -/
  settled : List (Option Err) := []
  /-- callbacks of `_process_write_backlog` the loop has yet to run -/
  sched : Nat := 0
  /-- chunks the underlying transport took -/
  wire : List Wire := []
  /-- calls of the wrapped protocol -/
  app : List App := []
  /-- the plaintext that left the backlog: taken by the engine or passed through -/
  sent : Bytes := []
  /-- the plaintext the engine gave -/
  got : Bytes := []
  /-- the buffers the present ssl object was asked to write, with whether it took them -/
  calls : List (Bytes × Bool) := []
  /-- how many handshakes the engine completed -/
  shaken : Nat := 0
  /-- `_fatal_error` was called -/
  fatal : Bool := false
  /-- `abort` was called -/
  aborted : Bool := false
  /-- a `while True` did not end -/
  hung : Bool := false

/-- How a call ends. -/
inductive Res (α : Type) where
  | ok (a : α)
  | raised (e : Err)
  | hang

variable {E : Engine}

/-- `SocketTransportLayer.write` - transport_layer.py:590-606: nothing is taken once the connection is lost. -/
def trWrite (s : St E) (w : Wire) : St E :=
  if s.trLost then s else { s with wire := s.wire ++ [w] }

/-- `for chunk in ssl_data: transport.write(chunk)` - ssl_transport_layer.py:233-234, 353-354. -/
def trWrites (s : St E) : List Wire → St E
  | [] => s
  | w :: ws => trWrites (trWrite s w) ws

/-- `SocketTransportLayerBase.close` - transport_layer.py:315-324. -/
def trClose (c : Cfg) (s : St E) : St E :=
  if s.trClosing then s else { s with trClosing := true, trLost := s.trLost || !c.busy }

/-- `SocketTransportLayerBase._force_close` - transport_layer.py:434-461. -/
def trForce (s : St E) : St E :=
  if s.trLost then s else { s with trClosing := true, trLost := true }

/-- `_wake_up_connection_made_waiter` - ssl_transport_layer.py:170-190. -/
def wake (s : St E) (e : Option Err) : St E :=
  if s.waiter then { s with waiter := false, settled := s.settled ++ [e] } else s

/-- `_handshake_completed(None)` - ssl_transport_layer.py:284-324. -/
def hsOk (c : Cfg) (s : St E) : St E :=
  let s1 : St E := { s with inHs := false, app := if c.callMade then s.app ++ [.made] else s.app }
  let s2 := wake s1 none
  { s2 with est := true, sched := s2.sched + 1 }

/-- `_handshake_completed(err)` up to its `raise` - ssl_transport_layer.py:284-307. -/
def hsErr (c : Cfg) (s : St E) (e : Err) : St E :=
  wake (trClose c { s with inHs := false }) (some e)

/-- How the loop of reads ends: with an empty chunk, by an exception, not at all. -/
inductive ReadEnd where
  | eof | err (e : Err) | hang

/-- The reads of the wrapped state, together with the chunks collected - ssl_pipe.py:270-274. The empty chunk that ends
the loop is collected too. -/
def readLoop (E : Engine) : Nat → E.σ → List Bytes → E.σ × List Bytes × ReadEnd
  | 0, g, acc => (g, acc, .hang)
  | f + 1, g, acc =>
    match E.read g with
    | (g1, .error e) => (g1, acc, .err e)
    | (g1, .ok []) => (g1, acc ++ [[]], .eof)
    | (g1, .ok (b :: bs)) => readLoop E f g1 (acc ++ [b :: bs])

/-- The end of `feed_ssl_data`: what is pending in `_outgoing` - ssl_pipe.py:302-306. -/
def finish (s : St E) (appData : List Bytes) : St E × Res (List Wire × List Bytes) :=
  match E.drain s.eng with
  | (g, []) => ({ s with eng := g }, .ok ([], appData))
  | (g, b :: bs) => ({ s with eng := g }, .ok ([.record (b :: bs)], appData))

/-- `feed_ssl_data` in the wrapped state - ssl_pipe.py:268-274, 290-306. -/
def feedWrapped (c : Cfg) (s : St E) : St E × Res (List Wire × List Bytes) :=
  match readLoop E c.fuel s.eng [] with
  | (g, acc, .eof) => finish { s with eng := g, got := s.got ++ acc.flatten } acc
  | (g, acc, .err e) =>
    if e.retry then
      finish { s with eng := g, got := s.got ++ acc.flatten, need := e == .wantRead } acc
    else ({ s with eng := g, got := s.got ++ acc.flatten }, .raised e)
  | (g, acc, .hang) => ({ s with eng := g, got := s.got ++ acc.flatten }, .hang)

/-- `feed_ssl_data` in the handshake state - ssl_pipe.py:256-266, 290-306. -/
def feedHandshake (c : Cfg) (s : St E) (onlyHs : Bool) : St E × Res (List Wire × List Bytes) :=
  match E.handshake s.eng with
  | (g, .ok _) =>
    let s1 := hsOk c { s with eng := g, ps := .wrapped, shaken := s.shaken + 1 }
    if onlyHs then (s1, .ok ([], [])) else feedWrapped c s1
  | (g, .error e) =>
    if e.retry then finish { s with eng := g, need := e == .wantRead } []
    else if e.isSsl then (hsErr c { s with eng := g } e, .raised e)
    else ({ s with eng := g }, .raised e)

/-- `feed_ssl_data` in the shutdown state, with `_finalize` as the callback - ssl_pipe.py:276-284, 290-306,
ssl_transport_layer.py:385-393. -/
def feedShutdown (c : Cfg) (s : St E) : St E × Res (List Wire × List Bytes) :=
  match E.unwrap s.eng with
  | (g, .ok _) =>
    let s1 : St E := { s with eng := g, ps := .unwrapped }
    finish (if s1.tr then trClose c s1 else s1) []
  | (g, .error e) =>
    if e.retry then finish { s with eng := g, need := e == .wantRead } []
    else ({ s with eng := g }, .raised e)

/-- What `feed_ssl_data` does before it looks at the state - ssl_pipe.py:251-253. -/
def feedIn (s : St E) (data : Bytes) : St E :=
  { s with need := false, eng := match data with | [] => s.eng | d => E.feed s.eng d }

/-- Data passed through in the unwrapped state - ssl_pipe.py:244-249. -/
def passThrough : Bytes → List Bytes
  | [] => []
  | b :: bs => [b :: bs]

/-- `SSLPipe.feed_ssl_data` - ssl_pipe.py:222-306. -/
def feedSsl (c : Cfg) (s : St E) (data : Bytes) (onlyHs : Bool) : St E × Res (List Wire × List Bytes) :=
  match s.ps with
  | .unwrapped => (s, .ok ([], passThrough data))
  | .handshake => feedHandshake c (feedIn s data) onlyHs
  | .wrapped => feedWrapped c (feedIn s data)
  | .shutdown => feedShutdown c (feedIn s data)

/-- `SSLPipe.do_handshake` - ssl_pipe.py:130-170. -/
def doHandshake (c : Cfg) (s : St E) : St E × Res (List Wire) :=
  if s.ps = .unwrapped then
    match feedSsl c { s with eng := E.wrap s.eng, ps := .handshake, calls := [] } [] true with
    | (s1, .ok (ssl, _)) => (s1, .ok ssl)
    | (s1, .raised e) => (s1, .raised e)
    | (s1, .hang) => (s1, .hang)
  else (s, .raised .runtime)

/-- `SSLPipe.shutdown` - ssl_pipe.py:173-205. -/
def pipeShutdown (c : Cfg) (s : St E) : St E × Res (List Wire) :=
  if s.ps = .unwrapped ∨ s.ps = .shutdown then (s, .raised .runtime)
  else
    match feedSsl c { s with ps := .shutdown } [] false with
    | (s1, .ok (ssl, _)) => (s1, .ok ssl)
    | (s1, .raised e) => (s1, .raised e)
    | (s1, .hang) => (s1, .hang)

/-- What `feed_application_data` makes of an exception of `write`: whether ssl data is needed, `none` is `raise` -
ssl_pipe.py:346-364. -/
def writeNeed : Err → Option Bool
  | .protoShutdown => some true
  | .wantRead => some true
  | .wantWrite => some false
  | .syscall => some false
  | _ => none

/-- What is pending in `_outgoing` as a list of chunks - ssl_pipe.py:366-368. -/
def drainW (s : St E) : St E × List Wire :=
  match E.drain s.eng with
  | (g, []) => ({ s with eng := g }, [])
  | (g, b :: bs) => ({ s with eng := g }, [.record (b :: bs)])

/-- One `write` of the loop of `feed_application_data`, with the new offset - ssl_pipe.py:342-364. -/
def appWrite (s : St E) (data : Bytes) (off : Nat) : St E × Res Nat :=
  if off < data.length then
    match E.write s.eng (data.drop off) with
    | (g, .ok n) =>
      ({ s with eng := g, need := false, sent := s.sent ++ (data.drop off).take n,
                calls := s.calls ++ [(data.drop off, true)] }, .ok (off + n))
    | (g, .error e) =>
      match writeNeed e with
      | some b => ({ s with eng := g, need := b, calls := s.calls ++ [(data.drop off, false)] }, .ok off)
      | none => ({ s with eng := g, need := false, calls := s.calls ++ [(data.drop off, false)] }, .raised e)
  else ({ s with need := false }, .ok off)

/-- The loop of `feed_application_data` - ssl_pipe.py:340-373. -/
def appLoop : Nat → St E → Bytes → Nat → List Wire → St E × Res (List Wire × Nat)
  | 0, s, _, _, _ => (s, .hang)
  | f + 1, s, data, off, acc =>
    match appWrite s data off with
    | (s1, .raised e) => (s1, .raised e)
    | (s1, .hang) => (s1, .hang)
    | (s1, .ok off1) =>
      let s2 := (drainW s1).1
      let acc2 := acc ++ (drainW s1).2
      if off1 = data.length ∨ s2.need = true then (s2, .ok (acc2, off1))
      else appLoop f s2 data off1 acc2

/-- `SSLPipe.feed_application_data` - ssl_pipe.py:309-373. -/
def feedApp (c : Cfg) (s : St E) (data : Bytes) (off : Nat) : St E × Res (List Wire × Nat) :=
  if s.ps = .unwrapped then
    ({ s with sent := s.sent ++ data.drop off },
      .ok (if off < data.length then [.plain (data.drop off)] else [], data.length))
  else appLoop c.fuel s data off []

/-- After a mark `offset` is one - ssl_transport_layer.py:346-351. -/
def markRes : St E × Res (List Wire) → St E × Res (List Wire × Nat)
  | (s, .ok ssl) => (s, .ok (ssl, 1))
  | (s, .raised e) => (s, .raised e)
  | (s, .hang) => (s, .hang)

/-- What is done with one entry of the backlog: the chunks to be written and the new offset -
ssl_transport_layer.py:340-351. -/
def entry (c : Cfg) (s : St E) (data : Bytes) (off : Nat) : St E × Res (List Wire × Nat) :=
  match data with
  | _ :: _ => feedApp c s data off
  | [] => markRes (if off ≠ 0 then doHandshake c s else pipeShutdown c s)

/-- The loop of `_process_write_backlog` - ssl_transport_layer.py:339-367. -/
def procLoop (c : Cfg) : Nat → St E → St E × Res Unit
  | 0, s => (s, .ok ())
  | k + 1, s =>
    match s.backlog with
    | [] => (s, .raised (.other 0))
    | (data, off) :: rest =>
      match entry c s data off with
      | (s1, .raised e) => (s1, .raised e)
      | (s1, .hang) => (s1, .hang)
      | (s1, .ok (ssl, off1)) =>
        let s2 := trWrites s1 ssl
        if off1 < data.length then
          if s2.need then ({ s2 with backlog := (data, off1) :: rest }, .ok ())
          else ({ s2 with backlog := (data, off1) :: rest }, .raised .assertion)
        else procLoop c k { s2 with backlog := rest }

/-- `_fatal_error` - ssl_transport_layer.py:377-382. -/
def fatalError (s : St E) : St E :=
  let s1 : St E := { s with fatal := true }
  if s1.tr then trForce s1 else s1

/-- The `except` of `_process_write_backlog` - ssl_transport_layer.py:369-373. -/
def procEnd (c : Cfg) : St E × Res Unit → St E × Res Unit
  | (s, .ok _) => (s, .ok ())
  | (s, .hang) => ({ s with hung := true }, .hang)
  | (s, .raised e) => if s.inHs then (hsErr c s e, .raised e) else (fatalError s, .ok ())

/-- `_process_write_backlog` - ssl_transport_layer.py:327-373. -/
def process (c : Cfg) (s : St E) : St E × Res Unit :=
  if s.tr then procEnd c (procLoop c s.backlog.length s) else (s, .ok ())

/-- `_write_application_data` - ssl_transport_layer.py:271-281. -/
def writeApp (c : Cfg) (s : St E) (data : Bytes) : St E × Res Unit :=
  process c { s with backlog := s.backlog ++ [(data, 0)] }

/-- `close` - ssl_transport_layer.py:419-422. -/
def close (c : Cfg) (s : St E) : St E × Res Unit :=
  if s.closing then (s, .ok ()) else writeApp c { s with closing := true } []

/-- `abort` - ssl_transport_layer.py:426-432. -/
def abort (c : Cfg) (s : St E) : St E :=
  if s.tr then trClose c (trForce { s with aborted := true }) else s

/-- The loop over the application data in `data_received` - ssl_transport_layer.py:236-242. -/
def deliver (c : Cfg) (s : St E) : List Bytes → St E × Res Unit
  | [] => (s, .ok ())
  | [] :: _ => close c s
  | (b :: bs) :: rest => deliver c { s with app := s.app ++ [.data (b :: bs)] } rest

/-- `data_received` - ssl_transport_layer.py:226-242. -/
def dataReceived (c : Cfg) (s : St E) (data : Bytes) : St E × Res Unit :=
  match feedSsl c s data false with
  | (s1, .ok (ssl, appData)) => deliver c (trWrites s1 ssl) appData
  | (s1, .raised e) => if e.isSsl then (abort c s1, .ok ()) else (s1, .raised e)
  | (s1, .hang) => ({ s1 with hung := true }, .hang)

/-- `eof_received` - ssl_transport_layer.py:246-255. -/
def eofReceived (c : Cfg) (s : St E) : St E :=
  let s1 := wake s (some .reset)
  trClose c (if s1.inHs then s1 else { s1 with app := s1.app ++ [.eof] })

/-- `connection_made` - ssl_transport_layer.py:194-201. -/
def connectionMade (s : St E) : St E :=
  { s with tr := true, eng := E.init, ps := .unwrapped, need := false, inHs := true,
           backlog := s.backlog ++ [([], 1)], sched := s.sched + 1 }

/-- `connection_lost` - ssl_transport_layer.py:205-212. The scheduled call of the wrapped protocol is recorded at
once. -/
def connectionLost (s : St E) (e : Option Err) : St E :=
  let s1 : St E := if s.est then { s with est := false, app := s.app ++ [.lost] } else s
  wake { s1 with tr := false } e

/-- What can happen to a layer: the underlying transport calls it (`made`, `data`, `eof`, `lost`), the event loop runs
a scheduled `_process_write_backlog` (`tick`), somebody calls `write`, `close` or `abort`. -/
inductive Op where
  | made | tick | data (b : Bytes) | eof | lost (e : Option Err) | write (b : Bytes) | close | abort
  deriving DecidableEq, Repr

/-- One operation. -/
def stepLive (c : Cfg) (s : St E) : Op → St E × Res Unit
  | .made => (connectionMade s, .ok ())
  | .tick => if s.sched = 0 then (s, .ok ()) else process c { s with sched := s.sched - 1 }
  | .data b => if s.tr then dataReceived c s b else (s, .ok ())
  | .eof => if s.tr then (eofReceived c s, .ok ()) else (s, .ok ())
  | .lost e => if s.tr then (connectionLost s e, .ok ()) else (s, .ok ())
  | .write b => match b with | [] => (s, .ok ()) | d => writeApp c s d
  | .close => close c s
  | .abort => (abort c s, .ok ())

/-- One operation; nothing happens to a layer that hangs. -/
def step (c : Cfg) (s : St E) (op : Op) : St E × Res Unit :=
  if s.hung then (s, .hang) else stepLive c s op

/-- A run. -/
def run (c : Cfg) (s : St E) : List Op → St E
  | [] => s
  | op :: ops => run c (step c s op).1 ops

/-- A new layer - ssl_transport_layer.py:110-135. -/
def init (E : Engine) : St E := { eng := E.init }

end Verif.Ssl
