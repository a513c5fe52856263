import Verif.Rotation.Model

/-!
# Connecting to hosts, directly and through proxies

Model of `ConnectorTCP.resolve_host_iterator`, `get_ssl_context`, `get_ssl_fingerprint`, `create_direct_connection` and
`create_proxy_connection`, `scarletio/http_client/connector_tcp.py`, of `HostInfo` of `host_info.py`, of `SSLFingerprint` of
`ssl_fingerprint.py`, of `Connection.close` and `ConnectorBase.release`, of `connection.py` and `connector_base.py`.

Exceptions are numbers with the one thing the code asks of them, whether they are `OSError`-s. What is at the other end of a
connection is a `Peer`. Hash functions are a parameter. The body, headers and parsing of the `CONNECT` request and its response are
not modelled, only how it ends.
-/

namespace Verif.Connect

abbrev Text := List Char
abbrev Bytes := List UInt8

/-- `HostInfo`, host_info.py lines 8-65. -/
structure HostInfo where
  family : Nat
  flags : Nat
  host : Text
  hostName : Text
  port : Nat
  protocol : Nat
  deriving DecidableEq

/-- `HostInfo.from_ip`, host_info.py lines 68-94. -/
def fromIp (host : Text) (port family : Nat) : HostInfo := ⟨family, 0, host, host, port, 0⟩

/-- An entry of what `get_address_info` gives: the family, the protocol and the address; its type and canonical name are not used. -/
structure AddressInfo where
  family : Nat
  protocol : Nat
  host : Text
  port : Nat

/-- `HostInfo.from_address_info`, host_info.py lines 97-125, with `AI_NUMERICHOST`. -/
def fromAddressInfo (hostName : Text) (a : AddressInfo) : HostInfo := ⟨a.family, 4, a.host, hostName, a.port, a.protocol⟩

/-- An exception. -/
structure Err where
  os : Bool
  id : Nat
  deriving DecidableEq

/-- The result a waiter of a lookup gets. The baskets are shared, so other requests may have rotated them. -/
inductive Answer where
  | found (basket : Rotation.Basket HostInfo)
  | failed (e : Err)
  | cancelled

/-- What ends the iteration, if not its end. -/
inductive Raise where
  /-- `ConnectionError(..., 'Resolve task failed.')` -/
  | resolveFailed (cause : Err)
  /-- `ConnectionError(..., 'Resolve task cancelled.')` -/
  | resolveCancelled
  | raw (e : Err)
  deriving DecidableEq

/-- What is cached for a host: its basket and whether it is expired. -/
structure Cached where
  basket : Rotation.Basket HostInfo
  expired : Bool

/-- `resolve_host_iterator`, connector_tcp.py lines 236-286: what is yielded if nobody stops it, and how it ends. `ip` is whether the
host is an address. -/
def iterate (ip : Bool) (host : Text) (port family : Nat) (cached : Option Cached) (answer : Answer) : List HostInfo × Option Raise :=
  if ip then ([fromIp host port family], none)
  else
    let expired := match cached with
      | none => true
      | some c => c.expired
    let old := match cached with
      | none => []
      | some c => (Rotation.next c.basket).1
    if expired then
      match answer with
      | .found b => (old ++ (Rotation.next b).1.filter (fun i => match cached with
          | none => true
          | some c => ! c.basket.hostInfos.contains i), none)
      | .failed e => (old, some (if e.os then .resolveFailed e else .raw e))
      | .cancelled => (old, some .resolveCancelled)
    else (old, none)

/-- `SSLContext`, only whether it verifies. -/
structure Context where
  id : Nat
  verifies : Bool
  deriving DecidableEq

/-- `SSL_CONTEXT_UNVERIFIED`, constants.py lines 34-36: the context has the verify mode of `SSLContext(PROTOCOL_SSLv23)`, `CERT_NONE`. -/
def unverified : Context := ⟨0, false⟩

/-- A certificate, and whether it is one a verifying context accepts for the host. -/
structure Certificate where
  bytes : Bytes
  trusted : Bool
  deriving DecidableEq

/-- `SSLFingerprint.__new__`, ssl_fingerprint.py lines 25-58: only the length of `sha256` is left. -/
def fingerprint (value : Bytes) : Option Bytes :=
  if value.length = 16 ∨ value.length = 20 then none
  else if value.length = 32 then some value
  else none

/-- `ClientRequest`: `is_secure`, `ssl_context`, `ssl_fingerprint`. -/
structure Request where
  secure : Bool
  context : Option Context
  fingerprint : Option Bytes

/-- `ConnectorTCP` -/
structure Connector where
  context : Option Context
  fingerprint : Option Bytes

/-- `get_ssl_context`, connector_tcp.py lines 334-345. -/
def sslContext (c : Connector) (r : Request) : Option Context :=
  if ! r.secure then none
  else match r.context with
    | some x => some x
    | none => match c.context with
      | some x => some x
      | none => some unverified

/-- `get_ssl_fingerprint`, connector_tcp.py lines 361-370. -/
def sslFingerprint (c : Connector) (r : Request) : Option Bytes :=
  if ! r.secure then none
  else match r.fingerprint with
    | some x => some x
    | none => c.fingerprint

/-- What is at the other end. -/
inductive Peer where
  /-- connecting ends with an `OSError` -/
  | refuses (id : Nat)
  /-- connecting ends with something else -/
  | breaks (id : Nat)
  /-- it shows this certificate, if it is asked to -/
  | serves (c : Certificate)

/-- What awaiting `create_connection_to` ends with. -/
inductive Attempt where
  | connected (c : Option Certificate)
  | ssl
  | os (id : Nat)
  | other (id : Nat)

/-- `create_connection_to` with a context and without, as seen by the connector. -/
def attempt (x : Option Context) : Peer → Attempt
  | .refuses e => .os e
  | .breaks e => .other e
  | .serves c => match x with
    | none => .connected none
    | some x => if x.verifies && ! c.trusted then .ssl else .connected (some c)

/-- `SSLFingerprint.check`, ssl_fingerprint.py lines 61-96. -/
def matches? (sha256 : Bytes → Bytes) (value : Bytes) : Option Certificate → Bool
  | none => true
  | some c => sha256 c.bytes == value

inductive Cause where
  | os (id : Nat)
  | mismatch
  deriving DecidableEq

/-- How connecting ends. -/
inductive Got where
  /-- the `i`-th connection was made and is returned, this is the certificate of its other end -/
  | protocol (i : Nat) (c : Option Certificate)
  | sslError
  | other (id : Nat)
  | raised (r : Raise)
  | unreachable (causes : List Cause)
  | proxyError (status : Nat)

/-- With the addresses tried, the connections made and those closed. -/
structure Result where
  tried : List HostInfo := []
  opened : List Nat := []
  closed : List Nat := []
  got : Got

/-- The loop of `create_direct_connection`, connector_tcp.py lines 397-437: `i` counts the addresses, `causes` are those before. -/
def loop (sha256 : Bytes → Bytes) (context : Option Context) (fp : Option Bytes) (stop : Option Raise) :
    Nat → List Cause → List (HostInfo × Peer) → Result
  | _, causes, [] => { got := match stop with
      | some r => .raised r
      | none => .unreachable causes }
  | i, causes, (h, p) :: l =>
    match attempt context p with
    | .ssl => { tried := [h], got := .sslError }
    | .other e => { tried := [h], got := .other e }
    | .os e =>
      let r := loop sha256 context fp stop (i + 1) (causes ++ [.os e]) l
      { r with tried := h :: r.tried }
    | .connected c =>
      if (match fp with
        | none => true
        | some v => matches? sha256 v c)
      then { tried := [h], opened := [i], got := .protocol i c }
      else
        let r := loop sha256 context fp stop (i + 1) (causes ++ [.mismatch]) l
        { r with tried := h :: r.tried, opened := i :: r.opened, closed := i :: r.closed }

/-- `create_direct_connection`, connector_tcp.py lines 373-437. `peers` are the addresses the iterator would give, with what is there. -/
def direct (sha256 : Bytes → Bytes) (c : Connector) (r : Request) (peers : List (HostInfo × Peer)) (stop : Option Raise) : Result :=
  loop sha256 (sslContext c r) (sslFingerprint c r) stop 0 [] peers

/-- `server_host_name` of a direct connection, connector_tcp.py line 409: `host_name.rstrip('.')` -/
def directName (h : HostInfo) : Text := (h.hostName.reverse.dropWhile (· == '.')).reverse

/-- `server_host_name` behind a proxy, connector_tcp.py line 525: `request.host`. -/
def proxyName (host : Text) : Text := host

/-- `Proxy`: whether its url is secure, and its ssl settings. -/
structure Proxy where
  secure : Bool
  context : Option Context
  fingerprint : Option Bytes

/-- How `response.start_processing()` ends. -/
inductive Tunnel where
  | fails (id : Nat)
  | status (n : Nat)

/-- `create_proxy_connection`, connector_tcp.py lines 464-552. `closed` is whether the connector is closed when the response ends:
`Connection.close`, connection.py lines 159-168, closes by `ConnectorBase.release`, connector_base.py lines 292-303, which does nothing then. -/
def proxied (sha256 : Bytes → Bytes) (c : Connector) (r : Request) (p : Proxy) (peers : List (HostInfo × Peer)) (stop : Option Raise)
    (closed : Bool) (t : Tunnel) (target : Peer) : Result :=
  let d := direct sha256 c ⟨p.secure, p.context, p.fingerprint⟩ peers stop
  match d.got with
  | .protocol i _ =>
    match t with
    | .fails e => { d with closed := if closed then d.closed else i :: d.closed, got := .other e }
    | .status n =>
      if n ≠ 200 then { d with closed := i :: d.closed, got := .proxyError n }
      else if ! r.secure then { d with got := .protocol i none }
      else match attempt (sslContext c r) target with
        | .connected x => { d with got := .protocol i x }
        | .ssl => { d with closed := i :: d.closed, got := .sslError }
        | .os e => { d with closed := i :: d.closed, got := .unreachable [.os e] }
        | .other e => { d with closed := i :: d.closed, got := .other e }
  | _ => d

end Verif.Connect
