/-!
# The connection pool of the HTTP client

Model of `ProtocolBasket` (`scarletio/http_client/protocol_basket.py`), of `ConnectorBase`
(`connector_base.py`) and of `Connection` (`connection.py`).

* Protocols are numbered in the order in which they are created.  What matters of a protocol is
  kept in `Proto`; anything that happens on its socket, or by reading its payload, is an
  operation `change`.
* Times are integers.
* Callbacks of connections are left out; the weak handle that calls `_clean_up` is left out, its
  calls are the operation `cleanUp`, which may happen at any time.
* The loop is running all the time.
-/

namespace Verif.Pool

/-- `ConnectionKey`: something to compare, and `secure`. -/
structure Key where
  host : Nat
  secure : Bool
deriving DecidableEq, Repr

/-- A protocol. -/
structure Proto where
  /-- The key it was created for. -/
  origin : Key
  /-- `get_transport()` is not `None`. -/
  transport : Bool := true
  /-- `close()` was called, or its transport was aborted. -/
  shut : Bool := false
  /-- `_payload_stream` is not `None`. -/
  streaming : Bool := false
  /-- `_exception` is not `None`. -/
  failed : Bool := false
  /-- `_at_eof` -/
  atEof : Bool := false
  /-- There is data that was not read: `_offset or _chunks`. -/
  buffered : Bool := false
deriving DecidableEq, Repr

/-- `HttpReadProtocol.should_close`, http_protocol.py lines 73-90. -/
def Proto.shouldClose (p : Proto) : Bool := p.streaming || p.failed || (!p.atEof && p.buffered)

/-- An element of `available`. -/
structure Item where
  protocol : Nat
  expiration : Int
  performed : Nat
deriving DecidableEq, Repr

/-- `ProtocolBasket`; `None` is `[]`, in which no field is ever left by a method. -/
structure Basket where
  available : List Item := []
  used : List Nat := []
deriving DecidableEq, Repr

/-- `protocols_by_host`, as the list of its items. -/
abbrev Baskets := List (Key × Basket)

/-- `protocols_by_host[key]`; a key that is missing is as good as an empty basket. -/
def Baskets.get (bs : Baskets) (k : Key) : Basket := ((bs.find? (·.1 = k)).map (·.2)).getD {}

/-- Storing a changed basket: an empty one is deleted, a new one goes to the end. -/
def Baskets.put (bs : Baskets) (k : Key) (b : Basket) : Baskets :=
  if b = {} then bs.filter (·.1 ≠ k)
  else if bs.any (·.1 = k) then bs.map fun e => if e.1 = k then (k, b) else e
  else bs ++ [(k, b)]

/-- `Connection` -/
structure Conn where
  key : Key
  protocol : Option Nat
  performed : Nat
deriving DecidableEq, Repr

structure State where
  protos : List Proto := []
  baskets : Baskets := []
  conns : List Conn := []
  /-- The `create_connection` calls that are waited for. -/
  pending : List Key := []
  closed : Bool := false
  forceClose : Bool := false
  now : Int := 0
deriving DecidableEq, Repr

/-- `protocol.close()`, and `transport.abort()`. -/
def shutOne (protos : List Proto) (p : Nat) : List Proto := protos.modify p fun x => { x with shut := true }

def shutAll (protos : List Proto) (ps : List Nat) : List Proto := ps.foldl shutOne protos

/-- The element with the lowest expiration, the first one of several, and the others,
protocol_basket.py lines 156-166. -/
def lowest : List Item → Option (Item × List Item)
  | [] => none
  | x :: xs => match lowest xs with
    | none => some (x, xs)
    | some (y, ys) => if y.expiration < x.expiration then some (y, x :: ys) else some (x, xs)

theorem lowest_length {items rest : List Item} {x : Item} (h : lowest items = some (x, rest)) :
    items.length = rest.length + 1 := by
  induction items generalizing x rest with
  | nil => cases h
  | cons y ys ih =>
    rw [lowest] at h
    split at h
    · cases h; rfl
    · rename_i z zs hz
      split at h
      · cases h; simp [ih hz]
      · cases h; rfl

/-- `pop_available_protocol`, protocol_basket.py lines 135-194: what is given, what stays available, and
the protocols that are closed. -/
def pop (protos : List Proto) (now : Int) (items : List Item) : Option Item × List Item × List Nat :=
  match _h : lowest items with
  | none => (none, [], [])
  | some (hit, rest) =>
    match protos[hit.protocol]? with
    | none => (none, rest, [])
    | some p =>
      if !p.transport then pop protos now rest
      else if hit.expiration < now || p.shouldClose then
        let r := pop protos now rest
        (r.1, r.2.1, hit.protocol :: r.2.2)
      else (some hit, rest, [])
termination_by items.length
decreasing_by
  · have := lowest_length _h; omega
  · have := lowest_length _h; omega

/-- `clean_up_expired_protocols`, protocol_basket.py lines 90-115: what stays. -/
def clean (now : Int) (b : Basket) : Basket := { b with available := b.available.filter fun x => now < x.expiration }

/-- The transports `clean_up_expired_protocols` aborts: only those of secure connections. -/
def cleaned (now : Int) (k : Key) (b : Basket) : List Nat :=
  if k.secure then (b.available.filter fun x => !(now < x.expiration)).map (·.protocol) else []

/-- What happens to a protocol. -/
inductive Change
  /-- The connection is lost: the protocol has no transport any more. -/
  | lost
  | eof
  | data
  | read
  | failed
  | streaming (b : Bool)
deriving DecidableEq, Repr

def Change.apply (p : Proto) : Change → Proto
  | .lost => { p with transport := false }
  | .eof => { p with atEof := true }
  | .data => { p with buffered := true }
  | .read => { p with buffered := false }
  | .failed => { p with failed := true }
  | .streaming b => { p with streaming := b }

/-- `KeepAliveInfo` -/
structure KeepAlive where
  timeout : Int
  maxRequests : Nat
deriving DecidableEq, Repr

inductive Op
  /-- The part of `ConnectorBase.connect` in front of the `await`, or all of it. -/
  | connect (k : Key)
  /-- The part of `ConnectorBase.connect` behind the `await`, for one of the calls. -/
  | created (i : Nat)
  /-- `create_connection` raises. -/
  | createFailed (i : Nat)
  /-- `Connection.release` -/
  | release (c : Nat) (info : Option KeepAlive)
  /-- `Connection.close`, and `Connection.__del__`, after which there is no connection. -/
  | close (c : Nat)
  /-- `Connection.detach` -/
  | detach (c : Nat)
  /-- `ConnectorBase._clean_up` -/
  | cleanUp
  /-- `ConnectorBase.close` -/
  | closeConnector
  | change (p : Nat) (x : Change)
  | tick (n : Nat)
deriving DecidableEq, Repr

/-- `ConnectorBase.add_used_protocol`, connector_base.py lines 187-208. -/
def addUsed (s : State) (k : Key) (p : Nat) : State :=
  let b := s.baskets.get k
  { s with baskets := s.baskets.put k { b with used := if p ∈ b.used then b.used else b.used ++ [p] } }

/-- `ConnectorBase.release_used_protocol`, connector_base.py lines 241-264. -/
def releaseUsed (s : State) (k : Key) (p : Nat) : State :=
  if s.closed then s
  else
    let b := s.baskets.get k
    { s with baskets := s.baskets.put k { b with used := b.used.filter (· ≠ p) } }

/-- `protocol.should_close()` -/
def shouldClose (s : State) (p : Nat) : Bool := match s.protos[p]? with
  | none => false
  | some x => x.shouldClose

/-- `ConnectorBase.release`, connector_base.py lines 267-308. -/
def connectorRelease (s : State) (k : Key) (p : Nat) (close : Bool) (timeout : Int) (performed : Nat) : State :=
  if s.closed then s
  else
    let s := releaseUsed s k p
    if close || s.forceClose || shouldClose s p then { s with protos := shutOne s.protos p }
    else
      let b := s.baskets.get k
      { s with baskets := s.baskets.put k { b with available := b.available ++ [⟨p, s.now + timeout, performed⟩] } }

/-- The connection has no protocol any more. -/
def forget (s : State) (c : Nat) : State := { s with conns := s.conns.modify c fun x => { x with protocol := none } }

/-- `Connection.release` decides to close, connection.py lines 183-204. -/
def connectionCloses (s : State) (p performed : Nat) (info : Option KeepAlive) : Bool :=
  shouldClose s p || match info with
    | none => true
    | some info => info.maxRequests ≠ 0 && info.maxRequests ≤ performed

def step (s : State) : Op → State
  | .connect k =>
    let b := s.baskets.get k
    let r := pop s.protos s.now b.available
    let s := { s with protos := shutAll s.protos r.2.2, baskets := s.baskets.put k { b with available := r.2.1 } }
    match r.1 with
    | none => { s with pending := s.pending ++ [k] }
    | some item =>
      let s := addUsed s k item.protocol
      { s with conns := s.conns ++ [⟨k, some item.protocol, item.performed⟩] }
  | .created i =>
    match s.pending[i]? with
    | none => s
    | some k =>
      let p := s.protos.length
      let s := { s with pending := s.pending.eraseIdx i }
      if s.closed then { s with protos := s.protos ++ [{ origin := k, shut := true }] }
      else
        let s := addUsed { s with protos := s.protos ++ [{ origin := k }] } k p
        { s with conns := s.conns ++ [⟨k, some p, 0⟩] }
  | .createFailed i => { s with pending := s.pending.eraseIdx i }
  | .release c info =>
    match s.conns[c]? with
    | none => s
    | some conn => match conn.protocol with
      | none => s
      | some p =>
        let performed := conn.performed + 1
        let s := forget s c
        if connectionCloses s p performed info then connectorRelease s conn.key p true (-1) performed
        else connectorRelease s conn.key p false ((info.map (·.timeout)).getD 0) performed
  | .close c =>
    match s.conns[c]? with
    | none => s
    | some conn => match conn.protocol with
      | none => s
      | some p => connectorRelease (forget s c) conn.key p true (-1) 0
  | .detach c =>
    match s.conns[c]? with
    | none => s
    | some conn => match conn.protocol with
      | none => s
      | some p => releaseUsed (forget s c) conn.key p
  | .cleanUp =>
    { s with
      protos := shutAll s.protos (s.baskets.flatMap fun e => cleaned s.now e.1 e.2)
      baskets := (s.baskets.map fun e => (e.1, clean s.now e.2)).filter fun e => e.2 ≠ {} }
  | .closeConnector =>
    if s.closed then s
    else
      { s with
        closed := true
        baskets := []
        protos := shutAll s.protos (s.baskets.flatMap fun e => e.2.available.map (·.protocol) ++ e.2.used) }
  | .change p x => { s with protos := s.protos.modify p (x.apply) }
  | .tick n => { s with now := s.now + n }

def runAll (s : State) (ops : List Op) : State := ops.foldl step s

end Verif.Pool
