/-!
# Resolving names

Modelled code: `scarletio/dns_query/requests.py` (`async_iter_execute_query_async` 58–238, which
transport the `_execute_query_*` functions 241–489 use, `get_address_info_async` 492–800,
`get_name_info_async` 803–949).

What a name server answers when it is asked over a transport is any function. Not modelled: the bytes
of messages (area Dns), parsing of numeric addresses, the order given by the sort list (area Dns) — the
addresses are compared before they are ordered —, canonical names, service names, scopes which are
names of interfaces. A `Task` whose timeout passes raises `TimeoutError`, the other failures of the
transports raise `OSError`s.
-/

namespace Verif.Resolve

/-- `preference_query_transport_type`. -/
inductive Pref
  | auto | udp | tcp | tls | other
  deriving DecidableEq, Repr

/-- `secure_connection_support_level`. -/
inductive Level
  | no | maybe | yes
  deriving DecidableEq, Repr

inductive Via
  | udp | tcp | tls
  deriving DecidableEq, Repr

/-- Types of records. -/
inductive Kind
  | v4 | v6 | pointer | other
  deriving DecidableEq, Repr

structure Question where
  name : Nat
  kind : Kind
  deriving DecidableEq, Repr

/-- A resource record: whose it is, its type, what its data gives when it is read as an address, what
when it is read as a name. -/
structure Record where
  name : Nat
  kind : Kind
  address : Option Nat
  pointer : Option Nat
  deriving DecidableEq, Repr

/-- How asking a server ends. `nothing`: `None` is returned. The records are those of `answers`, none
for `None`. -/
inductive Out
  | timeout | refused | osError | nothing | result (records : List Record)
  deriving DecidableEq, Repr

/-- What the servers answer. -/
abbrev World := Nat → Via → List Question → Out

/-- That a server was asked. -/
structure Ask where
  server : Nat
  via : Via
  questions : List Question
  deriving DecidableEq, Repr

/-- The configuration. `multiple`: `supports_multiple_questions_in_queries`. -/
structure Config where
  pref : Pref
  attempts : Nat
  count : Nat
  multiple : Nat → Bool

/-- `level` is kept with the name servers, the others are of one query: who was asked, which results
were yielded (by whom, to what), `name_server_skipped_due_to_secure_connection_not_being_available`. -/
structure S where
  level : Nat → Level
  log : List Ask := []
  got : List (Nat × List Question × List Record) := []
  skipped : Nat := 0

/-- The executors. -/
inductive Executor
  | udp | tcp | tls | tlsThenTcp
  deriving DecidableEq, Repr

def put (f : Nat → Level) (i : Nat) (x : Level) : Nat → Level := fun j => if j = i then x else f j

/-- `_execute_query_udp` 241, `_execute_query_tcp` 308, `_execute_query_tls` 373,
`_execute_query_tls_with_tcp_fallback` 476–489. -/
def ask (W : World) (i : Nat) (qs : List Question) (s : S) : Executor → Out × S
  | .udp => (W i .udp qs, { s with log := s.log ++ [⟨i, .udp, qs⟩] })
  | .tcp => (W i .tcp qs, { s with log := s.log ++ [⟨i, .tcp, qs⟩] })
  | .tls => (W i .tls qs, { s with log := s.log ++ [⟨i, .tls, qs⟩] })
  | .tlsThenTcp =>
    if W i .tls qs = .refused then
      (W i .tcp qs, { s with level := put s.level i .no, log := s.log ++ [⟨i, .tls, qs⟩, ⟨i, .tcp, qs⟩] })
    else (W i .tls qs, { s with log := s.log ++ [⟨i, .tls, qs⟩] })

/-- What is made of an answer. -/
inductive Verdict
  | got | not | raised
  deriving DecidableEq, Repr

/-- 151–171 with weight `len(questions)`, 191–214 with weight 1. -/
def judge (pref : Pref) (weight i : Nat) (qs : List Question) (o : Out) (s : S) : Verdict × S :=
  match o with
  | .timeout => (.not, s)
  | .refused => if pref = .tls then (.not, { s with skipped := s.skipped + weight }) else (.raised, s)
  | .osError => (.raised, s)
  | .nothing => (.not, s)
  | .result rs => (.got, { s with got := s.got ++ [(i, qs, rs)] })

/-- 119–141: which executor is taken; `none` of `some`: the server is skipped. -/
def choose (pref : Pref) (l : Level) : Option (Option Executor) :=
  match pref with
  | .auto =>
    match l with
    | .no => some (some .tcp)
    | .yes => some (some .tls)
    | .maybe => some (some .tlsThenTcp)
  | .udp => some (some .udp)
  | .tcp => some (some .tcp)
  | .tls => if l = .no then some none else some (some .tls)
  | .other => none

/-- 173–217: one question after the other. `none`: it raised. -/
def askEach (W : World) (pref : Pref) (i : Nat) (e : Executor) : List Question → Bool → S → Option Bool × S
  | [], any, s => (some any, s)
  | q :: qs, any, s =>
    match judge pref 1 i [q] (ask W i [q] s e).1 (ask W i [q] s e).2 with
    | (.got, s) => askEach W pref i e qs true s
    | (.not, s) => askEach W pref i e qs any s
    | (.raised, s) => (none, s)

/-- How a query ends: the generator returns, or raises. `failure permanent`: 226–238. -/
inductive End
  | returned | osError | noServer | undefined | failure (permanent : Bool)
  deriving DecidableEq, Repr

/-- 107–238 for the given positions. -/
def loop (W : World) (c : Config) (qs : List Question) : List Nat → S → End × S
  | [], s => (.failure (s.skipped == c.count * qs.length), s)
  | i :: is, s =>
    match choose c.pref (s.level i) with
    | none => (.undefined, s)
    | some none => loop W c qs is { s with skipped := s.skipped + qs.length }
    | some (some e) =>
      if c.multiple i = true ∨ qs.length = 1 then
        match judge c.pref qs.length i qs (ask W i qs s e).1 (ask W i qs s e).2 with
        | (.got, s) => (.returned, s)
        | (.not, s) => loop W c qs is s
        | (.raised, s) => (.osError, s)
      else
        match askEach W c.pref i e qs false s with
        | (some true, s) => (.returned, s)
        | (some false, s) => loop W c qs is s
        | (none, s) => (.osError, s)

/-- 107–114: the servers in their order. `start`: the transaction id when rotating, else 0. -/
def order (c : Config) (start : Nat) : List Nat :=
  (List.range (min c.attempts c.count)).map (fun k => (start + k) % c.count)

/-- `async_iter_execute_query_async`; no server: both tuples of them are `None`. -/
def execute (W : World) (c : Config) (start : Nat) (qs : List Question) (level : Nat → Level) : End × S :=
  if c.count = 0 then (.noServer, { level := level })
  else loop W c qs (order c start) { level := level }

/-! ## Address infos -/

inductive Family
  | v4 | v6
  deriving DecidableEq, Repr

/-- Types of sockets: datagram, stream, raw. -/
inductive Ty
  | dgram | stream | raw
  deriving DecidableEq, Repr

/-- How a call fails. -/
inductive Err
  | family | type | service | noName | query (e : End)
  deriving DecidableEq, Repr

/-- 587–605: none, one of the two, or one that is not supported. -/
def families (noV6 : Bool) : Option (Option Family) → Except Err (List Family)
  | none => if noV6 then .ok [.v4] else .ok [.v6, .v4]
  | some (some f) => .ok [f]
  | some none => .error .family

/-- The protocol numbers: 17 of datagrams, 6 of streams, 0 of raw sockets (611–619). -/
def types (port : Nat) : Option Ty → Except Err (List (Ty × Nat))
  | none => if port ≠ 0 then .ok [(.dgram, 17), (.stream, 6)] else .ok [(.dgram, 17), (.stream, 6), (.raw, 0)]
  | some .dgram => .ok [(.dgram, 17)]
  | some .stream => .ok [(.stream, 6)]
  | some .raw => .error .type

/-- 628–646: the first pair with the given protocol; 0 is none given. -/
def restrict (protocol : Nat) (ps : List (Ty × Nat)) : Except Err (List (Ty × Nat)) :=
  if protocol ≠ 0 then
    match ps.find? (fun x => x.2 == protocol) with
    | some x => .ok [x]
    | none => .error .service
  else .ok ps

/-- 728–730: which type is asked for. -/
def kindOf : Family → Kind
  | .v4 => .v4
  | .v6 => .v6

/-- 746–775: what a record adds. -/
def addressOf (fs : List Family) (r : Record) : Option (Family × Nat) :=
  match r.kind, r.address with
  | .v4, some a => if Family.v4 ∈ fs then some (.v4, a) else none
  | .v6, some a => if Family.v6 ∈ fs then some (.v6, a) else none
  | _, _ => none

/-- 720–781: the candidate names in order. The `k`th query finds the servers as `W k` and begins at
`start k`. -/
def lookup (W : Nat → World) (c : Config) (start : Nat → Nat) (fs : List Family) :
    List Nat → Nat → (Nat → Level) → Except Err (List (Family × Nat))
  | [], _, _ => .error .noName
  | n :: ns, k, level =>
    match execute (W k) c (start k) (fs.map (fun f => ⟨n, kindOf f⟩)) level with
    | (.returned, s) =>
      match s.got.flatMap (fun x => x.2.2.filterMap (addressOf fs)) with
      | [] => lookup W c start fs ns (k + 1) s.level
      | a :: as => .ok (a :: as)
    | (e, _) => .error (.query e)

/-- What is asked for: no host is given; a host with the addresses its text is (none when it is not
numeric) and its candidate names (`iter_labels_with_searches`). -/
inductive Host
  | loopback | host (as : List (Family × Nat)) (ns : List Nat)
  deriving DecidableEq, Repr

/-- An entry of the output: family, type, protocol, address, port. -/
structure Entry where
  family : Family
  type : Ty
  protocol : Nat
  address : Nat
  port : Nat
  deriving DecidableEq, Repr

/-- 664–719. -/
def addresses (W : Nat → World) (c : Config) (start : Nat → Nat) (level : Nat → Level) (fs : List Family)
    (numericHost : Bool) : Host → Except Err (List (Family × Nat))
  | .loopback => .ok (fs.map (fun f => match f with | .v4 => (.v4, 2130706433) | .v6 => (.v6, 1)))
  | .host as ns =>
    match as.filter (fun a => a.1 ∈ fs) with
    | a :: as => .ok (a :: as)
    | [] => if numericHost then .error .noName else lookup W c start fs ns 0 level

/-- `get_address_info_async`. -/
def addressInfo (W : Nat → World) (c : Config) (start : Nat → Nat) (level : Nat → Level) (noV6 : Bool)
    (host : Host) (port : Nat) (family : Option (Option Family)) (type : Option Ty) (protocol : Nat)
    (numericHost : Bool) : Except Err (List Entry) :=
  match families noV6 family with
  | .error e => .error e
  | .ok fs =>
    match types port type with
    | .error e => .error e
    | .ok ts =>
      match restrict protocol ts with
      | .error e => .error e
      | .ok ps =>
        match addresses W c start level fs numericHost host with
        | .error e => .error e
        | .ok as => .ok (as.flatMap (fun a => ps.map (fun p => ⟨a.1, p.1, p.2, a.2, port⟩)))

/-! ## Name infos -/

/-- What the name is: one that was looked up, the host as it was given, the address with its scope. -/
inductive Name
  | found (n : Nat) | given | address (scope : Option Nat)
  deriving DecidableEq, Repr

/-- 884–924 of an address `a`. `reversed`: the name of its reverse lookup. -/
def nameInfo (W : World) (c : Config) (start : Nat) (level : Nat → Level) (numericHost required : Bool)
    (scope : Option Nat) (reversed : Nat) : Except Err Name :=
  if numericHost then .ok (.address scope)
  else
    match execute W c start [⟨reversed, .pointer⟩] level with
    | (.returned, s) =>
      match s.got.findSome? (fun x => x.2.2.head?) with
      | some r =>
        match r.pointer with
        | some n => .ok (.found n)
        | none => .ok .given
      | none => if required then .error .noName else .ok (.address scope)
    | (e, _) => .error (.query e)

end Verif.Resolve
