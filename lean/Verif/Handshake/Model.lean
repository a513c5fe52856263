import Verif.Header.Disposition
import Verif.Multipart.Model

/-!
# The opening handshake of web sockets

Model of `WebSocketClient.__new__` (`scarletio/web_socket/web_socket_client.py`) and of `WebSocketServerProtocol.handshake`
(`scarletio/web_socket/web_socket_server_protocol.py`).

* Headers are the lists of values of their names (`Verif.MultiDict`: `get_all`, and `__setitem__`, which adds a value).  `Date` and `Server`
  headers are left out.
* SHA 1 with the base 64 encoding of its result is a parameter, so are the checks of parameters of extensions and the order in which a
  `set` of texts is iterated over.
* `b64decode(..., validate = True)` is as in strict mode (Python 3.11 and later); what it gives is of no interest but for its length.
* How requests and responses are written and read is `Verif.Http`; that of redirects and connections is `Verif.Redirect`, `Verif.Pool`.
-/
namespace Verif.Handshake
open Verif.Header (Text Answer Parameter parseConnections parseUpgrades parseExtensions buildSubprotocols buildExtensions lowerChar)

abbrev Bytes := List UInt8

inductive Field where
  | connection | upgrade | key | accept | version | origin | extensions | protocol | host | authorization
  | other (name : Text)
deriving DecidableEq, Repr

/-- The values of a name; there is no `[]` in the dictionary, which is `None` of `get_all`. -/
abbrev Headers := Field → List Text

def Headers.empty : Headers := fun _ => []

/-- `headers[name] = value`, multi_value_dictionary.py lines 141-149. -/
def Headers.add (h : Headers) (f : Field) (v : Text) : Headers := fun g => if g = f ∧ v ∉ h f then h g ++ [v] else h g

/-- The loop over additional headers: web_socket_client.py lines 251-252, web_socket_server_protocol.py lines 490-491. -/
def Headers.addAll (h : Headers) (extra : List (Field × Text)) : Headers := extra.foldl (fun h e => h.add e.1 e.2) h

def lower (t : Text) : Text := t.map lowerChar

def tUpgrade : Text := ['u', 'p', 'g', 'r', 'a', 'd', 'e']
def tUpgradeCapital : Text := ['U', 'p', 'g', 'r', 'a', 'd', 'e']
def tWebsocket : Text := ['w', 'e', 'b', 's', 'o', 'c', 'k', 'e', 't']
def t13 : Text := ['1', '3']

/-- `WEB_SOCKET_KEY`, web_socket_common_protocol.py line 29. -/
def guid : Text := ['2', '5', '8', 'E', 'A', 'F', 'A', '5', '-', 'E', '9', '1', '4', '-', '4', '7', 'D', 'A', '-', '9', '5', 'C', 'A', '-',
  'C', '5', 'A', 'B', '0', 'D', 'C', '8', '5', 'B', '1', '1']

/-- `get_all`, and parsing all the values of a name; `none` is a `ValueError`. -/
def collect {α : Type} (parse : Text → Answer (List α)) : List Text → Option (List α)
  | [] => some []
  | value :: values => match parse value with
    | some (.ok l) => match collect parse values with
      | some m => some (l ++ m)
      | none => none
    | _ => none

/-- `any(value.lower() == 'upgrade' for value in connections)`. -/
def upgrades (connections : List Text) : Bool := connections.any fun value => lower value = tUpgrade

inductive UpgradeCheck where
  | passed | refused
  /-- `upgrade[0]` of an empty list -/
  | indexError
deriving DecidableEq, Repr

/-- `len(upgrade) != 1 and upgrade[0].lower() != 'websocket'`: web_socket_client.py line 292, web_socket_server_protocol.py line 313. -/
def checkUpgrade (upgrade : List Text) : UpgradeCheck :=
  if upgrade.length ≠ 1 then
    match upgrade with
    | [] => .indexError
    | value :: _ => if lower value ≠ tWebsocket then .refused else .passed
  else .passed

structure Extension where
  name : Text
  requestParameters : List Parameter
  /-- `are_valid_parameters`, with the names of the extensions which were accepted before -/
  valid : List Parameter → List Text → Bool

/-- The loop over the extensions of a header: web_socket_client.py lines 332-343, web_socket_server_protocol.py lines 407-419.  `none` is
`InvalidHandshake`. -/
def matchExtensions (available : List Extension) : List (Text × List Parameter) → List Text → Option (List Text)
  | [], accepted => some accepted
  | (name, parameters) :: rest, accepted =>
    match available.find? fun e => e.name = name && e.valid parameters accepted with
    | some e => matchExtensions available rest (accepted ++ [e.name])
    | none => none

/-! ### Server -/

def b64Char (c : Char) : Bool :=
  ('A' ≤ c && c ≤ 'Z') || ('a' ≤ c && c ≤ 'z') || ('0' ≤ c && c ≤ '9') || c = '+' || c = '/'

/-- `len(b64decode(key.encode(), validate = True))`; `none` is a `BinasciiError`. -/
def decodedLength : Text → Option Nat
  | [] => some 0
  | a :: b :: c :: d :: rest =>
    if b64Char a && b64Char b then
      if b64Char c then
        if b64Char d then (decodedLength rest).map (· + 3)
        else if d = '=' && rest = [] then some 2 else none
      else if c = '=' && d = '=' && rest = [] then some 1 else none
    else none
  | _ => none

/-- The loop of lines 465-469. -/
def pickFrom (offered available : List Text) : List Text → Nat → Option Text → Option Text
  | [], _, selected => selected
  | s :: rest, lowest, selected =>
    if offered.idxOf s + available.idxOf s < lowest then pickFrom offered available rest (offered.idxOf s + available.idxOf s) (some s)
    else pickFrom offered available rest lowest selected

/-- Lines 455-471; `order` iterates over a `set`. -/
def pick (order : List Text → List Text) (offered available : List Text) : Option Text :=
  pickFrom offered available (order (offered.filter (· ∈ available))) (offered.length + available.length) none

/-- What a `request_processor` can give as a parameter of an `AbortHandshake`. -/
inductive Value where
  | text (t : Text)
  | bytes (data : Bytes)
  /-- a `http.HTTPStatus` -/
  | status (code : Nat)
  | int (n : Int)
deriving DecidableEq, Repr

structure Abort where
  message : Value
  code : Value
deriving DecidableEq, Repr

structure Server where
  /-- `server.is_serving()` -/
  serving : Bool
  /-- what the `request_processor` gives -/
  early : Option Abort
  /-- the parameter `origin` of the server -/
  origin : Option Text
  extensions : Option (List Extension)
  subprotocols : Option (List Text)
  selector : Option (List Text → List Text → Option Text)
  extra : List (Field × Text)

structure Request where
  method : Text
  version : Nat × Nat
  headers : Headers

/-- What becomes of the connection. -/
inductive Reply where
  /-- the response `101`, with its headers, and the handler is run -/
  | accepted (headers : Headers) (subprotocol : Option Text) (extensions : List Text)
  /-- an error response -/
  | refused (status : Nat)
  /-- only the head of a response -/
  | head (status : Nat)
  /-- nothing, and the connection stays open -/
  | silent
  /-- nothing, and the connection is closed -/
  | dropped

/-- An `AbortHandshake` is handled: lines 517-524, and 555-580 with `write_http_response` (http_protocol.py lines 743-766). -/
def abortReply (a : Abort) : Reply :=
  match a.message with
  | .text t =>
    if t.getLast? = some '\n' then
      match a.code with
      | .status code => .head code
      | _ => .silent
    else .dropped
  | _ => .dropped

def Server.acceptKey (digest : Text → Text) (key : Text) : Text := digest (key ++ guid)

/-- `a in b` of texts. -/
def inside (a : Text) : Text → Bool
  | [] => a.isEmpty
  | c :: b => a.isPrefixOf (c :: b) || inside a b

/-- What `__new__` assigns to `self.origin`, lines 180 and 190. -/
def Server.originAssigned (s : Server) : List (Option Text) := [s.origin, none]

/-- `handshake` lines 366-387, `own` is the attribute `self.origin`; whether `InvalidOrigin` is raised.  The local name `origin` is the header
when it is looked for in `origin`. -/
def originRefusedFor (own : Option Text) (h : Headers) : Bool :=
  match own with
  | none => false
  | some _ => match h .origin with
    | [origin] => !inside origin origin
    | _ => true

def Server.originRefused (s : Server) (h : Headers) : Bool := originRefusedFor (s.originAssigned.getLast?.getD none) h

/-- Lines 389-432; `.inl` is a status, otherwise the extensions (and never a header). -/
def Server.extensionsOf (s : Server) (h : Headers) : Nat ⊕ List Text :=
  match s.extensions with
  | none => .inr []
  | some available => match collect parseExtensions (h .extensions) with
    | none => .inl 500
    | some parsed => match matchExtensions available parsed [] with
      | none => .inl 400
      -- `build_extensions` of tuples, which have no `name`
      | some accepted => if parsed = [] then .inr accepted else .inl 500

/-- Lines 435-473; `none` is a `ValueError`. -/
def Server.subprotocolOf (order : List Text → List Text) (s : Server) (h : Headers) : Option (Option Text) :=
  match s.subprotocols with
  | none => some none
  | some available =>
    if h .protocol = [] then some none
    else match collect parseConnections (h .protocol) with
      | none => none
      | some offered => match s.selector with
        | some select => some (select offered available)
        | none => some (pick order offered available)

/-- The headers of the response, lines 475-491. -/
def Server.respond (digest : Text → Text) (s : Server) (key : Text) (subprotocol : Option Text) : Headers :=
  let h := ((Headers.empty.add .upgrade tWebsocket).add .connection tUpgradeCapital).add .accept (Server.acceptKey digest key)
  let h := match subprotocol with
    | none => h
    | some p => h.add .protocol p
  h.addAll s.extra

/-- Lines 318-364: the key and the version. -/
def checkKey (h : Headers) : Option Text :=
  match h .key with
  | [key] =>
    if decodedLength key = some 16 then
      match h .version with
      | [v] => if v = t13 then some key else none
      | _ => none
    else none
  | _ => none

/-- Lines 296-316: the headers `Connection` and `Upgrade`; a status if they are refused. -/
def checkConnection (h : Headers) : Option Nat :=
  match collect parseConnections (h .connection) with
  | none => some 500
  | some connections =>
    if upgrades connections then
      match collect parseUpgrades (h .upgrade) with
      | none => some 500
      | some upgrade => match checkUpgrade upgrade with
        | .indexError => some 500
        | .refused => some 426
        | .passed => none
    else some 426

/-- What a server that does not serve raises, lines 290-294. -/
def shutdownAbort : Abort := ⟨.status 503, .text "Server is shutting down.".toList⟩

/-- `handshake`, lines 257-582.  `AbortHandshake(SERVICE_UNAVAILABLE, 'Server is shutting down.')` has its parameters in the wrong order. -/
def Server.handshake (digest : Text → Text) (order : List Text → List Text) (s : Server) (r : Request) : Reply :=
  if !s.serving then abortReply shutdownAbort
  else match s.early with
    | some a => abortReply a
    | none => match checkConnection r.headers with
      | some status => .refused status
      | none => match checkKey r.headers with
        | none => .refused 400
        | some key =>
          if s.originRefused r.headers then .refused 403
          else match s.extensionsOf r.headers with
            | .inl status => .refused status
            | .inr extensions => match s.subprotocolOf order r.headers with
              | none => .refused 500
              | some subprotocol => .accepted (s.respond digest key subprotocol) subprotocol extensions

/-! ### Client -/

structure Url where
  /-- `url.host` and `url.raw_host` -/
  host : Text
  rawHost : Text
  /-- the port of the text -/
  port : Option Nat
  ssl : Bool
  user : Option Text
  password : Option Text
deriving DecidableEq, Repr

/-- `url.port`, url.py lines 876-892. -/
def Url.portOrDefault (u : Url) : Nat := u.port.getD (if u.ssl then 443 else 80)

structure Client where
  url : Url
  origin : Option Text
  extensions : Option (List Extension)
  subprotocols : Option (List Text)
  extra : List (Field × Text)

/-- Lines 227-230. -/
def Url.hostHeader (u : Url) : Text :=
  if u.portOrDefault = (if u.ssl then 443 else 80) then u.host else u.host ++ ':' :: Nat.toDigits 10 u.portOrDefault

def ascii (data : Bytes) : Text := data.map fun b => Char.ofNat b.toNat

/-- `b64encode(urandom(16)).decode()`, line 219. -/
def keyOf (nonce : Bytes) : Text := ascii (Multipart.b64 nonce)

/-- The headers of the request, lines 219-257.  `none` is an exception: a `BasicAuthorization` has no `encode` (line 237). -/
def Client.request (c : Client) (nonce : Bytes) : Option Headers :=
  let h := (((Headers.empty.add .upgrade tWebsocket).add .connection tUpgradeCapital).add .key (keyOf nonce)).add .version t13
  let h := h.add .host c.url.hostHeader
  if c.url.user ≠ none ∨ c.url.password ≠ none then none
  else
    let h := match c.origin with
      | none => h
      | some origin => h.add .origin origin
    let h := match c.extensions with
      | none => h
      | some extensions => h.add .extensions (buildExtensions (extensions.map fun e : Extension => (e.name, e.requestParameters)))
    let h := match c.subprotocols with
      | none => h
      | some subprotocols => h.add .protocol (buildSubprotocols subprotocols)
    some (h.addAll c.extra)

structure Response where
  version : Nat × Nat
  status : Nat
  headers : Headers

inductive Verdict where
  | opened (subprotocol : Option Text) (extensions : List Text)
  | invalidHandshake
  | valueError
  | indexError
deriving DecidableEq, Repr

/-- Lines 319-343; `.inl` is an exception. -/
def Client.extensionsOf (c : Client) (h : Headers) : Verdict ⊕ List Text :=
  if h .extensions = [] then .inr []
  else match c.extensions with
    | none => .inl .invalidHandshake
    | some available => match collect parseExtensions (h .extensions) with
      | none => .inl .valueError
      | some parsed => match matchExtensions available parsed [] with
        | none => .inl .invalidHandshake
        | some accepted => .inr accepted

/-- Lines 345-370. -/
def Client.subprotocolOf (c : Client) (h : Headers) : Verdict ⊕ Option Text :=
  if h .protocol = [] then .inr none
  else match c.subprotocols with
    | none => .inl .invalidHandshake
    | some available => match collect parseConnections (h .protocol) with
      | none => .inl .valueError
      | some [] => .inl .indexError
      | some [p] => if p ∈ available then .inr (some p) else .inl .invalidHandshake
      | some (_ :: _ :: _) => .inl .invalidHandshake

/-- Lines 273-296: `Connection` and `Upgrade`. -/
def checkResponseConnection (h : Headers) : Option Verdict :=
  match collect parseConnections (h .connection) with
  | none => some .valueError
  | some connections =>
    if upgrades connections then
      match collect parseUpgrades (h .upgrade) with
      | none => some .valueError
      | some upgrade => match checkUpgrade upgrade with
        | .indexError => some .indexError
        | .refused => some .invalidHandshake
        | .passed => none
    else some .invalidHandshake

/-- The check of the response, lines 261-370. -/
def Client.check (digest : Text → Text) (c : Client) (nonce : Bytes) (r : Response) : Verdict :=
  if r.version ≠ (1, 1) then .invalidHandshake
  else if r.status ≠ 101 then .invalidHandshake
  else match checkResponseConnection r.headers with
    | some v => v
    | none =>
      if r.headers .accept ≠ [digest (keyOf nonce ++ guid)] then .invalidHandshake
      else match c.extensionsOf r.headers with
        | .inl v => v
        | .inr extensions => match c.subprotocolOf r.headers with
          | .inl v => v
          | .inr subprotocol => .opened subprotocol extensions

end Verif.Handshake
