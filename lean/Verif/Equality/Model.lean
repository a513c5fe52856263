/-!
# Equality and hashes of values

Modelled code: `__eq__` and `__hash__` of `http_client/connection_key.py` (104–165),
`http_client/host_info.py` (181–241), `http_client/request_info.py` (82–130),
`http_client/proxy.py` (125–203), `web_common/basic_authorization.py` (102–139),
`web_common/keep_alive_info.py` (75–105), `dns_query/question.py` (65–103),
`dns_query/resource_record.py` (87–140), `dns_query/query.py` (91–147), `dns_query/result.py`
(145–236), `freeze_headers` of `web_common/helpers.py` (348–362), `utils/ignore_case_string.py`
(68–89), the comparisons of `TimerHandle` (`core/event_loop/handles.py` 252–300).

Texts, contexts, urls and so on are numbers, their hashes are given by any functions. Hashes are
natural numbers, combined as the code does it. Headers are a dictionary, not `None`. Methods are called with a value of the same type, unless said otherwise.
-/

namespace Verif.Equality

/-- Any hashes of the parts; `h` of one value, `hs` of a tuple of values. -/
structure Hashes where
  h : Nat → Nat
  hs : List Nat → Nat

/-- `hash_value ^= hash(x)` unless it is `None`. -/
def xorSome (f : Nat → Nat) (acc : Nat) : Option Nat → Nat
  | some x => acc ^^^ f x
  | none => acc

/-! ## Connection keys, host infos, credentials, keep alive infos -/

structure ConnectionKey where
  host : Nat
  port : Nat
  proxy : Option Nat
  secure : Bool
  sslContext : Option Nat
  sslFingerprint : Option Nat
  deriving DecidableEq, Repr

/-- `connection_key.py` 104–133. -/
def ConnectionKey.eq (a b : ConnectionKey) : Bool :=
  if a.host ≠ b.host then false
  else if a.port ≠ b.port then false
  else if a.proxy ≠ b.proxy then false
  else if a.secure ≠ b.secure then false
  else if a.sslContext ≠ b.sslContext then false
  else if a.sslFingerprint ≠ b.sslFingerprint then false
  else true

/-- `connection_key.py` 136–165. -/
def ConnectionKey.hash (H : Hashes) (a : ConnectionKey) : Nat :=
  let v := 0
  let v := v ^^^ H.h a.host
  let v := v ^^^ (a.port <<< 17)
  let v := xorSome H.h v a.proxy
  let v := v ^^^ a.secure.toNat
  let v := xorSome H.h v a.sslContext
  xorSome H.h v a.sslFingerprint

structure HostInfo where
  family : Nat
  flags : Nat
  host : Nat
  hostName : Nat
  port : Nat
  protocol : Nat
  deriving DecidableEq, Repr

/-- `host_info.py` 181–210. -/
def HostInfo.eq (a b : HostInfo) : Bool :=
  if a.family ≠ b.family then false
  else if a.flags ≠ b.flags then false
  else if a.host ≠ b.host then false
  else if a.hostName ≠ b.hostName then false
  else if a.port ≠ b.port then false
  else if a.protocol ≠ b.protocol then false
  else true

/-- `host_info.py` 213–241. -/
def HostInfo.hash (H : Hashes) (a : HostInfo) : Nat :=
  let v := 0
  let v := v ^^^ H.h a.family
  let v := v ^^^ H.h a.flags
  let v := v ^^^ H.h a.host
  let v := if a.host ≠ a.hostName then v ^^^ H.h a.hostName else v
  let v := v ^^^ (a.port <<< 17)
  v ^^^ H.h a.protocol

structure BasicAuthorization where
  encoding : Nat
  password : Nat
  userId : Nat
  deriving DecidableEq, Repr

/-- `basic_authorization.py` 102–119. -/
def BasicAuthorization.eq (a b : BasicAuthorization) : Bool :=
  if a.encoding ≠ b.encoding then false
  else if a.password ≠ b.password then false
  else if a.userId ≠ b.userId then false
  else true

/-- `basic_authorization.py` 122–139. `default` is the default encoding; the empty password is 0. -/
def BasicAuthorization.hash (H : Hashes) (default : Nat) (a : BasicAuthorization) : Nat :=
  let v := 0
  let v := if a.encoding ≠ default then v ^^^ H.h a.encoding else v
  let v := if a.password ≠ 0 then v ^^^ H.h a.password else v
  v ^^^ H.h a.userId

structure KeepAliveInfo where
  timeout : Nat
  maxRequests : Nat
  deriving DecidableEq, Repr

/-- `keep_alive_info.py` 75–87. -/
def KeepAliveInfo.eq (a b : KeepAliveInfo) : Bool :=
  if a.timeout ≠ b.timeout then false
  else if a.maxRequests ≠ b.maxRequests then false
  else true

/-- `keep_alive_info.py` 90–105. -/
def KeepAliveInfo.hash (H : Hashes) (defaultTimeout defaultMax : Nat) (a : KeepAliveInfo) : Nat :=
  let v := 0
  let v := if a.timeout ≠ defaultTimeout then v ^^^ H.h a.timeout else v
  if a.maxRequests ≠ defaultMax then v ^^^ (a.maxRequests <<< 8) else v

/-! ## Messages of the domain name system -/

structure Question where
  labels : Option Nat
  type : Nat
  classCode : Nat
  deriving DecidableEq, Repr

/-- `question.py` 65–82. -/
def Question.eq (a b : Question) : Bool :=
  if a.labels ≠ b.labels then false
  else if a.type ≠ b.type then false
  else if a.classCode ≠ b.classCode then false
  else true

/-- `hash_value ^= 1 << bit` and `hash_value ^= hash(x)` unless it is `None`. -/
def xorMarked (f : Nat → Nat) (bit : Nat) (acc : Nat) : Option Nat → Nat
  | some x => acc ^^^ (1 <<< bit) ^^^ f x
  | none => acc

/-- `question.py` 85–103. -/
def Question.hash (H : Hashes) (a : Question) : Nat :=
  let v := xorMarked H.h 0 0 a.labels
  let v := v ^^^ (a.type <<< 1)
  v ^^^ (a.classCode <<< 5)

structure ResourceRecord where
  labels : Option Nat
  type : Nat
  classCode : Nat
  validity : Nat
  data : Option Nat
  deriving DecidableEq, Repr

/-- `resource_record.py` 87–112. -/
def ResourceRecord.eq (a b : ResourceRecord) : Bool :=
  if a.labels ≠ b.labels then false
  else if a.type ≠ b.type then false
  else if a.classCode ≠ b.classCode then false
  else if a.validity ≠ b.validity then false
  else if a.data ≠ b.data then false
  else true

/-- `resource_record.py` 115–140. -/
def ResourceRecord.hash (H : Hashes) (a : ResourceRecord) : Nat :=
  let v := xorMarked H.h 0 0 a.labels
  let v := v ^^^ (a.type <<< 5)
  let v := v ^^^ (a.classCode <<< 9)
  let v := v ^^^ a.validity
  xorSome H.h v a.data

/-- The tuples of questions and of records, or `None`, are numbers. -/
structure Query where
  transaction : Nat
  recursion : Bool
  verification : Bool
  questions : Option Nat
  additional : Option Nat
  deriving DecidableEq, Repr

/-- `query.py` 91–116. -/
def Query.eq (a b : Query) : Bool :=
  if a.transaction ≠ b.transaction then false
  else if a.recursion ≠ b.recursion then false
  else if a.verification ≠ b.verification then false
  else if a.questions ≠ b.questions then false
  else if a.additional ≠ b.additional then false
  else true

/-- `query.py` 119–147. -/
def Query.hash (H : Hashes) (a : Query) : Nat :=
  let v := 0 ^^^ a.transaction
  let v := v ^^^ (a.recursion.toNat <<< 16)
  let v := v ^^^ (a.verification.toNat <<< 17)
  let v := xorMarked H.h 18 v a.questions
  xorMarked H.h 19 v a.additional

structure Result where
  transaction : Nat
  verified : Bool
  truncated : Bool
  recursion : Bool
  code : Nat
  questions : Option Nat
  answers : Option Nat
  authority : Option Nat
  additional : Option Nat
  deriving DecidableEq, Repr

/-- `result.py` 145–186. -/
def Result.eq (a b : Result) : Bool :=
  if a.transaction ≠ b.transaction then false
  else if a.verified ≠ b.verified then false
  else if a.truncated ≠ b.truncated then false
  else if a.recursion ≠ b.recursion then false
  else if a.code ≠ b.code then false
  else if a.questions ≠ b.questions then false
  else if a.answers ≠ b.answers then false
  else if a.authority ≠ b.authority then false
  else if a.additional ≠ b.additional then false
  else true

/-- `result.py` 189–236: computes a hash, and returns `True`. -/
def Result.hash (H : Hashes) (a : Result) : Nat :=
  let v := 0 ^^^ a.transaction
  let v := v ^^^ (a.verified.toNat <<< 16)
  let v := v ^^^ (a.truncated.toNat <<< 17)
  let v := v ^^^ (a.recursion.toNat <<< 18)
  let v := v ^^^ (a.code <<< 19)
  let v := xorMarked H.h 23 v a.questions
  let v := xorMarked H.h 24 v a.answers
  let v := xorMarked H.h 25 v a.authority
  let _v := xorMarked H.h 26 v a.additional
  1

/-! ## Headers -/

/-- A text is the list of its characters. -/
abbrev Text := List Nat

/-- An `IgnoreCaseMultiValueDictionary`: its items in order, the names as they were written. Names are
unique up to their case. -/
abbrev Headers := List (Text × List Text)

/-- No two names are the same up to case. -/
def Unique (fold : Text → Text) (hs : Headers) : Prop := (hs.map (fun x => fold x.1)).Nodup

/-- `dict.__eq__` of two such dictionaries: as many items, and each is found with the same values. -/
def headersEq (fold : Text → Text) (a b : Headers) : Bool :=
  a.length == b.length && a.all (fun x => b.any (fun y => fold x.1 == fold y.1 && x.2 == y.2))

/-- `sorted` by the names as they were written: `IgnoreCaseString` has `__lt__` of `str`. -/
def insert (x : Text × List Text) : Headers → Headers
  | [] => [x]
  | y :: ys => if x.1 ≤ y.1 then x :: y :: ys else y :: insert x ys

def sorted : Headers → Headers
  | [] => []
  | x :: xs => insert x (sorted xs)

/-- `freeze_headers` (`helpers.py` 361–362), as its hash sees it: the hash of a name is that of its
folded text (`ignore_case_string.py` 71). -/
def freeze (fold : Text → Text) (hs : Headers) : List (Text × List Text) :=
  (sorted hs).map (fun x => (fold x.1, x.2))

/-- The other parts of a `RequestInfo` or a `Proxy`, with its headers. -/
structure RequestInfo where
  headers : Headers
  method : Nat
  originalUrl : Nat
  url : Nat
  deriving DecidableEq, Repr

/-- `request_info.py` 82–103. -/
def RequestInfo.eq (fold : Text → Text) (a b : RequestInfo) : Bool :=
  if headersEq fold a.headers b.headers = false then false
  else if a.method ≠ b.method then false
  else if a.originalUrl ≠ b.originalUrl then false
  else if a.url ≠ b.url then false
  else true

/-- `request_info.py` 106–130. `hf`: the hash of the frozen headers. -/
def RequestInfo.hash (fold : Text → Text) (H : Hashes) (hf : List (Text × List Text) → Nat)
    (a : RequestInfo) : Nat :=
  let v := 0
  let v := if a.headers ≠ [] then v ^^^ hf (freeze fold a.headers) else v
  let v := v ^^^ H.h a.method
  let v := v ^^^ H.h a.originalUrl
  if a.url ≠ a.originalUrl then v ^^^ H.h a.url else v

/-- A `Proxy`; `rest` are the parts other than the headers. The headers may be changed by whoever has
the proxy. `cache` is `_hash_cache`. -/
structure Proxy where
  headers : Headers
  rest : Nat
  cache : Option Nat := none
  deriving DecidableEq, Repr

/-- `proxy.py` 177–203. -/
def Proxy.eq (fold : Text → Text) (a b : Proxy) : Bool :=
  headersEq fold a.headers b.headers && a.rest == b.rest

/-- `proxy.py` 134–174. -/
def Proxy.createHash (fold : Text → Text) (H : Hashes) (hf : List (Text × List Text) → Nat)
    (a : Proxy) : Nat :=
  (if a.headers ≠ [] then hf (freeze fold a.headers) else 0) ^^^ H.h a.rest

/-- `proxy.py` 125–132: the hash, and the proxy afterwards. -/
def Proxy.hash (fold : Text → Text) (H : Hashes) (hf : List (Text × List Text) → Nat) (a : Proxy) :
    Nat × Proxy :=
  match a.cache with
  | some v => (v, a)
  | none => (a.createHash fold H hf, { a with cache := some (a.createHash fold H hf) })

/-- `proxy.headers[name] = value` of a name that is not there yet. -/
def Proxy.addHeader (a : Proxy) (name : Text) (value : Text) : Proxy :=
  { a with headers := a.headers ++ [(name, [value])] }

/-! ## Strings that ignore case -/

/-- What is compared: a string that ignores case, a `str`, something else. -/
inductive Value
  | ignoreCase (t : Text) | str (t : Text) | other (n : Nat)
  deriving DecidableEq, Repr

/-- What a comparison gives. -/
inductive Cmp
  | yes | no | typeError
  deriving DecidableEq, Repr

def Cmp.ofBool : Bool → Cmp
  | true => .yes
  | false => .no

/-- `IgnoreCaseString(t) == x` (`ignore_case_string.py` 74–89): `issubclass` of an object which is
not a type raises. -/
def icsEq (fold : Text → Text) (t : Text) : Value → Cmp
  | .ignoreCase u => .ofBool (fold t == fold u)
  | .str u => .ofBool (fold t == fold u)
  | .other _ => .typeError

/-- `a == b`. The method of a string that ignores case is asked first on either side, as its type is
a subtype of `str`. An object which is no string knows no strings, so that the other side is asked. -/
def valueEq (fold : Text → Text) : Value → Value → Cmp
  | .ignoreCase t, x => icsEq fold t x
  | x, .ignoreCase t => icsEq fold t x
  | .str t, .str u => .ofBool (t == u)
  | .other n, .other m => .ofBool (n == m)
  | _, _ => .no

/-- `a != b` of strings: `__ne__` is that of `str`. -/
def valueNe : Value → Value → Cmp
  | .ignoreCase t, .ignoreCase u => .ofBool (t != u)
  | .ignoreCase t, .str u => .ofBool (t != u)
  | .str t, .ignoreCase u => .ofBool (t != u)
  | .str t, .str u => .ofBool (t != u)
  | .other n, .other m => .ofBool (n != m)
  | _, _ => .yes

/-- `hash(x)` (`ignore_case_string.py` 69–71), given that of texts and of other objects. -/
def valueHash (fold : Text → Text) (ht : Text → Nat) (ho : Nat → Nat) : Value → Nat
  | .ignoreCase t => ht (fold t)
  | .str t => ht t
  | .other n => ho n

/-! ## Timer handles -/

structure TimerHandle where
  when : Nat
  func : Nat
  args : Nat
  cancelled : Bool
  deriving DecidableEq, Repr

/-- `handles.py` 267–277. -/
def TimerHandle.eq (a b : TimerHandle) : Bool :=
  a.when == b.when && a.func == b.func && a.args == b.args && a.cancelled == b.cancelled

/-- `handles.py` 279–289. -/
def TimerHandle.ne (a b : TimerHandle) : Bool :=
  a.when != b.when || a.func != b.func || a.args != b.args || a.cancelled != b.cancelled

def TimerHandle.lt (a b : TimerHandle) : Bool := decide (a.when < b.when)
def TimerHandle.gt (a b : TimerHandle) : Bool := decide (a.when > b.when)

/-- `handles.py` 291–296. -/
def TimerHandle.le (a b : TimerHandle) : Bool := if a.when < b.when then true else a.eq b

/-- `handles.py` 260–265. -/
def TimerHandle.ge (a b : TimerHandle) : Bool := if a.when > b.when then true else a.eq b

/-- `handles.py` 252–254. -/
def TimerHandle.hash (H : Hashes) (a : TimerHandle) : Nat := H.h a.when

end Verif.Equality
