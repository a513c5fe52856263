/-!
# The cookie jar

Model of `CookieJar`, `do_domains_match` and `do_paths_match` of `scarletio/web_common/cookiejar.py`.

* Text is `List Char`.  `is_ip_address` is a parameter.
* Times are integers, in milliseconds; the monotonic clock `LOOP_TIME` is read once for every call, and its value is a
  parameter.
* Of a `Morsel` there are the fields the jar looks at.  `Max-Age` is absent, not a number, or a number; `Expires` is
  absent (or not a date), or a time; see `Verif.Cookie.Date` for the text of it.
* `del cookie['domain']` of line 334, without a host behind it, leaves a morsel without the key `domain`, for which
  `filter_cookies` raises `KeyError`; here it has an empty domain.
* Pickling (`__getstate__`, `__setstate__`) is left out.
-/

namespace Verif.Cookie

abbrev Text := List Char

/-- A `Morsel` with its name. -/
structure Cookie where
  name : Text
  value : Text
  domain : Text := []
  path : Text := []
  secure : Bool := false
  maxAge : Option (Option Int) := none
  expires : Option Int := none
deriving DecidableEq, Repr

/-! ### Dictionaries -/

section
variable {κ β : Type} [DecidableEq κ]

def dget (l : List (κ × β)) (k : κ) : Option β := (l.find? (·.1 = k)).map (·.2)

def dput (l : List (κ × β)) (k : κ) (b : β) : List (κ × β) :=
  if l.any (·.1 = k) then l.map fun e => if e.1 = k then (k, b) else e else l ++ [(k, b)]

def dpop (l : List (κ × β)) (k : κ) : List (κ × β) := l.filter (·.1 ≠ k)
end

/-- `CookieJar`; `acceptIps` is `unsafe`. -/
structure Jar where
  cookies : List (Text × List (Text × Cookie)) := []
  hostOnly : List (Text × Text) := []
  acceptIps : Bool := false
  next : Int
  expirations : List ((Text × Text) × Int) := []

/-- `ceil` of seconds. -/
def ceilSecond (t : Int) : Int := -(-t / 1000) * 1000

/-- `MAX_TIME`, cookiejar.py line 21. -/
def maxTime : Int := 2051215261000

/-- `CookieJar.__init__`, cookiejar.py lines 189-202. -/
def Jar.new (acceptIps : Bool) (now : Int) : Jar := { acceptIps, next := ceilSecond now }

/-- `CookieJar.clear`, cookiejar.py lines 222-229. -/
def Jar.clear (jar : Jar) (now : Int) : Jar := { jar with cookies := [], hostOnly := [], next := ceilSecond now, expirations := [] }

/-- `cookies[domain].pop(name, None)` -/
def popCookie (cookies : List (Text × List (Text × Cookie))) (k : Text × Text) : List (Text × List (Text × Cookie)) :=
  cookies.map fun e => if e.1 = k.1 then (e.1, dpop e.2 k.2) else e

/-- `_do_expiration`, cookiejar.py lines 254-281. -/
def Jar.doExpiration (jar : Jar) (now : Int) : Jar :=
  if now < jar.next then jar
  else if jar.expirations = [] then jar
  else
    let gone := (jar.expirations.filter fun e => e.2 < now).map (·.1)
    let rest := jar.expirations.filter fun e => !(e.2 < now)
    { jar with
      cookies := gone.foldl popCookie jar.cookies
      hostOnly := jar.hostOnly.filter (· ∉ gone)
      expirations := rest
      next := ceilSecond (rest.foldl (fun t e => min t e.2) maxTime) }

/-- `_expire_cookie`, cookiejar.py lines 283-297. -/
def Jar.expireCookie (jar : Jar) (time : Int) (k : Text × Text) : Jar :=
  { jar with next := min jar.next time, expirations := dput jar.expirations k time }

/-- `do_domains_match`, cookiejar.py lines 105-131. -/
def domainsMatch (isIp : Text → Bool) (domain host : Text) : Bool :=
  if host = domain then true
  else if !domain.isSuffixOf host then false
  else
    let front := if domain = [] then [] else host.take (host.length - domain.length)
    if front.getLast? ≠ some '.' then false
    else !isIp host

/-- `do_paths_match`, cookiejar.py lines 134-168. -/
def pathsMatch (request cookie : Text) : Bool :=
  let request := if request.head? ≠ some '/' then ['/'] else request
  if request = cookie then true
  else if !cookie.isPrefixOf request then false
  else if cookie.getLast? = some '/' then true
  else if cookie.length ≥ request.length then false
  else if request[cookie.length]? = some '/' then true
  else false

/-- `'/' + path[1:path.rfind('/')]`, cookiejar.py lines 346-352: up to the last slash. -/
def defaultPath (path : Text) : Text :=
  if path.head? = some '/' then
    '/' :: ((path.take (path.length - 1 - (path.reverse.takeWhile (· ≠ '/')).length)).drop 1)
  else ['/']

/-- A cookie without a domain is for its host only, cookiejar.py lines 330-338: the jar with the flag, and the domain. -/
def Jar.flag (jar : Jar) (host : Option Text) (name domain : Text) : Jar × Text :=
  match host with
  | some h =>
    if domain = [] then ({ jar with hostOnly := if (h, name) ∈ jar.hostOnly then jar.hostOnly else jar.hostOnly ++ [(h, name)] }, h)
    else (jar, domain)
  | none => (jar, domain)

/-- `Max-Age`, and without it `Expires`, cookiejar.py lines 354-370. -/
def Jar.expireAttributes (jar : Jar) (now : Int) (c : Cookie) (k : Text × Text) : Jar :=
  match c.maxAge with
  | some (some seconds) => jar.expireCookie (now + seconds * 1000) k
  | some none => jar
  | none => match c.expires with
    | some time => jar.expireCookie time k
    | none => jar

/-- One turn of the loop of `update_cookies`, cookiejar.py lines 320-372. -/
def Jar.updateOne (isIp : Text → Bool) (now : Int) (host : Option Text) (responsePath : Text) (jar : Jar) (c : Cookie) : Jar :=
  let domain := if c.domain.getLast? = some '.' then [] else c.domain
  let flagged := jar.flag host c.name domain
  let jar := flagged.1
  let domain := flagged.2
  let domain := if domain.head? = some '.' then domain.drop 1 else domain
  if host.any fun h => h ≠ [] && !domainsMatch isIp domain h then jar
  else
    let path := if c.path.head? = some '/' then c.path else defaultPath responsePath
    let jar := jar.expireAttributes now c (domain, c.name)
    { jar with
      cookies := dput jar.cookies domain
        (dput ((dget jar.cookies domain).getD []) c.name { c with domain := domain, path := path }) }

/-- `update_cookies`, cookiejar.py lines 299-374. -/
def Jar.update (isIp : Text → Bool) (now : Int) (host : Option Text) (responsePath : Text) (jar : Jar) (cookies : List Cookie) : Jar :=
  if !jar.acceptIps && host.any isIp then jar
  else (cookies.foldl (Jar.updateOne isIp now host responsePath) jar).doExpiration now

/-- `request_url` -/
structure Request where
  /-- `raw_host`, or the empty text. -/
  host : Text
  path : Text
  /-- The scheme is `https` or `wss`. -/
  secure : Bool
deriving DecidableEq, Repr

/-- A cookie goes with a request, cookiejar.py lines 403-424. -/
def sends (isIp : Text → Bool) (jar : Jar) (request : Request) (c : Cookie) : Bool :=
  if c.domain = [] then true
  else if !jar.acceptIps && isIp request.host then false
  else if (c.domain, c.name) ∈ jar.hostOnly then
    if c.domain ≠ request.host then false
    else if !pathsMatch request.path c.path then false
    else !(!request.secure && c.secure)
  else if !domainsMatch isIp c.domain request.host then false
  else if !pathsMatch request.path c.path then false
  else !(!request.secure && c.secure)

/-- `__iter__`, cookiejar.py lines 231-243, without the expiration. -/
def Jar.all (jar : Jar) : List Cookie := jar.cookies.flatMap fun e => e.2.map (·.2)

/-- `filter_cookies`, cookiejar.py lines 376-429: what is sent, as the dictionary of names and values, and the jar after
it.  The second expiration is the one of `__iter__`. -/
def Jar.filter (isIp : Text → Bool) (now : Int) (jar : Jar) (request : Request) : List (Text × Text) × Jar :=
  let jar := (jar.doExpiration now).doExpiration now
  (((jar.all.filter (sends isIp jar request)).foldl (fun d c => dput d c.name c.value) []), jar)

inductive Op
  | update (now : Int) (host : Option Text) (responsePath : Text) (cookies : List Cookie)
  | clear (now : Int)
  | filter (now : Int) (request : Request)
deriving DecidableEq, Repr

def Jar.step (isIp : Text → Bool) (jar : Jar) : Op → Jar
  | .update now host responsePath cookies => jar.update isIp now host responsePath cookies
  | .clear now => jar.clear now
  | .filter now request => (jar.filter isIp now request).2

def Jar.runAll (isIp : Text → Bool) (jar : Jar) (ops : List Op) : Jar := ops.foldl (Jar.step isIp) jar

end Verif.Cookie
