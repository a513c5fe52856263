import Verif.MultiDict.Model

/-!
# Requests of the HTTP client and redirects

Model of `ClientRequest.__new__` (`scarletio/http_client/client_request.py`) and of the loops of `HTTPClient._request` and
`HTTPClient._request2` (`http_client.py`).

* A header name is its case folded text (the constants of `web_common/headers.py` are `IgnoreCaseString`s; about spelling see C37),
  the ones the code knows are constructors.  Headers are the multi value dictionary of `Verif.MultiDict`.
* Of a `URL` there are scheme, user info, encoded host, explicit port and, as one text, the rest.
* What a server answers, and what the cookie jar gives for a url (C54), is arbitrary: it is the input of the loop.  A url in an
  answer is given as what `URL(...)` makes of it.
* `SimpleCookie.load` and `output`, the text of a basic authorization, `casefold` and the joining of paths are fields of `Tables`.
* `data` can be serialised.  The timeout, the connection and what is read from it are left out.
-/
namespace Verif.Redirect
open Verif.MultiDict

abbrev Text := List Char

/-- Header names, `web_common/headers.py`. -/
inductive Name where
  | host | cookie | authorization | contentLength | contentType | contentEncoding | transferEncoding | accept | acceptEncoding
  | other (name : Text)
deriving DecidableEq, Repr

/-- `IgnoreCaseMultiValueDictionary`. -/
abbrev Headers := Dict Name Text

/-- `headers.get_all(name)`, no values if there are none. -/
def Headers.values (h : Headers) (n : Name) : List Text := (Dict.get id h n).getD []

/-- `name in headers` -/
def Headers.has (h : Headers) (n : Name) : Bool := (Dict.get id h n).isSome

/-- `headers.get(name, None)` -/
def Headers.one (h : Headers) (n : Name) : Option Text := (h.values n).head?

/-- `headers[name] = value` -/
def Headers.add (h : Headers) (n : Name) (v : Text) : Headers := (step id h (.set n v)).1

/-- `headers.setdefault(name, value)` -/
def Headers.default (h : Headers) (n : Name) (v : Text) : Headers := (step id h (.setdefault n v)).1

/-- `try: del headers[name]`, `except KeyError: pass` -/
def Headers.del (h : Headers) (n : Name) : Headers := (step id h (.del n)).1

/-- `headers.pop(name, '')`, what is left of the headers -/
def Headers.pop (h : Headers) (n : Name) : Headers := (step id h (.popOne n true)).1

/-- `METHOD_...`, `web_common/headers.py` lines 6-15. -/
inductive Method where
  | get | head | post | connect
  | other (name : Text)
deriving DecidableEq, Repr

/-- `URL`. -/
structure Url where
  scheme : Option Text
  /-- user name and password -/
  user : Option (Option Text × Option Text)
  /-- `raw_host` -/
  host : Option Text
  port : Option Nat
  rest : Text
deriving DecidableEq, Repr

def http : Text := ['h', 't', 't', 'p']
def https : Text := ['h', 't', 't', 'p', 's']

/-- `DEFAULT_PORTS`, `web_common/url/constants.py` lines 104-109. -/
def defaultPort (scheme : Text) : Option Nat :=
  if scheme = http then some 80
  else if scheme = https then some 443
  else if scheme = ['w', 's'] then some 80
  else if scheme = ['w', 's', 's'] then some 443
  else none

/-- `str(n)` -/
def numberText (n : Nat) : Text := Nat.toDigits 10 n

/-- `URL.is_default_port`, `web_common/url/url.py` lines 585-608. -/
def Url.isDefaultPort (u : Url) : Bool :=
  match u.scheme with
  | none => false
  | some scheme => match defaultPort scheme with
    | none => false
    | some n => decide (n = u.port.getD n)

/-- `URL.port`, lines 877-892. -/
def Url.portOrDefault (u : Url) : Option Nat :=
  match u.port with
  | some n => some n
  | none => u.scheme.bind defaultPort

/-- `value_encoded` of `URL.origin()`, lines 656-684 and 293-388, for a url with the host `host`. -/
def Url.originText (u : Url) (host : Text) : Text :=
  (match u.scheme with
    | none => []
    | some scheme => scheme ++ [':', '/', '/'])
  ++ host
  ++ (match u.port with
    | none => []
    | some n => ':' :: numberText n)
  ++ ['/']

/-- `str.rstrip('.')` -/
def rstripDots (t : Text) : Text := (t.reverse.dropWhile (· = '.')).reverse

/-- `data`, and the payload `create_payload` or `generate_form` make of it. -/
structure Body where
  /-- `not data` -/
  empty : Bool
  size : Option Nat
  contentType : Text
  headers : List (Name × Text)
deriving DecidableEq, Repr

/-- Cookies: names and values, without duplicate names. -/
abbrev Cookies := List (Text × Text)

structure Tables where
  /-- `'chunked' in value.casefold()` -/
  hasChunked : Text → Bool
  /-- `SimpleCookie.load` into an empty one -/
  load : Text → Cookies
  /-- `SimpleCookie.output(header = '', sep = ';').strip()` -/
  output : Cookies → Text
  /-- `BasicAuthorization(user, password).to_header()`, `none` if it raises `ValueError` -/
  basic : Text → Text → Option Text
  /-- path, query and fragment of `URL.join` -/
  join : Text → Text → Text

inductive Error where
  /-- `ValueError`, no host -/
  | noHost
  /-- `TypeError`, a connect request without a proxied url -/
  | noProxied
  /-- `ValueError` of `BasicAuthorization` -/
  | authorization
  /-- `ValueError`, chunked is mutually exclusive with a content length -/
  | chunkedLength
  /-- `ConnectionError`, too many redirects -/
  | tooMany
  /-- `ConnectionError`, can redirect only to http or https -/
  | scheme
  /-- `ValueError`, not a url -/
  | notUrl
  /-- `ValueError`, the origin of a relative url -/
  | notAbsolute
deriving DecidableEq, Repr

/-- `ClientRequest`. -/
structure Request where
  method : Method
  url : Url
  headers : Headers
  body : Option Body
  chunked : Bool
deriving DecidableEq, Repr

/-- `cookie[key] = value` -/
def setCookie : Cookies → Text × Text → Cookies
  | [], p => [p]
  | q :: l, p => if q.1 = p.1 then p :: l else q :: setCookie l p

/-- Authorization: client_request.py lines 152-167. -/
def authorize (T : Tables) (url : Url) (h : Headers) (authorization : Option (Text × Text)) : Option Headers :=
  let given := match authorization with
    | some a => some a
    | none => match url.user with
      | none => none
      | some (name, password) => match name with
        | none => none
        | some name => if name = [] then none else some (name, password.getD [])
  match given with
  | none => some h
  | some (name, password) => (T.basic name password).map fun value => h.add .authorization value

/-- The port of the Host header: lines 177-180. -/
def Url.portText (url : Url) : Text :=
  if url.isDefaultPort then [] else
    match url.portOrDefault with
    | none => []
    | some n => ':' :: numberText n

/-- Host: lines 174-182. -/
def addHost (url : Url) (host : Text) (h : Headers) : Headers :=
  if h.has .host then h else h.add .host (rstripDots host ++ url.portText)

/-- Cookies: lines 185-204. -/
def addCookies (T : Tables) (cookies : Cookies) (h : Headers) : Headers :=
  if cookies = [] then h else
    let text := (h.one .cookie).getD []
    let loaded := if text = [] then [] else T.load text
    (h.pop .cookie).add .cookie (T.output (cookies.foldl setCookie loaded))

/-- Headers, if there is no data: lines 210-219. -/
def dropContent (h : Headers) : Headers :=
  (((h.del .contentEncoding).del .contentLength).del .contentType).del .transferEncoding

/-- Headers, if there is data: lines 221-263.  The last branch, a content length that is still not there, cannot be reached. -/
def addContent (T : Tables) (body : Body) (h : Headers) : Except Error (Headers × Bool) :=
  let chunked := T.hasChunked ((h.one .transferEncoding).getD []) || (h.one .contentEncoding).isSome
  let (h, chunked) :=
    if chunked then (h, true)
    else if h.has .contentLength then (h, false)
    else match body.size with
      | none => (h, true)
      | some n => (h.add .contentLength (numberText n), false)
  let h := if h.has .contentType then h else h.add .contentType body.contentType
  let h := body.headers.foldl (fun h e => h.default e.1 e.2) h
  if chunked then
    if h.has .contentLength then .error .chunkedLength else .ok (h.add .transferEncoding ['c', 'h', 'u', 'n', 'k', 'e', 'd'], true)
  else .ok (h, false)

/-- `ClientRequest.__new__`, lines 136-282. -/
def build (T : Tables) (method : Method) (url : Url) (h : Headers) (data : Option Body) (cookies : Cookies)
    (authorization : Option (Text × Text)) : Except Error Request :=
  match url.host with
  | none => .error .noHost
  | some host =>
    if method = .connect then .error .noProxied else
      match authorize T url h authorization with
      | none => .error .authorization
      | some h =>
        let h := (h.default .accept ['*', '/', '*']).default .acceptEncoding
          ['g', 'z', 'i', 'p', ',', ' ', 'd', 'e', 'f', 'l', 'a', 't', 'e']
        let h := addCookies T cookies (addHost url host h)
        match data.filter (fun body => !body.empty) with
        | none => .ok ⟨method, url, dropContent h, none, false⟩
        | some body => match addContent T body h with
          | .error e => .error e
          | .ok (h, chunked) => .ok ⟨method, url, h, some body, chunked⟩

/-- A response. -/
structure Answer where
  status : Nat
  /-- the first `Location` header, if any, and what `URL(...)` makes of it; `some none` is a `ValueError` -/
  location : Option (Option Url)
  /-- the same of the `URI` header -/
  uri : Option (Option Url)
deriving DecidableEq, Repr

/-- The url to redirect to: http_client.py lines 268-272 and 529-533. -/
def Answer.to (a : Answer) : Option (Option Url) :=
  match a.location with
  | none => a.uri
  | some u => some u

/-- One round of the loop: what the cookie jar gives, and what the server answers. -/
structure Turn where
  cookies : Cookies
  answer : Answer
deriving DecidableEq, Repr

inductive Result where
  /-- the response is returned -/
  | returned (answer : Answer)
  | raised (e : Error)
  /-- the last request is not answered yet -/
  | waiting
deriving DecidableEq, Repr

/-- http_client.py lines 257-260 and 520-523. -/
def becomesGet (status : Nat) (method : Method) : Bool :=
  (status = 303 && method ≠ .head) || ((status = 301 || status = 302) && method = .post)

/-- lines 263-266 and 526-528 (`second`) -/
def dropLength (second : Bool) (h : Headers) : Headers :=
  if second then
    match h.one .contentLength with
    | none => h
    | some value => if value = [] then h else h.del .contentLength
  else h.del .contentLength

/-- The url a response redirects to: lines 277-293 and 539-549. -/
def target (T : Tables) (url u : Url) : Except Error Url :=
  match u.scheme with
  | none => .error .scheme
  | some scheme =>
    if scheme = [] then .ok { url with rest := T.join url.rest u.rest }
    else if scheme = http ∨ scheme = https then .ok u
    else .error .scheme

/-- The authorization header, behind a redirect: lines 289-293; `_request2` has no such lines. -/
def keepAuthorization (second : Bool) (url u : Url) (h : Headers) : Except Error Headers :=
  if second then .ok h else
    match url.host, u.host with
    | some a, some b => .ok (if url.originText a ≠ u.originText b then h.del .authorization else h)
    | _, _ => .error .notAbsolute

/-- The loops of `_request` (lines 216-300) and `_request2` (lines 478-555, `second`): the requests made, and the end.  A list of
turns that is used up is a request which is not answered yet. -/
def run (T : Tables) (second : Bool) (authorization : Option (Text × Text)) :
    List Turn → Method → Url → Headers → Option Body → Int → List Request × Result
  | [], _, _, _, _, _ => ([], .waiting)
  | t :: ts, method, url, h, data, redirects =>
    match build T method url h data t.cookies authorization with
    | .error e => ([], .raised e)
    | .ok r =>
      if (t.answer.status = 301 ∨ t.answer.status = 302 ∨ t.answer.status = 303 ∨ t.answer.status = 307) ∧ redirects ≠ 0 then
        if redirects - 1 = 0 then ([r], .raised .tooMany)
        else
          let changes := becomesGet t.answer.status method
          match t.answer.to with
          | none => ([r], .returned t.answer)
          | some none => ([r], .raised .notUrl)
          | some (some u) => match target T url u with
            | .error e => ([r], .raised e)
            | .ok u => match keepAuthorization second url u (if changes then dropLength second r.headers else r.headers) with
              | .error e => ([r], .raised e)
              | .ok h =>
                let (rs, result) := run T second authorization ts (if changes then .get else method) u h
                  (if changes then none else data) (redirects - 1)
                (r :: rs, result)
      else ([r], .returned t.answer)

/-- `HTTPClient._request` -/
def request (T : Tables) (turns : List Turn) (method : Method) (url : Url) (h : Headers) (data : Option Body) (redirects : Int) :
    List Request × Result := run T false none turns method url h data redirects

/-- `HTTPClient._request2`.  (Giving `authorization` and an `Authorization` header is refused, lines 456-460.) -/
def request2 (T : Tables) (authorization : Option (Text × Text)) (turns : List Turn) (method : Method) (url : Url) (h : Headers)
    (data : Option Body) (redirects : Int) : List Request × Result := run T true authorization turns method url h data redirects

end Verif.Redirect
