import Verif.UrlText.Regex
import Verif.Url.Model

/-
Model of whole urls, as decoded texts.

Source: `/repo/scarletio/web_common/url/constants.py` (`HOST_RP` `6-69`, `URL_RP` `72-92`), `/repo/scarletio/web_common/url/url.py`
(`_create_host` `18-93`, `URL._create_from_string` `184-266`, `_build_value` `293-388`, `_build_host_into` `391-442`, `__bool__`
`460-490`, `__truediv__` `541-571`, `origin` `656-684`, `relative` `687-715`, `parent` `1039-1069`, `name` `1090-1104`, `with_*`
`1107-1564`, `join` `1567-1630`).

Only decoded texts (`encoded = False`): quoting is in the areas Quoting and Url, from which paths and queries are taken. `\d` and `\S`
are parameters (`Classes`): Python takes all decimal digits and all which is not a space. Warnings, caches and types of parameters
are left out.
-/
namespace Verif.UrlText

open Verif.Url (Query)

/-- `\d` and `\s` -/
structure Classes where
  digit : Char → Bool
  space : Char → Bool

/-! ### The patterns -/

variable (K : Classes)

def dig : Re := .chr K.digit
def range (a b : Char) : Re := .chr fun x => a ≤ x && x ≤ b
def hexDigit : Re := .chr fun x => isDigit x || ('a' ≤ x && x ≤ 'f') || ('A' ≤ x && x ≤ 'F')

/-- `[a-z¡-￿\U00010000-\U0010ffff0-9]` -/
def isWord (x : Char) : Bool := isLetter x || isDigit x || 0xa1 ≤ x.toNat
def word : Re := .chr isWord

/-- The same without digits. -/
def letter : Re := .chr fun x => isLetter x || 0xa1 ≤ x.toNat

/-- `1?\d{1,2}|2[0-4]\d|25[0-5]` -/
def byteMid : Re := alts [.seq (.opt (char '1')) ((dig K).between 1 2), seqs [char '2', range '0' '4', dig K], .seq (lit "25") (range '0' '5')]

/-- `0|[1-9]\d?|1\d\d|2[0-4]\d|25[0-5]` -/
def byteEnd : Re :=
  alts [char '0', .seq (range '1' '9') (.opt (dig K)), seqs [char '1', dig K, dig K], seqs [char '2', range '0' '4', dig K],
    .seq (lit "25") (range '0' '5')]

def dotMid : Re := .seq (char '.') (byteMid K)
def dotEnd : Re := .seq (char '.') (byteEnd K)

/-- The first group: private and local networks. -/
def localV4 : Re :=
  alts [
    seqs [.alt (lit "10") (lit "127"), (dotMid K).times 2, dotEnd K],
    seqs [.alt (lit "169.254") (lit "192.168"), dotMid K, dotEnd K],
    seqs [lit "172.", alts [.seq (char '1') (range '6' '9'), .seq (char '2') (dig K), .seq (char '3') (range '0' '1')], dotMid K, dotEnd K]]

/-- Other addresses. -/
def otherV4 : Re :=
  seqs [alts [.seq (range '1' '9') (.opt (dig K)), seqs [char '1', dig K, dig K], seqs [char '2', any "01", dig K],
      .seq (lit "22") (range '0' '3')],
    (dotMid K).times 2, dotEnd K]

def hex4 : Re := hexDigit.between 1 4
def hexColon : Re := .seq hex4 (char ':')
def colonHex : Re := .seq (char ':') hex4

/-- `25[0-5]|(?:2[0-4]|1?[0-9])?[0-9]` -/
def byte6 : Re :=
  .alt (.seq (lit "25") (range '0' '5'))
    (.seq (.opt (.alt (.seq (char '2') (range '0' '4')) (.seq (.opt (char '1')) (range '0' '9')))) (range '0' '9'))
def v4in6 : Re := .seq ((Re.seq byte6 (char '.')).times 3) byte6

def v6 : Re :=
  alts [
    .seq (hexColon.times 7) hex4,
    .seq (hexColon.between 1 7) (char ':'),
    seqs [hexColon.between 1 6, char ':', hex4],
    .seq (hexColon.between 1 5) (colonHex.between 1 2),
    .seq (hexColon.between 1 4) (colonHex.between 1 3),
    .seq (hexColon.between 1 3) (colonHex.between 1 4),
    .seq (hexColon.between 1 2) (colonHex.between 1 5),
    seqs [hex4, char ':', colonHex.between 1 6],
    .seq (char ':') (.alt (colonHex.between 1 7) (char ':')),
    seqs [lit "fe80:", (Re.seq (char ':') (hexDigit.upTo 4)).upTo 4, char '%', .opt (.chr fun x => isDigit x || isLetter x)],
    seqs [lit "::", .opt (seqs [lit "ffff", .opt (.seq (char ':') ((char '0').between 1 4)), char ':']), v4in6],
    seqs [hexColon.between 1 4, char ':', v4in6]]

/-- `(?:xn--|[...]-?)*[...]` -/
def label : Re := .seq (.many (.alt (lit "xn--") (.seq word (.opt (char '-'))))) word

/-- `HOST_RP`, lines 6-69. -/
def hostRp : Re :=
  alts [
    .cap 4 (localV4 K),
    .seq (.cap 5 (lit "localhost")) (.opt (.cap 6 (.plus (char '.')))),
    .cap 7 (otherV4 K),
    seqs [char '[', .cap 8 v6, char ']'],
    seqs [
      .opt (.seq (.cap 9 (.seq label (.opt (.many (.seq (char '.') label))))) (char '.')),
      .cap 10 label,
      char '.',
      .cap 11 (.seq ((Re.alt (.seq (lit "xn--") word) letter).times 2) (.many (.alt (.seq (lit "xn--") word) letter))),
      .opt (.cap 12 (.plus (char '.')))]]

/-- `[-a-z¡-￿\U00010000-\U0010ffff0-9._~%!$&'()*+,;=]` -/
def isName (x : Char) : Bool := isWord x || "-._~%!$&'()*+,;=".toList.any fun c => same c x
def isSecret (x : Char) : Bool := isName x || x == ':'
def isPath (x : Char) : Bool := isName x || x == ':' || x == '@' || x == '/'

def schemeRp : Re := .opt (.seq (.cap 1 (.lazyPlus (.chr fun x => isLetter x || isDigit x || x == '.' || x == '+' || x == '-'))) (char ':'))

def userRp : Re :=
  .opt (seqs [.opt (.cap 2 (.lazyPlus (.chr isName))), .opt (.seq (char ':') (.opt (.cap 3 (.plus (.chr isSecret))))), char '@'])

def authorityRp : Re :=
  .opt (seqs [.alt (.behind (· == some ':')) (.behind (· == none)), .opt (lit "//"), userRp, hostRp K,
    .opt (.seq (char ':') (.cap 13 ((dig K).between 2 5)))])

def pathRp : Re := .opt (.cap 14 (.seq (char '/') (.many (.chr isPath))))
def full : Re := .chr fun x => !K.space x
def queryRp : Re := .opt (.seq (char '?') (.opt (.cap 15 (.star false (full K)))))
def fragmentRp : Re := .opt (.seq (char '#') (.opt (.cap 16 (.plus (full K)))))

/-- `URL_RP`, lines 72-92. -/
def urlRp : Re := seqs [schemeRp, authorityRp K, pathRp, queryRp K, fragmentRp K]

/-! ### Urls -/

/-- `URLHostInfo`, of decoded texts. -/
abbrev Host := Url.HostKind

/-- `URL`. The path is its parts (`none` for both a missing path and one without parts) with whether there is one, the query
likewise. -/
structure Url where
  scheme : Option Text
  /-- `URLUserInfo`: the name and the password. -/
  user : Option (Option Text × Option Text)
  host : Option Host
  port : Option Nat
  path : Option (List Text)
  query : Option Query
  fragment : Option Text
deriving DecidableEq, Repr

/-- The last text of a group. -/
def group (g : List (Nat × Text)) (n : Nat) : Option Text := (g.find? (·.1 == n)).map (·.2)

/-- `_create_host`, lines 18-93. -/
def createHost (g : List (Nat × Text)) : Option Host :=
  match group g 4, group g 5, group g 7, group g 8 with
  | some t, _, _, _ => some (.localIpV4 t)
  | none, some t, _, _ => some (.localName t (group g 6).isSome)
  | none, none, some t, _ => some (.externalIpV4 t)
  | none, none, none, some t => some (.externalIpV6 t)
  | none, none, none, none =>
    if (group g 9).isSome ∨ (group g 10).isSome ∨ (group g 11).isSome then
      some (.externalName (group g 9) (group g 10) (group g 11) (group g 12).isSome)
    else none

/-- The value of digits; those of other scripts are left out. -/
def number (t : Text) : Nat := t.foldl (fun n c => 10 * n + (c.toNat - 48)) 0

/-- `URLPath.create_from_decoded` of a path which may be missing; `none` if it raises, which it does not. -/
def pathOf : Option Text → Option (Option (List Text))
  | none => some none
  | some t =>
    match Url.parsePath t false with
    | .raised => none
    | .nothing => some none
    | .parts l => some (some l)

/-- What comes of the groups, lines 206-266; `none` if a path or a query raises (they do not, see the area Url). -/
def ofGroups (g : List (Nat × Text)) : Option Url :=
  match pathOf (group g 14), Url.parseQuery (group g 15) false with
  | some path, some query =>
    some ⟨group g 1, if (group g 2).isSome ∨ (group g 3).isSome then some (group g 2, group g 3) else none, createHost g,
      (group g 13).map number, path, if (group g 15).isSome then some query else none, group g 16⟩
  | _, _ => none

/-- `URL(value)`, lines 128-266; `none` if it raises. -/
def read (value : Text) : Option Url := ((urlRp K).full value).bind ofGroups

/-- `_build_host_into`, lines 391-442. -/
def hostText : Host → Text
  | .localIpV4 t => t
  | .localName t dot => t ++ if dot then ['.'] else []
  | .externalIpV4 t => t
  | .externalIpV6 t => '[' :: t ++ [']']
  | .externalName sub main top dot =>
    (match sub with | none => [] | some t => t ++ ['.']) ++ main.getD [] ++ (match top with | none => [] | some t => '.' :: t) ++
      if dot then ['.'] else []

/-- `str(port)` -/
def digits (n : Nat) : Text := (toString n).toList

/-- The user, the host and the port of a url, lines 317-342. -/
def Url.authority (u : Url) : Text :=
  (match u.user with
    | none => []
    | some p => p.1.getD [] ++ ':' :: p.2.getD [] ++ ['@']) ++
  (match u.host with | none => [] | some h => hostText h) ++
  (match u.port with | none => [] | some p => ':' :: digits p)

/-- The path, lines 346-358. -/
def Url.pathText (u : Url) : Text := match u.path with | none => ['/'] | some l => Url.serializePath l false

/-- The query, lines 361-370. -/
def Url.queryText (u : Url) : Text :=
  match u.query.bind fun q => Url.serializeQuery q false with | none => [] | some t => '?' :: t

/-- The fragment, lines 373-382. -/
def Url.fragmentText (u : Url) : Text := match u.fragment with | none => [] | some t => '#' :: t

/-- `_build_value(False)`, `str(url)`, lines 293-388. -/
def Url.text (u : Url) : Text :=
  let scheme := match u.scheme with | none => [] | some s => s ++ [':']
  let authority :=
    if u.user.isSome ∨ u.host.isSome ∨ u.port.isSome then (if u.scheme.isSome then ['/', '/'] else []) ++ u.authority else []
  let t := scheme ++ authority ++ u.pathText ++ u.queryText ++ u.fragmentText
  if t = ['/'] then [] else t

/-! ### Deriving urls -/

/-- `normalize_path_parts` and `create_from_parsed` -/
def normalPath (l : List Text) : Option (List Text) :=
  match Url.normalizeParts l with
  | .parts l => some l
  | _ => none

/-- `URL.join`, lines 1567-1630. -/
def Url.join (u v : Url) : Url :=
  { u with
    path := match u.path, v.path with
      | none, p => p
      | p, none => p
      | some a, some b => normalPath (a ++ b)
    query := v.query, fragment := v.fragment }

/-- `url / name`, lines 541-571. -/
def Url.div (u : Url) (name : Text) : Url := { u with path := normalPath (u.path.getD [] ++ [name]) }

/-- `URL.parent`, lines 1039-1069. -/
def Url.parent (u : Url) : Url :=
  { u with
    path := match u.path with
      | none => none
      | some l => if l.length = 1 then none else some l.dropLast
    query := none }

/-- `URL.name`, lines 1090-1104. -/
def Url.name (u : Url) : Text := ((u.path.bind List.getLast?)).getD []

/-- `URL.with_name`, lines 1501-1564. -/
def Url.withName (u : Url) (name : Text) : Url :=
  { u with path := normalPath ((match u.path with | none => [] | some l => if l.length ≤ 1 then [] else l.dropLast) ++ [name]) }

/-- `URL.origin`, lines 656-684. -/
def Url.origin (u : Url) : Option Url :=
  if u.host.isSome then some { u with user := none, path := none, query := none, fragment := none } else none

/-- `URL.relative`, lines 687-715. -/
def Url.relative (u : Url) : Option Url :=
  if u.host.isSome then some { u with scheme := none, user := none, host := none, port := none } else none

/-- An empty text is as none. -/
def given (t : Option Text) : Option Text := if t = some [] then none else t

/-- `URL.with_scheme`, lines 1107-1158. -/
def Url.withScheme (u : Url) (s : Option Text) : Option Url := if u.host.isSome then some { u with scheme := given s } else none

/-- `URLUserInfo`, or none -/
def userOf (name password : Option Text) : Option (Option Text × Option Text) :=
  if name.isNone ∧ password.isNone then none else some (name, password)

/-- `URL.with_user`, lines 1161-1219. -/
def Url.withUser (u : Url) (name : Option Text) : Option Url :=
  if u.host.isSome then some { u with user := userOf (given name) (u.user.bind (·.2)) } else none

/-- `URL.with_password`, lines 1222-1283. -/
def Url.withPassword (u : Url) (password : Option Text) : Option Url :=
  if u.host.isSome then some { u with user := userOf (u.user.bind (·.1)) (given password) } else none

/-- `URL.with_host`, lines 1286-1346. -/
def Url.withHost (u : Url) (t : Text) : Option Url :=
  if t = [] then none
  else if u.host.isSome then ((hostRp K).full t).map fun g => { u with host := createHost g }
  else none

/-- `URL.with_port`, lines 1349-1403. -/
def Url.withPort (u : Url) (port : Option Nat) : Option Url := if u.host.isSome then some { u with port } else none

/-- `URL.with_fragment`, lines 1451-1498. -/
def Url.withFragment (u : Url) (t : Option Text) : Url := { u with fragment := given t }

/-- `URL.with_query`, lines 1406-1448, of an already normalized query. -/
def Url.withQuery (u : Url) (q : Option Query) : Url := { u with query := q }

end Verif.UrlText
