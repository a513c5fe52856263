import Verif.Quoting.Model
import Verif.MultiDict.Model

/-! Model of the path, query and host of URLs: `web_common/url/url_path.py`, `web_common/url/url_query.py` and
`web_common/url/url_host_info.py`.

Texts are lists of characters. `None` as the whole path or query is `Option.none`. -/
namespace Verif.Url

open Verif.Quoting (Text)

/-! ### Paths -/

/-- What `normalize_path_parts` returns. -/
inductive Normal where
  | indexError
  /-- `None` -/
  | nothing
  | parts (l : List Text)
deriving DecidableEq, Repr

/-- The local variables of `normalize_path_parts`. -/
structure Local where
  parts : List Text
  /-- `parts_length` -/
  len : Nat
  /-- `deleted_count` -/
  deleted : Nat := 0
  /-- `to_delete` -/
  toDelete : Nat := 0
deriving DecidableEq, Repr

/-- Single dot parts, lines 34-48: the loop, which takes at most as many rounds as there are parts. -/
def dropDots : Nat → Nat → Local → Option Local
  | 0, _, s => some s
  | rounds + 1, index, s =>
    if index < s.len then
      match s.parts[index]? with
      | none => none
      | some part =>
        if part ≠ ['.'] then dropDots rounds (index + 1) s
        else if index ≠ 0 ∧ index = s.len - 1 then dropDots rounds (index + 1) { s with parts := s.parts.set index [] }
        else dropDots rounds index { s with parts := s.parts.eraseIdx index, len := s.len - 1, deleted := s.deleted + 1 }
    else some s

/-- Double dot parts, lines 51-66; the argument is one more than `index`. -/
def dropPairs : Nat → Local → Option Local
  | 0, s => some s
  | index + 1, s =>
    match s.parts[index]? with
    | none => none
    | some part =>
      if part = ['.', '.'] then dropPairs index { s with toDelete := s.toDelete + 1 }
      else if s.toDelete = 0 then dropPairs index s
      else if index + 1 < s.parts.length then
        dropPairs index { parts := (s.parts.eraseIdx index).eraseIdx index, len := s.len - 2, deleted := s.deleted + 2, toDelete := s.toDelete - 1 }
      else none

/-- The double dots left at the front, lines 69-73. -/
def dropFront : Nat → Local → Option Local
  | 0, s => some s
  | n + 1, s =>
    match s.parts with
    | [] => none
    | _ :: parts => dropFront n { parts, len := s.len - 1, deleted := s.deleted + 1, toDelete := n }

/-- Lines 75-82. -/
def lastly (s : Local) : Normal :=
  let s : Local := if s.deleted ≠ 0 ∧ s.len = 1 ∧ s.parts.head? = some [] then { s with parts := s.parts.tail, len := 0 } else s
  if s.len = 0 then .nothing else .parts s.parts

/-- `normalize_path_parts`, lines 14-82, of a list. -/
def normalizeParts (parts : List Text) : Normal :=
  match dropDots parts.length 0 { parts, len := parts.length } with
  | none => .indexError
  | some s =>
    match dropPairs s.len { s with toDelete := 0 } with
    | none => .indexError
    | some s =>
      match dropFront s.toDelete s with
      | none => .indexError
      | some s => lastly s

/-- `str.split(sep)` for a single character. -/
def split (sep : Char) : Text → List Text
  | [] => [[]]
  | c :: t =>
    if c = sep then [] :: split sep t
    else
      match split sep t with
      | [] => [[c]]
      | p :: ps => (c :: p) :: ps

/-- `[decode(part) for part in ...]`; `none` if one of them raises. -/
def decodeAll : List Text → Option (List Text)
  | [] => some []
  | p :: ps =>
    match Quoting.unquote p with
    | none => none
    | some p =>
      match decodeAll ps with
      | none => none
      | some ps => some (p :: ps)

/-- What parsing a path gives. -/
inductive Parsed where
  /-- an exception -/
  | raised
  | nothing
  | parts (l : List Text)
deriving DecidableEq, Repr

/-- `URLPath._parse`, lines 110-126, of a string. -/
def parsePath (value : Text) (encoded : Bool) : Parsed :=
  if value = [] then .nothing
  else
    let value := if value.head? = some '/' then value.drop 1 else value
    match if encoded then decodeAll (split '/' value) else some (split '/' value) with
    | none => .raised
    | some parts =>
      let parts := if parts.head? = some [] then parts.drop 1 else parts
      match normalizeParts parts with
      | .indexError => .raised
      | .nothing => .nothing
      | .parts l => .parts l

/-- `encode` of paths, line 10; for these arguments `quote` does not raise. -/
def encodePart (t : Text) : Text := (Quoting.quote t ['@', ':'] ['/'] false).getD []

/-- `URLPath._serialize`, lines 129-146, of a tuple. -/
def serializePath (parts : List Text) (encoded : Bool) : Text :=
  if parts = [] then ['/'] else parts.flatMap fun part => '/' :: if encoded then encodePart part else part

/-- `URL.__truediv__` (`url.py`, lines 538-560) on the parsed path. -/
def joinPath (parts : Option (List Text)) (name : Text) : Normal :=
  normalizeParts (parts.getD [] ++ [name])

/-! ### Queries -/

abbrev Query := MultiDict.Dict Text Text

/-- `encode` of queries, line 14; for these arguments `quote` does not raise. -/
def encodeItem (t : Text) : Text := (Quoting.quote t ['/', '?', ':', '@', '='] [] true).getD []

/-- The key and the value of an item, lines 53-61. -/
def splitItem (item : Text) : Text × Text :=
  (item.takeWhile (· ≠ '='), (item.dropWhile (· ≠ '=')).drop 1)

/-- The loop of `parse_query`, lines 42-70. The texts between `&` are gone through by `find` there; empty ones are skipped, also the one
after a `&` at the end, which the loop does not reach. `none` is an exception. -/
def parseItems (encoded : Bool) : List Text → Query → Option Query
  | [], d => some d
  | item :: items, d =>
    if item = [] then parseItems encoded items d
    else
      let (k, v) := splitItem item
      if encoded then
        match Quoting.unquote k, Quoting.unquote v with
        | some k, some v => parseItems encoded items (d.set id k v)
        | _, _ => none
      else parseItems encoded items (d.set id k v)

/-- `parse_query`, lines 18-72; the empty dictionary stands for `None`. -/
def parseQuery (q : Option Text) (encoded : Bool) : Option Query :=
  match q with
  | none => some []
  | some t => parseItems encoded (split '&' t) []

/-- `<=` of strings: by the code points. -/
def textLe : Text → Text → Bool
  | [], _ => true
  | _ :: _, [] => false
  | a :: s, b :: t => if a.toNat = b.toNat then textLe s t else a.toNat < b.toNat

/-- Inserting in a sorted list. -/
def insertText (k : Text) : List Text → List Text
  | [] => [k]
  | a :: l => if textLe k a then k :: a :: l else a :: insertText k l

/-- `sorted`. -/
def sortTexts (l : List Text) : List Text := l.foldr insertText []

/-- The pairs in the order they are written, lines 295-300. -/
def writtenPairs (d : Query) : List (Text × Text) :=
  (sortTexts (d.map (·.1))).flatMap fun k => ((d.get id k).getD []).map fun v => (k, v)

/-- `serialize_query`, lines 272-311, of a dictionary. -/
def serializeQuery (d : Query) (encoded : Bool) : Option Text :=
  if d = [] then none
  else
    let f := fun t => if encoded then encodeItem t else t
    some ((List.intersperse ['&'] ((writtenPairs d).map fun e => f e.1 ++ ['='] ++ f e.2)).flatten)

/-! ### Hosts -/

/-- The flags of a host. -/
structure HostInfo where
  flags : Nat
  /-- the decoded text of `_main_domain`, which is what host parts are compared by (`URLPartBase.__eq__`) -/
  mainDomain : Option Text
  subDomain : Option Text
  topLevelDomain : Option Text
deriving DecidableEq, Repr

def flagLocalIpV4 : Nat := 1 <<< 0
def flagLocalName : Nat := 1 <<< 1
def flagExternalIpV4 : Nat := 1 <<< 2
def flagExternalIpV6 : Nat := 1 <<< 3
def flagExternalName : Nat := 1 <<< 4
def flagUnambiguous : Nat := 1 <<< 5

/-- The constructors, lines 104-305. -/
inductive HostKind where
  | localIpV4 (text : Text)
  | localName (text : Text) (unambiguous : Bool)
  | externalIpV4 (text : Text)
  | externalIpV6 (text : Text)
  | externalName (sub main top : Option Text) (unambiguous : Bool)
deriving DecidableEq, Repr

/-- Creating a host from decoded texts, lines 104-365. -/
def HostKind.create : HostKind → HostInfo
  | .localIpV4 t => ⟨flagLocalIpV4, some t, none, none⟩
  | .localName t u => ⟨if u then flagLocalName ||| flagUnambiguous else flagLocalName, some t, none, none⟩
  | .externalIpV4 t => ⟨flagExternalIpV4, some t, none, none⟩
  | .externalIpV6 t => ⟨flagExternalIpV6, some t, none, none⟩
  | .externalName sub main top u => ⟨if u then flagExternalName ||| flagUnambiguous else flagExternalName, main, sub, top⟩

/-- `URLHostInfo.__eq__`, lines 81-102. -/
def HostInfo.eq (a b : HostInfo) : Bool :=
  if a.flags ≠ b.flags then true
  else if a.mainDomain ≠ b.mainDomain then false
  else if a.subDomain ≠ b.subDomain then false
  else if a.topLevelDomain ≠ b.topLevelDomain then false
  else true

/-- `URLHostInfo.__ne__` is the one of `object`: the opposite. -/
def HostInfo.ne (a b : HostInfo) : Bool := !a.eq b

end Verif.Url
