import Verif.MultiDict.Model

/-!
# Content types

Model of `scarletio/web_common/content_type.py`, and of the content type `MultipartWriter.__init__` of
`scarletio/web_common/multipart.py` writes.

* Text is `List Char`.  The functions move an index through the text; here the rest of the text behind the index is passed on
  instead.
* `str.casefold` is a parameter.
* Of a parsing error there is only what was expected.
-/

namespace Verif.ContentType

abbrev Text := List Char

/-- `WHITE_SPACE`, content_type.py line 6. -/
def blank (c : Char) : Bool := c == ' ' || c == '\t'

/-- `DELIMITERS`, content_type.py lines 7-11. -/
def delimiters : Text := [',', ':', ';', '(', ')', '{', '}', '[', ']', '<', '>', '\'', '"', '\\', '?', '@', '=', '/']

/-- `_consume_whitespace`, content_type.py lines 14-44. -/
def skip (text : Text) : Text := text.dropWhile blank

/-- A character the loop of `_parse_token` passes. -/
def passes (disallowed : Text) (c : Char) : Bool := !disallowed.contains c && !blank c && !delimiters.contains c

/-- `_parse_token`, content_type.py lines 47-91: the token and the rest. -/
def parseToken (disallowed text : Text) : Option Text × Text :=
  (if text.takeWhile (passes disallowed) = [] then none else some (text.takeWhile (passes disallowed)), text.dropWhile (passes disallowed))

/-- The loop of `_parse_quoted`, content_type.py lines 116-160: what is collected, the rest, and whether the closing quote is
missing. -/
def quotedLoop (lastEscape : Bool) (collected : Text) : Text → Text × Text × Bool
  | [] => (if lastEscape then collected ++ ['\\'] else collected, [], true)
  | c :: text =>
    if lastEscape then quotedLoop false (collected ++ (if c = '\\' ∨ c = '"' then [c] else ['\\', c])) text
    else if c = '"' then (collected, text, false)
    else if c = '\\' then quotedLoop true collected text
    else quotedLoop false (collected ++ [c]) text

/-- `_parse_quoted`, content_type.py lines 94-167; `collected` is `None` if nothing is collected. -/
def parseQuoted (text : Text) : Option Text × Text × Bool :=
  let r := quotedLoop false [] text
  (if r.1 = [] then none else some r.1, r.2)

/-- `_parse_token_with_space_around`, content_type.py lines 170-197. -/
def spacedToken (disallowed text : Text) : Option Text × Text :=
  let r := parseToken disallowed (skip text)
  (r.1, skip r.2)

/-- `_parse_token_or_quited_with_space_around`, content_type.py lines 200-234. -/
def spacedValue (text : Text) : Option Text × Text × Bool :=
  match skip text with
  | [] => (none, [], false)
  | '"' :: text =>
    let r := parseQuoted text
    (r.1, skip r.2.1, r.2.2)
  | c :: text =>
    let r := parseToken [] (c :: text)
    (r.1, skip r.2, false)

structure Head where
  type : Option Text := none
  subType : Option Text := none
  suffix : Option Text := none
deriving DecidableEq, Repr

/-- `_parse_head`, content_type.py lines 237-309: the head, what was expected, and the rest. -/
def parseHead (text : Text) : Head × Option Text × Text :=
  if text = [] then ({}, none, [])
  else
    let (type, text) := spacedToken [';', '/'] text
    match text with
    | [] => ({ type }, none, [])
    | ';' :: text => ({ type }, none, text)
    | '/' :: text =>
      let (subType, text) := spacedToken [';', '+'] text
      match text with
      | [] => ({ type, subType }, none, [])
      | ';' :: text => ({ type, subType }, none, text)
      | '+' :: text =>
        let (suffix, text) := spacedToken [';'] text
        match text with
        | [] => ({ type, subType, suffix }, none, [])
        | ';' :: text => ({ type, subType, suffix }, none, text)
        | text => ({ type, subType, suffix }, some [';'], text)
      | text => ({ type, subType }, some [';', '+'], text)
    | text => ({ type }, some [';', '/'], text)

/-- `_parse_parameter`, content_type.py lines 312-368: the key, the value, what was expected, and the rest. -/
def parseParameter (text : Text) : Option Text × Option Text × Option Text × Text :=
  if text = [] then (none, none, none, [])
  else
    let (key, text) := spacedToken [';', '='] text
    match text with
    | [] => (key, none, none, [])
    | ';' :: text => (key, none, none, text)
    | '=' :: text =>
      let (value, text, missing) := spacedValue text
      match text with
      | [] => (key, value, if missing then some ['"'] else none, [])
      | ';' :: text => (key, value, if missing then some ['"'] else none, text)
      | text => (key, value, some [';'], text)
    | text => (key, none, some [';', '='], text)

/-- The loop of `_parse_content_type`, content_type.py lines 411-435: the items in the order in which they are stored, and what
was expected.  Every turn without an error moves on; `fuel` is at least the length of the text. -/
def parameterLoop (fold : Text → Text) : Nat → Text → List (Text × Text) × Option Text
  | 0, _ => ([], none)
  | fuel + 1, text =>
    let (key, value, expected, rest) := parseParameter text
    let items := if key.isSome || value.isSome then [((key.map fold).getD [], value.getD [])] else []
    match expected with
    | some expected => (items, some expected)
    | none =>
      if rest = [] then (items, none)
      else
        let r := parameterLoop fold fuel rest
        (items ++ r.1, r.2)

/-- `ContentType`, with the error beside it. -/
structure Parsed where
  type : Option Text
  subType : Option Text
  suffix : Option Text
  parameters : MultiDict.Dict Text Text
  expected : Option Text
deriving DecidableEq, Repr

/-- `parse_content_type`, content_type.py lines 371-471. -/
def parse (fold : Text → Text) (text : Text) : Parsed :=
  let (head, expected, rest) := parseHead text
  let type := head.type.map fold
  let subType := if type = some ['*'] ∧ head.subType = none then some ['*'] else head.subType.map fold
  match expected with
  | some expected => ⟨type, subType, head.suffix.map fold, [], some expected⟩
  | none =>
    if rest = [] then ⟨type, subType, head.suffix.map fold, [], none⟩
    else
      let r := parameterLoop fold rest.length rest
      ⟨type, subType, head.suffix.map fold, r.1.foldl (fun d e => MultiDict.Dict.set id d e.1 e.2) [], r.2⟩

/-- `ContentType.get_parameter`, content_type.py lines 741-761. -/
def Parsed.parameter (p : Parsed) (key : Text) : Option Text := (MultiDict.Dict.get id p.parameters key).bind List.head?

/-! ### The content type of a multipart body -/

/-- `VALID_TCHAR_RP`, multipart.py line 26. -/
def isTchar (c : Char) : Bool :=
  c.isAlpha || c.isDigit || ['!', '#', '$', '%', '&', '\'', '*', '+', '-', '.', '^', '_', '`', '|', '~'].contains c

/-- `INVALID_QDTEXT_CHAR_RP`, multipart.py line 27. -/
def invalidChar (c : Char) : Bool := c.toNat ≤ 0x08 || (0x0A ≤ c.toNat && c.toNat ≤ 0x1F) || c.toNat = 0x7F

/-- `replace(b'\\', b'\\\\')` and `replace(b'"', b'\\"')`, multipart.py lines 1142-1143. -/
def escape (text : Text) : Text := text.flatMap fun c => if c = '\\' ∨ c = '"' then ['\\', c] else [c]

/-- `MultipartWriter.__init__`, multipart.py lines 1112-1150: the content type; `ValueError` is `none`. -/
def multipartType (subtype boundary : Text) : Option Text :=
  if boundary.any fun c => c.toNat ≥ 128 then none
  else
    let head := ['m', 'u', 'l', 't', 'i', 'p', 'a', 'r', 't', '/'] ++ subtype ++ [';', ' ', 'b', 'o', 'u', 'n', 'd', 'a', 'r', 'y', '=']
    if boundary ≠ [] && boundary.all isTchar then some (head ++ boundary)
    else if boundary.any invalidChar then none
    else some (head ++ '"' :: escape boundary ++ ['"'])

end Verif.ContentType
