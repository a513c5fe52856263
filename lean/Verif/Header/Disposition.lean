import Verif.Quoting.Model
import Verif.Header.Model

/-!
# Content disposition headers

Model of `_try_usascii_escape` and `build_content_disposition_header` of
`scarletio/web_common/header_building_and_parsing.py`.

* Text is `List Char`; `quote` is that of `Verif.Quoting`.
* The parameters are the items of the dictionary that is passed, in order.
-/

namespace Verif.Header

/-- `SEPARATORS`, lines 15-17.  One of the elements is `', '`, a string of two characters. -/
def separators : List Text :=
  [['('], [')'], ['<'], ['>'], ['@'], [',', ' '], [';'], [':'], ['\\'], ['"'], ['/'], ['['], [']'], ['?'],
    ['='], ['{'], ['}'], [' '], ['\t']]

/-- `CHARS`, line 13. -/
def inChars (t : Text) : Bool := match t with
  | [c] => c.toNat < 128
  | _ => false

/-- `CONTROLS`, line 14. -/
def inControls (t : Text) : Bool := match t with
  | [c] => c.toNat < 32 || c.toNat = 127
  | _ => false

/-- `TOKENS = CHARS ^ CONTROLS ^ SEPARATORS`, line 18. -/
def inTokens (t : Text) : Bool := (inChars t != inControls t) != separators.contains t

/-- `TOKENS > {*text}`, lines 456 and 469: all are in there.  The super-set is always strict, since
`', '` is in `TOKENS` and is no character. -/
def allTokens (text : Text) : Bool := text.all fun c => inTokens [c]

/-- `USASCII_CHARACTERS`, line 401. -/
def usAscii : Text := '\t' :: (List.range 0x5F).map fun n => Char.ofNat (n + 0x20)

/-- Characters `USASCII_ESCAPABLE_RP` matches, line 400; the numbers there are octal. -/
def escapable (c : Char) : Bool :=
  !(c.toNat = 0o41 || (0o43 ≤ c.toNat && c.toNat ≤ 0o133) || (0o135 ≤ c.toNat && c.toNat ≤ 0o176))

/-- `_try_usascii_escape`, lines 420-436; `none` is `(False, value)`. -/
def tryUsAsciiEscape (value : Text) : Option Text :=
  if value.all (usAscii.contains ·) && !usAscii.all (value.contains ·) then
    some (value.flatMap fun c => if escapable c then ['\\', c] else [c])
  else none

/-- The `else` branch, line 483: first backslashes are replaced, then quotes. -/
def replaceBoth (value : Text) : Text :=
  (value.flatMap fun c => if c = '\\' then ['\\', '\\'] else [c]).flatMap fun c =>
    if c = '"' then ['\\', '"'] else [c]

def fileName : Text := "file_name".toList
def filename : Text := "filename".toList
def charset : Text := "utf-8''".toList

/-- One round of the loop, lines 465-490: what is put behind the header; `none` is
`ValueError`.  `quote` never raises here, see `Verif.Quoting.C39_returns`. -/
def dispositionParameter (quoteFields : Bool) (key value : Text) : Option Text :=
  let key := if key = fileName then filename else key
  if key = [] ∨ allTokens key = false then none
  else if quoteFields then
    match tryUsAsciiEscape value with
    | some escaped => some (';' :: ' ' :: (key ++ '=' :: '"' :: (escaped ++ ['"'])))
    | none => match Quoting.quote value [] [] false with
      | none => none
      | some quoted => some (';' :: ' ' :: (key ++ ['*'] ++ '=' :: (charset ++ quoted)))
  else some (';' :: ' ' :: (key ++ '=' :: '"' :: (replaceBoth value ++ ['"'])))

/-- The loop, lines 465-490. -/
def dispositionParameters (quoteFields : Bool) : List (Text × Text) → Option Text
  | [] => some []
  | (key, value) :: parameters =>
    match dispositionParameter quoteFields key value with
    | none => none
    | some part => match dispositionParameters quoteFields parameters with
      | none => none
      | some rest => some (part ++ rest)

/-- `build_content_disposition_header`, lines 439-492; `none` is `ValueError`. -/
def buildContentDisposition (type : Text) (parameters : List (Text × Text)) (quoteFields : Bool) : Option Text :=
  if type = [] ∨ allTokens type = false then none
  else match dispositionParameters quoteFields parameters with
    | none => none
    | some rest => some (type ++ rest)

example : buildContentDisposition "form-data".toList [("name".toList, "a b".toList)] true
    = some "form-data; name=\"a\\ b\"".toList := by decide +kernel

example : buildContentDisposition "form-data".toList [("file_name".toList, "é;".toList)] true
    = some "form-data; filename*=utf-8''%C3%A9;".toList := by decide +kernel

/-! ### Reading -/

/-- What Python's tables say about text that is not ASCII; nothing is assumed about it. -/
structure Unicode where
  lower : Text → Text
  casefold : Text → Text
  isSpace : Char → Bool
  isDigit : Char → Bool

def ascii (t : Text) : Bool := t.all fun c => c.toNat < 128

def lowerChar (c : Char) : Char :=
  if 'A'.toNat ≤ c.toNat && c.toNat ≤ 'Z'.toNat then Char.ofNat (c.toNat + 32) else c

/-- `str.lower`. -/
def lower (u : Unicode) (t : Text) : Text := if ascii t then t.map lowerChar else u.lower t

/-- `str.casefold`. -/
def casefold (u : Unicode) (t : Text) : Text := if ascii t then t.map lowerChar else u.casefold t

/-- The characters `str.strip` takes away. -/
def isSpace (u : Unicode) (c : Char) : Bool :=
  if c.toNat < 128 then c.toNat = 32 || (9 ≤ c.toNat && c.toNat ≤ 13) || (28 ≤ c.toNat && c.toNat ≤ 31)
  else u.isSpace c

/-- `str.isdigit` of a character. -/
def isDigit (u : Unicode) (c : Char) : Bool :=
  if c.toNat < 128 then '0'.toNat ≤ c.toNat && c.toNat ≤ '9'.toNat else u.isDigit c

/-- `str.lstrip`. -/
def lstrip (u : Unicode) (t : Text) : Text := t.dropWhile (isSpace u)

/-- `str.strip`. -/
def strip (u : Unicode) (t : Text) : Text := ((lstrip u t).reverse.dropWhile (isSpace u)).reverse

/-- `text.split(separator)`. -/
def splitAt (separator : Char) : Text → List Text
  | [] => [[]]
  | c :: rest => if c = separator then [] :: splitAt separator rest
    else match splitAt separator rest with
      | [] => [[c]]
      | part :: parts => (c :: part) :: parts

/-- The elements of `TOKENS`. -/
def tokenElements : List Text :=
  (((List.range 128).map fun n => [Char.ofNat n]) ++ separators).filter fun t => inTokens t

/-- `TOKENS < set(string)`, multipart.py line 845. -/
def tokensBelow (t : Text) : Bool :=
  tokenElements.all (fun e => t.any fun c => e = [c]) && !t.all (fun c => inTokens [c])

/-- `_is_token`, multipart.py lines 829-848. -/
def isToken (t : Text) : Bool := t ≠ [] && !tokensBelow t

/-- `_is_continuous_parameter`, multipart.py lines 802-826. -/
def isContinuous (u : Unicode) (t : Text) : Bool :=
  match t.dropWhile (· ≠ '*') with
  | [] => false
  | _ :: rest =>
    let digits := if t.getLast? = some '*' then rest.dropLast else rest
    digits ≠ [] && digits.all (isDigit u)

/-- `_is_quoted`, multipart.py lines 851-867. -/
def isQuoted (t : Text) : Bool := 1 < t.length && t.head? = some '"' && t.getLast? = some '"'

/-- `_is_extended_parameter`, multipart.py lines 870-883. -/
def isExtended (t : Text) : Bool := t.getLast? = some '*'

/-- `_is_rfc5987`, multipart.py lines 886-914. -/
def isRfc5987 (t : Text) : Bool := isToken t && t.count '\'' = 2

/-- `_unescape`, multipart.py lines 917-932: the class of characters is all of ASCII. -/
def unescape : Text → Text
  | '\\' :: c :: rest => if c.toNat < 128 then c :: unescape rest else '\\' :: c :: unescape rest
  | c :: rest => c :: unescape rest
  | [] => []

/-- `value[1:-1]`. -/
def inner (t : Text) : Text := (t.drop 1).dropLast

/-- `value[1:-1].lstrip('\\/')`. -/
def innerStripped (t : Text) : Text := (inner t).dropWhile fun c => c = '\\' || c = '/'

/-- What `parse_content_disposition` gives: the type and the parameters; `error` is an exception
that leaves it. -/
abbrev Parsed := Except Unit (Option Text × List (Text × Text))

/-- The value of an extended parameter, multipart.py lines 981-992: `none` is `continue`.  The encoding is passed to
`unquote` as its `unsafe` parameter, and `'strict'` as its `query_string`. -/
def extendedValue (value : Text) : Except Unit (Option Text) :=
  if !isRfc5987 value then .ok none
  else
    let encoding := value.takeWhile (· ≠ '\'')
    let rest := ((value.dropWhile (· ≠ '\'')).drop 1).dropWhile (· ≠ '\'')
    let encoding := if encoding = [] then "utf-8".toList else encoding
    match Quoting.unquote (rest.drop 1) (some encoding) true with
    | none => .error ()
    | some text => .ok (some text)

/-- The `while parts` loop, multipart.py lines 958-1011. -/
def parseParts (u : Unicode) (type : Text) (parts : List Text) (parameters : List (Text × Text)) : Parsed :=
  match parts with
  | [] => .ok (some (casefold u type), parameters)
  | item :: parts =>
    if !item.contains '=' then .ok (none, parameters)
    else
      let key := strip u (lower u (item.takeWhile (· ≠ '=')))
      let value := lstrip u ((item.dropWhile (· ≠ '=')).drop 1)
      if parameters.any (·.1 = key) then .ok (none, parameters)
      else if !isToken key then parseParts u type parts parameters
      else if isContinuous u key then
        if isQuoted value then parseParts u type parts (parameters ++ [(key, unescape (inner value))])
        else if !isToken value then parseParts u type parts parameters
        else parseParts u type parts (parameters ++ [(key, value)])
      else if isExtended key then
        match extendedValue value with
        | .error e => .error e
        | .ok none => parseParts u type parts parameters
        | .ok (some text) => parseParts u type parts (parameters ++ [(key, text)])
      else if isQuoted value then .ok (none, [])
      else if isToken value then parseParts u type parts (parameters ++ [(key, value)])
      else match parts with
        | [] => .ok (none, [])
        | next :: parts =>
          if isQuoted (value ++ ';' :: next) then
            parseParts u type parts (parameters ++ [(key, unescape (innerStripped (value ++ ';' :: next)))])
          else .ok (none, [])
termination_by parts.length

/-- `parse_content_disposition`, multipart.py lines 935-1013. -/
def parseContentDisposition (u : Unicode) (header : Text) : Parsed :=
  if header = [] then .ok (none, [])
  else match splitAt ';' header with
    | [] => .ok (none, [])
    | type :: parts => if !isToken type then .ok (none, []) else parseParts u type parts []

/-! ### The file name -/

/-- `a <= b` of strings. -/
def textLe : Text → Text → Bool
  | [], _ => true
  | _ :: _, [] => false
  | a :: s, b :: t => if a = b then textLe s t else a.toNat < b.toNat

/-- `sorted` of items whose keys are different, by insertion. -/
def insertItem (p : Text × Text) : List (Text × Text) → List (Text × Text)
  | [] => [p]
  | p' :: l => if textLe p.1 p'.1 then p :: p' :: l else p' :: insertItem p l

def sortItems : List (Text × Text) → List (Text × Text)
  | [] => []
  | p :: l => insertItem p (sortItems l)

def filenameStar : Text := "filename*".toList

/-- The `for` loop, multipart.py lines 1051-1058: the parts that are taken. -/
def fileNameParts : Nat → List (Text × Text) → List Text
  | _, [] => []
  | index, (key, value) :: rest =>
    let tail := (key.dropWhile (· ≠ '*')).drop 1
    let tail := if tail.getLast? = some '*' then tail.dropLast else tail
    if tail = Nat.toDigits 10 index then value :: fileNameParts (index + 1) rest else []

/-- `parameters[key]`. -/
def lookup (parameters : List (Text × Text)) (key : Text) : Option Text :=
  (parameters.find? (·.1 = key)).map (·.2)

/-- `get_content_disposition_file_name`, multipart.py lines 1016-1067.  The parameters are the
items of a dictionary; `error` is an exception. -/
def fileNameOf (parameters : List (Text × Text)) (name : Text) : Except Unit (Option Text) :=
  if parameters = [] then .ok none
  else match lookup parameters (name ++ ['*']) with
    | some value => .ok (some value)
    | none => match lookup parameters name with
      | some value => .ok (some value)
      | none =>
        let parts := fileNameParts 0 (sortItems (parameters.filter fun p => filenameStar.isPrefixOf p.1))
        if parts = [] then .ok none
        else
          let value := parts.flatten
          if !value.contains '\'' then .ok (some value)
          else if value.count '\'' < 2 then .error ()
          else
            let encoding := value.takeWhile (· ≠ '\'')
            let rest := ((value.dropWhile (· ≠ '\'')).drop 1).dropWhile (· ≠ '\'')
            let encoding := if encoding = [] then "utf-8".toList else encoding
            match Quoting.unquote (rest.drop 1) (some encoding) true with
            | none => .error ()
            | some text => .ok (some text)

end Verif.Header
