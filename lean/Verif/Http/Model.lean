import Verif.MultiDict.Model

/-!
# Heads of HTTP messages

Model of `parse_http_headers`, `parse_http_request` and `parse_http_response` of
`scarletio/web_common/helpers.py`, and of `write_http_request` and `write_http_response` of
`scarletio/web_common/http_protocol.py`.

* A string is represented by its bytes in UTF-8.  Texts are decoded with
  `errors = 'surrogateescape'`, which is one to one, so that every string that is read is
  represented by the bytes it was read from.  Writing encodes strictly; strings which cannot be
  encoded are not modelled.
* The functions move an offset through the data; here the rest of the data behind the offset is
  passed on instead.
* `str.upper` and `str.casefold` are parameters.
* `PayloadError` is `none`.  Versions and statuses are numbers without a limit (Python refuses
  to convert more than 4300 digits).
-/

namespace Verif.Http

abbrev Bytes := List UInt8

abbrev Header := Bytes × Bytes

def cr : UInt8 := 13
def lf : UInt8 := 10
def crlf : Bytes := [cr, lf]
def colon : UInt8 := 58
def sp : UInt8 := 32
def tab : UInt8 := 9

/-- `[ \t]` -/
def blank (b : UInt8) : Bool := b = sp || b = tab

/-- The bytes `bytes.strip` takes away. -/
def white (b : UInt8) : Bool := b = 32 || (9 ≤ b && b ≤ 13)

/-- `\d` -/
def digit (b : UInt8) : Bool := 48 ≤ b && b ≤ 57

/-- `bytes.lstrip` -/
def lstrip (bs : Bytes) : Bytes := bs.dropWhile white

/-- `bytes.strip` -/
def strip (bs : Bytes) : Bytes := ((lstrip bs).reverse.dropWhile white).reverse

/-- The line from the offset to the next `b'\r\n'` (or to the end), and what is behind that,
helpers.py lines 465-467 and 488-495. -/
def cutLine : Bytes → Bytes × Bytes
  | [] => ([], [])
  | b :: bs =>
    if b = cr ∧ bs.head? = some lf then ([], bs.tail)
    else (b :: (cutLine bs).1, (cutLine bs).2)

theorem cutLine_length (bs : Bytes) : (cutLine bs).2.length + (cutLine bs).1.length ≤ bs.length := by
  induction bs with
  | nil => simp [cutLine]
  | cons b bs ih =>
    unfold cutLine
    split
    · simp only [List.length_tail, List.length_cons, List.length_nil]; omega
    · simp only [List.length_cons]; omega

/-- The data at the offset begins with a blank, helpers.py lines 485 and 498. -/
def startsBlank : Bytes → Bool
  | [] => false
  | b :: _ => blank b

/-- The lines that continue a value, helpers.py lines 485-501: the parts of the value, and the
rest. -/
def continued (data : Bytes) : List Bytes × Bytes :=
  if _h : startsBlank data then
    let rest := continued (cutLine data).2
    (strip (cutLine data).1 :: rest.1, rest.2)
  else ([], data)
termination_by data.length
decreasing_by
  have := cutLine_length data
  have hne : (cutLine data).1 ≠ [] := by
    cases data with
    | nil => cases _h
    | cons b bs =>
      unfold cutLine
      have : b ≠ cr := by rintro rfl; simp [startsBlank, blank, cr, sp, tab] at _h
      simp [this]
  have := List.length_pos_iff.mpr hne
  omega

/-- `b' '.join(parts)` -/
def joinSpace : List Bytes → Bytes
  | [] => []
  | [part] => part
  | part :: parts => part ++ sp :: joinSpace parts

theorem continued_length (data : Bytes) : (continued data).2.length ≤ data.length := by
  fun_induction continued data with
  | case1 data h rest ih => have := cutLine_length data; simp only [rest]; omega
  | case2 => simp

/-- The loop of `parse_http_headers`, helpers.py lines 463-506: the names and values, in the
order in which they are stored. -/
def parseLines (data : Bytes) : Option (List Header) :=
  if _h : (cutLine data).1 = [] then some []
  else if (cutLine data).1.takeWhile (· ≠ colon) = [] ∨ colon ∉ (cutLine data).1 then none
  else
    let name := lstrip ((cutLine data).1.takeWhile (· ≠ colon))
    let value := strip (((cutLine data).1.dropWhile (· ≠ colon)).drop 1)
    match parseLines (continued (cutLine data).2).2 with
    | none => none
    | some headers => some ((name, joinSpace (value :: (continued (cutLine data).2).1)) :: headers)
termination_by data.length
decreasing_by
  have := cutLine_length data
  have := continued_length (cutLine data).2
  have := List.length_pos_iff.mpr _h
  omega

abbrev Headers := MultiDict.Dict Bytes Bytes

/-- `parse_http_headers`, helpers.py lines 443-506. -/
def parseHeaders (fold : Bytes → Bytes) (data : Bytes) : Option Headers :=
  (parseLines data).map fun headers => headers.foldl (fun d h => d.set fold h.1 h.2) []

/-! ### Request and status lines -/

structure Version where
  major : Nat
  minor : Nat
deriving DecidableEq, Repr

structure Request where
  version : Version
  method : Bytes
  path : Bytes
  headers : Headers
deriving DecidableEq, Repr

structure Response where
  version : Version
  status : Nat
  reason : Option Bytes
  headers : Headers
deriving DecidableEq, Repr

/-- `int(digits)` -/
def number (digits : Bytes) : Nat := digits.foldl (fun n d => n * 10 + (d.toNat - 48)) 0

/-- `HTTP/` -/
def http : Bytes := [72, 84, 84, 80, 47]

/-- `.` -/
def dot : UInt8 := 46

/-- `[ \t]+`: what is behind the blanks. -/
def skipBlanks : Bytes → Option Bytes
  | [] => none
  | b :: bs => if blank b then some (bs.dropWhile blank) else none

/-- `[^ \t]+` -/
def word (bs : Bytes) : Option (Bytes × Bytes) :=
  if bs.takeWhile (!blank ·) = [] then none
  else some (bs.takeWhile (!blank ·), bs.dropWhile (!blank ·))

/-- `\d+` -/
def digits (bs : Bytes) : Option (Bytes × Bytes) :=
  if bs.takeWhile digit = [] then none else some (bs.takeWhile digit, bs.dropWhile digit)

/-- `HTTP/(\d+)\.(\d+)` -/
def versionAt (bs : Bytes) : Option (Version × Bytes) :=
  if http.isPrefixOf bs then do
    let (major, bs) ← digits (bs.drop http.length)
    match bs with
    | [] => none
    | b :: bs =>
      if b = dot then do
        let (minor, bs) ← digits bs
        return (⟨number major, number minor⟩, bs)
      else none
  else none

/-- `[ \t]*(?:\r\n|$)`: what is behind the match.  `$` is the end, and also the place in front of a
line feed at the end. -/
def lineEnd (bs : Bytes) : Option Bytes :=
  match bs.dropWhile blank with
  | [] => some []
  | [b] => if b = lf then some [b] else none
  | b :: c :: bs => if b = cr ∧ c = lf then some bs else none

/-- `HTTP_REQUEST_RP`, helpers.py line 366.  No part of the expression can match in two ways that
let the next part go on. -/
def requestLine (bs : Bytes) : Option ((Bytes × Bytes × Version) × Bytes) := do
  let (method, bs) ← word (bs.dropWhile blank)
  let bs ← skipBlanks bs
  let (path, bs) ← word bs
  let bs ← skipBlanks bs
  let (version, bs) ← versionAt bs
  let bs ← lineEnd bs
  return ((method, path, version), bs)

/-- `(.*?)[ \t]*(?:\r\n|$)`: the shortest text without a line feed behind which the line ends. -/
def reasonAt : Bytes → Option (Bytes × Bytes)
  | [] => some ([], [])
  | b :: bs =>
    match lineEnd (b :: bs) with
    | some rest => some ([], rest)
    | none => if b = lf then none else (reasonAt bs).map fun r => (b :: r.1, r.2)

/-- `(\d\d\d)` -/
def threeDigits : Bytes → Option (Nat × Bytes)
  | a :: b :: c :: bs => if digit a && digit b && digit c then some (number [a, b, c], bs) else none
  | _ => none

/-- `HTTP_STATUS_RP`, helpers.py line 365.  If there is no blank behind the status, the optional
group is left out; if there is one, leaving the group out matches only where the group
matches with an empty reason. -/
def statusLine (bs : Bytes) : Option ((Version × Nat × Option Bytes) × Bytes) := do
  let (version, bs) ← versionAt (bs.dropWhile blank)
  let bs ← skipBlanks bs
  let (status, bs) ← threeDigits bs
  match skipBlanks bs with
  | none => do
    let bs ← lineEnd bs
    return ((version, status, none), bs)
  | some bs => do
    let (reason, bs) ← reasonAt bs
    return ((version, status, if reason = [] then none else some reason), bs)

/-- `parse_http_request`, helpers.py lines 411-440. -/
def parseRequest (upper fold : Bytes → Bytes) (data : Bytes) : Option Request := do
  let ((method, path, version), rest) ← requestLine data
  let headers ← parseHeaders fold rest
  return ⟨version, upper method, path, headers⟩

/-- `parse_http_response`, helpers.py lines 369-408. -/
def parseResponse (fold : Bytes → Bytes) (data : Bytes) : Option Response := do
  let ((version, status, reason), rest) ← statusLine data
  let headers ← parseHeaders fold rest
  return ⟨version, status, reason, headers⟩

/-- What `read_until(boundary)` is to give on a whole stream: what is in front of the first
occurrence of the boundary, and what is behind it.  When it does is the subject of C02, in
`Verif.Stream.Props`. -/
def cutAt (boundary : Bytes) : Bytes → Option (Bytes × Bytes)
  | [] => none
  | b :: bs =>
    if boundary.isPrefixOf (b :: bs) then some ([], (b :: bs).drop boundary.length)
    else (cutAt boundary bs).map fun r => (b :: r.1, r.2)

/-- `b'\r\n\r\n'` -/
def headEnd : Bytes := crlf ++ crlf

/-- `read_http_request`, http_protocol.py lines 120-147, with what stays in the stream. -/
def readRequest (upper fold : Bytes → Bytes) (stream : Bytes) : Option (Request × Bytes) := do
  let (data, rest) ← cutAt headEnd stream
  return (← parseRequest upper fold data, rest)

/-- `read_http_response`, http_protocol.py lines 93-116, with what stays in the stream. -/
def readResponse (fold : Bytes → Bytes) (stream : Bytes) : Option (Response × Bytes) := do
  let (data, rest) ← cutAt headEnd stream
  return (← parseResponse fold data, rest)

/-! ### Writing -/

/-- `str(n)` -/
def decimal (n : Nat) : Bytes := (Nat.toDigits 10 n).map fun c => UInt8.ofNat c.toNat

/-- http_protocol.py lines 716-717 and 759-760. -/
def writeHeaders (headers : Headers) : Bytes :=
  headers.items.flatMap fun h => h.1 ++ [colon, sp] ++ h.2 ++ crlf

/-- `write_http_request`, http_protocol.py lines 688-720.  The major version is written twice. -/
def writeRequest (method path : Bytes) (headers : Headers) (version : Version) : Bytes :=
  method ++ [sp] ++ path ++ [sp] ++ http ++ decimal version.major ++ [dot] ++ decimal version.major ++ crlf
    ++ writeHeaders headers ++ crlf

/-- `write_http_response`, http_protocol.py lines 723-766. -/
def writeResponse (status : Nat) (phrase : Bytes) (headers : Headers) (version : Version)
    (body : Bytes) : Bytes :=
  http ++ decimal version.major ++ [dot] ++ decimal version.minor ++ [sp] ++ decimal status ++ [sp] ++ phrase
    ++ crlf ++ writeHeaders headers ++ crlf ++ body

end Verif.Http
