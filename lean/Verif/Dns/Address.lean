/-!
# Addresses as text

Model of `parse_ip_v4_string`, `parse_ip_v6_string`, `parse_ip_string`,
`produce_ip_v4_string`, `produce_ip_v6_string` and `parse_reversed_labels_from_address` of
`scarletio/dns_query/helpers.py`, and of `parse_sort_list_element` of
`resolve_configuration.py`.

* Text is `List Char`, the generators are the text of all they yield.
* The regular expressions of constants.py lines 26-53 describe texts whose groups contain no
  separator, so a full match is a condition on the parts between the separators.  `octetOk`
  and `hextetOk` are the groups; the rest of the expressions is the shape of the list of
  parts, with an empty part where two separators meet.  A `None` group is a part that is not
  there.
-/

namespace Verif.Dns

abbrev Text := List Char

/-- The parts of a text between the occurrences of a separator. -/
def fields (sep : Char) : Text → List Text
  | [] => [[]]
  | c :: rest =>
    if c = sep then [] :: fields sep rest
    else match fields sep rest with
      | [] => [[c]]
      | part :: parts => (c :: part) :: parts

def decimalDigit (c : Char) : Bool := '0'.toNat ≤ c.toNat && c.toNat ≤ '9'.toNat

def digitOf (c : Char) : Nat :=
  if c.toNat ≤ '9'.toNat then c.toNat - '0'.toNat else c.toNat - 'a'.toNat + 10

/-- `int(value)`. -/
def decimalValue (text : Text) : Nat := text.foldl (fun n c => n * 10 + digitOf c) 0

/-- `[0-9]|[1-9][0-9]|1[0-9][0-9]|2(?:[0-4][0-9]|5[0-5])`, constants.py lines 27-30. -/
def octetOk : Text → Bool
  | [a] => decimalDigit a
  | [a, b] => decimalDigit a && a != '0' && decimalDigit b
  | [a, b, c] =>
    (a == '1' && decimalDigit b && decimalDigit c)
      || (a == '2' && ((decimalDigit b && b.toNat ≤ '4'.toNat && decimalDigit c)
        || (b == '5' && decimalDigit c && c.toNat ≤ '5'.toNat)))
  | _ => false

/-- `ip_value |= value << shift` for each pair. -/
def orAll (pairs : List (Nat × Nat)) : Nat :=
  pairs.foldl (fun ipValue pair => ipValue ||| pair.1 <<< pair.2) 0

/-- `parse_ip_v4_string`, helpers.py lines 218-242; `none` is `matched = False`. -/
def parseIpV4 (text : Text) : Option Nat :=
  let parts := fields '.' text
  if parts.length = 4 ∧ parts.all octetOk then
    some (orAll ((parts.map decimalValue).zip [24, 16, 8, 0]))
  else none

/-- `[0-9a-f]{1,4}`. -/
def hextetOk (text : Text) : Bool :=
  1 ≤ text.length && text.length ≤ 4 &&
    text.all fun c => decimalDigit c || ('a'.toNat ≤ c.toNat && c.toNat ≤ 'f'.toNat)

/-- `int(value, 16)`. -/
def hexValue (text : Text) : Nat := text.foldl (fun n c => n * 16 + digitOf c) 0

/-- The groups that are there, in front of their shifts. -/
def fromLeft (parts : List Text) (shifts : List Nat) : List (Nat × Nat) :=
  (parts.map hexValue).zip shifts

/-- The groups that are there, when the ones in front are missing. -/
def fromRight (parts : List Text) (shifts : List Nat) : List (Nat × Nat) :=
  (parts.map hexValue).zip (shifts.drop (shifts.length - parts.length))

/-- `IP_V6_RP_WITH_COLON_AT_START`, constants.py lines 36-39. -/
def colonAtStart : List Text → Option (List Text)
  | [] :: [] :: parts =>
    if 1 ≤ parts.length ∧ parts.length ≤ 7 ∧ parts.all hextetOk then some parts else none
  | _ => none

/-- `IP_V6_WITH_COLON_AT_END`, constants.py lines 40-43. -/
def colonAtEnd (parts : List Text) : Option (List Text) :=
  let left := parts.takeWhile hextetOk
  if 1 ≤ left.length ∧ left.length ≤ 7 ∧ parts.dropWhile hextetOk = [[], []] then some left else none

/-- `IP_V6_WITH_COLON_IN_MIDDLE`, constants.py lines 44-50. -/
def colonInMiddle (parts : List Text) : Option (List Text × List Text) :=
  let left := parts.takeWhile hextetOk
  match parts.dropWhile hextetOk with
  | [] :: right =>
    if 1 ≤ left.length ∧ left.length ≤ 6 ∧ 1 ≤ right.length ∧ right.length ≤ 6 ∧ right.all hextetOk
    then some (left, right) else none
  | _ => none

/-- `parse_ip_v6_string`, helpers.py lines 245-318; `none` is `matched = False`.  The position
of the percent sign that the function also returns is not modelled. -/
def parseIpV6 (text : Text) : Option Nat :=
  if text = [':', ':'] then some 0
  else
    let parts := fields ':' (text.takeWhile (· ≠ '%'))
    if parts.length = 8 ∧ parts.all hextetOk then
      some (orAll (fromLeft parts [112, 96, 80, 64, 48, 32, 16, 0]))
    else match colonAtStart parts with
    | some parts => some (orAll (fromRight parts [96, 80, 64, 48, 32, 16, 0]))
    | none =>
      match colonAtEnd parts with
      | some parts => some (orAll (fromLeft parts [112, 96, 80, 64, 48, 32, 16]))
      | none =>
        match colonInMiddle parts with
        | some (left, right) =>
          if left.length + right.length < 8 then
            some (orAll (fromLeft left [112, 96, 80, 64, 48, 32]
              ++ fromRight right [80, 64, 48, 32, 16, 0]))
          else none
        | none => none

/-- The types of constants.py lines 21-23. -/
inductive IpType
  | none
  | v4
  | v6
deriving DecidableEq, Repr

/-- `parse_ip_string`, helpers.py lines 321-348. -/
def parseIp (text : Text) : IpType × Nat :=
  match parseIpV4 text with
  | some value => (.v4, value)
  | none =>
    match parseIpV6 text with
    | some value => (.v6, value)
    | none => (.none, 0)

/-- `str(n)`. -/
def decimalText (n : Nat) : Text := Nat.toDigits 10 n

/-- `format(n, 'x')`. -/
def hexText (n : Nat) : Text := Nat.toDigits 16 n

/-- `produce_ip_v4_string`, helpers.py lines 351-372. -/
def produceIpV4 (value : Nat) : Text :=
  decimalText ((value >>> 24) &&& 255) ++ '.' :: (decimalText ((value >>> 16) &&& 255)
    ++ '.' :: (decimalText ((value >>> 8) &&& 255) ++ '.' :: decimalText (value &&& 255)))

/-- `range(128 - 16, -6, -16)`, and `range(128 - 16, -16, -16)`. -/
def shifts : List Nat := [112, 96, 80, 64, 48, 32, 16, 0]

/-- `(ip_value >> shift) & 0xffff`. -/
def hextet (value shift : Nat) : Nat := (value >>> shift) &&& 0xffff

/-- The variables of the loop that looks for the longest sequence of zeros. -/
structure Sequences where
  largestStart : Nat := 0
  largestLength : Nat := 0
  currentStart : Nat := 0
  currentLength : Nat := 0
deriving DecidableEq, Repr

/-- A round of the loop, helpers.py lines 396-424; `zero` is `not value`. -/
def sequenceRound (s : Sequences) (shift : Nat) (zero : Bool) : Sequences :=
  if zero then
    if s.currentLength ≠ 0 then { s with currentLength := s.currentLength + 16 }
    else { s with currentStart := shift, currentLength := 16 }
  else if s.currentLength = 0 then s
  else if s.largestLength = 0 ∨ s.largestLength < s.currentLength ∨
      (s.largestLength = s.currentLength ∧ s.largestStart = 112) then
    { s with largestStart := s.currentStart, largestLength := s.currentLength, currentLength := 0 }
  else { s with currentLength := 0 }

/-- The loop and the comparison behind it, helpers.py lines 390-428; the start and the length
of the sequence that is left out. -/
def longestZeros (zeros : List (Nat × Bool)) : Nat × Nat :=
  let s := zeros.foldl (fun s z => sequenceRound s z.1 z.2) {}
  if s.currentLength ≠ 0 ∧ s.largestLength < s.currentLength then
    (s.currentStart, s.currentLength)
  else (s.largestStart, s.largestLength)

/-- `range(first, stop, -16)` for multiples of 16 between 112 and -16. -/
def shiftsBetween (first stop : Int) : List Nat :=
  shifts.filter fun shift => (shift : Int) ≤ first ∧ stop < (shift : Int)

/-- `produce_ip_v6_string`, helpers.py lines 375-462. -/
def produceIpV6 (value : Nat) : Text :=
  let (start, length) := longestZeros (shifts.map fun shift => (shift, hextet value shift = 0))
  let before := fun shift => ':' :: hexText (hextet value shift)
  let behind := fun shift => hexText (hextet value shift) ++ [':']
  if length = 0 then
    shifts.flatMap fun shift => hexText (hextet value shift) ++ (if shift ≠ 0 then [':'] else [])
  else if length = 128 then [':', ':']
  else if start = 112 then
    ':' :: (shiftsBetween (112 - (length : Int)) (-16)).flatMap before
  else if (start : Int) - (length : Int) = -16 then
    (shiftsBetween 112 ((length : Int) - 16)).flatMap behind ++ [':']
  else
    (shiftsBetween 112 (start : Int)).flatMap behind
      ++ (shiftsBetween ((start : Int) - (length : Int)) (-16)).flatMap before

/-- `parse_reversed_labels_from_address`, helpers.py lines 130-167; `none` is `ValueError`,
labels are texts here. -/
def reversedLabels (address : Text) : Option (List Text) :=
  match parseIp address with
  | (.v4, value) => some ((List.range 4).map (fun k => decimalText ((value >>> (8 * k)) &&& (1 <<< 8 - 1)))
      ++ ["in-addr".toList, "arpa".toList])
  | (.v6, value) => some ((List.range 32).map (fun k => hexText ((value >>> (4 * k)) &&& (1 <<< 4 - 1)))
      ++ ["ip6".toList, "arpa".toList])
  | (.none, _) => none

/-! ### Sort list elements -/

/-- `SortListElement(ip_type, ip_value, ip_mask)`, resolve_configuration.py lines 126-163. -/
structure Network where
  ipType : IpType
  ipValue : Nat
  ipMask : Nat
deriving DecidableEq, Repr

def bits : IpType → Nat
  | .v4 => 32
  | _ => 128

/-- The mask of a number of upper bits, resolve_configuration.py lines 252-262. -/
def upperMask (ipType : IpType) (count : Nat) : Nat :=
  let mask := 2 ^ bits ipType - 1
  if count < bits ipType then mask ^^^ (1 <<< (bits ipType - count) - 1) else mask

/-- `mask_string.isdecimal()` (ASCII only). -/
def isDecimal (text : Text) : Bool := text ≠ [] && text.all decimalDigit

/-- `parse_sort_list_element`, resolve_configuration.py lines 205-277; the text is not
empty. -/
def parseSortListElement (text : Text) : Option Network :=
  let ipText := text.takeWhile (· ≠ '/')
  let rest := text.dropWhile (· ≠ '/')
  if rest ≠ [] ∧ ipText = [] then none
  else
    match parseIp ipText with
    | (.none, _) => none
    | (ipType, ipValue) =>
      let maskText := rest.drop 1
      if maskText = [] then some ⟨ipType, ipValue, 2 ^ bits ipType - 1⟩
      else if isDecimal maskText then some ⟨ipType, ipValue, upperMask ipType (decimalValue maskText)⟩
      else
        match (if ipType = .v4 then parseIpV4 maskText else parseIpV6 maskText) with
        | none => none
        | some mask => some ⟨ipType, ipValue, mask⟩

/-- The condition of helpers.py lines 519-522 under which an address is yielded for an
element. -/
def Network.selects (n : Network) (ipType : IpType) (ipValue : Nat) : Bool :=
  ipType = n.ipType && ipValue &&& n.ipMask = n.ipValue

example : produceIpV6 0x20010db8000000000000000000000001 = "2001:db8::1".toList := by decide +kernel
example : parseIpV6 "2001:db8::1".toList = some 0x20010db8000000000000000000000001 := by decide +kernel
example : parseIpV6 "1:2:3:4:5:6::7:8".toList = none := by decide +kernel
example : parseIpV6 "::1%eth0".toList = some 1 := by decide +kernel

end Verif.Dns
