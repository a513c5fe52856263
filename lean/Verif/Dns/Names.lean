import Verif.Dns.Model

/-!
# Domain names as text, search lists, address order and name servers

Model of `parse_labels_from_name`, `build_name_from_labels`,
`iter_intermediate_intermediate_addresses_ordered` and `iter_labels_with_searches` of
`scarletio/dns_query/helpers.py`, of `parse_domain_name_pointer_data` of
`building_and_parsing.py` and of the choice of name servers of `requests.py`.

* Text is `List Char`.
* What Python's tables say about characters that are not ASCII, and the `idna` codec for
  labels that are not plain ASCII, are the fields of `Unicode`; nothing is assumed about
  them.  For ASCII labels without the text `xn--` the codec is the ASCII codec (the fast
  path of `encodings/idna.py`), and that is modelled.
* `str.isdigit` is modelled for ASCII only: other digits count as "not a digit".
-/

namespace Verif.Dns

/-- What is not modelled of Python's text handling. -/
structure Unicode where
  idnaEncode : List Char → Option Bytes
  idnaDecode : Bytes → Option (List Char)
  isAlnum : Char → Bool
  isPrintable : Char → Bool

/-- `ValueError` (or `UnicodeError`, a subclass of it) of `parse_labels_from_name`. -/
inductive NameError
  | escapeAtEnd
  | escapeTooShort
  | escapeTooLarge
  | emptyLabel
  | labelTooLong
  | encoding
deriving DecidableEq, Repr

def isDigit (c : Char) : Bool := '0'.toNat ≤ c.toNat && c.toNat ≤ '9'.toNat

/-- `ord(character) & 15`. -/
def digitValue (c : Char) : Nat := c.toNat &&& 15

/-- The splitting of `parse_labels_from_name`, helpers.py lines 29-92: `part` is `part_parts`,
`split` is `split`. -/
def splitName : List Char → List Char → List (List Char) → Except NameError (List (List Char))
  | [], part, split => .ok (if part ≠ [] then split ++ [part] else split)
  | c :: rest, part, split =>
    if c = '.' then splitName rest [] (split ++ [part])
    else if c ≠ '\\' then splitName rest (part ++ [c]) split
    else match rest with
      | [] => .error .escapeAtEnd
      | d :: rest =>
        if !isDigit d then splitName rest (part ++ [d]) split
        else match rest with
          | [] => .error .escapeTooShort
          | e :: rest =>
            if !isDigit e then .error .escapeTooShort
            else match rest with
              | [] => .error .escapeTooShort
              | f :: rest =>
                if !isDigit f then .error .escapeTooShort
                else
                  let total := (digitValue d * 10 + digitValue e) * 10 + digitValue f
                  if 255 < total then .error .escapeTooLarge
                  else splitName rest (part ++ [Char.ofNat total]) split

/-- The characters are all ASCII. -/
def allAscii (text : List Char) : Bool := text.all fun c => c.toNat < 128

/-- `part.encode('ascii')`, or `part.encode('idna')`, helpers.py lines 107-111. -/
def encodePart (u : Unicode) (part : List Char) : Option Bytes :=
  if allAscii part then some (part.map fun c => UInt8.ofNat c.toNat) else u.idnaEncode part

/-- The `for part in split` loop, helpers.py lines 105-125; `LABEL_LENGTH_THRESHOLD_UPPER` is
63. -/
def encodeParts (u : Unicode) : List (List Char) → Except NameError (List Bytes)
  | [] => .ok []
  | part :: parts =>
    match encodePart u part with
    | none => .error .encoding
    | some label =>
      if 63 < label.length then .error .labelTooLong
      else match encodeParts u parts with
        | .error e => .error e
        | .ok labels => .ok (label :: labels)

/-- `parse_labels_from_name`, helpers.py lines 11-127. -/
def parseLabelsFromName (u : Unicode) (name : List Char) :
    Except NameError (Option (List Bytes)) :=
  match splitName name [] [] with
  | .error e => .error e
  | .ok split =>
    if split = [] ∨ split = [['@']] ∨ split = [[]] then .ok none
    else if [] ∈ split then .error .emptyLabel
    else match encodeParts u split with
      | .error e => .error e
      | .ok labels => .ok (some labels)

/-- Whether `needle` occurs in `text`. -/
def occursIn (needle : Bytes) : Bytes → Bool
  | [] => needle.isEmpty
  | b :: rest => needle.isPrefixOf (b :: rest) || occursIn needle rest

/-- `label.decode('idna')`; `none` is `UnicodeError`.  The bytes of `xn--` are 120, 110, 45,
45. -/
def decodeLabel (u : Unicode) (label : Bytes) : Option (List Char) :=
  if label.all (·.toNat < 128) && !occursIn [120, 110, 45, 45] label then
    some (label.map fun b => Char.ofNat b.toNat)
  else u.idnaDecode label

/-- `character.isalnum()`. -/
def isAlnum (u : Unicode) (c : Char) : Bool :=
  if c.toNat < 128 then isDigit c || ('a'.toNat ≤ c.toNat && c.toNat ≤ 'z'.toNat)
    || ('A'.toNat ≤ c.toNat && c.toNat ≤ 'Z'.toNat)
  else u.isAlnum c

/-- `character.isprintable()`. -/
def isPrintable (u : Unicode) (c : Char) : Bool :=
  if c.toNat < 128 then 32 ≤ c.toNat && c.toNat < 127 else u.isPrintable c

/-- The characters that are written behind a backslash, helpers.py line 194. -/
def special : List Char := ['.', '\\', ';', '@', '$', '(', ')', '"']

/-- What `build_name_from_labels` writes for a character, helpers.py lines 193-213. -/
def writeChar (u : Unicode) (c : Char) : List Char :=
  if c ∈ special then ['\\', c]
  else if isAlnum u c then [c]
  else if !isPrintable u c || c.toNat < 33 then
    '\\' :: ((if c.toNat < 100 then ['0'] else []) ++ (if c.toNat < 10 then ['0'] else [])
      ++ Nat.toDigits 10 c.toNat)
  else [c]

/-- The `for index in range(len(labels))` loop, helpers.py lines 188-213; `none` is
`UnicodeError`. -/
def writeLabels (u : Unicode) : List Bytes → Option (List Char)
  | [] => some []
  | [label] => (decodeLabel u label).map fun text => text.flatMap (writeChar u)
  | label :: labels => do
    let text ← decodeLabel u label
    let rest ← writeLabels u labels
    return text.flatMap (writeChar u) ++ '.' :: rest

/-- `build_name_from_labels`, helpers.py lines 170-215. -/
def buildNameFromLabels (u : Unicode) : Option (List Bytes) → Option (List Char)
  | none => some ['@']
  | some labels => writeLabels u labels

/-! ### Pointer records -/

/-- What `parse_domain_name_pointer_data` does. -/
inductive PointerName
  | absent
  | name (text : List Char)
  | typeError
  | unicodeError
deriving DecidableEq, Repr

/-- `parse_domain_name_pointer_data`, building_and_parsing.py lines 468-490.  On a parsing
error `_parse_labels` answers `(None, error)`, and unpacking the `None` raises `TypeError`. -/
def parseDomainNamePointerData (u : Unicode) (fuel : Nat) : Option Bytes → Option PointerName
  | none => some .absent
  | some data =>
    if data.length = 0 then some .absent
    else match parseLabels fuel data 0 with
      | none => none
      | some (.error _) => some .typeError
      | some (.ok (none, _)) => some .absent
      | some (.ok (some labels, _)) =>
        match buildNameFromLabels u (some labels) with
        | none => some .unicodeError
        | some text => some (.name text)

/-! ### Search lists -/

/-- `iter_labels_with_searches`, helpers.py lines 538-580, as the list of what is yielded.
`searches` and `fallback` are `resolve_configuration.searches` and `.searches_fallback`,
`dots` is `.option_required_dot_count`. -/
def labelsWithSearches (searches fallback : Option (List (List Bytes))) (dots : Nat)
    (initial : Option (List Bytes)) : List (List Bytes) :=
  let tail := match initial with
    | none => []
    | some labels => [labels]
  if initial.any fun labels => dots < labels.length then tail
  else
    let searchesToUse := match searches with
      | some searches => searches
      | none => fallback.getD []
    (searchesToUse.map fun labelsPrefix => labelsPrefix ++ initial.getD []) ++ tail

/-! ### The order of addresses -/

/-- `(ip_type, ip_value, canonical_name, network_interface_index)`; the last two are one
value here. -/
structure Address where
  ipType : Nat
  ipValue : Nat
  extra : Nat
deriving DecidableEq, Repr

/-- `SortListElement` of resolve_configuration.py. -/
structure SortListElement where
  ipType : Nat
  ipValue : Nat
  ipMask : Nat
deriving DecidableEq, Repr

/-- The address does not pass the condition of helpers.py lines 519-522. -/
def matchesElement (element : SortListElement) (address : Address) : Bool :=
  !((address.ipType ≠ element.ipType) || (address.ipValue &&& element.ipMask ≠ element.ipValue))

/-- The `while index < address_count` loop for one element, helpers.py lines 515-533: what is
yielded, and what is left.  `kept` are the addresses in front of `index`. -/
def orderOne (element : SortListElement) : List Address → List Address → List Address × List Address
  | kept, [] => ([], kept)
  | kept, address :: rest =>
    if matchesElement element address then
      let (yielded, left) := orderOne element kept rest
      (address :: yielded, left)
    else orderOne element (kept ++ [address]) rest

/-- The `for sort_list_element in sort_list` loop, helpers.py lines 513-533, and the
`yield from` behind it.  The `return` of line 531 is taken when nothing is left, where the
rest of the loop yields nothing. -/
def orderAll : List SortListElement → List Address → List Address
  | [], addresses => addresses
  | element :: elements, addresses =>
    let (yielded, left) := orderOne element [] addresses
    yielded ++ orderAll elements left

/-- `iter_intermediate_intermediate_addresses_ordered`, helpers.py lines 493-535. -/
def addressesOrdered (sortList : Option (List SortListElement)) (addresses : List Address) :
    List Address :=
  match sortList with
  | none => addresses
  | some sortList => orderAll sortList addresses

/-! ### Name servers -/

/-- The name servers `async_iter_execute_query_async` goes through when none of them gives a
result, as positions in the configuration, requests.py lines 96-114. -/
def nameServerOrder (rotate : Bool) (transactionId attempts count : Nat) : List Nat :=
  let start := if rotate then transactionId else 0
  (List.range (min attempts count)).map fun k => (start + k) % count

end Verif.Dns
