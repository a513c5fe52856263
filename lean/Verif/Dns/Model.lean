/-!
# DNS messages

Model of `scarletio/dns_query/building_and_parsing.py`: writing a query
(`build_query_data`) and reading a response (`_parse_labels`, `_parse_questions`,
`_parse_resource_records`, `parse_result_data`, `parse_ip_v4_data`, `parse_ip_v6_data`).

* `bytes` are `List UInt8`, numbers are `Nat` (negative ones are not modelled), an absent
  value (`None`) is `none`.
* `int.to_bytes` raises `OverflowError` when the number does not fit; that is the `none`
  of `toBytes` and of `buildQueryData`.
* The `while True` loop of `_parse_labels` may run forever.  `parseLabels fuel` gives the
  loop `fuel` rounds and answers `none` when it is still not over; everything built on it
  hands the same fuel to every name it reads.
* The arguments that the error objects carry for their message are not modelled.
-/

namespace Verif.Dns

abbrev Bytes := List UInt8

/-- The lowest `8 * width` bits of a number, most significant byte first. -/
def be : Nat → Nat → Bytes
  | 0, _ => []
  | width + 1, n => be width (n / 256) ++ [UInt8.ofNat (n % 256)]

/-- `int.to_bytes(width, 'big')`; `none` is `OverflowError`. -/
def toBytes (width n : Nat) : Option Bytes :=
  if n < 256 ^ width then some (be width n) else none

/-- `int.from_bytes(data, 'big')`. -/
def fromBytes (data : Bytes) : Nat :=
  data.foldl (fun value byte => value * 256 + byte.toNat) 0

/-- `data[start : stop]`. -/
def slice (data : Bytes) (start stop : Nat) : Bytes :=
  (data.take stop).drop start

/-- `dns_query/question.py`: `Question`. -/
structure Question where
  labels : Option (List Bytes)
  resourceRecordType : Nat
  classCode : Nat
deriving DecidableEq, Repr

/-- `dns_query/resource_record.py`: `ResourceRecord`. -/
structure ResourceRecord where
  labels : Option (List Bytes)
  resourceRecordType : Nat
  classCode : Nat
  validityDuration : Nat
  data : Option Bytes
deriving DecidableEq, Repr

/-- `dns_query/query.py`: `Query`. -/
structure Query where
  transactionId : Nat
  recursionDesired : Bool
  dataVerificationDesired : Bool
  questions : Option (List Question)
  additionalResourceRecords : Option (List ResourceRecord)

/-- `dns_query/result.py`: `Result`. -/
structure Result where
  transactionId : Nat
  dataVerified : Bool
  truncated : Bool
  recursionAvailable : Bool
  responseCode : Nat
  questions : Option (List Question)
  answers : Option (List ResourceRecord)
  authorityResourceRecords : Option (List ResourceRecord)
  additionalResourceRecords : Option (List ResourceRecord)
deriving DecidableEq, Repr

/-- The flags field written by `build_query_data`, building_and_parsing.py lines 41-46, with
the shifts of constants.py lines 142-150. -/
def queryFlags (recursionDesired setVerified verificationDesired : Bool) : Nat :=
  (0 <<< 11) ||| (recursionDesired.toNat <<< 8) ||| (setVerified.toNat <<< 5)
    ||| (verificationDesired.toNat <<< 4)

/-- building_and_parsing.py lines 57-61 and 69-73: each label behind its length; nothing for
`None`. -/
def buildLabels : List Bytes → Option Bytes
  | [] => some []
  | label :: labels => do
    let length ← toBytes 1 label.length
    let rest ← buildLabels labels
    return length ++ label ++ rest

/-- building_and_parsing.py lines 55-65: one question. -/
def buildQuestion (question : Question) : Option Bytes := do
  let labels ← buildLabels (question.labels.getD [])
  let type ← toBytes 2 question.resourceRecordType
  let classCode ← toBytes 2 question.classCode
  return labels ++ [0] ++ type ++ classCode

/-- building_and_parsing.py lines 68-83: one additional resource record. -/
def buildResourceRecord (record : ResourceRecord) : Option Bytes := do
  let labels ← buildLabels (record.labels.getD [])
  let type ← toBytes 2 record.resourceRecordType
  let classCode ← toBytes 2 record.classCode
  let validity ← toBytes 4 record.validityDuration
  let length ← toBytes 2 (record.data.getD []).length
  return labels ++ [0] ++ type ++ classCode ++ validity ++ length ++ record.data.getD []

/-- `for element in elements: ...`, stopping at the first exception. -/
def buildAll {α : Type} (build : α → Option Bytes) : List α → Option Bytes
  | [] => some []
  | element :: elements => do
    let first ← build element
    let rest ← buildAll build elements
    return first ++ rest

/-- `build_query_data`, building_and_parsing.py lines 20-86.  `setVerified` is
`resolve_configuration.option_set_verified_data_in_requests`.  All exceptions are the same
`OverflowError`, so the order in which the parts are evaluated does not matter. -/
def buildQueryData (query : Query) (setVerified : Bool) : Option Bytes := do
  let id ← toBytes 2 query.transactionId
  let flags ← toBytes 2
    (queryFlags query.recursionDesired setVerified query.dataVerificationDesired)
  let questionCount ← toBytes 2 (query.questions.getD []).length
  let additionalCount ← toBytes 2 (query.additionalResourceRecords.getD []).length
  let questions ← buildAll buildQuestion (query.questions.getD [])
  let records ← buildAll buildResourceRecord (query.additionalResourceRecords.getD [])
  return id ++ flags ++ questionCount ++ [0, 0, 0, 0] ++ additionalCount ++ questions ++ records

/-- `RESPONSE_PARSING_ERROR_CODE_*`, constants.py lines 61-70. -/
inductive ParseError
  | headerOutOfBound
  | labelLengthReadOutOfBound
  | labelReadEndOutOfBound
  | labelLengthInvalidRange
  | labelJumpReadOutOfBound
  | labelJumpForward
  | questionHeaderOutOfBound
  | resourceRecordHeaderOutOfBound
  | resourceRecordDataOutOfBound
deriving DecidableEq, Repr

/-- The variables of the loop of `_parse_labels` at the start of a round. -/
structure LabelState where
  labels : Option (List Bytes)
  index : Nat
  furthest : Nat
deriving DecidableEq, Repr

/-- What a round of the loop does: go on, or leave the loop. -/
inductive Round
  | again (state : LabelState)
  | failed (error : ParseError)
  | done (labels : Option (List Bytes)) (furthest : Nat)
deriving DecidableEq, Repr

/-- One round of the loop of `_parse_labels`, building_and_parsing.py lines 118-182. -/
def labelRound (data : Bytes) (s : LabelState) : Round :=
  match data[s.index]? with
  | none => .failed .labelLengthReadOutOfBound
  | some byte =>
    let labelLength := byte.toNat
    let index := s.index + 1
    let furthest := max s.furthest index
    if labelLength = 0 then .done s.labels furthest
    else if labelLength < 64 then
      let stop := index + labelLength
      if data.length < stop then .failed .labelReadEndOutOfBound
      else .again ⟨some (s.labels.getD [] ++ [slice data index stop]), stop, furthest⟩
    else if labelLength < 192 then .failed .labelLengthInvalidRange
    else match data[index]? with
      | none => .failed .labelJumpReadOutOfBound
      | some addition =>
        let furthest := max furthest (index + 1)
        let target := ((labelLength &&& 0x3f) <<< 8) ||| addition.toNat
        if furthest < target then .failed .labelJumpForward
        else .again ⟨s.labels, target, furthest⟩

/-- What a parsing function answers: `none` when a loop was still running when its rounds
were used up. -/
abbrev Parsed (α : Type) := Option (Except ParseError α)

/-- `fuel` rounds of the loop of `_parse_labels` from a given state. -/
def labelLoop (data : Bytes) : Nat → LabelState → Parsed (Option (List Bytes) × Nat)
  | 0, _ => none
  | fuel + 1, s =>
    match labelRound data s with
    | .again s' => labelLoop data fuel s'
    | .failed error => some (.error error)
    | .done labels furthest => some (.ok (labels, furthest))

/-- `_parse_labels`, building_and_parsing.py lines 89-191. -/
def parseLabels (fuel : Nat) (data : Bytes) (index : Nat) :
    Parsed (Option (List Bytes) × Nat) :=
  labelLoop data fuel ⟨none, index, index⟩

/-- One round of the `for` loop of `_parse_questions`, building_and_parsing.py
lines 222-241. -/
def parseQuestion (fuel : Nat) (data : Bytes) (index : Nat) : Parsed (Question × Nat) :=
  match parseLabels fuel data index with
  | none => none
  | some (.error error) => some (.error error)
  | some (.ok (labels, index)) =>
    if data.length < index + 4 then some (.error .questionHeaderOutOfBound)
    else some (.ok (⟨labels, fromBytes (slice data index (index + 2)),
      fromBytes (slice data (index + 2) (index + 4))⟩, index + 4))

/-- One round of the `for` loop of `_parse_resource_records`, building_and_parsing.py
lines 287-331. -/
def parseResourceRecord (fuel : Nat) (data : Bytes) (index : Nat) :
    Parsed (ResourceRecord × Nat) :=
  match parseLabels fuel data index with
  | none => none
  | some (.error error) => some (.error error)
  | some (.ok (labels, index)) =>
    if data.length < index + 10 then some (.error .resourceRecordHeaderOutOfBound)
    else
      let type := fromBytes (slice data index (index + 2))
      let classCode := fromBytes (slice data (index + 2) (index + 4))
      let validity := fromBytes (slice data (index + 4) (index + 8))
      let length := fromBytes (slice data (index + 8) (index + 10))
      if length = 0 then some (.ok (⟨labels, type, classCode, validity, none⟩, index + 10))
      else if data.length < index + 10 + length then
        some (.error .resourceRecordDataOutOfBound)
      else some (.ok (⟨labels, type, classCode, validity,
        some (slice data (index + 10) (index + 10 + length))⟩, index + 10 + length))

/-- The `for _ in range(count)` loops of `_parse_questions` and `_parse_resource_records`,
collecting what each round reads; the first error ends the loop. -/
def parseMany {α : Type} (parse : Nat → Parsed (α × Nat)) :
    Nat → Nat → Parsed (List α × Nat)
  | 0, index => some (.ok ([], index))
  | count + 1, index =>
    match parse index with
    | none => none
    | some (.error error) => some (.error error)
    | some (.ok (element, index)) =>
      match parseMany parse count index with
      | none => none
      | some (.error error) => some (.error error)
      | some (.ok (elements, index)) => some (.ok (element :: elements, index))

/-- The lists are only created when there is something to put into them,
building_and_parsing.py lines 238-239 and 326-327: `None` instead of an empty tuple. -/
def tupleOrNone {α : Type} : List α → Option (List α)
  | [] => none
  | elements => some elements

/-- `parse_result_data`, building_and_parsing.py lines 345-427. -/
def parseResultData (fuel : Nat) (data : Bytes) : Parsed Result :=
  if data.length < 12 then some (.error .headerOutOfBound)
  else
    let transactionId := fromBytes (slice data 0 2)
    let flags := fromBytes (slice data 2 4)
    match parseMany (parseQuestion fuel data) (fromBytes (slice data 4 6)) 12 with
    | none => none
    | some (.error error) => some (.error error)
    | some (.ok (questions, index)) =>
      match parseMany (parseResourceRecord fuel data) (fromBytes (slice data 6 8)) index with
      | none => none
      | some (.error error) => some (.error error)
      | some (.ok (answers, index)) =>
        match parseMany (parseResourceRecord fuel data) (fromBytes (slice data 8 10)) index with
        | none => none
        | some (.error error) => some (.error error)
        | some (.ok (authority, index)) =>
          match parseMany (parseResourceRecord fuel data) (fromBytes (slice data 10 12))
            index with
          | none => none
          | some (.error error) => some (.error error)
          | some (.ok (additional, _)) =>
            some (.ok ⟨transactionId, decide ((flags >>> 5) &&& 1 ≠ 0),
              decide ((flags >>> 9) &&& 1 ≠ 0), decide ((flags >>> 7) &&& 1 ≠ 0),
              (flags >>> 0) &&& 0b1111, tupleOrNone questions, tupleOrNone answers,
              tupleOrNone authority, tupleOrNone additional⟩)

/-- `parse_ip_v4_data`, building_and_parsing.py lines 430-446. -/
def parseIpV4Data : Option Bytes → Option Nat
  | none => none
  | some data => if data.length ≠ 4 then none else some (fromBytes data)

/-- `parse_ip_v6_data`, building_and_parsing.py lines 449-465. -/
def parseIpV6Data : Option Bytes → Option Nat
  | none => none
  | some data => if data.length ≠ 16 then none else some (fromBytes data)

end Verif.Dns
