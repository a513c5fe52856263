/-
Model of what is turned into json, and of the reasons of closing.

Source: `/repo/scarletio/utils/json.py`, `CLOSE_REASONS`, `get_close_reason` and
`ConnectionClosed.reason` of `/repo/scarletio/web_common/exceptions.py`.

The text of the json is not modelled, only what it is of. Texts, numbers and the like are numbers.
-/

namespace Verif.Json

/-! ### Json -/

/-- What is given to `to_json`: what `json` knows itself (`leaf`, lists and tuples, dictionaries of the given
keys), anything else which can be iterated over, mappings which are not dictionaries, members
of enums with their value, and anything else. -/
inductive Obj where
  | leaf (n : Nat)
  | list (l : List Obj)
  | dict (keys : List Nat) (values : List Obj)
  | iterable (l : List Obj)
  | mapping (keys : List Nat) (values : List Obj)
  | enum (value : Obj)
  | unknown

inductive Json where
  | leaf (n : Nat)
  | array (l : List Json)
  | object (keys : List Nat) (values : List Json)

/-- `added_json_serializer` (`json.py:9-34`): `none` is `TypeError`. Iterating over a mapping gives its keys. -/
def added : Obj → Option Obj
  | .iterable l => some (.list l)
  | .mapping keys _ => some (.list (keys.map .leaf))
  | .enum v => some v
  | _ => none

mutual
/-- `to_json` (`json.py:37-55`): `json.dumps` calls `added_json_serializer` for what it does not know, and turns
what that gives into json. That this is so is `conv_added`. -/
def conv : Obj → Option Json
  | .leaf n => some (.leaf n)
  | .list l => (convAll l).map .array
  | .dict keys values => (convAll values).map (.object keys)
  | .iterable l => (convAll l).map .array
  | .mapping keys _ => some (.array (keys.map .leaf))
  | .enum v => conv v
  | .unknown => none
def convAll : List Obj → Option (List Json)
  | [] => some []
  | o :: l => match conv o, convAll l with
    | some a, some b => some (a :: b)
    | _, _ => none
end

/-! ### Reasons of closing -/

inductive Reason where
  | ok | goingAway | protocolError | unsupportedType | reserved | noStatus | abnormal | invalidData
  | policyViolation | tooBig | extensionRequired | unexpectedError | tryAgainLater | badGateway | tlsFailure
  | unused | reservedForExtensions | registered | privateUse | unknown
  /-- A text which was given. -/
  | given (n : Nat)
deriving DecidableEq, Repr

/-- `CLOSE_REASONS` (`exceptions.py:162-178`). -/
def closeReasons : List (Nat × Reason) :=
  [(1000, .ok), (1001, .goingAway), (1002, .protocolError), (1003, .unsupportedType), (1004, .reserved),
   (1005, .noStatus), (1006, .abnormal), (1007, .invalidData), (1008, .policyViolation), (1009, .tooBig),
   (1010, .extensionRequired), (1011, .unexpectedError), (1013, .tryAgainLater), (1014, .badGateway),
   (1015, .tlsFailure)]

/-- `get_close_reason` (`exceptions.py:180-209`). -/
def getCloseReason (code : Nat) : Reason :=
  match closeReasons.lookup code with
  | some r => r
  | none =>
    if code < 1000 then .unused
    else if code < 2000 then .reserved
    else if code < 3000 then .reservedForExtensions
    else if code < 4000 then .registered
    else if code < 5000 then .privateUse
    else .unknown

/-- A `ConnectionClosed` with its `_reason`. -/
structure Closed where
  code : Nat
  kept : Option Reason
deriving DecidableEq, Repr

/-- `ConnectionClosed.reason` (`exceptions.py:250-264`). -/
def Closed.reason (c : Closed) : Closed × Reason :=
  match c.kept with
  | some r => (c, r)
  | none =>
    let r := getCloseReason c.code
    ({ c with kept := some r }, r)

/-- What is given by reading it again and again. -/
def Closed.reads : Closed → Nat → List Reason
  | _, 0 => []
  | c, n + 1 => c.reason.2 :: c.reason.1.reads n

end Verif.Json
