import Verif.Http.Model

/-!
# How the payload of a message is read

Model of `get_payload_reader_task` of `scarletio/web_common/http_protocol.py`, of the properties
of `RawMessage` in `http_message.py`, of `get_decompressor_for` in `compressors.py` and of
`should_status_code_have_empty_payload` and `should_request_method_have_empty_payload` in
`helpers.py`.

* As in `Verif.Http.Model` a string is represented by its bytes.
* What Python's tables say about text that is not ASCII are the fields of `Tables`; nothing is
  assumed about them.
* The properties of a message are cached; a message that is not changed in between has the same
  properties with and without the cache, and the cache is not modelled.
-/

namespace Verif.Http

structure Tables where
  /-- `str.casefold` -/
  fold : Bytes → Bytes
  /-- `str.isdigit` -/
  isDigit : Bytes → Bool
  /-- `int`; `none` is `ValueError` -/
  int : Bytes → Option Nat

def ascii (bs : Bytes) : Bool := bs.all (· < 128)

def lowerByte (b : UInt8) : UInt8 := if 65 ≤ b && b ≤ 90 then b + 32 else b

/-- `text.casefold()` -/
def casefold (u : Tables) (bs : Bytes) : Bytes := if ascii bs then bs.map lowerByte else u.fold bs

/-- `text.isdigit()` -/
def isDigits (u : Tables) (bs : Bytes) : Bool := if ascii bs then bs ≠ [] && bs.all digit else u.isDigit bs

/-- `int(text)` of a text that `isdigit`. -/
def toInt (u : Tables) (bs : Bytes) : Option Nat := if ascii bs then some (number bs) else u.int bs

/-- `needle in text` -/
def occurs (needle : Bytes) : Bytes → Bool
  | [] => needle.isEmpty
  | b :: bs => needle.isPrefixOf (b :: bs) || occurs needle bs

def bytes (s : String) : Bytes := s.toList.map fun c => UInt8.ofNat c.toNat

/-! The names of the headers, headers.py. -/
def hConnection : Bytes := bytes "Connection"
def hUpgrade : Bytes := bytes "Upgrade"
def hLength : Bytes := bytes "Content-Length"
def hTransfer : Bytes := bytes "Transfer-Encoding"
def hEncoding : Bytes := bytes "Content-Encoding"

/-- `headers.get(name)`, and `headers[name]` where `none` is `KeyError`: the first value.  The lines
of a header dictionary are not empty (C34). -/
def first (u : Tables) (headers : Headers) (name : Bytes) : Option Bytes :=
  (headers.get (casefold u) name).bind (·.head?)

inductive Kind
  | request (method : Bytes)
  | response (status : Nat)
deriving DecidableEq, Repr

/-- `RawRequestMessage` and `RawResponseMessage`, http_message.py; what has nothing to do with the
payload is left out. -/
structure Message where
  kind : Kind
  version : Version
  headers : Headers
deriving DecidableEq, Repr

/-- `RawMessage.upgraded`, http_message.py lines 139-173. -/
def upgraded (u : Tables) (m : Message) : Bool :=
  match first u m.headers hUpgrade with
  | none => false
  | some [] => false
  | some (_ :: _) => match first u m.headers hConnection with
    | none => false
    | some connection => casefold u connection = bytes "upgrade"

/-- `RawMessage.chunked`, http_message.py lines 190-214. -/
def chunked (u : Tables) (m : Message) : Bool :=
  match first u m.headers hTransfer with
  | none => false
  | some coding => occurs (bytes "chunked") (casefold u coding)

/-- `RawMessage.encoding`, http_message.py lines 231-254. -/
def encoding (u : Tables) (m : Message) : Option Bytes := (first u m.headers hEncoding).map (casefold u)

/-- `RawMessage.keep_alive`, http_message.py lines 263-292: whether it is not `None`. -/
def keepAlive (u : Tables) (m : Message) : Bool :=
  match first u m.headers hConnection with
  | none => 1 < m.version.major || (m.version.major = 1 && 1 ≤ m.version.minor)
  | some connection => !occurs (bytes "close") (casefold u connection)

inductive Decoder
  | plain
  | gzip
  | deflate
  | brotli
deriving DecidableEq, Repr

inductive Error
  /-- `PayloadError` -/
  | payload
  /-- `ContentEncodingError` -/
  | contentEncoding
  /-- `AttributeError` -/
  | attribute
  /-- `ValueError` -/
  | value
deriving DecidableEq, Repr

/-- `get_decompressor_for`, compressors.py lines 49-93; `hasBrotli` is whether one of the brotli
packages is installed. -/
def decoderFor (hasBrotli : Bool) : Option Bytes → Except Error Decoder
  | none => .ok .plain
  | some coding =>
    if coding = bytes "gzip" then .ok .gzip
    else if coding = bytes "deflate" then .ok .deflate
    else if coding = bytes "br" then if hasBrotli then .ok .brotli else .error .contentEncoding
    else if coding = bytes "identity" then .ok .plain
    else .error .contentEncoding

inductive Reader
  /-- `None`: there is no payload. -/
  | nothing
  /-- `_read_chunked`, `_read_chunked_encoded` -/
  | chunks (decoder : Decoder)
  /-- `_read_exactly`, `_read_exactly_encoded` -/
  | exactly (n : Nat) (decoder : Decoder)
  /-- `_read_until_eof` -/
  | untilEof
deriving DecidableEq, Repr

/-- `should_status_code_have_empty_payload`, helpers.py lines 511-528. -/
def emptyStatus (status : Nat) : Bool := status = 204 || status = 304 || (100 ≤ status && status < 200)

/-- Lines 408-413: the length, if there is one. -/
def lengthOf (u : Tables) (m : Message) : Except Error (Option Nat) :=
  match first u m.headers hLength with
  | none => .ok none
  | some text =>
    if !isDigits u text then .error .payload
    else match toInt u text with
      | none => .error .value
      | some n => .ok (some n)

/-- Lines 416-431, where the message is not upgraded: `none` goes on behind that.  Requests have no
`status`. -/
def plainReader (hasBrotli : Bool) (u : Tables) (m : Message) (length : Option Nat) :
    Except Error (Option Reader) :=
  match m.kind with
  | .request _ => .error .attribute
  | .response status =>
    if emptyStatus status then .ok (some .nothing)
    else if chunked u m then (decoderFor hasBrotli (encoding u m)).map fun d => some (.chunks d)
    else match length with
      | some (n + 1) => (decoderFor hasBrotli (encoding u m)).map fun d => some (.exactly (n + 1) d)
      | _ => .ok none

/-- Lines 433-456. -/
def lastReader (hasBrotli : Bool) (u : Tables) (m : Message) (length : Option Nat) : Except Error Reader :=
  match m.kind with
  | .request method =>
    if method = bytes "HEAD" then .ok .nothing
    else if method = bytes "CONNECT" then .ok .untilEof
    else .ok .nothing
  | .response status =>
    match length with
    | some _ => .ok .nothing
    | none =>
      if emptyStatus status then .ok .nothing
      else if chunked u m then (decoderFor hasBrotli (encoding u m)).map .chunks
      else .ok .untilEof

/-- `get_payload_reader_task`, http_protocol.py lines 394-456. -/
def readerFor (hasBrotli : Bool) (u : Tables) (m : Message) : Except Error Reader :=
  match lengthOf u m with
  | .error e => .error e
  | .ok length =>
    if upgraded u m then lastReader hasBrotli u m length
    else match plainReader hasBrotli u m length with
      | .error e => .error e
      | .ok (some reader) => .ok reader
      | .ok none => lastReader hasBrotli u m length

end Verif.Http
