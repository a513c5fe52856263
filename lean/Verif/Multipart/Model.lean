import Verif.ContentType.Model
import Verif.Http.Model

/-!
# Multipart bodies

Model of `MultipartWriter` and `MultipartPayloadWriter` of `scarletio/web_common/multipart.py`, and of `_read_single_multipart`
and `read_multipart` of `scarletio/web_common/http_protocol.py`.

* Strings are their bytes, as in `Verif.Http.Model`; `str.casefold` is a parameter.
* Of a payload there are its headers, its size, and the chunks it gives to the writer.  A payload is appended once.
* Compressors and `qp_encode` are parameters.
* What is written is the concatenation of what is given to the http writer.
* Reading: everything was received, and then the end of the stream.  (`_read_exactly_as_one`, which is no payload reader of its
  own, cannot wait for data here: `_wait_for_data` yields to the task, and gets `None` for a chunk.)  `read_until` finds the first
  occurrence; when it does is the subject of C02.
* A content length is decimal digits; Python takes blanks, signs and underscores too.
-/

namespace Verif.Multipart

open Http (Bytes Headers crlf cutAt headEnd decimal number digit parseHeaders)

/-- `Content-Type` -/
def contentType : Bytes := [67, 111, 110, 116, 101, 110, 116, 45, 84, 121, 112, 101]
/-- `Content-Encoding` -/
def contentEncodingName : Bytes := [67, 111, 110, 116, 101, 110, 116, 45, 69, 110, 99, 111, 100, 105, 110, 103]
/-- `Content-Transfer-Encoding` -/
def transferEncodingName : Bytes := [67, 111, 110, 116, 101, 110, 116, 45, 84, 114, 97, 110, 115, 102, 101, 114, 45, 69, 110, 99, 111, 100, 105, 110, 103]
/-- `Content-Length` -/
def contentLength : Bytes := [67, 111, 110, 116, 101, 110, 116, 45, 76, 101, 110, 103, 116, 104]

inductive Content
  | deflate | gzip | br
deriving DecidableEq, Repr

inductive Transfer
  | base64 | quotedPrintable
deriving DecidableEq, Repr

/-- `PayloadBase`, multipart.py lines 78-171. -/
structure Payload where
  headers : Headers
  contentType : Bytes
  size : Option Nat
  chunks : List Bytes
deriving DecidableEq, Repr

/-- An element of `MultipartWriter.data`. -/
structure Entry where
  payload : Payload
  headers : Bytes
  content : Option Content
  transfer : Option Transfer
deriving DecidableEq, Repr

/-- `MultipartWriter` -/
structure Writer where
  boundary : Bytes
  size : Option Nat := none
  data : List Entry := []
deriving DecidableEq, Repr

/-- `headers[key]`, or `headers.get(key, None)`: the first value. -/
def first (fold : Bytes → Bytes) (headers : Headers) (key : Bytes) : Option Bytes := (headers.get fold key).bind List.head?

/-- multipart.py lines 1237-1250; `RuntimeError` is `none`. -/
def contentOf (fold : Bytes → Bytes) (headers : Headers) : Option (Option Content) :=
  match first fold headers contentEncodingName with
  | none => some none
  | some value =>
    if fold value = [100, 101, 102, 108, 97, 116, 101] then some (some .deflate)
    else if fold value = [103, 122, 105, 112] then some (some .gzip)
    else if fold value = [98, 114] then some (some .br)
    else if fold value = [] ∨ fold value = [105, 100, 101, 110, 116, 105, 116, 121] then some none
    else none

/-- multipart.py lines 1253-1267; `RuntimeError` is `none`. -/
def transferOf (fold : Bytes → Bytes) (headers : Headers) : Option (Option Transfer) :=
  match first fold headers transferEncodingName with
  | none => some none
  | some value =>
    if fold value = [] then some none
    else if fold value = [98, 97, 115, 101, 54, 52] then some (some .base64)
    else if fold value = [113, 117, 111, 116, 101, 100, 45, 112, 114, 105, 110, 116, 97, 98, 108, 101] then some (some .quotedPrintable)
    else if fold value = [98, 105, 110, 97, 114, 121] then some none
    else none

/-- `if CONTENT_TYPE not in payload_headers: payload_headers[CONTENT_TYPE] = payload.content_type`, multipart.py lines 1232-1234. -/
def typed (fold : Bytes → Bytes) (p : Payload) : Headers :=
  if (p.headers.get fold contentType).isSome then p.headers else p.headers.set fold contentType p.contentType

/-- multipart.py lines 1270-1272. -/
def measured (fold : Bytes → Bytes) (headers : Headers) (size : Option Nat) (content : Option Content) (transfer : Option Transfer) : Headers :=
  match size with
  | some size => if content = none ∧ transfer = none then headers.set fold contentLength (decimal size) else headers
  | none => headers

/-- The size of a writer with one payload more, multipart.py lines 1285-1299. -/
def sizeWith (w : Writer) (size : Option Nat) (content : Option Content) (transfer : Option Transfer) (headers : Bytes) : Option Nat :=
  match (if w.data ≠ [] then w.size else some (6 + w.boundary.length)) with
  | none => w.size
  | some total =>
    match size with
    | some size => if content = none ∧ transfer = none then some (total + (6 + w.boundary.length + size + headers.length)) else none
    | none => none

/-- `append_payload`, multipart.py lines 1217-1302; `RuntimeError` is `none`. -/
def Writer.append (fold : Bytes → Bytes) (w : Writer) (p : Payload) : Option Writer :=
  let headers := typed fold p
  match contentOf fold headers with
  | none => none
  | some content =>
    match transferOf fold headers with
    | none => none
    | some transfer =>
      let headers := measured fold headers p.size content transfer
      let rendered := Http.writeHeaders headers ++ crlf
      some { w with size := sizeWith w p.size content transfer rendered, data := w.data ++ [⟨{ p with headers }, rendered, content, transfer⟩] }

/-- The payloads are appended one after the other; one which raises is left out. -/
def Writer.appendAll (fold : Bytes → Bytes) (w : Writer) (ps : List Payload) : Writer :=
  ps.foldl (fun w p => (w.append fold p).getD w) w

/-! ### Base 64 -/

/-- The digits of `base64.b64encode`. -/
def b64Digit (n : Nat) : UInt8 :=
  if n < 26 then UInt8.ofNat (65 + n)
  else if n < 52 then UInt8.ofNat (97 + (n - 26))
  else if n < 62 then UInt8.ofNat (48 + (n - 52))
  else if n = 62 then 43
  else 47

/-- `base64.b64encode` -/
def b64 : Bytes → Bytes
  | a :: b :: c :: rest =>
    [b64Digit (a.toNat / 4), b64Digit (a.toNat % 4 * 16 + b.toNat / 16), b64Digit (b.toNat % 16 * 4 + c.toNat / 64), b64Digit (c.toNat % 64)] ++
      b64 rest
  | [a, b] => [b64Digit (a.toNat / 4), b64Digit (a.toNat % 4 * 16 + b.toNat / 16), b64Digit (b.toNat % 16 * 4), 61]
  | [a] => [b64Digit (a.toNat / 4), b64Digit (a.toNat % 4 * 16), 61, 61]
  | [] => []

/-! ### Encoding -/

/-- The compressors, and `qp_encode`. -/
structure Codec where
  State : Type
  start : Content → State
  compress : State → Bytes → State × Bytes
  flush : State → Bytes
  qp : Bytes → Bytes

/-- `MultipartPayloadWriter`; `buffer` is `encoding_buffer`, and `out` is what was written. -/
structure Encoder (codec : Codec) where
  compressor : Option codec.State
  transfer : Option Transfer
  buffer : Bytes := []
  out : List Bytes := []

/-- `MultipartPayloadWriter.__new__`, multipart.py lines 1437-1534. -/
def Encoder.new (codec : Codec) (content : Option Content) (transfer : Option Transfer) : Encoder codec :=
  { compressor := content.map codec.start, transfer }

/-- `write` behind the compressor, multipart.py lines 1577-1602. -/
def Encoder.emit {codec : Codec} (e : Encoder codec) (chunk : Bytes) : Encoder codec :=
  match e.transfer with
  | some .base64 =>
    let buffer := e.buffer ++ chunk
    let barrier := buffer.length / 3 * 3
    if barrier = 0 then { e with buffer }
    else { e with buffer := buffer.drop barrier, out := e.out ++ [b64 (buffer.take barrier)] }
  | some .quotedPrintable => { e with out := e.out ++ [codec.qp chunk] }
  | none => { e with out := e.out ++ [chunk] }

/-- `write`, multipart.py lines 1559-1602. -/
def Encoder.write {codec : Codec} (e : Encoder codec) (chunk : Bytes) : Encoder codec :=
  match e.compressor with
  | none => e.emit chunk
  | some state =>
    if chunk = [] then e.emit chunk
    else
      let r := codec.compress state chunk
      let e := { e with compressor := some r.1 }
      if r.2 = [] then e else e.emit r.2

/-- `write_eof`, multipart.py lines 1536-1557. -/
def Encoder.eof {codec : Codec} (e : Encoder codec) : Encoder codec :=
  let e := match e.compressor with
    | none => e
    | some state =>
      let e := { e with compressor := none }
      if codec.flush state = [] then e else e.write (codec.flush state)
  if e.transfer = some .base64 ∧ e.buffer ≠ [] then { e with out := e.out ++ [b64 e.buffer] } else e

/-- What is written for the data of a part, multipart.py lines 1389-1396. -/
def Entry.body (codec : Codec) (e : Entry) : Bytes :=
  if e.content ≠ none ∨ e.transfer ≠ none then ((e.payload.chunks.foldl Encoder.write (Encoder.new codec e.content e.transfer)).eof).out.flatten
  else e.payload.chunks.flatten

/-- `--` -/
def dashes : Bytes := [45, 45]

/-- A turn of the loop of `MultipartWriter.write`, multipart.py lines 1385-1397. -/
def Entry.written (codec : Codec) (boundary : Bytes) (e : Entry) : Bytes := dashes ++ boundary ++ crlf ++ e.headers ++ e.body codec ++ crlf

/-- `MultipartWriter.write`, multipart.py lines 1372-1400. -/
def Writer.written (codec : Codec) (w : Writer) : Bytes :=
  w.data.flatMap (Entry.written codec w.boundary) ++ (dashes ++ w.boundary ++ dashes ++ crlf)

/-! ### Payloads -/

/-- `BytesPayload`, `StringPayload` and `JsonPayload`, multipart.py lines 206-347 and 586-625. -/
def Payload.bytes (headers : Headers) (contentType data : Bytes) : Payload := ⟨headers, contentType, some data.length, [data]⟩

/-- `BytesIOPayload` and `BufferedReaderPayload`, multipart.py lines 504-583: `stored` is what is in the file from its position on;
it is read in chunks. -/
def Payload.file (headers : Headers) (contentType stored : Bytes) (chunks : List Bytes) : Payload := ⟨headers, contentType, some stored.length, chunks⟩

/-- `TextIOPayload`, multipart.py lines 420-501: `stored` is what is in the file from its position on, `texts` are the chunks of text
which are read of it, and `encode` is the encoding of the payload. -/
def Payload.text {Text : Type} (headers : Headers) (contentType stored : Bytes) (texts : List Text) (encode : Text → Bytes) : Payload :=
  ⟨headers, contentType, some stored.length, texts.map encode⟩

/-- A writer as a payload; its size is the one when it is appended, and what is written is what is in it then. -/
def Payload.nested (headers : Headers) (contentType : Bytes) (codec : Codec) (appended written : Writer) : Payload :=
  ⟨headers, contentType, appended.size, [written.written codec]⟩

/-! ### Reading -/

/-- A Python object which is added to `bytes`. -/
inductive Object
  | bytes (b : Bytes)
  | str (s : Bytes)
deriving DecidableEq, Repr

inductive Error
  /-- `EOFError`, or `ConnectionError` because of it -/
  | eof
  | payload
  /-- `int` of something else -/
  | value
  | type
deriving DecidableEq, Repr

/-- What `_read_single_multipart` gives, with what stays in the stream. -/
inductive Single
  | error (e : Error)
  | done (isMore : Bool) (part : Option (Headers × Bytes)) (rest : Bytes)
deriving DecidableEq, Repr

/-- Behind a boundary, http_protocol.py lines 232-258 (and 180-210, with `part` being `None`). -/
def afterBoundary (part : Headers × Bytes) (stream : Bytes) : Single :=
  if stream.length < 2 then .error .eof
  else if stream.take 2 = crlf then .done true (some part) (stream.drop 2)
  else if stream.take 2 = dashes then
    if (stream.drop 2).length < 2 then .error .eof
    else if (stream.drop 2).take 2 = crlf then .done false (some part) (stream.drop 4)
    else .error .payload
  else .error .payload

/-- The headers and the data, http_protocol.py lines 212-258. -/
def readPart (fold : Bytes → Bytes) (boundary : Bytes) (stream : Bytes) : Single :=
  match cutAt headEnd stream with
  | none => .error .eof
  | some (head, stream) =>
    match parseHeaders fold head with
    | none => .error .payload
    | some headers =>
      match first fold headers contentLength with
      | none =>
        match cutAt (crlf ++ dashes ++ boundary) stream with
        | none => .error .eof
        | some (data, stream) => afterBoundary (headers, data) stream
      | some length =>
        if length = [] ∨ ¬ length.all digit then .error .value
        else if stream.length < number length + (boundary.length + 4) then .error .eof
        else if (stream.drop (number length)).take (boundary.length + 4) ≠ crlf ++ dashes ++ boundary then .error .payload
        else afterBoundary (headers, stream.take (number length)) (stream.drop (number length + (boundary.length + 4)))

/-- `_read_single_multipart`, http_protocol.py lines 149-258. -/
def readSingle (fold : Bytes → Bytes) (boundary : Object) (isFirst : Bool) (stream : Bytes) : Single :=
  match boundary with
  | .str _ => .error .type
  | .bytes boundary =>
    if isFirst then
      match cutAt (dashes ++ boundary) stream with
      | none => .error .eof
      | some (_, stream) =>
        if stream.length < 2 then .error .eof
        else if stream.take 2 = crlf then readPart fold boundary (stream.drop 2)
        else if stream.take 2 = dashes then
          if (stream.drop 2).length < 2 then .error .eof
          else if (stream.drop 2).take 2 = crlf then .done false none (stream.drop 4)
          else .error .payload
        else .error .payload
    else readPart fold boundary stream

/-- The loop of `read_multipart`, http_protocol.py lines 305-343, without the decoding: the parts it yields, and how it ends.  Every
turn takes something of the stream. -/
def readLoop (fold : Bytes → Bytes) (boundary : Object) : Nat → Bool → Bytes → List (Headers × Bytes) × Option Error
  | 0, _, _ => ([], some .eof)
  | fuel + 1, isFirst, stream =>
    match readSingle fold boundary isFirst stream with
    | .error e => ([], some e)
    | .done isMore part rest =>
      if isMore then
        let r := readLoop fold boundary fuel false rest
        (part.toList ++ r.1, r.2)
      else (part.toList, none)

/-- The loop on a whole stream. -/
def readParts (fold : Bytes → Bytes) (boundary : Object) (stream : Bytes) : List (Headers × Bytes) × Option Error :=
  readLoop fold boundary (stream.length + 1) true stream

/-- The text of bytes. -/
def chars (b : Bytes) : ContentType.Text := b.map fun c => Char.ofNat c.toNat

/-- `read_multipart`, http_protocol.py lines 261-343: the boundary comes from the content type, as a string. -/
def readMultipart (fold : Bytes → Bytes) (foldText : ContentType.Text → ContentType.Text) (headers : Headers) (stream : Bytes) :
    List (Headers × Bytes) × Option Error :=
  match first fold headers contentType with
  | none => ([], some .payload)
  | some value =>
    match (ContentType.parse foldText (chars value)).parameter ['b', 'o', 'u', 'n', 'd', 'a', 'r', 'y'] with
    | none => ([], some .payload)
    | some boundary =>
      if boundary = [] then ([], some .payload)
      else readParts fold (.str (boundary.map fun c => UInt8.ofNat c.toNat)) stream

end Verif.Multipart
