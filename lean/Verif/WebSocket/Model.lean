import Verif.Stream.Model
/-! Model of WebSocket frames: `web_common/web_socket_frame.py` and the frame reader / writer of
`web_common/http_protocol.py`. -/
namespace Verif.WebSocket
open Verif.Stream

abbrev Byte := UInt8

/-- One iteration of the loop of `apply_web_socket_mask` (web_socket_frame.py 40-41): every fourth byte, beginning with `index`,
is translated by the table of `key`. `_XOR_TABLE[key]` (25) maps `a` to `a ^ key`. -/
def maskStripe (index : Nat) (key : Byte) (data : List Byte) : List Byte :=
  data.mapIdx (fun i a => if index ≤ i ∧ (i - index) % 4 = 0 then a ^^^ key else a)

/-- `apply_web_socket_mask` (web_socket_frame.py 28-42). `none` is the `IndexError` of `mask[index]` on a too short mask. -/
def applyMask (mask data : List Byte) : Option (List Byte) :=
  match mask with
  | m0 :: m1 :: m2 :: m3 :: _ =>
    some (maskStripe 3 m3 (maskStripe 2 m2 (maskStripe 1 m1 (maskStripe 0 m0 data))))
  | _ => none

/-- `WebSocketFrame` (web_socket_frame.py 45-96, 256-276). -/
structure Frame where
  head0 : Byte
  data : List Byte
deriving DecidableEq, Repr

/-- `WebSocketFrame.__new__` (web_socket_frame.py 59-96). `operationCode` is one of the listed values `< 16`, given as byte. -/
def Frame.new (final : Bool) (operationCode : Byte) (data : List Byte) : Frame :=
  ⟨((if final then 1 else 0 : Byte) <<< 7) ||| operationCode, data⟩

/-- `WebSocketFrame.final` (web_socket_frame.py 131-140). -/
def Frame.final (f : Frame) : Bool := f.head0 &&& 0b10000000 != 0

/-- `WebSocketFrame.operation_code` (web_socket_frame.py 197-223). -/
def Frame.operationCode (f : Frame) : Byte := f.head0 &&& 0b00001111

inductive CheckError where
  | reservedBits | tooLong | fragmentedControl | invalidOperationCode
deriving DecidableEq, Repr

/-- `WebSocketFrame.check` (web_socket_frame.py 226-252). -/
def Frame.check (f : Frame) : Except CheckError Unit :=
  if f.head0 &&& 0b01110000 ≠ 0 then .error .reservedBits
  else
    let operationCode := f.head0 &&& 0b00001111
    if operationCode = 0 ∨ operationCode = 1 ∨ operationCode = 2 then .ok ()
    else if operationCode = 8 ∨ operationCode = 9 ∨ operationCode = 10 then
      if f.data.length > 125 then .error .tooLong
      else if f.head0 &&& 0b10000000 = 0 then .error .fragmentedControl
      else .ok ()
    else .error .invalidOperationCode

/-- `n` as `k` big-endian bytes (`struct` formats `!H`, `!Q`, http_protocol.py 27-32), for `n < 256 ^ k`. -/
def beBytes : Nat → Nat → List Byte
  | 0, _ => []
  | k + 1, n => UInt8.ofNat (n / 256 ^ k) :: beBytes k (n % 256 ^ k)

/-- Unpacking of big-endian bytes (`UNPACK_LENGTH_2`, `UNPACK_LENGTH_3`). -/
def beNat (bytes : List Byte) : Nat := bytes.foldl (fun acc b => acc * 256 + b.toNat) 0

/-- `write_web_socket_frame` (http_protocol.py 769-811): the bytes written to the transport. `mask` are the 4 bytes of
`getrandbits(32)` (804). `none` is `struct.error` for a length which does not fit 8 bytes. The transport is present (788-790). -/
def writeFrame (f : Frame) (clientSide : Bool) (mask : List Byte) : Option (List Byte) :=
  let head1 : Byte := (if clientSide then 1 else 0 : Byte) <<< 7
  let length := f.data.length
  let header : Option (List Byte) :=
    if length < 126 then some [f.head0, head1 ||| UInt8.ofNat length]
    else if length < 65536 then some (f.head0 :: (head1 ||| 126) :: beBytes 2 length)
    else if length < 2 ^ 64 then some (f.head0 :: (head1 ||| 127) :: beBytes 8 length)
    else none
  match header with
  | none => none
  | some header =>
    if clientSide then
      match applyMask mask f.data with
      | some data => some (header ++ mask ++ data)
      | none => none
    else some (header ++ f.data)

/-- `read_exactly` (protocol.py 695-728) for `n ≥ 0`, without a pending exception: `n = 0` returns immediately. The result is
the awaited payload, all yielded chunks joined. `none`: `ConnectionError` at EOF. -/
def readExactlyApi (n : Nat) (s : RState Byte) : Option (List Byte × RState Byte) :=
  if n = 0 then some ([], s)
  else
    match readExactly n s with
    | .ok out s' => some (out.flatten, s')
    | .eof _ _ => none

inductive FrameRes where
  | frame (f : Frame) (rest : RState Byte)
  | incorrectMasking
  | tooLong (length : Nat)
  | eof
deriving DecidableEq, Repr

/-- Second half of `read_web_socket_frame` (http_protocol.py 380-391). -/
def readFrameBody (clientSide : Bool) (maxSize : Option Nat) (head0 : Byte) (length : Nat) (s : RState Byte) : FrameRes :=
  if (match maxSize with | some m => decide (m < length) | none => false) then .tooLong length
  else if clientSide then
    match readExactlyApi length s with
    | none => .eof
    | some (data, s) => .frame ⟨head0, data⟩ s
  else
    match readExactlyApi 4 s with
    | none => .eof
    | some (mask, s) =>
      match readExactlyApi length s with
      | none => .eof
      | some (data, s) =>
        match applyMask mask data with
        | some data => .frame ⟨head0, data⟩ s
        | none => .eof  -- not reachable, the mask has 4 bytes

/-- `read_web_socket_frame` (http_protocol.py 346-391). -/
def readFrame (clientSide : Bool) (maxSize : Option Nat) (s : RState Byte) : FrameRes :=
  match readExactlyApi 2 s with
  | none => .eof
  | some (heads, s) =>
    match heads with
    | [head0, head1] =>
      if ((head1 &&& 0b10000000) >>> 7) = (if clientSide then 1 else 0) then .incorrectMasking
      else
        let length := (head1 &&& 0b01111111).toNat
        if length = 126 then
          match readExactlyApi 2 s with
          | none => .eof
          | some (data, s) => readFrameBody clientSide maxSize head0 (beNat data) s
        else if length = 127 then
          match readExactlyApi 8 s with
          | none => .eof
          | some (data, s) => readFrameBody clientSide maxSize head0 (beNat data) s
        else readFrameBody clientSide maxSize head0 length s
    | _ => .eof  -- not reachable, two bytes were read

end Verif.WebSocket
