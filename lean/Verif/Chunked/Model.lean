import Verif.Stream.Model
import Verif.Stream.Spec
/-! Model of chunked transfer encoding: reader `web_common/http_protocol.py` 459-531, writer
`web_common/http_stream_writer.py`. -/
namespace Verif.Chunked
open Verif.Stream

abbrev Byte := UInt8

/-- `b'\r\n'` -/
def crlf : List Byte := [13, 10]

/-! ### `int(line, 16)` of CPython (`PyLong_FromString`), used at http_protocol.py 486 -/

/-- `Py_ISSPACE`. -/
def isSpace (b : Byte) : Bool := b == 32 || (9 ≤ b && b ≤ 13)

/-- `_PyLong_DigitValue` for base 16. -/
def hexVal (b : Byte) : Option Nat :=
  if 48 ≤ b ∧ b ≤ 57 then some (b.toNat - 48)
  else if 97 ≤ b ∧ b ≤ 102 then some (b.toNat - 87)
  else if 65 ≤ b ∧ b ≤ 70 then some (b.toNat - 55)
  else none

/-- Digit scanning of `long_from_binary_base`: single underscores between digits are allowed. `none` : double or trailing
underscore. Gives the value and the unscanned rest. -/
def scanDigits (prevUnderscore : Bool) (acc : Nat) : List Byte → Option (Nat × List Byte)
  | [] => if prevUnderscore then none else some (acc, [])
  | b :: bs =>
    if b = 95 then if prevUnderscore then none else scanDigits true acc bs
    else
      match hexVal b with
      | some v => scanDigits false (acc * 16 + v) bs
      | none => if prevUnderscore then none else some (acc, b :: bs)

/-- Sign: `(is negative, rest)`. -/
def scanSign : List Byte → Bool × List Byte
  | 43 :: bs => (false, bs)
  | 45 :: bs => (true, bs)
  | bs => (false, bs)

/-- `0x` prefix, which may be followed by one underscore. -/
def scanPrefix : List Byte → List Byte
  | 48 :: x :: bs =>
    if x = 120 ∨ x = 88 then
      match bs with
      | 95 :: bs => bs
      | bs => bs
    else 48 :: x :: bs
  | bs => bs

/-- `int(line, 16)`; `none` is `ValueError`. -/
def parseInt16 (line : List Byte) : Option Int :=
  let (negative, l) := scanSign (line.dropWhile isSpace)
  let l := scanPrefix l
  match l with
  | [] => none
  | b :: _ =>
    match hexVal b with
    | none => none
    | some _ =>
      match scanDigits false 0 l with
      | none => none
      | some (value, rest) =>
        if rest.all isSpace then some (if negative then -(value : Int) else value) else none

/-! ### reader -/

inductive ChunkedRes where
  /-- Generator finished; the yielded pieces, and the state left. -/
  | done (out : List (List Byte)) (s : RState Byte)
  /-- `PayloadError` after yielding the pieces. -/
  | payloadError (out : List (List Byte))
  /-- `EOFError` after yielding the pieces. -/
  | eof (out : List (List Byte))
  /-- A negative chunk size was accepted. What `_read_exactly_by_chunk` does with it is not modelled. -/
  | negative (out : List (List Byte))
  /-- No progress; excluded for well formed states by `readChunked_refines`. -/
  | stuck
deriving DecidableEq, Repr

def ChunkedRes.yield (pre : List (List Byte)) : ChunkedRes → ChunkedRes
  | .done out s => .done (pre ++ out) s
  | .payloadError out => .payloadError (pre ++ out)
  | .eof out => .eof (pre ++ out)
  | .negative out => .negative (pre ++ out)
  | .stuck => .stuck

/-- `_read_chunked_by_chunk` (http_protocol.py 459-506), one loop iteration after the other. The recursion is guarded by the
unread amount getting smaller, in order to be total; the guard is not in the code. -/
def readChunked (s : RState Byte) : ChunkedRes :=
  match readUntil crlf s with                                    -- 479 `_read_until_as_one`
  | .eof _ _ => .eof []
  | .ok lineChunks s1 =>
    let line := lineChunks.flatten
    let line := line.takeWhile (· ≠ 59)                          -- 481-483
    match parseInt16 line with                                   -- 485-490
    | none => .payloadError []
    | some length =>
      if length = 0 then                                         -- 492-498
        match readExactly 2 s1 with
        | .eof _ _ => .eof []
        | .ok end_ s2 => if end_.flatten = crlf then .done [] s2 else .payloadError []
      else if length < 0 then .negative []
      else
        match readExactly length.toNat s1 with                   -- 500-501
        | .eof out _ => .eof out
        | .ok out s2 =>
          match readExactly 2 s2 with                            -- 503-507
          | .eof _ _ => .eof out
          | .ok end_ s3 =>
            if end_.flatten = crlf then
              if (unread s3).length < (unread s).length then (readChunked s3).yield out else .stuck
            else .payloadError out
termination_by (unread s).length

/-! ### writer -/

/-- A digit of `format(n, 'x')`. -/
def hexDigit (n : Nat) : Byte := if n < 10 then UInt8.ofNat (48 + n) else UInt8.ofNat (87 + n)

/-- `format(n, 'x').encode('ascii')` (http_stream_writer.py 113, 145). -/
def toHex (n : Nat) : List Byte :=
  if n < 16 then [hexDigit n] else toHex (n / 16) ++ [hexDigit (n % 16)]
termination_by n

/-- `HTTPStreamWriter` without compressor (http_stream_writer.py 40-62). `out` are all bytes given to the transport. -/
structure Writer where
  chunked : Bool
  atEof : Bool := false
  /-- `self.transport is not None` -/
  transport : Bool := true
  /-- `transport.is_closing()`, set by the environment. -/
  closing : Bool := false
  out : List Byte := []
deriving DecidableEq, Repr

inductive WOp where
  | write (chunk : List Byte)
  | writeEof (chunk : List Byte)
  /-- The transport begins to close (environment). -/
  | close
deriving DecidableEq, Repr

inductive WOut where | ok | connectionReset
deriving DecidableEq, Repr

/-- `_write` (http_stream_writer.py 64-86). -/
def Writer.rawWrite (w : Writer) (chunk : List Byte) : Writer × WOut :=
  if w.transport = false ∨ w.closing then (w, .connectionReset) else ({ w with out := w.out ++ chunk }, .ok)

/-- `write` (http_stream_writer.py 89-121), `write_eof` (124-163); compressor is `None`; the drain only waits. -/
def Writer.step (w : Writer) : WOp → Writer × WOut
  | .write chunk =>
    if chunk = [] then (w, .ok)
    else w.rawWrite (if w.chunked then toHex chunk.length ++ crlf ++ chunk ++ crlf else chunk)
  | .writeEof chunk =>
    if w.atEof then (w, .ok)
    else
      let data :=
        if w.chunked then
          if chunk ≠ [] then toHex chunk.length ++ crlf ++ chunk ++ [13, 10, 48, 13, 10, 13, 10]
          else [48, 13, 10, 13, 10]
        else chunk
      match (if data ≠ [] then w.rawWrite data else (w, .ok)) with
      | (w, .connectionReset) => (w, .connectionReset)
      | (w, .ok) => ({ w with atEof := true, transport := false }, .ok)
  | .close => ({ w with closing := true }, .ok)

/-- A sequence of calls; gives the final writer and what each call returned. -/
def Writer.run (w : Writer) : List WOp → Writer × List WOut
  | [] => (w, [])
  | op :: ops =>
    let (w, o) := w.step op
    let (w, os) := w.run ops
    (w, o :: os)

end Verif.Chunked
