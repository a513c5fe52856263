import Verif.Text.Utf8

/-! Model of `web_common/quoting.py`.

Texts are lists of characters. The caches `QUOTE_SAFE_MAP` and `UNQUOTE_UNSAFE_MAP` are left out, they only save work. -/
namespace Verif.Quoting

open Verif.Utf8

abbrev Text := List Char

/-- `UNRESERVED` and `SUB_DELIMITERS_WITHOUT_QUOTES`, lines 8-13. -/
def allowed : Text := "ABCDEFGHIJKLMNOPQRSTUVWXYZabcdefghijklmnopqrstuvwxyz0123456789-._~!$'()*,;".toList

/-- `QUERY_STRING_NOT_SAFE`, line 9. -/
def queryNotSafe : Text := "+&=".toList

/-- The characters `quote` leaves as they are, lines 124-129. -/
def safeSet (safe protect : Text) (query : Bool) : Text :=
  safe ++ allowed ++ protect ++ if query then [] else queryNotSafe

/-- `binary_safe`, line 131. -/
def binarySafe (safe : Text) (b : UInt8) : Bool := safe.any fun c => c.toNat == b.toNat

/-- A digit of `f'{char:02X}'`. -/
def hexDigit (n : Nat) : Char := "0123456789ABCDEF".toList.getD n '0'

/-- What `quote` makes of a byte, lines 138-147, as bytes. -/
def quoteByte (safe : Text) (query : Bool) (b : UInt8) : Bytes :=
  if query && b == 0x20 then [0x2B]
  else if binarySafe safe b then [b]
  else [0x25, UInt8.ofNat (hexDigit (b.toNat / 16)).toNat, UInt8.ofNat (hexDigit (b.toNat % 16)).toNat]

/-- `bytes.decode('ascii')`; `none` is a `UnicodeDecodeError`. -/
def decodeAscii (bs : Bytes) : Option Text :=
  if bs.all fun b => b.toNat < 128 then some (bs.map fun b => Char.ofNat b.toNat) else none

/-- `quote`, lines 83-149, of a string. -/
def quote (t safe protect : Text) (query : Bool) : Option Text :=
  decodeAscii ((encode t).flatMap (quoteByte (safeSet safe protect query) query))

/-- `_base_16_char_to_int`, lines 36-60; `none` is the `ValueError`. -/
def hexValue (c : Char) : Option Nat :=
  let value := c.toNat &&& 0x7
  if 0x30 ≤ c.toNat ∧ c.toNat ≤ 0x39 then some value
  else if (0x61 ≤ c.toNat ∧ c.toNat ≤ 0x66) ∨ (0x41 ≤ c.toNat ∧ c.toNat ≤ 0x46) then some (value + 9)
  else none

/-- `_int_to_base_16_char`, lines 63-80, with `chr`. -/
def hexChar (n : Nat) : Char := Char.ofNat ((0x30 ||| n) + if n > 9 then 0x27 else 0)

/-- The local variables of `unquote`. -/
structure St where
  /-- `percentages` -/
  pct : Option Bytes := none
  /-- `char_0` and `char_1` if `joined != -1` -/
  last : Option (Char × Char) := none
  /-- `result`, joined -/
  out : Text := []
deriving DecidableEq, Repr

/-- What is put in the result for decoded bytes, lines 213-218 and 269-274. -/
def shown (unsafe' : Option Text) (query : Bool) (t : Text) : Text :=
  if query && queryNotSafe.any (fun c => t == [c]) then (quote t [] [] true).getD []
  else if (unsafe'.getD []).any (fun c => t == [c]) then (quote t [] [] false).getD []
  else t

/-- Lines 207-220. -/
def flush (unsafe' : Option Text) (query : Bool) (st : St) : St :=
  match st.pct with
  | none => st
  | some p =>
    match decode p with
    | none => st
    | some t => { st with pct := none, out := st.out ++ shown unsafe' query t }

/-- After the loop, lines 259-276. -/
def finish (unsafe' : Option Text) (query : Bool) (st : St) : Text :=
  match st.pct with
  | none => st.out
  | some p =>
    match decode p with
    | some t => st.out ++ shown unsafe' query t
    | none =>
      match st.last with
      | none => st.out
      | some (c0, c1) => st.out ++ ['%', c0, c1]

/-- A character which is no `%`, lines 237-256. -/
def plainChar (unsafe' : Option Text) (st : St) (c : Char) : St :=
  let st :=
    match st.pct, st.last with
    | some _, some (c0, c1) => { st with out := st.out ++ ['%', c0, c1], last := none }
    | _, _ => st
  if c = '+' then
    if (unsafe'.getD []).contains c then { st with out := st.out ++ [c] } else { st with out := st.out ++ [' '] }
  else if (unsafe'.getD []).contains c then
    { st with out := st.out ++ ['%', hexChar (c.toNat / 16), hexChar (c.toNat % 16)] }
  else { st with out := st.out ++ [c] }

/-- The loop of `unquote`, lines 204-256; `none` is a `ValueError`. If the text ends within an escape the loop is left; the first of the two
characters may have been read by then. -/
def loop (unsafe' : Option Text) (query : Bool) : Text → St → Option Text
  | [], st => some (finish unsafe' query st)
  | ['%'], st => some (finish unsafe' query (flush unsafe' query st))
  | ['%', c0], st =>
    let st := flush unsafe' query st
    some (finish unsafe' query { st with last := st.last.map fun e => (c0, e.2) })
  | '%' :: c0 :: c1 :: rest, st =>
    let st := flush unsafe' query st
    match hexValue c0, hexValue c1 with
    | some a, some b => loop unsafe' query rest { st with pct := some (st.pct.getD [] ++ [UInt8.ofNat (a * 16 ||| b)]), last := some (c0, c1) }
    | _, _ => none
  | c :: rest, st => loop unsafe' query rest (plainChar unsafe' (flush unsafe' query st) c)

/-- `unquote`, lines 152-278, of a string. -/
def unquote (t : Text) (unsafe' : Option Text := none) (query : Bool := false) : Option Text := loop unsafe' query t {}

end Verif.Quoting
