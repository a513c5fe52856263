import Verif.Credentials.Model

/-
Model of the header of keep-alive information.

Source: `/repo/scarletio/web_common/keep_alive_info.py` (`from_header_value`, `to_header_value`, `create_default`) and
`/repo/scarletio/web_common/constants.py` `6-12`. Timeouts are rational numbers. `float` reads a sign, digits and a
fraction; `int` reads a sign and digits: exponents, underscores, `inf`, `nan` and digits which are not of ASCII are not
modelled.
-/
namespace Verif.Credentials.KeepAlive
open Verif.Credentials

/-! ### The pattern -/

/-- `[^ \t=]` -/
def keyChar (c : Nat) : Bool := c != 32 && c != 9 && c != 61

/-- `[^ \t,$]` -/
def valueChar (c : Nat) : Bool := c != 32 && c != 9 && c != 44 && c != 36

/-- `=`, then what follows. -/
def equals {α : Type} (k : Text → Option α) : Text → Option α
  | [] => none
  | c :: r => if c = 61 then k r else none

/-- `(?:,|$)`: a comma, the end, or the newline at the end. -/
def comma {α : Type} (k : Text → Option α) (r : Text) : Option α :=
  if r.head? = some 44 then k r.tail else if r = [] ∨ r = [10] then k r else none

/-- `KEEP_ALIVE_HEADER_RP.match`: `\s*([^ \t=]+)\s*=\s*([^ \t,$]+)\s*(?:,|$)`; the key, the value and the rest. -/
def matchItem : Text → Option ((Text × Text) × Text) :=
  greedy white fun _ r => plus keyChar (fun key r => greedy white (fun _ r => equals (fun r => greedy white (fun _ r =>
    plus valueChar (fun value r => greedy white (fun _ r => comma (fun r => some ((key, value), r)) r) r) r) r) r) r) r

/-- `KEEP_ALIVE_HEADER_RP.finditer`: behind a match it goes on from its end, else from the next character. -/
def items : Nat → Text → List (Text × Text)
  | 0, _ => []
  | n + 1, s =>
    match matchItem s with
    | some x => x.1 :: items n x.2
    | none => if s = [] then [] else items n s.tail

def allItems (s : Text) : List (Text × Text) := items (s.length + 1) s

/-! ### Numbers -/

def digit (c : Nat) : Bool := 48 ≤ c && c ≤ 57

/-- The number of digits. -/
def readNat (t : Text) : Nat := t.foldl (fun n c => n * 10 + (c - 48)) 0

/-- `int` of a text without a sign. -/
def unsigned (t : Text) : Option Nat := if t ≠ [] ∧ t.all digit then some (readNat t) else none

/-- `int` -/
def readInt (t : Text) : Option Int :=
  if t.head? = some 45 then (unsigned t.tail).map (fun (n : Nat) => -(n : Int))
  else if t.head? = some 43 then (unsigned t.tail).map (fun (n : Nat) => (n : Int))
  else (unsigned t).map (fun (n : Nat) => (n : Int))

/-- `float` of a text without a sign: digits, and perhaps a point and digits; one of the two may be missing. -/
def unsignedFraction (t : Text) : Option Rat :=
  let whole := t.takeWhile digit
  let rest := t.dropWhile digit
  let f := rest.tail
  if rest = [] then (unsigned whole).map (fun (n : Nat) => ((n : Int) : Rat))
  else if rest.head? = some 46 ∧ f.all digit ∧ whole ++ f ≠ [] then some (((readNat (whole ++ f) : Int) : Rat) / ((10 ^ f.length : Int) : Rat))
  else none

/-- `float` -/
def readFloat (t : Text) : Option Rat :=
  if t.head? = some 45 then (unsignedFraction t.tail).map (fun (q : Rat) => -q)
  else if t.head? = some 43 then unsignedFraction t.tail
  else unsignedFraction t

/-- The digits of a number. -/
def showNat (n : Nat) : Text := (Nat.toDigits 10 n).map Char.toNat

/-- `str` of an `int`. -/
def showInt (n : Int) : Text := if n < 0 then 45 :: showNat n.natAbs else showNat n.natAbs

/-- The nearest integer, the even one if there are two. -/
def nearest (q : Rat) : Int :=
  let f := q.floor
  if q - f < 1 / 2 then f else if 1 / 2 < q - f then f + 1 else if f % 2 = 0 then f else f + 1

/-- `format(timeout, '.0f')` -/
def format0 (q : Rat) : Text := showInt (nearest q)

/-! ### The information -/

structure Info where
  timeout : Rat
  max : Int
deriving DecidableEq, Repr

/-- `create_default` (`108-119`). -/
def Info.default : Info := ⟨15, 0⟩

/-- `'timeout'` -/
def timeoutKey : Text := [116, 105, 109, 101, 111, 117, 116]

/-- `'max'` -/
def maxKey : Text := [109, 97, 120]

/-- One turn of the loop of `from_header_value` (`140-160`). -/
def Info.take (i : Info) (item : Text × Text) : Info :=
  if item.1.map fold = timeoutKey then { i with timeout := (readFloat item.2).getD i.timeout }
  else if item.1.map fold = maxKey then { i with max := (readInt item.2).getD i.max }
  else i

/-- `from_header_value` (`123-165`). -/
def Info.fromHeader (h : Option Text) : Info :=
  match h with
  | none => Info.default
  | some h => (allItems h).foldl Info.take Info.default

/-- The joining of the parts of `to_header_value` (`176-202`). -/
def joinParts : Option Text → Option Text → Option Text
  | none, none => none
  | some a, none => some a
  | none, some b => some b
  | some a, some b => some (a ++ 44 :: b)

/-- `to_header_value` (`168-202`). -/
def Info.toHeader (i : Info) : Option Text :=
  joinParts (if i.timeout = 15 then none else some (timeoutKey ++ 61 :: format0 i.timeout))
    (if i.max = 0 then none else some (maxKey ++ 61 :: showInt i.max))

end Verif.Credentials.KeepAlive
