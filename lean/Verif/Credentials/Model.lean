/-
Model of basic authorization headers.

Source: `/repo/scarletio/web_common/basic_authorization.py`. Texts are lists of code points. The two regular
expressions are modelled by the backtracking of `re`, in its order of trying. `base64` is modelled as
`binascii.a2b_base64` and `b2a_base64` of CPython do it, not strict. An encoding is a pair of functions.
-/
namespace Verif.Credentials

abbrev Text := List Nat

/-! ### Regular expressions -/

/-- `[p]*`, then what follows: the longest run first. What follows gets the run and the rest. -/
def greedy {α : Type} (p : Nat → Bool) : (Text → Text → Option α) → Text → Option α
  | k, [] => k [] []
  | k, c :: r => if p c then (greedy p (fun w r' => k (c :: w) r') r).orElse (fun _ => k [] (c :: r)) else k [] (c :: r)

/-- `[p]+`, then what follows. -/
def plus {α : Type} (p : Nat → Bool) (k : Text → Text → Option α) : Text → Option α
  | [] => none
  | c :: r => if p c then greedy p (fun w r' => k (c :: w) r') r else none

/-- `[p]*?`, then what follows: the shortest run first. -/
def lazy {α : Type} (p : Nat → Bool) : (Text → Text → Option α) → Text → Option α
  | k, [] => k [] []
  | k, c :: r => (k [] (c :: r)).orElse (fun _ => if p c then lazy p (fun w r' => k (c :: w) r') r else none)

/-- The end of `fullmatch`. -/
def theEnd {α : Type} (x : α) (r : Text) : Option α := if r = [] then some x else none

/-- `\s` for texts. -/
def white (c : Nat) : Bool :=
  (9 ≤ c && c ≤ 13) || (28 ≤ c && c ≤ 32) || c == 0x85 || c == 0xA0 || c == 0x1680 || (0x2000 ≤ c && c ≤ 0x200A) || c == 0x2028 ||
  c == 0x2029 || c == 0x202F || c == 0x205F || c == 0x3000

/-- `.` -/
def dot (c : Nat) : Bool := c != 10

/-- `AUTHORIZATION_HEADER_RP.fullmatch`: `\s*(.*?)\s+(.*?)\s*` (`10`). -/
def matchHeader : Text → Option (Text × Text) :=
  greedy white fun _ r => lazy dot (fun m r => plus white (fun _ r => lazy dot (fun t r => greedy white (fun _ r => theEnd (m, t) r) r) r) r) r

/-- `(?:\:(.*))?` behind a user, and the end. -/
def joinRest (u r : Text) : Option (Text × Option Text) :=
  if r.head? = some 58 then (greedy dot (fun p r => theEnd (u, some p) r) r.tail).orElse (fun _ => theEnd (u, none) r) else theEnd (u, none) r

/-- `USER_ID_PASSWORD_JOIN_RP.fullmatch`: `(.*?)(?:\:(.*))?` (`11`). -/
def matchJoin : Text → Option (Text × Option Text) := lazy dot joinRest

/-! ### Base 64 -/

/-- The character of a value below 64. -/
def letter (v : Nat) : Nat := if v < 26 then 65 + v else if v < 52 then 71 + v else if v < 62 then v - 4 else if v = 62 then 43 else 47

/-- `table_a2b_base64` -/
def value (c : Nat) : Option Nat :=
  if 65 ≤ c ∧ c ≤ 90 then some (c - 65) else if 97 ≤ c ∧ c ≤ 122 then some (c - 71) else if 48 ≤ c ∧ c ≤ 57 then some (c + 4)
  else if c = 43 then some 62 else if c = 47 then some 63 else none

/-- `base64.b64encode` -/
def encode64 : List Nat → Text
  | [] => []
  | [a] => [letter (a / 4), letter (a % 4 * 16), 61, 61]
  | [a, b] => [letter (a / 4), letter (a % 4 * 16 + b / 16), letter (b % 16 * 4), 61]
  | a :: b :: c :: l => letter (a / 4) :: letter (a % 4 * 16 + b / 16) :: letter (b % 16 * 4 + c / 64) :: letter (c % 64) :: encode64 l

/-- The loop of `binascii.a2b_base64`: `quad_pos`, `leftchar`, `pads`. Characters of no value are passed over. -/
def decodeLoop : Nat → Nat → Nat → Text → Option (List Nat)
  | q, _, _, [] => if q = 0 then some [] else none
  | q, left, pads, c :: l =>
    if c = 61 then
      if q < 2 then decodeLoop q left pads l
      else if q + pads + 1 ≥ 4 then some []
      else decodeLoop q left (pads + 1) l
    else
      match value c with
      | none => decodeLoop q left pads l
      | some v =>
        if q = 0 then decodeLoop 1 v 0 l
        else if q = 1 then (decodeLoop 2 (v % 16) 0 l).map ((left * 4 + v / 16) :: ·)
        else if q = 2 then (decodeLoop 3 (v % 4) 0 l).map ((left * 16 + v / 4) :: ·)
        else (decodeLoop 0 0 0 l).map ((left * 64 + v) :: ·)

/-- `base64.b64decode` -/
def decode64 (t : Text) : Option (List Nat) := decodeLoop 0 0 0 t

/-! ### Authorizations -/

/-- An encoding: `str.encode` and `bytes.decode`; `none` for `UnicodeError`. -/
structure Codec where
  encode : Text → Option (List Nat)
  decode : List Nat → Option Text

structure Auth where
  user : Text
  password : Text
deriving DecidableEq, Repr

/-- `__new__` (`32-75`); `none` is `ValueError`. -/
def Auth.new (user password : Text) : Option Auth := if 58 ∈ user then none else some ⟨user, password⟩

/-- `'Basic '` -/
def basicBlank : Text := [66, 97, 115, 105, 99, 32]

/-- `to_header` (`202-210`). -/
def Auth.toHeader (codec : Codec) (a : Auth) : Option Text :=
  (codec.encode (a.user ++ 58 :: a.password)).bind fun bs => (codec.decode (encode64 bs)).bind fun t => some (basicBlank ++ t)

/-- `str.casefold`, for the characters which may become those of `'basic'`: the letters, and `'ſ'`. No other
character is folded to a part of this word. -/
def fold (c : Nat) : Nat := if 65 ≤ c ∧ c ≤ 90 then c + 32 else if c = 0x17F then 115 else c

/-- `'basic'` -/
def basic : Text := [98, 97, 115, 105, 99]

/-- `from_header` (`143-199`); `none` is `ValueError`. -/
def Auth.fromHeader (codec : Codec) (h : Text) : Option Auth :=
  (matchHeader h).bind fun (m, t) =>
    if m.map fold ≠ basic then none
    else if t.all (· < 128) = false then none
    else
      (decode64 t).bind fun bs => (codec.decode bs).bind fun d =>
        (matchJoin d).bind fun (u, p) => some ⟨u, p.getD []⟩

end Verif.Credentials
