import Verif.Cookie.Model

/-!
# The date of a cookie

Model of `parse_cookie_date` of `scarletio/web_common/cookiejar.py`.

* Text is `List Char`, of which only the characters below 256 are as in the code: `\d` and `str.lower` know others.
* A found flag and the value beside it are an `Option`.
* `DateTime(...)` raises `ValueError` if there is no such day; that is an outcome here.
-/

namespace Verif.Cookie

/-- The second class of `DATE_TOKENS_RP`, cookiejar.py lines 15-17. -/
def isTokenChar (c : Char) : Bool :=
  c.toNat ≤ 0x08 || (0x0A ≤ c.toNat && c.toNat ≤ 0x1F) || c.isDigit || c == ':' || c.isAlpha || (0x7F ≤ c.toNat && c.toNat ≤ 0xFF)

/-- `DATE_TOKENS_RP.findall`: the first class and all other characters are between the tokens. -/
def tokensFrom (current : Text) : Text → List Text
  | [] => if current = [] then [] else [current]
  | c :: text =>
    if isTokenChar c then tokensFrom (current ++ [c]) text
    else if current = [] then tokensFrom [] text
    else current :: tokensFrom [] text

def tokens (text : Text) : List Text := tokensFrom [] text

/-- `\d{1,n}` -/
def lead (n : Nat) (text : Text) : Text := (text.take n).takeWhile (·.isDigit)

/-- `int` of digits. -/
def number (digits : Text) : Nat := digits.foldl (fun n c => n * 10 + (c.toNat - 48)) 0

/-- `DATE_HMS_TIME_RP.match`, cookiejar.py line 18.  To take fewer digits than possible never helps: what comes then is a
digit, not a colon. -/
def matchTime (token : Text) : Option (Nat × Nat × Nat) :=
  let a := lead 2 token
  if a = [] then none
  else match token.drop a.length with
    | ':' :: token =>
      let b := lead 2 token
      if b = [] then none
      else match token.drop b.length with
        | ':' :: token =>
          let c := lead 2 token
          if c = [] then none else some (number a, number b, number c)
        | _ => none
    | _ => none

/-- `DATE_DAY_OF_MONTH_RP.match`, cookiejar.py line 19. -/
def matchDay (token : Text) : Option Nat := if lead 2 token = [] then none else some (number (lead 2 token))

/-- `DATE_YEAR_RP.match`, cookiejar.py line 20. -/
def matchYear (token : Text) : Option Nat := if (lead 4 token).length < 2 then none else some (number (lead 4 token))

/-- `MONTHS[token.lower()]`, cookiejar.py lines 23-36. -/
def lookMonth (token : Text) : Option Nat :=
  match token.map (·.toLower) with
  | ['j', 'a', 'n'] => some 1
  | ['f', 'e', 'b'] => some 2
  | ['m', 'a', 'r'] => some 3
  | ['a', 'p', 'r'] => some 4
  | ['m', 'a', 'y'] => some 5
  | ['j', 'u', 'n'] => some 6
  | ['j', 'u', 'l'] => some 7
  | ['a', 'u', 'g'] => some 8
  | ['s', 'e', 'p'] => some 9
  | ['o', 'c', 't'] => some 10
  | ['n', 'o', 'v'] => some 11
  | ['d', 'e', 'c'] => some 12
  | _ => none

structure Found where
  time : Option (Nat × Nat × Nat) := none
  day : Option Nat := none
  month : Option Nat := none
  year : Option Nat := none
deriving DecidableEq, Repr

/-- One turn of the loop, cookiejar.py lines 60-91. -/
def Found.read (f : Found) (token : Text) : Found :=
  match f.time, matchTime token with
  | none, some time => { f with time := some time }
  | _, _ =>
    match f.day, matchDay token with
    | none, some day => { f with day := some day }
    | _, _ =>
      match f.month, lookMonth token with
      | none, some month => { f with month := some month }
      | _, _ =>
        match f.year, matchYear token with
        | none, some year => { f with year := some year }
        | _, _ => f

structure Date where
  year : Nat
  month : Nat
  day : Nat
  hour : Nat
  minute : Nat
  second : Nat
deriving DecidableEq, Repr

def isLeap (year : Nat) : Bool := year % 4 = 0 && (year % 100 ≠ 0 || year % 400 = 0)

def daysIn (year month : Nat) : Nat :=
  if month = 2 then if isLeap year then 29 else 28
  else if month = 4 ∨ month = 6 ∨ month = 9 ∨ month = 11 then 30
  else 31

inductive Parsed
  | nothing
  | date (d : Date)
  | valueError
deriving DecidableEq, Repr

/-- cookiejar.py lines 93-102. -/
def Found.finish (f : Found) : Parsed :=
  match f.time, f.day, f.month, f.year with
  | some (hour, minute, second), some day, some month, some year =>
    let year := if 70 ≤ year ∧ year ≤ 99 then year + 1900 else if year ≤ 69 then year + 2000 else year
    if year < 1601 ∨ day < 1 ∨ day > 31 ∨ hour > 23 ∨ minute > 59 ∨ second > 59 then .nothing
    else if day ≤ daysIn year month then .date ⟨year, month, day, hour, minute, second⟩
    else .valueError
  | _, _, _, _ => .nothing

/-- `parse_cookie_date`, cookiejar.py lines 38-102. -/
def parseDate (text : Text) : Parsed := ((tokens text).foldl Found.read {}).finish

end Verif.Cookie
