/-!
# Name deduplication of zip streaming

Model of `scarletio/streaming/zip_streaming/name_deduplication.py` with the default pattern and the default
reconstructor.

* Text is `List Char`.
* `\d` and `int` of characters that are not ASCII are a parameter: the value of the character if it is a digit.
* `int` of more than 4300 digits raises `ValueError`, which is left out.
-/

namespace Verif.Dedup

abbrev Text := List Char

/-- The value of a digit. -/
def digit (u : Char → Option Nat) (c : Char) : Option Nat :=
  if c.toNat < 128 then (if '0'.toNat ≤ c.toNat ∧ c.toNat ≤ '9'.toNat then some (c.toNat - '0'.toNat) else none) else u c

def isDigit (u : Char → Option Nat) (c : Char) : Bool := (digit u c).isSome

/-- `int(digits)` -/
def value (u : Char → Option Nat) (digits : Text) : Nat := digits.foldl (fun n c => 10 * n + (digit u c).getD 0) 0

/-- The part ` \((\d+)\)` of the pattern: the number, and what is behind it. -/
def indexed (u : Char → Option Nat) : Text → Option (Nat × Text)
  | a :: b :: t =>
    if a = ' ' ∧ b = '(' ∧ t.takeWhile (isDigit u) ≠ [] then
      match t.dropWhile (isDigit u) with
      | c :: r => if c = ')' then some (value u (t.takeWhile (isDigit u)), r) else none
      | [] => none
    else none
  | _ => none

/-- The part `(?:\.(.*?))?` of the pattern, up to the end. -/
def ending : Text → Option (Option Text)
  | [] => some none
  | c :: extension => if c = '.' then some (some extension) else none

/-- The part of the pattern behind the first group. -/
def tail (u : Char → Option Nat) (t : Text) : Option (Option Nat × Option Text) :=
  match (indexed u t).bind fun x => (ending x.2).map fun extension => (some x.1, extension) with
  | some x => some x
  | none => (ending t).map fun extension => (none, extension)

/-- The part `.*?` and what is behind it: the shortest text that goes. -/
def stem (u : Char → Option Nat) : Text → Text × Option Nat × Option Text
  | [] => ([], none, none)
  | c :: t => match tail u (c :: t) with
    | some x => ([], x)
    | none => (c :: (stem u t).1, (stem u t).2)

/-- The part `(?:.*/)?`: up to the last slash. -/
def splitDirectory : Text → Text × Text
  | [] => ([], [])
  | c :: t =>
    let r := splitDirectory t
    if r.1 ≠ [] then (c :: r.1, r.2) else if c = '/' then ([c], r.2) else ([], c :: r.2)

structure Parsed where
  path : Text
  index : Option Nat
  extension : Option Text
deriving DecidableEq, Repr

/-- The matching, name_deduplication.py lines 66-79.  `.` is anything but a line feed, which nothing else of the pattern
matches; any other text is matched.  The index `-1` is `none`. -/
def parse (u : Char → Option Nat) (name : Text) : Parsed :=
  if '\n' ∈ name then ⟨name, none, none⟩
  else
    let d := splitDirectory name
    let s := stem u d.2
    ⟨d.1 ++ s.1, s.2.1, s.2.2⟩

/-- `name_deduplicator_name_reconstructor_default`, name_deduplication.py lines 9-39. -/
def reconstruct (path : Text) (index : Nat) (extension : Option Text) : Text :=
  path ++ (if index = 0 then [] else ' ' :: '(' :: (Nat.toDigits 10 index ++ [')']))
    ++ (match extension with
      | none => []
      | some extension => '.' :: extension)

/-- The `while True` loop, name_deduplication.py lines 97-107; `None` is `[]`.  Every turn but the last one removes an
element, so that as many turns as there are elements are enough. -/
def skipLoop : Nat → List Nat → Nat → Nat × List Nat
  | 0, taken, n => (n, taken)
  | turns + 1, taken, n =>
    if n ∈ taken then
      if taken.erase n = [] then (n + 1, []) else skipLoop turns (taken.erase n) (n + 1)
    else (n, taken)

def skip (taken : List Nat) (n : Nat) : Nat × List Nat := skipLoop taken.length taken n

/-- `(path, extension)` -/
abbrev Key := Text × Option Text

/-- `collected`: `counter + 1` and `taken_values`. -/
abbrev Collected := Key → Nat × List Nat

/-- The new index, and what is collected for the key, name_deduplication.py lines 81-109. -/
def choose (entry : Nat × List Nat) (index : Option Nat) : Nat × Nat × List Nat :=
  match index with
  | some i =>
    if entry.1 ≤ i ∧ i ∉ entry.2 then (i, entry.1, i :: entry.2)
    else
      let r := skip entry.2 entry.1
      (r.1, r.1 + 1, r.2)
  | none =>
    let r := skip entry.2 entry.1
    (r.1, r.1 + 1, r.2)

/-- One `send`, name_deduplication.py lines 65-114. -/
def send (u : Char → Option Nat) (collected : Collected) (name : Text) : Text × Collected :=
  let p := parse u name
  let r := choose (collected (p.path, p.extension)) p.index
  (if p.index = some r.1 then name else reconstruct p.path r.1 p.extension,
    fun key => if key = (p.path, p.extension) then r.2 else collected key)

/-- What a number of calls of `send` give. -/
def sendAll (u : Char → Option Nat) : Collected → List Text → List Text
  | _, [] => []
  | collected, name :: names => (send u collected name).1 :: sendAll u (send u collected name).2 names

/-- What a new deduplicator gives. -/
def deduplicate (u : Char → Option Nat) (names : List Text) : List Text := sendAll u (fun _ => (0, [])) names

end Verif.Dedup
