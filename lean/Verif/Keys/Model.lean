/-
Model of the command which tells which key was pressed.

Source: `/repo/scarletio/main/key_debug/command.py` and `KEY_NAMES` of
`/repo/scarletio/tools/keys.py`.

Characters are their code points.
-/

namespace Verif.Keys

/-! ### Escaping -/

/-- `'0123456789abcdef'[n]` (`command.py:73`). -/
def digit (n : Nat) : Nat := if n < 10 then 48 + n else 87 + n

/-- The loop of `_escape_character` (`command.py:72-73`). -/
def digits (c len : Nat) : List Nat :=
  (List.range len).reverse.map fun index => digit ((c >>> (index <<< 2)) &&& 0x0f)

/-- `_escape_character` (`command.py:45-75`). Backslash is `92`, `U`, `u` and `x` are `85`, `117`
and `120`. -/
def escapeChar (c : Nat) : List Nat :=
  if 0x10000 ≤ c then 92 :: 85 :: digits c 8
  else if 0x100 ≤ c then 92 :: 117 :: digits c 4
  else 92 :: 120 :: digits c 2

/-- `_escape_string` (`command.py:78-86`). -/
def escapeString (content : List Nat) : List Nat := (content.map escapeChar).flatten

/-! ### Naming -/

def text (l : List Char) : List Nat := l.map Char.toNat

/-- `KEY_NAMES` (`keys.py:23-43`). -/
def keyNames : List (List Nat × List Nat) :=
  [([3], text ['k', 'e', 'y', 'b', 'o', 'a', 'r', 'd', ' ', 'i', 'n', 't', 'e', 'r', 'r', 'u', 'p', 't']),
   ([4], text ['d', 'e', 's', 't', 'r', 'o', 'y']),
   ([9], text ['t', 'a', 'b']),
   ([0x1b, 0x5b, 0x5a], text ['b', 'a', 'c', 'k', ' ', 't', 'a', 'b']),
   ([0x0a], text ['n', 'e', 'w', ' ', 'l', 'i', 'n', 'e']),
   ([0x0d], text ['n', 'e', 'w', ' ', 'l', 'i', 'n', 'e']),
   ([0x1b, 0x5b, 0x41], text ['a', 'r', 'r', 'o', 'w', ' ', 'u', 'p']),
   ([0x1b, 0x5b, 0x42], text ['a', 'r', 'r', 'o', 'w', ' ', 'd', 'o', 'w', 'n']),
   ([0x1b, 0x5b, 0x43], text ['a', 'r', 'r', 'o', 'w', ' ', 'r', 'i', 'g', 'h', 't']),
   ([0x1b, 0x5b, 0x44], text ['a', 'r', 'r', 'o', 'w', ' ', 'l', 'e', 'f', 't']),
   ([0x1b, 0x5b, 0x46], text ['e', 'n', 'd']),
   ([0x1b, 0x5b, 0x48], text ['h', 'o', 'm', 'e']),
   ([0x1b, 0x5b, 0x33, 0x7e], text ['d', 'e', 'l', 'e', 't', 'e']),
   ([0x7f], text ['b', 'a', 'c', 'k', 's', 'p', 'a', 'c', 'e'])]

/-- `_determine_input_name` (`command.py:89-110`). `printable` is `str.isprintable` of one character;
of a text it is that of all its characters. -/
def inputName (printable : Nat → Bool) (content : List Nat) : List Nat :=
  match keyNames.lookup content with
  | some n => n
  | none => if content.all printable then content else escapeString content

/-! ### Input -/

/-- The settings of the terminal (as a number) and whether its reading blocks. -/
structure Term where
  settings : Nat
  blocking : Bool
deriving DecidableEq, Repr

/-- One round of the loop: `select` gives nothing; `read` gives content, raises `BlockingIOError`
or `InterruptedError`; anything raises something else. -/
inductive Round where
  | nothing
  | content (c : List Nat)
  | blocked
  | error
deriving DecidableEq, Repr

inductive Result where
  | returns (c : List Nat)
  | raises
  | waits
deriving DecidableEq, Repr

/-- The loop (`command.py:25-40`). -/
def loop : List Round → Result
  | [] => .waits
  | .nothing :: l => loop l
  | .blocked :: l => loop l
  | .error :: _ => .raises
  | .content c :: l => if c.isEmpty then loop l else .returns c

/-- `input_once` (`command.py:10-43`). `raw` are the settings after `tty.setraw`, `none` if it raises;
`restores` is whether `tcsetattr` in the `finally` works. -/
def inputOnce (t : Term) (raw : Option Nat) (restores : Bool) (l : List Round) : Result × Term :=
  let original := t
  let t := { t with blocking := false }
  match raw with
  | none => (.raises, t)
  | some r =>
    let t := { t with settings := r }
    match loop l with
    | .waits => (.waits, t)
    | x =>
      if restores then (x, { settings := original.settings, blocking := original.blocking })
      else (.raises, t)

end Verif.Keys
