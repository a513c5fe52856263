/-!
# Trimming prompts of consoles off pasted text

Modelled code: `scarletio/tools/asynchronous_interactive_console/editors/prefix_trimming.py` (the whole
file).

Characters are code points. Of the line ends `str.splitlines` knows only `\n` is modelled, and of digits
only those of ASCII. The regular expressions are written out.
-/

namespace Verif.Trim

abbrev Text := List Nat

/-- What is behind `p` in a line which begins with it. -/
def strip : Text → Text → Option Text
  | [], l => some l
  | _ :: _, [] => none
  | c :: p, d :: l => if c = d then strip p l else none

def digit (c : Nat) : Bool := decide (48 ≤ c) && decide (c ≤ 57)

/-- `PrefixTrimmer` (11–61): its expressions for the first, a further and the last line. -/
structure Trimmer where
  initial : Text → Option Text
  continuous : Text → Option Text
  last : Text → Bool
  excludes : List Text := []

/-- `In \[\d+\]\: ` -/
def scarletioInitial (l : Text) : Option Text :=
  match strip [73, 110, 32, 91] l with
  | none => none
  | some l =>
    if (l.takeWhile digit).isEmpty then none else strip [93, 58, 32] (l.dropWhile digit)

/-- ` +\.\.\.\: ` -/
def scarletioContinuous (l : Text) : Option Text :=
  if (l.takeWhile (· == 32)).isEmpty then none else strip [46, 46, 46, 58, 32] (l.dropWhile (· == 32))

/-- ` +\.\.\.\: ?` -/
def scarletioLast (l : Text) : Bool :=
  !(l.takeWhile (· == 32)).isEmpty &&
    (l.dropWhile (· == 32) == [46, 46, 46, 58] || l.dropWhile (· == 32) == [46, 46, 46, 58, 32])

/-- The trimmers (296–300). -/
def scarletio : Trimmer := { initial := scarletioInitial, continuous := scarletioContinuous, last := scarletioLast }

def cpython : Trimmer :=
  { initial := strip [62, 62, 62, 32], continuous := strip [46, 46, 46, 32]
    last := fun l => l == [46, 46, 46] || l == [46, 46, 46, 32], excludes := [[46, 46, 46]] }

def pypy : Trimmer :=
  { initial := strip [62, 62, 62, 62, 32], continuous := strip [46, 46, 46, 46, 32]
    last := fun l => l == [46, 46, 46, 46] || l == [46, 46, 46, 46, 32] }

/-- The loop of `_checkout_more` (131–152) over the lines behind the first. -/
def checkRest (T : Trimmer) : List Text → Bool
  | [] => true
  | [l] => (T.continuous l).isSome || T.last l
  | l :: m :: ls => (T.continuous l).isSome && checkRest T (m :: ls)

/-- `checkout` (64–152). -/
def checkout (T : Trimmer) : List Text → Bool
  | [] => false
  | [l] => (T.initial l).isSome || (T.continuous l).isSome || T.last l
  | _ :: m :: ls => checkRest T (m :: ls)

/-- `_iter_apply_line_first` (227–257). -/
def applyFirst (T : Trimmer) (l : Text) (only : Bool) : Text :=
  match T.initial l with
  | some r => r
  | none =>
    match T.continuous l with
    | some r => r
    | none => if only && T.last l then [] else l

/-- `_iter_apply_line_rest` (260–292). -/
def applyRest (T : Trimmer) : List Text → List Text
  | [] => []
  | [l] =>
    match T.continuous l with
    | some r => [r]
    | none => if T.last l then [[]] else [l]
  | l :: m :: ls =>
    match T.continuous l with
    | some r => r :: applyRest T (m :: ls)
    | none => l :: applyRest T (m :: ls)

/-- `apply` (176–202). -/
def apply (T : Trimmer) : List Text → List Text
  | [] => []
  | l :: ls =>
    let new := applyFirst T l ls.isEmpty :: applyRest T ls
    if new.all (·.isEmpty) then [] else new

/-- `str.splitlines`. -/
def splitLines : Text → List Text
  | [] => []
  | c :: s =>
    if c = 10 then [] :: splitLines s
    else
      match splitLines s with
      | [] => [[c]]
      | l :: ls => (c :: l) :: ls

/-- `'\n'.join`. -/
def join : List Text → Text
  | [] => []
  | [l] => l
  | l :: m :: ls => l ++ 10 :: join (m :: ls)

/-- `trim_console_prefix` (303–330). -/
def trimWith (content : Text) (lines : List Text) : List Trimmer → Option Text
  | [] => none
  | T :: Ts =>
    if content ∉ T.excludes ∧ checkout T lines then some (join (apply T lines)) else trimWith content lines Ts

def trim (content : Text) : Option Text := trimWith content (splitLines content) [scarletio, cpython, pypy]

end Verif.Trim
