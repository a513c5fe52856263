/-!
# Words of names, and indentation of expressions

Modelled code: `scarletio/utils/trace/exception_representation/suggestion/helpers_familiarity.py`
(`_split_part_by_numbers`, `_split_part_by_casing`, `_iter_split_name_to_words`, `_normalize_name`) and
`scarletio/utils/trace/expression_parsing/expression_info.py` (`normalize_and_dedent_lines`).

Characters are code points. Which are numeric, upper case or white space, and what `str.casefold` makes of them,
are parameters.
-/

namespace Verif.Naming

abbrev Text := List Nat

/-- What Python knows of characters. -/
structure Chars where
  numeric : Nat → Bool
  upper : Nat → Bool
  space : Nat → Bool
  fold : Nat → Text

/-- The last character of what was collected. -/
def lastIs (P : Nat → Bool) (prev : Text) : Bool :=
  match prev.getLast? with
  | some c => P c
  | none => false

/-- `_split_part_by_numbers` (13–49); `prev`: `previous_characters`. -/
def byNumbers (C : Chars) (prev : Text) : Text → List Text
  | [] => if prev = [] then [] else [prev]
  | c :: cs =>
    if prev ≠ [] ∧ lastIs C.numeric prev ≠ C.numeric c then prev :: byNumbers C [c] cs
    else byNumbers C (prev ++ [c]) cs

/-- `_split_part_by_casing` (52–97). -/
def byCasing (C : Chars) (prev : Text) : Text → List Text
  | [] => if prev = [] then [] else [prev]
  | c :: cs =>
    if prev = [] then byCasing C [c] cs
    else if C.upper c then
      if lastIs C.upper prev then byCasing C (prev ++ [c]) cs else prev :: byCasing C [c] cs
    else if lastIs C.upper prev ∧ 1 < prev.length then
      prev.dropLast :: byCasing C (prev.drop (prev.length - 1) ++ [c]) cs
    else byCasing C (prev ++ [c]) cs

/-- `name.split('_')`. -/
def splitUnderscore (cur : Text) : Text → List Text
  | [] => [cur]
  | c :: cs => if c = 95 then cur :: splitUnderscore [] cs else splitUnderscore (cur ++ [c]) cs

/-- `_iter_split_name_to_words` (100–127). -/
def words (C : Chars) (name : Text) : List Text :=
  ((splitUnderscore [] name).filter (· ≠ [])).flatMap fun part => (byNumbers C [] part).flatMap (byCasing C [])

/-- `'_'.join`. -/
def join : List Text → Text
  | [] => []
  | [w] => w
  | w :: v :: ws => w ++ 95 :: join (v :: ws)

/-- `_normalize_name` (130–143). -/
def normalize (C : Chars) (name : Text) : Text := join ((words C name).map fun w => w.flatMap C.fold)

/-- `str.rstrip`. -/
def rstrip (C : Chars) (l : Text) : Text := (l.reverse.dropWhile C.space).reverse

/-- The blanks at the start of a line (282–288). -/
def indent : Text → Nat
  | [] => 0
  | c :: l => if c = 32 ∨ c = 9 then indent l + 1 else 0

/-- The loop over the lines (278–304): `none` while `do_remove` is false. -/
def least : List Text → Option Nat → Option Nat
  | [], r => r
  | l :: ls, r =>
    if l = [] then least ls r
    else if indent l = 0 then none
    else
      match r with
      | none => least ls (some (indent l))
      | some n => if indent l < n then least ls (some (indent l)) else least ls (some n)

/-- `normalize_and_dedent_lines` (255–310). -/
def dedent (C : Chars) (lines : List Text) : Nat × List Text :=
  let lines := lines.map (rstrip C)
  match least lines none with
  | none => (0, lines)
  | some n => (n, lines.map (List.drop n))

end Verif.Naming
