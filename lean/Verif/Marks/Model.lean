/-!
# Marks under lines of syntax errors

Modelled code: `ExceptionRepresentationSyntaxError.__new__`
(`scarletio/utils/trace/exception_representation/exception_representation_syntax_error.py`, 33–105). Characters are numbers.
-/

namespace Verif.Marks

/-- The details of a syntax error: line numbers and offsets count from one; `endLine`, `endOffset` are missing if there are
only four. -/
structure Details where
  line : Option (List Nat)
  number : Int
  offset : Int
  last : Option (Int × Int)

/-- What is shown: the line, its index and the marks. -/
structure Shown where
  line : List Nat
  index : Int
  start : Int
  length : Int
  deriving DecidableEq

/-- The characters counted at the start (69–75): space, line feed, tab, form feed. -/
def leading : List Nat → Nat
  | [] => 0
  | c :: cs => if c = 32 ∨ c = 10 ∨ c = 9 ∨ c = 12 then leading cs + 1 else 0

/-- `str.rstrip`; `space`: what counts as white space. -/
def rstrip (space : Nat → Bool) (l : List Nat) : List Nat := (l.reverse.dropWhile space).reverse

/-- Not below zero. -/
def floor (x : Int) : Int := if x < 0 then 0 else x

/-- Where the marks end (53–56). -/
def Details.stop (d : Details) : Int :=
  match d.last with
  | some e => e.2 - 1
  | none => d.offset - 1 + 1

/-- `__new__` (43–104). -/
def shown (space : Nat → Bool) (d : Details) : Shown :=
  let start := d.offset - 1
  let stop := d.stop
  match d.line with
  | none => ⟨[], d.number - 1, 0, 0⟩
  | some l =>
    let l := rstrip space l
    let k := leading l
    let start := floor (start - k)
    let stop := floor (stop - k)
    if start ≥ stop then ⟨l.drop k, d.number - 1, 0, 0⟩ else ⟨l.drop k, d.number - 1, start, stop - start⟩

end Verif.Marks
