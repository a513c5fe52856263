/-
A model of matching with Python's `re`: a backtracking matcher with continuations, which tries in the order of `re`.

Of lookbehinds only those for one character or the begin are there. Repeated patterns which match the empty text are not used by
the patterns below, so each repetition consumes something and the length of the text bounds their number.
-/
namespace Verif.UrlText

abbrev Text := List Char

/-- A pattern. -/
inductive Re where
  | eps
  | chr (p : Char → Bool)
  | seq (a b : Re)
  | alt (a b : Re)
  /-- `*`, or `*?` if it is not greedy. -/
  | star (greedy : Bool) (r : Re)
  /-- A group. -/
  | cap (n : Nat) (r : Re)
  /-- A lookbehind; `none` at the begin. -/
  | behind (p : Option Char → Bool)

/-- Where the matcher is: the last character, the rest, and the groups, the last one first. -/
structure Pos where
  prev : Option Char
  rest : Text
  caps : List (Nat × Text)
deriving DecidableEq, Repr

/-- Repeating, at most so many times. -/
def loop {α : Type} (f : Pos → (Pos → Option α) → Option α) (greedy : Bool) (k : Pos → Option α) : Nat → Pos → Option α
  | 0, s => k s
  | n + 1, s =>
    if greedy then (f s (loop f greedy k n)).or (k s)
    else (k s).or (f s (loop f greedy k n))

/-- The matcher. -/
def Re.run {α : Type} : Re → Pos → (Pos → Option α) → Option α
  | .eps, s, k => k s
  | .chr p, s, k =>
    match s.rest with
    | [] => none
    | c :: r => if p c then k ⟨some c, r, s.caps⟩ else none
  | .seq a b, s, k => a.run s fun t => b.run t k
  | .alt a b, s, k => (a.run s k).or (b.run s k)
  | .star g r, s, k => loop r.run g k s.rest.length s
  | .cap n r, s, k => r.run s fun t => k { t with caps := (n, s.rest.take (s.rest.length - t.rest.length)) :: t.caps }
  | .behind p, s, k => if p s.prev then k s else none

/-- `fullmatch`: the groups. -/
def Re.full (r : Re) (text : Text) : Option (List (Nat × Text)) :=
  r.run ⟨none, text, []⟩ fun t => if t.rest = [] then some t.caps else none

/-! ### Writing patterns -/

def Re.opt (r : Re) : Re := .alt r .eps
def Re.many (r : Re) : Re := .star true r
def Re.plus (r : Re) : Re := .seq r (.star true r)
def Re.lazyPlus (r : Re) : Re := .seq r (.star false r)

/-- One after the other. -/
def seqs : List Re → Re
  | [] => .eps
  | [r] => r
  | r :: l => .seq r (seqs l)

/-- One of them, in this order. -/
def alts : List Re → Re
  | [] => .behind fun _ => false
  | [r] => r
  | r :: l => .alt r (alts l)

/-- `{n}` -/
def Re.times (r : Re) : Nat → Re
  | 0 => .eps
  | n + 1 => .seq r (r.times n)

/-- `{0,n}` -/
def Re.upTo (r : Re) : Nat → Re
  | 0 => .eps
  | n + 1 => .opt (.seq r (r.upTo n))

/-- `{m,n}` -/
def Re.between (r : Re) (m n : Nat) : Re := .seq (r.times m) (r.upTo (n - m))

/-- A character, whatever its case is; `k`, `s` and `i` have more than two. -/
def same (c x : Char) : Bool :=
  x == c || x.toLower == c.toLower || (c.toLower == 'k' && x.toNat == 0x212a) || (c.toLower == 's' && x.toNat == 0x17f) ||
    (c.toLower == 'i' && (x.toNat == 0x130 || x.toNat == 0x131))

def char (c : Char) : Re := .chr (same c)

/-- A literal. -/
def lit (t : String) : Re := seqs (t.toList.map char)

/-- `[...]` of the characters of a string. -/
def any (t : String) : Re := .chr fun x => t.toList.any fun c => same c x

/-- `[a-z]` -/
def isLetter (x : Char) : Bool :=
  ('a' ≤ x && x ≤ 'z') || ('A' ≤ x && x ≤ 'Z') || x.toNat == 0x130 || x.toNat == 0x131 || x.toNat == 0x212a || x.toNat == 0x17f

/-- `[0-9]` -/
def isDigit (x : Char) : Bool := '0' ≤ x && x ≤ '9'

end Verif.UrlText
