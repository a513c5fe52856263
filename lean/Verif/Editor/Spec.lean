/-
What the editor is to do, on the text as one list of characters with a cursor
between two of them.  Nothing of the model but the display state, the keys and
the history is used.
-/
import Verif.Editor.Model

namespace Verif.Editor

/-- The text: the lines with a line break between two of them. -/
def text : List Line → List Chr
  | [] => []
  | [l] => l
  | l :: m :: r => l ++ 10 :: text (m :: r)

/-- How many characters are before the cursor: the lines before with their line
breaks, and those of its own line. -/
def offset (d : DS) : Nat := ((d.buf.take d.li).map (fun l => l.length + 1)).sum + d.ci

/-- The text before the cursor and the text after it. -/
abbrev Flat := List Chr × List Chr

def flat (d : DS) : Flat := ((text d.buf).take (offset d), (text d.buf).drop (offset d))

/-- The part of the text before the cursor which is on earlier lines. -/
def earlier (b : List Chr) : List Chr := (b.reverse.dropWhile (· != 10)).reverse

/-- The part of the line of the cursor which is before it. -/
def lineBefore (b : List Chr) : List Chr := (b.reverse.takeWhile (· != 10)).reverse

/-- The part of the line of the cursor which is after it. -/
def lineAfter (a : List Chr) : List Chr := a.takeWhile (· != 10)

/-- The part of the text after the cursor which is not on its line. -/
def later (a : List Chr) : List Chr := a.dropWhile (· != 10)

/-- How many spaces a back tab is to remove: as many as make the number of
leading spaces the next smaller multiple of four. -/
def dedent (n : Nat) : Nat := if n = 0 then 0 else if n % 4 = 0 then 4 else n % 4

/-- The number of leading spaces. -/
def leading (l : List Chr) : Nat := (l.takeWhile (· == 32)).length

/-- What a key does to the text. -/
def refKey (t : Flat) : Key → Flat
  | .interrupt => t
  | .destroy => t
  | .print c => (t.1 ++ [c], t.2)
  | .enter => (t.1 ++ [10], t.2)
  | .tab => (t.1 ++ [32, 32, 32, 32], t.2)
  | .delLeft => (t.1.dropLast, t.2)
  | .delRight => (t.1, t.2.tail)
  | .left => match t.1.getLast? with
    | none => t
    | some c => (t.1.dropLast, c :: t.2)
  | .right => match t.2 with
    | [] => t
    | c :: a => (t.1 ++ [c], a)
  | .home => (earlier t.1, lineBefore t.1 ++ t.2)
  | .end_ => (t.1 ++ lineAfter t.2, later t.2)
  | .up =>
    match earlier t.1 with
    | [] => ([], t.1 ++ t.2)
    | p =>
      let l := lineBefore p.dropLast
      let n := (lineBefore t.1).length
      (earlier p.dropLast ++ l.take n, l.drop n ++ 10 :: lineBefore t.1 ++ t.2)
  | .down =>
    match later t.2 with
    | [] => (t.1 ++ t.2, [])
    | _ :: q =>
      let l := lineAfter q
      let n := (lineBefore t.1).length
      (t.1 ++ lineAfter t.2 ++ 10 :: l.take n, l.drop n ++ later q)
  | .backTab =>
    let n := dedent (leading (lineBefore t.1 ++ lineAfter t.2))
    (earlier t.1 ++ (lineBefore t.1).drop n,
      (lineAfter t.2).drop (n - (lineBefore t.1).length) ++ later t.2)

/-- What a tab alone does to the text, if it does not complete a word. -/
def refTab (t : Flat) : Flat :=
  let want := 4 - (lineBefore t.1).length % 4
  (t.1 ++ List.replicate want 32, t.2.drop ((t.2.take want).takeWhile (· == 32)).length)

/-- A line break is put before the cursor, with the spaces the new line begins
with. -/
def refEnter (t : Flat) (k : Nat) : Flat := (t.1 ++ 10 :: List.replicate k 32, t.2)

/-- The character before the trailing spaces of a line. -/
def lastVisible (l : List Chr) : Option Chr := (l.reverse.dropWhile (· == 32)).head?

/-- A line whose first word is one of the four which leave a block. -/
def leavesBlock (ws : Chr → Bool) (l : List Chr) : Prop :=
  ∃ w ∈ [[112, 97, 115, 115], [114, 101, 116, 117, 114, 110], [99, 111, 110, 116, 105, 110, 117, 101],
      [98, 114, 101, 97, 107]], ∃ r, l.dropWhile ws = w ++ r ∧ (r = [] ∨ r.head? = some 32)

/-- No line of the text contains a line break. -/
def Broken (b : List Line) : Prop := ∀ l ∈ b, 10 ∉ l

/-- The state an editor is in: a text with lines, the cursor in it. -/
def InText (d : DS) : Prop := d.li < d.buf.length ∧ d.ci ≤ (d.buf.getD d.li []).length ∧ Broken d.buf

/-- What is in the history: every entry has lines, without line breaks. -/
def HistOk (h : Hist) : Prop := ∀ i b, h.elems i = some b → b ≠ [] ∧ Broken b

end Verif.Editor
