/-
Model of the word patterns.

Source: `/repo/scarletio/utils/highlight/word_pattern.py` (`WordNode.add_node` `56-88`, `_match_index` `91-125`, `match` `128-161`,
`create_word_pattern` `164-184`).

The nodes of a node are a dictionary by character: here a list with the node of each character, that is whether it is final and
its own nodes. Adding to a node without nodes makes a chain of nodes. `_match_index` gives -1 if nothing is matched: `none`.
-/
namespace Verif.Highlight.Words

/-- `WordNode.nodes` -/
inductive Nodes where
  | nil
  | cons (character : Nat) (final : Bool) (nodes : Nodes) (rest : Nodes)
deriving DecidableEq, Repr

/-- `add_node` on a node without nodes; the first character and those after it. -/
def fresh : Nat → List Nat → Nodes
  | c, [] => .cons c true .nil .nil
  | c, d :: w => .cons c false (fresh d w) .nil

/-- `add_node` -/
def Nodes.add : Nodes → Nat → List Nat → Nodes
  | .nil, c, w => fresh c w
  | .cons x final sub rest, c, w =>
    if x = c then
      match w with
      | [] => .cons x true sub rest
      | d :: v => .cons x final (sub.add d v) rest
    else .cons x final sub (rest.add c w)

/-- Looking up the next character, and `_match_index` of its node. -/
def Nodes.index : Nodes → List Nat → Option Nat
  | .nil, _ => none
  | .cons _ _ _ _, [] => none
  | .cons x final sub rest, c :: s =>
    if x = c then
      match sub.index s with
      | some n => some (n + 1)
      | none => if final then some 1 else none
    else rest.index (c :: s)

/-- The root. -/
structure Pattern where
  final : Bool
  nodes : Nodes
deriving DecidableEq, Repr

/-- A turn of the loop of `create_word_pattern`. -/
def Pattern.addWord (p : Pattern) : List Nat → Pattern
  | [] => { p with final := true }
  | c :: w => { p with nodes := p.nodes.add c w }

/-- `create_word_pattern` -/
def create (words : List (List Nat)) : Pattern := words.foldl Pattern.addWord ⟨false, .nil⟩

/-- `match`; the string from the index on. -/
def Pattern.find (p : Pattern) (s : List Nat) : Option (List Nat) :=
  match p.nodes.index s with
  | some n => some (s.take n)
  | none => if p.final then some [] else none

end Verif.Highlight.Words
