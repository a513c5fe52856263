import Verif.Highlight.Model

/-
Model of searching in tokens and layers.

Source: `/repo/scarletio/utils/highlight/utils.py` (`search_line_start_index_in_tokens` `282-309`,
`search_line_end_index_in_tokens` `312-339`, `search_layer_index` `342-379`) and
`/repo/scarletio/utils/trace/expression_parsing/file_info.py` (`FileInfo.get_line` `136-164`).

The loops have fuel; the theorems show that the length suffices. A layer which was not closed ends at -1.
-/
namespace Verif.Highlight

/-- `tokens[mid].line_index` -/
def lineAt (ts : List Token) (i : Nat) : Nat := ((ts[i]?).map Token.line).getD 0

/-- The loop of `search_line_start_index_in_tokens`. -/
def lowerLoop (ts : List Token) (line : Nat) : Nat → Nat → Nat → Nat
  | 0, low, _ => low
  | n + 1, low, high =>
    if low < high then
      if lineAt ts ((low + high) / 2) < line then lowerLoop ts line n ((low + high) / 2 + 1) high
      else lowerLoop ts line n low ((low + high) / 2)
    else low

/-- `search_line_start_index_in_tokens` -/
def lower (ts : List Token) (line : Nat) : Nat := lowerLoop ts line (ts.length + 1) 0 ts.length

/-- The loop of `search_line_end_index_in_tokens`. -/
def upperLoop (ts : List Token) (line : Nat) : Nat → Nat → Nat → Nat
  | 0, low, _ => low
  | n + 1, low, high =>
    if low < high then
      if line < lineAt ts ((low + high) / 2) then upperLoop ts line n low ((low + high) / 2)
      else upperLoop ts line n ((low + high) / 2 + 1) high
    else low

/-- `search_line_end_index_in_tokens` -/
def upper (ts : List Token) (line : Nat) : Nat := upperLoop ts line (ts.length + 1) 0 ts.length

/-- `tokens[index].content_character_index` -/
def startAt (ts : List Token) (i : Nat) : Nat := ((ts[i]?).map Token.start).getD 0

/-- `FileInfo.get_line`; `none` if there is none. -/
def getLine (content : List Nat) (ts : List Token) (line : Nat) : Option (List Nat) :=
  if ts = [] then none
  else if lower ts line = upper ts line then none
  else
    let start := startAt ts (lower ts line)
    let stop := if upper ts line = ts.length then content.length else startAt ts (upper ts line)
    some ((content.drop start).take (stop - start))

/-- Whether a token is after the end of a layer. -/
def Layer.before (l : Layer) (t : Nat) : Bool :=
  match l.last with
  | none => true
  | some e => e < t

/-- The loop of `search_layer_index`. -/
def layerLoop (ls : List Layer) (t : Nat) : Nat → Nat → Nat → Option Nat
  | 0, _, _ => none
  | n + 1, low, high =>
    if low < high then
      match ls[(low + high) / 2]? with
      | none => none
      | some l =>
        if t < l.first then layerLoop ls t n low ((low + high) / 2)
        else if l.before t then layerLoop ls t n ((low + high) / 2 + 1) high
        else some ((low + high) / 2)
    else none

/-- `search_layer_index`; `none` for -1. -/
def searchLayer (ls : List Layer) (t : Nat) : Option Nat := layerLoop ls t (ls.length + 1) 0 ls.length

end Verif.Highlight
