/-!
# Styling of highlighted text

Modelled code: `scarletio/utils/highlight/ansi.py` (`iter_produce_ansi_format_code` 9–84,
`stream_split_ansi_format_codes` 112–258, `iter_split_ansi_format_codes` 261–342),
`formatter_detail/ansi.py`, `formatter_detail/html.py`, `highlight_streamer.py`, `formatter_node.py`
and `set_highlight_html_all`, `set_highlight_detail` of `formatter_context.py`.

Characters are code points. What is split is given character by character, each with whether it
belongs to a format code; the borders between pieces of the same kind are left out, the borders of
the parts of a stream are kept. The names of html classes are numbers. Details of other types are not
modelled.
-/

namespace Verif.Styling

abbrev Text := List Nat

abbrev Color := Nat × Nat × Nat

/-- `FormatterDetailANSI`. -/
structure Ansi where
  deco : Option Nat := none
  bg : Option Color := none
  fg : Option Color := none
  deriving DecidableEq, Repr

/-- The details: with format codes, with html. -/
inductive Detail
  | ansi (a : Ansi) | html (cls : Option Nat)
  deriving DecidableEq, Repr

/-- What is put out: a format code with its numbers, the start and the end of a span, text as it is,
escaped text, `<br>`. -/
inductive Ev
  | sgr (ps : List Nat) | spanStart (cls : Nat) | spanEnd | text (t : Text) | escaped (t : Text) | br
  deriving DecidableEq, Repr

def color (first : Nat) : Option Color → List Nat
  | some (r, g, b) => [first, 2, r, g, b]
  | none => []

/-- `iter_produce_ansi_format_code` (9–84): the numbers of the code; without any there is none. -/
def produce (reset : Bool) (deco : Option Nat) (bg fg : Option Color) : List Ev :=
  match (if reset then [0] else []) ++ deco.toList ++ color 48 bg ++ color 38 fg with
  | [] => []
  | p :: ps => [.sgr (p :: ps)]

/-- `start` of the details (`ansi.py` 112–116, `html.py` 59–65). -/
def start : Detail → List Ev
  | .ansi a => produce false a.deco a.bg a.fg
  | .html (some c) => [.spanStart c]
  | .html none => []

/-- `end` (`ansi.py` 119–121, `html.py` 73–77). -/
def finish : Detail → List Ev
  | .ansi _ => produce true none none none
  | .html (some _) => [.spanEnd]
  | .html none => []

/-- `transform_content` (`base.py`, `html.py` 68–70). -/
def transform (d : Detail) (t : Text) : List Ev :=
  match d with
  | .ansi _ => [.text t]
  | .html _ => if t = [10] then [.br] else [.escaped t]

/-- `x` unless it is what it was. -/
def changed {α : Type} [DecidableEq α] (old new : Option α) : Option α :=
  if old = new then none else new

/-- `transition` of details with format codes (`ansi.py` 124–164). -/
def transitionAnsi (a b : Ansi) : List Ev :=
  if (a.bg ≠ none ∧ b.bg = none) ∨ (a.fg ≠ none ∧ b.fg = none) ∨ (a.deco ≠ none ∧ b.deco = none) then
    produce true b.deco b.bg b.fg
  else produce false (changed a.deco b.deco) (changed a.bg b.bg) (changed a.fg b.fg)

/-- `transition` of html (`html.py` 80–84). -/
def transitionHtml (a b : Option Nat) : List Ev :=
  if a ≠ b then finish (.html a) ++ start (.html b) else []

/-- `_highlight_step` (`highlight_streamer.py` 81–131). -/
def step (prev cur : Option Detail) (t : Text) : List Ev :=
  match prev, cur with
  | none, none => [.text t]
  | none, some d => start d ++ transform d t
  | some p, none => finish p ++ [.text t]
  | some (.ansi a), some (.ansi b) => transitionAnsi a b ++ transform (.ansi b) t
  | some (.html a), some (.html b) => transitionHtml a b ++ transform (.html b) t
  | some p, some d => finish p ++ start d ++ transform d t

/-- `_highlight_streamer` (163–199). -/
def stream : Option Detail → List (Option Detail × Text) → List Ev
  | none, [] => []
  | some p, [] => finish p
  | prev, (cur, t) :: items => step prev cur t ++ stream cur items

/-! ## Texts with format codes -/

def isParam (c : Nat) : Bool := c == 59 || (decide (47 < c) && decide (c < 58))
def isLetter (c : Nat) : Bool := (decide (96 < c) && decide (c < 123)) || (decide (64 < c) && decide (c < 91))

/-- Where the splitters are: in text, behind an escape character, behind a `[`. -/
inductive Mode
  | text | bracket | params
  deriving DecidableEq, Repr

/-- `iter_split_ansi_format_codes` (261–342). -/
def split : Mode → Text → List (Bool × Nat)
  | _, [] => []
  | .text, c :: cs => if c = 27 then (true, c) :: split .bracket cs else (false, c) :: split .text cs
  | .bracket, c :: cs =>
    if c = 91 then (true, c) :: split .params cs
    else if c = 27 then (true, c) :: split .bracket cs else (false, c) :: split .text cs
  | .params, c :: cs =>
    if isParam c then (true, c) :: split .params cs
    else if isLetter c then (true, c) :: split .text cs
    else if c = 27 then (true, c) :: split .bracket cs else (false, c) :: split .text cs

/-- A stream: characters, and the ends of its parts. -/
inductive Tok
  | ch (c : Nat) | brk
  deriving DecidableEq, Repr

/-- `stream_split_ansi_format_codes` (112–258). `stale`: `end_block` is still true from a code that was
broken off (the first inner loop clears it only with a new part, 131–138), so that the loop for text is
left at the end of the part (149–150). -/
def splitStream : Mode → Bool → List Tok → List (Bool × Nat)
  | _, _, [] => []
  | .text, stale, .brk :: ts => if stale then splitStream .bracket false ts else splitStream .text false ts
  | .bracket, _, .brk :: ts => splitStream .bracket false ts
  | .params, _, .brk :: ts => splitStream .params false ts
  | .text, stale, .ch c :: ts =>
    if c = 27 then (true, c) :: splitStream .bracket false ts else (false, c) :: splitStream .text stale ts
  | .bracket, _, .ch c :: ts =>
    if c = 91 then (true, c) :: splitStream .params false ts
    else if c = 27 then (true, c) :: splitStream .bracket false ts
    else (false, c) :: splitStream .text true ts
  | .params, _, .ch c :: ts =>
    if isParam c then (true, c) :: splitStream .params false ts
    else if isLetter c then (true, c) :: splitStream .text false ts
    else if c = 27 then (true, c) :: splitStream .bracket false ts
    else (false, c) :: splitStream .text true ts

/-- The numbers of a code in between `;`. -/
def joined (dec : Nat → Text) : List Nat → Text
  | [] => []
  | [p] => dec p
  | p :: q :: ps => dec p ++ 59 :: joined dec (q :: ps)

/-- `html.escape` of a character. -/
def escapeChar (c : Nat) : Text :=
  if c = 38 then [38, 97, 109, 112, 59]
  else if c = 60 then [38, 108, 116, 59]
  else if c = 62 then [38, 103, 116, 59]
  else if c = 34 then [38, 113, 117, 111, 116, 59]
  else if c = 39 then [38, 35, 120, 50, 55, 59]
  else [c]

def escape (t : Text) : Text := t.flatMap escapeChar

/-- The characters of what is put out. `dec`: decimal numbers; `cls`: names of classes. -/
def render (dec cls : Nat → Text) : Ev → Text
  | .sgr ps => 27 :: 91 :: joined dec ps ++ [109]
  | .spanStart c => [60, 115, 112, 97, 110, 32, 99, 108, 97, 115, 115, 61, 34] ++ cls c ++ [34, 62]
  | .spanEnd => [60, 47, 115, 112, 97, 110, 62]
  | .text t => t
  | .escaped t => escape t
  | .br => [60, 98, 114, 62]

/-! ## Nodes -/

/-- The nodes of a context, by numbers; a parent has a lower number than its children. -/
structure Nodes where
  parent : Nat → Option Nat
  detail : Nat → Option Nat := fun _ => none
  direct : Nat → Bool := fun _ => false

/-- Whether `_set_detail` of `v` (`formatter_node.py` 81–99) comes to `u`: through children which are
not direct. -/
def reached (N : Nodes) (v : Nat) : Nat → Nat → Bool
  | 0, _ => false
  | fuel + 1, u =>
    if u = v then true
    else if N.direct u then false
    else
      match N.parent u with
      | some p => reached N v fuel p
      | none => false

/-- `_set_detail`. -/
def spread (N : Nodes) (v : Nat) (d : Option Nat) : Nodes :=
  { N with detail := fun u => if reached N v (u + 1) u then d else N.detail u }

def put {α : Type} (f : Nat → α) (i : Nat) (x : α) : Nat → α := fun j => if j = i then x else f j

/-- `set_detail` (102–125). -/
def setDetail (N : Nodes) (v : Nat) (d : Option Nat) (direct : Bool) : Nodes :=
  match d with
  | none =>
    if N.direct v then
      let N := { N with direct := put N.direct v false }
      match N.parent v with
      | some p => if N.detail v ≠ N.detail p then spread N v (N.detail p) else N
      | none => N
    else N
  | some x => spread { N with direct := put N.direct v direct } v (some x)

/-- `set_highlight_html_all` (`formatter_context.py` 134–140); `vs` are the nodes of the context. -/
def setAll (N : Nodes) (x : Nat) : List Nat → Nodes
  | [] => N
  | v :: vs => setAll (setDetail N v (some x) false) x vs

end Verif.Styling
