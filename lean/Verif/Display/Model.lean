/-!
# Drawing of the input of the interactive console

Modelled code:
`scarletio/tools/asynchronous_interactive_console/editors/display_state.py`,
`line_render_intermediate.py` (the parts of a row) and `terminal_control_commands.py`.

Characters are numbers (32: space, 92: backslash, 10: line break, 27: escape). The terminal is a grid with rows without
end and with `columns` columns, in raw mode (`tty.setraw`), so a line break only moves down. Formats are commands which
change no character; prefixes are taken without formats.
-/

namespace Verif.Display

/-- A text. -/
abbrev Text := List Nat

/-- An item of `LineRenderIntermediate.parts`: the visible length and the text; commands have no visible length. -/
structure Item where
  length : Nat
  text : Text
  deriving DecidableEq

/-- A row to draw, its prefix included. -/
abbrev Row := List Item

/-- `LineRenderIntermediate.get_length`. -/
def Row.len (r : Row) : Nat := (r.map Item.length).sum

/-! ## The terminal -/

/-- What is written to the terminal. -/
inductive Cmd
  | up (n : Nat)
  | down (n : Nat)
  | left (n : Nat)
  | right (n : Nat)
  /-- `COMMAND_START_LINE` -/
  | start
  /-- `COMMAND_UP`: start of the row above -/
  | previous
  | format (t : Text)
  /-- `COMMAND_CLEAR_LINE_WHOLE` -/
  | clearLine
  /-- `COMMAND_CLEAR_LINE_FROM_CURSOR` -/
  | clearRest
  | text (t : Text)
  deriving DecidableEq

/-- The terminal; `col = columns`: the last column was written, the next character goes to the next row. -/
structure Term where
  cells : Nat → Nat → Nat
  row : Nat
  col : Nat

/-- A character written. -/
def put (columns : Nat) (t : Term) (c : Nat) : Term :=
  let t := if t.col ≥ columns then { t with row := t.row + 1, col := 0 } else t
  { t with cells := fun y x => if y = t.row ∧ x = t.col then c else t.cells y x, col := t.col + 1 }

/-- A command; movements and clearing begin at the last column if it was written. -/
def exec (columns : Nat) (t : Term) : Cmd → Term
  | .up n => { t with row := t.row - n }
  | .down n => { t with row := t.row + n }
  | .left n => { t with col := min t.col (columns - 1) - n }
  | .right n => { t with col := min (min t.col (columns - 1) + n) (columns - 1) }
  | .start => { t with col := 0 }
  | .previous => { t with row := t.row - 1, col := 0 }
  | .format _ => t
  | .clearLine => { t with cells := fun y x => if y = t.row then 32 else t.cells y x }
  | .clearRest => { t with cells := fun y x => if y = t.row ∧ min t.col (columns - 1) ≤ x then 32 else t.cells y x }
  | .text s => s.foldl (put columns) t

/-- Many. -/
def run (columns : Nat) (t : Term) (cs : List Cmd) : Term := cs.foldl (exec columns) t

/-- An item written. -/
def emit (i : Item) : Cmd := if i.length = 0 then .format i.text else .text i.text

/-! ## Counting of rows -/

/-- `_get_line_line_count_same_or_increased` (50–73). -/
def countSame (length width : Nat) : Nat := if length = 0 then 1 else 1 + (length - 1) / width

/-- `_get_line_line_count_reduced` (76–124). -/
def countReduced (length width new pre : Nat) : Nat :=
  if length = 0 then 1
  else
    let oldFull := width + (pre + 1)
    let newFull := new + (pre + 1)
    let full := length / width
    let last := length % width
    let (full, last) := if last = 0 ∧ full ≠ 0 then (full - 1, length) else (full, last)
    (if full ≠ 0 then full * countSame oldFull newFull else 0) + if last ≠ 0 then 1 + (last + pre - 1) / newFull else 0

/-- `_get_line_line_count` (22–47); `width = none`: -1. -/
def lineCount (length : Nat) (width : Option Nat) (new pre : Nat) : Nat :=
  match width with
  | none => countSame length new
  | some w => if new ≥ w then countSame length w else countReduced length w new pre

/-- `_get_line_cursor_index` (127–148). -/
def cursorColumn (width index pre : Nat) : Nat := pre + if index ≠ 0 then (index - 1) % width + 1 else 0

/-- A display state: the lines of its buffer, its cursor, the width it was drawn with (`none`: -1). -/
structure State where
  buffer : List Text
  line : Nat
  index : Nat
  width : Option Nat

/-- Counts of many lines. -/
def counts (width : Option Nat) (new pre : Nat) : List Text → Nat
  | [] => 0
  | l :: ls => lineCount l.length width new pre + counts width new pre ls

/-- `get_cursor_from_start_display_line_count` (381–410). -/
def State.fromStart (s : State) (pre : Nat) : Nat :=
  match s.width with
  | none => 0
  | some w => lineCount s.index none w pre - 1 + counts none w pre (s.buffer.take s.line)

/-- `get_cursor_till_end_display_line_count` (413–446). -/
def State.tillEnd (s : State) (pre new : Nat) : Nat :=
  lineCount (s.buffer.getD s.line []).length s.width new pre - lineCount s.index s.width new pre +
    counts s.width new pre (s.buffer.drop (s.line + 1))

/-- `get_start_till_end_display_line_count` (449–471). -/
def State.startTillEnd (s : State) (pre new : Nat) : Nat := counts s.width new pre s.buffer

/-! ## Jumping, clearing and writing -/

/-- `_jump_vertical` (151–173). -/
def jumpV (old new : Nat) : List Cmd :=
  if old > new then [.up (old - new)] else if new > old then [.down (new - old)] else []

/-- `_jump_horizontal` (176–198). -/
def jumpH (old new : Nat) : List Cmd :=
  if old > new then [.left (old - new)] else if new > old then [.right (new - old)] else []

/-- The loop of `_clear_from_end` (550–558), `count` rows left above the one being cleared. -/
def clearLoop : Nat → List Cmd
  | 0 => [.clearLine]
  | n + 1 => .clearLine :: .previous :: clearLoop n

/-- `clear` (512–530) with `_jump_to_end` (494–509) and `_clear_from_end` (533–558). -/
def State.clear (s : State) (pre new : Nat) : List Cmd :=
  match s.width with
  | none => []
  | some _ => jumpV 0 (s.tillEnd pre new) ++ .start :: clearLoop (s.startTillEnd pre new - 1)

/-- `write_cursor` (561–581). -/
def State.writeCursor (s : State) (pre : Nat) : List Cmd :=
  [.up (s.tillEnd pre (s.width.getD 0)), .start, .right (cursorColumn (s.width.getD 0) s.index pre)]

/-- The loop of `write` (609–623). -/
def writeRows : List Row → List Cmd
  | [] => []
  | [r] => .start :: r.map emit
  | r :: rs => .start :: r.map emit ++ .down 1 :: writeRows rs

/-- `write` (584–623), the rows given. -/
def write (rows : List Row) : List Cmd := if rows = [] then [] else .format [] :: writeRows rows

/-! ## Rows -/

/-- What the stream of highlighted parts gives: format codes and texts. -/
inductive Part
  | command (t : Text)
  | text (t : Text)

/-- The loop which breaks a part (877–893): the rows completed, the row being written and what is left of its width. -/
def addText (width : Nat) (blank last : Text) : Nat → Row → Nat → Text → List Row × Row × Nat
  | 0, line, left, _ => ([], line, left)
  | n + 1, line, left, part =>
    if part.length ≤ left then ([], line ++ [⟨part.length, part⟩], left - part.length)
    else
      let r := addText width blank last n [⟨blank.length, blank⟩, ⟨0, last⟩] width (part.drop left)
      ((line ++ [⟨left, part.take left⟩, ⟨1, [92]⟩]) :: r.1, r.2)

/-- The variables of the loop of `get_line_render_intermediates`; `lasts`: `last_command_parts`. -/
structure Rendering where
  line : Row
  left : Nat
  last : Text
  lasts : Option (List Text)

/-- A command seen (852–863). -/
def Rendering.command (r : Rendering) (t : Text) : Rendering :=
  { r with
    line := r.line ++ [⟨0, t⟩]
    lasts := match r.lasts with
      | none => some [t]
      | some ps => if 27 ∈ t then some [t] else some (ps ++ [t]) }

/-- What the last command is when a text is seen (865–867). -/
def Rendering.settled (r : Rendering) : Rendering :=
  match r.lasts with
  | none => r
  | some ps => { r with last := ps.flatten, lasts := none }

/-- A text seen (869–893): whether it ends a line, the rows completed, the variables. -/
def Rendering.text (r : Rendering) (width : Nat) (blank t : Text) : Bool × List Row × Rendering :=
  let r := r.settled
  let isBreak := t.getLast? = some 10
  let part := if isBreak then t.take (t.length - 2) else t
  if part = [] then (isBreak, [], r)
  else
    let (rows, line, left) := addText width blank r.last (part.length + 2) r.line r.left part
    (isBreak, rows, { r with line := line, left := left })

/-- The loop of `get_line_render_intermediates` (850–910); `lines`: lines of the buffer whose end was not seen yet. -/
def render (width : Nat) (blank cont : Text) : Nat → Rendering → List Part → List Row
  | _, r, [] => [r.line]
  | lines, r, .command t :: ps => render width blank cont lines (r.command t) ps
  | lines, r, .text t :: ps =>
    match r.text width blank t with
    | (false, rows, r) => rows ++ render width blank cont lines r ps
    | (true, rows, r) =>
      if lines = 1 then rows ++ [r.line]
      else rows ++ r.line :: render width blank cont (lines - 1) { r with line := [⟨cont.length, cont⟩], left := width } ps

/-- `get_line_render_intermediates` (812–912). -/
def rowsOf (width : Nat) (first cont blank reset : Text) (lines : Nat) (parts : List Part) : List Row :=
  if width = 0 then []
  else render width blank cont lines ⟨[⟨first.length, first⟩], width, reset, none⟩ parts

/-! ## Difference -/

/-- `_cut_same_prefix` (201–229). -/
def cut : Text → Text → Nat × Text × Text
  | a :: as, b :: bs => if a = b then let r := cut as bs; (r.1 + 1, r.2) else (0, a :: as, b :: bs)
  | as, bs => (0, as, bs)

/-- Where skipping of same parts stopped. -/
structure Stop where
  /-- The items at the index, if something was different. -/
  at_ : Option (Item × Item)
  self : Row
  other : Row
  jump : Nat
  last : Option Text

/-- Different items were met (708–718): commands right before a command are written again. -/
def stopAt (s o : Item) (ss os : Row) (jump : Nat) (last : Option Text) : Row → Stop
  | [] => ⟨some (s, o), ss, os, jump, last⟩
  | p :: ps =>
    if s.length ≠ 0 then ⟨some (s, o), ss, os, jump, some ((p :: ps).map Item.text).flatten⟩
    else ⟨some (p, p), ps ++ s :: ss, ps ++ o :: os, jump, last⟩

/-- The loop which skips same parts (703–736); `lasts`: `last_command_parts`, empty if it is `None`. -/
def skip : Row → Row → Nat → Option Text → Row → Stop
  | s :: ss, o :: os, jump, last, lasts =>
    if s ≠ o then stopAt s o ss os jump last lasts
    else if s.length ≠ 0 then
      skip ss os (jump + s.length) (if lasts = [] then last else some (lasts.map Item.text).flatten) []
    else skip ss os (jump + s.length) last (if 27 ∈ s.text then [s] else lasts ++ [s])
  | ss, os, jump, last, _ => ⟨none, ss, os, jump, last⟩

/-- What is written at the item where it stopped (738–753): length and text of it, and the target of the jump. -/
def Stop.cutted (p : Stop) : Nat × Text × Nat :=
  match p.at_ with
  | none => (0, [], p.jump)
  | some (s, o) =>
    if s.length ≠ 0 ∧ o.length ≠ 0 then (s.length, (cut s.text o.text).2.1, p.jump + (cut s.text o.text).1)
    else (s.length, s.text, p.jump)

/-- `to_clear` (753, 779, 784). -/
def Stop.toClear (p : Stop) : Int :=
  (match p.at_ with
    | none => 0
    | some (s, o) => (o.length : Int) - s.length) - p.self.len + p.other.len

/-- The format written before a part (761–765). -/
def before (first : Bool) : Option Text → List Cmd
  | some c => [.format c]
  | none => if first then [.format []] else []

/-- What is written of a row which is different (684–791); `first`: nothing was written before. -/
def lineDiff (first : Bool) (self other : Row) : List Cmd :=
  let p := skip self other 0 none []
  let (length, part, jump) := p.cutted
  (if jump > 0 then [.right jump] else []) ++
  (if part ≠ [] then
    (if length ≠ 0 then before first p.last else []) ++ [emit ⟨length, part⟩]
   else []) ++
  (if p.self ≠ [] then (if part = [] then [.format []] else []) ++ p.self.map emit else []) ++
  (if p.toClear > 0 then [.clearRest] else [])

/-- The rest of the loop below when there are only rows of the other state left (674–680). -/
def clearRows (i cur : Nat) (last : Option Row) : List Row → List Cmd × Nat × Option Row
  | [] => ([], cur, last)
  | _ :: os =>
    let r := clearRows (i + 1) i last os
    (jumpV cur i ++ [.clearLine] ++ r.1, r.2)

/-- The loop of `write_difference` (654–791): index of the row, of the row where the cursor is, the row written last. -/
def diffRows (i cur : Nat) (last : Option Row) : List Row → List Row → List Cmd × Nat × Option Row
  | [], os => clearRows i cur last os
  | s :: ss, [] =>
    let r := diffRows (i + 1) i (some s) ss []
    (jumpV cur i ++ .start :: ((if last.isNone then [.format []] else []) ++ s.map emit) ++ r.1, r.2)
  | s :: ss, o :: os =>
    if s = o then diffRows (i + 1) cur last ss os
    else
      let r := diffRows (i + 1) i (some s) ss os
      (jumpV cur i ++ .start :: lineDiff last.isNone s o ++ r.1, r.2)

/-- The column the cursor is taken to be in before the last jump (800–803). -/
def columnAt (other : Nat) : Option Row → Nat
  | none => other
  | some r => r.len

/-- `write_difference` (626–809): rows and positions of the cursor given. -/
def difference (self other : List Row) (selfCursor otherCursor : Nat × Nat) : List Cmd :=
  if other = [] then []
  else
    let (cs, cur, last) := diffRows 0 otherCursor.1 none self other
    cs ++ jumpV cur selfCursor.1 ++
      jumpH (columnAt otherCursor.2 last) selfCursor.2

end Verif.Display
