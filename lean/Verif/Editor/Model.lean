/-
Model of the editor of the interactive console: the text and its cursor, the
keys, the tokenizer of the input, the history and the auto completer.

Source: `/repo/scarletio/tools/asynchronous_interactive_console/editors/editor_advanced.py`,
`/repo/scarletio/tools/asynchronous_interactive_console/editors/display_state.py`,
`/repo/scarletio/tools/asynchronous_interactive_console/editors/editor_base.py`,
`/repo/scarletio/tools/asynchronous_interactive_console/history.py`,
`/repo/scarletio/tools/asynchronous_interactive_console/auto_completer.py`,
`/repo/scarletio/tools/keys.py`.

Characters are code points.  What the editor asks Python for is a parameter:
which characters are printable, which are white space, which words are
identifiers, which names are known, whether the text compiles.
-/

namespace Verif.Editor

/-- A character, as its code point. -/
abbrev Chr := Nat

/-- A line of text. -/
abbrev Line := List Chr

/-- What the editor asks Python for.

* `pr`: `str.isprintable` of one character.
* `ws`: the characters `str.lstrip` removes.
* `ident`: `str.isidentifier`.
* `names`: the names in the order the set of matches is walked; any order, with
  duplicates (`auto_completer.py:123-135`).
* `indexed`: `INDEXED_INPUT_RP` (`editor_advanced.py:40`) with the number.
* `exits`: `check_exit_conditions` (`editor_advanced.py:2126-2146`): whether the
  text is to be compiled and compiles. -/
structure Env where
  pr : Chr → Bool
  ws : Chr → Bool
  ident : Line → Bool
  names : List Line
  indexed : Line → Option Nat
  exits : List Line → Nat → Nat → Bool

/-- `DisplayState` (`display_state.py:306-378`) without `content_width`: the
lines, the index of the line of the cursor and its index in the line. -/
structure DS where
  buf : List Line
  li : Nat
  ci : Nat
deriving DecidableEq, Repr

/-- `buffer[index]`. -/
def lineAt (b : List Line) (i : Nat) : Line := b.getD i []

/-- `buffer.insert(index, line)`. -/
def insertAt (b : List Line) (i : Nat) (l : Line) : List Line := b.take i ++ l :: b.drop i

/-- `buffer.pop(index)`, the lines which are left. -/
def popAt (b : List Line) (i : Nat) : List Line := b.take i ++ b.drop (i + 1)

/-- `DisplayState.__new__` (`display_state.py:323-346`): the cursor is at the end. -/
def DS.new (b : Option (List Line)) : DS :=
  let b := match b with
    | none => [[]]
    | some [] => [[]]
    | some b => b
  ⟨b, b.length - 1, (lineAt b (b.length - 1)).length⟩

/-! ### Helpers on lines -/

/-- `get_starting_space_count` (`editor_advanced.py:318-339`). -/
def startSpaces : Line → Nat
  | [] => 0
  | c :: r => if c != 32 then 0 else startSpaces r + 1

/-- `line_ends_with` (`editor_advanced.py:343-368`) on the reversed line. -/
def endsWithRev (t : Chr) : Line → Bool
  | [] => false
  | c :: r => if c == t then true else if c == 32 then endsWithRev t r else false

/-- `line_starts_with_word_any` (`editor_advanced.py:372-396`). -/
def startsWithWord (env : Env) (words : List Line) (l : Line) : Bool :=
  let l := l.dropWhile env.ws
  words.any (fun w => w.isPrefixOf l && (l.length == w.length || l.getD w.length 0 == 32))

/-- `DEDENT_WORDS` (`editor_advanced.py:26-31`): pass, return, continue, break. -/
def dedentWords : List Line :=
  [[112, 97, 115, 115],
   [114, 101, 116, 117, 114, 110],
   [99, 111, 110, 116, 105, 110, 117, 101],
   [98, 114, 101, 97, 107]]

/-- `AUTO_COMPLETE_BREAK_CHARACTERS` (`editor_advanced.py:34-37`). -/
def breakChars : List Chr :=
  [32, 34, 35, 37, 38, 39, 40, 41, 42, 43, 44, 45, 46, 47, 58, 59, 60, 61, 62, 64, 91, 92, 93, 123, 124, 125, 126]

/-- The loop collecting the last word, on the reversed characters before the
cursor (`editor_advanced.py:787-797`). -/
def lastWordRev : Line → Line
  | [] => []
  | c :: r => if breakChars.contains c then [] else c :: lastWordRev r

/-- The loop looking for an attribute access, on the reversed characters before
the word (`editor_advanced.py:803-812`). -/
def afterDot : Line → Bool
  | [] => false
  | c :: r => if c == 46 then true else if c == 32 then afterDot r else false

/-- `_get_identifier_to_autocomplete` (`editor_advanced.py:765-818`). -/
def identAt (env : Env) (l : Line) (i : Nat) : Option Line :=
  if decide (l.length > i) && !breakChars.contains (l.getD i 0) then none
  else
    let w := lastWordRev (l.take i).reverse
    if w.isEmpty then none
    else if afterDot ((l.take i).reverse.drop w.length) then none
    else if env.ident w.reverse then some w.reverse else none

/-! ### The auto completer -/

/-- `_iter_matches` (`auto_completer.py:103-120`). -/
def isMatch (s n : Line) : Bool := s.isPrefixOf n && n != s

/-- `matches` (`auto_completer.py:75`): the set, in the order it is walked. -/
def matchesOf (names : List Line) (s : Line) : List Line := (names.filter (isMatch s)).eraseDups

/-- The loop of `get_common_prefix` (`auto_completer.py:88-95`); the first
parameter bounds it, `shortest` is the length of the shortest match. -/
def cpLoop (first : Line) (ms : List Line) (shortest : Nat) : Nat → Nat → Nat
  | 0, i => i
  | f + 1, i =>
    if i < shortest then
      if ms.all (fun m => m.getD i 0 == first.getD i 0) then cpLoop first ms shortest f (i + 1) else i
    else i

/-- `min(len(match) for match in matches)` (`auto_completer.py:86`). -/
def minLen : Line → List Line → Nat
  | f, [] => f.length
  | f, m :: r => if m.length < f.length then minLen m r else minLen f r

/-- `AutoCompleter.get_common_prefix` (`auto_completer.py:62-100`). -/
def commonPrefix (names : List Line) (s : Line) : Option Line :=
  match matchesOf names s with
  | [] => none
  | [m] => some m
  | m :: r =>
    let i := cpLoop m (m :: r) (minLen m r) (minLen m r) s.length
    if i == s.length then none else some (m.take i)

/-! ### The keys, on a display state -/

/-- `execute_enter` after the history and the exit check
(`editor_advanced.py:1314-1349`). -/
def enterDS (env : Env) (auto : Bool) (d : DS) : DS :=
  let line := lineAt d.buf d.li
  let cur := line.take d.ci
  let next := line.drop d.ci
  let n : Int :=
    if auto then
      let n : Int := startSpaces line
      let n := if endsWithRev 58 cur.reverse then n + 4
        else if startsWithWord env dedentWords cur then n - 4 else n
      if n < 0 then 0 else n
    else 0
  ⟨insertAt (d.buf.set d.li cur) (d.li + 1) (List.replicate n.toNat 32 ++ next), d.li + 1, n.toNat⟩

/-- `execute_arrow_left` (`editor_advanced.py:1352-1383`). -/
def leftDS (d : DS) : Option DS :=
  if d.ci = 0 then
    if d.li = 0 then none
    else some ⟨d.buf, d.li - 1, (lineAt d.buf (d.li - 1)).length⟩
  else some ⟨d.buf, d.li, d.ci - 1⟩

/-- `execute_arrow_home` (`editor_advanced.py:1386-1409`). -/
def homeDS (d : DS) : Option DS := if d.ci = 0 then none else some ⟨d.buf, d.li, 0⟩

/-- `execute_arrow_right` (`editor_advanced.py:1412-1443`). -/
def rightDS (d : DS) : Option DS :=
  if d.ci = (lineAt d.buf d.li).length then
    if d.li = d.buf.length - 1 then none else some ⟨d.buf, d.li + 1, 0⟩
  else some ⟨d.buf, d.li, d.ci + 1⟩

/-- `execute_arrow_end` (`editor_advanced.py:1446-1472`). -/
def endDS (d : DS) : Option DS :=
  if d.ci = (lineAt d.buf d.li).length then none else some ⟨d.buf, d.li, (lineAt d.buf d.li).length⟩

/-- `execute_arrow_up` after the history (`editor_advanced.py:1496-1517`). -/
def upDS (d : DS) : Option DS :=
  if d.li = 0 then
    if d.ci = 0 then none else some ⟨d.buf, d.li, 0⟩
  else
    let n := (lineAt d.buf (d.li - 1)).length
    some ⟨d.buf, d.li - 1, if n < d.ci then n else d.ci⟩

/-- `execute_arrow_down` after the history (`editor_advanced.py:1541-1563`). -/
def downDS (d : DS) : Option DS :=
  if d.li = d.buf.length - 1 then
    let n := (lineAt d.buf d.li).length
    if d.ci = n then none else some ⟨d.buf, d.li, n⟩
  else
    let n := (lineAt d.buf (d.li + 1)).length
    some ⟨d.buf, d.li + 1, if n < d.ci then n else d.ci⟩

/-- `execute_arrow_back_tab` (`editor_advanced.py:1566-1603`); `-n & 3` is the
remainder of `-n` by 4. -/
def backTabDS (d : DS) : Option DS :=
  let line := lineAt d.buf d.li
  let n := startSpaces line
  if n = 0 then none
  else
    let rm : Nat := (4 - (-(n : Int)) % 4).toNat
    let c : Int := (d.ci : Int) - rm
    some ⟨d.buf.set d.li (line.drop rm), d.li, if c < 0 then 0 else c.toNat⟩

/-- The loop of `execute_tab` which moves over spaces
(`editor_advanced.py:1647-1655`), on the characters at and after the cursor:
how many spaces are still to be added. -/
def tabSkip : Line → Nat → Nat
  | _, 0 => 0
  | [], k + 1 => k + 1
  | c :: r, k + 1 => if c != 32 then k + 1 else tabSkip r k

/-- The part of `execute_tab` adding spaces (`editor_advanced.py:1643-1669`),
with whether the text was changed. -/
def tabSpacesDS (auto : Bool) (d : DS) : DS × Bool :=
  let line := lineAt d.buf d.li
  let want := 4 - d.ci % 4
  let add := if auto then tabSkip (line.drop d.ci) want else 4
  let ci := if auto then d.ci + (want - add) else d.ci
  if add != 0 then
    (⟨d.buf.set d.li (line.take ci ++ List.replicate add 32 ++ line.drop ci), d.li, ci + add⟩, true)
  else (⟨d.buf, d.li, ci⟩, false)

/-- `execute_tab` (`editor_advanced.py:1606-1673`), with whether the text was
changed. -/
def tabDS (env : Env) (auto : Bool) (d : DS) : DS × Bool :=
  let line := lineAt d.buf d.li
  match (if auto then identAt env line d.ci else none) with
  | some w =>
    match commonPrefix env.names w with
    | none => (⟨d.buf, d.li, d.ci⟩, false)
    | some p =>
      let add := p.drop w.length
      (⟨d.buf.set d.li (line.take d.ci ++ add ++ line.drop d.ci), d.li, d.ci + add.length⟩, true)
  | none => tabSpacesDS auto d

/-- `execute_delete_left` (`editor_advanced.py:1676-1715`). -/
def delLeftDS (d : DS) : Option DS :=
  if d.ci = 0 then
    if d.li = 0 then none
    else
      let line := lineAt d.buf d.li
      let b := popAt d.buf d.li
      let prev := lineAt b (d.li - 1)
      some ⟨b.set (d.li - 1) (prev ++ line), d.li - 1, prev.length⟩
  else
    let line := lineAt d.buf d.li
    some ⟨d.buf.set d.li (line.take (d.ci - 1) ++ line.drop d.ci), d.li, d.ci - 1⟩

/-- `execute_delete_right` (`editor_advanced.py:1718-1756`). -/
def delRightDS (d : DS) : Option DS :=
  let line := lineAt d.buf d.li
  if d.ci = line.length then
    if d.li = d.buf.length - 1 then none
    else some ⟨(popAt d.buf (d.li + 1)).set d.li (line ++ lineAt d.buf (d.li + 1)), d.li, d.ci⟩
  else some ⟨d.buf.set d.li (line.take d.ci ++ line.drop (d.ci + 1)), d.li, d.ci⟩

/-- `execute_print` (`editor_advanced.py:1759-1790`); the token is one character. -/
def printDS (c : Chr) (d : DS) : DS :=
  let line := lineAt d.buf d.li
  ⟨d.buf.set d.li (line.take d.ci ++ c :: line.drop d.ci), d.li, d.ci + 1⟩

/-! ### The history -/

/-- `History` (`history.py:4-30`).  `pos` is `_cursor_index + 1`: the cursor goes
from `-1` to `_size + 1`. -/
structure Hist where
  elems : Nat → Option (List Line)
  size : Nat
  pos : Nat

/-- `elements.get(cursor_index, None)`, by `cursor_index + 1`. -/
def Hist.at_ (h : Hist) : Nat → Option (List Line)
  | 0 => none
  | k + 1 => h.elems k

/-- The loop of `get_previous` (`history.py:150-157`). -/
def prevLoop (h : Hist) (cur : Option (List Line)) : Nat → Nat × Option (List Line)
  | 0 => (0, none)
  | k + 1 =>
    match h.at_ k with
    | some e => if some e = cur then prevLoop h cur k else (k, some e)
    | none => prevLoop h cur k

/-- `History.get_previous` (`history.py:138-160`). -/
def Hist.prev (h : Hist) : Hist × Option (List Line) :=
  let r := prevLoop h (h.at_ h.pos) h.pos
  ({ h with pos := r.1 }, r.2)

/-- The loop of `get_next` (`history.py:176-183`); the first parameter is
`size - cursor_index`, `0` if the cursor is past. -/
def nextLoop (h : Hist) (cur : Option (List Line)) : Nat → Nat → Nat × Option (List Line)
  | 0, k => (k, none)
  | f + 1, k =>
    match h.at_ (k + 1) with
    | some e => if some e = cur then nextLoop h cur f (k + 1) else (k + 1, some e)
    | none => nextLoop h cur f (k + 1)

/-- `History.get_next` (`history.py:163-186`). -/
def Hist.next (h : Hist) : Hist × Option (List Line) :=
  let r := nextLoop h (h.at_ h.pos) (h.size + 1 - h.pos) h.pos
  ({ h with pos := r.1 }, r.2)

/-- `History.reset_cursor_index` (`history.py:104-108`). -/
def Hist.reset (h : Hist) : Hist := { h with pos := h.size + 2 }

/-- `History.maybe_add_buffer_of` (`history.py:50-101`) with the stripped lines
of an editor, `none` for an editor without history support. -/
def Hist.add (h : Hist) (index : Nat) (b : Option (List Line)) : Hist :=
  let h : Hist := { h with size := index, pos := index + 2 }
  match b with
  | none => h
  | some [] => h
  | some b => { h with elems := fun i => if i = index then some b else h.elems i }

/-! ### The editor -/

/-- The keys (`keys.py:6-20`). -/
inductive Key where
  | interrupt | destroy | enter | left | right | up | down | end_ | home | backTab | delRight | tab
  | delLeft | print (c : Chr)
deriving DecidableEq, Repr

/-- The editor: `display_state`, `modified`, `history` and `alive`. -/
structure Ed where
  ds : DS
  modified : Bool
  hist : Hist
  alive : Bool

/-- What a key makes the editor raise. -/
inductive Out where
  | ok | interrupt | destroy
deriving DecidableEq, Repr

/-- `EditorBase.is_empty` (`editor_base.py:130-143`). -/
def isEmpty (b : List Line) : Bool := b.all (fun l => l.all (fun c => c == 10 || c == 32 || c == 9 || c == 13))

/-- `_check_is_line_empty` (`editor_advanced.py:399-416`). -/
def lineEmpty (l : Line) : Bool := l.all (fun c => c == 32 || c == 9 || c == 10)

/-- The loop of `checkout_indexed_input` (`editor_advanced.py:2244-2257`), with
the index found so far. -/
def indexLoop (env : Env) : List Line → Option Nat → Option Nat
  | [], i => i
  | l :: r, i =>
    if lineEmpty l then indexLoop env r i
    else
      match i with
      | some _ => none
      | none =>
        match env.indexed l with
        | none => none
        | some n => indexLoop env r (some n)

/-- `checkout_indexed_input` (`editor_advanced.py:2228-2264`). -/
def checkout (env : Env) (e : Ed) : Option DS :=
  match indexLoop env e.ds.buf none with
  | none => none
  | some i => some (DS.new (e.hist.elems i))

/-- `should_move_in_history` and `can_move_in_history`
(`editor_advanced.py:2149-2183`): the answer and the new `modified`. -/
def shouldMove (e : Ed) : Bool × Bool :=
  if e.ds.li != 0 then (false, e.modified)
  else if e.ds.ci != 0 then (false, e.modified)
  else if !e.modified then (true, e.modified)
  else if isEmpty e.ds.buf then (true, false)
  else (false, e.modified)

/-- `try_rewind_in_history` and `try_forward_in_history`
(`editor_advanced.py:2186-2225`), with the move of the history as a parameter. -/
def moveHist (f : Hist → Hist × Option (List Line)) (e : Ed) : Option Ed :=
  if (shouldMove e).1 then
    let r := f e.hist
    some { e with ds := { e.ds with buf := r.2.getD [[]] }, modified := (shouldMove e).2, hist := r.1 }
  else none

/-- A key which returns a display state or `None`, and whether it sets
`self.modified` when it does. -/
def apply (e : Ed) (d : Option DS) (edits : Bool) : Ed :=
  match d with
  | none => e
  | some d => { e with ds := d, modified := edits || e.modified }

/-- `process_input` (`editor_advanced.py:1893-1954`) for a key.  The display
states of the tokens of one read are threaded by `poll_and_process_input`, which
reads `self.display_state` only for a single token: here there is one. -/
def process (env : Env) (auto : Bool) (e : Ed) : Key → Ed × Out
  | .interrupt => (e, .interrupt)
  | .destroy => (e, .destroy)
  | .enter =>
    if auto then
      match checkout env e with
      | some d => ({ e with ds := d }, .ok)
      | none =>
        if env.exits e.ds.buf e.ds.li e.ds.ci then ({ e with alive := false }, .ok)
        else ({ e with ds := enterDS env auto e.ds, modified := true }, .ok)
    else ({ e with ds := enterDS env auto e.ds, modified := true }, .ok)
  | .left => (apply e (leftDS e.ds) false, .ok)
  | .right => (apply e (rightDS e.ds) false, .ok)
  | .up =>
    match (if auto then moveHist Hist.prev e else none) with
    | some e' => (e', .ok)
    | none => (apply e (upDS e.ds) false, .ok)
  | .down =>
    match (if auto then moveHist Hist.next e else none) with
    | some e' => (e', .ok)
    | none => (apply e (downDS e.ds) false, .ok)
  | .end_ => (apply e (endDS e.ds) false, .ok)
  | .home => (apply e (homeDS e.ds) false, .ok)
  | .backTab => (apply e (backTabDS e.ds) true, .ok)
  | .delRight => (apply e (delRightDS e.ds) true, .ok)
  | .tab =>
    let r := tabDS env auto e.ds
    ({ e with ds := r.1, modified := r.2 }, .ok)
  | .delLeft => (apply e (delLeftDS e.ds) true, .ok)
  | .print c => if env.pr c then ({ e with ds := printDS c e.ds, modified := true }, .ok) else (e, .ok)

/-- The loop over the tokens (`editor_advanced.py:1880-1888`); it is left by an
exception. -/
def processAll (env : Env) (auto : Bool) : Ed → List Key → Ed × Out
  | e, [] => (e, .ok)
  | e, k :: r =>
    match process env auto e k with
    | (e', .ok) => processAll env auto e' r
    | (e', o) => (e', o)

/-! ### The tokenizer -/

/-- The keys of `NODE_MAP` (`editor_advanced.py:252-271`, `keys.py:6-20`). -/
def keyTable : List (Line × Key) :=
  [ ([3], .interrupt), ([4], .destroy), ([9], .tab), ([10], .enter), ([13], .enter),
    ([27, 91, 65], .up), ([27, 91, 66], .down), ([27, 91, 67], .right), ([27, 91, 68], .left),
    ([27, 91, 70], .end_), ([27, 91, 72], .home), ([27, 91, 90], .backTab),
    ([27, 91, 51, 126], .delRight), ([127], .delLeft) ]

/-- The sequences of `NODE_MAP`. -/
def keySeqs : List Line := keyTable.map (·.1)

/-- The sub node for a character (`KeyNode`, `editor_advanced.py:46-230`).  A node
is the list of what is left of the sequences going through it; it does not exist
if there are none, it is an end if one has nothing left. -/
def sub : List Line → Chr → List Line
  | [], _ => []
  | [] :: r, c => sub r c
  | (a :: s) :: r, c => if a == c then s :: sub r c else sub r c

/-- The loop of `_read_from_node_map` (`editor_advanced.py:290-308`) below the
root: the characters read so far and the last end. -/
def walk : List Line → Line → Nat → Nat → Nat
  | _, [], _, e => e
  | node, c :: r, n, e =>
    if (sub node c).isEmpty then e
    else walk (sub node c) r (n + 1) (if (sub node c).contains [] then n + 1 else e)

/-- `_read_from_node_map` (`editor_advanced.py:274-315`): how many characters the
token has, `0` for none.  The root has a matcher for printable characters, asked
after its sub nodes. -/
def readTok (pr : Chr → Bool) : Line → Nat
  | [] => 0
  | c :: r =>
    if (sub keySeqs c).isEmpty then (if pr c then 1 else 0)
    else walk (sub keySeqs c) r 1 (if (sub keySeqs c).contains [] then 1 else 0)

/-- `InputTokenizer.next` until the end (`editor_advanced.py:997-1013`): a
character no token begins with is dropped.  The first parameter bounds the loop. -/
def tokensAux (pr : Chr → Bool) : Nat → Line → List Line
  | 0, _ => []
  | _, [] => []
  | f + 1, s =>
    if readTok pr s = 0 then tokensAux pr f (s.drop 1)
    else s.take (readTok pr s) :: tokensAux pr f (s.drop (readTok pr s))

/-- The tokens of a read. -/
def tokens (pr : Chr → Bool) (s : Line) : List Line := tokensAux pr s.length s

/-- The comparisons of `process_input` (`editor_advanced.py:1910-1954`). -/
def keyOf : Line → Option Key
  | [27, 91, 68] => some .left
  | [27, 91, 67] => some .right
  | [27, 91, 65] => some .up
  | [27, 91, 66] => some .down
  | [27, 91, 70] => some .end_
  | [27, 91, 72] => some .home
  | [27, 91, 90] => some .backTab
  | [27, 91, 51, 126] => some .delRight
  | [c] =>
    if c = 3 then some .interrupt else if c = 4 then some .destroy
    else if c = 10 || c = 13 then some .enter else if c = 9 then some .tab
    else if c = 127 then some .delLeft else some (.print c)
  | _ => none

/-- `poll_and_process_input` (`editor_advanced.py:1843-1890`) on the content of a
read; `trim` is `trim_console_prefix`. -/
def feed (env : Env) (trim : Line → Option Line) (e : Ed) (s : Line) : Ed × Out :=
  if (tokens env.pr s).length ≤ 1 then processAll env true e ((tokens env.pr s).filterMap keyOf)
  else
    match trim s with
    | none => processAll env false e ((tokens env.pr s).filterMap keyOf)
    | some s' =>
      processAll env (decide ((tokens env.pr s').length ≤ 1)) e ((tokens env.pr s').filterMap keyOf)

end Verif.Editor
