/-
Model of the parser for highlighting.

Source: `/repo/scarletio/utils/highlight/parser_context.py` (the context: `add_token` `222-323`, `enter` and the nester
`394-485`, the kinds of braces `20-144`), `/repo/scarletio/utils/highlight/matching.py` (the parsers), `flags.py`.

Characters are code points. The context holds the characters which are not consumed yet, with the index of the first of them.
The regular expressions and word patterns for spaces, console prefixes, numbers, identifiers, punctuation and operators are a
parameter (`Lexer`), as are the types of their tokens; those which matter are braces and line breaks. Retyping of escaped
line breaks (`_end_of_line`) is left out: it changes one type which is not a brace to another one. Loops which might not end
have fuel.
-/
namespace Verif.Highlight

/-- What can be opened and closed. -/
inductive Kind where
  | round
  | curly
  | square
  | bytesQuote
  | textQuote
  | format
deriving DecidableEq, Repr

/-- `_is_barrier_token` (`127-144`) -/
def Kind.barrier : Kind → Bool
  | .bytesQuote => true
  | .textQuote => true
  | .format => true
  | _ => false

inductive Ty where
  | opening (k : Kind)
  | closing (k : Kind)
  | lineBreak
  /-- Any other type: 0 not identified, 1 space, 2 comment, 3 prefix, 4 binary, 5 unicode, 6 format code, 7 its begin, 8
  postfix, others are of the lexer. -/
  | other (n : Nat)
deriving DecidableEq, Repr

structure Token where
  ty : Ty
  start : Nat
  line : Nat
  col : Nat
  len : Nat
deriving DecidableEq, Repr

/-- `Layer`; `none` for -1. -/
structure Layer where
  outer : Option Nat
  first : Nat
  last : Option Nat
deriving DecidableEq, Repr

/-- `flags.py` -/
structure Flags where
  noSingle : Bool := false
  noDouble : Bool := false
  noMultiString : Bool := false
  noMultiCode : Bool := false
  inBinary : Bool := false
  inUnicode : Bool := false
  inFormat : Bool := false
  inFormatCode : Bool := false
  hitMulti : Bool := false
  relaxed : Bool := false
  hitQuote : Bool := false
deriving DecidableEq, Repr

/-- `& HIGHLIGHT_PARSER_MASK_INHERITABLE` -/
def Flags.inherited (f : Flags) : Flags :=
  { noSingle := f.noSingle, noDouble := f.noDouble, relaxed := f.relaxed, noMultiCode := f.noMultiCode }

/-- `HighlightParserContext` -/
structure Ctx where
  rest : List Nat
  pos : Nat
  line : Nat
  col : Nat
  tokens : List Token
  layers : List Layer
  inner : Option Nat
  flags : Flags
  done : Bool
deriving DecidableEq, Repr

/-- `HighlightParserContext.__new__` (`188-211`) -/
def Ctx.new (content : List Nat) (flags : Flags) : Ctx :=
  ⟨content, 0, 0, 0, [], [], none, flags, content.isEmpty⟩

/-- The kind of the token which opened a layer. -/
def openKind (ts : List Token) (l : Layer) : Kind :=
  match (ts[l.first]?).map Token.ty with
  | some (.opening k) => k
  | _ => .square

/-- The layers are left from the inner one until one of the kind which is closed, or a barrier (`270-297`); whether it
was found. The fuel is the number of layers. -/
def unwind (k : Kind) (zero : Ty → Token) : Nat → List Token → List Layer → Nat → List Token × List Layer × Option Nat × Bool
  | 0, ts, ls, i => (ts, ls, some i, false)
  | n + 1, ts, ls, i =>
    match ls[i]? with
    | none => (ts, ls, some i, false)
    | some l =>
      if openKind ts l = k then (ts, ls.set i ⟨l.outer, l.first, some ts.length⟩, l.outer, true)
      else if (openKind ts l).barrier then (ts, ls.set i ⟨l.outer, l.first, some ts.length⟩, some i, true)
      else match l.outer with
        | none => (ts ++ [zero (.closing (openKind ts l))], ls.set i ⟨l.outer, l.first, some ts.length⟩, none, false)
        | some j => unwind k zero n (ts ++ [zero (.closing (openKind ts l))]) (ls.set i ⟨l.outer, l.first, some ts.length⟩) j

/-- At the end all layers are closed until a barrier (`306-323`). -/
def finish (zero : Ty → Token) : Nat → List Token → List Layer → Nat → List Token × List Layer × Option Nat
  | 0, ts, ls, i => (ts, ls, some i)
  | n + 1, ts, ls, i =>
    match ls[i]? with
    | none => (ts, ls, some i)
    | some l =>
      if (openKind ts l).barrier then (ts, ls, some i)
      else match l.outer with
        | none => (ts ++ [zero (.closing (openKind ts l))], ls.set i ⟨l.outer, l.first, some ts.length⟩, none)
        | some j => finish zero n (ts ++ [zero (.closing (openKind ts l))]) (ls.set i ⟨l.outer, l.first, some ts.length⟩) j

/-- What `add_token` does before it adds the token: tokens, layers and the inner layer. -/
def Ctx.prepare (c : Ctx) (zero : Ty → Token) : Ty → List Token × List Layer × Option Nat
  | .opening _ => (c.tokens, c.layers ++ [⟨c.inner, c.tokens.length, none⟩], some c.layers.length)
  | .closing k =>
    match c.inner with
    | none => (c.tokens ++ [zero (.opening k)], c.layers, none)
    | some i =>
      let r := unwind k zero (c.layers.length + 1) c.tokens c.layers i
      if r.2.2.2 then (r.1, r.2.1, r.2.2.1) else (r.1 ++ [zero (.opening k)], r.2.1, r.2.2.1)
  | _ => (c.tokens, c.layers, c.inner)

/-- What `add_token` does after it added the token, at the end of the content. -/
def closeAll (zero : Ty → Token) (ts : List Token) (ls : List Layer) : Option Nat → List Token × List Layer × Option Nat
  | none => (ts, ls, none)
  | some i => finish zero (ls.length + 1) ts ls i

/-- `add_token` (`222-323`). The tokens without a length are all put to where the token begins, also those after it. -/
def Ctx.add (c : Ctx) (ty : Ty) (len : Nat) : Ctx :=
  let zero := fun t => Token.mk t c.pos c.line c.col 0
  let p := c.prepare zero ty
  let ts := p.1 ++ [⟨ty, c.pos, c.line, c.col, len⟩]
  let q := if c.rest.length ≤ len then closeAll zero ts p.2.1 p.2.2 else (ts, p.2.1, p.2.2)
  { rest := c.rest.drop len, pos := c.pos + len,
    line := if ty = .lineBreak then c.line + 1 else c.line,
    col := if ty = .lineBreak then 0 else c.col + len,
    tokens := q.1, layers := q.2.1, inner := q.2.2, flags := c.flags,
    done := c.done || decide (c.rest.length ≤ len) }

/-! ### Strings -/

/-- The regular expressions: the lengths of a console prefix and its space, or of a space, at a column; and the type and
the length of a number, an identifier, a punctuation or an operator, after some tokens. -/
structure Lexer where
  space : Nat → List Nat → Option (List Nat)
  word : List Token → List Nat → Option (Ty × Nat)

/-- The characters which can be escaped. -/
def escapes : List Nat := [92, 39, 34, 97, 98, 102, 110, 114, 116, 118]

/-- Why consuming a string pauses. -/
inductive Pause where
  /-- The end of the line or of the content. -/
  | stop
  /-- The string ends. -/
  | close
  /-- A format code begins. -/
  | brace
deriving DecidableEq, Repr

/-- The inner loops of `_consume_string_until` (`801-844`) and of `_consume_format_string_until` (`873-961`), with the test
of `_try_consume_string_till_end_of_line` (`745-757`): how many characters are passed, and why it pauses. -/
def scan (e : List Nat) (fmt : Bool) : List Nat → Nat × Pause
  | [] => (0, .stop)
  | [c] =>
    if c = 10 then (0, .stop)
    else if e.isPrefixOf [c] then (0, .close)
    else if fmt ∧ c = 123 then (0, .brace)
    else (1, .stop)
  | c :: d :: r =>
    if c = 10 then (0, .stop)
    else if fmt ∧ (c = 123 ∨ c = 125) ∧ d = c then ((scan e fmt r).1 + 2, (scan e fmt r).2)
    else if c = 92 ∧ d ∈ escapes then ((scan e fmt r).1 + 2, (scan e fmt r).2)
    else if e.isPrefixOf (c :: d :: r) then (0, .close)
    else if fmt ∧ c = 123 then (0, .brace)
    else ((scan e fmt (d :: r)).1 + 1, (scan e fmt (d :: r)).2)

/-- `_get_string_token_type` with an end (`623-667`). -/
def closeTy (f : Flags) (e : List Nat) : Ty :=
  if e = [125] then .closing .format
  else if f.inBinary then .closing .bytesQuote
  else if f.inUnicode then .closing .textQuote
  else .other 0

/-- `_get_string_token_type` without an end. -/
def textTy (f : Flags) : Ty :=
  if f.inBinary then .other 4
  else if f.inUnicode then (if f.inFormatCode then .other 6 else .other 5)
  else .other 0

/-- `_end_parsing_if_no_multi_line_code`, `_end_parsing_if_no_multi_line_string` (`670-717`) -/
def Flags.ends (f : Flags) : Bool := f.noMultiCode || f.noMultiString || (!f.relaxed && f.inFormatCode)

/-- The passed characters become a token. -/
def Ctx.addText (c : Ctx) (p : Nat) : Ctx := if 0 < p then c.add (textTy c.flags) p else c

/-- What a turn of the outer loop of the consumers does: it returns, turns again, or parses code. -/
inductive Turn where
  | over (c : Ctx)
  | again (c : Ctx)
  | code (c : Ctx)
deriving DecidableEq, Repr

/-- The end of the line or of the content (`759-772`). -/
def Ctx.endLine (e : List Nat) (c : Ctx) : Turn :=
  if c.flags.ends then
    let d := { c with flags := { c.flags with hitMulti := true }, done := true }
    let d := d.add (closeTy d.flags e) 0
    .over (if e = [125] ∧ d.flags.inFormat then d.add (.closing .textQuote) 0 else d)
  else .again (if c.rest = [] then c else c.add .lineBreak 1)

/-- A turn of the outer loop of `_consume_string_until` (`775-844`) and `_consume_format_string_until` (`847-961`). -/
def Ctx.turn (e : List Nat) (fmt : Bool) (c : Ctx) : Turn :=
  if c.rest = [] then .over (c.add (closeTy c.flags e) 0)
  else
    let s := scan e fmt c.rest
    match s.2 with
    | .stop => (c.addText s.1).endLine e
    | .close => .over ((c.addText s.1).add (closeTy c.flags e) e.length)
    | .brace => .code ((c.addText s.1).add (.opening .format) 1)

/-- The flags for code in a format string (`930-941`). -/
def Flags.forCode (f : Flags) : Flags :=
  { f.inherited with noMultiCode := f.noMultiCode || !f.relaxed, inUnicode := true, inFormat := true }

/-- `ParserContextNester.__exit__` (`461-485`) -/
def Ctx.leave (c : Ctx) (flags : Flags) (done : Bool) : Ctx := { c with flags := flags, done := done || c.rest.isEmpty }

/-- After the code in a format string (`944-957`); `saved` is the context before it. -/
def afterCode (e : List Nat) (saved r : Ctx) : Turn :=
  let c := r.leave saved.flags saved.done
  if r.flags.hitMulti then
    let c := if c.flags.noMultiCode then { c with flags := { c.flags with hitMulti := true }, done := true } else c
    let c := c.add (.closing .format) 0
    .over (c.add (closeTy c.flags e) 0)
  else if r.flags.hitQuote then
    let c := { c with flags := { c.flags with hitQuote := true } }
    let c := c.add (.closing .format) 0
    .over (c.add (closeTy c.flags e) 0)
  else .again c

/-! ### Code -/

/-- The quote at the begin. -/
def quotes (l : List Nat) : Option (List Nat) :=
  if [39, 39, 39].isPrefixOf l then some [39, 39, 39]
  else if [34, 34, 34].isPrefixOf l then some [34, 34, 34]
  else if [39].isPrefixOf l then some [39]
  else if [34].isPrefixOf l then some [34]
  else none

/-- The first prefix of the list after which a quote follows. -/
def starterOf (l : List Nat) : List (List Nat) → Option (List Nat × List Nat)
  | [] => none
  | p :: ps =>
    if p.isPrefixOf l then
      match quotes (l.drop p.length) with
      | some q => some (p, q)
      | none => starterOf l ps
    else starterOf l ps

/-- `STRING_STARTER_RP`: the prefix and the quote of a string. -/
def starter (l : List Nat) : Option (List Nat × List Nat) :=
  starterOf l [[114, 102], [114, 98], [114], [102, 114], [102], [98, 114], [98], []]

/-- The flags for the content of a string (`573-612`). -/
def Flags.forString (f : Flags) (p q : List Nat) : Flags :=
  { f.inherited with
    noSingle := f.noSingle || (!f.relaxed && q.head? = some 39),
    noDouble := f.noDouble || (!f.relaxed && q.head? ≠ some 39),
    noMultiString := q.length = 1,
    inBinary := 98 ∈ p,
    inUnicode := 98 ∉ p,
    inFormat := 98 ∉ p ∧ 102 ∈ p }

/-- What one turn of `_keep_python_parsing` does: it goes on, enters a string or a format code, or nothing matches. -/
inductive Next where
  | go (c : Ctx)
  | string (c : Ctx) (p q : List Nat)
  | formatCode (c : Ctx)
  | stuck
deriving DecidableEq, Repr

/-- Whether the ends of a format code are looked for. -/
def Ctx.atFormat (c : Ctx) : Bool :=
  c.flags.inFormat && (match c.inner with
    | none => true
    | some i => match c.layers[i]? with
      | none => true
      | some l => ((c.tokens[l.first]?).map Token.ty) = some (.opening .format))

/-- Whether a quote is the one of a string around (`567-580`). -/
def Flags.refuses (f : Flags) (q : List Nat) : Bool :=
  !f.relaxed && (if q.head? = some 39 then f.noSingle else f.noDouble)

/-- `_try_match_string` (`548-620`), up to the consumer. -/
def Ctx.openString (c : Ctx) (p q : List Nat) : Next :=
  if c.flags.refuses q then
    .go { c with flags := { c.flags with hitQuote := true }, done := true }
  else
    let d := if p = [] then c else c.add (.other 3) p.length
    .string (d.add (.opening (if 98 ∈ p then .bytesQuote else .textQuote)) q.length) p q

/-- Adding tokens one after the other. -/
def Ctx.addSpaces (c : Ctx) : List Nat → Ctx
  | [] => c
  | n :: l => (c.add (.other 1) n).addSpaces l

/-- The parsers after those for format strings, comments and strings. -/
def Ctx.nextWord (L : Lexer) (c : Ctx) : Next :=
  match L.word c.tokens c.rest with
  | some w => .go (c.add w.1 w.2)
  | none =>
    if c.rest.head? = some 10 then
      .go (if c.flags.noMultiCode then { c with flags := { c.flags with hitMulti := true }, done := true }
           else c.add .lineBreak 1)
    else if c.rest = [] then .stuck
    else .go (c.add (.other 0) 1)

/-- The parsers after those for format strings. -/
def Ctx.nextCode (L : Lexer) (c : Ctx) : Next :=
  if c.rest.head? = some 35 then .go (c.add (.other 2) (c.rest.takeWhile (· ≠ 10)).length)
  else
    match starter c.rest with
    | some s => c.openString s.1 s.2
    | none => c.nextWord L

/-- `PYTHON_PARSERS`, in order (`967-986`). -/
def Ctx.next (L : Lexer) (c : Ctx) : Next :=
  match L.space c.col c.rest with
  | some ls => .go (c.addSpaces ls)
  | none =>
    if c.atFormat ∧ c.rest.head? = some 125 then
      .go { c.add (.closing .format) 1 with done := true }
    else if c.atFormat ∧ c.rest.head? = some 58 then .formatCode (c.add (.other 7) 1)
    else if c.atFormat ∧ c.rest.head? = some 33 ∧ c.rest[1]? ∈ [some 115, some 114, some 97, some 83, some 82, some 65] ∧
        c.rest[2]? = some 125 then
      .go { (c.add (.other 8) 2).add (.closing .format) 1 with done := true }
    else c.nextCode L

/-- The flags for a format code (`535-540`). -/
def Flags.forFormatCode (f : Flags) : Flags :=
  { f.inherited with inUnicode := true, inFormat := true, inFormatCode := true }

/-- After a format code (`541-545`). -/
def afterFormatCode (saved r : Ctx) : Ctx :=
  { r.leave (if r.flags.hitMulti then { saved.flags with hitMulti := true } else saved.flags) saved.done with done := true }

/-- What is parsed: code, or a string until its end. -/
inductive Mode where
  | code
  | text (e : List Nat) (fmt : Bool)
deriving DecidableEq, Repr

/-- `_keep_python_parsing` (`989-1001`), `_consume_string_until` and `_consume_format_string_until`. `none` if the fuel did
not suffice. -/
def parse (L : Lexer) : Nat → Mode → Ctx → Option Ctx
  | 0, _, _ => none
  | n + 1, .code, c =>
    if c.done then some c
    else match c.next L with
      | .go d => parse L n .code d
      | .string d p q =>
        (parse L n (.text q (98 ∉ p ∧ 102 ∈ p)) { d with flags := d.flags.forString p q }).bind
          fun r => parse L n .code (r.leave d.flags d.done)
      | .formatCode d =>
        (parse L n (.text [125] true) { d with flags := d.flags.forFormatCode }).bind
          fun r => parse L n .code (afterFormatCode d r)
      | .stuck => parse L n .code c
  | n + 1, .text e fmt, c =>
    match c.turn e fmt with
    | .over d => some d
    | .again d => parse L n (.text e fmt) d
    | .code d =>
      (parse L n .code { d with flags := d.flags.forCode }).bind fun r =>
        match afterCode e d r with
        | .over d => some d
        | .again d => parse L n (.text e fmt) d
        | .code _ => none
end Verif.Highlight
