/-!
# Compiling what was typed into the console

Modelled code: `scarletio/tools/asynchronous_interactive_console/editors/compilation.py` (`maybe_compile`,
`_try_compile`, `is_source_empty`) and of `scarletio/utils/trace/exception_representation/syntax_error_helpers.py`
what is used by it.

What Python's `compile` gives in the two modes is a parameter. Characters are code points.
-/

namespace Verif.Compiling

abbrev Text := List Nat

/-- The details of a syntax error; the file name is left out. -/
structure Details where
  line : Nat
  offset : Nat
  text : Option Text
  last : Option (Nat × Nat)
  deriving DecidableEq

/-- `exception.args`. -/
inductive Args
  /-- As expected by `is_syntax_error` (syntax_error_helpers.py 70–99). -/
  | full (message : Nat) (details : Details)
  /-- A message alone. -/
  | message (message : Nat)
  /-- Anything else. -/
  | odd (n : Nat)
  deriving DecidableEq

/-- A `SyntaxError`. -/
structure Err where
  args : Args
  /-- Its slots, and whether `_are_details_valid` (27–67) on them. -/
  slots : Details
  valid : Bool
  /-- Whether `'multiple statements'` and `'incomplete input'` are in its representation. -/
  multiple : Bool
  incomplete : Bool

/-- What `compile` does. -/
inductive Compiled
  | code (n : Nat)
  | indentation (e : Err)
  | wrong (e : Err)
  /-- `MemoryError`, `ValueError` or `OverflowError`; `e`: the `SyntaxError` of their parameters. -/
  | other (e : Err)

/-- What `_try_compile` does. -/
inductive Tried
  | code (n : Nat)
  | nothing
  | indentation (e : Err)
  | wrong (e : Err)

/-- `_try_compile` (125–177); `IndentationError` is a `SyntaxError` too. -/
def tryCompile (single : Bool) : Compiled → Tried
  | .code n => .code n
  | .indentation e =>
    if single ∧ e.multiple then .nothing else if e.incomplete then .nothing else .indentation e
  | .wrong e =>
    if single ∧ e.multiple then .nothing else if e.incomplete then .nothing else .wrong e
  | .other e => .wrong e

/-- `str.rstrip`; white space is a parameter. -/
def rstrip (space : Nat → Bool) (l : Text) : Text := (l.reverse.dropWhile space).reverse

/-- `is_syntax_error_details_omitted` and `fixup_syntax_error_details_omitted` (124–161). -/
def fixup (e : Err) : Args :=
  match e.args with
  | .message m => if e.valid then .full m e.slots else e.args
  | _ => e.args

/-- `right_strip_syntax_error_line` (189–207). -/
def stripLine (space : Nat → Bool) : Args → Args
  | .full m d => .full m { d with text := d.text.map (rstrip space) }
  | a => a

/-- What `maybe_compile` does: gives code, gives `None`, raises. -/
inductive Result
  | code (n : Nat)
  | nothing
  | raised (args : Args)
  deriving DecidableEq

/-- The end of `maybe_compile` (89–119); the errors of the two modes. -/
def decide2 (space : Nat → Bool) (e0 e1 : Option Err) : Result :=
  match e0, e1 with
  | none, none => .nothing
  | none, some e1 => .raised (fixup e1)
  | some _, none => .nothing
  | some e0, some e1 =>
    let a0 := stripLine space (fixup e0)
    let a1 := stripLine space (fixup e1)
    if a0 = a1 then .raised a0 else .nothing

/-- The second attempt (73–87). -/
def second (space : Nat → Bool) (e0 : Option Err) (exec : Compiled) : Result :=
  match tryCompile false exec with
  | .indentation e => .raised e.args
  | .wrong e => decide2 space e0 (some e)
  | .code n => .code n
  | .nothing => decide2 space e0 none

/-- The characters of `is_source_empty` (180–202) in one line; whether anything else was found. -/
def lineFilled : Text → Bool
  | [] => false
  | c :: l =>
    if c = 13 ∨ c = 10 ∨ c = 32 ∨ c = 9 then lineFilled l
    else if c = 35 then false
    else true

/-- `is_source_empty`. -/
def isEmpty : List Text → Bool
  | [] => true
  | l :: ls => if lineFilled l then false else isEmpty ls

/-- `'\n'.join`. -/
def joinLines : List Text → Text
  | [] => []
  | [l] => l
  | l :: m :: ls => l ++ 10 :: joinLines (m :: ls)

/-- The source (53). -/
def source (space : Nat → Bool) (buffer : List Text) : Text := joinLines (buffer.map (rstrip space))

/-- `maybe_compile` (33–122); `compile single source`: what Python does. -/
def maybeCompile (space : Nat → Bool) (compile : Bool → Text → Compiled) (buffer : List Text) : Result :=
  if isEmpty buffer then .nothing
  else
    match tryCompile true (compile true (source space buffer)) with
    | .indentation e => .raised e.args
    | .wrong e => second space (some e) (compile false (source space buffer))
    | .code n => .code n
    | .nothing => second space none (compile false (source space buffer))

end Verif.Compiling
