/-!
# The interactive console

Modelled code: `scarletio/tools/asynchronous_interactive_console/console.py` (`run_code_callback`, `run_code`,
`get_file_name`, `_create_file_name`, `increment_input_counter`, `interact`) and `EditorSimple.__call__`
(`editors/editor_simple.py`).
-/

namespace Verif.Console

/-! ## Running of code -/

/-- What raised. -/
inductive Exc
  | systemExit
  | interrupt
  | other
  deriving DecidableEq

/-- What code does when its function is called: raises, gives a value, or gives an awaitable whose task ends by itself. -/
inductive Code
  | raises (e : Exc)
  | value (v : Nat)
  | awaits (id : Nat) (end_ : Except Exc Nat)

/-- When a keyboard interrupt comes: not, before the callback ran, or while the task is awaited. -/
inductive Interrupt
  | never
  | before
  | waiting

/-- The state of the console: its task, and callbacks which wait for the event loop although their future was cancelled. -/
structure St where
  task : Option (Nat × Except Exc Nat) := none
  left : List Code := []
  written : List Exc := []
  cancelled : List Nat := []

/-- What `run_code` does: returns a value, `None`, or raises `SystemExit`. -/
inductive Out
  | value (v : Nat)
  | none_
  | exit
  deriving DecidableEq

/-- What `run_code_callback` (59–89) does to the task; nothing else is seen if its future is cancelled. -/
def callback (task : Option (Nat × Except Exc Nat)) : Code → Option (Nat × Except Exc Nat)
  | .raises _ => task
  | .value _ => task
  | .awaits id e => some (id, e)

/-- The `except` of `run_code` (277–300). -/
def caught (s : St) (e : Exc) : St × Out :=
  match e with
  | .systemExit => ({ s with task := none }, .exit)
  | e => ({ s with task := none, written := s.written ++ [e] }, .none_)

/-- `run_code` from where the task is looked at (260–275); `v`: the result of the future. -/
def await (s : St) (i : Interrupt) (v : Option Nat) : St × Out :=
  match s.task with
  | none => ({ s with task := none }, match v with | some v => .value v | none => .none_)
  | some (id, e) =>
    match i with
    | .waiting => caught { s with cancelled := s.cancelled ++ [id] } .interrupt
    | _ =>
      match e with
      | .ok v => ({ s with task := none }, .value v)
      | .error e => caught s e

/-- `run_code` (228–300). The event loop calls callbacks in their order. -/
def runCode (s : St) (c : Code) (i : Interrupt) : St × Out :=
  match i with
  | .before => caught { s with left := s.left ++ [c] } .interrupt
  | i =>
    let s := { s with task := callback (s.left.foldl callback s.task) c, left := [] }
    match c with
    | .raises e => ({ s with task := none, written := s.written ++ [e] }, .none_)
    | .value v => await s i (some v)
    | .awaits _ _ => await s i none

/-- Many inputs. -/
def runAll (s : St) : List (Code × Interrupt) → St
  | [] => s
  | (c, i) :: l => runAll (runCode s c i).1 l

/-! ## File names -/

/-- A file name: `<console[id] in[input]>`, `id` may be missing. -/
structure Name where
  id : Option Nat
  input : Nat
  deriving DecidableEq

/-- A console. -/
structure Con where
  input : Nat := 0
  cached : Option Name := none

/-- All consoles; the one with index `c` has the identifier `c + 1`. `log`: the names given, with console and input. -/
structure World where
  counter : Nat := 0
  consoles : Nat → Con := fun _ => {}
  log : List (Nat × Nat × Name) := []

/-- What happens. -/
inductive Op
  | new
  | name (c : Nat)
  | next (c : Nat)

/-- Setting of a console. -/
def World.set (w : World) (c : Nat) (x : Con) : World :=
  { w with consoles := fun k => if k = c then x else w.consoles k }

/-- `_create_file_name` (347–366). -/
def create (w : World) (c : Nat) : Name :=
  ⟨if w.counter > c + 1 then some (c + 1) else none, (w.consoles c).input⟩

/-- `__new__` (205–214), `get_file_name` (331–344), `increment_input_counter` (369–374). -/
def World.step (w : World) : Op → World
  | .new => { w with counter := w.counter + 1 }
  | .name c =>
    match (w.consoles c).cached with
    | some n => { w with log := w.log ++ [(c, (w.consoles c).input, n)] }
    | none =>
      let n := create w c
      let w' := w.set c { w.consoles c with cached := some n }
      { w' with log := w.log ++ [(c, (w.consoles c).input, n)] }
  | .next c => w.set c ⟨(w.consoles c).input + 1, none⟩

/-- Many. -/
def World.run (w : World) (ops : List Op) : World := ops.foldl World.step w

/-! ## Interacting -/

/-- What happens in a round of `interact`; `b`: the stripped lines of the editor. -/
inductive Round
  | unmade
  | nothing (b : List Nat)
  | code (b : List Nat) (exits : Bool)
  | syntax_ (b : List Nat)
  | interrupt (b : List Nat)
  | exit (b : List Nat)
  | other (b : List Nat)

/-- What is written. -/
inductive Text
  | banner
  | syntaxError
  | interrupted
  | again
  | exitMessage
  deriving DecidableEq

/-- How it ends. -/
inductive End
  | systemExit
  | exception
  deriving DecidableEq

/-- The state of `interact`. -/
structure Inter where
  input : Nat := 0
  history : List (Nat × List Nat) := []
  written : List Text := [.banner]
  ended : Option End := none

/-- `maybe_add_buffer_of` and `increment_input_counter`. -/
def Inter.next (s : Inter) (b : List Nat) : Inter :=
  { s with history := if b.isEmpty then s.history else s.history ++ [(s.input, b)], input := s.input + 1 }

/-- `write`. -/
def Inter.write (s : Inter) (t : Text) : Inter := { s with written := s.written ++ [t] }

/-- A round of `interact` (446–488); `stop`: `stop_on_interruption`. The loop has no `break`, so what is after it (491–495)
is never reached. -/
def Inter.round (stop : Bool) (s : Inter) (r : Round) : Inter :=
  if s.ended.isSome then s
  else
    match r with
    | .unmade =>
      let s := s.next []
      if stop then { s with ended := some .systemExit } else s.write .interrupted
    | .nothing b => s.next b
    | .code b false => s.next b
    | .code _ true => { s with ended := some .systemExit }
    | .syntax_ b => (s.next b).write .syntaxError
    | .interrupt b =>
      let s := s.next b
      if stop then if b.isEmpty then { s with ended := some .systemExit } else s.write .again
      else s.write .interrupted
    | .exit _ => { s with ended := some .systemExit }
    | .other _ => { s with ended := some .exception }

/-- `interact` (438–495). -/
def interact (stop : Bool) (rs : List Round) : Inter := rs.foldl (Inter.round stop) {}

/-! ## The simple editor -/

/-- What `input` does. -/
inductive In
  | line (l : List Char)
  | eof

/-- What `maybe_compile` does. -/
inductive Comp
  | code (c : Nat)
  | more
  | error
  deriving DecidableEq

/-- How the editor ends; `waits`: it waits for more. -/
inductive Done
  | code (c : Nat)
  | error
  | exit
  | waits
  deriving DecidableEq

/-- `str.rstrip`. -/
def rstrip (l : List Char) : List Char := (l.reverse.dropWhile Char.isWhitespace).reverse

/-- `EditorSimple.__call__` (49–83): how it ends and the buffer. -/
def edit (compile : List (List Char) → Comp) : List (List Char) → List In → Done × List (List Char)
  | buffer, [] => (.waits, buffer)
  | buffer, .eof :: _ => (.exit, buffer)
  | buffer, .line l :: ins =>
    let l := if buffer.isEmpty then rstrip l else l
    if buffer.isEmpty && l.isEmpty then edit compile buffer ins
    else
      let buffer := buffer ++ [l]
      match compile buffer with
      | .code c => (.code c, buffer)
      | .error => (.error, buffer)
      | .more => edit compile buffer ins

end Verif.Console
