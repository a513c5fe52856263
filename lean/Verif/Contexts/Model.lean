/-!
# Context managers, catching of exceptions, titles and variables of the console

Modelled code:
`scarletio/http_client/request_context_manager.py` and `web_socket_context_manager.py`,
`scarletio/core/top_level/trace.py` (`ExceptionWriterContextManager._should_capture`, `_get_location_message`,
`_build_additional_title_lines*`),
`scarletio/tools/asynchronous_interactive_console/console_helpers.py` (`collect_module_variables`).
-/

namespace Verif.Contexts

/-! ## Context managers of requests and of web sockets -/

/-- A coroutine: not awaited yet, or ended. -/
inductive Coroutine
  | fresh
  | ended
  deriving DecidableEq

/-- The two attributes of the context manager, and what happened outside. -/
structure Manager where
  coroutine : Option Coroutine := some .fresh
  response : Option Nat := none
  /-- How many times the request was made. -/
  requests : Nat := 0
  /-- Responses released (web sockets closed) in order. -/
  released : List Nat := []
  deriving DecidableEq

/-- What is done with a context manager; `ok`, `fail`: how the request ends if it is made. -/
inductive Op
  | enter (result : Except Nat Nat)
  | exit

/-- What is seen. -/
inductive Out
  | response (r : Option Nat)
  | raised (e : Nat)
  /-- `RuntimeError: cannot reuse already awaited coroutine` -/
  | reused
  | left
  deriving DecidableEq

/-- `__aenter__` (73–98 of request_context_manager.py; 72–97 of the other), `__aexit__` (101–112; 100–109). -/
def step (m : Manager) : Op → Manager × Out
  | .enter result =>
    match m.coroutine with
    | none => (m, .response m.response)
    | some .ended => (m, .reused)
    | some .fresh =>
      match result with
      | .ok r => ({ m with coroutine := none, response := some r, requests := m.requests + 1 }, .response (some r))
      | .error e => ({ m with coroutine := some .ended, requests := m.requests + 1 }, .raised e)
  | .exit =>
    match m.response with
    | none => (m, .left)
    | some r => ({ m with response := none, released := m.released ++ [r] }, .left)

/-- What is seen of many. -/
def steps (m : Manager) : List Op → Manager × List Out
  | [] => (m, [])
  | op :: ops =>
    let (m', o) := step m op
    let (m'', os) := steps m' ops
    (m'', o :: os)

/-! ## Catching -/

/-- What is looked at when an exception is caught; types are sets of exceptions. -/
structure Catcher where
  include_ : Option (Nat → Bool) := none
  exclude : Option (Nat → Bool) := none

/-- `_should_capture` (675–717); `inTask`: whether the thread runs a task. -/
def shouldCapture (generatorExit : Nat → Bool) (c : Catcher) (exception : Option Nat) (asynchronous inTask : Bool) : Bool :=
  match exception with
  | none => false
  | some e =>
    let asynchronous := if !asynchronous then inTask else asynchronous
    if asynchronous && generatorExit e then false
    else
      match c.exclude with
      | some f => if f e then false else
        match c.include_ with
        | some g => g e
        | none => true
      | none =>
        match c.include_ with
        | some g => g e
        | none => true

/-- What the title of a caught exception tells. -/
inductive Location
  | given (n : Nat)
  | task (n : Nat)
  | frame (n : Nat)
  | nowhere
  deriving DecidableEq

/-- A frame: its file and its name. -/
structure Frame where
  file : Nat
  name : Nat

/-- `_create_location_message_from_tracing` (778–799): the first frame of another file. -/
def trace (own : Nat) : List Frame → Option Nat
  | [] => none
  | f :: fs => if f.file ≠ own then some f.name else trace own fs

/-- `_get_location_message` (720–776). -/
def location (given task : Option Nat) (own : Nat) (frames : List Frame) : Location :=
  match given with
  | some n => .given n
  | none =>
    match task with
    | some n => .task n
    | none =>
      match trace own frames with
      | some n => .frame n
      | none => .nowhere

/-! ## Titles -/

/-- `str.splitlines`; `brk`: which characters other than CR and LF end a line. -/
def splitlines (brk : Nat → Bool) : List Nat → List Nat → List (List Nat)
  | line, [] => if line = [] then [] else [line.reverse]
  | line, 13 :: 10 :: cs => line.reverse :: splitlines brk [] cs
  | line, c :: cs =>
    if c = 13 ∨ c = 10 ∨ brk c then line.reverse :: splitlines brk [] cs else splitlines brk (c :: line) cs

/-- The loop which deletes empty lines at the end (158–165), on the lines from the last one. -/
def dropEmpty : List (List Nat) → List (List Nat)
  | [] => []
  | l :: ls => if l ≠ [] then l :: ls else dropEmpty ls

/-- `_build_additional_title_lines_str` (139–167). -/
def titleLines (brk : Nat → Bool) (title : List Nat) : Option (List (List Nat)) :=
  if title = [] then none
  else
    match dropEmpty (splitlines brk [] title).reverse with
    | [] => none
    | ls => some ls.reverse

/-- `_build_additional_title_lines_list` (170–197), the elements as texts. -/
def titleLinesList (brk : Nat → Bool) (parts : List (List Nat)) : Option (List (List Nat)) :=
  match parts.filter fun p => p ≠ [] with
  | [] => none
  | ps => titleLines brk ps.flatten

/-! ## Variables of the console -/

/-- A module: the value of `__package__` (`none`: `None`), its `__all__` if any and its variables. -/
structure Module where
  package : Option String
  all : Option (List String)
  variables : String → Option Nat

/-- A dictionary. -/
abbrev Dict := String → Option Nat

/-- Setting of an item. -/
def Dict.set (d : Dict) (k : String) (v : Nat) : Dict := fun x => if x = k then some v else d x

/-- Copying of those variables which are there (`getattr` with `AttributeError` passed over). -/
def copy (m : Module) : List String → Dict → Dict
  | [], d => d
  | k :: ks, d =>
    match m.variables k with
    | none => copy m ks d
    | some v => copy m ks (d.set k v)

/-- Copying of `__all__`; `none`: `AttributeError`. -/
def copyAll (m : Module) : List String → Dict → Option Dict
  | [], d => some d
  | k :: ks, d =>
    match m.variables k with
    | none => none
    | some v => copyAll m ks (d.set k v)

/-- The names which are always copied. -/
def specials : List String := ["__name__", "__package__", "__loader__", "__spec__", "__builtins__", "__file__"]

/-- `collect_module_variables` (143–183); `self`: the module as a value. -/
def collect (m : Module) (self : Nat) : Option Dict :=
  let d : Dict := fun _ => none
  let d := match m.package with
    | some p => d.set p self
    | none => d
  let d := copy m specials d
  match m.package with
  | none => some fun k => match m.variables k with
    | some v => some v
    | none => d k
  | some _ => copyAll m (m.all.getD []) d

end Verif.Contexts
