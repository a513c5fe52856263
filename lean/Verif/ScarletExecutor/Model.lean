/-! Model of `ScarletExecutor` (`core/traps/async_executing.py`), for one `async with` block entered by one task, the adder.

Tasks are numbers. A task completes at any time; its `_scarlet_executor_callback` runs at any later time, in any order relative
to other callbacks and to the adder (the loop is more deterministic than that). `ensure_future` is the identity and every `add` gets a
task not added before. -/
namespace Verif.ScarletExecutor

inductive Outcome where
  | result | raised | cancelled
deriving DecidableEq, Repr

/-- `_waiter`, as a future: `None` after the block. -/
inductive Waiter where
  | none | pending | result | cancelled
deriving DecidableEq, Repr

/-- Where the adder is. -/
inductive Adder where
  /-- in the block, not awaiting the executor -/
  | body
  /-- in `add`, at `await waiter` (332) -/
  | add
  /-- in `__aexit__`, at `await waiter` (360) -/
  | exit
  /-- out of the block -/
  | out
deriving DecidableEq, Repr

/-- How the body was left: normally, with `CancelledError`, with another exception. -/
inductive Body where
  | normal | cancelled | other
deriving DecidableEq, Repr

structure State where
  limit : Nat
  added : List Nat := []
  outcome : Nat → Option Outcome := fun _ => none
  /-- tasks whose callback was not run yet, as `_callback` is added to each -/
  uncalled : List Nat := []
  /-- `_active` -/
  active : List Nat := []
  /-- `_exception`: the task it comes from -/
  exception : Option Nat := none
  waiter : Waiter := .pending
  adder : Adder := .body

inductive Op where
  | add (x : Nat)
  | complete (x : Nat) (o : Outcome)
  /-- the loop runs the callback of a completed task -/
  | callback (x : Nat)
  /-- the adder's `await waiter` ends -/
  | resume
  /-- the adder is cancelled while awaiting, which cancels the waiter -/
  | cancelAdder
  /-- the body is left -/
  | exit (b : Body)
deriving DecidableEq, Repr

inductive Out where
  | none
  /-- `add` waits / `__aexit__` waits -/
  | waits
  /-- `add` returns -/
  | returned
  /-- `add` raises `CancelledError` -/
  | addRaised
  /-- the block is left, no exception is raised -/
  | leftNormally
  /-- the block is left with an exception -/
  | leftRaising
deriving DecidableEq, Repr

/-- `_scarlet_executor_callback` (20-57). After the block `_waiter` is `None`; a late exception stays in `_exception`. -/
def State.callback (s : State) (x : Nat) : State :=
  { s with
    uncalled := s.uncalled.erase x
    active := s.active.filter (· ≠ x)
    exception := if s.outcome x = some .raised ∧ s.exception = none then some x else s.exception
    waiter := if s.waiter = .pending then .result else s.waiter }

/-- The end of the block: `_callback`, `_waiter`, `_loop`, `_exception` are reset, `_active` is cleared. -/
def State.leave (s : State) (o : Out) : State × Out :=
  ({ s with active := [], exception := none, waiter := .none, adder := .out }, o)

/-- The loop of `__aexit__` (352-381), from its condition on. -/
def State.exitLoop (s : State) : State × Out :=
  if s.active = [] then s.leave .leftNormally
  else ({ s with adder := .exit }, .waits)

/-- `add` (297-339), from 315 on. -/
def State.add (s : State) (x : Nat) : State × Out :=
  let s := { s with added := s.added ++ [x], uncalled := s.uncalled ++ [x], active := s.active ++ [x] }
  if s.waiter = .pending ∨ s.exception = none then
    -- a done waiter is replaced
    let s := { s with waiter := .pending }
    if s.active.length ≥ s.limit then ({ s with adder := .add }, .waits) else (s, .returned)
  else (s, .addRaised)

def State.step (s : State) : Op → State × Out
  | .add x => if s.adder = .body ∧ x ∉ s.added then s.add x else (s, .none)
  | .complete x o =>
    if s.outcome x = none then ({ s with outcome := fun y => if y = x then some o else s.outcome y }, .none) else (s, .none)
  | .callback x => if s.outcome x ≠ none ∧ x ∈ s.uncalled then (s.callback x, .none) else (s, .none)
  | .resume =>
    if s.waiter = .result ∨ s.waiter = .cancelled then
      match s.adder with
      | .add =>
        -- `CancelledError` out of `await waiter`; 333; 336-339
        if s.waiter = .cancelled ∨ s.exception ≠ none then ({ s with adder := .body }, .addRaised)
        else ({ s with waiter := .pending, adder := .body }, .returned)
      | .exit =>
        if s.waiter = .cancelled then ({ s with adder := .out }, .leftRaising)
        else if s.exception = none then { s with waiter := .pending }.exitLoop
        else s.leave .leftRaising
      | _ => (s, .none)
    else (s, .none)
  | .cancelAdder =>
    if s.waiter = .pending ∧ (s.adder = .add ∨ s.adder = .exit) then ({ s with waiter := .cancelled }, .none) else (s, .none)
  | .exit b =>
    if s.adder = .body then
      match b with
      | .normal => s.exitLoop
      -- 390-404
      | .cancelled => if s.exception = none then s.leave .leftNormally else s.leave .leftRaising
      | .other => s.leave .leftRaising
    else (s, .none)

def State.init (limit : Nat) : State := { limit := limit }

def State.runAll (s : State) (ops : List Op) : State := ops.foldl (fun s op => (s.step op).1) s

def trace (s : State) : List Op → List (Op × Out)
  | [] => []
  | op :: ops => (op, (s.step op).2) :: trace (s.step op).1 ops

end Verif.ScarletExecutor
