/-! Model of `SyncQueue` and `SyncWait` (`core/event_loop/executor.py`).

Every method holds `_lock` from its first to its last access of the queue, so the methods are atomic steps of the threads; blocking in
`SyncWait.wait` happens outside the lock. A woken thread only returns the result, so it is modelled to return at once when the result is
set. Elements are numbers; `repr` of an element is some function of it. Only queues without `max_length` are modelled; `clear`, `copy`,
`reverse`, `extend` and the other deque operations are not. -/
namespace Verif.SyncQueue

structure State where
  /-- `_results` -/
  results : List Nat := []
  /-- threads blocked on `_waiter`; `_waiter is None` is `[]` -/
  waiting : List Nat := []
  /-- `_cancelled` -/
  cancelled : Bool := false
deriving DecidableEq, Repr

inductive Op where
  | put (x : Nat)
  /-- a thread that is not blocked calls `get_result` -/
  | get (thread : Nat)
  | getNoWait (thread : Nat)
  | cancel
  | repr
deriving DecidableEq, Repr

inductive Exc where
  | cancelled
  | index
  | attribute
deriving DecidableEq, Repr

structure Out where
  /-- what threads obtain in this step -/
  got : List (Nat × Nat) := []
  exc : Option Exc := none
deriving DecidableEq, Repr

variable (repr : Nat → Nat)

def State.step (s : State) : Op → State × Out
  -- 116-133; `SyncWait.set_result` wakes every thread that waits on it
  | .put x =>
    if s.waiting = [] then ({ s with results := s.results ++ [x] }, {})
    else ({ s with waiting := [] }, { got := s.waiting.map fun t => (t, x) })
  -- 152-176
  | .get t =>
    if t ∈ s.waiting then (s, {}) else
    match s.results with
    | x :: results => ({ s with results }, { got := [(t, x)] })
    | [] =>
      if s.waiting = [] ∧ s.cancelled then (s, { exc := some .cancelled })
      else ({ s with waiting := s.waiting ++ [t] }, {})
  -- 184-209
  | .getNoWait t =>
    if t ∈ s.waiting then (s, {}) else
    match s.results with
    | x :: results => ({ s with results }, { got := [(t, x)] })
    | [] => if s.cancelled then (s, { exc := some .cancelled }) else (s, { exc := some .index })
  -- 136-149; `SyncWait` has no `cancel`, so `waiter.cancel()` raises before `_waiter` is reset
  | .cancel =>
    if s.cancelled then (s, {})
    else if s.waiting = [] then ({ s with cancelled := true }, {})
    else ({ s with cancelled := true }, { exc := some .attribute })
  -- `__repr__` 216-250 appends the representations to the queue itself (236)
  | .repr => ({ s with results := s.results ++ s.results.map repr }, {})

def State.runAll (s : State) (ops : List Op) : State := ops.foldl (fun s op => (s.step repr op).1) s

def trace (s : State) : List Op → List (Op × Out)
  | [] => []
  | op :: ops => (op, (s.step repr op).2) :: trace (s.step repr op).1 ops

end Verif.SyncQueue
