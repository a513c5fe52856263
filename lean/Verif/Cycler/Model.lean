/-! Model of `Cycler` (`core/event_loop/cycler.py`).

Timers of the event loop are numbers; `armed` holds those that were created and neither fired nor were cancelled. A cycle function is a
number with a priority; what it does is modelled by the operations between two `next`s. Operations from other threads are the same
operations, run by the loop. The event loop runs all the time, so `call_after` returns a handle. Exceptions raised by cycle functions are
caught by `_run`; async functions become tasks; neither changes the cycler. -/
namespace Verif.Cycler

/-- What `handle` refers to. -/
inductive Handle where
  | none
  /-- a timer handle -/
  | timer (t : Nat)
  /-- the handle of `call_soon_thread_safe_lazy(call_after, ...)`, of a cycler created by another thread (241) -/
  | starter
deriving DecidableEq, Repr

structure State where
  /-- `funcs`: function and priority -/
  funcs : List (Nat × Int) := []
  handle : Handle := .none
  armed : List Nat := []
  next : Nat := 0
  /-- a starter is waiting in the loop -/
  starting : Bool := false
  /-- the running `_run`s, innermost first, each with the index of its next function -/
  runs : List Nat := []
deriving DecidableEq, Repr

inductive Op where
  /-- a timer of the loop fires -/
  | fire (t : Nat)
  /-- the loop runs the starter -/
  | start
  /-- the innermost `_run` goes on: it calls its next function, or re-arms and returns -/
  | next
  | cancel
  | callNow
  | reschedule
  | append (f : Nat) (priority : Int)
  | remove (f : Nat)
deriving DecidableEq, Repr

inductive Out where
  | none
  /-- a function was called -/
  | called (f : Nat)
deriving DecidableEq, Repr

/-- `self.handle = self.loop.call_after(...)`. -/
def State.arm (s : State) : State := { s with handle := .timer s.next, armed := s.armed ++ [s.next], next := s.next + 1 }

/-- `handle.cancel()` of the current handle. -/
def State.cancelHandle (s : State) : State :=
  match s.handle with
  | .none => s
  | .timer t => { s with armed := s.armed.erase t }
  | .starter => { s with starting := false }

/-- Insertion behind the elements of lower or equal priority. -/
def insert (a : Nat × Int) : List (Nat × Int) → List (Nat × Int)
  | [] => [a]
  | b :: l => if a.2 < b.2 then a :: b :: l else b :: insert a l

/-- `list.sort` by `CyclerCallable.__lt__` (141-143): the stable sort by priority, written as insertion sort. -/
def sort (l : List (Nat × Int)) : List (Nat × Int) := l.foldl (fun acc a => insert a acc) []

def State.step (s : State) : Op → State × Out
  -- the loop does not fire timers while a callback runs
  | .fire t => if s.runs = [] ∧ t ∈ s.armed then ({ s with armed := s.armed.erase t, runs := [0] }, .none) else (s, .none)
  -- the returned timer handle is dropped
  | .start =>
    if s.runs = [] ∧ s.starting then ({ s with starting := false, armed := s.armed ++ [s.next], next := s.next + 1 }, .none)
    else (s, .none)
  -- `_run` 249-269
  | .next =>
    match s.runs with
    | [] => (s, .none)
    | i :: runs =>
      match s.funcs[i]? with
      | some f => ({ s with runs := (i + 1) :: runs }, .called f.1)
      | none => ({ s with runs := runs }.arm, .none)
  -- `_cancel` 319-328
  | .cancel => if s.handle = .none then (s, .none) else ({ s.cancelHandle with handle := .none }, .none)
  -- `_call_now` 346-356
  | .callNow => ({ s.cancelHandle with runs := 0 :: s.runs }, .none)
  -- `_reschedule` 374-384
  | .reschedule => (s.cancelHandle.arm, .none)
  -- `_append` 466-479
  | .append f p => ({ s with funcs := sort (s.funcs ++ [(f, p)]) }, .none)
  -- `_remove` 503-530
  | .remove f => ({ s with funcs := s.funcs.eraseP (·.1 = f) }, .none)

/-- A cycler created by the loop's thread (233-246). -/
def State.init (funcs : List (Nat × Int)) : State := ({ funcs := sort funcs } : State).arm

/-- A cycler created by another thread. -/
def State.initThread (funcs : List (Nat × Int)) : State := { funcs := sort funcs, handle := .starter, starting := true }

def State.runAll (s : State) (ops : List Op) : State := ops.foldl (fun s op => (s.step op).1) s

def outs (s : State) : List Op → List Out
  | [] => []
  | op :: ops => (s.step op).2 :: outs (s.step op).1 ops

end Verif.Cycler
