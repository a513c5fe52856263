/-! Model of `Lock` and `ScarletLock` (`core/traps/locks.py`); `Lock` is the case `size = 1`.

Every call of `acquire` / `async with` gets a fresh number; this number also names the future the call puts into `_waiters`.
Of `Task` and `Future` the model keeps what matters here: a call that awaits a future is resumed, in the order in which the
awaited futures completed, by the loop's ready queue; cancelling it cancels the awaited future if that is pending, otherwise
`CancelledError` is thrown in at its next step (task.py 116-130, `Verif.Task.Model`). Tasks doing `await lock` (105-116) are
not modelled themselves, but their only effect on the lock is: when such a task is cancelled, the future it awaits (one of
`_waiters`) is cancelled. -/
namespace Verif.Lock

/-- A future in `_waiters`. -/
structure Fut where
  id : Nat
  cancelled : Bool := false
deriving DecidableEq, Repr

/-- A suspended `acquire` call. -/
structure Waiter where
  id : Nat
  /-- the future it awaits -/
  awaits : Nat
deriving DecidableEq, Repr

structure State where
  size : Nat
  next : Nat := 0
  /-- `_waiters`, oldest (rightmost) first -/
  q : List Fut := []
  /-- calls awaiting a pending future, in the order in which they began to wait -/
  waiting : List Waiter := []
  /-- calls whose awaited future is done, in the order of the loop's ready queue; `true` if it will go on, `false` if it will
  meet a `CancelledError` -/
  ready : List (Waiter × Bool) := []
  /-- calls which returned and were not released yet -/
  holders : List Nat := []
  /-- calls which had to wait and then returned, in order -/
  served : List Nat := []
deriving DecidableEq, Repr

inductive Op where
  /-- a task calls `acquire` -/
  | acquire
  /-- the holder with the given number releases -/
  | release (holder : Nat)
  /-- the task of a suspended `acquire` call is cancelled -/
  | cancel (id : Nat)
  /-- a task doing `await lock` is cancelled while it awaits the given future -/
  | disturb (fut : Nat)
  /-- the loop runs the next resumed call -/
  | run
deriving DecidableEq, Repr

inductive Out where
  | acquired (id : Nat)
  | suspended (id : Nat)
  | cancelledError (id : Nat)
  | indexError
  | notHolder
  | unit
deriving DecidableEq, Repr

/-- The calls awaiting the future are put on the ready queue, the last registered first (event_loop.py 469-490). -/
def State.wake (s : State) (fut : Nat) (ok : Bool) : State :=
  { s with
    waiting := s.waiting.filter (·.awaits ≠ fut)
    ready := s.ready ++ ((s.waiting.filter (·.awaits = fut)).reverse.map (·, ok)) }

/-- `waiters.remove(waiter)`, a missing one is ignored (72-75, 217-220). -/
def removeFut (q : List Fut) (fut : Nat) : List Fut := q.eraseP (·.id = fut)

/-- `__aenter__` until it returns, raises or suspends (57-77, 201-222). -/
def State.acquire (s : State) : State × Out :=
  let id := s.next
  let q := s.q ++ [{ id := id }]
  let s := { s with next := id + 1, q := q }
  if q.length > s.size then
    -- `waiters[size]`, counted from the newest
    match q[q.length - 1 - s.size]? with
    | none => (s, .indexError)
    | some f =>
      if f.cancelled then ({ s with q := removeFut q f.id }, .cancelledError id)
      else ({ s with waiting := s.waiting ++ [{ id := id, awaits := f.id }] }, .suspended id)
  else ({ s with holders := s.holders ++ [id] }, .acquired id)

/-- `release` / `__aexit__` (80-88, 120-123). Only holders release. -/
def State.release (s : State) (holder : Nat) : State × Out :=
  if holder ∈ s.holders then
    match s.q with
    | [] => (s, .indexError)
    | f :: q =>
      let s := { s with q := q, holders := s.holders.erase holder }
      -- `set_result_if_pending`
      if f.cancelled then (s, .unit) else (s.wake f.id true, .unit)
  else (s, .notHolder)

/-- The future, if it is pending and in `_waiters`, is cancelled. -/
def State.cancelFut (s : State) (fut : Nat) : State :=
  if ({ id := fut, cancelled := false } : Fut) ∈ s.q then
    let q := s.q.map fun f => if f.id = fut then { id := f.id, cancelled := true } else f
    ({ s with q := q } : State).wake fut false
  else s

/-- `Task.cancel` of the task of a suspended call. -/
def State.cancel (s : State) (id : Nat) : State :=
  match s.waiting.find? (·.id = id) with
  | some w => s.cancelFut w.awaits
  | none => { s with ready := s.ready.map fun p => if p.1.id = id then (p.1, false) else p }

/-- A resumed call goes on (69-77, 214-222). -/
def State.run (s : State) : State × Out :=
  match s.ready with
  | [] => (s, .unit)
  | (w, true) :: ready =>
    ({ s with ready := ready, holders := s.holders ++ [w.id], served := s.served ++ [w.id] }, .acquired w.id)
  | (w, false) :: ready => ({ s with ready := ready, q := removeFut s.q w.awaits }, .cancelledError w.id)

def State.step (s : State) : Op → State × Out
  | .acquire => s.acquire
  | .release h => s.release h
  | .cancel id => (s.cancel id, .unit)
  | .disturb f => (s.cancelFut f, .unit)
  | .run => s.run

/-- `Lock.is_locked` (91-102) and `ScarletLock.is_locked` (271-282). -/
def State.isLocked (s : State) : Bool := decide (s.q.length ≥ s.size)
/-- `ScarletLock.get_acquired` (237-250). -/
def State.getAcquired (s : State) : Nat := if s.q.length > s.size then s.size else s.q.length
/-- `ScarletLock.get_waiting` (253-268). -/
def State.getWaiting (s : State) : Nat := if s.q.length > s.size then s.q.length - s.size else 0

def State.runAll (s : State) (ops : List Op) : State := ops.foldl (fun s op => (s.step op).1) s

end Verif.Lock
