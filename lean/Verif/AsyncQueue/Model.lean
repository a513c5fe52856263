/-! Model of `AsyncQueue` and `AsyncLifoQueue` (`core/traps/queues.py`).

Every consumer and producer call gets a number, chosen by the caller. Of `Future` and `Task` the model keeps: calls awaiting a
future are resumed through the loop's ready queue when it completes, the last registered first (event_loop.py 469-490);
cancelling a call cancels the future it awaits if that is pending, otherwise `CancelledError` is thrown in at its next step
(task.py, `Verif.Task.Model`); awaiting a done future goes on at once.

A future stored as `_waiter` is pending or cancelled: whoever completes it removes it from `_waiter` first (113-115, 205-208).
`clear`, `copy`, `reverse` and the constructor's `iterable` are not modelled. -/
namespace Verif.AsyncQueue

inductive Exc where
  | cancelled
  | user (n : Nat)
deriving DecidableEq, Repr

/-- The two kinds of suspended consumers: in `__await__` of `AsyncQueue` (220-254), which polls a producer at its end, and in
`__anext__` (363-409) or a method of `AsyncLifoQueue` (496-552). -/
inductive Kind where
  /-- `AsyncQueue.__await__` -/
  | await
  /-- `__anext__` of both classes -/
  | next
  /-- `AsyncLifoQueue.__await__` -/
  | lifoAwait
deriving DecidableEq, Repr

inductive Ready (α : Type) where
  /-- a consumer whose awaited future completed with a value or an exception -/
  | getter (id : Nat) (kind : Kind) (outcome : Except Exc α)
  /-- a producer in `set_result_wait`; `some b`: the future's result; `none`: a `CancelledError` -/
  | setter (id : Nat) (element : α) (result : Option Bool)

structure State (α : Type) where
  lifo : Bool := false
  maxLength : Option Nat := none
  /-- `_results`, left to right -/
  results : List α := []
  exception : Option Exc := none
  /-- `_waiter`; `true` if the future is cancelled -/
  waiter : Option Bool := none
  /-- consumers awaiting `_waiter` -/
  waiting : List (Nat × Kind) := []
  /-- `_set_result_waiters`; `true` if the future is cancelled -/
  blocked : List (Nat × α × Bool) := []
  /-- the loop's ready queue -/
  ready : List (Ready α) := []

inductive Op (α : Type) where
  /-- `set_result` -/
  | put (x : α)
  /-- `set_result_wait` -/
  | putWait (id : Nat) (x : α)
  | setException (e : Exc)
  /-- `await queue` -/
  | await (id : Nat)
  /-- `await queue.get_result()` -/
  | getResult (id : Nat)
  /-- one step of `async for` -/
  | next (id : Nat)
  | getResultNoWait
  /-- cancels the task of a consumer call -/
  | cancelGetter (id : Nat)
  /-- cancels the task of a producer call -/
  | cancelSetter (id : Nat)
  /-- the loop runs the next resumed call -/
  | run
deriving DecidableEq, Repr

inductive Out (α : Type) where
  /-- returned value of a put: `0`, `1` or `2`, with the element -/
  | putReturned (x : α) (n : Nat)
  | suspended
  | got (x : α)
  | raised (e : Exc)
  | stopAsyncIteration
  | indexError
  | unit
deriving DecidableEq, Repr

variable {α : Type}

/-- `deque.append` of a deque with `maxlen`: a full one loses its leftmost element. -/
def append (maxLength : Option Nat) (l : List α) (x : α) : List α :=
  match maxLength with
  | none => l ++ [x]
  | some n => (l ++ [x]).drop (l.length + 1 - n)

/-- `(max_length is None) or (len(results) < max_length)` -/
def State.hasRoom (s : State α) : Bool :=
  match s.maxLength with
  | none => true
  | some n => decide (s.results.length < n)

/-- The future in `_waiter` completes with the given outcome, if pending, and leaves `_waiter`. -/
def State.completeWaiter (s : State α) (outcome : Except Exc α) : State α :=
  { s with
    waiter := none
    waiting := []
    ready := s.ready ++ s.waiting.reverse.map fun p => .getter p.1 p.2 outcome }

/-- Pops futures until one was pending; that one is returned with its call. -/
def pollList : List (Nat × α × Bool) → List (Nat × α × Bool) × Option (Nat × α)
  | [] => ([], none)
  | (_, _, true) :: l => pollList l
  | (id, x, false) :: l => (l, some (id, x))

/-- `_poll_from_set_result_waiters` (262-276). -/
def State.poll (s : State α) : State α :=
  match pollList s.blocked with
  | (l, none) => { s with blocked := l }
  | (l, some (id, x)) => { s with blocked := l, ready := s.ready ++ [.setter id x (some true)] }

/-- `set_result` (85-115). -/
def State.put (s : State α) (x : α) : State α × Out α :=
  match s.waiter with
  | some cancelled =>
    -- `waiter.set_result_if_pending(element)`
    (if cancelled then { s with waiter := none } else s.completeWaiter (.ok x), .putReturned x 0)
  | none =>
    if s.hasRoom then ({ s with results := append s.maxLength s.results x }, .putReturned x 0)
    else (s, .putReturned x 1)

/-- `set_result_wait` until it returns or suspends (118-177). -/
def State.putWait (s : State α) (id : Nat) (x : α) : State α × Out α :=
  match s.waiter with
  | some _ => s.put x
  | none =>
    if s.hasRoom then s.put x
    else ({ s with blocked := s.blocked ++ [(id, x, false)] }, .suspended)

/-- `set_exception` (180-217). -/
def State.setException (s : State α) (e : Exc) : State α × Out α :=
  let s := { s with exception := some e }
  let s := match s.waiter with
    | some cancelled => if cancelled then { s with waiter := none } else s.completeWaiter (.error e)
    | none => s
  ({ s with
      blocked := []
      ready := s.ready ++ (s.blocked.filter fun b => !b.2.2).map fun b => .setter b.1 b.2.1 (some false) }, .unit)

/-- Takes the left end (`AsyncQueue`) or the right end (`AsyncLifoQueue`) of `_results`. -/
def takeEnd (fifo : Bool) (l : List α) : Option (α × List α) :=
  if fifo then
    match l with
    | [] => none
    | x :: l => some (x, l)
  else
    match l.getLast? with
    | none => none
    | some x => some (x, l.dropLast)

/-- How a consumer ends after its future completed: returns, raises, and what `__anext__` makes of `CancelledError`. -/
def finish (kind : Kind) (outcome : Except Exc α) : Out α :=
  match outcome with
  | .ok x => .got x
  | .error .cancelled => if kind = .next then .stopAsyncIteration else .raised .cancelled
  | .error e => .raised e

/-- The part of `__await__` and `__anext__` after `_results` was found empty and no exception is set (243-254, 398-409, 507-512,
543-552). -/
def State.wait (s : State α) (id : Nat) (kind : Kind) : State α × Out α :=
  match s.waiter with
  | some true =>
    -- awaiting a cancelled future raises at once; `finally` polls
    (if kind = .await then s.poll else s, finish kind (.error .cancelled))
  | some false => ({ s with waiting := s.waiting ++ [(id, kind)] }, .suspended)
  | none => ({ s with waiter := some false, waiting := s.waiting ++ [(id, kind)] }, .suspended)

/-- `AsyncQueue.__await__` (220-254) and `AsyncLifoQueue.__await__` (496-512): an element is taken without polling. -/
def State.awaitOf (s : State α) (fifo : Bool) (id : Nat) : State α × Out α :=
  match takeEnd fifo s.results with
  | some (x, l) => ({ s with results := l }, .got x)
  | none =>
    match s.exception with
    | some e => (s, .raised e)
    | none => s.wait id (if fifo then .await else .lifoAwait)

/-- `__anext__` (363-409, 532-552). -/
def State.next (s : State α) (id : Nat) : State α × Out α :=
  match takeEnd (!s.lifo) s.results with
  | some (x, l) =>
    let s' := { s with results := l }
    (if s.lifo then s' else s'.poll, .got x)
  | none =>
    match s.exception with
    | some .cancelled => (s, .stopAsyncIteration)
    | some e => (s, .raised e)
    | none => s.wait id .next

/-- `get_result_no_wait` (279-307, 515-525). -/
def State.getResultNoWait (s : State α) : State α × Out α :=
  match takeEnd (!s.lifo) s.results with
  | some (x, l) =>
    let s' := { s with results := l }
    (if s.lifo then s' else s'.poll, .got x)
  | none =>
    match s.exception with
    | none => (s, .indexError)
    | some e => (s, .raised e)

/-- The resumed consumer with the given number (numbers name one call each) is cancelled before it runs. -/
def cancelReady (id : Nat) : List (Ready α) → List (Ready α)
  | [] => []
  | .getter i k o :: l => if i = id then .getter i k (.error .cancelled) :: l else .getter i k o :: cancelReady id l
  | r :: l => r :: cancelReady id l

/-- `Task.cancel` of a consumer: all consumers awaiting `_waiter` await the same future. -/
def State.cancelGetter (s : State α) (id : Nat) : State α :=
  if s.waiting.any (·.1 = id) then
    { s with
      waiter := some true
      waiting := []
      ready := s.ready ++ s.waiting.reverse.map fun p => .getter p.1 p.2 (.error .cancelled) }
  else { s with ready := cancelReady id s.ready }

/-- `Task.cancel` of a producer. -/
def State.cancelSetter (s : State α) (id : Nat) : State α :=
  match s.blocked.find? (fun b => b.1 = id ∧ b.2.2 = false) with
  | some b =>
    { s with
      blocked := s.blocked.map fun c => if c.1 = id then (c.1, c.2.1, true) else c
      ready := s.ready ++ [.setter id b.2.1 none] }
  | none =>
    { s with ready := s.ready.map fun
        | .setter i x o => if i = id then .setter i x none else .setter i x o
        | r => r }

/-- A resumed call goes on (149-170, 251-254, 406-409). -/
def State.run (s : State α) : State α × Out α :=
  match s.ready with
  | [] => (s, .unit)
  | .getter _ kind o :: ready =>
    let s := { s with ready := ready }
    (if kind = .await then s.poll else s, finish kind o)
  | .setter _ x (some true) :: ready =>
    ({ s with ready := ready, results := append s.maxLength s.results x }, .putReturned x 2)
  | .setter _ x (some false) :: ready => ({ s with ready := ready }, .putReturned x 1)
  | .setter id _ none :: ready =>
    ({ s with ready := ready, blocked := s.blocked.eraseP (·.1 = id) }, .raised .cancelled)

/-- `get_result` is made from `AsyncQueue.__await__` (256); `AsyncLifoQueue` does not redefine it. -/
def State.step (s : State α) : Op α → State α × Out α
  | .put x => s.put x
  | .putWait id x => s.putWait id x
  | .setException e => s.setException e
  | .await id => s.awaitOf (!s.lifo) id
  | .getResult id => s.awaitOf true id
  | .next id => s.next id
  | .getResultNoWait => s.getResultNoWait
  | .cancelGetter id => (s.cancelGetter id, .unit)
  | .cancelSetter id => (s.cancelSetter id, .unit)
  | .run => s.run

def State.runAll (s : State α) (ops : List (Op α)) : State α := ops.foldl (fun s op => (s.step op).1) s

end Verif.AsyncQueue
