/-! Model of `enter_executor` (`core/traps/task_thread_switcher.py`): a task runs

```
async with enter_executor():
    body
after
```

The state holds the task, the two futures of the context manager, the handles of the task in the ready queue of the loop and the
program counter of the executor thread (`_executor_task`). `body` and `after` are arbitrary: each time the coroutine is
resumed it does whatever it likes up to its next `await`. Between any two steps of the executor thread the loop may run, the task
may be cancelled, and the awaited future may be completed; each of the steps below is atomic. The cross thread wait itself
(`sync_wrap().wait_for_completion()`) is the subject of the area `CrossThread`. Not modelled: nested `enter_executor`s, `cancel_with`,
the values, `_cancel_callback` (it is called after the task is done, when nothing waits), a stopped loop, `DESTROYED`. -/
namespace Verif.EnterExecutor

/-- A plain future: pending, finished (with a value or with an exception of its own), or cancelled. -/
inductive Fut where
  | pending | finished | cancelled
deriving DecidableEq, Repr

/-- `Task._waited_future`. -/
inductive Waited where
  /-- `None` -/
  | nothing
  /-- `_enter_future` -/
  | enter
  /-- `_exit_future` -/
  | exit
  /-- the future awaited last by `body` or `after` -/
  | inner
deriving DecidableEq, Repr

/-- Where the coroutine is. -/
inductive Pos where
  /-- suspended in `__aenter__`, at `await future` (89) -/
  | enter
  | body
  /-- suspended in `__aexit__`, at `await self._exit_future` (99) -/
  | exit
  | after
  /-- it returned or raised -/
  | finished
deriving DecidableEq, Repr

/-- How the task ended: its state flags. -/
inductive Outcome where
  | returned | cancelled | raised
deriving DecidableEq, Repr

/-- The executor thread, in `_executor_task` (135-232). -/
inductive Exec where
  /-- `run_in_executor` not called yet -/
  | idle
  /-- `_executor_task` is to be started -/
  | queued
  /-- at `if task.is_done()` (171), no future to wait for -/
  | top
  /-- the coroutine runs, within `send` or `throw` -/
  | running
  /-- at line 156, `local_waited_future` is the inner future -/
  | prepare
  /-- in `wait_for_completion` (167) -/
  | wait
  /-- at line 156, `local_waited_future` is the end future -/
  | exiting
  /-- left the loop by `break` -/
  | stopped
  /-- an exception left `_executor_task`; it is set to the future of `run_in_executor`, which nobody holds -/
  | died
deriving DecidableEq, Repr

inductive Thread where
  | loop | executor
deriving DecidableEq, Repr

/-- What the coroutine meets when it is resumed. -/
inductive Seen where
  | normal | cancelledError
deriving DecidableEq, Repr

/-- The coroutine continues in the given thread with the given part of its code. -/
structure Entry where
  thread : Thread
  pos : Pos
  seen : Seen
deriving DecidableEq, Repr

/-- Handles of the loop. -/
inductive Handle where
  /-- `enter_executor._enter_executor` -/
  | enterExecutor
  /-- `task._wake_up` -/
  | wakeUp
  /-- `task._step` -/
  | step
deriving DecidableEq, Repr

structure State where
  /-- `_enter_future` -/
  enter : Fut := .pending
  /-- whether `task._wake_up` is among its callbacks -/
  enterCb : Bool := true
  /-- `_exit_future` -/
  exit : Option Fut := none
  /-- the future awaited last by the coroutine's own code -/
  inner : Fut := .finished
  /-- whether `task._wake_up` is among its callbacks -/
  innerCb : Bool := false
  /-- the coroutine is suspended awaiting it (else: by a bare `yield`) -/
  awaiting : Bool := false
  waited : Waited := .enter
  /-- `FUTURE_STATE_CANCELLING_SELF` of the task -/
  cancelling : Bool := false
  /-- the done flags of the task -/
  done : Option Outcome := none
  /-- the callbacks of the task were scheduled -/
  scheduled : Bool := false
  pos : Pos := .enter
  /-- `__aenter__` did `loop.call_soon(self._enter_executor)` (88) -/
  ready : List Handle := [.enterExecutor]
  exec : Exec := .idle
deriving DecidableEq, Repr

/-- What the coroutine does next. -/
inductive Act where
  /-- awaits a pending future -/
  | awaits
  /-- a bare `yield` -/
  | yields
  /-- leaves the block -/
  | leaves
  /-- ends -/
  | ends (o : Outcome)
deriving DecidableEq, Repr

/-- `body` can only end by way of `__aexit__`, and `after` cannot leave the block. -/
def Act.fit : Pos → Act → Act
  | .body, .ends _ => .leaves
  | .after, .leaves => .yields
  | _, a => a

inductive Op where
  /-- `task.cancel()` -/
  | cancel
  /-- the awaited future is completed -/
  | complete
  /-- the loop runs its next handle; if that resumes the coroutine it does `a` -/
  | loop (a : Act)
  /-- the executor thread does a step of its own -/
  | exec
  /-- the coroutine, running in the executor thread, does `a` -/
  | act (a : Act)
deriving DecidableEq, Repr

/-- The inner future becomes done: `task._wake_up` is scheduled if it is among the callbacks. -/
def State.settle (s : State) (f : Fut) : State :=
  if s.innerCb then { s with inner := f, innerCb := false, ready := s.ready ++ [.wakeUp] } else { s with inner := f }

/-- `Task.cancel` (task.py 116-130), `Future.cancel` (future.py 116-136). -/
def State.cancel (s : State) : State :=
  if s.done.isSome then s
  else match s.waited with
  | .nothing => { s with cancelling := true }
  | .enter =>
    if s.enter = .pending then
      if s.enterCb then { s with enter := .cancelled, enterCb := false, ready := s.ready ++ [.wakeUp] } else { s with enter := .cancelled }
    else { s with cancelling := true }
  | .exit => if s.exit = some .pending then { s with exit := some .cancelled } else { s with cancelling := true }
  | .inner => if s.inner = .pending then s.settle .cancelled else { s with cancelling := true }

/-- What `get_result` of a future shows to the coroutine. -/
def Fut.seen : Fut → Seen
  | .cancelled => .cancelledError
  | _ => .normal

/-- The coroutine is resumed: with `throw(CancelledError())`, or with `send(None)`. An exception raised in `__aenter__` or
`__aexit__` leads past the block. -/
def State.resume (s : State) (t : Thread) (throws : Bool) : State × List Entry :=
  let go (p : Pos) (e : Seen) : State × List Entry := ({ s with pos := p, awaiting := false }, [⟨t, p, e⟩])
  match s.pos with
  | .enter =>
    if throws then go .after .cancelledError
    else match s.enter with
    | .finished => go .body .normal
    | .cancelled => go .after .cancelledError
    -- `get_result` raises `InvalidStateError`
    | .pending => go .after .normal
  | .exit =>
    if throws then go .after .cancelledError
    else go .after ((s.exit.map Fut.seen).getD .normal)
  | .body => go .body (if throws then .cancelledError else if s.awaiting then s.inner.seen else .normal)
  | .after => go .after (if throws then .cancelledError else if s.awaiting then s.inner.seen else .normal)
  | .finished => (s, [])

/-- The end of `Task._step` (task.py 282-327): the coroutine runs on the loop and does `a`. -/
def State.actLoop (s : State) (a : Act) : State :=
  match a.fit s.pos with
  | .awaits =>
    if s.cancelling then { s with inner := .cancelled, awaiting := true, waited := .inner, cancelling := false, ready := s.ready ++ [.wakeUp] }
    else { s with inner := .pending, innerCb := true, awaiting := true, waited := .inner }
  | .yields => { s with ready := s.ready ++ [.step] }
  -- `__aexit__` on the loop: never happens, as shown
  | .leaves => { s with pos := .exit }
  | .ends o =>
    { s with pos := .finished, scheduled := true, done := some (match o with | .returned => if s.cancelling then .cancelled else .returned | o => o) }

/-- `Task._step` (task.py 249-331). -/
def State.stepTask (s : State) (a : Act) : State × List Entry :=
  -- `InvalidStateError`
  if s.done.isSome then (s, [])
  else
    let (s', es) := ({ s with cancelling := false } : State).resume .loop s.cancelling
    (s'.actLoop a, es)

/-- The loop runs its next handle. -/
def State.stepLoop (s : State) (a : Act) : State × List Entry :=
  match s.ready with
  | [] => (s, [])
  -- `_enter_executor` (107-117)
  | .enterExecutor :: r => ({ s with ready := r, enterCb := false, exec := .queued }, [])
  -- `Task._wake_up` (task.py 334-349)
  | .wakeUp :: r => ({ s with ready := r, waited := .nothing } : State).stepTask a
  | .step :: r => ({ s with ready := r } : State).stepTask a

/-- The end of an iteration of `_executor_task` (182-227): the coroutine runs in the executor thread and does `a`. -/
def State.actExec (s : State) (a : Act) : State × List Entry :=
  match a.fit s.pos with
  | .awaits =>
    if s.cancelling then ({ s with inner := .cancelled, awaiting := true, waited := .inner, cancelling := false, exec := .prepare }, [])
    else ({ s with inner := .pending, awaiting := true, waited := .inner, exec := .prepare }, [])
  | .yields => ({ s with exec := .top }, [])
  | .leaves =>
    -- `await self._exit_future` (99)
    if s.exit = some .pending then
      if s.cancelling then ({ s with pos := .exit, waited := .exit, exit := some .cancelled, cancelling := false, exec := .exiting }, [])
      else ({ s with pos := .exit, waited := .exit, exec := .exiting }, [])
    -- done already: the coroutine goes on running
    else ({ s with pos := .after }, [⟨.executor, .after, (s.exit.map Fut.seen).getD .normal⟩])
  | .ends o =>
    -- in all cases `_schedule_callbacks(self)` raises `AttributeError`, since `self` has no `_callbacks`; after
    -- `StopIteration` with the flag `CANCELLING_SELF` it does so before the state is written (184-191)
    match o with
    | .returned =>
      if s.cancelling then ({ s with pos := .finished, exec := .died }, [])
      else ({ s with pos := .finished, done := some .returned, exec := .died }, [])
    | o => ({ s with pos := .finished, done := some o, exec := .died }, [])

/-- A step of the executor thread (139-180). -/
def State.stepExec (s : State) : State × List Entry :=
  match s.exec with
  | .queued =>
    -- lines 142-147; `set_result` raises `InvalidStateError` if the enter future is done
    if s.enter = .pending then ({ s with exit := some .pending, waited := .exit, enter := .finished, exec := .top }, [])
    else ({ s with exit := some .pending, waited := .exit, exec := .died }, [])
  | .exiting =>
    -- lines 157-160; `set_result` raises `InvalidStateError` if the end future is done
    if s.exit = some .pending then ({ s with exit := some .finished, ready := s.ready ++ [.step], exec := .stopped }, [])
    else ({ s with exec := .died }, [])
  | .prepare =>
    -- lines 162-167
    if (s.cancelling || s.done == some .cancelled) && s.inner == .pending then ({ s with inner := .cancelled, exec := .wait }, [])
    else ({ s with exec := .wait }, [])
  | .wait => if s.inner = .pending then (s, []) else ({ s with exec := .top }, [])
  | .top =>
    if s.done.isSome then ({ s with exec := .stopped }, [])
    else
      let (s', es) := s.resume .executor s.cancelling
      ({ s' with exec := .running }, es)
  | _ => (s, [])

def State.step (s : State) : Op → State × List Entry
  | .cancel => (s.cancel, [])
  | .complete => (if s.inner = .pending then s.settle .finished else s, [])
  | .loop a => s.stepLoop a
  | .exec => s.stepExec
  | .act a => if s.exec = .running then s.actExec a else (s, [])

def State.run (s : State) : List Op → State
  | [] => s
  | op :: ops => (s.step op).1.run ops

/-- All that the coroutine meets. -/
def State.trace (s : State) : List Op → List Entry
  | [] => []
  | op :: ops => (s.step op).2 ++ (s.step op).1.trace ops

end Verif.EnterExecutor
