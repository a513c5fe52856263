/-! Model of `repeat_timeout` (`core/traps/timeouting.py`) on its event loop.

Time is a natural number of ticks (`LOOP_TIME()` is `time.monotonic`, whose `0.0` is the falsy value); adding a timeout is exact.
A due timer runs when `when < LOOP_TIME() + CLOCK_RESOLUTION` (event_loop.py, modelled in `EventLoop`), so up to the resolution
early; how late is up to the environment. The task is an arbitrary environment: it may start iterations, swallow cancellations and leave
the block whenever it likes. -/
namespace Verif.Timeouts

/-- How the `with` block is left. -/
inductive Leave where
  /-- the end of the block is reached, or `break` / `return` -/
  | normal
  /-- a `CancelledError`, caused by the timer's own `task.cancel()` -/
  | cancelledByTimer
  /-- a `CancelledError` with another origin -/
  | cancelledByOther
  /-- any other exception (subclasses of `CancelledError` among them) -/
  | other
deriving DecidableEq, Repr

/-- `exception_type is CancelledError` -/
def Leave.isCancelledError : Leave → Bool
  | .cancelledByTimer => true
  | .cancelledByOther => true
  | _ => false

/-- `repeat_timeout` (timeouting.py 16-125), the clock and its loop. -/
structure Rep where
  now : Nat
  /-- `CLOCK_RESOLUTION` -/
  resolution : Nat
  /-- `_timeout` -/
  timeout : Nat
  /-- `_last_set`; `0` is unset -/
  lastSet : Nat
  /-- `_handle`: the deadline of the timer -/
  handle : Option Nat
  /-- `_timed_out` -/
  timedOut : Bool := false
  /-- `loop.running` (and it can not be started any more) if `false`: `call_at` returns `None` -/
  running : Bool := true
  /-- not yet left -/
  inside : Bool := true
deriving DecidableEq, Repr

/-- What happens. -/
inductive Op where
  /-- time passes -/
  | tick (d : Nat)
  /-- the task's `for` calls `__next__` -/
  | next
  /-- the loop runs the timer -/
  | fire
  /-- the loop is stopped -/
  | stop
  /-- the task leaves the block -/
  | exit (l : Leave)
deriving DecidableEq, Repr

inductive Out where
  | unit
  /-- `task.cancel()` was called -/
  | cancels
  /-- `__exit__` returned `False` -/
  | passes
  /-- `__exit__` raised `TimeoutError` -/
  | timeoutError
  /-- not possible now -/
  | disabled
deriving DecidableEq, Repr

/-- `__new__` (52-79) at time `now` on a running loop: `call_after(timeout, self)`. -/
def Rep.new (now resolution timeout : Nat) : Rep :=
  { now := now, resolution := resolution, timeout := timeout, lastSet := 0, handle := some (now + timeout) }

/-- `__call__` (110-125). -/
def Rep.call (s : Rep) : Rep × Out :=
  if s.lastSet ≠ 0 then
    ({ s with lastSet := 0, handle := if s.running then some (s.lastSet + s.timeout) else none }, .unit)
  else
    ({ s with handle := none, timedOut := true }, .cancels)

/-- One step. -/
def Rep.step (s : Rep) : Op → Rep × Out
  | .tick d => ({ s with now := s.now + d }, .unit)
  -- `__next__` (87-89); `LOOP_TIME()`
  | .next => if s.inside then ({ s with lastSet := s.now }, .unit) else (s, .disabled)
  | .fire =>
    match s.handle with
    -- cancelled or run handles are not run by the loop
    | none => (s, .disabled)
    | some due => if due < s.now + s.resolution ∨ due ≤ s.now then s.call else (s, .disabled)
  | .stop => ({ s with running := false }, .unit)
  -- `__exit__` (97-107)
  | .exit l =>
    if s.inside then
      ({ s with handle := none, inside := false }, if l.isCancelledError && s.timedOut then .timeoutError else .passes)
    else (s, .disabled)

def Rep.run (s : Rep) : List Op → Rep
  | [] => s
  | op :: ops => ((s.step op).1).run ops

/-- The outputs of a run. -/
def Rep.outs (s : Rep) : List Op → List Out
  | [] => []
  | op :: ops => (s.step op).2 :: ((s.step op).1).outs ops

/-! `sleep` (task_suppression.py 45-78) with `_SleepHandleCanceller` (handle_cancellers.py 78-108), and
`Future.apply_timeout` (future.py 603-629), on a plain future. -/

/-- How the future is done. -/
inductive Res where
  /-- `None`, set by the timer of `sleep` (or by anybody) -/
  | none
  /-- cancelled with `TimeoutError` -/
  | timeout
  /-- anything set by somebody else: a result, an exception, a cancellation -/
  | given (n : Nat)
deriving DecidableEq, Repr

/-- What a timer does to the future when it runs. -/
inductive Kind where
  | sleep | timeout
deriving DecidableEq, Repr

structure Timer where
  due : Nat
  kind : Kind
  /-- its identity -/
  id : Nat
deriving DecidableEq, Repr

/-- A future with its timers. -/
structure Fut where
  now : Nat
  resolution : Nat
  running : Bool := true
  /-- done or pending -/
  res : Option Res := none
  /-- timers in the heap of the loop, neither cancelled nor run -/
  timers : List Timer := []
  /-- the `_SleepHandleCanceller`'s / `_cancel_handle_callback`s among `_callbacks` (all of them are in there while it is pending) and, after
  it is done, those of them in the ready queue: the timers they will cancel -/
  cancellers : List Timer := []
  /-- the next identity -/
  fresh : Nat := 0
deriving DecidableEq, Repr

inductive FOp where
  | tick (d : Nat)
  /-- somebody sets a result or an exception or cancels -/
  | complete (n : Nat)
  | applyTimeout (t : Int)
  /-- the loop runs the i-th living timer -/
  | fire (i : Nat)
  /-- the loop runs one of the callbacks (their order does not matter here) -/
  | callback (i : Nat)
  | stop
deriving DecidableEq, Repr

inductive FOut where
  | unit
  | int (n : Nat)
  | disabled
deriving DecidableEq, Repr

/-- Setting if pending: `set_result_if_pending` / `cancel_with` and so on. -/
def Fut.set (s : Fut) (r : Res) : Fut × Bool :=
  match s.res with
  | some _ => (s, false)
  | none => ({ s with res := some r }, true)

/-- The result with which a timer completes the future. -/
def Kind.res : Kind → Res
  | .sleep => .none
  | .timeout => .timeout

def Fut.step (s : Fut) : FOp → Fut × FOut
  | .tick d => ({ s with now := s.now + d }, .unit)
  | .complete n => ((s.set (.given n)).1, .int (s.set (.given n)).2.toNat)
  -- apply_timeout (603-629)
  | .applyTimeout t =>
    if t ≤ 0 then
      -- `self.cancel_with(TimeoutError)`
      ((s.set .timeout).1, .int (s.set .timeout).2.toNat)
    else
      match s.res with
      | some _ => (s, .int 0)
      | none =>
        if s.running then
          ({ s with
              timers := s.timers ++ [{ due := s.now + t.toNat, kind := .timeout, id := s.fresh }]
              cancellers := s.cancellers ++ [{ due := s.now + t.toNat, kind := .timeout, id := s.fresh }]
              fresh := s.fresh + 1 }, .int 1)
        else (s, .int 1)
  | .fire i =>
    match s.timers[i]? with
    | none => (s, .disabled)
    | some timer =>
      if timer.due < s.now + s.resolution ∨ timer.due ≤ s.now then
        -- `_SleepHandleCanceller.__call__` forgets its handle; the callback does nothing afterwards
        ((({ s with timers := s.timers.eraseIdx i } : Fut).set timer.kind.res).1, .unit)
      else (s, .disabled)
  | .callback i =>
    match s.res, s.cancellers[i]? with
    -- they are only scheduled when it is done; `handle.cancel()`
    | some _, some timer =>
      ({ s with cancellers := s.cancellers.eraseIdx i, timers := s.timers.filter (· ≠ timer) }, .unit)
    | _, _ => (s, .disabled)
  | .stop => ({ s with running := false }, .unit)

def Fut.run (s : Fut) : List FOp → Fut
  | [] => s
  | op :: ops => ((s.step op).1).run ops

/-- A new future on a running loop. -/
def Fut.new (now resolution : Nat) : Fut := { now := now, resolution := resolution }

/-- `sleep(delay)` (45-78) on a running loop. -/
def sleep (now resolution : Nat) (delay : Int) : Fut :=
  if delay ≤ 0 then { now := now, resolution := resolution, res := some .none }
  else
    { now := now, resolution := resolution
      timers := [{ due := now + delay.toNat, kind := .sleep, id := 0 }]
      cancellers := [{ due := now + delay.toNat, kind := .sleep, id := 0 }]
      fresh := 1 }

end Verif.Timeouts
