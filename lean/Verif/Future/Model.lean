/-! Model of `Future` (`core/traps/future.py`) with the parts of the event loop it calls
(`EventThread.call_soon` and `EventThread._schedule_callbacks`, `core/event_loop/event_loop.py` 360-382, 469-490). -/
namespace Verif.Future

/-- The bits of `Future._state` (future_states.py 6-14), as a record instead of an integer. -/
structure Flags where
  /-- `FUTURE_STATE_RESULT_RETURN` -/
  ret : Bool := false
  /-- `FUTURE_STATE_RESULT_RAISE` -/
  raise_ : Bool := false
  /-- `FUTURE_STATE_RESULT_RAISE_RETRIEVED` -/
  retrieved : Bool := false
  /-- `FUTURE_STATE_CANCELLING_SELF` -/
  cancellingSelf : Bool := false
  /-- `FUTURE_STATE_CANCELLED` -/
  cancelled : Bool := false
  /-- `FUTURE_STATE_DESTROYED` -/
  destroyed : Bool := false
  /-- `FUTURE_STATE_SILENCED` -/
  silenced : Bool := false
deriving DecidableEq, Repr

/-- `state & FUTURE_STATE_MASK_DONE` (future_states.py 22-27). -/
def Flags.done (f : Flags) : Bool := f.ret || f.raise_ || f.cancelled || f.destroyed

/-- An exception argument: a class is instantiated by the methods (future.py 155-156, 458-459, 495-496), so only the instance
matters; `StopIteration` is refused. -/
inductive ExcArg (ε : Type) where
  | exc (e : ε)
  | stopIteration
deriving DecidableEq, Repr

/-- What `_result` holds: `None`, a result or an exception. -/
inductive Stored (α ε : Type) where
  | none | value (v : α) | exception (e : ε)
deriving DecidableEq, Repr

/-- `Future` (future.py 55-100) together with the part of the loop that is relevant. Callbacks are identifiers; the same
identifier may be registered several times. -/
structure Fut (α ε : Type) where
  state : Flags := {}
  result : Stored α ε := .none
  callbacks : List Nat := []
  /-- `loop.running`, or the loop could be started by `_maybe_start`. Set by the environment. -/
  running : Bool := true
  /-- All callbacks which were put on `loop._ready` with this future as argument, in order. -/
  ready : List Nat := []
deriving DecidableEq, Repr

inductive Op (α ε : Type) where
  | cancel
  | cancelWith (e : ExcArg ε)
  | silence
  | getResult
  | getException
  | getCancellationException
  | isDone | isPending | isCancelled
  | addDoneCallback (f : Nat)
  | removeDoneCallback (f : Nat)
  | setResult (v : α)
  | setResultIfPending (v : α)
  | setException (e : ExcArg ε)
  | setExceptionIfPending (e : ExcArg ε)
  /-- The loop stops or (re)starts. -/
  | setRunning (running : Bool)
deriving DecidableEq, Repr

/-- What a call returns or raises. -/
inductive Out (α ε : Type) where
  | unit
  | int (n : Nat)
  | bool (b : Bool)
  | returned (v : α)
  /-- raises the stored exception -/
  | raised (e : ε)
  /-- raises `CancelledError` -/
  | raisedCancelled
  /-- returns an exception -/
  | exception (e : ε)
  /-- returns a `CancelledError` -/
  | cancelledError
  | noException
  | invalidState
  | typeError
  /-- returns or raises something that is not what the future was completed with (shown impossible) -/
  | malformed
deriving DecidableEq, Repr

variable {α ε : Type}

/-- `_schedule_callbacks` (event_loop.py 469-490): moves the callbacks to the ready queue, last registered first; drops them
if the loop does not run. -/
def Fut.schedule (f : Fut α ε) : Fut α ε :=
  if f.running then { f with callbacks := [], ready := f.ready ++ f.callbacks.reverse }
  else { f with callbacks := [] }

/-- The methods of `Future`. -/
def Fut.step (f : Fut α ε) : Op α ε → Fut α ε × Out α ε
  | .cancel =>                                                          -- 116-136
    if f.state.done then ({ f with state := { f.state with silenced := true } }, .int 0)
    else
      let f' := f.schedule
      ({ f' with state := { f.state with cancelled := true } }, .int 1)
  | .cancelWith e =>                                                    -- 139-169
    if f.state.done then ({ f with state := { f.state with silenced := true } }, .int 0)
    else
      match e with
      | .stopIteration => (f, .typeError)
      | .exc e =>
        let f' := ({ f with result := .exception e }).schedule
        ({ f' with state := { f.state with cancelled := true, raise_ := true } }, .int 1)
  | .silence => ({ f with state := { f.state with silenced := true } }, .unit)   -- 172-178
  | .getResult =>                                                       -- 243-285
    if f.state.ret then
      match f.result with
      | .value v => (f, .returned v)
      | _ => (f, .malformed)
    else if f.state.raise_ then
      ({ f with state := { f.state with retrieved := true } },
        match f.result with
        | .exception e => .raised e
        | _ => .malformed)
    else if f.state.cancelled then (f, .raisedCancelled)
    else (f, .invalidState)
  | .getException =>                                                    -- 288-320
    if f.state.ret then (f, .noException)
    else if f.state.raise_ then
      ({ f with state := { f.state with retrieved := true } },
        match f.result with
        | .exception e => .exception e
        | _ => .malformed)
    else if f.state.cancelled then (f, .cancelledError)
    else (f, .invalidState)
  | .getCancellationException =>                                        -- 323-340
    if !f.state.cancelled then (f, .noException)
    else
      match f.result with
      | .exception e => (f, .exception e)
      | .value _ => (f, .malformed)
      | .none => (f, .cancelledError)
  | .isDone => (f, .bool f.state.done)                                  -- 221-229
  | .isPending => (f, .bool !f.state.done)                              -- 232-240
  | .isCancelled => (f, .bool f.state.cancelled)                        -- 210-218
  | .addDoneCallback c =>                                               -- 343-361
    if f.state.done then
      ((if f.running then { f with ready := f.ready ++ [c] } else f), .unit)
    else ({ f with callbacks := f.callbacks ++ [c] }, .unit)
  | .removeDoneCallback c =>                                            -- 364-387
    ({ f with callbacks := f.callbacks.filter (· ≠ c) }, .int (f.callbacks.filter (· = c)).length)
  | .setResult v =>                                                     -- 390-410
    if f.state.done then (f, .invalidState)
    else (({ f with result := .value v, state := { f.state with ret := true } }).schedule, .unit)
  | .setResultIfPending v =>                                            -- 413-435
    if f.state.done then (f, .int 0)
    else (({ f with result := .value v, state := { f.state with ret := true } }).schedule, .int 1)
  | .setException e =>                                                  -- 438-468
    if f.state.done then (f, .invalidState)
    else
      match e with
      | .stopIteration => (f, .typeError)
      | .exc e => (({ f with result := .exception e, state := { f.state with raise_ := true } }).schedule, .unit)
  | .setExceptionIfPending e =>                                         -- 471-506
    if f.state.done then (f, .int 0)
    else
      match e with
      | .stopIteration => (f, .typeError)
      | .exc e => (({ f with result := .exception e, state := { f.state with raise_ := true } }).schedule, .int 1)
  | .setRunning b => ({ f with running := b }, .unit)

/-- A history of calls: final future and the answers. -/
def Fut.run (f : Fut α ε) : List (Op α ε) → Fut α ε × List (Out α ε)
  | [] => (f, [])
  | op :: ops =>
    let r := f.step op
    let rs := r.1.run ops
    (rs.1, r.2 :: rs.2)

end Verif.Future
