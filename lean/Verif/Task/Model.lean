import Verif.Future.Model
/-! Model of `Task` (`core/traps/task.py`): cancellation and stepping of the wrapped coroutine.

The coroutine is an arbitrary environment: at every resumption it may call `cancel` / `cancel_with` on its own task any number
of times and then end, raise, or yield as it likes. The awaited futures are plain `Future`s (a waited `Task` whose own
coroutine swallows the cancellation is not modelled). `DESTROYED` is never set (it is only set at
interpreter shutdown, event_loop.py). -/
namespace Verif.Task
open Verif.Future (Flags ExcArg)

/-- Exceptions: `CancelledError` or something else. -/
inductive Exc (ε : Type) where
  | cancelled
  | other (e : ε)
deriving DecidableEq, Repr

/-- `Task._result`. -/
inductive Stored (α ε : Type) where
  | none | value (v : α) | exception (e : Exc ε)
deriving DecidableEq, Repr

/-- `_result is None`. (A coroutine's value is stored only together with `RETURN`, so it does not matter that it may be `None`.) -/
def Stored.isNone {α ε : Type} : Stored α ε → Bool
  | .none => true
  | _ => false

/-- How an awaited plain future ended, as its `get_result` shows it to the coroutine. -/
inductive Awaited (α ε : Type) where
  | value (v : α)
  | exception (e : ε)
  | cancelled
deriving DecidableEq, Repr

/-- Awaited as `await future` or as `await future.wait_for_completion()`, which does not retrieve the result. -/
inductive Mode where
  | result | completion
deriving DecidableEq, Repr

/-- Handles of the task in the loop's ready queue. -/
inductive Handle where
  | step | wakeUp
deriving DecidableEq, Repr

/-- What the coroutine meets when it is resumed. -/
inductive Seen (α ε : Type) where
  /-- `send(None)` when it does not await a future, or awaits only its completion -/
  | resumed
  /-- `throw(CancelledError())` -/
  | thrown
  /-- `send(None)`: `Future.__iter__` continues with `get_result` of the awaited future -/
  | awaited (o : Awaited α ε)
  /-- the task is stepped while the awaited future is pending (shown impossible) -/
  | awaitedPending
deriving DecidableEq, Repr

/-- `Task` (task.py 37-97) and its handles in the ready queue. -/
structure Task (α ε : Type) where
  state : Flags := {}
  result : Stored α ε := .none
  /-- `_waited_future`: `none`, or the future, pending (`none`) or done (`some o`), and how it is awaited -/
  waited : Option (Mode × Option (Awaited α ε)) := none
  /-- `__new__` does `loop.call_soon(self._step)` -/
  queue : List Handle := [.step]
deriving DecidableEq, Repr

/-- How the coroutine ends a step. -/
inductive Finish (α ε : Type) where
  /-- `StopIteration(v)` -/
  | returns (v : α)
  | raises (e : Exc ε)
  /-- awaits a future: pending (`none`), or already done -/
  | awaits (m : Mode) (o : Option (Awaited α ε))
  /-- a bare `yield` -/
  | yields
deriving DecidableEq, Repr

/-- Calls on the task. -/
inductive Call (ε : Type) where
  | cancel
  | cancelWith (e : ExcArg (Exc ε))
deriving DecidableEq, Repr

inductive Out (α ε : Type) where
  | int (n : Nat)
  | typeError
  | seen (s : Seen α ε)
  | invalidState
  | unit
  | returned (v : α)
  | raised (e : Exc ε)
  | malformed
  | bool (b : Bool)
deriving DecidableEq, Repr

variable {α ε : Type}

/-- `waited_future.cancel()` of a plain future (future.py 116-136); its `_wake_up` callback is queued. -/
def Task.cancelWaited (t : Task α ε) : Task α ε × Bool :=
  match t.waited with
  | some (m, none) => ({ t with waited := some (m, some .cancelled), queue := t.queue ++ [.wakeUp] }, true)
  | _ => (t, false)

/-- `Task.cancel` (116-130) and `Task.cancel_with` (134-157). -/
def Task.call (t : Task α ε) : Call ε → Task α ε × Out α ε
  | .cancel =>
    if t.state.done then ({ t with state := { t.state with silenced := true } }, .int 0)
    else
      let (t', ok) := t.cancelWaited
      -- `(waited_future is None) or (not waited_future.cancel())`
      if t.waited.isNone || !ok then ({ t' with state := { t.state with cancellingSelf := true } }, .int 1)
      else (t', .int 1)
  | .cancelWith e =>
    if t.state.done then ({ t with state := { t.state with silenced := true } }, .int 0)
    else
      match e with
      | .stopIteration => (t, .typeError)
      | .exc e =>
        let (t', ok) := t.cancelWaited
        -- `(waited_future is None) or waited_future.cancel()`
        if t.waited.isNone || ok then
          ({ t' with state := { t.state with cancellingSelf := true }, result := .exception e }, .int 1)
        else ({ t' with result := .exception e }, .int 1)

/-- What the coroutine is resumed with (274-280, `Future.__iter__`, future.py 509-519, `Future.wait_for_completion`, 524-536). -/
def Task.resume (t : Task α ε) (h : Handle) : Seen α ε :=
  if t.state.cancellingSelf then .thrown
  else
    match h with
    | .step => .resumed
    | .wakeUp =>
      match t.waited with
      | none => .resumed
      | some (_, none) => .awaitedPending
      | some (.result, some o) => .awaited o
      | some (.completion, some _) => .resumed

/-- The end of `_step` (282-327), after the coroutine gave control back. -/
def Task.finish (t : Task α ε) : Finish α ε → Task α ε
  | .returns v =>
    if t.state.cancellingSelf then
      if !t.result.isNone then { t with state := { t.state with cancelled := true, raise_ := true } }
      else { t with state := { t.state with cancelled := true } }
    else { t with result := .value v, state := { t.state with ret := true } }
  | .raises .cancelled =>
    if t.result.isNone then
      { t with state := { t.state with cancelled := true, raise_ := true }, result := .exception .cancelled }
    else { t with state := { t.state with cancelled := true, raise_ := true } }
  | .raises (.other e) => { t with result := .exception (.other e), state := { t.state with raise_ := true } }
  | .awaits m o =>
    let t' := { t with waited := some (m, o), queue := if o.isSome then t.queue ++ [.wakeUp] else t.queue }
    if t.state.cancellingSelf then
      let (t'', ok) := t'.cancelWaited
      if ok then { t'' with state := { t''.state with cancellingSelf := false } } else t''
    else t'
  | .yields => { t with queue := t.queue ++ [.step] }

/-- One run of `_step` / `_wake_up` (249-349). -/
def Task.stepBody (t : Task α ε) (h : Handle) (calls : List (Call ε)) (fin : Finish α ε) :
    Task α ε × Out α ε :=
  let seen := t.resume h
  let t := match h with
    | .step => t
    | .wakeUp => { t with waited := none }
  if t.state.done then (t, .invalidState)
  else
    let t := { t with state := { t.state with cancellingSelf := false } }
    ((calls.foldl (fun t c => (t.call c).1) t).finish fin, .seen seen)

/-- What can happen to a task. -/
inductive Op (α ε : Type) where
  /-- a call from outside -/
  | call (c : Call ε)
  /-- the awaited future, if any and pending, completes -/
  | completeAwaited (o : Awaited α ε)
  /-- the loop runs the next queued handle of the task; the coroutine does the given calls on its own task and ends the step -/
  | run (calls : List (Call ε)) (fin : Finish α ε)
  | getResult
  | isDone
  | isCancelled
deriving DecidableEq, Repr

def Task.step (t : Task α ε) : Op α ε → Task α ε × Out α ε
  | .call c => t.call c
  | .completeAwaited o =>
    match t.waited with
    | some (m, none) => ({ t with waited := some (m, some o), queue := t.queue ++ [.wakeUp] }, .unit)
    | _ => (t, .unit)
  | .run calls fin =>
    match t.queue with
    | [] => (t, .unit)
    | h :: queue => ({ t with queue := queue } : Task α ε).stepBody h calls fin
  | .getResult =>                                      -- `Future.get_result`, inherited
    if t.state.ret then
      match t.result with
      | .value v => (t, .returned v)
      | _ => (t, .malformed)
    else if t.state.raise_ then
      ({ t with state := { t.state with retrieved := true } },
        match t.result with
        | .exception e => .raised e
        | _ => .malformed)
    else if t.state.cancelled then (t, .raised .cancelled)
    else (t, .invalidState)
  | .isDone => (t, .bool t.state.done)
  | .isCancelled => (t, .bool t.state.cancelled)

def Task.run (t : Task α ε) : List (Op α ε) → Task α ε × List (Out α ε)
  | [] => (t, [])
  | op :: ops =>
    let r := t.step op
    let rs := r.1.run ops
    (rs.1, r.2 :: rs.2)

end Verif.Task
