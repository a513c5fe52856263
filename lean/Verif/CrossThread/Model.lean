/-! Model of waiting for a future from other threads: `FutureWrapperSync.wait` (`core/traps/future_wrapper_sync.py`) against setting
and cancelling it through `FutureWrapperBase` (`core/traps/future_wrapper_base.py`) or directly, and the event loop which runs its callbacks.

Any number of threads wait and any number of threads set or cancel. A step is one read or write of shared data (`_state`, `_result`,
`_callbacks`, the ready queue, the event): Python switches threads between any two of them. `get_result` is one step. The loop's `select` is left when a
byte was written to its socket. Not modelled: `SILENCED` and the other flags, `propagate_cancellation`, interrupted waits, stopped loops. -/
namespace Verif.CrossThread

/-- The done flags of `Future._state`. -/
structure Word where
  ret : Bool := false
  raise : Bool := false
  cancelled : Bool := false
deriving DecidableEq, Repr

/-- `state & FUTURE_STATE_MASK_DONE` -/
def Word.done (w : Word) : Bool := w.ret || w.raise || w.cancelled

/-- What a thread calls to complete the future. -/
inductive Call where
  | setResult (v : Nat)
  | setException (e : Nat)
  | cancel
deriving DecidableEq, Repr

/-- How a wait ends. -/
inductive Report where
  | value (v : Nat)
  | exception (e : Nat)
  | cancelledError
  | invalidStateError
  | timeoutError
  | indexError
deriving DecidableEq, Repr

/-- Where a waiting thread is in `wait` (future_wrapper_sync.py 89-158). -/
inductive WPc where
  /-- about to do `if future.is_done()` (124) -/
  | start
  /-- about to do `future.get_result()` (125, 145) -/
  | getResult
  /-- in `add_done_callback` (future.py 361-364): about to read the state -/
  | addCheck
  /-- about to do `self._callbacks.append(func)` -/
  | append
  /-- about to do `self._loop.call_soon(func, self)` -/
  | pushReady
  /-- about to do `future._loop.wake_up()` (132) -/
  | wake
  /-- in `waiter.wait(timeout)` (135) -/
  | blocked
  /-- timed out; in `remove_done_callback` (future.py 380-389): about to read the length -/
  | removeLen
  /-- about to do `while index`, with this index -/
  | remove (index : Nat)
  /-- compared equal; about to do `del callbacks[index]` -/
  | delete (index : Nat)
  | finished (r : Report)
deriving DecidableEq, Repr

/-- Where a setting thread is. `after = some w`: it cancels, and will write the state afterwards, from the state `w` it has read; `none`: it sets, and the
state is written already. -/
inductive SPc where
  /-- about to read the state -/
  | start
  /-- about to do `self._result = ...` -/
  | store (w : Word)
  /-- about to do `self._state = state | ...` -/
  | mark (w : Word)
  /-- in `_schedule_callbacks` (event_loop.py 469-490), about to do `while callbacks` -/
  | sched (after : Option Word)
  /-- about to do `callbacks.pop()` -/
  | pop (after : Option Word)
  /-- about to do `self._ready.append(handle)` -/
  | push (after : Option Word) (i : Nat)
  /-- in `cancel` (future.py 127-136): about to do `self._state = state` -/
  | cancelMark (w : Word)
  /-- about to do `wake_up` -/
  | wake
  /-- done -/
  | finished
  /-- the future was done already: `InvalidStateError`, or `0` -/
  | refused
  /-- `pop from empty list` -/
  | indexError
deriving DecidableEq, Repr

structure State where
  /-- `_state` -/
  word : Word := {}
  /-- `_result` -/
  result : Nat := 0
  /-- `_callbacks`: the callback of the waiter `i` sets its event -/
  callbacks : List Nat := []
  /-- `loop._ready` -/
  ready : List Nat := []
  /-- the loop is in `select` -/
  asleep : Bool := true
  /-- a byte is in the loop's socket -/
  pending : Bool := false
  /-- the waiters' events -/
  event : Nat → Bool := fun _ => false
  waiter : Nat → WPc := fun _ => .start
  setter : Nat → SPc := fun _ => .start

inductive Op where
  /-- the waiting thread `i` goes on -/
  | waiter (i : Nat)
  /-- the timeout of the waiting thread `i` is over -/
  | timeout (i : Nat)
  /-- the setting thread `j` goes on -/
  | setter (j : Nat)
  | loop
deriving DecidableEq, Repr

def upd {α : Type} (f : Nat → α) (i : Nat) (x : α) : Nat → α := fun k => if k = i then x else f k

/-- `get_result` (future.py 264-278). -/
def State.getResult (s : State) : Report :=
  if s.word.ret then .value s.result
  else if s.word.raise then .exception s.result
  else if s.word.cancelled then .cancelledError
  else .invalidStateError

def State.goto (s : State) (i : Nat) (pc : WPc) : State := { s with waiter := upd s.waiter i pc }
def State.sgoto (s : State) (j : Nat) (pc : SPc) : State := { s with setter := upd s.setter j pc }

/-- A step of a waiting thread at `pc`. -/
def State.stepWaiter (s : State) (i : Nat) : WPc → State
  | .start => s.goto i (if s.word.done then .getResult else .addCheck)
  | .getResult => s.goto i (.finished s.getResult)
  | .addCheck => s.goto i (if s.word.done then .pushReady else .append)
  | .append => ({ s with callbacks := s.callbacks ++ [i] } : State).goto i .wake
  | .pushReady => ({ s with ready := s.ready ++ [i] } : State).goto i .wake
  | .wake => ({ s with pending := true } : State).goto i .blocked
  | .blocked => if s.event i then s.goto i .getResult else s
  | .removeLen => s.goto i (.remove s.callbacks.length)
  | .remove 0 => s.goto i (.finished .timeoutError)
  | .remove (k + 1) =>
    match s.callbacks[k]? with
    | none => s.goto i (.finished .indexError)
    | some c => s.goto i (if c = i then .delete k else .remove k)
  | .delete k =>
    if k < s.callbacks.length then ({ s with callbacks := s.callbacks.eraseIdx k } : State).goto i (.remove k)
    else s.goto i (.finished .indexError)
  | .finished _ => s

/-- `_result` for a call. -/
def Call.payload : Call → Nat
  | .setResult v => v
  | .setException e => e
  | .cancel => 0

/-- A step of a setting thread at `pc`; it does `call`. `set_result` (future.py 404-410), `set_exception` (464-479), `cancel` (122-136). -/
def State.stepSetter (call : Call) (s : State) (j : Nat) : SPc → State
  | .start =>
    if s.word.done then s.sgoto j .refused
    else match call with
      | .cancel => s.sgoto j (.sched (some s.word))
      | _ => s.sgoto j (.store s.word)
  | .store w => ({ s with result := call.payload } : State).sgoto j (.mark w)
  | .mark w =>
    ({ s with word := match call with
        | .setResult _ => { w with ret := true }
        | .setException _ => { w with raise := true }
        | .cancel => w } : State).sgoto j (.sched none)
  | .sched a =>
    if s.callbacks = [] then s.sgoto j (match a with | none => .wake | some w => .cancelMark w)
    else s.sgoto j (.pop a)
  | .pop a =>
    match s.callbacks.getLast? with
    | none => s.sgoto j .indexError
    | some c => ({ s with callbacks := s.callbacks.dropLast } : State).sgoto j (.push a c)
  | .push a c => ({ s with ready := s.ready ++ [c] } : State).sgoto j (.sched a)
  | .cancelMark w => ({ s with word := { w with cancelled := true } } : State).sgoto j .wake
  | .wake => ({ s with pending := true } : State).sgoto j .finished
  | .finished => s
  | .refused => s
  | .indexError => s

/-- A step of the event loop: it runs a callback, goes to sleep, or wakes up. -/
def State.stepLoop (s : State) : State :=
  if s.asleep then
    if s.pending then { s with asleep := false, pending := false } else s
  else
    match s.ready with
    | [] => { s with asleep := true }
    -- `_set_waiter_future_callback`: `waiter.set()`
    | c :: rest => { s with ready := rest, event := upd s.event c true }

/-- One step; `calls j` is what the setting thread `j` does. -/
def State.step (calls : Nat → Call) (s : State) : Op → State
  | .waiter i => s.stepWaiter i (s.waiter i)
  | .timeout i =>
    match s.waiter i with
    -- `waiter.wait(timeout)` returns whether the event is set
    | .blocked => if s.event i then s else s.goto i .removeLen
    | _ => s
  | .setter j => s.stepSetter (calls j) j (s.setter j)
  | .loop => s.stepLoop

def State.run (calls : Nat → Call) (s : State) : List Op → State
  | [] => s
  | op :: ops => (s.step calls op).run calls ops

end Verif.CrossThread
