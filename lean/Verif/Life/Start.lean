/-! Model of how an `EventThread` is started: `_maybe_start`, `is_started` and `_do_start` (`core/event_loop/event_loop.py` 134-206), the descriptor
`EventThread.run` (`core/event_loop/event_loop_functionality_helpers.py` 146-164) and `EventThreadContextManager` (`event_thread_type.py` 48-129),
with what of `threading.Thread` they rest on: `start` raises if `_started` is set, else makes a thread of the system, and waits for `_started`;
the new thread sets `_started`, then calls `self.run()`. (`_is_stopped`, which the descriptor reads, is gone from Python 3.13 on; `start` is as of
the versions before.)

Threads run step by step in any order. One access of the descriptor is one step, as is one `__enter__`. -/
namespace Verif.Life

/-- Where a thread made by `Thread.start` is. -/
inductive Worker where
  /-- before `_started.set()` -/
  | born
  /-- before `self.run` -/
  | begun
  /-- `self.run` gave `runner` -/
  | runner
  /-- in the block of `with self.context` -/
  | looping
  | ended
  /-- ended by an exception -/
  | died
deriving DecidableEq, Repr

/-- What a call of `_maybe_start`, or an access of `.run`, came to. -/
inductive Got where
  /-- `_maybe_start` gave `False` -/
  | already
  /-- `_do_start` returned -/
  | done
  /-- `.run` gave `caller` at once -/
  | caller
  /-- `.run` gave `runner` -/
  | runner
  | raised
deriving DecidableEq, Repr

/-- Where another thread is. -/
inductive Pc where
  | idle
  /-- at the start of `_do_start` -/
  | enter
  /-- before `Thread.start` (201) -/
  | starting
  /-- in `Thread.start`, waiting for `_started` -/
  | spawned
  /-- in `thread_waiter.wait()` (206) -/
  | waiting
  | got (g : Got)
deriving DecidableEq, Repr

structure State where
  /-- `Thread._started` -/
  setStarted : Bool := false
  /-- `Thread._is_stopped` -/
  isStopped : Bool := false
  /-- `context.thread_waiter` is set; it is never replaced by `None` -/
  waiter : Bool := false
  started : Bool := false
  running : Bool := false
  /-- the threads made by `Thread.start` -/
  workers : Nat → Option Worker := fun _ => none
  /-- how many they are -/
  made : Nat := 0
  pcs : Nat → Pc := fun _ => .idle

inductive Op where
  /-- `_maybe_start` (170-185) up to the call of `_do_start` -/
  | maybe (t : Nat)
  /-- `.run` of another thread, up to the call of `_do_start` -/
  | run (t : Nat)
  /-- lines 194-199 -/
  | check (t : Nat)
  /-- lines 200-204 -/
  | start (t : Nat)
  /-- `Thread.start` returns -/
  | up (t : Nat)
  /-- `thread_waiter.wait()` returns -/
  | woke (t : Nat)
  /-- `_started.set()` of the `k`-th thread made -/
  | boot (k : Nat)
  /-- `self.run()` of it -/
  | get (k : Nat)
  /-- `__enter__` of the context -/
  | begin (k : Nat)
  /-- `__exit__` of it -/
  | finish (k : Nat)
  /-- `is_alive` or `join` of a thread notices that it ended -/
  | notice (k : Nat)
deriving DecidableEq, Repr

def put {α : Type} (f : Nat → α) (k : Nat) (v : α) : Nat → α := fun i => if i = k then v else f i

def step (s : State) : Op → State
  | .maybe t =>
    if s.pcs t = .idle then
      if s.waiter then { s with pcs := put s.pcs t (.got .already) } else { s with pcs := put s.pcs t .enter }
    else s
  | .run t =>
    if s.pcs t = .idle then
      if s.running then { s with pcs := put s.pcs t (.got .caller) }
      else if !s.started then
        if s.setStarted then { s with started := true, pcs := put s.pcs t (.got .runner) }
        else { s with pcs := put s.pcs t .enter }
      else if !s.isStopped then { s with pcs := put s.pcs t (.got .caller) }
      else { s with pcs := put s.pcs t (.got .raised) }
    else s
  | .check t =>
    if s.pcs t = .enter then { s with pcs := put s.pcs t (if s.setStarted then .waiting else .starting) } else s
  | .start t =>
    if s.pcs t = .starting then
      if s.setStarted then { s with waiter := true, pcs := put s.pcs t (.got .raised) }
      else { s with workers := put s.workers s.made (some .born), made := s.made + 1, pcs := put s.pcs t .spawned }
    else s
  | .up t => if s.pcs t = .spawned ∧ s.setStarted = true then { s with pcs := put s.pcs t .waiting } else s
  | .woke t => if s.pcs t = .waiting ∧ s.waiter = true then { s with pcs := put s.pcs t (.got .done) } else s
  | .boot k => if s.workers k = some .born then { s with setStarted := true, workers := put s.workers k (some .begun) } else s
  | .get k =>
    if s.workers k = some .begun then
      if s.running then { s with workers := put s.workers k (some .died) }
      else if !s.started then { s with started := true, workers := put s.workers k (some .runner) }
      else { s with workers := put s.workers k (some .died) }
    else s
  | .begin k =>
    if s.workers k = some .runner then
      if s.running then { s with waiter := true, workers := put s.workers k (some .died) }
      else { s with running := true, waiter := true, workers := put s.workers k (some .looping) }
    else s
  | .finish k => if s.workers k = some .looping then { s with running := false, workers := put s.workers k (some .ended) } else s
  | .notice k => if s.workers k = some .ended then { s with isStopped := true } else s

def run (s : State) (ops : List Op) : State := ops.foldl step s

end Verif.Life
