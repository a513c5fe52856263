/-!
# Waiting for a future of another loop

Modelled code: `scarletio/core/traps/future_wrapper_async.py` (`_set_future_waiter_callback`
19–31, `wait` 137–220, `wait_for_completion` 224–286 which differs in what it answers only),
`Future.add_done_callback`, `remove_done_callback` (`future.py` 343–387) and
`_schedule_callbacks` (`event_loop.py` 482–490) of a running loop.

Any number of waits, each on some loop, for one future which belongs to yet another loop; the loops
are threads. Reading the state of the future and adding the callback are steps of their own, so that
the future may be completed in between. Completing the future with scheduling its callbacks is one
step (the area CrossThread takes it apart), as is setting the waiter of a wait, which is done by the
loop of the future (`True`) and by the timer (`False`). Not modelled: `propagate_cancellation`.
-/

namespace Verif.WrapAsync

/-- How a wait ends. `invalid`: `get_result` of a pending future. -/
inductive Answer
  | result (v : Nat) | timeout | interrupted | invalid
  deriving DecidableEq, Repr

/-- Where a wait is. -/
inductive Pc
  | idle
  /-- `future.is_done()` was false (line 176). -/
  | looked
  /-- In `add_done_callback`, which saw a pending future (`future.py` 361). -/
  | adding
  /-- `await waiter` (line 192). -/
  | waiting
  | ended (a : Answer)
  deriving DecidableEq, Repr

/-- Where the callback is: not there (any more), in `future._callbacks`, in the queue of the future's
loop. -/
inductive Cb
  | none | listed | ready
  deriving DecidableEq, Repr

/-- A wait. `timed`: a timeout was given. `timer`: its handle is scheduled. -/
structure W where
  pc : Pc := .idle
  timed : Bool := false
  cb : Cb := .none
  waiter : Option Bool := none
  timer : Bool := false
  deriving DecidableEq, Repr

/-- `fut`: with what the future was completed. -/
structure S where
  fut : Option Nat := none
  w : Nat → W := fun _ => {}

def put (f : Nat → W) (i : Nat) (x : W) : Nat → W := fun j => if j = i then x else f j

/-- `waiter.set_result_if_pending` (`future.py` 428–435). -/
def setPending (x : Option Bool) (b : Bool) : Option Bool :=
  match x with
  | some c => some c
  | none => some b

/-- `remove_done_callback`: one that is scheduled already is not found. -/
def removed : Cb → Cb
  | .listed => .none
  | .ready => .ready
  | .none => .none

/-- `future.get_result()`. -/
def getResult (s : S) : Answer :=
  match s.fut with
  | some v => .result v
  | none => .invalid

inductive Op
  /-- `wait` is entered. -/
  | begin (i : Nat) (timed : Bool)
  /-- `add_done_callback` reads the state. -/
  | addCheck (i : Nat)
  /-- It appends. -/
  | append (i : Nat)
  /-- The future is completed. -/
  | complete (v : Nat)
  /-- The loop of the future runs the callback. -/
  | runCb (i : Nat)
  /-- The timer is due. -/
  | fire (i : Nat)
  /-- The waiting task is continued. -/
  | resume (i : Nat)
  /-- The waiting task is cancelled. -/
  | interrupt (i : Nat)
  deriving Repr

/-- One step. -/
def step (s : S) : Op → S
  -- 175–177
  | .begin i timed =>
    match (s.w i).pc with
    | .idle =>
      match s.fut with
      | some v => { s with w := put s.w i { s.w i with pc := .ended (.result v) } }
      | none => { s with w := put s.w i { s.w i with pc := .looked, timed := timed } }
    | _ => s
  -- `future.py` 358–359, then 184–189
  | .addCheck i =>
    match (s.w i).pc with
    | .looked =>
      match s.fut with
      | some _ => { s with w := put s.w i { s.w i with pc := .waiting, cb := .ready, timer := (s.w i).timed } }
      | none => { s with w := put s.w i { s.w i with pc := .adding } }
    | _ => s
  -- `future.py` 361, then 184–189
  | .append i =>
    match (s.w i).pc with
    | .adding => { s with w := put s.w i { s.w i with pc := .waiting, cb := .listed, timer := (s.w i).timed } }
    | _ => s
  -- `future.py` 428–435, `event_loop.py` 488–490
  | .complete v =>
    match s.fut with
    | none =>
      { s with
        fut := some v
        w := fun i => if (s.w i).cb = .listed then { s.w i with cb := .ready } else s.w i }
    | some _ => s
  -- 30–31
  | .runCb i =>
    match (s.w i).cb with
    | .ready => { s with w := put s.w i { s.w i with cb := .none, waiter := setPending (s.w i).waiter true } }
    | _ => s
  -- 187
  | .fire i =>
    if (s.w i).timer then
      { s with w := put s.w i { s.w i with timer := false, waiter := setPending (s.w i).waiter false } }
    else s
  -- 192, 209–220
  | .resume i =>
    match (s.w i).pc, (s.w i).waiter with
    | .waiting, some true => { s with w := put s.w i { s.w i with pc := .ended (getResult s) } }
    | .waiting, some false =>
      { s with w := put s.w i { s.w i with pc := .ended .timeout, cb := removed (s.w i).cb } }
    | _, _ => s
  -- 193–207
  | .interrupt i =>
    match (s.w i).pc with
    | .waiting =>
      { s with w := put s.w i { s.w i with pc := .ended .interrupted, cb := removed (s.w i).cb, timer := false } }
    | _ => s

def run (s : S) : List Op → S
  | [] => s
  | o :: os => run (step s o) os

def start : S := {}

theorem run_append (s : S) (xs ys : List Op) : run s (xs ++ ys) = run (run s xs) ys := by
  induction xs generalizing s with
  | nil => rfl
  | cons x xs ih => exact ih (step s x)

end Verif.WrapAsync
