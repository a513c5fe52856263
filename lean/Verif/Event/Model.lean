/-! Model of `Event` (`core/traps/event.py`).

Waiting calls are numbered in the order in which they are made. Of `Future` and `Task` the model keeps what matters here: a call
awaiting a future is put on the loop's ready queue when the future completes; cancelling a call cancels its future if that is
pending, otherwise `CancelledError` is thrown in at its next step (task.py, `Verif.Task.Model`). -/
namespace Verif.Event

structure State where
  value : Bool := false
  next : Nat := 0
  /-- `_waiters`: the numbers of the calls the futures belong to, with `true` for a cancelled future -/
  waiters : List (Nat × Bool) := []
  /-- the loop's ready queue; `false` if the call will meet a `CancelledError` -/
  ready : List (Nat × Bool) := []
deriving DecidableEq, Repr

inductive Op where
  | set
  | clear
  /-- `await event` / `await event.wait()` -/
  | wait
  /-- the task of the call is cancelled -/
  | cancel (id : Nat)
  /-- the loop runs the next resumed call -/
  | run
deriving DecidableEq, Repr

inductive Out where
  | returned (id : Nat)
  | suspended (id : Nat)
  | cancelledError (id : Nat)
  | unit
deriving DecidableEq, Repr

def State.step (s : State) : Op → State × Out
  -- 53-66; `set_result_if_pending` leaves cancelled futures alone
  | .set =>
    if s.value then (s, .unit)
    else
      ({ s with
          value := true
          waiters := []
          ready := s.ready ++ (s.waiters.filter fun p => !p.2).map fun p => (p.1, true) }, .unit)
  -- 69-73
  | .clear => ({ s with value := false }, .unit)
  -- 76-87
  | .wait =>
    let id := s.next
    let s := { s with next := id + 1 }
    if s.value then (s, .returned id)
    else ({ s with waiters := s.waiters ++ [(id, false)] }, .suspended id)
  | .cancel id =>
    if (id, false) ∈ s.waiters then
      ({ s with
          waiters := s.waiters.map fun p => if p.1 = id then (p.1, true) else p
          ready := s.ready ++ [(id, false)] }, .unit)
    else ({ s with ready := s.ready.map fun p => if p.1 = id then (p.1, false) else p }, .unit)
  | .run =>
    match s.ready with
    | [] => (s, .unit)
    | (id, true) :: ready => ({ s with ready := ready }, .returned id)
    | (id, false) :: ready => ({ s with ready := ready }, .cancelledError id)

def State.runAll (s : State) (ops : List Op) : State := ops.foldl (fun s op => (s.step op).1) s

/-- What the operations of a history returned. -/
def trace (s : State) : List Op → List (Op × Out)
  | [] => []
  | op :: ops => (op, (s.step op).2) :: trace (s.step op).1 ops

end Verif.Event
