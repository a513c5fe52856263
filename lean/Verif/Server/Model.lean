/-
Model of servers and of how the event loop accepts their connections.

Source: `/repo/scarletio/core/event_loop/server.py` (all of it), `/repo/scarletio/core/event_loop/event_loop.py`
`965-1128` (`_start_serving`, `_stop_serving`, `_accept_connection`, `_accept_connection_task`) and
`/repo/scarletio/core/protocols_and_transports/transport_layer.py` `570-575`, `688-697` (where a transport is attached
to and detached from its server). The server has one socket. What the system answers to `accept` is given with the
operation.
-/
namespace Verif.Server

/-- What `socket.accept()` comes to. -/
inductive Accept where
  | connection (c : Nat)
  /-- `BlockingIOError`, `InterruptedError`, `ConnectionAbortedError`. -/
  | empty
  /-- `EMFILE`, `ENFILE`, `ENOBUFS`, `ENOMEM`. -/
  | noResources
  /-- Any other `OSError`. -/
  | failed
deriving DecidableEq, Repr

/-- `isOpen` is whether `sockets` is not `None`; `waiters` is `close_waiters`, with whether the future was cancelled;
`reader` is whether the reader callback of the socket is registered; `retries` are the calls of `_start_serving` which
are scheduled; `tasks` are the accepted connections of which the task did not run yet; `transports` those which are
attached; `returned` are the calls of `wait_closed` which returned; `raised` counts the exceptions of callbacks. -/
structure S where
  backlog : Nat
  isOpen : Bool
  serving : Bool
  active : Int
  waiters : Option (List (Nat × Bool))
  next : Nat
  returned : List Nat
  reader : Bool
  retries : Nat
  tasks : List Nat
  transports : List Nat
  raised : Nat
deriving DecidableEq, Repr

/-- `__init__` (`server.py` `39-68`). -/
def S.new (backlog : Nat) : S := ⟨backlog, true, false, 0, some [], 0, [], false, 0, [], [], 0⟩

/-- The loop of `_wake_up_close_waiters` (`110-111`): those who are woken, and whether `set_result` raised, because
a future was done already. -/
def wakeLoop : List (Nat × Bool) → List Nat × Bool
  | [] => ([], false)
  | (_, true) :: _ => ([], true)
  | (i, false) :: l => (i :: (wakeLoop l).1, (wakeLoop l).2)

/-- `_wake_up_close_waiters` (`100-111`). -/
def S.wakeUp (s : S) : S :=
  match s.waiters with
  | none => s
  | some l =>
    { s with waiters := none, returned := s.returned ++ (wakeLoop l).1, raised := s.raised + (if (wakeLoop l).2 then 1 else 0) }

/-- `_attach` (`77-81`). -/
def S.attach (s : S) : S := { s with active := s.active + 1 }

/-- `_detach` (`84-97`). -/
def S.detach (s : S) : S :=
  let s := { s with active := s.active - 1 }
  if s.active ≠ 0 then s
  else if s.isOpen then s
  else s.wakeUp

/-- `close` (`114-128`), with `_stop_serving` (`event_loop.py` `993-1003`). -/
def S.close (s : S) : S :=
  if s.isOpen = false then s
  else
    let s := { s with isOpen := false, reader := false, serving := false }
    if s.active = 0 then s.wakeUp else s

/-- `start` (`131-151`): iterating over `None` raises. -/
def S.start (s : S) : S :=
  if s.serving then s
  else
    let s := { s with serving := true }
    if s.isOpen then { s with reader := true } else { s with raised := s.raised + 1 }

/-- `wait_closed` (`154-170`). -/
def S.waitClosed (s : S) : S :=
  let i := s.next
  let s := { s with next := s.next + 1 }
  if s.isOpen = false then { s with returned := s.returned ++ [i] }
  else
    match s.waiters with
    | none => { s with returned := s.returned ++ [i] }
    | some l => { s with waiters := some (l ++ [(i, false)]) }

/-- The loop of `_accept_connection` (`1029-1057`); a failed `accept` for want of resources does not end it. -/
def S.acceptLoop : Nat → List Accept → S → S
  | 0, _, s => s
  | _ + 1, [], s => s
  | n + 1, .connection c :: l, s => S.acceptLoop n l { s with tasks := s.tasks ++ [c] }
  | _ + 1, .empty :: _, s => s
  | n + 1, .noResources :: l, s => S.acceptLoop n l { s with reader := false, retries := s.retries + 1 }
  | _ + 1, .failed :: _, s => { s with raised := s.raised + 1 }

inductive Op where
  | start
  | close
  | waitClosed
  /-- The task of a call of `wait_closed` is cancelled. -/
  | cancel (i : Nat)
  /-- The socket is readable; what the following calls of `accept` come to. -/
  | readable (l : List Accept)
  /-- The task of the oldest accepted connection runs: its transport is made. -/
  | task
  /-- The connection of a transport is lost: `_call_connection_lost`. -/
  | lost (c : Nat)
  /-- A scheduled call of `_start_serving` runs; a closed socket has no number, so `add_reader` raises. -/
  | retry
deriving DecidableEq, Repr

def step (s : S) : Op → S
  | .start => s.start
  | .close => s.close
  | .waitClosed => s.waitClosed
  | .cancel i => { s with waiters := s.waiters.map (fun l => l.map (fun w => if w.1 = i then (i, true) else w)) }
  | .readable l => if s.reader then S.acceptLoop s.backlog l s else s
  | .task =>
    match s.tasks with
    | [] => s
    | c :: l => S.attach { s with tasks := l, transports := s.transports ++ [c] }
  | .lost c => if c ∈ s.transports then S.detach { s with transports := s.transports.erase c } else s
  | .retry =>
    if s.retries = 0 then s
    else
      let s := { s with retries := s.retries - 1 }
      if s.isOpen then { s with reader := true } else { s with raised := s.raised + 1 }

def run (s : S) (l : List Op) : S := l.foldl step s

end Verif.Server
