/-
Model of the semaphores of the asyncio extension.

Source: `/repo/scarletio/ext/asyncio/asyncio.py` `1571-1696`, `Semaphore` and `BoundedSemaphore`.

Every call of `acquire` gets a fresh number. As in `Verif.Lock.Model`: a call which awaits a
future is resumed by the ready queue of the loop; cancelling it cancels the future if that is
pending, otherwise `CancelledError` is thrown in at its next step.
-/

namespace Verif.Asyncio.Sem

/-- How a resumed call goes on. -/
inductive Go where
  /-- Its future has a result. -/
  | ok
  /-- Its future was cancelled. -/
  | cancelled
  /-- Its future has a result, but its task was cancelled after that. -/
  | late
deriving DecidableEq, Repr

/-- `waiters` is `_waiters`, with whether the future is cancelled; `ready` are the calls which
the loop will resume; `got` are the calls which returned, in order; `failed` those which
raised. -/
structure S where
  value : Nat
  bound : Option Nat
  next : Nat
  waiters : List (Nat × Bool)
  ready : List (Nat × Go)
  got : List Nat
  failed : List Nat
deriving DecidableEq, Repr

/-- `__new__` (`1586-1603`, `1687-1690`). -/
def S.new (value : Nat) (bounded : Bool) : S :=
  ⟨value, if bounded then some value else none, 0, [], [], [], []⟩

/-- `_wake_up_next` (`1624-1628`), on the waiters: the woken one and those who are left. -/
def popNext : List (Nat × Bool) → Option Nat × List (Nat × Bool)
  | [] => (none, [])
  | (_, true) :: l => popNext l
  | (i, false) :: l => (some i, l)

def S.wakeUpNext (s : S) : S :=
  { s with waiters := (popNext s.waiters).2
           ready := s.ready ++ (match (popNext s.waiters).1 with | none => [] | some i => [(i, .ok)]) }

/-- The head of the loop of `acquire` (`1644-1659`) for a call. -/
def S.enter (s : S) (i : Nat) : S :=
  if s.value ≤ 0 then { s with waiters := s.waiters ++ [(i, false)] }
  else { s with value := s.value - 1, got := s.got ++ [i] }

inductive Op where
  | acquire
  | release
  /-- The task of a call is cancelled. -/
  | cancel (i : Nat)
  /-- The loop resumes the next call. -/
  | run
deriving DecidableEq, Repr

/-- `release` (`1662-1668`, `1692-1696`). -/
def S.release (s : S) : S :=
  match s.bound with
  | none => S.wakeUpNext { s with value := s.value + 1 }
  | some b => if s.value ≥ b then s else S.wakeUpNext { s with value := s.value + 1 }

/-- Cancelling the task of a suspended call. -/
def S.cancel (s : S) (i : Nat) : S :=
  if (i, false) ∈ s.waiters then
    { s with waiters := s.waiters.map (fun w => if w = (i, false) then (i, true) else w)
             ready := s.ready ++ [(i, .cancelled)] }
  else { s with ready := s.ready.map (fun w => if w = (i, .ok) then (i, .late) else w) }

/-- A call is resumed (`1648-1657`). -/
def S.resume (s : S) : S :=
  match s.ready with
  | [] => s
  | (i, .ok) :: l => S.enter { s with ready := l } i
  | (i, .cancelled) :: l => { s with ready := l, failed := s.failed ++ [i] }
  | (i, .late) :: l =>
    let s := { s with ready := l, failed := s.failed ++ [i] }
    if s.value > 0 then s.wakeUpNext else s

def step (s : S) : Op → S
  | .acquire => S.enter { s with next := s.next + 1 } s.next
  | .release => s.release
  | .cancel i => s.cancel i
  | .run => s.resume

def run (s : S) (l : List Op) : S := l.foldl step s

end Verif.Asyncio.Sem
