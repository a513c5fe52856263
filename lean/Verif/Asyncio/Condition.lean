/-
Model of the conditions of the asyncio extension.

Source: `/repo/scarletio/ext/asyncio/asyncio.py` `1408-1568`, `Condition`; its lock is the one of
`Verif.Lock.Model` with size `1`. The condition is used with `async with`: when `wait` raises, the block is left
and the lock is released (`1462-1464`). The calls of the lock and of the condition are resumed in any order.
-/
import Verif.Lock.Model

namespace Verif.Asyncio.Cond

/-- `waiters` is `_waiters`: the calls of `wait`, with whether their future is done; `again` are the calls of
`acquire` which `wait` makes; `notified` are the calls of `wait` whose future got its result. -/
structure C where
  lock : Lock.State
  waiters : List (Nat × Bool)
  next : Nat
  again : List Nat
  notified : List Nat
deriving DecidableEq, Repr

def C.new : C := ⟨{ size := 1 }, [], 0, [], []⟩

/-- The calls of `wait` whose future is pending. -/
def C.pending (c : C) : List Nat := (c.waiters.filter (fun w => !w.2)).map (·.1)

/-- The loop of `notify` (`1554-1559`). -/
def notifyLoop : Nat → List (Nat × Bool) → List (Nat × Bool) × List Nat
  | _, [] => ([], [])
  | 0, l => (l, [])
  | n + 1, (i, true) :: l => ((i, true) :: (notifyLoop (n + 1) l).1, (notifyLoop (n + 1) l).2)
  | n + 1, (i, false) :: l => ((i, true) :: (notifyLoop n l).1, i :: (notifyLoop n l).2)

/-- `wait` could not take the lock again (`1515-1519`): a future is put in its place, and the block which is left
releases the lock. -/
def C.failed (c : C) : C :=
  let q := c.lock.q ++ [{ id := c.lock.next }]
  let lock := { c.lock with next := c.lock.next + 1 }
  match q with
  | [] => c
  | f :: q =>
    if f.cancelled then { c with lock := { lock with q := q } }
    else { c with lock := Lock.State.wake { lock with q := q } f.id true }

inductive Op where
  | acquire
  | release (holder : Nat)
  /-- A holder calls `wait` (`1483-1500`). -/
  | wait (holder : Nat)
  | notify (n : Nat)
  | notifyAll
  /-- A call of `wait` of which the future is done goes on: it takes the lock again. -/
  | wake (i : Nat)
  /-- The task of a call of `wait` is cancelled while it waits to be notified. -/
  | cancelWait (i : Nat)
  /-- The task of a call of `acquire` is cancelled while it waits. -/
  | cancel (id : Nat)
  /-- The loop runs the next resumed call of `acquire`. -/
  | run
deriving DecidableEq, Repr

/-- `notify` (`1540-1559`). -/
def C.notify (c : C) (n : Nat) : C :=
  if c.lock.isLocked then
    { c with waiters := (notifyLoop n c.waiters).1, notified := c.notified ++ (notifyLoop n c.waiters).2 }
  else c

def step (c : C) : Op → C
  | .acquire => { c with lock := c.lock.acquire.1 }
  | .release h => { c with lock := (c.lock.release h).1 }
  | .wait h =>
    if h ∈ c.lock.holders then
      { c with lock := (c.lock.release h).1, waiters := c.waiters ++ [(c.next, false)], next := c.next + 1 }
    else c
  | .notify n => c.notify n
  | .notifyAll => c.notify c.waiters.length
  | .wake i =>
    if (i, true) ∈ c.waiters then
      { c with waiters := c.waiters.erase (i, true), again := c.again ++ [c.lock.next], lock := c.lock.acquire.1 }
    else c
  | .cancelWait i => { c with waiters := c.waiters.map (fun w => if w = (i, false) then (i, true) else w) }
  | .cancel id => { c with lock := c.lock.cancel id }
  | .run =>
    match c.lock.run with
    | (lock, .cancelledError id) => if id ∈ c.again then C.failed { c with lock := lock } else { c with lock := lock }
    | (lock, _) => { c with lock := lock }

def run (c : C) (l : List Op) : C := l.foldl step c

end Verif.Asyncio.Cond
