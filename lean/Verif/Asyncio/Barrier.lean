/-
Model of the barriers of the asyncio extension.

Source: `/repo/scarletio/ext/asyncio/asyncio.py` `1699-1850`, `Barrier`. What a call does between two of its awaits is
one step; the lock of the condition only restricts the order of the steps, so every order is considered. `_wait` and
`_block` wait with `Condition.wait_for` (`1525-1537`).
-/
namespace Verif.Asyncio.Bar

/-- `_BarrierState` (`1699-1703`). -/
inductive St where | filling | draining | resetting | broken
deriving DecidableEq, Repr

/-- What the future of a call is. -/
inductive Wake where | pending | notified | cancelled
deriving DecidableEq, Repr

/-- A call of `wait`: in `_block` if it has no index, else in `_wait`. -/
structure Call where
  id : Nat
  index : Option Nat
  wake : Wake
deriving DecidableEq, Repr

/-- `trip`: the last one arrived; those who are at the barrier. `pass`: `wait` returned this index. -/
inductive Ev where
  | trip (ids : List Nat)
  | pass (id index : Nat)
  | error (id : Nat)
  | cancelled (id : Nat)
deriving DecidableEq, Repr

structure B where
  parties : Nat
  st : St
  count : Nat
  calls : List Call
  next : Nat
  log : List Ev
deriving DecidableEq, Repr

def B.new (parties : Nat) : B := ⟨parties, .filling, 0, [], 0, []⟩

/-- A pending future gets its result. -/
def Call.notify (c : Call) : Call := match c.wake with
  | .pending => { c with wake := .notified }
  | _ => c

/-- `_cond.notify_all()`. -/
def B.notifyAll (b : B) : B := { b with calls := b.calls.map Call.notify }

/-- The state after everybody left (`1793-1795`). -/
def St.left : St → St
  | .resetting => .filling
  | .draining => .filling
  | s => s

/-- The `finally` of `wait` (`1768-1770`) with `_exit` (`1792-1796`). -/
def B.exit (b : B) : B :=
  if b.count - 1 = 0 then B.notifyAll { b with count := b.count - 1, st := b.st.left }
  else { b with count := b.count - 1 }

/-- Whether somebody who arrives has to wait first (`1774-1777`). -/
def St.blocks : St → Bool
  | .draining => true
  | .resetting => true
  | _ => false

/-- The ids of those who wait for the barrier to trip. -/
def B.inside (b : B) : List Nat := (b.calls.filter (fun c => c.index.isSome)).map (·.id)

/-- `wait` after the first `wait_for` of `_block` (`1759-1767`, `1779-1790`). -/
def B.enter (b : B) (id : Nat) : B :=
  if b.st = .broken then { b with log := b.log ++ [.error id] }
  else if b.count + 1 = b.parties then
    let t : B := B.notifyAll { b with st := .draining, count := b.count + 1, log := b.log ++ [.trip (b.inside ++ [id]), .pass id b.count] }
    t.exit
  else { b with count := b.count + 1, calls := b.calls ++ [⟨id, some b.count, .pending⟩] }

/-- `wait` is called. -/
def B.arrive (b : B) : B :=
  let t := { b with next := b.next + 1 }
  if b.st.blocks then { t with calls := b.calls ++ [⟨b.next, none, .pending⟩] }
  else t.enter b.next

/-- A call is removed from those who wait. -/
def B.drop (b : B) (id : Nat) : B := { b with calls := b.calls.eraseP (fun c => c.id == id) }

/-- A call of which the future is done goes on. -/
def B.go (b : B) (id : Nat) : B :=
  match b.calls.find? (fun c => c.id == id) with
  | none => b
  | some c =>
    match c.wake, c.index with
    | .pending, _ => b
    | .cancelled, none => { b.drop id with log := b.log ++ [.cancelled id] }
    | .cancelled, some _ => B.exit { b.drop id with log := b.log ++ [.cancelled id] }
    | .notified, none =>
      if b.st.blocks then { b.drop id with calls := (b.drop id).calls ++ [⟨id, none, .pending⟩] }
      else (b.drop id).enter id
    | .notified, some i =>
      if b.st = .filling then { b.drop id with calls := (b.drop id).calls ++ [⟨id, some i, .pending⟩] }
      else if b.st = .draining then B.exit { b.drop id with log := b.log ++ [.pass id i] }
      else B.exit { b.drop id with log := b.log ++ [.error id] }

inductive Op where
  | arrive
  | go (id : Nat)
  | cancel (id : Nat)
  | reset
  | abort
deriving DecidableEq, Repr

def step (b : B) : Op → B
  | .arrive => b.arrive
  | .go id => b.go id
  | .cancel id => { b with calls := b.calls.map (fun c => if c.id = id then { c with wake := .cancelled } else c) }
  | .reset => B.notifyAll { b with st := if 0 < b.count then .resetting else .filling }
  | .abort => B.notifyAll { b with st := .broken }

def run (b : B) (l : List Op) : B := l.foldl step b

end Verif.Asyncio.Bar
