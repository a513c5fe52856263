/-
Model of `gather` and `wait` of the asyncio extension.

Source: `/repo/scarletio/ext/asyncio/asyncio.py` `3109-3177`, `wait`; `3343-3510`, `gather` and its callbacks. Futures
are named by numbers; the sets are lists without duplicates of which the order of iteration is any: the operation which
iterates over one carries the order. The task group (`Verif.TaskGroup`) is kept as the futures which are done and a
waiter. Timeouts, and what a cancelled gathering does to its futures, are not modelled.
-/
namespace Verif.Asyncio.Gather

inductive Outcome where
  | value (v : Nat)
  | error (e : Nat)
  | cancelled
deriving DecidableEq, Repr

def Outcome.ok : Outcome → Bool
  | .value _ => true
  | _ => false

/-- What a gathering has: the list of results, an exception, or it was cancelled. -/
inductive Res where
  | values (l : List Outcome)
  | failed (o : Outcome)
  | cancelled
deriving DecidableEq, Repr

/-- `{*coroutines_or_futures}`. -/
def distinct : List Nat → List Nat
  | [] => []
  | x :: l => x :: (distinct l).filter (· ≠ x)

/-- `every`: `return_exceptions`. `done` are the futures which are done, with their outcome; `waiter` is whether the
waiter of the task group is done. -/
structure G where
  args : List Nat
  every : Bool
  done : List (Nat × Outcome)
  waiter : Bool
  res : Option Res
deriving DecidableEq, Repr

/-- `gather` (`3466-3513`). Without futures it is done at once. -/
def gather (args : List Nat) (every : Bool) : G :=
  ⟨distinct args, every, [], false, if distinct args = [] then some (.values []) else none⟩

def G.isDone (g : G) (i : Nat) : Bool := g.done.any (fun p => p.1 == i)

/-- `wait_all` or `wait_exception_or_cancellation` is satisfied. -/
def G.satisfied (g : G) : Bool :=
  g.args.all g.isDone || (!g.every && g.done.any (fun p => !p.2.ok))

/-- A future of the group is done. -/
def G.finish (g : G) (i : Nat) (o : Outcome) : G :=
  if i ∈ g.args ∧ g.isDone i = false then
    let t := { g with done := g.done ++ [(i, o)] }
    { t with waiter := g.waiter || t.satisfied }
  else g

/-- The outcome of a future which is done. -/
def G.outcome (g : G) (i : Nat) : Outcome := ((g.done.find? (fun p => p.1 == i)).map (·.2)).getD .cancelled

/-- `_gatherer_done_callback_return_exceptions` (`3350-3373`) and `_gatherer_done_callback_raise` (`3384-3421`), which
iterate over the done futures in this order. -/
def G.answer (g : G) (order : List Nat) : Res :=
  let os := order.map g.outcome
  if g.every then .values os
  else match os.find? (fun o => !o.ok) with
    | some o => .failed o
    | none => .values os

/-- Whether this is an order of the futures which are done. -/
def G.isOrder (g : G) (order : List Nat) : Bool :=
  decide order.Nodup && order.all g.isDone && decide (order.length = g.done.length)

inductive Op where
  | finish (i : Nat) (o : Outcome)
  /-- The callback of the waiter runs. -/
  | callback (order : List Nat)
  /-- The gathering is cancelled. -/
  | cancel
deriving DecidableEq, Repr

def step (g : G) : Op → G
  | .finish i o => g.finish i o
  | .callback order =>
    if g.waiter = true ∧ g.res = none ∧ g.isOrder order = true then { g with res := some (g.answer order) } else g
  | .cancel => if g.res = none then { g with res := some .cancelled } else g

def run (g : G) (l : List Op) : G := l.foldl step g

/-! ### `wait` -/

inductive When where | firstCompleted | firstException | allCompleted
deriving DecidableEq, Repr

structure W where
  args : List Nat
  kind : When
  done : List (Nat × Outcome)
  waiter : Bool
  /-- The done and the pending futures it returned. -/
  ret : Option (List Nat × List Nat)
deriving DecidableEq, Repr

def waitFor (args : List Nat) (kind : When) : W := ⟨distinct args, kind, [], false, none⟩

def W.isDone (w : W) (i : Nat) : Bool := w.done.any (fun p => p.1 == i)

/-- The waiter which is used (`3162-3167`): `wait_first` or `wait_all`. -/
def W.satisfied (w : W) : Bool :=
  match w.kind with
  | .firstCompleted => !w.done.isEmpty
  | .firstException => !w.done.isEmpty
  | .allCompleted => w.args.all w.isDone

def W.finish (w : W) (i : Nat) (o : Outcome) : W :=
  if i ∈ w.args ∧ w.isDone i = false then
    let t := { w with done := w.done ++ [(i, o)] }
    { t with waiter := w.waiter || t.satisfied }
  else w

inductive WOp where
  | finish (i : Nat) (o : Outcome)
  /-- The task which waits goes on. -/
  | resume
deriving DecidableEq, Repr

def wstep (w : W) : WOp → W
  | .finish i o => w.finish i o
  | .resume =>
    if w.waiter = true ∧ w.ret = none then
      { w with ret := some (w.done.map (·.1), w.args.filter (fun i => !w.isDone i)) }
    else w

def wrun (w : W) (l : List WOp) : W := l.foldl wstep w

end Verif.Asyncio.Gather
