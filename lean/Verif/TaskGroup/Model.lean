/-! Model of `TaskGroup` (`core/traps/task_group.py`).

Futures are named by numbers; waiters (the futures returned by the `wait_*` methods) by a counter. Python's sets are lists without
duplicates; `done.pop()` and iteration over `done` choose an arbitrary element, so the operations carry the choice. Of `Future` the
model keeps the outcome kind, the group's callbacks registered on it, and that callbacks are run by the loop in the order in which
they were scheduled. The constructor's `tasks`, `iter_futures` and the cancelling helpers (`cancel_all` etc., which cancel
futures one by one) are not modelled; `exhaust` is `pop_done` and `wait_next`. -/
namespace Verif.TaskGroup

inductive Status where
  | pending | result | raised | cancelled
deriving DecidableEq, Repr

/-- The handler generators, each with the state it has between two `send`s. -/
inductive Handler where
  /-- 105-122 -/
  | next
  /-- 125-153 -/
  | first
  /-- 156-186 -/
  | firstPop
  /-- 189-221 -/
  | exception
  /-- 224-259 -/
  | exceptionPop
  /-- 262-294 -/
  | exceptionOrCancellation
  /-- 297-332 -/
  | exceptionOrCancellationPop
  /-- 335-360 -/
  | firstN (doneCount required : Nat)
  /-- 363-389 -/
  | all
deriving DecidableEq, Repr

/-- The handlers that take the future they return out of the group. -/
def Handler.pops : Handler → Bool
  | .firstPop | .exceptionPop | .exceptionOrCancellationPop => true
  | _ => false

/-- What a waiter propagates. -/
inductive Res where
  | none
  | future (x : Nat)
  | count (n : Nat)
deriving DecidableEq, Repr

/-- Callbacks scheduled on the loop. -/
inductive Ev where
  /-- `_waited_done_callback(future)` -/
  | waited (x : Nat)
  /-- `_waiter_done_callback(waiter)` -/
  | waiter (w : Nat)
deriving DecidableEq, Repr

structure State where
  status : Nat → Status := fun _ => .pending
  /-- how many times the group's callback is registered on a future -/
  registered : Nat → Nat := fun _ => 0
  pending : List Nat := []
  done : List Nat := []
  next : Nat := 0
  /-- `waiters`, in insertion order; `true` if the waiter was cancelled -/
  waiters : List (Nat × Handler × Bool) := []
  ready : List Ev := []

inductive Op where
  /-- `add_future` / `add_awaitable` / `create_*` -/
  | add (x : Nat)
  /-- the future completes -/
  | complete (x : Nat) (st : Status)
  /-- `pop_done`; the element chosen by `set.pop` -/
  | popDone (choice : Nat)
  /-- a `wait_*` method; the element chosen by `done.pop()` or by iteration over `done` -/
  | wait (h : Handler) (choice : Nat)
  /-- the waiter is cancelled -/
  | cancelWaiter (w : Nat)
  /-- the loop runs the next callback -/
  | run
deriving DecidableEq, Repr

/-- What an operation made visible. -/
structure Out where
  /-- the return value of `pop_done` -/
  popped : Option Nat := none
  /-- waiters that completed, with their results -/
  finished : List (Nat × Handler × Res) := []
deriving DecidableEq, Repr

def insert (l : List Nat) (x : Nat) : List Nat := if x ∈ l then l else l ++ [x]

/-- Whether an outcome satisfies the waiter: `_state & FUTURE_STATE_RESULT_RAISE` and so on. -/
def Handler.accepts : Handler → Status → Bool
  | .exception, st | .exceptionPop, st => st = .raised
  | .exceptionOrCancellation, st | .exceptionOrCancellationPop, st => st = .raised ∨ st = .cancelled
  | _, _ => true

/-- `handler.send(future)`: finished with `(should_add_to_done, result)`, or goes on with a new state. -/
def Handler.send (h : Handler) (x : Nat) (st : Status) (nonePending : Bool) : (Bool × Res) ⊕ Handler :=
  match h with
  | .next => .inl (true, .none)
  | .first => .inl (true, .future x)
  | .firstPop => .inl (false, .future x)
  | .exception | .exceptionOrCancellation =>
    if h.accepts st then .inl (true, .future x) else if nonePending then .inl (true, .none) else .inr h
  | .exceptionPop | .exceptionOrCancellationPop =>
    if h.accepts st then .inl (false, .future x) else if nonePending then .inl (true, .none) else .inr h
  | .firstN d r => if d + 1 ≥ r then .inl (true, .count (d + 1)) else .inr (.firstN (d + 1) r)
  | .all => if nonePending then .inl (true, .none) else .inr .all

/-- The loop over `waiters` in `_waited_done_callback` (456-484): remaining waiters, finished waiters whose future was still
pending, whether all handlers agreed to add the future to `done`, and the finished waiters' done callbacks. -/
def sendAll (x : Nat) (st : Status) (nonePending : Bool) :
    List (Nat × Handler × Bool) → List (Nat × Handler × Bool) × List (Nat × Handler × Res) × Bool × List Ev
  | [] => ([], [], true, [])
  | (w, h, cancelled) :: l =>
    let (rest, fin, add, evs) := sendAll x st nonePending l
    match h.send x st nonePending with
    | .inr h' => ((w, h', cancelled) :: rest, fin, add, evs)
    | .inl (a, r) =>
      -- `set_result_if_pending`
      if cancelled then (rest, fin, a && add, evs) else (rest, (w, h, r) :: fin, a && add, .waiter w :: evs)

/-- `_waited_done_callback` (445-488). -/
def State.waited (s : State) (x : Nat) : State × Out :=
  let pending := s.pending.filter (· ≠ x)
  let (waiters, fin, add, evs) := sendAll x (s.status x) (decide (pending = [])) s.waiters
  ({ s with
      pending := pending
      waiters := waiters
      done := if add then insert s.done x else s.done
      ready := s.ready ++ evs }, { finished := fin })

/-- `add_future` (538-570). -/
def State.add (s : State) (x : Nat) : State × Out :=
  if s.status x = .pending then
    ({ s with
        registered := fun y => if y = x then s.registered y + 1 else s.registered y
        pending := insert s.pending x }, {})
  else s.waited x

/-- The future completes; completing a done future does nothing. -/
def State.complete (s : State) (x : Nat) (st : Status) : State :=
  if s.status x = .pending ∧ st ≠ .pending then
    { s with
      status := fun y => if y = x then st else s.status y
      registered := fun y => if y = x then 0 else s.registered y
      ready := s.ready ++ List.replicate (s.registered x) (.waited x) }
  else s

/-- The first `handler.send(None)` of a waiter: finished at once with a result and the new `done`, or the handler. -/
def State.start (s : State) (h : Handler) (choice : Nat) : (Res × List Nat) ⊕ Handler :=
  match h with
  | .next => .inr .next
  | .first =>
    if choice ∈ s.done then .inl (.future choice, s.done)
    else if s.pending = [] then .inl (.none, s.done) else .inr .first
  | .firstPop =>
    if choice ∈ s.done then .inl (.future choice, s.done.erase choice)
    else if s.pending = [] then .inl (.none, s.done) else .inr .firstPop
  | .exception | .exceptionOrCancellation =>
    if choice ∈ s.done ∧ h.accepts (s.status choice) then .inl (.future choice, s.done)
    else if s.pending = [] then .inl (.none, s.done) else .inr h
  | .exceptionPop | .exceptionOrCancellationPop =>
    if choice ∈ s.done ∧ h.accepts (s.status choice) then .inl (.future choice, s.done.erase choice)
    else if s.pending = [] then .inl (.none, s.done) else .inr h
  | .firstN _ r => if s.done.length ≥ r then .inl (.count s.done.length, s.done) else .inr (.firstN s.done.length r)
  | .all => if s.pending = [] then .inl (.none, s.done) else .inr .all

/-- Whether the choice is one Python can make: a member (accepted by the handler) if there is one. -/
def State.choiceOk (s : State) (h : Handler) (choice : Nat) : Prop :=
  (∃ x ∈ s.done, h.accepts (s.status x) = true) → choice ∈ s.done ∧ h.accepts (s.status choice) = true

/-- `_add_handler` (509-534). -/
def State.wait (s : State) (h : Handler) (choice : Nat) : State × Out :=
  let w := s.next
  match s.start h choice with
  | .inl (r, done) => ({ s with next := w + 1, done := done }, { finished := [(w, h, r)] })
  | .inr h' => ({ s with next := w + 1, waiters := s.waiters ++ [(w, h', false)] }, {})

def State.step (s : State) : Op → State × Out
  | .add x => s.add x
  | .complete x st => (s.complete x st, {})
  -- 664-674
  | .popDone choice =>
    if choice ∈ s.done then ({ s with done := s.done.erase choice }, { popped := some choice }) else (s, {})
  | .wait h choice => s.wait h choice
  | .cancelWaiter w =>
    if s.waiters.any (fun p => p.1 = w ∧ p.2.2 = false) then
      ({ s with
          waiters := s.waiters.map fun p => if p.1 = w then (p.1, p.2.1, true) else p
          ready := s.ready ++ [.waiter w] }, {})
    else (s, {})
  | .run =>
    match s.ready with
    | [] => (s, {})
    | .waited x :: ready => { s with ready := ready }.waited x
    -- 491-506
    | .waiter w :: ready => ({ s with ready := ready, waiters := s.waiters.filter (·.1 ≠ w) }, {})

def State.runAll (s : State) (ops : List Op) : State := ops.foldl (fun s op => (s.step op).1) s

/-- What the operations of a history made visible. -/
def trace (s : State) : List Op → List (Op × Out)
  | [] => []
  | op :: ops => (op, (s.step op).2) :: trace (s.step op).1 ops

end Verif.TaskGroup
