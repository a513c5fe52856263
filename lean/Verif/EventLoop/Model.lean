/-! Model of the scheduling of `EventThread` (`core/event_loop/event_loop.py`, `handles.py`): `call_soon`,
`call_soon_thread_safe`, `call_at`/`call_after`(`_weak`), `Handle.cancel`, `wake_up` and `runner`.

Time is a natural number of clock units. What callbacks do is modelled by operations between two `runOne`s, so a history covers
callbacks that schedule and cancel. `_scheduled` is a heap: only that its head is some handle with the least `when` is used, so the
operations carry the head. A weak timer whose function is collected is a `cancel`. Readiness of sockets other than the wake-up
socket is a number of fresh handles. -/
namespace Verif.EventLoop

inductive Kind where
  /-- `Handle` of `call_soon`, or of a ready socket -/
  | soon
  /-- `TimerHandle` with its `when` -/
  | timer (w : Nat)
  /-- the reader of the wake-up socket, `empty_self_socket` (927-940) -/
  | wakeReader
deriving DecidableEq, Repr

/-- Where `runner` (645-712) is. -/
inductive Phase where
  /-- in `while scheduled`, with the limit computed at 661 -/
  | collect (limit : Nat)
  /-- in `selector.select(timeout)`: until when, if not forever -/
  | select (until_ : Option Nat)
  /-- in `while ready` -/
  | drain
  /-- returned -/
  | off
deriving DecidableEq, Repr

structure State where
  resolution : Nat
  now : Nat := 0
  phase : Phase := .drain
  shouldRun : Bool := true
  next : Nat := 0
  /-- what a handle is -/
  kind : Nat → Kind := fun _ => .soon
  cancelled : List Nat := []
  /-- `_ready` -/
  ready : List Nat := []
  /-- `_scheduled` -/
  scheduled : List Nat := []
  /-- the wake-up socket has data -/
  byte : Bool := false
  /-- other threads between the append and `wake_up` in `call_soon_thread_safe` -/
  wakers : Nat := 0
  /-- ghost: the number of handles created before the last iteration began -/
  mark : Nat := 0

/-- The `when` of a handle in `_scheduled`. -/
def State.whenOf (s : State) (i : Nat) : Nat :=
  match s.kind i with
  | .timer w => w
  | _ => 0

inductive Op where
  | tick (d : Nat)
  /-- `call_soon`, from the loop's thread -/
  | callSoon
  /-- `call_soon_thread_safe`, up to the append -/
  | callSoonThreadSafe
  /-- `wake_up` of a `call_soon_thread_safe` -/
  | wakeUp
  /-- `call_at` / `call_after`, from the loop's thread -/
  | callAt (w : Nat)
  | cancel (i : Nat)
  /-- `_stop` -/
  | stop
  /-- `while self.should_run` and 661 -/
  | iterate
  /-- one round of `while scheduled` that removes the head -/
  | collect (head : Nat)
  /-- the end of `while scheduled`; the timeout is computed (674-680) -/
  | endCollect (head : Nat)
  /-- `select` returns, with a number of ready sockets -/
  | selected (n : Nat)
  /-- one round of `while ready` -/
  | runOne
deriving DecidableEq, Repr

inductive Out where
  | none
  /-- a handle in `_ready` was returned -/
  | soon (i : Nat)
  /-- a handle in `_scheduled` was returned -/
  | timer (i : Nat)
  /-- moved from `_scheduled` to `_ready` -/
  | collected (i : Nat)
  /-- removed from `_scheduled`, as cancelled -/
  | dropped (i : Nat)
  /-- handles of ready sockets were put into `_ready` -/
  | sockets (l : List Nat)
  /-- an iteration began -/
  | began
  | ran (i : Nat)
  | skipped (i : Nat)
deriving DecidableEq, Repr

/-- `head` can be the head of the heap. -/
def State.isHead (s : State) (head : Nat) : Bool :=
  head ∈ s.scheduled ∧ ∀ u ∈ s.scheduled, s.whenOf head ≤ s.whenOf u

/-- A new handle. -/
def State.create (s : State) (k : Kind) : State :=
  { s with next := s.next + 1, kind := fun i => if i = s.next then k else s.kind i }

def State.step (s : State) : Op → State × Out
  | .tick d => ({ s with now := s.now + d }, .none)
  -- 360-382
  | .callSoon =>
    if s.phase = .drain then
      ({ s.create .soon with ready := s.ready ++ [s.next] }, .soon s.next)
    else (s, .none)
  -- 385-409
  | .callSoonThreadSafe =>
    if s.phase = .off then (s, .none)
    else ({ s.create .soon with ready := s.ready ++ [s.next], wakers := s.wakers + 1 }, .soon s.next)
  -- 944-962
  | .wakeUp => if s.wakers = 0 then (s, .none) else ({ s with wakers := s.wakers - 1, byte := true }, .none)
  -- 242-293
  | .callAt w =>
    if s.phase = .drain then
      ({ s.create (.timer w) with scheduled := s.scheduled ++ [s.next] }, .timer s.next)
    else (s, .none)
  -- handles.py 129-134
  | .cancel i => ({ s with cancelled := i :: s.cancelled }, .none)
  -- 760-767
  | .stop => ({ s with shouldRun := false }, .none)
  | .iterate =>
    if s.phase = .drain ∧ s.ready = [] then
      if s.shouldRun then ({ s with phase := .collect (s.now + s.resolution), mark := s.next }, .began)
      else ({ s with phase := .off }, .none)
    else (s, .none)
  -- 662-672
  | .collect head =>
    match s.phase with
    | .collect limit =>
      if s.isHead head then
        if head ∈ s.cancelled then ({ s with scheduled := s.scheduled.erase head }, .dropped head)
        else if s.whenOf head ≥ limit then (s, .none)
        else ({ s with ready := s.ready ++ [head], scheduled := s.scheduled.erase head }, .collected head)
      else (s, .none)
    | _ => (s, .none)
  | .endCollect head =>
    match s.phase with
    | .collect limit =>
      if s.scheduled = [] ∨ (s.isHead head ∧ head ∉ s.cancelled ∧ s.whenOf head ≥ limit) then
        -- a timeout of zero or below is over at once
        let until_ := if s.ready ≠ [] then some s.now else if s.scheduled ≠ [] then some (s.whenOf head) else none
        ({ s with phase := .select until_ }, .none)
      else (s, .none)
    | _ => (s, .none)
  -- 682-703
  | .selected n =>
    match s.phase with
    | .select until_ =>
      if s.byte ∨ 0 < n ∨ (∃ u ∈ until_, u ≤ s.now) then
        let s' := { s with phase := .drain }
        let fresh := List.range' s.next n
        let s' := { s' with ready := s'.ready ++ fresh, next := s.next + n, kind := fun i => if s.next ≤ i then .soon else s.kind i }
        if s.byte then
          ({ s'.create .wakeReader with ready := s'.ready ++ [s'.next] }, .sockets (fresh ++ [s'.next]))
        else (s', .sockets fresh)
      else (s, .none)
    | _ => (s, .none)
  -- 707-710
  | .runOne =>
    if s.phase = .drain then
      match s.ready with
      | [] => (s, .none)
      | i :: ready =>
        if i ∈ s.cancelled then ({ s with ready := ready }, .skipped i)
        else ({ s with ready := ready, byte := if s.kind i = .wakeReader then false else s.byte }, .ran i)
    else (s, .none)

def State.init (resolution : Nat) : State := { resolution := resolution }

def State.runAll (s : State) (ops : List Op) : State := ops.foldl (fun s op => (s.step op).1) s

def trace (s : State) : List Op → List (Op × Out)
  | [] => []
  | op :: ops => (op, (s.step op).2) :: trace (s.step op).1 ops

end Verif.EventLoop
