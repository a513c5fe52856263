/-! Model of `PayloadStream` (`core/protocols_and_transports/payload_stream.py`).

Consumers are tasks, given by numbers, that await the stream or iterate over it; each is resumed by the loop in a step of its own. Futures
are numbers too. Callbacks are numbers and do nothing. The protocol's `_resume_reading` (C60) is left out. -/
namespace Verif.PayloadStream

abbrev Bytes := List UInt8

/-- `STREAM_FLAG_WAIT_*`. -/
inductive Mode where
  | whole
  | chunk
deriving DecidableEq, Repr

/-- `STREAM_FLAG_DONE_*`. -/
inductive Done where
  | success
  | exception
  | cancelled
  | aborted
deriving DecidableEq, Repr

inductive Fut where
  | pending
  | result (chunk : Option Bytes)
  /-- finished with an exception, the stream being done in this way -/
  | exc (d : Done)
  | cancelled
deriving DecidableEq, Repr

/-- Where a consumer is. -/
inductive Consumer where
  | idle
  /-- in `yield from waiter` of `__await__` -/
  | whole (f : Nat)
  /-- in `await waiter` of `__aiter__` -/
  | iterating (f : Nat)
  /-- at the head of the loop of `__aiter__` -/
  | head
  | finished
deriving DecidableEq, Repr

structure State where
  /-- `_chunks` -/
  chunks : List Bytes := []
  mode : Option Mode := none
  done : Option Done := none
  /-- `_done_callbacks` -/
  callbacks : List Nat := []
  /-- `_waiter` -/
  waiter : Option Nat := none
  futs : Nat → Fut := fun _ => .pending
  nextFut : Nat := 0
  consumers : Nat → Consumer := fun _ => .idle
  /-- consumers to be cancelled when they are resumed -/
  toCancel : Nat → Bool := fun _ => false

inductive Op where
  | chunk (c : Bytes)
  /-- `set_done_success`, `set_done_exception`, `set_done_cancelled` -/
  | finish (d : Done)
  | addCallback (c : Nat)
  /-- a consumer begins to await -/
  | await (i : Nat)
  /-- a consumer begins to iterate -/
  | iterate (i : Nat)
  /-- a consumer is resumed, or asks for the next piece -/
  | resume (i : Nat)
  /-- a consumer's task is cancelled -/
  | cancel (i : Nat)
deriving DecidableEq, Repr

/-- What a consumer sees. -/
inductive Seen where
  | returned (data : Bytes)
  | yielded (c : Bytes)
  | stopped
  /-- the exception of a stream done in this way -/
  | raised (d : Done)
  | runtimeError
  | cancelledError
deriving DecidableEq, Repr

structure Out where
  /-- the returned boolean -/
  ok : Bool := false
  seen : Option (Nat × Seen) := none
  /-- callbacks run in this step -/
  ran : List Nat := []
deriving DecidableEq, Repr

def set {β : Type} (f : Nat → β) (i : Nat) (b : β) : Nat → β := fun j => if j = i then b else f j

/-- `set_result_if_pending`, `set_exception_if_pending`: whether it was pending. -/
def State.resolve (s : State) (f : Nat) (r : Fut) : State × Bool :=
  if s.futs f = .pending then ({ s with futs := set s.futs f r }, true) else (s, false)

/-- `set_done_success` 182, `set_done_cancelled` 205, `set_done_exception` 231, `_abort` 343. -/
def State.finish (s : State) (d : Done) : State × Out :=
  if s.done.isSome then (s, {})
  else
    let s := { s with done := some d }
    let s := match s.waiter with
      | none => s
      | some f => ({ s with waiter := none }.resolve f (if d = Done.success then .result none else .exc d)).1
    let s := if d = Done.cancelled ∨ d = Done.exception then { s with chunks := [] } else s
    -- `_run_done_callbacks` 301 pops from the end
    ({ s with callbacks := [] }, { ok := true, ran := s.callbacks.reverse })

/-- `_check_wait_flags` 395. -/
def State.checkWait (s : State) (m : Mode) : Option State :=
  match s.mode with
  | none => some { s with mode := some m }
  | some m' => if m' = m then some s else none

/-- `_check_raise_flags` 376. -/
def State.raises (s : State) : Option Done :=
  match s.done with
  | some .success => none
  | d => d

/-- Waiting on `_waiter`, created if needed. -/
def State.waitOn (s : State) (i : Nat) (c : Nat → Consumer) : State :=
  match s.waiter with
  | some f => { s with consumers := set s.consumers i (c f) }
  | none => { s with waiter := some s.nextFut, nextFut := s.nextFut + 1, futs := set s.futs s.nextFut .pending,
                     consumers := set s.consumers i (c s.nextFut) }

def State.leave (s : State) (i : Nat) (seen : Seen) : State × Out :=
  ({ s with consumers := set s.consumers i .finished }, { seen := some (i, seen) })

/-- The end of `__await__` (446-449). -/
def State.join (s : State) (i : Nat) : State × Out :=
  { s with chunks := [] }.leave i (.returned s.chunks.flatten)

/-- An exception inside the consumer: `self._abort(); raise`. -/
def State.interrupted (s : State) (i : Nat) (seen : Seen) : State × Out :=
  let r := s.finish .aborted
  let l := r.1.leave i seen
  (l.1, { l.2 with ran := r.2.ran })

/-- The loop of `__aiter__` (477-499), up to its `await` or `yield`. -/
def State.iterHead (s : State) (i : Nat) : State × Out :=
  match s.raises with
  | some d => s.leave i (.raised d)
  | none =>
    match s.chunks with
    | c :: chunks => ({ s with chunks, consumers := set s.consumers i .head }, { seen := some (i, .yielded c) })
    | [] =>
      if s.done = some .success then s.leave i .stopped
      else (s.waitOn i .iterating, {})

def State.step (s : State) : Op → State × Out
  -- 259-283
  | .chunk c =>
    if s.done.isSome then (s, {})
    else if s.mode = some .chunk then
      match s.waiter with
      | some f =>
        let r := { s with waiter := none }.resolve f (.result (some c))
        if r.2 then (r.1, { ok := true }) else ({ r.1 with chunks := r.1.chunks ++ [c] }, { ok := true })
      | none => ({ s with chunks := s.chunks ++ [c] }, { ok := true })
    else ({ s with chunks := s.chunks ++ [c] }, { ok := true })
  | .finish d => s.finish d
  -- 286-300
  | .addCallback c => if s.done.isSome then (s, { ran := [c] }) else ({ s with callbacks := s.callbacks ++ [c] }, {})
  -- 413-449
  | .await i =>
    if s.consumers i ≠ .idle then (s, {})
    else
      match s.checkWait .whole with
      | none => s.leave i .runtimeError
      | some s =>
        match s.raises with
        | some d => s.leave i (.raised d)
        | none => if s.done = some .success then s.join i else (s.waitOn i .whole, {})
  -- 452-476
  | .iterate i =>
    if s.consumers i ≠ .idle then (s, {})
    else
      match s.checkWait .chunk with
      | none => s.leave i .runtimeError
      | some s => s.iterHead i
  | .resume i =>
    match s.consumers i with
    | .idle | .finished => (s, {})
    | .head => if s.toCancel i then s.interrupted i .cancelledError else s.iterHead i
    | .whole f =>
      if s.futs f = .pending then (s, {})
      else if s.toCancel i then s.interrupted i .cancelledError
      else match s.futs f with
        | .pending => (s, {})
        | .result _ => s.join i
        | .exc d => s.interrupted i (.raised d)
        | .cancelled => s.interrupted i .cancelledError
    | .iterating f =>
      if s.futs f = .pending then (s, {})
      else if s.toCancel i then s.interrupted i .cancelledError
      else match s.futs f with
        | .pending => (s, {})
        | .result none => s.leave i .stopped
        | .result (some c) => ({ s with consumers := set s.consumers i .head }, { seen := some (i, .yielded c) })
        | .exc d => s.interrupted i (.raised d)
        | .cancelled => s.interrupted i .cancelledError
  -- cancelling a task cancels the future it waits for, or makes it raise when it is resumed
  | .cancel i =>
    match s.consumers i with
    | .idle | .finished => (s, {})
    | .head => ({ s with toCancel := set s.toCancel i true }, {})
    | .whole f | .iterating f =>
      if s.futs f = .pending then ({ s with futs := set s.futs f .cancelled }, {})
      else ({ s with toCancel := set s.toCancel i true }, {})

def State.runAll (s : State) (ops : List Op) : State := ops.foldl (fun s op => (s.step op).1) s

def trace (s : State) : List Op → List (Op × Out)
  | [] => []
  | op :: ops => (op, (s.step op).2) :: trace (s.step op).1 ops

end Verif.PayloadStream
