/-! Model of the flow control of `ReadWriteProtocolBase` (`core/protocols_and_transports/protocol.py`).

`ReadProtocolBase` uses `_paused` for its transport's reading (534-556), `ReadWriteProtocolBase` uses the same attribute for its writing
(1233-1293). Of received data only the buffered size is modelled. The transport can pause reading, and sends alternating `pause_writing` and
`resume_writing` until `connection_lost` (C32). `drain`'s skipping of a cycle of the loop for closing transports is left out. -/
namespace Verif.FlowControl

/-- `BUFFER_SIZE_MAX` 14. -/
def maxSize : Nat := 131072

structure State where
  /-- `_paused` -/
  paused : Bool := false
  /-- the task whose future is `_drain_waiter` -/
  waiter : Option Nat := none
  /-- tasks blocked in `_drain_helper` -/
  blocked : List Nat := []
  /-- `_exception is not None` -/
  exc : Bool := false
  /-- size of the received and not yet processed data -/
  size : Nat := 0
  /-- `_paused` of the transport -/
  reading : Bool := true
  /-- the last of the transport's `pause_writing` and `resume_writing` was `pause_writing` -/
  full : Bool := false
  /-- `connection_lost` was called -/
  lost : Bool := false
deriving DecidableEq, Repr

inductive Op where
  | dataReceived (n : Nat)
  /-- processing of buffered data -/
  | consume (n : Nat)
  /-- a reader waits for more data: `_wait_for_data` 777-794, and `PayloadStream` 441, 484 -/
  | waitForData
  | pauseWriting
  | resumeWriting
  /-- a task that is not blocked calls `drain` -/
  | drain (task : Nat)
  /-- a blocked task is cancelled -/
  | cancelDrain (task : Nat)
  | connectionLost (exc : Bool)
deriving DecidableEq, Repr

inductive Drained where
  | none
  | returned
  | raised
  | blocks
deriving DecidableEq, Repr

def State.step (s : State) : Op → State × Drained
  -- `data_received` 484-531 and `_pause_reading` 534-547
  | .dataReceived n =>
    if !s.reading || s.lost then (s, .none)
    else
      let s := { s with size := s.size + n }
      if s.size > maxSize && !s.paused then ({ s with reading := false, paused := true }, .none) else (s, .none)
  | .consume n => ({ s with size := s.size - n }, .none)
  -- `_resume_reading` 550-556
  | .waitForData => if s.paused then ({ s with paused := false, reading := true }, .none) else (s, .none)
  -- 1233-1235
  | .pauseWriting => if s.full || s.lost then (s, .none) else ({ s with paused := true, full := true }, .none)
  -- 1238-1247
  | .resumeWriting =>
    if !s.full || s.lost then (s, .none)
    else ({ s with paused := false, full := false, waiter := none, blocked := s.blocked.filter fun t => some t ≠ s.waiter }, .none)
  -- `drain` 1322-1335 and `_drain_helper` 1250-1261
  | .drain t =>
    if t ∈ s.blocked then (s, .none)
    else if s.exc then (s, .raised)
    else if !s.paused then (s, .returned)
    else ({ s with waiter := some t, blocked := s.blocked ++ [t] }, .blocks)
  | .cancelDrain t => ({ s with blocked := s.blocked.filter (· ≠ t) }, .none)
  -- `connection_lost` 1264-1287
  | .connectionLost e =>
    if s.lost then (s, .none)
    else
      let s := { s with lost := true, exc := s.exc || e }
      if !s.paused then (s, .none)
      else ({ s with waiter := none, blocked := s.blocked.filter fun t => some t ≠ s.waiter }, .none)

def State.runAll (s : State) (ops : List Op) : State := ops.foldl (fun s op => (s.step op).1) s

end Verif.FlowControl
