/-!
# The reading side of a socket transport

Modelled code: `scarletio/core/protocols_and_transports/transport_layer.py`:
`SocketTransportLayer.__new__` (574–586), `pause_reading`, `resume_reading`, `_fatal_error`,
`_call_connection_lost`, `_read_ready` (660–722), the end of `_write_ready` (803–812) and, of the
base class, `close`, `abort`, `_call_connection_lost`, `_force_close` (315–360, 434–461).

The callbacks scheduled by the constructor run before anything scheduled later, so that the queue is
a stage and the list of scheduled `_call_connection_lost`. Nobody has the transport before
`connection_made`. What a protocol does in `connection_made` or `data_received` is the same as
doing it right afterwards, as nothing follows these calls. Simplified: of the write buffer (area
Transport) only whether it is empty; `eof_received` does not call back into the transport.
-/

namespace Verif.Reading

/-- What the protocol is told. -/
inductive Ev
  | made | data (d : Nat) | eof | lost (e : Option Nat)
  deriving DecidableEq, Repr

/-- How far the callbacks scheduled by the constructor are: none has run, `connection_made` has,
`add_reader` has. -/
inductive Stage
  | fresh | made | reading
  deriving DecidableEq, Repr

/-- The transport. `reader`: `_read_ready` is registered at the loop. `sock`: `_socket` is not
`None`. `alive`: `_protocol` is not `None`. `buf`: something is in `_buffer`. `losts`: the scheduled
`_call_connection_lost`. -/
structure S where
  stage : Stage := .fresh
  losts : List (Option Nat) := []
  reader : Bool := false
  paused : Bool := false
  closing : Bool := false
  lost : Bool := false
  sock : Bool := true
  alive : Bool := true
  buf : Bool := false
  log : List Ev := []
  deriving DecidableEq, Repr

/-- What `recv` does; `eof keep`: nothing is left, and `eof_received` answers `keep`. -/
inductive Recv
  | blocked | data (d : Nat) | eof (keep : Bool) | error (e : Nat)
  deriving DecidableEq, Repr

/-- `_call_connection_lost` (353–360). -/
def callLost (s : S) (e : Option Nat) : S :=
  { s with
    log := s.log ++ (if s.alive then [.lost e] else [])
    sock := false
    alive := false }

/-- `_force_close` (447–461). -/
def forceClose (s : S) (e : Option Nat) : S :=
  if s.lost then s
  else
    { s with
      buf := false
      reader := if s.closing then s.reader else false
      closing := true
      lost := true
      losts := s.losts ++ [e] }

/-- `close` (316–324). -/
def close (s : S) : S :=
  if s.closing then s
  else if s.buf then { s with closing := true, reader := false }
  else { s with closing := true, reader := false, lost := true, losts := s.losts ++ [none] }

/-- The number of the `AttributeError` of a method of `None`. -/
def attributeError : Nat := 0

/-- `_read_ready` (700–722). -/
def readReady (s : S) (r : Recv) : S :=
  if s.lost then s
  else if s.sock then
    match r with
    | .blocked => s
    | .error e => forceClose s (some e)
    | .data d => { s with log := s.log ++ [.data d] }
    | .eof true => { s with log := s.log ++ [.eof], reader := false }
    | .eof false => close { s with log := s.log ++ [.eof] }
  else forceClose s (some attributeError)

inductive Op
  /-- The next scheduled callback is run. -/
  | turn
  /-- The socket is readable. -/
  | readable (r : Recv)
  | pause
  | resume
  | close
  | abort (e : Option Nat)
  /-- `write` leaves something in the buffer. -/
  | buffered
  /-- `_write_ready` sends all of the buffer. -/
  | drained
  deriving Repr

/-- One step of a transport whose `connection_made` was called. -/
def stepMade (s : S) : Op → S
  | .turn =>
    match s.stage with
    | .reading =>
      match s.losts with
      | [] => s
      | e :: r => callLost { s with losts := r } e
    -- 581
    | _ => { s with stage := .reading, reader := true }
  | .readable r => if s.reader then readReady s r else s
  -- 661–666
  | .pause => if s.closing || s.paused then s else { s with paused := true, reader := false }
  -- 671–678
  | .resume =>
    if s.paused then { s with paused := false, reader := if s.closing then s.reader else true } else s
  | .close => close s
  | .abort e => forceClose s e
  -- 605–630
  | .buffered =>
    if s.lost then s
    else if s.sock then { s with buf := true }
    else forceClose s (some attributeError)
  -- 803–812
  | .drained =>
    if s.lost then s
    else if s.buf then
      if s.closing then callLost { s with buf := false } none else { s with buf := false }
    else s

/-- One step. -/
def step (s : S) (op : Op) : S :=
  match s.stage with
  | .fresh =>
    match op with
    -- 576
    | .turn => { s with stage := .made, log := s.log ++ [.made] }
    | _ => s
  | _ => stepMade s op

def run (s : S) : List Op → S
  | [] => s
  | o :: os => run (step s o) os

def start : S := {}

theorem run_append (s : S) (xs ys : List Op) : run s (xs ++ ys) = run (run s xs) ys := by
  induction xs generalizing s with
  | nil => rfl
  | cons x xs ih => exact ih (step s x)

end Verif.Reading
