/-
Model of the transports of pipes.

Source: `/repo/scarletio/core/protocols_and_transports/unix_pipe_transport_layer.py`.
-/

namespace Verif.Pipe

/-! ### The write end -/

/-- What `os.write` does: it takes some bytes, or none now, or fails. -/
inductive Sys where
  | took (n : Nat)
  | blocked
  | failed
deriving DecidableEq, Repr

/-- What the protocol is told. -/
inductive Told where
  | pause
  | resume
  /-- `connection_lost`, with whether it got an exception. -/
  | lost (failed : Bool)
deriving DecidableEq, Repr

/-- `UnixWritePipeTransportLayer` (`263-690`). `pipe` is what the system took so
far, `writer` and `reader` are whether callbacks are registered, `queue` are the
calls of `_call_connection_lost` given to `call_soon`, `alive` is whether
`_protocol` is not `None`; the pipe is closed when it becomes so. `stale` counts how often callbacks of the number of
the pipe are removed after the pipe was closed, when the number may be that of another file. -/
structure Wr where
  pipe : List Nat
  buf : List Nat
  closing : Bool
  writer : Bool
  reader : Bool
  queue : List Bool
  alive : Bool
  paused : Bool
  low : Nat
  high : Nat
  told : List Told
  stale : Nat
deriving DecidableEq, Repr

/-- `__new__` (`308-378`). The reader is registered for sockets and pipes. -/
def Wr.new (reader : Bool) : Wr := ⟨[], [], false, false, reader, [], true, false, 16384, 65536, [], 0⟩

/-- `_maybe_pause_protocol` (`589-618`). -/
def Wr.maybePause (s : Wr) : Wr :=
  if s.buf.length ≤ s.high then s
  else if s.paused then s
  else { s with paused := true, told := if s.alive then s.told ++ [.pause] else s.told }

/-- `_maybe_resume_protocol` (`621-641`). -/
def Wr.maybeResume (s : Wr) : Wr :=
  if s.paused && s.buf.length ≤ s.low then
    { s with paused := false, told := if s.alive then s.told ++ [.resume] else s.told }
  else s

/-- `_call_connection_lost` (`559-586`). -/
def Wr.callLost (s : Wr) (failed : Bool) : Wr :=
  if !s.alive then s else { s with alive := false, told := s.told ++ [.lost failed] }

/-- `_close` (`535-556`). -/
def Wr.close_ (s : Wr) (failed : Bool) : Wr :=
  let s := { s with closing := true }
  let s := if s.buf.isEmpty then s else { s with writer := false, buf := [] }
  { s with reader := false, queue := s.queue ++ [failed], stale := if s.alive then s.stale else s.stale + 1 }

/-- `write` (`405-433`). -/
def Wr.write (s : Wr) (d : List Nat) (sys : Sys) : Wr :=
  if d.isEmpty then s
  else if s.closing then s
  else if s.buf.isEmpty then
    match sys with
    | .failed => s.close_ true
    | .blocked => Wr.maybePause { s with writer := true, buf := s.buf ++ d }
    | .took n =>
      let s := { s with pipe := s.pipe ++ d.take n }
      if n ≥ d.length then s
      else Wr.maybePause { s with writer := true, buf := s.buf ++ d.drop n }
  else Wr.maybePause { s with buf := s.buf ++ d }

/-- `_write_ready` (`436-464`), the registered callback. -/
def Wr.writeReady (s : Wr) (sys : Sys) : Wr :=
  if !s.writer then s
  else
    match sys with
    | .blocked => s
    | .failed => Wr.close_ { s with buf := [], writer := false } true
    | .took n =>
      let s := Wr.maybeResume { s with pipe := s.pipe ++ s.buf.take n, buf := s.buf.drop n }
      if s.buf.isEmpty then
        if s.closing then Wr.callLost { s with writer := false, reader := false } false
        else { s with writer := false }
      else s

/-- `write_eof` (`472-481`); `close` (`499-502`) is the same, since a transport of
which `_pipe` is `None` is closing. -/
def Wr.eof (s : Wr) : Wr :=
  if s.closing then s
  else
    let s := { s with closing := true }
    if s.buf.isEmpty then
      { s with reader := false, queue := s.queue ++ [false], stale := if s.alive then s.stale else s.stale + 1 }
    else s

/-- `_read_ready` (`390-402`), the registered callback. -/
def Wr.readReady (s : Wr) : Wr :=
  if !s.reader then s else s.close_ (!s.buf.isEmpty)

/-- The limits chosen by `_set_write_buffer_limits` (`649-685`). -/
def limitsOf : Option Nat → Option Nat → Nat × Nat
  | none, none => (16384, 65536)
  | some l, none => (l, l * 4)
  | none, some h => (h / 4, h)
  | some l, some h => (l, h)

/-- `set_write_buffer_limits` (`687-690`); nothing changes if the limits are wrong. -/
def Wr.limits (s : Wr) (low high : Option Nat) : Wr :=
  if (limitsOf low high).2 < (limitsOf low high).1 then s
  else Wr.maybePause { s with low := (limitsOf low high).1, high := (limitsOf low high).2 }

/-- What happens to the transport. -/
inductive Op where
  | write (d : List Nat) (sys : Sys)
  | writeReady (sys : Sys)
  | readReady
  | eof
  /-- `abort` (`513-515`), with whether it got an exception. -/
  | abort (failed : Bool)
  /-- The loop runs the next of the calls given to `call_soon`. -/
  | runQueue
  | limits (low high : Option Nat)
deriving DecidableEq, Repr

def step (s : Wr) : Op → Wr
  | .write d sys => s.write d sys
  | .writeReady sys => s.writeReady sys
  | .readReady => s.readReady
  | .eof => s.eof
  | .abort f => s.close_ f
  | .runQueue =>
    match s.queue with
    | [] => s
    | f :: q => Wr.callLost { s with queue := q } f
  | .limits l h => s.limits l h

def run (s : Wr) (l : List Op) : Wr := l.foldl step s

/-! ### The read end -/

/-- What `os.read` does. -/
inductive Got where
  | data (d : List Nat)
  | blocked
  | failed
deriving DecidableEq, Repr

/-- What the protocol is told. -/
inductive RTold where
  | data (d : List Nat)
  | eof
  | lost (failed : Bool)
deriving DecidableEq, Repr

/-- A call given to `call_soon`. -/
inductive RCall where
  | eof
  | lost (failed : Bool)
deriving DecidableEq, Repr

/-- `UnixReadPipeTransportLayer` (`21-260`). -/
structure Rd where
  closing : Bool
  paused : Bool
  reader : Bool
  alive : Bool
  queue : List RCall
  told : List RTold
deriving DecidableEq, Repr

/-- `__new__` (`51-107`). -/
def Rd.new : Rd := ⟨false, false, true, true, [], []⟩

/-- `_close` (`215-230`). -/
def Rd.close_ (s : Rd) (failed : Bool) : Rd :=
  { s with closing := true, reader := false, queue := s.queue ++ [.lost failed] }

/-- `_read_ready` (`114-135`), the registered callback; no data is the end. -/
def Rd.readReady (s : Rd) : Got → Rd
  | .blocked => s
  | .failed => if !s.reader then s else s.close_ true
  | .data d =>
    if !s.reader then s
    else if d.isEmpty then { s with closing := true, reader := false, queue := s.queue ++ [.eof, .lost false] }
    else { s with told := s.told ++ [.data d] }

/-- `pause_reading` (`138-145`). -/
def Rd.pause (s : Rd) : Rd :=
  if s.closing || s.paused then s else { s with paused := true, reader := false }

/-- `resume_reading` (`148-165`). -/
def Rd.resume (s : Rd) : Rd :=
  if s.closing || !s.paused then s else { s with paused := false, reader := true }

/-- `close` (`183-186`). -/
def Rd.close (s : Rd) : Rd := if s.closing then s else s.close_ false

/-- `_call_connection_lost` (`233-260`); the end is given to the protocol taken when
it was found. -/
def Rd.runQueue (s : Rd) : Rd :=
  match s.queue with
  | [] => s
  | .eof :: q => { s with queue := q, told := s.told ++ [.eof] }
  | .lost f :: q =>
    if !s.alive then { s with queue := q } else { s with queue := q, alive := false, told := s.told ++ [.lost f] }

inductive ROp where
  | readReady (g : Got)
  | pause
  | resume
  | close
  | runQueue
deriving DecidableEq, Repr

def rstep (s : Rd) : ROp → Rd
  | .readReady g => s.readReady g
  | .pause => s.pause
  | .resume => s.resume
  | .close => s.close
  | .runQueue => s.runQueue

def rrun (s : Rd) (l : List ROp) : Rd := l.foldl rstep s

end Verif.Pipe
