/-
Model of the calls of the event loop on one socket: receiving and sending; and of the asynchronous generators of a loop.

Source: `/repo/scarletio/core/event_loop/event_loop.py` `2315-2373` (`socket_receive`, `_socket_receive`), `2438-2515`
(`socket_send_all`, `_socket_send_all`), `2518-2554` (`_socket_write_done_callback`, `_socket_read_done_callback`),
`770-799` (`shutdown_async_generators`), and the hooks of
`/repo/scarletio/core/event_loop/event_loop_functionality_helpers.py` `79-121`.

Simplified: errors of the socket other than would block are left out. Of the callbacks of file descriptors (`Model.lean`)
only the one of this socket and direction is kept: `slot` is the call whose handle is registered and not cancelled;
replacing or removing a handle cancels it, so `not handle.cancelled` is `slot = some i`.
-/
namespace Verif.LoopIO

/-! ### Receiving -/

inductive Status where
  | pending
  | done
  | cancelled
deriving DecidableEq, Repr

/-- A call of `socket_receive`: how much it asks for, and its future. -/
structure Recv where
  size : Nat
  status : Status
deriving DecidableEq, Repr

/-- `buf` are the bytes which wait in the socket, `calls` all the calls, `todo` the calls whose future is done and whose
done callback did not run yet, `got` what the calls returned, in order. -/
structure R where
  buf : List Nat
  calls : List Recv
  slot : Option Nat
  todo : List Nat
  got : List (Nat × List Nat)
deriving DecidableEq, Repr

def R.new : R := ⟨[], [], none, [], []⟩

inductive ROp where
  /-- Bytes arrive. -/
  | arrive (bytes : List Nat)
  /-- `socket_receive` is called. -/
  | receive (size : Nat)
  /-- The registered callback runs; maybe without bytes. -/
  | readable
  /-- The future of a call is cancelled. -/
  | cancel (call : Nat)
  /-- The next done callback runs. -/
  | callback
deriving Repr

/-- `socket_receive` (`2333-2345`). -/
def R.receive (s : R) (n : Nat) : R :=
  if s.buf = [] then
    { s with calls := s.calls ++ [⟨n, .pending⟩], slot := some s.calls.length }
  else
    { s with buf := s.buf.drop n, calls := s.calls ++ [⟨n, .done⟩], got := s.got ++ [(s.calls.length, s.buf.take n)] }

/-- `_socket_receive` for a call (`2361-2373`). -/
def R.callback (s : R) (i : Nat) (c : Recv) : R :=
  if c.status = .pending then
    if s.buf = [] then s
    else { s with buf := s.buf.drop c.size, calls := s.calls.set i ⟨c.size, .done⟩, slot := none, todo := s.todo ++ [i],
                  got := s.got ++ [(i, s.buf.take c.size)] }
  else s

/-- The loop runs the registered callback. -/
def R.readable (s : R) : R :=
  match s.slot with
  | none => s
  | some i => match s.calls[i]? with
    | none => s
    | some c => s.callback i c

/-- The future of a call is cancelled. -/
def R.cancel (s : R) (i : Nat) : R :=
  match s.calls[i]? with
  | none => s
  | some c => if c.status = .pending then { s with calls := s.calls.set i ⟨c.size, .cancelled⟩, todo := s.todo ++ [i] } else s

/-- `_socket_read_done_callback` (`2553-2554`). -/
def R.doneCallback (s : R) : R :=
  match s.todo with
  | [] => s
  | i :: l => if s.slot = some i then { s with todo := l, slot := none } else { s with todo := l }

def rstep (s : R) : ROp → R
  | .arrive b => { s with buf := s.buf ++ b }
  | .receive n => s.receive n
  | .readable => s.readable
  | .cancel i => s.cancel i
  | .callback => s.doneCallback

def rrun (s : R) (l : List ROp) : R := l.foldl rstep s

/-! ### Sending -/

/-- A call of `socket_send_all`: the items of the memoryview, each of some bytes; `start_reference`; its future. -/
structure Send where
  items : List (List Nat)
  start : Nat
  status : Status
deriving DecidableEq, Repr

/-- `sent` is what the system took. -/
structure W where
  sent : List Nat
  calls : List Send
  slot : Option Nat
  todo : List Nat
deriving DecidableEq, Repr

def W.new : W := ⟨[], [], none, []⟩

/-- `socket.send` of a view: how much the system takes, or `none` if it would block. -/
def taken (view : List (List Nat)) (room : Option Nat) : List Nat :=
  match room with
  | none => []
  | some n => view.flatten.take n

inductive WOp where
  /-- `socket_send_all` is called with a memoryview; how much the system takes now. -/
  | send (items : List (List Nat)) (room : Option Nat)
  /-- The registered callback runs. -/
  | writable (room : Option Nat)
  | cancel (call : Nat)
  | callback
deriving Repr

/-- `socket_send_all` (`2459-2478`). -/
def W.send (s : W) (items : List (List Nat)) (room : Option Nat) : W :=
  if items = [] then { s with calls := s.calls ++ [⟨items, 0, .done⟩] }
  else if room ≠ none ∧ (taken items room).length = items.length then
    { s with sent := s.sent ++ taken items room, calls := s.calls ++ [⟨items, items.length, .done⟩] }
  else { s with sent := s.sent ++ taken items room, calls := s.calls ++ [⟨items, (taken items room).length, .pending⟩],
                slot := some s.calls.length }

/-- `_socket_send_all` for a call (`2496-2515`). -/
def W.callback (s : W) (i : Nat) (c : Send) (room : Option Nat) : W :=
  if c.status = .pending then
    if room = none then s
    else if c.start + (taken (c.items.drop c.start) room).length = c.items.length then
      { s with sent := s.sent ++ taken (c.items.drop c.start) room,
               calls := s.calls.set i ⟨c.items, c.start + (taken (c.items.drop c.start) room).length, .done⟩,
               slot := none, todo := s.todo ++ [i] }
    else
      { s with sent := s.sent ++ taken (c.items.drop c.start) room,
               calls := s.calls.set i ⟨c.items, c.start + (taken (c.items.drop c.start) room).length, .pending⟩ }
  else s

def W.writable (s : W) (room : Option Nat) : W :=
  match s.slot with
  | none => s
  | some i => match s.calls[i]? with
    | none => s
    | some c => s.callback i c room

def W.cancel (s : W) (i : Nat) : W :=
  match s.calls[i]? with
  | none => s
  | some c => if c.status = .pending then
      { s with calls := s.calls.set i ⟨c.items, c.start, .cancelled⟩, todo := s.todo ++ [i] } else s

/-- `_socket_write_done_callback` (`2534-2535`). -/
def W.doneCallback (s : W) : W :=
  match s.todo with
  | [] => s
  | i :: l => if s.slot = some i then { s with todo := l, slot := none } else { s with todo := l }

def wstep (s : W) : WOp → W
  | .send x r => s.send x r
  | .writable r => s.writable r
  | .cancel i => s.cancel i
  | .callback => s.doneCallback

def wrun (s : W) (l : List WOp) : W := l.foldl wstep s

/-! ### Asynchronous generators -/

/-- `gens` is `loop._async_generators`, `closed` are the generators whose `aclose` was called. -/
structure G where
  gens : List Nat
  shut : Bool
  closed : List Nat
deriving DecidableEq, Repr

def G.new : G := ⟨[], false, []⟩

inductive GOp where
  /-- A generator is iterated the first time. -/
  | iterate (g : Nat)
  /-- A generator which is not referred to anymore is finalized; whether the loop runs. -/
  | finalize (g : Nat) (running : Bool)
  /-- `shutdown_async_generators` -/
  | shutdown
deriving Repr

def gstep (s : G) : GOp → G
  -- `_async_generator_first_iteration_hook` (`88-94`)
  | .iterate g => if s.shut then s else { s with gens := g :: s.gens }
  -- `_async_generator_finalizer_hook` (`109-117`)
  | .finalize g running =>
    if running then { s with gens := s.gens.filter (· ≠ g), closed := s.closed ++ [g] }
    else { s with gens := s.gens.filter (· ≠ g) }
  -- `shutdown_async_generators` (`776-788`)
  | .shutdown =>
    if s.gens ≠ [] then { s with shut := true }
    else { gens := [], shut := true, closed := s.closed ++ s.gens }

def grun (s : G) (l : List GOp) : G := l.foldl gstep s

end Verif.LoopIO
