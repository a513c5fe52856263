/-!
# Reading datagrams by address

Modelled code: `scarletio/core/protocols_and_transports/protocol.py` lines 1339–1500,
`DatagramAddressedReadProtocol`, with readers of the kind `ReadProtocolBase` seen as the list of the
chunks fed to them (`data_received`, lines 487–494, ignores empty data) and the end they were told.

Simplified: a wait and the future it appends to `_waiters` are one thing, the result of a wait is
fixed when its future is set (the code resumes the task one cycle later with the same values).
The number of a wait is chosen by the caller.
-/

namespace Verif.Datagram.Addressed

/-- A reader made by the protocol factory. `ended`: eof (`some none`) or an exception. -/
structure Reader where
  chunks : List (List Nat)
  ended : Option (Option Nat)
  deriving DecidableEq, Repr

/-- What a wait gave: a reader is known by the address it was made for. -/
inductive Res
  /-- A `(address, protocol)` pair. -/
  | pair (a : Nat) (reader : Nat)
  /-- A reader alone. -/
  | reader (reader : Nat)
  /-- `None`, the timeout passed. -/
  | timedOut
  deriving DecidableEq, Repr

/-- `protocol.py` 1356–1378. `waiters` is `_waiters`, with what each waits for; `done` are the
finished waits. -/
structure S where
  order : List Nat := []
  readers : Nat → Option Reader := fun _ => none
  waiters : List (Nat × Option Nat) := []
  done : List (Nat × Res) := []

def put (f : Nat → Option Reader) (k : Nat) (v : Reader) : Nat → Option Reader :=
  fun i => if i = k then some v else f i

/-- `data_received` of a reader without a payload reader (`protocol.py` 487–494). -/
def feed (r : Reader) (d : List Nat) : Reader :=
  if d = [] then r else { r with chunks := r.chunks ++ [d] }

/-- What a wait gives when its future is set with `(address, protocol)`: without an address the
pair, with an address the code compares the received address with itself
(`protocol.py` 1466–1484). -/
def answer (wanted : Option Nat) (a : Nat) : Res :=
  match wanted with
  | none => .pair a a
  | some _ => if a = a then .reader a else .timedOut

/-- `datagram_received` (`protocol.py` 1400–1417). -/
def received (s : S) (d : List Nat) (a : Nat) : S :=
  { order := if (s.readers a).isSome then s.order else s.order ++ [a]
    readers := put s.readers a (feed ((s.readers a).getD ⟨[], none⟩) d)
    waiters := []
    done := s.done ++ s.waiters.map (fun w => (w.1, answer w.2 a)) }

/-- `wait_for_receive` (`protocol.py` 1425–1484) up to its first suspension. -/
def wait (s : S) (n : Nat) (wanted : Option Nat) : S :=
  match wanted with
  | none =>
    match s.order with
    | a :: _ => { s with done := s.done ++ [(n, .pair a a)] }
    | [] => { s with waiters := s.waiters ++ [(n, none)] }
  | some a =>
    if (s.readers a).isSome then { s with done := s.done ++ [(n, .reader a)] }
    else { s with waiters := s.waiters ++ [(n, some a)] }

/-- The timeout of a wait passes: its future is cancelled and `None` is given
(`protocol.py` 1455–1464). -/
def timeout (s : S) (n : Nat) : S :=
  match s.waiters.find? (fun w => w.1 = n) with
  | none => s
  | some _ =>
    { s with
      waiters := s.waiters.filter (fun w => w.1 ≠ n)
      done := s.done ++ [(n, .timedOut)] }

/-- `connection_lost` (`protocol.py` 1389–1395). -/
def lost (s : S) (e : Option Nat) : S :=
  { s with readers := fun i => (s.readers i).map (fun r => { r with ended := some e }) }

inductive Op
  | received (d : List Nat) (a : Nat)
  | wait (n : Nat) (wanted : Option Nat)
  | timeout (n : Nat)
  | lost (e : Option Nat)
  /-- `error_received` (`protocol.py` 1420–1422) does nothing. -/
  | error
  deriving Repr

def step (s : S) : Op → S
  | .received d a => received s d a
  | .wait n w => wait s n w
  | .timeout n => timeout s n
  | .lost e => lost s e
  | .error => s

def run (s : S) : List Op → S
  | [] => s
  | o :: os => run (step s o) os

theorem run_append (s : S) (xs ys : List Op) : run s (xs ++ ys) = run (run s xs) ys := by
  induction xs generalizing s with
  | nil => rfl
  | cons x xs ih => exact ih (step s x)

end Verif.Datagram.Addressed
