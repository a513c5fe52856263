/-!
# Trying the addresses of a host

Model of `EventThread.create_connection_to` and `EventThread._create_connection_transport`,
`scarletio/core/event_loop/event_loop.py`, after the addresses were looked up. Exceptions are numbers, those with the same number have the
same representation.
-/

namespace Verif.Connect.Address

/-- What happens if an address is tried. -/
structure Try where
  /-- `Socket(...)` raises this -/
  socket : Option Nat := none
  /-- `socket.bind` to the local addresses, one after the other: it raises an `OSError`, or it does not -/
  binds : List (Option Nat) := []
  /-- `socket_connect` raises -/
  connect : Option Nat := none
  /-- and whether that is something else than an `OSError` -/
  fatal : Bool := false
  /-- the transport of the socket: its waiter gets this exception -/
  transport : Option Nat := none

inductive Got where
  /-- the connection is that of the `i`-th address -/
  | protocol (i : Nat)
  /-- an exception, as it is -/
  | raised (e : Nat)
  /-- `OSError('Multiple exceptions: ...')` -/
  | multiple (es : List Nat)
  /-- `IndexError` -/
  | index
  deriving DecidableEq

structure Result where
  /-- the addresses for which sockets were made -/
  opened : List Nat := []
  closed : List Nat := []
  got : Got
  deriving DecidableEq

/-- The inner loop, event_loop.py lines 1479-1497: the exceptions, and whether the socket was bound. -/
def bind : List (Option Nat) → List Nat × Bool
  | [] => ([], false)
  | none :: _ => ([], true)
  | some e :: l => (e :: (bind l).1, (bind l).2)

/-- The `else` of the loop, event_loop.py lines 1515-1531. -/
def give (es : List Nat) : Got :=
  match es with
  | [] => .index
  | e :: rest => if rest.all (· == e) then .raised e else .multiple es

/-- The loop, event_loop.py lines 1471-1533: `i` counts the addresses, `es` is `exceptions`. `isLocal` is whether `local_address` was given. -/
def loop (isLocal : Bool) : Nat → List Nat → List Try → Result
  | _, es, [] => { got := give es }
  | i, es, t :: l =>
    match t.socket with
    | some e => { got := .raised e }
    | none =>
      let b := if isLocal then bind t.binds else ([], true)
      if b.2 then
        match t.connect with
        | none => match t.transport with
          | none => { opened := [i], got := .protocol i }
          | some e => { opened := [i], closed := [i], got := .raised e }
        | some e =>
          if t.fatal then { opened := [i], closed := [i], got := .raised e }
          else
            let r := loop isLocal (i + 1) (es ++ b.1 ++ [e]) l
            { r with opened := i :: r.opened, closed := i :: r.closed }
      else
        let r := loop isLocal (i + 1) (es ++ b.1) l
        { r with opened := i :: r.opened, closed := i :: r.closed }

/-- `create_connection_to`, event_loop.py lines 1332-1533. -/
def connectTo (isLocal : Bool) (l : List Try) : Result := loop isLocal 0 [] l

end Verif.Connect.Address
