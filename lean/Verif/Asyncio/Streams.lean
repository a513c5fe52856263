/-
Model of the stream reader of the asyncio extension.

Source: `/repo/scarletio/ext/asyncio/asyncio.py` `2675-2917`, `StreamReader`. There is a transport, which can
pause reading. One task reads; while it waits others are refused (`2786-2787`).
-/

namespace Verif.Asyncio.Streams

/-- What is asked for. -/
inductive Ask where
  | read (n : Nat)
  /-- `read` with a negative number. -/
  | all
  | exactly (n : Nat)
  | until (sep : List Nat)
  | line
deriving DecidableEq, Repr

/-- How a call ends. Bytes which were taken out of the buffer but not given out are kept here
too, to account for them. -/
inductive Res where
  | data (d : List Nat)
  /-- `IncompleteReadError` of `readexactly` and `readuntil`, with what there is. -/
  | incomplete (d : List Nat)
  /-- `LimitOverrunError`: nothing is taken. -/
  | overrun
  /-- `ValueError` of `readline`: the bytes are dropped. -/
  | tooLong (dropped : List Nat)
  /-- The exception of the stream; `read` with a negative number drops what it has. -/
  | failed (dropped : List Nat)
deriving DecidableEq, Repr

/-- `call` is the call which waits, with the offset of `readuntil` and the blocks of `read`;
`wake` is whether its future is done, and whether with an exception. -/
structure R where
  limit : Nat
  buf : List Nat
  eof : Bool
  exc : Bool
  paused : Bool
  call : Option (Ask × Nat × List Nat)
  wake : Option Bool
  out : List (Ask × Res)
deriving DecidableEq, Repr

def R.new (limit : Nat) : R := ⟨limit, [], false, false, false, none, none, []⟩

/-- `_maybe_resume_transport` (`2756-2759`). -/
def R.maybeResume (s : R) : R := if s.paused && decide (s.buf.length ≤ s.limit) then { s with paused := false } else s

/-- A call ends. -/
def R.finish (s : R) (a : Ask) (r : Res) : R := { s with call := none, wake := none, out := s.out ++ [(a, r)] }

/-- `_wait_for_data` (`2785-2799`) until it suspends. -/
def R.wait (s : R) (a : Ask) (off : Nat) (acc : List Nat) : R :=
  { s with paused := false, call := some (a, off, acc), wake := none }

/-- `find` of `bytearray`, from an offset. -/
def findFrom (sep buf : List Nat) (off : Nat) : Option Nat :=
  (List.range (buf.length + 1)).find? (fun i => decide (off ≤ i) && sep.isPrefixOf (buf.drop i))

/-- What the loop of `readuntil` (`2828-2848`) comes to. -/
inductive Search where
  | found (i : Nat)
  | tooFar (off : Nat)
  | ended
  | more (off : Nat)
deriving DecidableEq, Repr

def R.search (s : R) (sep : List Nat) (off : Nat) : Search :=
  if s.buf.length - off ≥ sep.length then
    match findFrom sep s.buf off with
    | some i => .found i
    | none =>
      if s.buf.length + 1 - sep.length > s.limit then .tooFar (s.buf.length + 1 - sep.length)
      else if s.eof then .ended
      else .more (s.buf.length + 1 - sep.length)
  else if s.eof then .ended
  else .more off

/-- `readuntil` (`2817-2854`) and `readline` (`2801-2815`) from the loop on; `a` is which of
them. -/
def R.goUntil (s : R) (a : Ask) (sep : List Nat) (off : Nat) : R :=
  match s.search sep off with
  | .found i =>
    if i > s.limit then
      if a = .line then
        R.maybeResume ({ s with buf := s.buf.drop (i + sep.length) }.finish a (.tooLong (s.buf.take (i + sep.length))))
      else s.finish a .overrun
    else R.maybeResume ({ s with buf := s.buf.drop (i + sep.length) }.finish a (.data (s.buf.take (i + sep.length))))
  | .tooFar o =>
    if a = .line then
      if sep.isPrefixOf (s.buf.drop o) then
        R.maybeResume ({ s with buf := s.buf.drop (o + sep.length) }.finish a (.tooLong (s.buf.take (o + sep.length))))
      else R.maybeResume ({ s with buf := [] }.finish a (.tooLong s.buf))
    else s.finish a .overrun
  | .ended => { s with buf := [] }.finish a (if a = Ask.line then .data s.buf else .incomplete s.buf)
  | .more o => s.wait a o []

/-- `readexactly` (`2882-2908`) from the loop on. -/
def R.goExactly (s : R) (n : Nat) : R :=
  if s.buf.length < n then
    if s.eof then { s with buf := [] }.finish (.exactly n) (.incomplete s.buf)
    else s.wait (.exactly n) 0 []
  else R.maybeResume ({ s with buf := s.buf.drop n }.finish (.exactly n) (.data (s.buf.take n)))

/-- The end of `read` (`2876-2880`). -/
def R.takeRead (s : R) (n : Nat) : R :=
  R.maybeResume ({ s with buf := s.buf.drop n }.finish (.read n) (.data (s.buf.take n)))

/-- The loop of `read` with a negative number (`2864-2871`), at the head of an iteration. A
block which is not empty is taken each time. -/
def R.goAll : Nat → R → List Nat → R
  | 0, s, acc => s.wait .all 0 acc
  | f + 1, s, acc =>
    if s.exc then s.finish .all (.failed acc)
    else if s.buf.isEmpty && !s.eof then s.wait .all 0 acc
    else if (s.buf.take s.limit).isEmpty then s.finish .all (.data acc)
    else R.goAll f (R.maybeResume { s with buf := s.buf.drop s.limit }) (acc ++ s.buf.take s.limit)

/-- The rest of an iteration in which it waited. -/
def R.resumeAll (s : R) (acc : List Nat) : R :=
  if (s.buf.take s.limit).isEmpty then s.finish .all (.data acc)
  else R.goAll (s.buf.length + 1) (R.maybeResume { s with buf := s.buf.drop s.limit }) (acc ++ s.buf.take s.limit)

/-- A call begins. -/
def R.start (s : R) (a : Ask) : R :=
  if s.exc then s.finish a (.failed [])
  else
    match a with
    | .read n =>
      if n = 0 then s.finish a (.data [])
      else if s.buf.isEmpty && !s.eof then s.wait a 0 []
      else s.takeRead n
    | .all => R.goAll (s.buf.length + 1) s []
    | .exactly n => if n = 0 then s.finish a (.data []) else s.goExactly n
    | .until sep => s.goUntil a sep 0
    | .line => s.goUntil a [10] 0

/-- The call which waited goes on. -/
def R.resume (s : R) : R :=
  match s.call, s.wake with
  | some (a, _, acc), some true => s.finish a (.failed acc)
  | some (a, off, acc), some false =>
    match a with
    | .read n => s.takeRead n
    | .all => s.resumeAll acc
    | .exactly n => s.goExactly n
    | .until sep => s.goUntil a sep off
    | .line => s.goUntil a [10] off
  | _, _ => s

/-- The future of the call becomes done, if there is one which is not (`2746-2750`). -/
def R.wakeUp (s : R) (failed : Bool) : R :=
  if s.call.isSome && s.wake.isNone then { s with wake := some failed } else s

inductive Op where
  | ask (a : Ask)
  /-- The loop lets the call go on. -/
  | resume
  /-- `feed_data` (`2768-2783`). -/
  | feed (d : List Nat)
  /-- `feed_eof` (`2761-2763`). -/
  | eof
  /-- `set_exception` (`2738-2744`). -/
  | exc
deriving DecidableEq, Repr

/-- Asking while a call waits is refused; so is data after the end. -/
def step (s : R) : Op → R
  | .ask a => if s.call.isSome then s else s.start a
  | .resume => s.resume
  | .feed d =>
    if s.eof || d.isEmpty then s
    else
      let s := R.wakeUp { s with buf := s.buf ++ d } false
      if !s.paused && decide (s.buf.length > 2 * s.limit) then { s with paused := true } else s
  | .eof => R.wakeUp { s with eof := true } false
  | .exc => R.wakeUp { s with exc := true } true

def run (s : R) (l : List Op) : R := l.foldl step s

end Verif.Asyncio.Streams
