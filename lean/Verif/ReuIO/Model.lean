/-
Model of the reusable buffers and of the executors behind asynchronous files.

Source: `/repo/scarletio/core/ios.py`: `ReuBytesIO` (17-162), `AsyncIO` (223-900),
`ReuAsyncIO` (944-1393).
-/

namespace Verif.ReuIO

/-! ### `BytesIO` -/

/-- `io.BytesIO`: its bytes and its position. -/
structure Bio where
  buf : List Nat
  pos : Nat
deriving DecidableEq, Repr

/-- `BytesIO.write`: bytes at the position are replaced, a gap is filled with
zeros; nothing happens for no data. -/
def Bio.write (b : Bio) (d : List Nat) : Bio :=
  if d.isEmpty then b
  else
    let buf := b.buf ++ List.replicate (b.pos - b.buf.length) 0
    ⟨buf.take b.pos ++ d ++ buf.drop (b.pos + d.length), b.pos + d.length⟩

/-- `BytesIO.read`: everything for a negative amount. -/
def Bio.read (b : Bio) (n : Int) : Bio × List Nat :=
  let r := if n < 0 then b.buf.drop b.pos else (b.buf.drop b.pos).take n.toNat
  ({ b with pos := b.pos + r.length }, r)

/-- `whence`: `os.SEEK_SET`, `os.SEEK_CUR`, `os.SEEK_END`. -/
inductive Whence where
  | set | cur | end_
deriving DecidableEq, Repr

/-- `BytesIO.seek`: a negative offset from the start raises, what would be before
the start is the start. -/
def Bio.seek (b : Bio) (off : Int) : Whence → Option (Bio × Nat)
  | .set => if off < 0 then none else some ({ b with pos := off.toNat }, off.toNat)
  | .cur =>
    let p := (b.pos : Int) + off
    some ({ b with pos := p.toNat }, p.toNat)
  | .end_ =>
    let p := (b.buf.length : Int) + off
    some ({ b with pos := p.toNat }, p.toNat)

/-! ### `ReuBytesIO` -/

/-- `ReuBytesIO` (`ios.py:17-51`): `reading` is whether `_last_operation` is
`OPERATION_READ`, `size` is `_size`. -/
structure Reu where
  bio : Bio
  reading : Bool
  size : Nat
deriving DecidableEq, Repr

/-- `ReuBytesIO.__init__` (`ios.py:46-51`). -/
def Reu.new : Reu := ⟨⟨[], 0⟩, false, 0⟩

/-- `ReuBytesIO.write` (`ios.py:54-72`). -/
def Reu.write (r : Reu) (d : List Nat) : Reu × Nat :=
  let r : Reu := if r.reading then ⟨{ r.bio with pos := 0 }, false, 0⟩ else r
  ({ r with bio := r.bio.write d, size := r.size + d.length }, d.length)

/-- `ReuBytesIO.read` (`ios.py:75-99`). -/
def Reu.read (r : Reu) (amount : Option Int) : Reu × List Nat :=
  let readable : Int := (r.size : Int) - r.bio.pos
  let n : Int := match amount with
    | none => readable
    | some n => if n > readable then readable else n
  let o := r.bio.read n
  ({ r with bio := o.1, reading := true }, o.2)

/-- `ReuBytesIO.seek` (`ios.py:120-156`); `none` is the `ValueError` of
`BytesIO.seek`. -/
def Reu.seek (r : Reu) (off : Int) (w : Whence) : Option (Reu × Nat) :=
  if w = .end_ then some (r, r.size)
  else
    match r.bio.seek off w with
    | none => none
    | some (b, v) => some ({ r with bio := b, size := if v > r.size then v else r.size }, v)

/-- `ReuBytesIO.close` (`ios.py:102-106`). -/
def Reu.close (r : Reu) : Reu :=
  match r.seek 0 .set with
  | none => r
  | some (r, _) => r

/-- `ReuBytesIO.__len__` (`ios.py:109-117`). -/
def Reu.len (r : Reu) : Nat := r.size

/-- What is done with a buffer. -/
inductive Op where
  | write (d : List Nat)
  | read (amount : Option Int)
  | seek (off : Int) (w : Whence)
  | close
deriving Repr

/-- What it gives: a number, bytes, nothing, an error. -/
inductive Out where
  | num (n : Nat)
  | bytes (d : List Nat)
  | unit
  | error
deriving DecidableEq, Repr

def step (r : Reu) : Op → Reu × Out
  | .write d => ((r.write d).1, .num (r.write d).2)
  | .read a => ((r.read a).1, .bytes (r.read a).2)
  | .seek o w => match r.seek o w with
    | none => (r, .error)
    | some (r', v) => (r', .num v)
  | .close => (r.close, .unit)

def run (r : Reu) : List Op → Reu × List Out
  | [] => (r, [])
  | o :: l => ((run (step r o).1 l).1, (step r o).2 :: (run (step r o).1 l).2)

/-! ### `ReuAsyncIO` -/

/-- `ReuAsyncIO` (`ios.py:944-1008`) over a file of which the position counts:
`_should_seek`, the position, and the reads given to the executor which it has
not run yet, each with whether it was given by `_seek_and_call`. -/
structure Ras where
  shouldSeek : Bool
  pos : Nat
  pending : List (Bool × Nat)
  ran : List (Nat × Nat)
deriving DecidableEq, Repr

/-- What happens to it. -/
inductive AOp where
  /-- `read` (`ios.py:1087-1123`): the task is given to the executor. -/
  | read (n : Nat)
  /-- The executor runs the next task: `_seek_and_call` (`ios.py:1062-1084`) or
  the read alone. -/
  | execute
  /-- `close` (`ios.py:999-1004`). -/
  | close
deriving DecidableEq, Repr

def astep (size : Nat) (s : Ras) : AOp → Ras
  | .read n => { s with pending := s.pending ++ [(s.shouldSeek, n)] }
  | .execute =>
    match s.pending with
    | [] => s
    | (seek, n) :: rest =>
      let from_ := if seek then 0 else s.pos
      let got := min n (size - from_)
      { s with pos := from_ + got, pending := rest, ran := s.ran ++ [(from_, got)]
               shouldSeek := if seek then false else s.shouldSeek }
  | .close => { s with shouldSeek := true }

/-! ### Executors of asynchronous files -/

/-- An asynchronous file and its executor: `own` is whether the executor is an
`ExecutorThread` started for it, else it is a `ClaimedExecutor` of the event loop
(`get_executor`, `ios.py:165-179`); `has` is whether the object refers to an
executor, `hasIO` whether `_io` is set; `claimed` and `released` count. -/
structure Aio where
  own : Bool
  has : Bool
  hasIO : Bool
  fileOpen : Bool
  claimed : Nat
  released : Nat
deriving DecidableEq, Repr

/-- The life of a file object. `waiting` is whether calls which were given to the
executor have not been begun. -/
inductive LOp where
  /-- `close`, `real_close`, `__exit__` (`ios.py:295-305`, `886-889`). -/
  | close (waiting : Bool)
  /-- `detach` (`ios.py:319-342`, `1035-1060`). -/
  | detach
  /-- The object is collected: `__del__` is called, then what it refers to is
  dropped. -/
  | collect (waiting : Bool)
deriving DecidableEq, Repr

/-- `AsyncIO.__new__` (`ios.py:236-257`): the executor is claimed, then the file is
opened, which may fail. -/
def openIO (own ok : Bool) : Aio := ⟨own, true, ok, ok, 1, 0⟩

/-- `AsyncIO.wrap` (`ios.py:259-281`). -/
def wrapIO (own closed : Bool) : Aio :=
  if closed then ⟨own, false, true, false, 0, 0⟩ else ⟨own, true, true, true, 1, 0⟩

/-- `AsyncIO.__del__` (`ios.py:295-304`). `_io` may be missing, which raises.
`ClaimedExecutor.release` (`event_loop/executor.py:799-822`) raises if calls wait:
`_shrink_queue` (`480-493`) takes a pair for a future. -/
def del (a : Aio) (waiting : Bool) : Aio :=
  if !a.has then a
  else if !a.hasIO then a
  else if !a.own && waiting then { a with fileOpen := false }
  else { a with fileOpen := false, released := a.released + 1, has := false }

/-- Dropping the executor: `ClaimedExecutor.__del__` is its `release`
(`event_loop/executor.py:824`); a running thread has no such thing. -/
def drop (a : Aio) (waiting : Bool) : Aio :=
  if !a.has then a
  else if a.own || waiting then { a with has := false }
  else { a with has := false, released := a.released + 1 }

/-- No call waits when `detach` returns if none was given after it. -/
def lstep (a : Aio) : LOp → Aio
  | .close w => del a w
  | .detach => drop a false
  | .collect w => drop (del a w) w

end Verif.ReuIO
