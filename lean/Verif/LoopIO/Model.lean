/-
Model of the callbacks of file descriptors of the event loop.

Source: `/repo/scarletio/core/event_loop/event_loop.py` `1128-1280` (`add_reader`, `remove_reader`, `add_writer`,
`remove_writer`) and the part of `runner` which handles the events of the selector (`682-710`); `Handle` of
`/repo/scarletio/core/event_loop/handles.py` is a number and whether it is cancelled. The loop runs. The selector is the
mapping of `selectors`: it reports events only for what is watched.
-/
namespace Verif.LoopIO

/-- A key of the selector: its events, and the handles of its data. -/
structure Key where
  read : Bool
  write : Bool
  reader : Option Nat
  writer : Option Nat
deriving DecidableEq, Repr

/-- `next` is the number of the next handle, `ran` are the handles which were run. -/
structure L where
  keys : Nat → Option Key
  cancelled : List Nat
  next : Nat
  ready : List Nat
  ran : List Nat

def L.new : L := ⟨fun _ => none, [], 0, [], []⟩

def set {α : Type} (f : Nat → α) (i : Nat) (x : α) : Nat → α := fun j => if j = i then x else f j

/-- `if handle is not None: handle.cancel()` -/
def cancelled (l : List Nat) : Option Nat → List Nat
  | none => l
  | some h => h :: l

/-- `add_reader` (`1128-1165`). -/
def L.addReader (s : L) (fd : Nat) : L :=
  match s.keys fd with
  | none => { s with keys := set s.keys fd (some ⟨true, false, some s.next, none⟩), next := s.next + 1 }
  | some k => { s with keys := set s.keys fd (some ⟨true, k.write, some s.next, k.writer⟩), next := s.next + 1,
                       cancelled := Verif.LoopIO.cancelled s.cancelled k.reader }

/-- `remove_reader` (`1168-1203`). -/
def L.removeReader (s : L) (fd : Nat) : L :=
  match s.keys fd with
  | none => s
  | some k => { s with keys := set s.keys fd (if k.write then some ⟨false, k.write, none, k.writer⟩ else none),
                       cancelled := Verif.LoopIO.cancelled s.cancelled k.reader }

/-- What `remove_reader` returns. -/
def L.hasReader (s : L) (fd : Nat) : Bool := ((s.keys fd).bind Key.reader).isSome

/-- `add_writer` (`1206-1242`). -/
def L.addWriter (s : L) (fd : Nat) : L :=
  match s.keys fd with
  | none => { s with keys := set s.keys fd (some ⟨false, true, none, some s.next⟩), next := s.next + 1 }
  | some k => { s with keys := set s.keys fd (some ⟨k.read, true, k.reader, some s.next⟩), next := s.next + 1,
                       cancelled := Verif.LoopIO.cancelled s.cancelled k.writer }

/-- `remove_writer` (`1245-1280`). -/
def L.removeWriter (s : L) (fd : Nat) : L :=
  match s.keys fd with
  | none => s
  | some k => { s with keys := set s.keys fd (if k.read then some ⟨k.read, false, k.reader, none⟩ else none),
                       cancelled := Verif.LoopIO.cancelled s.cancelled k.writer }

/-- What `remove_writer` returns. -/
def L.hasWriter (s : L) (fd : Nat) : Bool := ((s.keys fd).bind Key.writer).isSome

/-- The read event of a key (`688-692`). -/
def L.pollReader (s : L) (fd : Nat) (h : Option Nat) (mask : Bool) : L :=
  match h with
  | some h => if mask then (if h ∈ s.cancelled then s.removeReader fd else { s with ready := s.ready ++ [h] }) else s
  | none => s

/-- The write event of a key (`693-697`). -/
def L.pollWriter (s : L) (fd : Nat) (h : Option Nat) (mask : Bool) : L :=
  match h with
  | some h => if mask then (if h ∈ s.cancelled then s.removeWriter fd else { s with ready := s.ready ++ [h] }) else s
  | none => s

/-- One event: the file descriptor, whether it is readable, whether it is writable (`685-697`). -/
def L.event (s : L) (e : Nat × Bool × Bool) : L :=
  match s.keys e.1 with
  | none => s
  | some k => (s.pollReader e.1 k.reader (e.2.1 && k.read)).pollWriter e.1 k.writer (e.2.2 && k.write)

/-- One turn of the loop which runs callbacks (`707-710`). -/
def L.runOne (s : L) : L :=
  match s.ready with
  | [] => s
  | h :: l => if h ∈ s.cancelled then { s with ready := l } else { s with ready := l, ran := s.ran ++ [h] }

inductive Op where
  | addReader (fd : Nat)
  | removeReader (fd : Nat)
  | addWriter (fd : Nat)
  | removeWriter (fd : Nat)
  /-- Somebody cancels a handle. -/
  | cancel (h : Nat)
  /-- `select` returns these events. -/
  | poll (events : List (Nat × Bool × Bool))
  | runOne
deriving Repr

def step (s : L) : Op → L
  | .addReader fd => s.addReader fd
  | .removeReader fd => s.removeReader fd
  | .addWriter fd => s.addWriter fd
  | .removeWriter fd => s.removeWriter fd
  | .cancel h => { s with cancelled := h :: s.cancelled }
  | .poll es => es.foldl L.event s
  | .runOne => s.runOne

def run (s : L) (l : List Op) : L := l.foldl step s

end Verif.LoopIO
