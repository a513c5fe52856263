/-
Model of resource streams and of the frame of an attribute error.

Source: `/repo/scarletio/streaming/resource_streaming/resource_stream.py`,
`resource_stream_function.py` and
`/repo/scarletio/utils/trace/exception_representation/attribute_error_helpers.py`.

Functions, values and names are numbers; texts are lists of characters.
-/

namespace Verif.Resource

/-- A `ResourceStream`: `keywords` is the dictionary in its order; no name is twice in it. -/
structure Stream where
  function : Nat
  positional : List Nat
  keywords : List (Nat × Nat)
deriving DecidableEq, Repr

/-- `==` of dictionaries: as long, and every item of the first is in the second. -/
def dictEq (a b : List (Nat × Nat)) : Bool :=
  if a.length ≠ b.length then false else a.all fun x => b.lookup x.1 == some x.2

/-- `ResourceStream.__eq__` (`resource_stream.py:120-137`), of two of the same type. -/
def Stream.eq (a b : Stream) : Bool :=
  if a.function ≠ b.function then false
  else if a.positional ≠ b.positional then false
  else if !dictEq a.keywords b.keywords then false
  else true

/-- `ResourceStream.__repr__` (`resource_stream.py:83-117`), what is between the brackets. `value` is `repr`
of values, `name` the text of names. -/
def params (value : Nat → List Char) (name : Nat → List Char) (s : Stream) : List Char :=
  let (text, added) := s.positional.foldl (fun (acc : List Char × Bool) x =>
    let text := if acc.2 then acc.1 ++ [',', ' '] else acc.1
    (text ++ value x, true)) ([], false)
  let (text, _) := s.keywords.foldl (fun (acc : List Char × Bool) x =>
    let text := if acc.2 then acc.1 ++ [',', ' '] else acc.1
    (text ++ name x.1 ++ [' ', '=', ' '] ++ value x.2, true)) (text, added)
  text

/-- A use: the stream `i` is iterated, or a function is called to make a new stream. -/
inductive Op where
  | make (function : Nat) (positional : List Nat) (keywords : List (Nat × Nat))
  | iterate (i : Nat)
deriving DecidableEq, Repr

/-- The streams, and the calls of functions. -/
structure St where
  streams : List Stream
  calls : List Stream
deriving DecidableEq, Repr

/-- `ResourceStreamFunction.__call__` (`resource_stream_function.py:40-56`), `ResourceStream.__aiter__`
(`resource_stream.py:72-80`). -/
def step (s : St) : Op → St
  | .make f p k => { s with streams := s.streams ++ [⟨f, p, k⟩] }
  | .iterate i => match s.streams[i]? with
    | none => s
    | some x => { s with calls := s.calls ++ [⟨x.function, x.positional, x.keywords⟩] }

def run (s : St) (l : List Op) : St := l.foldl step s

/-- What is taken: nothing, the frame of an index, or the index is not there. -/
inductive Taken where
  | nothing
  | frame (i : Nat)
  | indexError
deriving DecidableEq, Repr

/-- `frames[-k]`. -/
def fromEnd (frames : List Nat) (k : Nat) : Taken :=
  if k ≤ frames.length then .frame (frames.length - k) else .indexError

/-- `extract_last_attribute_error_context_frame` (`attribute_error_helpers.py:66-88`). `rich` is whether the
exception is a rich one, `getattr` the name `__getattr__`; frames are given by their names. -/
def contextFrame (getattr : Nat) (rich : Bool) (frames : List Nat) : Taken :=
  if frames.isEmpty then .nothing
  else if 1 < frames.length && rich && frames.getLast? == some getattr then fromEnd frames 2
  else fromEnd frames 1

end Verif.Resource
