/-! Model of `MultiValueDictionary` (`utils/multi_value_dictionary.py`), of `IgnoreCaseMultiValueDictionary`
(`utils/ignore_case_multi_value_dictionary.py`) and of `IgnoreCaseString` (`utils/ignore_case_string.py`).

A Python dictionary is the list of its items in insertion order. Two keys are the same key of a dictionary if they have the same `canon`,
which is the identity for plain keys and the case folded text for header names (`__hash__` and `__eq__` of `IgnoreCaseString`, lines 76-95).
The first spelling of a key stays in the dictionary. Value lists are never shared: wherever the code hands out or takes over a list which
stays in a dictionary it copies it (lines 106, 252 and 418), so that values can be modelled instead of list objects. -/
namespace Verif.MultiDict

/-- The underlying `dict`. -/
abbrev Dict (K V : Type) := List (K × List V)

/-- What can be done with a dictionary. -/
inductive Op (K V : Type) where
  /-- `d[k] = v` -/
  | set (k : K) (v : V)
  /-- `del d[k]` -/
  | del (k : K)
  /-- `d[k]` -/
  | getItem (k : K)
  /-- `d.get_one(k)`, `d.get(k)` -/
  | getOne (k : K)
  /-- `d.get_all(k)` -/
  | getAll (k : K)
  | setdefault (k : K) (v : V)
  /-- `d.pop_all(k)`, `d.pop_all(k, None)` -/
  | popAll (k : K) (hasDefault : Bool)
  /-- `d.pop_one(k)`, `d.pop(k)`, `d.pop(k, None)` -/
  | popOne (k : K) (hasDefault : Bool)
  | popitem
  /-- `d.extend(mapping)`, given by the items of the mapping -/
  | extend (items : List (K × V))
  /-- `[*d.items()]` -/
  | items
  /-- `len(d.items())` -/
  | itemCount
  /-- `d.kwargs()` -/
  | kwargs
  /-- `d = d.copy()` -/
  | copy
deriving Repr

/-- What an operation answers. -/
inductive Out (K V : Type) where
  | none
  /-- the default (`None`) -/
  | default
  | value (v : V)
  | values (vs : List V)
  | item (k : K) (v : V)
  | pairs (l : List (K × V))
  | count (n : Nat)
  | keyError
  /-- `IndexError` of `values[0]` on an empty list -/
  | indexError
deriving DecidableEq, Repr

variable {K C V : Type} [DecidableEq C] [DecidableEq V] (canon : K → C)

/-- `dict.__getitem__`; `none` is a `KeyError`. -/
def Dict.get (d : Dict K V) (k : K) : Option (List V) :=
  (d.find? fun e => canon e.1 = canon k).map (·.2)

/-- `dict.__setitem__`, and changing the list of a key in place: the place and the spelling of a key already there are kept. -/
def Dict.put : Dict K V → K → List V → Dict K V
  | [], k, vs => [(k, vs)]
  | (k', vs') :: d, k, vs => if canon k' = canon k then (k', vs) :: d else (k', vs') :: Dict.put d k vs

/-- `dict.__delitem__`. -/
def Dict.erase (d : Dict K V) (k : K) : Dict K V := d.eraseP fun e => canon e.1 = canon k

/-- `__setitem__` (lines 140-149) and the body of the loops of `__init__` (120-128) and of `extend` (224-231). -/
def Dict.set (d : Dict K V) (k : K) (v : V) : Dict K V :=
  match d.get canon k with
  | none => d.put canon k [v]
  | some line => if v ∈ line then d else d.put canon k (line ++ [v])

/-- `items()` (lines 22-26). -/
def Dict.items (d : Dict K V) : List (K × V) := d.flatMap fun e => e.2.map fun v => (e.1, v)

/-- One operation. -/
def step (d : Dict K V) : Op K V → Dict K V × Out K V
  | .set k v => (d.set canon k v, .none)
  | .del k => -- lines 152-162
    match d.get canon k with
    | none => (d, .keyError)
    | some line => if line.length = 1 then (d.erase canon k, .none) else
        match line with
        | [] => (d, .indexError)
        | _ :: rest => (d.put canon k rest, .none)
  | .getItem k => -- line 137
    match d.get canon k with
    | none => (d, .keyError)
    | some [] => (d, .indexError)
    | some (v :: _) => (d, .value v)
  | .getOne k => -- lines 274-279
    match d.get canon k with
    | none => (d, .default)
    | some [] => (d, .indexError)
    | some (v :: _) => (d, .value v)
  | .getAll k => -- lines 251-254
    match d.get canon k with
    | none => (d, .default)
    | some line => (d, .values line)
  | .setdefault k v => -- lines 302-310
    match d.get canon k with
    | none => (d.put canon k [v], .value v)
    | some [] => (d, .indexError)
    | some (v :: _) => (d, .value v)
  | .popAll k hasDefault => -- lines 335-340
    match d.get canon k with
    | none => (d, if hasDefault then .default else .keyError)
    | some line => (d.erase canon k, .values line)
  | .popOne k hasDefault => -- lines 365-376
    match d.get canon k with
    | none => (d, if hasDefault then .default else .keyError)
    | some [] => (d, .indexError)
    | some (v :: rest) => (if rest = [] then d.erase canon k else d.put canon k rest, .value v)
  | .popitem => -- lines 395-401; `dict.popitem` takes the last item
    match d.getLast? with
    | none => (d, .keyError)
    | some (_, []) => (d.dropLast, .indexError)
    | some (k, v :: rest) => (if rest = [] then d.dropLast else Dict.put canon d.dropLast k rest, .item k v)
  | .extend l => (l.foldl (fun d e => d.set canon e.1 e.2) d, .none)
  | .items => (d, .pairs d.items)
  | .itemCount => (d, .count (d.foldl (fun n e => n + e.2.length) 0)) -- lines 13-19
  | .kwargs => -- lines 480-484; a plain dictionary, given by its items; `values[-1]`
    (d, .pairs (d.filterMap fun e => e.2.getLast?.map fun v => (e.1, v)))
  | .copy => (d.map fun e => (e.1, e.2), .none) -- lines 415-420

def runAll (d : Dict K V) (ops : List (Op K V)) : Dict K V := ops.foldl (fun d op => (step canon d op).1) d

/-- The operations with their answers. -/
def trace (d : Dict K V) : List (Op K V) → List (Op K V × Out K V)
  | [] => []
  | op :: ops => (op, (step canon d op).2) :: trace (step canon d op).1 ops

/-- What a dictionary can be made from: `__init__`, lines 98-128. -/
inductive Source (K V : Type) where
  | nothing
  /-- another multi value dictionary -/
  | multi (d : Dict K V)
  /-- a `dict`, given by its items -/
  | dict (l : List (K × V))
  /-- an iterable; `none` is an item which is not a tuple of two elements -/
  | pairs (l : List (Option (K × V)))

/-- `__init__`; `none` is the `ValueError`. -/
def make : Source K V → Option (Dict K V)
  | .nothing => some []
  | .multi d => some (d.foldl (fun s e => s.put canon e.1 e.2) [])
  | .dict l => some (l.foldl (fun s e => s.put canon e.1 [e.2]) [])
  | .pairs l => l.foldlM (fun s e => e.map fun e => s.set canon e.1 e.2) []

/-- `copy.copy(d)`: `__reduce__` (lines 200-202) returns the type and the list of the items; the type is then called with the items as its
arguments. A single item is taken for the iterable, and its two elements for the items of that; keys and values are taken not to be tuples.
`none` is an exception. -/
def reconstruct (d : Dict K V) : Option (Dict K V) :=
  match d.items with
  | [] => make canon .nothing
  | [_] => make canon (.pairs [none, none])
  | _ => none

/-! ### Header names -/

/-- Texts are lists of characters. -/
abbrev Text := List Char

/-- A string given as a key or compared: a `str`, an instance of another sub-type of `str`, or an `IgnoreCaseString`. -/
inductive Name where
  | plain (t : Text)
  | sub (t : Text)
  | ignoring (t : Text)
deriving DecidableEq, Repr

def Name.text : Name → Text
  | .plain t => t
  | .sub t => t
  | .ignoring t => t

/-- `IgnoreCaseString.__new__` (lines 56-68). -/
def Name.toIgnoring (n : Name) : Name := .ignoring n.text

variable (fold : Text → Text)

/-- What `__hash__` hashes (`str.__hash__` and lines 71-73). Different texts are taken to have different hashes. -/
def Name.hashed : Name → Text
  | .plain t => t
  | .sub t => t
  | .ignoring t => fold t

/-- What a comparison gives. -/
inductive Cmp where
  | is (b : Bool)
  | typeError
deriving DecidableEq, Repr

/-- `a == b`: lines 76-90 if the left side is an `IgnoreCaseString`; Python asks the right side first if its type is a sub-type of the left
side's type; otherwise the texts are compared. `issubclass(other, str)` with an instance raises. -/
def Name.eq : Name → Name → Cmp
  | .ignoring a, .ignoring b => .is (fold a = fold b)
  | .ignoring a, .plain b => .is (fold a = fold b)
  | .ignoring _, .sub _ => .typeError
  | .plain a, .ignoring b => .is (fold b = fold a)
  | a, b => .is (a.text = b.text)

/-- `a != b`: `IgnoreCaseString` has no `__ne__`, that of `str` is inherited, which compares the texts. -/
def Name.ne (a b : Name) : Cmp := .is (a.text ≠ b.text)

/-- Operations on a header dictionary. -/
inductive HeaderOp (V : Type) where
  /-- an operation the class overrides; the name is converted first -/
  | base (op : Op Name V)
  /-- `name in headers`, which is `dict.__contains__` -/
  | contains (n : Name)
  /-- `(name, value) in headers.items()` (lines 29-44 of `multi_value_dictionary.py`), which does not convert the name -/
  | containsItem (n : Name) (v : V)

/-- What they answer. -/
inductive HeaderOut (V : Type) where
  | base (o : Out Name V)
  | is (c : Cmp)
deriving DecidableEq, Repr

/-- The conversion of names done by the overriding methods of `IgnoreCaseMultiValueDictionary`. -/
def convert : Op Name V → Op Name V
  | .set k v => .set k.toIgnoring v
  | .del k => .del k.toIgnoring
  | .getItem k => .getItem k.toIgnoring
  | .getOne k => .getOne k.toIgnoring
  | .getAll k => .getAll k.toIgnoring
  | .setdefault k v => .setdefault k.toIgnoring v
  | .popAll k b => .popAll k.toIgnoring b
  | .popOne k b => .popOne k.toIgnoring b
  | .extend l => .extend (l.map fun e => (e.1.toIgnoring, e.2))
  | .popitem => .popitem
  | .items => .items
  | .itemCount => .itemCount
  | .kwargs => .kwargs
  | .copy => .copy

/-- A key found by its hash is compared with the one looked for: with an instance of another sub-type of `str` the comparison raises, otherwise
it says yes (`str.casefold` is idempotent). -/
def found : Name → Cmp
  | .sub _ => .typeError
  | _ => .is true

def headerStep (d : Dict Name V) : HeaderOp V → Dict Name V × HeaderOut V
  | .base op => ((step (Name.hashed fold) d (convert op)).1, .base (step (Name.hashed fold) d (convert op)).2)
  | .contains n => 
    (d, .is (match d.get (Name.hashed fold) n with
      | none => .is false
      | some _ => found n))
  | .containsItem n v =>
    (d, .is (match d.get (Name.hashed fold) n with
      | none => .is false
      | some vs => if v ∈ vs then found n else .is false))

def headerAnswers (d : Dict Name V) : List (HeaderOp V) → List (HeaderOut V)
  | [] => []
  | op :: ops => (headerStep fold d op).2 :: headerAnswers (headerStep fold d op).1 ops

/-- `IgnoreCaseMultiValueDictionary.__init__` (lines 19-56): names are converted, otherwise as in the base class. -/
def makeHeaders : Source Name V → Option (Dict Name V)
  | .nothing => some []
  | .multi d => make (Name.hashed fold) (.multi (d.map fun e => (e.1.toIgnoring, e.2)))
  | .dict l => make (Name.hashed fold) (.dict (l.map fun e => (e.1.toIgnoring, e.2)))
  | .pairs l => make (Name.hashed fold) (.pairs (l.map fun e => e.map fun e => (e.1.toIgnoring, e.2)))

end Verif.MultiDict
