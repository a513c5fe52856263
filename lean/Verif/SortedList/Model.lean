import Mathlib.Order.Defs.LinearOrder

/-! Model of `SortedList` (`utils/sorted_list.py`).

Elements are compared by a `key` in a linear order: `a < b`, `a > b` and `a == b` of the code are comparisons of keys, so that elements can be
equal without being the same. Comparisons do not raise. -/
namespace Verif.SortedList

variable {α κ μ : Type} [LinearOrder κ] [LinearOrder μ] (key : α → κ)

structure State (α : Type) where
  items : List α := []
  /-- `_reversed` -/
  reversed : Bool := false
deriving DecidableEq, Repr

/-- `a < b`, or `a > b` in a reversed list. -/
def before (reversed : Bool) (a b : κ) : Bool := if reversed then decide (a > b) else decide (a < b)

/-- The `while` loop of lines 175-181, 192-199, 242-264 and 287-307; `p` is the comparison with `self[half]`. The first parameter bounds the
rounds; `top - bot` shrinks in each of them, so that as many rounds as there are elements are enough. -/
def bisect (p : α → Bool) (l : List α) : Nat → Nat → Nat → Nat
  | 0, bot, _ => bot
  | rounds + 1, bot, top =>
    if bot < top then
      let half := (bot + top) / 2
      match l[half]? with
      | none => bot -- does not happen, `half` is in range
      | some e => if p e then bisect p l rounds (half + 1) top else bisect p l rounds bot half
    else bot

/-- `relative_index`, lines 228-266. -/
def State.relativeIndex (s : State α) (v : α) : Nat :=
  bisect (fun e => before s.reversed (key e) (key v)) s.items s.items.length 0 s.items.length

/-- `keyed_relative_index`, lines 269-308. -/
def State.keyedRelativeIndex (s : State α) (x : μ) (f : α → μ) : Nat :=
  bisect (fun e => before s.reversed (f e) x) s.items s.items.length 0 s.items.length

/-- `list.insert`. -/
def insertAt (l : List α) (i : Nat) (v : α) : List α := l.take i ++ v :: l.drop i

/-- `sorted(iterable, reverse = reversed)`, which is stable in both directions. -/
def place (reversed : Bool) (v : α) : List α → List α
  | [] => [v]
  | e :: l => if before reversed (key e) (key v) then e :: place reversed v l else v :: e :: l

def pySorted (reversed : Bool) (l : List α) : List α := l.foldr (place key reversed) []

/-- What `extend` is called with. -/
inductive Arg (α : Type) where
  /-- any other iterable -/
  | iterable (l : List α)
  /-- another instance of the same type, not the list itself -/
  | sortedList (s : State α)
deriving Repr

inductive Op (α μ : Type) where
  | add (v : α)
  | remove (v : α)
  | extend (arg : Arg α)
  /-- `reverse = value` -/
  | setReverse (value : Bool)
  /-- `pop(x, f)` -/
  | pop (x : μ) (f : α → μ)
  /-- `resort()` -/
  | resort
  /-- `del self[i]` -/
  | delItem (i : Nat)
  | clear

/-- What an operation returns. -/
inductive Out (α : Type) where
  | none
  | element (e : α)
  | default
deriving DecidableEq, Repr

/-- `for value in other` of `extend` (lines 173-183, 192-202): `bot` is kept from one value to the next. -/
def extendLoop (reversed : Bool) : List α → List α → Nat → List α
  | items, [], _ => items
  | items, v :: other, bot =>
    let bot := bisect (fun e => before reversed (key e) (key v)) items items.length bot items.length
    extendLoop reversed (insertAt items bot v) other bot

/-- `other` of `extend` (lines 164-171, 183-190). -/
def Arg.other (reversed : Bool) : Arg α → List α
  | .iterable l => pySorted key reversed l
  | .sortedList s => if s.reversed = reversed then s.items else s.items.reverse

def step (s : State α) : Op α μ → State α × Out α
  | .add v => -- lines 96-119
    let i := s.relativeIndex key v
    match s.items[i]? with
    | none => ({ s with items := s.items ++ [v] }, .none)
    | some e => if key e = key v then ({ s with items := s.items.set i v }, .none) else ({ s with items := insertAt s.items i v }, .none)
  | .remove v => -- lines 123-145
    let i := s.relativeIndex key v
    match s.items[i]? with
    | none => (s, .none)
    | some e => if key e ≠ key v then (s, .none) else ({ s with items := s.items.eraseIdx i }, .none)
  | .extend arg => ({ s with items := extendLoop key s.reversed s.items (arg.other key s.reversed) 0 }, .none)
  | .setReverse value => -- lines 88-93
    if s.reversed = value then (s, .none) else ({ reversed := value, items := s.items.reverse }, .none)
  | .pop x f => -- lines 364-392
    let i := s.keyedRelativeIndex x f
    match s.items[i]? with
    | none => (s, .default)
    | some e => if f e = x then ({ s with items := s.items.eraseIdx i }, .element e) else (s, .default)
  | .resort => ({ s with items := pySorted key s.reversed s.items }, .none) -- lines 328-332
  | .delItem i => ({ s with items := s.items.eraseIdx i }, .none)
  | .clear => ({ s with items := [] }, .none)

/-- `__contains__`, lines 206-215. -/
def State.contains (s : State α) (v : α) : Bool :=
  match s.items[s.relativeIndex key v]? with
  | none => false
  | some e => decide (key e = key v)

/-- `index`, lines 218-225; `none` is the `ValueError`. -/
def State.index (s : State α) (v : α) : Option Nat :=
  match s.items[s.relativeIndex key v]? with
  | none => none
  | some e => if key e ≠ key v then none else some (s.relativeIndex key v)

/-- `get`, lines 335-361. -/
def State.get (s : State α) (x : μ) (f : α → μ) : Option α :=
  match s.items[s.keyedRelativeIndex x f]? with
  | none => none
  | some e => if f e = x then some e else none

/-- `__init__`, lines 31-45. -/
def make (iterable : Option (Arg α)) (reversed : Bool) : State α :=
  match iterable with
  | none => { reversed }
  | some arg => { reversed, items := pySorted key reversed (extendLoop key reversed [] (arg.other key reversed) 0) }

def runAll (s : State α) (ops : List (Op α μ)) : State α := ops.foldl (fun s op => (step key s op).1) s

def trace (s : State α) : List (Op α μ) → List (Op α μ × Out α)
  | [] => []
  | op :: ops => (op, (step key s op).2) :: trace (step key s op).1 ops

/-- One round of `self.extend(self)`: `other` is the list itself, whose iterator takes the next position each time. -/
structure SelfLoop (α : Type) where
  items : List α
  /-- the position of the iterator -/
  position : Nat := 0
  bot : Nat := 0

/-- The next round; `none` if the iterator is at the end and the loop is left. -/
def SelfLoop.next (reversed : Bool) (s : SelfLoop α) : Option (SelfLoop α) :=
  match s.items[s.position]? with
  | none => none
  | some v =>
    let bot := bisect (fun e => before reversed (key e) (key v)) s.items s.items.length s.bot s.items.length
    some { items := insertAt s.items bot v, position := s.position + 1, bot }

/-- Some rounds. -/
def SelfLoop.rounds (reversed : Bool) (s : SelfLoop α) : Nat → Option (SelfLoop α)
  | 0 => some s
  | n + 1 => (SelfLoop.rounds reversed s n).bind (SelfLoop.next key reversed)

end Verif.SortedList
