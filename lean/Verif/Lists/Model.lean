/-!
# Helpers of lists and views of dictionaries

Modelled code: `scarletio/utils/utils.py` (`relative_index`, `change_on_switch`, `list_difference`, `un_map_pack`,
`any_to_any`, `where`), `scarletio/utils/dict_iterator_bases.py` (`__eq__` of the three views).

Elements are integers. So of any two one is smaller or they are equal, and the branch of `list_difference` for elements
which are neither (276–278) is not there.
-/

namespace Verif.Lists

/-! ## Positions -/

/-- The loop of `relative_index` (108–116). -/
def bisect (l : List Int) (v : Int) (bot top : Nat) : Nat :=
  if h : bot < top then
    if l.getD ((bot + top) / 2) 0 < v then bisect l v ((bot + top) / 2 + 1) top
    else bisect l v bot ((bot + top) / 2)
  else bot
  termination_by top - bot
  decreasing_by all_goals omega

/-- `relative_index` (90–116). -/
def relativeIndex (l : List Int) (v : Int) : Nat := bisect l v 0 l.length

/-- The loop of `change_on_switch` (170–185), `n` times: the index is increased before the position is computed. -/
def changes (l : List Int) (change : Int) : Nat → Nat → List (Int × Int)
  | _, 0 => []
  | index, n + 1 =>
    let actual := l.getD index 0
    let index := index + 1
    (actual, (index : Int) + change) :: changes l change index n

/-- Which exception is raised. -/
inductive Err
  | value
  | type
  deriving DecidableEq

/-- The new position within the list (151–154). -/
def clamp (ln : Nat) (position : Int) : Int :=
  if position ≥ ln then ln - 1 else if position < 0 then 0 else position

/-- `change_on_switch` (120–197) without a key. At the end (192–195) a move to the front calls `result.index(0, element)`,
which takes the pair for an index and raises `TypeError`. -/
def changeOnSwitch (l : List Int) (v : Int) (position : Int) : Err ⊕ List (Int × Int) :=
  let old := relativeIndex l v
  if old = l.length ∨ l.getD old 0 ≠ v then .inl .value
  else
    let new := clamp l.length position
    if new = old then .inr []
    else if new < old then .inl .type
    else .inr (changes l (-1) (old + 1) (new.toNat - old) ++ [(v, new)])

/-! ## Differences -/

/-- The loop of `list_difference` (246–280). -/
def diff : List Int → List Int → List Int × List Int
  | [], ys => ([], ys)
  | x :: xs, [] => (x :: xs, [])
  | x :: xs, y :: ys =>
    if x < y then
      let d := diff xs (y :: ys)
      (x :: d.1, d.2)
    else if x > y then
      let d := diff (x :: xs) ys
      (d.1, y :: d.2)
    else diff xs ys
  termination_by xs ys => xs.length + ys.length

/-- What is given to `list_difference`. -/
inductive Given
  | none
  | list (l : List Int)
  | set (l : List Int)

/-- `sorted`. -/
def sorted (l : List Int) : List Int := l.mergeSort (fun a b => decide (a ≤ b))

/-- Sets are sorted (235–238). -/
def Given.take : Given → List Int
  | .none => []
  | .list l => l
  | .set l => sorted l

/-- `list_difference` (202–282); if one of them is `None`, the other is copied as it is (224–233). -/
def listDifference : Given → Given → List Int × List Int
  | .none, .none => ([], [])
  | .none, .list l => ([], l)
  | .none, .set l => ([], l)
  | .list l, .none => (l, [])
  | .set l, .none => (l, [])
  | a, b => diff a.take b.take

/-! ## Lookups -/

/-- `any_to_any` (15–34). -/
def anyToAny (xs ys : List Int) : Bool :=
  match xs with
  | [] => false
  | x :: xs => if x ∈ ys then true else anyToAny xs ys

/-- `where` (59–86); `none`: `LookupError`. -/
def where_ (key : Int → Bool) : List Int → Option Int
  | [] => none
  | x :: xs => if key x then some x else where_ key xs

/-! ## Unpacking of pairs -/

/-- `un_map_pack` (286–335): the pairs left and the value got last. -/
structure Pack where
  left : List (Nat × Int)
  value : Option Int := none

/-- `__next__` (326–330); `none`: it ended. -/
def Pack.next (p : Pack) : Option (Nat × Pack) :=
  match p.left with
  | [] => none
  | (k, v) :: rest => some (k, ⟨rest, some v⟩)

/-- `__getitem__` (333–335), whatever the key is. -/
def Pack.get (p : Pack) (_key : Nat) : Option Int := p.value

/-- All keys, and the packer afterwards. -/
def Pack.keys (left : List (Nat × Int)) (value : Option Int) : List Nat × Pack :=
  match left with
  | [] => ([], ⟨[], value⟩)
  | (k, v) :: rest =>
    let r := Pack.keys rest (some v)
    (k :: r.1, r.2)

/-- Merging by a mapping protocol which asks for the value right after its key. -/
def alternately (fuel : Nat) (p : Pack) : List (Nat × Option Int) :=
  match fuel with
  | 0 => []
  | n + 1 =>
    match p.next with
    | none => []
    | some (k, p') => (k, p'.get k) :: alternately n p'

/-- Merging by one which takes all the keys first (`PyMapping_Keys` makes a list of them). -/
def keysFirst (p : Pack) : List (Nat × Option Int) :=
  let r := Pack.keys p.left p.value
  r.1.map fun k => (k, r.2.get k)

/-! ## Views of dictionaries -/

/-- What a view of values is compared with. -/
inductive Other
  /-- A view like itself, of the given dictionary. -/
  | view (parent : List (Int × Int))
  | list (l : List Int)
  /-- An iterable; whether it has a length. -/
  | iterable (sized : Bool) (l : List Int)
  | other

/-- The loop over the values (`list.remove` each of them), 159–168. -/
def removeAll : List Int → List Int → Bool
  | [], other => other.isEmpty
  | v :: vs, other => if v ∈ other then removeAll vs (other.erase v) else false

/-- Equality of dictionaries, as lists of items with different keys. -/
def dictEq (a b : List (Int × Int)) : Bool :=
  decide (a.length = b.length) && a.all fun x => decide (b.lookup x.1 = some x.2)

/-- `DictionaryValueIteratorBase.__eq__` (132–168); `none`: `NotImplemented`. -/
def valuesEq (parent : List (Int × Int)) : Other → Option Bool
  | .view p => some (dictEq parent p)
  | .list l => if parent.length ≠ l.length then some false else some (removeAll (parent.map (·.2)) l)
  | .iterable _ l => if parent.length ≠ l.length then some false else some (removeAll (parent.map (·.2)) l)
  | .other => none

/-- `DictionaryKeyIteratorBase.__eq__` (65–70) with another view: the dictionaries are compared. -/
def keysEq (a b : List (Int × Int)) : Bool := dictEq a b

end Verif.Lists
