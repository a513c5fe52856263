import Verif.Weak.Model

/-!
# Dictionaries with weak values

`WeakValueDictionary` (`scarletio/utils/weak_value_dictionary.py`) and `HybridValueDictionary`
(`scarletio/utils/hybrid_value_dictionary.py`; values which cannot be referenced weakly are kept strongly). The values
are `KeyedReferer`s. Nothing ever hashes such a reference while its object lives, so when the object is gone
`hash(reference)` raises and `add_to_pending_removals` stores a `WeakHasher` around it (`weak_core.py`:105-108).
-/

namespace Verif.Weak

/-- Which of the two dictionaries. -/
inductive VKind where
  | weak
  | hybrid
deriving DecidableEq, Repr

/-- What the built in dictionary holds. -/
inductive Slot where
  /-- A `KeyedReferer`, in the hybrid dictionary the pair `(True, reference)`. -/
  | weak (r : Ref)
  /-- The pair `(False, value)`. -/
  | strong (o : Nat)
deriving DecidableEq, Repr

/-- An element of `_pending_removals`, with the `key` which the reference carries. -/
inductive Pend (K : Type) where
  /-- The reference itself, if it could be hashed. -/
  | plain (r : Ref) (key : K)
  /-- A `WeakHasher` around it. -/
  | hasher (r : Ref) (key : K)
deriving DecidableEq, Repr

variable {K : Type}

def Pend.key : Pend K → K
  | .plain _ k => k
  | .hasher _ k => k

/-- `actual_value_reference is value_reference` (`weak_value_dictionary.py`:232, `hybrid_value_dictionary.py`:197). -/
def Pend.is : Pend K → Slot → Bool
  | .plain r _, .weak s => r.id == s.id
  | _, _ => false

structure VDict (K : Type) where
  entries : List (K × Slot) := []
  pending : List (Pend K) := []
  iterating : Nat := 0
  fresh : Nat := 0
  dead : List Nat := []

/-- The order in which the pending removals are iterated. -/
structure POrder (K : Type) where
  apply : List (Pend K) → List (Pend K)
  perm : ∀ l, (apply l).Perm l

inductive VOp (K : Type) where
  | put (k : K) (o : Nat)
  | setdefault (k : K) (o : Nat)
  /-- `del d[k]`: the built in one. -/
  | del (k : K)
  /-- `pop(k)` or `pop(k, default)`. -/
  | pop (k : K) (hasDefault : Bool)
  /-- `get`, `in`, `d[k]`. -/
  | look (k : K)
  | popitem
  | clear
  | enter
  | leave (order : POrder K)
  | die (o : Nat)
  /-- A pass over all the entries: `list(…)`, `copy()`. -/
  | sweep (order : POrder K)

inductive VOut (K : Type) where
  | unit
  | keyError
  | typeError
  /-- The value, or the default. -/
  | value (o : Option Nat)
  | item (i : Option (K × Nat))
  | list (items : List (K × Nat))
  | impossible
deriving DecidableEq, Repr

namespace VDict

variable [DecidableEq K]

def live (d : VDict K) (o : Nat) : Bool := !d.dead.contains o

/-- The object a slot still gives. -/
def read (d : VDict K) : Slot → Option Nat
  | .weak r => if d.live r.target then some r.target else none
  | .strong o => some o

/-- `dict.get(self, k)`. -/
def slot (d : VDict K) (k : K) : Option Slot := (d.entries.find? fun e => e.1 == k).map Prod.snd

/-- `dict.__delitem__(self, k)`. -/
def erase (d : VDict K) (k : K) : VDict K := { d with entries := d.entries.filter fun e => e.1 != k }

/-- `add_to_pending_removals(self, reference)`: the reference cannot be hashed. -/
def addPending (d : VDict K) (r : Ref) (k : K) : VDict K :=
  if d.pending.contains (.hasher r k) then d else { d with pending := d.pending ++ [.hasher r k] }

/-- `__len__`: `weak_value_dictionary.py`:333-342, `hybrid_value_dictionary.py`:303-312. -/
def len (d : VDict K) : Int := (d.entries.length : Int) - d.pending.length

/-- `_WeakValueDictionaryCallback.__call__`: `weak_value_dictionary.py`:38-57. -/
def callback (d : VDict K) (r : Ref) (k : K) : VDict K :=
  if d.iterating > 0 then d.addPending r k else d.erase k

/-- The weak references to an object, with their keys. -/
def refsTo (d : VDict K) (o : Nat) : List (Ref × K) :=
  d.entries.filterMap fun e => match e.2 with
    | .weak r => if r.target = o then some (r, e.1) else none
    | .strong _ => none

def die (d : VDict K) (o : Nat) : VDict K :=
  let d' := { d with dead := o :: d.dead }
  (d'.refsTo o).foldl (fun d x => d.callback x.1 x.2) d'

/-- The loop body of `_commit_removals`: `weak_value_dictionary.py`:225-238, `hybrid_value_dictionary.py`:186-203. -/
def commitOne (d : VDict K) (p : Pend K) : VDict K :=
  match d.slot p.key with
  | none => d
  | some s => if p.is s then d.erase p.key else d

/-- `_commit_removals`: `weak_value_dictionary.py`:211-238, `hybrid_value_dictionary.py`:172-203. -/
def commit (order : POrder K) (d : VDict K) : VDict K :=
  if d.iterating > 0 then d else (order.apply d.pending).foldl commitOne { d with pending := [] }

/-- The dead references which a pass over the entries meets. -/
def deadRefs (d : VDict K) : List (Ref × K) :=
  d.entries.filterMap fun e => match e.2 with
    | .weak r => if d.live r.target then none else some (r, e.1)
    | .strong _ => none

def note (d : VDict K) : VDict K := d.deadRefs.foldl (fun d x => d.addPending x.1 x.2) d

/-- What a pass over the entries gives. -/
def view (d : VDict K) : List (K × Nat) := d.entries.filterMap fun e => (d.read e.2).map fun o => (e.1, o)

/-- `dict.__setitem__(self, k, slot)`. -/
def store (d : VDict K) (k : K) (s : Slot) : VDict K :=
  if d.entries.any fun e => e.1 == k then
    { d with entries := d.entries.map fun e => if e.1 == k then (k, s) else e }
  else { d with entries := d.entries ++ [(k, s)] }

/--
`__setitem__`: `weak_value_dictionary.py`:422-424, `hybrid_value_dictionary.py`:395-405. `none` is the `TypeError` of a
value which cannot be referenced weakly.
-/
def put (weakable : Nat → Bool) (kind : VKind) (d : VDict K) (k : K) (o : Nat) : Option (VDict K) :=
  if weakable o then some { d.store k (.weak ⟨d.fresh, o⟩) with fresh := d.fresh + 1 }
  else match kind with
    | .weak => none
    | .hybrid => some (d.store k (.strong o))

/-- The loop of `popitem`: `weak_value_dictionary.py`:575-584, `hybrid_value_dictionary.py`:564-575. -/
def popLoop (read : Slot → Option Nat) : List (K × Slot) → List (K × Slot) × Option (K × Nat)
  | [] => ([], none)
  | e :: earlier =>
    match read e.2 with
    | some o => (earlier, some (e.1, o))
    | none => popLoop read earlier

def step (weakable : Nat → Bool) (kind : VKind) (d : VDict K) : VOp K → VDict K × VOut K
  | .put k o =>
    if d.live o then
      match d.put weakable kind k o with
      | some d' => (d', .unit)
      | none => (d, .typeError)
    else (d, .impossible)
  | .setdefault k o =>
    -- `weak_value_dictionary.py`:605-612, `hybrid_value_dictionary.py`:596-607
    if d.live o then
      match (d.slot k).bind d.read with
      | some v => (d, .value (some v))
      | none =>
        match d.put weakable kind k o with
        | some d' => (d', .value (some o))
        | none => (d, .typeError)
    else (d, .impossible)
  | .del k =>
    match d.slot k with
    | some _ => (d.erase k, .unit)
    | none => (d, .keyError)
  | .pop k hasDefault =>
    -- `weak_value_dictionary.py`:549-558, `hybrid_value_dictionary.py`:533-548
    match d.slot k with
    | some s =>
      match d.read s with
      | some v => (d.erase k, .value (some v))
      | none => (d.erase k, if hasDefault then .value none else .keyError)
    | none =>
      if hasDefault then
        match kind with
        | .weak => (d, .value none)
        -- `if (value_pair is not default)` with the placeholder `...`
        | .hybrid => (d, .typeError)
      else (d, .keyError)
  | .look k =>
    -- `weak_value_dictionary.py`:242-257, 290-303, 471-500, `hybrid_value_dictionary.py`:207-224, 257-272, 452-485
    match d.slot k with
    | none => (d, .value none)
    | some s =>
      match s, d.read s with
      | _, some v => (d, .value (some v))
      | .weak r, none => (if d.iterating > 0 then d.addPending r k else d.erase k, .value none)
      | .strong _, none => (d, .value none)
  | .popitem =>
    let r := popLoop d.read d.entries.reverse
    ({ d with entries := r.1.reverse }, .item r.2)
  | .clear => ({ d with entries := [], pending := [] }, .unit)
  | .enter => ({ d with iterating := d.iterating + 1 }, .unit)
  | .leave order =>
    if d.iterating > 0 then (commit order { d with iterating := d.iterating - 1 }, .unit) else (d, .impossible)
  | .die o =>
    -- what cannot be referenced weakly is held strongly by somebody, so it does not die here
    if d.live o && weakable o then (d.die o, .unit) else (d, .impossible)
  | .sweep order => (commit order d.note, .list d.view)

def run (weakable : Nat → Bool) (kind : VKind) : VDict K → List (VOp K) → VDict K × List (VOut K)
  | d, [] => (d, [])
  | d, op :: ops =>
    let r := d.step weakable kind op
    let rest := run weakable kind r.1 ops
    (rest.1, r.2 :: rest.2)

end VDict

/-! ## What such a dictionary should be -/

/-- A plain dictionary: what is stored under each key. -/
structure VPlain (K : Type) where
  at' : K → Option Nat := fun _ => none
  dead : List Nat := []

variable [DecidableEq K]

def VPlain.set (p : VPlain K) (k : K) (v : Option Nat) : VPlain K :=
  { p with at' := fun k' => if k' = k then v else p.at' k' }

/--
What an operation may do to the plain dictionary, and what it may give back. Two things are left open here and are
claims of their own: the type error of the hybrid dictionary's `pop`, and `del` of a key which is not there.
-/
def VPlain.Allows (weakable : Nat → Bool) (kind : VKind) (p : VPlain K) (op : VOp K) (p' : VPlain K) (out : VOut K) :
    Prop :=
  match op with
  | .put k o =>
    if o ∈ p.dead then p' = p ∧ out = .impossible
    else if weakable o = false ∧ kind = .weak then p' = p ∧ out = .typeError
    else p' = p.set k (some o) ∧ out = .unit
  | .setdefault k o =>
    if o ∈ p.dead then p' = p ∧ out = .impossible
    else match p.at' k with
      | some v => p' = p ∧ out = .value (some v)
      | none =>
        if weakable o = false ∧ kind = .weak then p' = p ∧ out = .typeError
        else p' = p.set k (some o) ∧ out = .value (some o)
  -- deleting a key which is not there may go unnoticed
  | .del k => p' = p.set k none ∧ (out = .unit ∨ (out = .keyError ∧ p.at' k = none))
  | .pop k hasDefault =>
    p' = p.set k none ∧
      match p.at' k with
      | some v => out = .value (some v)
      | none => if hasDefault then out = .value none ∨ (kind = .hybrid ∧ out = .typeError) else out = .keyError
  | .look k => p' = p ∧ out = .value (p.at' k)
  | .popitem =>
    ((∀ k, p.at' k = none) ∧ p' = p ∧ out = .item none) ∨
      ∃ k v, p.at' k = some v ∧ p' = p.set k none ∧ out = .item (some (k, v))
  | .clear => p' = { p with at' := fun _ => none } ∧ out = .unit
  | .enter => p' = p ∧ out = .unit
  | .leave _ => p' = p ∧ (out = .unit ∨ out = .impossible)
  | .die o =>
    if o ∈ p.dead ∨ weakable o = false then p' = p ∧ out = .impossible
    else p' = { at' := fun k => if p.at' k = some o then none else p.at' k, dead := o :: p.dead } ∧ out = .unit
  | .sweep _ =>
    p' = p ∧ ∃ items, out = .list items ∧ (items.map Prod.fst).Nodup ∧ ∀ k v, (k, v) ∈ items ↔ p.at' k = some v

inductive VPlain.Runs (weakable : Nat → Bool) (kind : VKind) :
    VPlain K → List (VOp K) → VPlain K → List (VOut K) → Prop
  | nil (p : VPlain K) : Runs weakable kind p [] p []
  | cons {p p' p'' : VPlain K} {op : VOp K} {ops : List (VOp K)} {out : VOut K} {outs : List (VOut K)}
      (h : VPlain.Allows weakable kind p op p' out) (t : Runs weakable kind p' ops p'' outs) :
      Runs weakable kind p (op :: ops) p'' (out :: outs)

/-- The plain dictionary which such a dictionary stands for. -/
def VDict.plain (d : VDict K) : VPlain K := { at' := fun k => (d.slot k).bind d.read, dead := d.dead }

end Verif.Weak
