/-!
# Weak containers keyed by weak references

`WeakSet` (`scarletio/utils/weak_set.py`), `WeakMap` (`scarletio/utils/weak_map.py`) and `WeakKeyDictionary`
(`scarletio/utils/weak_key_dictionary.py`) keep weak references as the keys of a built in set or dictionary. They share
one machinery: a callback is called when a referenced object dies; while the container is iterated the dead reference
is only noted in `_pending_removals`, and the note is worked off when the last iteration ends.

Objects are numbers. `cls o` is the equality class of an object (what `__eq__` and `__hash__` see), so different
objects may be equal. A weak reference is an object of its own, so it has a number too.
-/

namespace Verif.Weak

/-- A `WeakReferer` (`weak_core.py`:118-147): its own identity and the object it was created for. -/
structure Ref where
  id : Nat
  target : Nat
deriving DecidableEq, Repr

/--
Comparison of two weak references by the interpreter: while both objects live the objects are compared, afterwards
only identity counts.
-/
def refEq (cls : Nat → Nat) (live : Nat → Bool) (a b : Ref) : Bool :=
  if live a.target && live b.target then cls a.target == cls b.target else a.id == b.id

/-- Which of the three containers. -/
inductive Kind where
  | set
  | map
  | keys
deriving DecidableEq, Repr

/--
A container. `pending` is `_pending_removals` (`None` and the empty set behave alike), `iterating` is `_iterating`.
`fresh` is the identity of the next reference to be created and `dead` the objects which were already collected.
-/
structure Table (V : Type) where
  entries : List (Ref × V) := []
  pending : List Ref := []
  iterating : Nat := 0
  fresh : Nat := 0
  dead : List Nat := []

/-- The order in which the interpreter iterates over a built in set: any rearrangement. -/
structure Order where
  apply : List Ref → List Ref
  perm : ∀ l, (apply l).Perm l

/-- The operations. -/
inductive Op (V : Type) where
  /-- `d[o] = v`, `add`. -/
  | put (o : Nat) (v : V)
  /-- `setdefault`, `WeakMap.set`. -/
  | setdefault (o : Nat) (v : V)
  /-- `del`, `pop`, `remove`, `discard`. -/
  | remove (o : Nat)
  /-- `get`, `in`, `d[o]`. -/
  | look (o : Nat)
  /-- `popitem()` of the dictionary, `pop()` of the set. -/
  | pop (choice : Nat → Nat)
  | clear
  /-- An iterator starts. -/
  | enter
  /-- An iterator is exhausted or closed. -/
  | leave (order : Order)
  /-- The object is collected. -/
  | die (o : Nat)
  /-- A pass over all the entries which is finished at once: `list(…)`, and `copy()` of the dictionaries. -/
  | sweep (order : Order)
  /-- `self ^= other` meets a dead reference of the other set. -/
  | foreign (o : Nat)

/-- What an operation gives back. -/
inductive Out (V : Type) where
  | unit
  | item (value : Option (Nat × V))
  | list (items : List (Nat × V))
  /-- The operation cannot be written: its object was already collected, or no iterator is there to be ended. -/
  | impossible
deriving DecidableEq, Repr

variable {V : Type}

namespace Table

def live (t : Table V) (o : Nat) : Bool := !t.dead.contains o

/-- `dict.get(self, WeakReferer(o))`: the first entry whose key equals a new reference to the object. -/
def find (cls : Nat → Nat) (t : Table V) (o : Nat) : Option (Ref × V) :=
  t.entries.find? fun e => refEq cls t.live ⟨t.fresh, o⟩ e.1

/--
`__len__`: `weak_set.py`:424-433, `weak_map.py`:226-235, `weak_key_dictionary.py`:307-316. A negative result makes the
interpreter raise.
-/
def len (t : Table V) : Int := (t.entries.length : Int) - t.pending.length

/-- `add_to_pending_removals` (`weak_core.py`:94-115); the keys were hashed when they were put into the container. -/
def addPending (t : Table V) (r : Ref) : Table V :=
  if t.pending.contains r then t else { t with pending := t.pending ++ [r] }

/-- `set.discard(self, reference)`, `dict.__delitem__(self, reference)`. -/
def discard (cls : Nat → Nat) (t : Table V) (r : Ref) : Table V :=
  { t with entries := t.entries.eraseP fun e => refEq cls t.live r e.1 }

/-- The callbacks: `weak_set.py`:37-53, `weak_map.py`:36-55, `weak_key_dictionary.py`:38-56. -/
def callback (cls : Nat → Nat) (t : Table V) (r : Ref) : Table V :=
  if t.iterating > 0 then t.addPending r else t.discard cls r

/-- An object dies: the callbacks of all the references to it are called. -/
def die (cls : Nat → Nat) (t : Table V) (o : Nat) : Table V :=
  let t' := { t with dead := o :: t.dead }
  ((t'.entries.map Prod.fst).filter (fun r => r.target == o)).foldl (callback cls) t'

/--
The loop of `WeakKeyDictionary._commit_removals` (`weak_key_dictionary.py`:217-222): it **returns** at the first
reference which is not there.
-/
def commitKeys (cls : Nat → Nat) : List Ref → Table V → Table V
  | [], t => t
  | r :: rs, t =>
    if t.entries.any (fun e => refEq cls t.live r e.1) then commitKeys cls rs (t.discard cls r) else t

/--
`_commit_removals`: `weak_set.py`:84-101 (`set.discard` never raises), `weak_map.py`:87-104,
`weak_key_dictionary.py`:204-222.
-/
def commit (cls : Nat → Nat) (kind : Kind) (order : Order) (t : Table V) : Table V :=
  if t.iterating > 0 then t else
    match kind with
    | .keys => commitKeys cls (order.apply t.pending) { t with pending := [] }
    | _ => (order.apply t.pending).foldl (discard cls) { t with pending := [] }

/-- Noting every dead reference which a pass over the entries meets. -/
def note (t : Table V) : Table V :=
  ((t.entries.map Prod.fst).filter (fun r => !t.live r.target)).foldl addPending t

/-- What a pass over the entries gives: the entries whose object lives. -/
def view (t : Table V) : List (Nat × V) :=
  t.entries.filterMap fun e => if t.live e.1.target then some (e.1.target, e.2) else none

/--
The loops of `WeakSet.pop` (`weak_set.py`:1007-1012; the built in takes any element) and
`WeakKeyDictionary.popitem` (`weak_key_dictionary.py`:539-548; the built in takes the last item).
-/
def popLoop (live : Nat → Bool) (position : Nat → Nat) :
    Nat → List (Ref × V) → List (Ref × V) × Option (Nat × V)
  | 0, es => (es, none)
  | n + 1, es =>
    match es[position es.length]? with
    | none => (es, none)
    | some e =>
      if live e.1.target then (es.eraseIdx (position es.length), some (e.1.target, e.2))
      else popLoop live position n (es.eraseIdx (position es.length))

def popPosition (kind : Kind) (choice : Nat → Nat) (n : Nat) : Nat :=
  match kind with
  | .keys => n - 1
  | _ => choice n % n

/-- `dict.__setitem__(self, WeakReferer(o, callback), v)`: an equal key is kept, only the value is replaced. -/
def put (cls : Nat → Nat) (t : Table V) (o : Nat) (v : V) : Table V :=
  match t.entries.findIdx? (fun e => refEq cls t.live ⟨t.fresh, o⟩ e.1) with
  | some i => { t with entries := t.entries.modify i (fun e => (e.1, v)), fresh := t.fresh + 1 }
  | none => { t with entries := t.entries ++ [(⟨t.fresh, o⟩, v)], fresh := t.fresh + 1 }

/-- One operation. -/
def step (cls : Nat → Nat) (kind : Kind) (t : Table V) : Op V → Table V × Out V
  | .put o v =>
    -- `weak_set.py`:659-676, `weak_key_dictionary.py`:397-399
    if t.live o then (t.put cls o v, .unit) else (t, .impossible)
  | .setdefault o v =>
    -- `weak_key_dictionary.py`:552-576, `weak_map.py`:473-502
    if t.live o then
      match t.find cls o with
      | some e => (t, .item (some (e.1.target, e.2)))
      | none => (t.put cls o v, .item (some (o, v)))
    else (t, .impossible)
  | .remove o =>
    -- `weak_set.py`:773-788, 1016-1036, `weak_map.py`:121-133, 396-437, `weak_key_dictionary.py`:238-240, 489-523
    if t.live o then
      ({ t with entries := t.entries.eraseP fun e => refEq cls t.live ⟨t.fresh, o⟩ e.1 },
        .item ((t.find cls o).map fun e => (e.1.target, e.2)))
    else (t, .impossible)
  | .look o =>
    -- `weak_set.py`:136-148, `weak_map.py`:109-118, 159-180, 354-388, `weak_key_dictionary.py`:226-234, 274-278, 445-462
    if t.live o then (t, .item ((t.find cls o).map fun e => (e.1.target, e.2))) else (t, .impossible)
  | .pop choice =>
    match kind with
    -- `weak_map.py`:440 `popitem = RemovedDescriptor()`
    | .map => (t, .impossible)
    | kind =>
      let r := popLoop t.live (popPosition kind choice) t.entries.length t.entries
      ({ t with entries := r.1 }, .item r.2)
  | .clear =>
    -- `weak_set.py`:678-682, `weak_map.py`:316-321, `weak_key_dictionary.py`:408-413
    ({ t with entries := [], pending := [] }, .unit)
  | .enter => ({ t with iterating := t.iterating + 1 }, .unit)
  | .leave order =>
    if t.iterating > 0 then (commit cls kind order { t with iterating := t.iterating - 1 }, .unit)
    else (t, .impossible)
  | .die o => if t.live o then (t.die cls o, .unit) else (t, .impossible)
  | .sweep order =>
    -- `weak_set.py`:331-355, `weak_map.py`:201-222, 325-350, `weak_key_dictionary.py`:64-81, 417-442
    (commit cls kind order t.note, .list t.view)
  | .foreign o =>
    -- `weak_set.py`:362-366, 1106-1110
    match kind with
    | .set =>
      if t.live o then (t, .impossible)
      else ({ t with pending := t.pending ++ [⟨t.fresh, o⟩], fresh := t.fresh + 1 }, .unit)
    | _ => (t, .impossible)

/-- Many operations. -/
def run (cls : Nat → Nat) (kind : Kind) : Table V → List (Op V) → Table V × List (Out V)
  | t, [] => (t, [])
  | t, op :: ops =>
    let r := t.step cls kind op
    let rest := run cls kind r.1 ops
    (rest.1, r.2 :: rest.2)

end Table

end Verif.Weak
