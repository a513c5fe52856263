import Verif.Weak.Spec

/-!
# The dictionary with weak keys and weak values

`WeakItemDictionary` (`scarletio/utils/weak_item_dictionary.py`). A value is a `KeyedReferer` whose `key` is a weak
reference to the key, created together with it; the built in dictionary keeps the key reference of the first
assignment, so later the two may be different references. Both kinds of references have callbacks of a dictionary:
the one they were **created with**, not necessarily the one they are in.

Two dictionaries are modelled, the second one may be made a copy of the first one.
-/

namespace Verif.Weak

/-- One item of the built in dictionary. An owner is the dictionary whose callback the reference has. -/
structure Entry where
  kref : Ref
  kowner : Bool
  vref : Ref
  /-- `value_reference.key` -/
  vkey : Ref
  vowner : Bool
deriving DecidableEq, Repr

structure IDict where
  entries : List Entry := []
  pending : List Ref := []
  iterating : Nat := 0

/-- Two dictionaries, the next identity, and the dead objects. -/
structure World where
  one : IDict := {}
  two : IDict := {}
  fresh : Nat := 0
  dead : List Nat := []

inductive IOp where
  | put (k v : Nat)
  /-- `in`, `d[k]` -/
  | look (k : Nat)
  | get (k : Nat)
  | pop (k : Nat)
  | popitem
  | clear
  | enter
  | leave (order : Order)
deriving Inhabited

/-- An operation on one of the dictionaries, a death, or copying the first into the second one. -/
inductive WOp where
  | on (which : Bool) (op : IOp)
  | die (o : Nat)
  | copy

inductive IOut where
  | unit
  | value (v : Option Nat)
  | item (i : Option (Nat × Nat))
  | keyError
  | impossible
deriving DecidableEq, Repr

namespace IDict

/-- `dict.__delitem__(self, reference)` without the `KeyError`. -/
def discard (cls : Nat → Nat) (live : Nat → Bool) (d : IDict) (r : Ref) : IDict :=
  { d with entries := d.entries.eraseP fun e => refEq cls live r e.kref }

/-- `add_to_pending_removals`: `_pending_removals` is a set, a reference equal to an old element is not added. -/
def addPending (cls : Nat → Nat) (live : Nat → Bool) (d : IDict) (r : Ref) : IDict :=
  if d.pending.any (fun x => refEq cls live r x) then d else { d with pending := d.pending ++ [r] }

/--
`_WeakKeyDictionaryCallback` (`weak_key_dictionary.py`:38-56) for a key reference, and
`_WeakItemDictionaryValueCallback` (`weak_item_dictionary.py`:39-60) for the key reference of a value.
-/
def callback (cls : Nat → Nat) (live : Nat → Bool) (d : IDict) (r : Ref) : IDict :=
  if d.iterating > 0 then d.addPending cls live r else d.discard cls live r

/-- `_commit_removals`: `weak_item_dictionary.py`:200-217. -/
def commit (cls : Nat → Nat) (live : Nat → Bool) (order : Order) (d : IDict) : IDict :=
  if d.iterating > 0 then d
  else (order.apply d.pending).foldl (discard cls live) { d with pending := [] }

/-- `__len__`: `weak_item_dictionary.py`:334-343. -/
def len (d : IDict) : Int := (d.entries.length : Int) - d.pending.length

/-- What `items()` gives: `weak_item_dictionary.py`:112-134. -/
def view (live : Nat → Bool) (d : IDict) : List (Nat × Nat) :=
  d.entries.filterMap fun e =>
    if live e.kref.target && live e.vref.target then some (e.kref.target, e.vref.target) else none

def find (cls : Nat → Nat) (live : Nat → Bool) (fresh : Nat) (d : IDict) (k : Nat) : Option Entry :=
  d.entries.find? fun e => refEq cls live ⟨fresh, k⟩ e.kref

/-- `__setitem__`: `weak_item_dictionary.py`:428-432. The references are number `fresh` and `fresh + 1`. -/
def put (cls : Nat → Nat) (live : Nat → Bool) (which : Bool) (fresh : Nat) (d : IDict) (k v : Nat) : IDict :=
  match d.entries.findIdx? (fun e => refEq cls live ⟨fresh, k⟩ e.kref) with
  | some i =>
    { d with entries := d.entries.modify i fun e =>
        { e with vref := ⟨fresh + 1, v⟩, vkey := ⟨fresh, k⟩, vowner := which } }
  | none =>
    { d with entries := d.entries ++ [
        { kref := ⟨fresh, k⟩, kowner := which, vref := ⟨fresh + 1, v⟩, vkey := ⟨fresh, k⟩, vowner := which }] }

/-- `popitem`: `weak_item_dictionary.py`:597-621, on the entries in reverse order. -/
def popLoop (live : Nat → Bool) : List Entry → List Entry × Option (Nat × Nat)
  | [] => ([], none)
  | e :: earlier =>
    if live e.kref.target && live e.vref.target then (earlier, some (e.kref.target, e.vref.target))
    else popLoop live earlier

/-- One operation on a dictionary. `fresh` is not advanced here. -/
def step (cls : Nat → Nat) (live : Nat → Bool) (which : Bool) (fresh : Nat) (d : IDict) : IOp → IDict × IOut
  | .put k v =>
    if live k && live v then (d.put cls live which fresh k v, .unit) else (d, .impossible)
  | .look k =>
    -- `weak_item_dictionary.py`:222-243, 285-303
    if live k then
      match d.find cls live fresh k with
      | none => (d, .value none)
      | some e =>
        if live e.vref.target then (d, .value (some e.vref.target))
        else (if d.iterating > 0 then d.addPending cls live e.vkey else d.discard cls live ⟨fresh, k⟩, .value none)
    else (d, .impossible)
  | .get k =>
    -- `weak_item_dictionary.py`:489-524; `dict.__delitem__(self, key)` is given the key and not its reference
    if live k then
      match d.find cls live fresh k with
      | none => (d, .value none)
      | some e =>
        if live e.vref.target then (d, .value (some e.vref.target))
        else if d.iterating > 0 then (d.addPending cls live e.vkey, .value none)
        else (d, .keyError)
    else (d, .impossible)
  | .pop k =>
    -- `weak_item_dictionary.py`:551-594
    if live k then
      match d.find cls live fresh k with
      | none => (d, .value none)
      | some e =>
        (d.discard cls live ⟨fresh, k⟩, .value (if live e.vref.target then some e.vref.target else none))
    else (d, .impossible)
  | .popitem =>
    let r := popLoop live d.entries.reverse
    ({ d with entries := r.1.reverse }, .item r.2)
  | .clear => ({ d with entries := [], pending := [] }, .unit)
  | .enter => ({ d with iterating := d.iterating + 1 }, .unit)
  | .leave order =>
    if d.iterating > 0 then (commit cls live order { d with iterating := d.iterating - 1 }, .unit)
    else (d, .impossible)

/-- The callbacks which the death of an object causes among the references of a dictionary. -/
def events (o : Nat) (d : IDict) : List (Bool × Ref) :=
  d.entries.flatMap fun e =>
    (if e.kref.target = o then [(e.kowner, e.kref)] else []) ++
    (if e.vkey ≠ e.kref ∧ e.vkey.target = o then [(e.vowner, e.vkey)] else []) ++
    (if e.vref.target = o then [(e.vowner, e.vkey)] else [])

/--
`copy`: `weak_item_dictionary.py`:450-485. The references are created with the callbacks of **self**, which is the
first dictionary. The references are number `fresh`, `fresh + 1`, …
-/
def copyEntries : Nat → List (Nat × Nat) → List Entry
  | _, [] => []
  | fresh, (k, v) :: rest =>
    { kref := ⟨fresh, k⟩, kowner := false, vref := ⟨fresh + 1, v⟩, vkey := ⟨fresh, k⟩, vowner := false } ::
      copyEntries (fresh + 2) rest

/-- The dead references which `copy` meets, by their keys. -/
def noteDead (cls : Nat → Nat) (live : Nat → Bool) (d : IDict) : IDict :=
  (d.entries.filter (fun e => !(live e.kref.target && live e.vref.target))).foldl
    (fun d e => d.addPending cls live e.kref) d

end IDict

namespace World

def live (w : World) (o : Nat) : Bool := !w.dead.contains o

def dict (w : World) (which : Bool) : IDict := if which then w.two else w.one

def set (w : World) (which : Bool) (d : IDict) : World := if which then { w with two := d } else { w with one := d }

/-- A callback reaches the dictionary which the reference was created with. -/
def fire (cls : Nat → Nat) (w : World) (e : Bool × Ref) : World :=
  w.set e.1 ((w.dict e.1).callback cls w.live e.2)

def die (cls : Nat → Nat) (w : World) (o : Nat) : World :=
  (w.one.events o ++ w.two.events o).foldl (fire cls) { w with dead := o :: w.dead }

/-- What copying does to the first dictionary: the order of a pending set does not matter here, it is taken as noted. -/
def copy (cls : Nat → Nat) (w : World) : World :=
  let items := w.one.view w.live
  { w with
    one := (w.one.noteDead cls w.live).commit cls w.live ⟨id, fun _ => .refl _⟩
    two := { entries := IDict.copyEntries w.fresh items }
    fresh := w.fresh + 2 * items.length }

def step (cls : Nat → Nat) (w : World) : WOp → World × IOut
  | .on which op =>
    let r := (w.dict which).step cls w.live which w.fresh op
    ({ w.set which r.1 with fresh := w.fresh + 2 }, r.2)
  | .die o => if w.live o then (w.die cls o, .unit) else (w, .impossible)
  | .copy => (w.copy cls, .unit)

def run (cls : Nat → Nat) : World → List WOp → World × List IOut
  | w, [] => (w, [])
  | w, op :: ops =>
    let r := w.step cls op
    let rest := run cls r.1 ops
    (rest.1, r.2 :: rest.2)

end World

/-! ## What it should be -/

/-- Two plain dictionaries. -/
structure Pair where
  one : List (Nat × Nat) := []
  two : List (Nat × Nat) := []
  dead : List Nat := []

/-- One operation on a plain dictionary, its objects being alive. -/
def plainStep (cls : Nat → Nat) (dead : List Nat) (items : List (Nat × Nat)) : IOp → List (Nat × Nat) × IOut
  | .put k v => if k ∈ dead ∨ v ∈ dead then (items, .impossible) else (Plain.store cls k v items, .unit)
  | .look k => if k ∈ dead then (items, .impossible) else (items, .value ((Plain.get cls k items).map Prod.snd))
  | .get k => if k ∈ dead then (items, .impossible) else (items, .value ((Plain.get cls k items).map Prod.snd))
  | .pop k =>
    if k ∈ dead then (items, .impossible)
    else (Plain.without cls k items, .value ((Plain.get cls k items).map Prod.snd))
  | .popitem => (items.dropLast, .item items.getLast?)
  | .clear => ([], .unit)
  | .enter => (items, .unit)
  | .leave _ => (items, .unit)

/-- Copying makes the second one independent of the first one. -/
def Pair.step (cls : Nat → Nat) (p : Pair) : WOp → Pair × IOut
  | .on which op =>
    if which then
      let r := plainStep cls p.dead p.two op
      ({ p with two := r.1 }, r.2)
    else
      let r := plainStep cls p.dead p.one op
      ({ p with one := r.1 }, r.2)
  | .die o =>
    if o ∈ p.dead then (p, .impossible)
    else
      ({ one := p.one.filter (fun i => i.1 != o && i.2 != o), two := p.two.filter (fun i => i.1 != o && i.2 != o),
         dead := o :: p.dead }, .unit)
  | .copy => ({ p with two := p.one }, .unit)

def Pair.run (cls : Nat → Nat) : Pair → List WOp → Pair × List IOut
  | p, [] => (p, [])
  | p, op :: ops =>
    let r := p.step cls op
    let rest := run cls r.1 ops
    (rest.1, r.2 :: rest.2)

/-- What two weak dictionaries stand for. -/
def World.pair (w : World) : Pair := { one := w.one.view w.live, two := w.two.view w.live, dead := w.dead }

end Verif.Weak
