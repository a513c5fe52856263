/-!
# Extending of classes and updating of dictionaries from pairs

Modelled code: `scarletio/utils/keep_type.py`, `scarletio/utils/dict_update_iterable_iterator.py`.
-/

namespace Verif.Helpers

/-! ## Extending of classes -/

/-- What `getattr` of a class gives: the same object each time, or a built-in method bound anew to the class each time
(`__init_subclass__`, `__subclasshook__` of `object`). `none_` is `None`. -/
inductive Attr
  | none_
  | same (n : Nat)
  | bound (n : Nat) (cls : Nat)
  deriving DecidableEq

/-- Python's `is` on what two `getattr` calls gave. -/
def Attr.is : Attr → Attr → Bool
  | .none_, .none_ => true
  | .same a, .same b => a == b
  | _, _ => false

/-- `_ignored_attr_names` (32). -/
def ignored : List String := ["__name__", "__qualname__", "__weakref__", "__dict__", "__slots__", "__module__"]

/-- Attributes by name. -/
abbrev Attrs := String → Option Attr

/-- `setattr`. -/
def Attrs.set (a : Attrs) (k : String) (v : Attr) : Attrs := fun x => if x = k then some v else a x

/-- The checks of the loop of `__call__` (78–88); `object`: what `object` has. -/
def skipped (object : Attrs) (name : String) (value : Attr) : Bool :=
  if name ∈ ignored then true
  else if name = "__doc__" ∧ value = .none_ then true
  else
    match object name with
    | some o => value.is o
    | none => false

/-- `__call__` (62–91): the old class after it; `names`: what `dir` of the new class gives. A name `dir` gives but
`getattr` does not find is left out (the code would raise). -/
def extend (object new : Attrs) : List String → Attrs → Attrs
  | [], old => old
  | name :: names, old =>
    match new name with
    | none => extend object new names old
    | some value =>
      if skipped object name value then extend object new names old else extend object new names (old.set name value)

/-! ## Pairs -/

/-- An element of the iterable: not an iterable, or what iterating it gives. -/
inductive Item
  | other
  | elements (l : List Nat)
  deriving DecidableEq

/-- The length told. -/
inductive Length
  | exact (n : Nat)
  | over
  deriving DecidableEq

/-- How the iterating ends. -/
inductive End
  | done
  | typeError (index : Nat)
  | valueError (index : Nat) (length : Length)
  deriving DecidableEq

/-- The loop which counts (56–60). -/
def count : List Nat → Nat → Nat
  | [], length => length
  | _ :: l, length => if length + 1 > 9000 then length + 1 else count l (length + 1)

/-- The length told of an element of three or more (56–65); `l`: from the fourth. -/
def told (l : List Nat) : Length := if count l 3 > 9000 then .over else .exact (count l 3)

/-- `_dict_update_iterable_iterator` (3–72): the pairs given and how it ends. -/
def pairs : Nat → List Item → List (Nat × Nat) × End
  | _, [] => ([], .done)
  | i, item :: items =>
    match item with
    | .other => ([], .typeError i)
    | .elements [] => ([], .valueError i (.exact 0))
    | .elements [_] => ([], .valueError i (.exact 1))
    | .elements [k, v] => ((k, v) :: (pairs (i + 1) items).1, (pairs (i + 1) items).2)
    | .elements (_ :: _ :: _ :: l) => ([], .valueError i (told l))

end Verif.Helpers
