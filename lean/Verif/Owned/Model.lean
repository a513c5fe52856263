/-
Model of properties of classes.

Source: `/repo/scarletio/utils/properties.py`, `name_property`, `module_property` and
`class_property`. `cached_property` is in `Verif/Attributes`.

Classes, instances, values, names and functions are numbers.
-/

namespace Verif.Owned

/-! ### `name_property` and `module_property` -/

/-- `name_property.__get__` (`60-64`): of an instance or (`none`) of the class. `className` is the name
the property was made with, `typeAttribute` the attribute `class_name` of the class if it has one,
`fget` the function. `none` is `AttributeError`. -/
def nameGet (_className : Nat) (fget : Nat → Nat) (typeAttribute : Option Nat) : Option Nat → Option Nat
  | none => typeAttribute
  | some obj => some (fget obj)

/-- A value given as module: `None`, a string, an instance of a subclass of `str` (with the string
it is turned into), or anything else. -/
inductive Given where
  | none
  | str (n : Nat)
  | sub (n : Nat)
  | other
deriving DecidableEq, Repr

/-- `module_property.__new__` and `__set__` (`88-102`, `110-120`); `own` is the `__module__` of
`module_property` itself. -/
def moduleOf (own : Nat) : Given → Nat
  | .none => own
  | .str n => n
  | .sub n => n
  | .other => own

inductive MOp where
  /-- The module is set through an instance. -/
  | set (obj : Nat) (g : Given)
  | del (obj : Nat)
deriving DecidableEq, Repr

/-- One use of a `module_property`: the kept module, and whether it raised (`110-123`). -/
def mstep (own : Nat) (m : Nat) : MOp → Nat × Bool
  | .set _ g => (moduleOf own g, false)
  | .del _ => (m, true)

def mrun (own : Nat) (m : Nat) (l : List MOp) : Nat := l.foldl (fun m o => (mstep own m o).1) m

/-- `module_property.__get__` (`104-108`). `fget` is called without parameters; `needs` is how many it
needs. `none` is `TypeError`. -/
def moduleGet (m : Nat) (needs : Nat) (fget : Nat) : Option Nat → Option Nat
  | none => some m
  | some _ => if needs = 0 then some fget else none

/-! ### `class_property` -/

/-- A `class_property`. -/
structure CP where
  fget : Option Nat
  fset : Option Nat
  fdel : Option Nat
  doc : Option Nat
deriving DecidableEq, Repr

/-- `class_property.__new__` (`144-169`); `docOf` is the `__doc__` of functions. -/
def CP.new (docOf : Nat → Option Nat) (fget fset fdel doc : Option Nat) : CP :=
  let doc := if doc.isNone then fget.bind docOf else doc
  ⟨fget, fset, fdel, doc⟩

/-- `getter`, `setter` and `deleter` (`193-236`). -/
inductive Add where
  | getter (f : Nat)
  | setter (f : Nat)
  | deleter (f : Nat)
deriving DecidableEq, Repr

def CP.add (docOf : Nat → Option Nat) (p : CP) : Add → CP
  | .getter f => CP.new docOf (some f) p.fset p.fdel p.doc
  | .setter f => CP.new docOf p.fget (some f) p.fdel p.doc
  | .deleter f => CP.new docOf p.fget p.fset (some f) p.doc

def CP.build (docOf : Nat → Option Nat) (p : CP) (l : List Add) : CP := l.foldl (CP.add docOf) p

/-- What a class has under the name of the property. -/
inductive Slot where
  | prop (p : CP)
  | value (v : Nat)
  | gone
deriving DecidableEq, Repr

/-- A call of one of the functions of the property: the function, the class, the value. -/
structure Call where
  f : Nat
  cls : Nat
  value : Option Nat
deriving DecidableEq, Repr

inductive Op where
  /-- Through the class, or through an instance of it. -/
  | get (byInstance : Bool)
  | set (byInstance : Bool) (v : Nat)
  | del (byInstance : Bool)
deriving DecidableEq, Repr

/-- One access of a class, or of an instance of it, which has nothing of that name itself
(`171-191`): what the class has then, and what was called; `none` if it raised. Through a class
Python calls only `__get__` of what the class has: setting and deleting replace it. Once the
property is gone, what instances have is not looked at. -/
def access (cls : Nat) (s : Slot) : Op → Slot × Option (List Call)
  | .get _ => match s with
    | .prop p => match p.fget with
      | none => (s, none)
      | some f => (s, some [⟨f, cls, none⟩])
    | .value _ => (s, some [])
    | .gone => (s, none)
  | .set true v => match s with
    | .prop p => match p.fset with
      | none => (s, none)
      | some f => (s, some [⟨f, cls, some v⟩])
    | _ => (s, some [])
  | .set false v => (.value v, some [])
  | .del true => match s with
    | .prop p => match p.fdel with
      | none => (s, none)
      | some f => (s, some [⟨f, cls, none⟩])
    | _ => (s, none)
  | .del false => match s with
    | .gone => (s, none)
    | _ => (.gone, some [])

/-- Everything called by accesses. -/
def calls (cls : Nat) : Slot → List Op → List Call
  | _, [] => []
  | s, o :: l => (access cls s o).2.getD [] ++ calls cls (access cls s o).1 l

end Verif.Owned
