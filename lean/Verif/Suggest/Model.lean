/-!
# Suggestions for attribute errors

Modelled code: `suggestion/helpers_variables.py`, `matching_variable_name.py`, `matching_variable_names_with_attribute.py`,
`familiar_instance_attribute_names.py` (all in `scarletio/utils/trace/exception_representation`), and of
`exception_representation_attribute_error.py` what may raise (51–58).

Names are numbers in their order.
-/

namespace Verif.Suggest

/-- A frame: its variables; `none`: `None`. -/
structure Frame where
  locals : Option (List (Nat × Nat))
  globals : Option (List (Nat × Nat))
  builtins : Option (List (Nat × Nat))

/-- `_iter_variables` (35–60 of helpers_variables.py). -/
def variables : Option Frame → List (Nat × Nat)
  | none => []
  | some f => f.locals.getD [] ++ f.globals.getD [] ++ f.builtins.getD []

/-- The loop of `_iter_unique_variables` (78–87); the number of names collected tells whether one is new. -/
def uniqueLoop : List Nat → List (Nat × Nat) → List (Nat × Nat)
  | _, [] => []
  | collected, (n, v) :: l =>
    let new := if n ∈ collected then collected else n :: collected
    if collected.length ≠ new.length then (n, v) :: uniqueLoop new l else uniqueLoop new l

/-- `_iter_unique_variables` (63–87). -/
def unique (f : Option Frame) : List (Nat × Nat) := uniqueLoop [] (variables f)

/-- What `hasattr` does with a value: tells, or lets out what the attribute raised if that is no AttributeError. -/
inductive Has
  | yes
  | no
  | raises
  deriving DecidableEq

/-- The loop of `get_matching_variable_names_with_attribute` (24–26); `none`: raises. -/
def having (has : Nat → Has) : List (Nat × Nat) → Option (List Nat)
  | [] => some []
  | (n, v) :: l =>
    match has v with
    | .raises => none
    | .no => having has l
    | .yes =>
      match having has l with
      | none => none
      | some ns => some (n :: ns)

/-- `get_matching_variable_names_with_attribute` (7–33): `none`: raises; `some none`: `None`. -/
def withAttribute (max : Nat) (has : Nat → Has) (f : Option Frame) : Option (Option (List Nat)) :=
  match having has (unique f) with
  | none => none
  | some [] => some none
  | some ns => some (some ((ns.take max).mergeSort fun a b => decide (a ≤ b)))

/-- What the `__dir__` of a type does: it is `object`'s, raises, or gives something which cannot be put into a set, or
names. -/
inductive Dir
  | default
  | raises
  | broken
  | names (l : List Nat)

/-- `_get_instance_attributes` (6–31 of familiar_instance_attribute_names.py); `none`: raises. -/
def attributes (own : List Nat) : Dir → Option (List Nat)
  | .default => some own
  | .raises => some own
  | .broken => none
  | .names l => some (own ++ l)

/-- `get_familiar_instance_attribute_names` (34–63): whether the name is there, and the names from which familiar ones are
taken. -/
def familiar (own : List Nat) (dir : Dir) (name : Nat) : Option (Bool × List Nat) :=
  match attributes own dir with
  | none => none
  | some ns => some (decide (name ∈ ns), ns.filter fun n => n ≠ name)

/-- Representing of an attribute error: `none` if it raises. -/
def represent (max : Nat) (own : List Nat) (dir : Dir) (name : Nat) (has : Nat → Has) (f : Option Frame) :
    Option ((Bool × List Nat) × Bool × Option (List Nat)) :=
  match familiar own dir name with
  | none => none
  | some a =>
    match withAttribute max has f with
    | none => none
    | some w => some (a, decide (name ∈ (variables f).map (·.1)), w)

end Verif.Suggest
