/-!
# Formatting of callbacks, file names and results

Modelled code: `scarletio/utils/trace/formatters.py` (`_cut_file_name`, `_merge_nullable_tuples`, `_merge_nullable_dicts`,
`format_callback`), `alchemy_incendiary.__call__` (`scarletio/utils/function_tools.py`, 66–84), `render_result_into` and
`get_exception_short_representation` (`scarletio/core/traps/future_repr.py`).
-/

namespace Verif.Callbacks

/-! ## Callbacks -/

/-- A dictionary of keyword parameters. -/
abbrev Dict := Nat → Option Nat

/-- `{**a, **b}`. -/
def Dict.merge (a b : Dict) : Dict := fun k =>
  match b k with
  | some v => some v
  | none => a k

/-- A callable: a function, a `functools.partial` or an `alchemy_incendiary`. -/
inductive Fn
  | plain (id : Nat)
  | partial_ (f : Fn) (args : List Nat) (keywords : Dict)
  | incendiary (f : Fn) (args : List Nat) (keywords : Option Dict)

/-- `_merge_nullable_tuples` (48–69). -/
def mergeTuples (a b : Option (List Nat)) : Option (List Nat) :=
  match a, b with
  | none, b => b
  | some a, none => some a
  | some a, some b => some (a ++ b)

/-- `_merge_nullable_dicts` (72–93). -/
def mergeDicts (a b : Option Dict) : Option Dict :=
  match a, b with
  | none, b => b
  | some a, none => some a
  | some a, some b => some (b.merge a)

/-- The loop of `format_callback` which unwraps (115–130). -/
def unwrap : Fn → Option (List Nat) → Option Dict → Nat × Option (List Nat) × Option Dict
  | .plain id, args, keywords => (id, args, keywords)
  | .incendiary f args keywords, _, _ => unwrap f (some args) keywords
  | .partial_ f args keywords, args', keywords' => unwrap f (mergeTuples (some args) args') (mergeDicts keywords' (some keywords))

/-- The parameters in the text (142–184), each shown as `show_` tells; `items`: the keyword parameters. -/
def parameters (show_ key : Nat → String) (args : List Nat) (items : List (Nat × Nat)) : List String :=
  let rec positional : List Nat → List String
    | [] => []
    | v :: l => show_ v :: (if l.isEmpty then [] else ", " :: positional l)
  let rec keyword : List (Nat × Nat) → List String
    | [] => []
    | (k, v) :: l => key k :: " = " :: show_ v :: (if l.isEmpty then [] else ", " :: keyword l)
  positional args ++ (if items.isEmpty then [] else
    (if args.isEmpty then [] else [", "]) ++ keyword (items.mergeSort fun a b => decide (a.1 ≤ b.1)))

/-- The text of `format_callback` (137–185); keys are numbered in their order. -/
def text (name : String) (show_ key : Nat → String) (args : List Nat) (items : List (Nat × Nat)) : String :=
  String.join ([name, "("] ++ parameters show_ key args items ++ [")"])

/-! ## File names -/

/-- `_cut_file_name` (13–45); `none`: `None`. -/
def cut (sep : Char) (paths : List (List Char)) (file : List Char) : Option (List Char) :=
  if file = [] then none
  else
    let rec go : List (List Char) → List Char
      | [] => file
      | p :: ps =>
        if !(p.isPrefixOf file) then go ps
        else if file.length ≤ p.length then go ps
        else if file[p.length]? ≠ some sep then go ps
        else ['.', '.', '.'] ++ file.drop p.length
    some (go paths)

/-! ## Results of futures -/

/-- The bits of the state looked at. -/
structure Bits where
  returned : Bool
  raised : Bool
  cancelled : Bool

/-- The result looked at: whether it is `None`, a `CancelledError`, and whether it has parameters. -/
structure Result where
  isNone : Bool
  isCancelled : Bool
  hasArgs : Bool

/-- The name of the field shown. -/
inductive Field
  | result
  | cancellation
  | exception
  deriving DecidableEq

/-- `render_result_into` (117–170 of future_repr.py): which field. -/
def field (s : Bits) (r : Result) : Option Field :=
  if s.returned then some .result
  else if s.cancelled then
    if !r.isNone && (!r.isCancelled || r.hasArgs) then some .cancellation else none
  else if s.raised then some .exception
  else none

/-- `get_exception_short_representation` (22–39): `repr`, or the name of the type with dots. -/
def short (repr : List Char) (name : List Char) : List Char :=
  if repr.length > 80 ∨ '\n' ∈ repr then ['<'] ++ name ++ " ...>".toList else repr

end Verif.Callbacks
