/-!
# Analyzing of callables

Modelled code: `scarletio/utils/analyzer.py`: what `CallableAnalyzer.__new__` makes of the function it found,
and the methods that ask for parameters.

Names and default values are numbers. Annotations, and how the function of a callable is found and how many
of its parameters are reserved (`alloc`), are left out.
-/

namespace Verif.Analyzer

/-- What is read of a function: `__code__`, `__defaults__` and `__kwdefaults__`. -/
structure Function where
  argcount : Nat
  posonly : Nat
  kwonly : Nat
  varnames : List Nat
  varargs : Bool
  varkeywords : Bool
  defaults : Option (List Nat)
  kwdefaults : Option (List (Nat × Nat))
  deriving DecidableEq, Repr

inductive Kind
  | posOnly | pos | kwOnly | args | kwargs
  deriving DecidableEq, Repr

/-- `Parameter` (28–220); `default` is `none` when `has_default` is false. -/
structure Parameter where
  name : Nat
  default : Option Nat
  kind : Kind
  reserved : Bool
  deriving DecidableEq, Repr

inductive Err
  | key | type | index
  deriving DecidableEq, Repr

/-- `d[name]` of a dictionary. -/
def get (d : List (Nat × Nat)) (name : Nat) : Option Nat :=
  match d with
  | [] => none
  | (k, v) :: d => if k = name then some v else get d name

/-- The loop over default values of positional parameters (535–544): the names from the index on, and the values. -/
def positionalDefaults : List Nat → List Nat → Except Err (List (Nat × Nat))
  | [], _ => .ok []
  | _ :: _, [] => .error .index
  | name :: names, value :: values =>
    match positionalDefaults names values with
    | .ok d => .ok ((name, value) :: d)
    | .error e => .error e

/-- The loop over default values of keyword only parameters (546–554). -/
def keywordDefaults (values : List (Nat × Nat)) : List Nat → Except Err (List (Nat × Nat))
  | [] => .ok []
  | name :: names =>
    match get values name with
    | none => .error .key
    | some value =>
      match keywordDefaults values names with
      | .ok d => .ok ((name, value) :: d)
      | .error e => .error e

/-- The positional parameters (563–594). -/
def positional (d : List (Nat × Nat)) (posonly alloc : Nat) : Nat → List Nat → List Parameter
  | _, [] => []
  | index, name :: names =>
    { name := name, default := get d name, kind := if index < posonly then .posOnly else .pos
      reserved := decide (index < alloc) } :: positional d posonly alloc (index + 1) names

/-- The defaults of positional parameters, when there are any (535–544). -/
def ofPositional (defaults : Option (List Nat)) (count : Nat) (names : List Nat) : Except Err (List (Nat × Nat)) :=
  match defaults with
  | none => .ok []
  | some values => positionalDefaults (names.drop (count - values.length)) values

/-- The defaults of keyword only parameters, when there are any (546–554). -/
def ofKeywords (defaults : Option (List (Nat × Nat))) (count : Nat) (names : List Nat) : Except Err (List (Nat × Nat)) :=
  match defaults with
  | none => .ok []
  | some values => keywordDefaults values (names.drop (count - values.length))

/-- Which names have defaults (533–554). -/
def allDefaults (f : Function) (names kwNames : List Nat) : Except Err (List (Nat × Nat)) :=
  match ofPositional f.defaults f.argcount names with
  | .error e => .error e
  | .ok d =>
    match ofKeywords f.kwdefaults f.kwonly kwNames with
    | .error e => .error e
    | .ok d' => .ok (d ++ d')

/-- The parameters of a function (498–668). -/
def analyze (f : Function) (alloc : Nat) : Except Err (List Parameter) :=
  let names := f.varnames.take f.argcount
  let rest := f.varnames.drop f.argcount
  let kwNames := rest.take f.kwonly
  let rest := rest.drop f.kwonly
  match allDefaults f names kwNames with
  | .error e => .error e
  | .ok d =>
    if f.argcount < alloc ∧ f.varargs = false then .error .type
    else
      .ok (positional d f.posonly alloc 0 names ++
        (if f.varargs then
          (rest.take 1).map fun name => ⟨name, none, .args, decide (f.argcount < alloc)⟩ else []) ++
        kwNames.map (fun name => ⟨name, get d name, .kwOnly, false⟩) ++
        (if f.varkeywords then
          ((if f.varargs then rest.drop 1 else rest).take 1).map fun name => ⟨name, none, .kwargs, false⟩ else []))

def Parameter.isPositional (p : Parameter) : Bool := p.kind = .posOnly || p.kind = .pos

/-- `get_non_default_keyword_only_parameter_count` (800–819). -/
def requiredKeywords : List Parameter → Nat
  | [] => 0
  | p :: ps =>
    if p.kind ≠ .kwOnly then requiredKeywords ps
    else if p.default.isSome then 0
    else requiredKeywords ps + 1

/-- `get_non_reserved_positional_parameters` (844–863); its length is `get_non_reserved_positional_parameter_count` (866–885). -/
def freePositional : List Parameter → List Parameter
  | [] => []
  | p :: ps =>
    if !p.isPositional then []
    else if p.reserved then freePositional ps
    else p :: freePositional ps

/-- `get_non_reserved_non_default_parameter_count` (888–910). -/
def requiredPositional : List Parameter → Nat
  | [] => 0
  | p :: ps =>
    if !p.isPositional then 0
    else if p.reserved then requiredPositional ps
    else if p.default.isSome then requiredPositional ps
    else requiredPositional ps + 1

/-- `get_non_reserved_positional_parameter_range` (913–967). In its second loop the variable `parameter` is
not set any more: it is the one with which the first ended, which is positional and not reserved, so
everything behind it is counted. -/
def rangeFrom : List Parameter → Nat → Nat → Nat × Nat
  | [], _, start => (start, start)
  | p :: ps, index, start =>
    if !p.isPositional then (start, start)
    else if p.reserved then rangeFrom ps (index + 1) start
    else if p.default.isSome then (index, index + (p :: ps).length)
    else rangeFrom ps (index + 1) (start + 1)

def range (ps : List Parameter) : Nat × Nat := rangeFrom ps 0 0

/-- `can_instance_to_async_callable`, `can_instance_to_async_generator` (740–784), when what instances are is right. -/
def canInstance : List Parameter → Bool
  | [] => true
  | p :: ps => if p.reserved then canInstance ps else if p.default.isSome then canInstance ps else false

end Verif.Analyzer
