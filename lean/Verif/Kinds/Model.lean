/-!
# Kinds of functions and of what they give

Modelled code: `scarletio/utils/async_utils.py`, `scarletio/utils/code.py` (the flags), `scarletio/utils/method_like.py`,
`scarletio/utils/type_methodizer.py` (`__get__`).
-/

namespace Verif.Kinds

/-- The flags (3–15 of `code.py`). -/
def flagGenerator : Nat := 32
def flagCoroutine : Nat := 128
def flagIterable : Nat := 256
def flagCoroutineGenerator : Nat := 512
def flagCoroutineAll : Nat := flagCoroutine ||| flagIterable

/-- Something callable: a function with the flags of its code, a method of something callable, or something else; `none`
of `__code__`: `AttributeError`. -/
inductive Obj
  | function (flags : Nat)
  | method (of : Obj)
  | type
  | other
  deriving DecidableEq

/-- `.__code__.co_flags`; a method passes attributes on to its function. -/
def Obj.code : Obj → Option Nat
  | .function flags => some flags
  | .method o => o.code
  | .type => none
  | .other => none

/-- `isinstance(func, FUNCTION_TYPES)` (13). -/
def Obj.isFunction : Obj → Bool
  | .function _ => true
  | .method _ => true
  | _ => false

/-- The common shape of 29–32, 49–52 and 68–71; `none`: `AttributeError`. -/
def flagged (o : Obj) (flag : Nat) : Option Bool :=
  if o.isFunction then
    match o.code with
    | none => none
    | some flags => if flags &&& flag ≠ 0 then some true else some false
  else some false

/-- `is_coroutine_function` (17–32). -/
def isCoroutineFunction (o : Obj) : Option Bool := flagged o flagCoroutineAll

/-- `is_coroutine_generator_function` (36–52). -/
def isCoroutineGeneratorFunction (o : Obj) : Option Bool := flagged o flagCoroutineGenerator

/-- `is_generator_function` (56–71). -/
def isGeneratorFunction (o : Obj) : Option Bool := flagged o flagGenerator

/-- What a call gives, with the flags of its code. -/
inductive Made
  | generator (flags : Nat)
  | coroutine (flags : Nat)
  | coroutineGenerator (flags : Nat)
  /-- Another object; whether its type has `__await__`. -/
  | value (awaitable : Bool)
  deriving DecidableEq

/-- `is_coroutine` (75–96). -/
def isCoroutine : Made → Bool
  | .coroutine _ => true
  | .generator flags => if flags &&& flagIterable ≠ 0 then true else false
  | _ => false

/-- Whether the type has `__await__`. -/
def hasAwait : Made → Bool
  | .coroutine _ => true
  | .generator _ => false
  | .coroutineGenerator _ => false
  | .value a => a

/-- `is_awaitable` (100–118). -/
def isAwaitable (m : Made) : Bool :=
  if isCoroutine m then true else if hasAwait m then true else false

/-- `is_coroutine_generator` (122–147). -/
def isCoroutineGenerator : Made → Bool
  | .coroutineGenerator flags => if flags &&& flagCoroutineGenerator ≠ 0 then true else false
  | .coroutine flags => if flags &&& flagCoroutineGenerator ≠ 0 then true else false
  | .generator flags => if flags &&& flagCoroutineGenerator ≠ 0 then true else false
  | .value _ => false

/-- `is_generator` (151–164). -/
def isGenerator : Made → Bool
  | .generator _ => true
  | _ => false

/-- `to_coroutine` (168–206); `none`: `TypeError`. -/
def toCoroutine : Obj → Option Obj
  | .function flags =>
    if flags &&& flagCoroutineAll ≠ 0 then some (.function flags)
    else if ¬flags &&& flagGenerator ≠ 0 then none
    else some (.function (flags ||| flagIterable))
  | _ => none

/-! ## Method likes -/

/-- Types: Python's own methods, those which inherit from `MethodLike` (each by a number), others with or without a count of
reserved parameters. -/
inductive Ty
  | method
  | like (n : Nat)
  | other (n : Nat)
  deriving DecidableEq

/-- What is known of types: the ones registered in `__sub_types__`, which all of them share (38–42), and the value of
`__reserved_parameter_count__` of a type if it has one. -/
structure Types where
  sub : List Ty := [.method]
  reserved : Ty → Option Int

/-- `__init_subclass__` (41–42). -/
def Types.define (s : Types) (n : Nat) : Types := { s with sub := s.sub ++ [.like n] }

/-- `isinstance(x, cls)` for `MethodLike` or a type inheriting from it (15–17), by the type of `x`; the set looked at is the
same whichever of them is asked. -/
def Types.isInstance (s : Types) (_cls : Option Nat) (t : Ty) : Bool := decide (t ∈ s.sub)

/-- `get_reserved_parameter_count` (48–77); `none`: `TypeError`. -/
def Types.reservedCount (s : Types) (t : Ty) : Option Int :=
  let r := (s.reserved t).getD (-1)
  if r ≠ -1 then some r
  else if t ∈ s.sub then some 1
  else none

end Verif.Kinds
