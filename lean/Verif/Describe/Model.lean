/-!
# Representing of exceptions

Modelled code: `scarletio/utils/trace/exception_representation/representation_helpers.py`.
-/

namespace Verif.Describe

/-- What user code may raise: `KeyboardInterrupt` or `SystemExit`, or anything else. -/
inductive Exc
  | exit
  | other
  deriving DecidableEq

/-- An instance of `str`: plain, or of a subclass, with what `str` does to it. -/
inductive Str
  | plain (s : String)
  | sub (str : Except Exc String)

/-- `str(…)`, or the instance itself if it is plain. -/
def Str.str : Str → Except Exc String
  | .plain s => .ok s
  | .sub r => r

/-- A value: as `str` if it is one, what `repr` does, and the name of its type. -/
structure Value where
  text : Option Str
  repr : Except Exc Str
  typeName : Str

/-- An exception: the name of its type, whether its constructors are the default ones, its parameters (`none`: not a
tuple), and what `repr` does. -/
structure Exception where
  typeName : Str
  default : Bool
  args : Option (List Value)
  repr : Except Exc Str

/-- `_get_value_representation` (32–57); `_get_type_name` (9–29) is `Str.str` of the name. -/
def valueRepr (v : Value) : Except Exc String :=
  match v.repr with
  | .error .exit => .error .exit
  | .error .other =>
    match v.typeName.str with
    | .ok n => .ok ("<" ++ n ++ ">")
    | .error e => .error e
  | .ok r => r.str

/-- The loop of `_get_exception_representation_fallback` (146–163). -/
def elements : List Value → Except Exc (List String)
  | [] => .ok []
  | v :: vs =>
    match valueRepr v with
    | .error e => .error e
    | .ok s =>
      match elements vs with
      | .error e => .error e
      | .ok ss => .ok (if vs.isEmpty then s :: ss else s :: ", " :: ss)

/-- `_get_exception_representation_fallback` (130–165). -/
def fallback (x : Exception) : Except Exc String :=
  match x.typeName.str with
  | .error e => .error e
  | .ok n =>
    match elements (x.args.getD []) with
    | .error e => .error e
    | .ok parts =>
      .ok (String.join (["> repr(exception) raised, using fallback representation.\n", n, "("] ++ parts ++ [")"]))

/-- The value of the only parameter in the simple representation (191–196). -/
def simpleValue (v : Value) : Except Exc String :=
  match v.text with
  | some t => t.str
  | none => valueRepr v

/-- `_get_exception_representation_simple` (168–200); `ok none`: not available. -/
def simple (x : Exception) : Except Exc (Option String) :=
  if !x.default then .ok none
  else
    match x.args with
    | none => .ok none
    | some args =>
      if args.length > 1 then .ok none
      else
        match x.typeName.str with
        | .error e => .error e
        | .ok n =>
          match args with
          | [] => .ok (some n)
          | v :: _ =>
            match simpleValue v with
            | .error e => .error e
            | .ok s => .ok (some (n ++ ": " ++ s))

/-- `get_exception_representation_generic` (203–231). -/
def generic (x : Exception) : Except Exc String :=
  match simple x with
  | .error e => .error e
  | .ok (some s) => .ok s
  | .ok none =>
    match x.repr with
    | .error .exit => .error .exit
    | .error .other => fallback x
    | .ok r => r.str

end Verif.Describe
