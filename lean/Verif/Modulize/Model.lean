/-!
# Types made to modules, and groups of causes

Modelled code: `scarletio/utils/type_modulizer.py` (`_modulize_function`, `_modulize_type`, `modulize`) and
`scarletio/utils/cause_group.py` (`_iter_validate_causes`, `CauseGroup.__new__`).

Names and qualified names are lists of code points; modules are told by their path. Simplified: attributes of
types are their own ones, in order, inherited ones and those of `object` are left out.
-/

namespace Verif.Modulize

abbrev Text := List Nat

/-- A function. -/
structure Fn where
  module : Text
  qualname : Text
  name : Text
  code : Nat
  /-- `code.co_qualname` -/
  codeQualname : Text
  defaults : Nat
  /-- `__kwdefaults__` -/
  kwdefaults : Option Nat
  closure : Nat
  /-- The module whose names the function sees. -/
  globals : Nat
  deriving DecidableEq

/-- Whether a qualified name begins with the name of the type and a dot (type_modulizer.py 59–60, 83–84). -/
def within (typeName qualname : Text) : Bool :=
  decide (qualname.length > typeName.length) && decide (qualname[typeName.length]? = some 46) &&
    decide (typeName <+: qualname)

/-- `_modulize_function` (29–63). -/
def modulizeFunction (old : Fn) (globals : Nat) (source typeName path : Text) : Fn :=
  if old.module ≠ source then old
  else
    let new : Fn := ⟨path, old.codeQualname, old.name, old.code, old.codeQualname, old.defaults, none, old.closure, globals⟩
    if within typeName old.qualname then { new with qualname := old.qualname.drop (typeName.length + 1) } else new

mutual
/-- The value of an attribute. -/
inductive Val
  /-- A function; `static`: in a `staticmethod`. -/
  | fn (static : Bool) (f : Fn)
  | ty (module qualname : Text) (attrs : Attrs)
  /-- A value of the types which are not modulized. -/
  | skipped (n : Nat)
  | other (n : Nat)
/-- The attributes of a type. -/
inductive Attrs
  | nil
  | cons (name : Text) (value : Val) (rest : Attrs)
end

mutual
/-- The body of the loop of `_modulize_type` (90–99), and `_modulize_type` itself (66–88). -/
def modulizeValue (globals : Nat) (source typeName path : Text) : Val → Val
  | .fn _ f => .fn false (modulizeFunction f globals source typeName path)
  | .ty module qualname attrs =>
    if module ≠ source then .ty module qualname attrs
    else if within typeName qualname then
      .ty path (qualname.drop (typeName.length + 1)) (modulizeAttrs globals source typeName path attrs)
    else .ty module qualname attrs
  | .skipped n => .skipped n
  | .other n => .other n
/-- The loop. -/
def modulizeAttrs (globals : Nat) (source typeName path : Text) : Attrs → Attrs
  | .nil => .nil
  | .cons name value rest =>
    .cons name (modulizeValue globals source typeName path value) (modulizeAttrs globals source typeName path rest)
end

/-- `sys.modules` and the names of the modules. -/
structure World where
  registry : Text → Option Nat
  names : Nat → List (Text × Val)
  next : Nat

/-- `name.startswith('__') and name.endswith('__')`. -/
def dunder (name : Text) : Bool := decide ([95, 95] <+: name) && decide ([95, 95] <:+ name)

/-- `'__doc__'` -/
def docName : Text := [95, 95, 100, 111, 99, 95, 95]

/-- `'module_path'`: the literal which is looked up (130). -/
def literal : Text := [109, 111, 100, 117, 108, 101, 95, 112, 97, 116, 104]

/-- Getting the module (129–152). -/
def getModule (w : World) (path : Text) : World × Nat :=
  match w.registry literal with
  | none =>
    ({ registry := fun p => if p = path then some w.next else w.registry p
       names := fun m => if m = w.next then [] else w.names m
       next := w.next + 1 }, w.next)
  | some m => ({ w with names := fun k => if k = m then (w.names m).filter fun e => dunder e.1 else w.names k }, m)

/-- The loop over the attributes (154–171): what is set on the module. -/
def moduleNames (globals : Nat) (source typeName path : Text) : Attrs → List (Text × Val)
  | .nil => []
  | .cons name value rest =>
    if dunder name ∧ name ≠ docName then moduleNames globals source typeName path rest
    else
      match value with
      | .skipped _ => moduleNames globals source typeName path rest
      | value => (name, modulizeValue globals source typeName path value) :: moduleNames globals source typeName path rest

/-- `modulize` (102–174). -/
def modulize (w : World) (source typeName : Text) (attrs : Attrs) : World × Nat :=
  let path := source ++ 46 :: typeName
  let (w, m) := getModule w path
  ({ w with names := fun k => if k = m then w.names m ++ moduleNames m source typeName path attrs else w.names k }, m)

/-! ## Groups of causes -/

/-- What is given as cause. -/
inductive Cause
  | instance (n : Nat)
  /-- A type of exceptions; what calling it gives, `none` if that raises `TypeError`. -/
  | type (made : Option Nat)
  | other (n : Nat)
  deriving DecidableEq

/-- What `CauseGroup(...)` gives. -/
inductive Group
  | none
  | one (cause : Cause)
  | group (causes : List Nat)
  | typeError
  deriving DecidableEq

/-- `_iter_validate_causes` (cause_group.py 5–30); `none`: `TypeError`. -/
def validate : List Cause → Option (List Nat)
  | [] => some []
  | .instance n :: cs => (validate cs).map (n :: ·)
  | .type (some n) :: cs => (validate cs).map (n :: ·)
  | .type .none :: _ => .none
  | .other _ :: _ => .none

/-- `CauseGroup.__new__` (49–81). -/
def causeGroup (causes : List Cause) : Group :=
  if causes.length = 0 then .none
  else
    match causes with
    | [c] => .one c
    | _ =>
      match validate causes with
      | .none => .typeError
      | some l => .group l

end Verif.Modulize
