/-!
# Including objects of modules which are not loaded yet

Modelled code: `scarletio/utils/export_include.py` (the whole file, but how a module and the name of an
object are found: `include` of a file which is no module only warns).

Modules, names, objects and callbacks are numbers. `X = include('Y')` of a module is one operation: what
`include` returns is put in the variable `X` of the module.
-/

namespace Verif.Includes

/-- What is waiting for an object: a module, or a callback. -/
inductive Waiting
  | module (m : Nat) | callback (k : Nat)
  deriving DecidableEq, Repr

/-- What a variable of a module is: not there, `NotImplemented`, an object. -/
inductive Val
  | absent | placeholder | obj (v : Nat)
  deriving DecidableEq, Repr

/-- `SATISFIED`, `CALLBACKS`, the variables of the modules, and which callbacks were called with what. -/
structure State where
  satisfied : Nat → Option Nat := fun _ => none
  callbacks : Nat → List Waiting := fun _ => []
  var : Nat → Nat → Val := fun _ _ => .absent
  called : List (Nat × Nat) := []

inductive Op
  | incl (m var name : Nat)
  | inclCallback (name k : Nat)
  | export (name v : Nat)
  deriving DecidableEq, Repr

def put {α : Type} (f : Nat → α) (i : Nat) (x : α) : Nat → α := fun j => if j = i then x else f j

def putVar (f : Nat → Nat → Val) (m n : Nat) (x : Val) : Nat → Nat → Val := fun a b => if a = m ∧ b = n then x else f a b

/-- The callbacks of an object are called (118–122); `raises`: those which raise. Whatever is behind one
which raises is not called any more. -/
def callAll (raises : Nat → Bool) (name v : Nat) : List Waiting → State → State
  | [], s => s
  | .module m :: ws, s => callAll raises name v ws { s with var := putVar s.var m name (.obj v) }
  | .callback k :: ws, s =>
    let s := { s with called := s.called ++ [(k, v)] }
    if raises k then s else callAll raises name v ws s

/-- `include` (14–57) with the assignment of its result, `include_with_callback` (60–85), `export` (88–123). -/
def step (raises : Nat → Bool) (s : State) : Op → State
  | .incl m var name =>
    match s.satisfied name with
    | some v => { s with var := putVar s.var m var (.obj v) }
    | none =>
      { s with
        callbacks := put s.callbacks name (s.callbacks name ++ [.module m])
        var := putVar s.var m var .placeholder }
  | .inclCallback name k =>
    match s.satisfied name with
    | some v => { s with called := s.called ++ [(k, v)] }
    | none => { s with callbacks := put s.callbacks name (s.callbacks name ++ [.callback k]) }
  | .export name v =>
    callAll raises name v (s.callbacks name)
      { s with satisfied := put s.satisfied name (some v), callbacks := put s.callbacks name [] }

def run (raises : Nat → Bool) (s : State) : List Op → State
  | [] => s
  | op :: ops => run raises (step raises s op) ops

/-- `check_satisfaction` (163–171) for a name. -/
def waitingFor (s : State) (name : Nat) : Bool := s.callbacks name ≠ []

end Verif.Includes
