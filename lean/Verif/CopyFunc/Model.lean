/-
Model of copying of functions.

Source: `/repo/scarletio/utils/function_tools.py`, `copy_func`.

Codes, values, texts and names are numbers; so are the identities of dictionaries.
-/

namespace Verif.CopyFunc

/-- A function. `kwdefaults` is which dictionary it is; `code` has the documentation written in it. -/
structure Func where
  code : Nat
  globals : Nat
  name : Nat
  defaults : List Nat
  closure : Option Nat
  kwdefaults : Option Nat
  doc : Option Nat
  annotations : List (Nat × Nat)
deriving DecidableEq, Repr

/-- The functions, and the contents of the dictionaries. -/
structure St where
  funcs : List Func
  dicts : Nat → List (Nat × Nat)

/-- `types.FunctionType` with the parameters given by `copy_func`: the documentation is the one written in the
code (`docOf`), there are no annotations. -/
def FunctionType (docOf : Nat → Option Nat) (code globals name : Nat) (argdefs : List Nat) (closure : Option Nat) : Func :=
  { code, globals, name, defaults := argdefs, closure, kwdefaults := none, doc := docOf code, annotations := [] }

/-- `copy_func` (`function_tools.py:88-110`). -/
def copyFunc (docOf : Nat → Option Nat) (old : Func) : Func :=
  { FunctionType docOf old.code old.globals old.name old.defaults old.closure with kwdefaults := old.kwdefaults }

inductive Op where
  | copy (i : Nat)
  /-- `f.__defaults__ = d`. -/
  | defaults (i : Nat) (d : List Nat)
  /-- `f.__kwdefaults__ = d`, a dictionary. -/
  | kwdefaults (i : Nat) (d : Nat)
  /-- `f.__kwdefaults__[k] = v`. -/
  | item (i : Nat) (k v : Nat)
  /-- `f.__doc__ = d`. -/
  | doc (i : Nat) (d : Option Nat)
deriving DecidableEq, Repr

def step (docOf : Nat → Option Nat) (s : St) : Op → St
  | .copy i => match s.funcs[i]? with
    | none => s
    | some f => { s with funcs := s.funcs ++ [copyFunc docOf f] }
  | .defaults i d => { s with funcs := s.funcs.modify i fun f => { f with defaults := d } }
  | .kwdefaults i d => { s with funcs := s.funcs.modify i fun f => { f with kwdefaults := some d } }
  | .item i k v => match s.funcs[i]?.bind Func.kwdefaults with
    | none => s
    | some d => { s with dicts := fun e => if e = d then (k, v) :: s.dicts e else s.dicts e }
  | .doc i d => { s with funcs := s.funcs.modify i fun f => { f with doc := d } }

def run (docOf : Nat → Option Nat) (s : St) (l : List Op) : St := l.foldl (step docOf) s

/-- What calling a function depends on: its code, globals, closure and defaults, those of keywords by what
their dictionary has for a name. -/
structure Behaviour where
  code : Nat
  globals : Nat
  closure : Option Nat
  defaults : List Nat
  keywords : Nat → Option Nat

def behaviour (s : St) (f : Func) : Behaviour :=
  ⟨f.code, f.globals, f.closure, f.defaults, fun k => (f.kwdefaults.map s.dicts).bind (·.lookup k)⟩

end Verif.CopyFunc
