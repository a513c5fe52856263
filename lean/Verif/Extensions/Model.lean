/-!
# Hooks of library extensions

Modelled code: `scarletio/ext/__init__.py`.

Names of extensions and hooks are numbers. What a hook does when it is called is a list of operations, so hooks may load
extensions and add hooks; `fuel` bounds how deep hooks call each other.
-/

namespace Verif.Extensions

/-- A hook which waits; `all` is what it was added with (not stored by the code, for the properties). -/
structure Hook where
  id : Nat
  all : List Nat
  requirements : List Nat
  deriving DecidableEq

/-- What is done. -/
inductive Op
  | register (name : Nat)
  | add (id : Nat) (requirements : List Nat)
  /-- an exception, raised by a hook -/
  | raise
  deriving DecidableEq

/-- `LOADED_EXTENSIONS`, `HOOKS` and what happened outside. -/
structure St where
  loaded : List Nat := []
  hooks : List Hook := []
  /-- Hooks called, in order, with what they were added with. -/
  calls : List (Nat × List Nat) := []
  /-- Hooks added, in order (not stored by the code). -/
  added : List (Nat × List Nat) := []
  warnings : Nat := 0
  /-- Exceptions of hooks written out. -/
  written : Nat := 0
  deriving DecidableEq

/-- The loop of `register_library_extension` (30–54) over the indexes below `n` from the last one; the flag tells of an
`IndexError`. -/
def loop (call : St → Nat × List Nat → St) (name : Nat) : Nat → St → St × Bool
  | 0, s => (s, false)
  | n + 1, s =>
    match s.hooks[n]? with
    | none => (s, true)
    | some h =>
      let requirements := h.requirements.filter (· ≠ name)
      if requirements ≠ [] then loop call name n { s with hooks := s.hooks.set n { h with requirements := requirements } }
      else loop call name n (call { s with hooks := s.hooks.eraseIdx n } (h.id, h.all))

/-- `register_library_extension` (11–54), `add_library_extension_hook` (57–78). -/
def exec (call : St → Nat × List Nat → St) (s : St) : Op → St × Bool
  | .register name =>
    if name ∈ s.loaded then ({ s with warnings := s.warnings + 1 }, false)
    else loop call name s.hooks.length { s with loaded := s.loaded ++ [name] }
  | .add id requirements =>
    let s := { s with added := s.added ++ [(id, requirements)] }
    let left := requirements.filter (· ∉ s.loaded)
    if left ≠ [] then ({ s with hooks := s.hooks ++ [⟨id, requirements, left⟩] }, false)
    else (call s (id, requirements), false)
  | .raise => (s, true)

/-- What a hook does, up to the first exception. -/
def script (call : St → Nat × List Nat → St) : List Op → St → St × Bool
  | [], s => (s, false)
  | op :: ops, s =>
    match exec call s op with
    | (s, true) => (s, true)
    | (s, false) => script call ops s

/-- A hook called; its exceptions are written out. -/
def call (does : Nat → List Op) : Nat → St → Nat × List Nat → St
  | 0, s, h => { s with calls := s.calls ++ [h] }
  | n + 1, s, h =>
    match script (call does n) (does h.1) { s with calls := s.calls ++ [h] } with
    | (s, true) => { s with written := s.written + 1 }
    | (s, false) => s

/-- Many operations, each from outside. -/
def run (does : Nat → List Op) (fuel : Nat) (s : St) : List Op → St
  | [] => s
  | op :: ops => run does fuel (exec (call does fuel) s op).1 ops

end Verif.Extensions
