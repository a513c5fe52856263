import Verif.Weak.Model

/-!
# What a weak container should be

A plain ordered dictionary which loses an entry at the very moment its key is collected. There are no references, no
pending removals and no iteration count.
-/

namespace Verif.Weak

/-- The plain dictionary: its items, and the objects which are no more. -/
structure Plain (V : Type) where
  items : List (Nat × V) := []
  dead : List Nat := []

variable {V : Type}

/-- An equal key keeps its place and its key object, otherwise the item goes to the end. -/
def Plain.store (cls : Nat → Nat) (o : Nat) (v : V) : List (Nat × V) → List (Nat × V)
  | [] => [(o, v)]
  | (k, w) :: rest => if cls k = cls o then (k, v) :: rest else (k, w) :: Plain.store cls o v rest

def Plain.get (cls : Nat → Nat) (o : Nat) (items : List (Nat × V)) : Option (Nat × V) :=
  items.find? fun i => decide (cls i.1 = cls o)

def Plain.without (cls : Nat → Nat) (o : Nat) (items : List (Nat × V)) : List (Nat × V) :=
  items.eraseP fun i => decide (cls i.1 = cls o)

/--
What an operation may do to a plain dictionary and what it may give back. Only `pop` has a choice: it takes one item
out, the last one if the container is a dictionary.
-/
def Plain.Allows (cls : Nat → Nat) (kind : Kind) (p : Plain V) (op : Op V) (p' : Plain V) (out : Out V) : Prop :=
  match op with
  | .put o v =>
    if o ∈ p.dead then p' = p ∧ out = .impossible
    else p' = { p with items := Plain.store cls o v p.items } ∧ out = .unit
  | .setdefault o v =>
    if o ∈ p.dead then p' = p ∧ out = .impossible
    else match Plain.get cls o p.items with
      | some i => p' = p ∧ out = .item (some i)
      | none => p' = { p with items := p.items ++ [(o, v)] } ∧ out = .item (some (o, v))
  | .remove o =>
    if o ∈ p.dead then p' = p ∧ out = .impossible
    else p' = { p with items := Plain.without cls o p.items } ∧ out = .item (Plain.get cls o p.items)
  | .look o =>
    if o ∈ p.dead then p' = p ∧ out = .impossible
    else p' = p ∧ out = .item (Plain.get cls o p.items)
  | .pop _ =>
    if kind = .map then p' = p ∧ out = .impossible
    else (p.items = [] ∧ p' = p ∧ out = .item none) ∨
      ∃ before i after, p.items = before ++ i :: after ∧ p' = { p with items := before ++ after } ∧
        out = .item (some i) ∧ (kind = .keys → after = [])
  | .clear => p' = { p with items := [] } ∧ out = .unit
  | .enter => p' = p ∧ out = .unit
  | .leave _ => p' = p ∧ (out = .unit ∨ out = .impossible)
  | .die o =>
    if o ∈ p.dead then p' = p ∧ out = .impossible
    else p' = { items := p.items.filter (fun i => i.1 != o), dead := o :: p.dead } ∧ out = .unit
  | .sweep _ => p' = p ∧ out = .list p.items
  | .foreign _ => p' = p ∧ (out = .unit ∨ out = .impossible)

/-- A whole execution. -/
inductive Plain.Runs (cls : Nat → Nat) (kind : Kind) : Plain V → List (Op V) → Plain V → List (Out V) → Prop
  | nil (p : Plain V) : Runs cls kind p [] p []
  | cons {p p' p'' : Plain V} {op : Op V} {ops : List (Op V)} {out : Out V} {outs : List (Out V)}
      (h : Plain.Allows cls kind p op p' out) (t : Runs cls kind p' ops p'' outs) :
      Runs cls kind p (op :: ops) p'' (out :: outs)

/-- The plain dictionary which a container stands for. -/
def Table.plain (t : Table V) : Plain V := { items := t.view, dead := t.dead }

end Verif.Weak
