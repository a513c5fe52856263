/-
Model of the collecting of the tasks of an event loop.

Source: `/repo/scarletio/core/event_loop/event_loop.py` `802-840` (`get_tasks`) and
`/repo/scarletio/core/event_loop/event_loop_functionality_helpers.py` `175-213` (`_iter_futures_of`).

Futures are numbers. The handles of `_ready` and `_scheduled` are given by the values which they hold: their function and
their parameters. `set.pop` takes any element, so a turn of the loop is a relation.
-/
namespace Verif.LoopIO

/-- A value, as far as `_iter_futures_of` looks at it. -/
inductive Value where
  | future (f : Nat)
  /-- A task group with its futures. -/
  | group (fs : List Nat)
  /-- A bound method and its instance. -/
  | method (instance' : Value)
  /-- A bound method whose instance is a weak reference, and to what it refers if that is still alive. -/
  | weakMethod (instance' : Option Value)
  | other

/-- `_iter_futures_of` -/
def futuresOf : Value → List Nat
  | .future f => [f]
  | .group fs => fs
  | .method v => futuresOf v
  | .weakMethod none => []
  | .weakMethod (some v) => futuresOf v
  | .other => []

/-- The sets `future_checks_pending` and `future_checks_done`. -/
structure Search where
  pending : List Nat
  done : List Nat

/-- The futures from which it starts (`812-822`). -/
def roots (current : Option Nat) (handles : List (List Value)) : List Nat :=
  current.toList ++ (handles.flatten.map futuresOf).flatten

/-- One turn of the loop, which pops `f` (`828-835`). `callbacks` are the callbacks of the futures. -/
def turn (callbacks : Nat → List Value) (s : Search) (f : Nat) : Search :=
  { pending := (s.pending.filter (· ≠ f)) ++
      ((callbacks f).map futuresOf).flatten.filter (fun g => decide (g ∉ f :: s.done)),
    done := f :: s.done }

/-- `n` turns, for any order in which `set.pop` takes the futures. -/
inductive Turns (callbacks : Nat → List Value) : Search → Nat → Search → Prop where
  | refl (s) : Turns callbacks s 0 s
  | turn {s f n t} : f ∈ s.pending → Turns callbacks (turn callbacks s f) n t → Turns callbacks s (n + 1) t

end Verif.LoopIO
