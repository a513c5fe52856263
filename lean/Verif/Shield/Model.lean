import Verif.Future.Model
/-! Model of `shield` (`core/traps/future_chaining.py`): the protected future, the future handed out, and the loop that runs
their done callbacks.

The callback identifier `0` stands for the chaining callback: in the callbacks of the protected future it is the
`_FutureChainer` whose target is the outer future, in the callbacks of the outer future it is the `_ChainRemover` whose target
is the protected one. All others are callbacks of users; they do nothing here (what a user callback calls on the two futures
is covered by the operations). The loop runs (see C12 for the other case). The handles of the two futures are run in an
arbitrary interleaving, each future's own ones in order: this includes the order of the loop's ready queue. -/
namespace Verif.Shield
open Verif.Future
variable {α ε : Type}

structure Sys (α ε : Type) where
  inner : Fut α ε
  outer : Fut α ε
  /-- how many of the handed over callbacks of the inner future ran already -/
  innerRan : Nat := 0
  outerRan : Nat := 0
deriving DecidableEq, Repr

/-- `shield` (80-109): a done awaitable is returned itself (`none`), otherwise a new future is made and chained. -/
def shield (protected_ : Fut α ε) : Option (Sys α ε) :=
  if protected_.state.done then none
  else some {
    inner := { protected_ with callbacks := protected_.callbacks ++ [0] }
    outer := { callbacks := [0] }
    innerRan := protected_.ready.length }

/-- `target._state |= future._state` (48) -/
def orFlags (a b : Flags) : Flags where
  ret := a.ret || b.ret
  raise_ := a.raise_ || b.raise_
  retrieved := a.retrieved || b.retrieved
  cancellingSelf := a.cancellingSelf || b.cancellingSelf
  cancelled := a.cancelled || b.cancelled
  destroyed := a.destroyed || b.destroyed
  silenced := a.silenced || b.silenced

/-- `_FutureChainer.__call__` (28-51). -/
def Sys.chain (s : Sys α ε) : Sys α ε :=
  let outer := { s.outer with callbacks := s.outer.callbacks.erase 0 }
  if outer.state.done then { s with outer := outer }
  else
    { s with
      outer := ({ outer with state := orFlags outer.state s.inner.state, result := s.inner.result } : Fut α ε).schedule }

/-- `_ChainRemover.__call__` (68-77). -/
def Sys.unchain (s : Sys α ε) : Sys α ε :=
  if 0 ∈ s.inner.callbacks then
    { s with
      inner := { s.inner with callbacks := s.inner.callbacks.erase 0 }
      outer := { s.outer with state := { s.outer.state with silenced := true } } }
  else s

inductive Op (α ε : Type) where
  /-- anything a user calls on the protected future -/
  | inner (op : Future.Op α ε)
  /-- anything a user calls on the future returned by `shield` -/
  | outer (op : Future.Op α ε)
  /-- the loop runs the next handed over callback of the protected future -/
  | runInner
  | runOuter

def Sys.step (s : Sys α ε) : Op α ε → Sys α ε
  | .inner op => { s with inner := (s.inner.step op).1 }
  | .outer op => { s with outer := (s.outer.step op).1 }
  | .runInner =>
    match s.inner.ready[s.innerRan]? with
    | none => s
    | some c =>
      let s := { s with innerRan := s.innerRan + 1 }
      if c = 0 then s.chain else s
  | .runOuter =>
    match s.outer.ready[s.outerRan]? with
    | none => s
    | some c =>
      let s := { s with outerRan := s.outerRan + 1 }
      if c = 0 then s.unchain else s

def Sys.run (s : Sys α ε) (ops : List (Op α ε)) : Sys α ε := ops.foldl Sys.step s

end Verif.Shield
