import Verif.Loops.Model

/-!
# Running of awaitables and coroutines

Modelled code: `scarletio/core/top_level/flow.py`. What the awaitable does to the loops meanwhile is not modelled.
-/

namespace Verif.Loops

/-- Where an awaitable ran; `refused`: `RuntimeError` as the caller is a loop. -/
inductive Ran
  | refused
  | on (l : Nat)
  deriving DecidableEq

/-- `run` (17–56): a loop made for it is started, runs, and is stopped in the end however the awaitable ended. -/
def World.runAwaitable (w : World) : Caller → World × Ran
  | .loop _ => (w, .refused)
  | .plain t =>
    match w.detect t with
    | (w', some l) => (w', .on l)
    | (w', none) =>
      let (w1, l) := w'.make true
      (run w1 [.start l, .run l, .stop l], .on l)

/-- What `run_coroutine` gives: the task itself, a future of the caller's loop around it, or the result after the thread
was blocked; the second and the third one wake up the loop. -/
inductive Given
  | task
  | wrapped (inside : Nat)
  | result
  deriving DecidableEq

/-- `run_coroutine` (59–96); `none`: `RuntimeError`. The loop of the task, what is given, and the loops woken up. -/
def World.runCoroutine (w : World) (c : Caller) (given : Option Nat) : Option (Nat × Given × List Nat) :=
  match (w.owner c given).2 with
  | none => none
  | some (l, current) =>
    if current then some (l, .task, [])
    else
      match c with
      | .loop n => some (l, .wrapped n, [l])
      | .plain _ => some (l, .result, [l])

end Verif.Loops
