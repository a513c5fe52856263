/-!
# Which event loop a thread uses

Modelled code: `scarletio/core/top_level/event_loop.py`, `scarletio/core/top_level/task.py` (`create_future`,
`create_task`: whether the loop is woken up), `EventThread.is_stopped` (`core/event_loop/event_loop.py`, 154–169).

Loops and other threads are numbers. Each function is one step.
-/

namespace Verif.Loops

/-- How far a loop is: created; started, but not in its `with` statement yet (`started`, not `running`); running; ended. -/
inductive Phase
  | created
  | starting
  | running
  | ended
  deriving DecidableEq

/-- A loop. -/
structure Loop where
  daemon : Bool
  phase : Phase
  deriving DecidableEq

/-- `is_stopped` (154–169 of `core/event_loop/event_loop.py`): `started` is false only before the start, and then
`running` decides. -/
def Loop.isStopped (l : Loop) : Bool :=
  match l.phase with
  | .created => false
  | .starting => true
  | .running => false
  | .ended => true

/-- All loops made, the ones `threading.enumerate` lists in its order, and `THREAD_TO_EVENT_LOOP_REFERENCE`. -/
structure World where
  loops : Nat → Option Loop := fun _ => none
  next : Nat := 0
  listed : List Nat := []
  link : Nat → Option Nat := fun _ => none

/-- Who calls. -/
inductive Caller
  | loop (n : Nat)
  | plain (n : Nat)
  deriving DecidableEq

/-- Whether a loop is there and is not stopped. -/
def World.usable (w : World) (l : Nat) : Bool :=
  match w.loops l with
  | some x => !x.isStopped
  | none => false

/-- The checks of the loop over the threads (30–37). -/
def World.taken (w : World) (l : Nat) : Bool :=
  match w.loops l with
  | some x => !x.daemon && !x.isStopped
  | none => false

/-- The loop over the threads (29–40). -/
def World.first (w : World) : List Nat → Option Nat
  | [] => none
  | l :: ls => if w.taken l then some l else w.first ls

/-- Linking of a thread to a loop. -/
def World.linked (w : World) (t l : Nat) : World := { w with link := fun x => if x = t then some l else w.link x }

/-- The second half of `_try_detect_event_loop`. -/
def World.search (w : World) (t : Nat) : World × Option Nat :=
  match w.first w.listed with
  | none => (w, none)
  | some l => (w.linked t l, some l)

/-- `_try_detect_event_loop` (13–40). -/
def World.detect (w : World) (t : Nat) : World × Option Nat :=
  match w.link t with
  | some l => if w.usable l then (w, some l) else w.search t
  | none => w.search t

/-- `get_event_loop` (83–107); `none`: `RuntimeError`. -/
def World.get (w : World) : Caller → World × Option Nat
  | .loop n => (w, some n)
  | .plain t => w.detect t

/-- `_get_event_loop_is_current_thread` (43–79). -/
def World.owner (w : World) (c : Caller) (given : Option Nat) : World × Option (Nat × Bool) :=
  match given with
  | some l => (w, some (l, decide (c = .loop l)))
  | none =>
    match c with
    | .loop n => (w, some (n, true))
    | .plain t =>
      match w.detect t with
      | (w', some l) => (w', some (l, false))
      | (w', none) => (w', none)

/-- `create_task`, `create_future`: which loop gets it, and which loops are woken up (8–31, 34–59 of `task.py`). -/
def World.createTask (w : World) (c : Caller) (given : Option Nat) : World × Option (Nat × List Nat) :=
  match w.owner c given with
  | (w', some (l, current)) => (w', some (l, if !current then [l] else []))
  | (w', none) => (w', none)

/-- `set_event_loop` (110–132); `false`: `RuntimeError`. -/
def World.set (w : World) (c : Caller) (l : Nat) : World × Bool :=
  match c with
  | .loop _ => (w, false)
  | .plain t => (w.linked t l, true)

/-- Creating of a loop which is to be started later. -/
def World.make (w : World) (daemon : Bool) : World × Nat :=
  ({ w with loops := fun x => if x = w.next then some ⟨daemon, .created⟩ else w.loops x, next := w.next + 1 }, w.next)

/-- `_maybe_set_event_loop` (135–152). -/
def World.maybeSet (w : World) (c : Caller) (l : Nat) : World :=
  match c with
  | .loop _ => w
  | .plain t =>
    match w.detect t with
    | (w', some _) => w'
    | (w', none) => w'.linked t l

/-- `create_event_loop` (155–179). -/
def World.create (w : World) (c : Caller) (daemon : Bool) : World × Nat :=
  let (w1, l) := w.make daemon
  (w1.maybeSet c l, l)

/-- `get_or_create_event_loop` (182–214). -/
def World.getOrCreate (w : World) (c : Caller) (daemon : Bool) : World × Nat :=
  match c with
  | .loop n => (w, n)
  | .plain t =>
    match w.detect t with
    | (w', some l) => (w', l)
    | (w', none) =>
      let (w1, l) := w'.make daemon
      (w1.linked t l, l)

/-- What happens: the calls, the start of a loop, its getting to run and its end. -/
inductive Op
  | get (c : Caller)
  | getOrCreate (c : Caller) (daemon : Bool)
  | create (c : Caller) (daemon : Bool)
  | set (c : Caller) (l : Nat)
  | start (l : Nat)
  | run (l : Nat)
  | stop (l : Nat)
  /-- A loop which is not listed is freed; the dictionary refers to it weakly. -/
  | collect (l : Nat)

/-- A loop gets to another phase. -/
def World.advance (w : World) (l : Nat) (p : Phase) : World :=
  match w.loops l with
  | none => w
  | some x => { w with loops := fun y => if y = l then some { x with phase := p } else w.loops y }

/-- One step. Only loops which were made are set or started. A started thread is listed until it ends. -/
def step (w : World) : Op → World
  | .get c => (w.get c).1
  | .getOrCreate c d => (w.getOrCreate c d).1
  | .create c d => (w.create c d).1
  | .set c l => if l < w.next then (w.set c l).1 else w
  | .start l => if l < w.next then { w.advance l .starting with listed := w.listed ++ [l] } else w
  | .run l => w.advance l .running
  | .stop l => { w.advance l .ended with listed := w.listed.filter (· ≠ l) }
  | .collect l => if l ∈ w.listed then w else { w with loops := fun y => if y = l then none else w.loops y }

/-- Many steps. -/
def run (w : World) (ops : List Op) : World := ops.foldl step w

end Verif.Loops
