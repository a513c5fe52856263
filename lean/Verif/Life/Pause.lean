/-! Model of pausing and stopping an `EventThread`: `ThreadSuspenderContext` (`core/event_loop/event_thread_suspender.py` 52-76), `call_soon_thread_safe`
(`event_loop.py` 388-409), `stop` and `_stop` (748-767), the loop of `runner` (656-712) and `__exit__` of its context (`event_thread_type.py` 95-129).

Threads run step by step in any order; where a thread tests something and acts on it then, these are two steps. `wake_up` is left out, the
loop may go on at any time (that it does not sleep while there is something to do is C58). Timers and sockets are left out, and that
calls start a loop which is not started (C248). -/
namespace Verif.Life.Pause

/-- What `_ready` holds. -/
inductive Item where
  /-- a callback -/
  | work (n : Nat)
  /-- `_give_control_cb` of a context -/
  | pause (c : Nat)
  /-- `_stop` -/
  | stop
deriving DecidableEq, Repr

/-- Where the thread of the loop is. -/
inductive Phase where
  /-- not started -/
  | fresh
  /-- before the test of `should_run` (660) -/
  | outer
  /-- in `while ready` -/
  | drain
  /-- in `exit_event.wait()` of a context (76) -/
  | gave (c : Nat)
  /-- a callback is in `enter_event.wait()` of a context (62) -/
  | stuck (c : Nat)
  /-- in `__exit__`, after `running = False` -/
  | leaving
  | off
deriving DecidableEq, Repr

/-- Where another thread is. -/
inductive Pc where
  | idle
  /-- in `__enter__`, `loop.running` was true -/
  | tested (c : Nat)
  /-- in `enter_event.wait()` -/
  | waiting (c : Nat)
  /-- in the block; whether it waited for the loop -/
  | inside (c : Nat) (waited : Bool)
  /-- in `call_soon_thread_safe`, `running` was true -/
  | calling (n : Nat)
deriving DecidableEq, Repr

structure State where
  phase : Phase := .fresh
  running : Bool := false
  shouldRun : Bool := true
  /-- `_ready` -/
  ready : List Item := []
  /-- `enter_event.is_set()` of each context -/
  entered : Nat → Bool := fun _ => false
  /-- `exit_event.is_set()` -/
  exited : Nat → Bool := fun _ => false
  pcs : Nat → Pc := fun _ => .idle
  /-- the callbacks a handle was returned for -/
  accepted : List Nat := []
  /-- the callbacks run -/
  ran : List Nat := []
  /-- the contexts appended by line 60, in order -/
  asked : List Nat := []
  /-- the contexts the loop gave way to, in order -/
  gaveTo : List Nat := []

inductive Op where
  /-- the loop's thread starts -/
  | begin
  /-- `__enter__` up to line 58 -/
  | enter (t c : Nat)
  /-- lines 59-61 -/
  | append (t : Nat)
  /-- `enter_event.wait()` returns -/
  | inside (t : Nat)
  /-- `__exit__` -/
  | leave (t : Nat)
  /-- `call_soon_thread_safe` up to its test -/
  | call (t n : Nat)
  /-- the rest of it -/
  | called (t : Nat)
  /-- `stop`, from another thread -/
  | stop
  /-- line 660 -/
  | turn
  /-- lines 707-710, once -/
  | one
  /-- the wait of the loop's thread ends -/
  | resume
  /-- a callback enters a context of its own loop -/
  | own (c : Nat)
  /-- the rest of `__exit__` of the context of the loop -/
  | clear
deriving DecidableEq, Repr

def put {α : Type} (f : Nat → α) (k : Nat) (v : α) : Nat → α := fun i => if i = k then v else f i

/-- `handle._run()` of the handle popped. -/
def runItem (s : State) : Item → State
  | .work n => { s with ran := s.ran ++ [n] }
  | .pause c => { s with phase := .gave c, entered := put s.entered c true, gaveTo := s.gaveTo ++ [c] }
  | .stop => { s with shouldRun := false }

def step (s : State) : Op → State
  | .begin => if s.phase = .fresh then { s with phase := .outer, running := true } else s
  | .enter t c =>
    if s.pcs t = .idle then { s with pcs := put s.pcs t (if s.running then .tested c else .inside c false) } else s
  | .append t =>
    match s.pcs t with
    | .tested c => { s with ready := s.ready ++ [.pause c], asked := s.asked ++ [c], pcs := put s.pcs t (.waiting c) }
    | _ => s
  | .inside t =>
    match s.pcs t with
    | .waiting c => if s.entered c then { s with pcs := put s.pcs t (.inside c true) } else s
    | _ => s
  | .leave t =>
    match s.pcs t with
    | .inside c _ => { s with exited := put s.exited c true, pcs := put s.pcs t .idle }
    | _ => s
  | .call t n => if s.pcs t = .idle ∧ s.running = true then { s with pcs := put s.pcs t (.calling n) } else s
  | .called t =>
    match s.pcs t with
    | .calling n => { s with ready := s.ready ++ [.work n], accepted := s.accepted ++ [n], pcs := put s.pcs t .idle }
    | _ => s
  | .stop => if s.shouldRun = true ∧ s.running = true then { s with ready := s.ready ++ [.stop] } else s
  | .turn =>
    match s.phase with
    | .outer => if s.shouldRun then { s with phase := .drain } else { s with phase := .leaving, running := false }
    | _ => s
  | .one =>
    match s.phase with
    | .drain =>
      match s.ready with
      | [] => { s with phase := .outer }
      | i :: l => runItem { s with ready := l } i
    | _ => s
  | .resume =>
    match s.phase with
    | .gave c => if s.exited c then { s with phase := .drain } else s
    | .stuck c => if s.entered c then { s with phase := .drain } else s
    | _ => s
  | .own c =>
    match s.phase with
    | .drain => { s with phase := .stuck c, ready := s.ready ++ [.pause c], asked := s.asked ++ [c] }
    | _ => s
  | .clear =>
    match s.phase with
    | .leaving => { s with phase := .off, ready := [] }
    | _ => s

def run (s : State) (ops : List Op) : State := ops.foldl step s

end Verif.Life.Pause
