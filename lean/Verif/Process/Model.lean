/-
Model of asynchronous processes.

Source: `/repo/scarletio/core/subprocess/subprocess.py`, `AsyncProcess`.
-/

namespace Verif.Process

/-! ### The life of a process -/

/-- A future in `_exit_waiters`: `stopped` if the task which waits for it was cancelled
or its time is over; both cancel the future (`traps/future.py:29-38`, `116-169`). -/
structure Waiter where
  id : Nat
  stopped : Bool
deriving DecidableEq, Repr

/-- An `AsyncProcess` and its process. `os` is the exit code of the process once it ended;
`alive` is `_alive_file_descriptors`; `pipes` are the pipes of which the connection was not
lost yet; `killed` is whether the library killed it though it was not asked to;
`answers` are the results of `wait`. -/
structure P where
  os : Option Int
  alive : List Nat
  pipes : List Nat
  closed : Bool
  returnCode : Option Int
  finished : Bool
  waiters : List Waiter
  answers : List (Nat × Int)
  killed : Bool
deriving DecidableEq, Repr

/-- `__new__` (`84-240`): which of `1` (stdout) and `2` (stderr) are pipes. The pipe of
stdin is not in the list. -/
def P.new (out err : Bool) : P :=
  let fds := (if out then [1] else []) ++ (if err then [2] else [])
  ⟨none, fds, fds, false, none, false, [], [], false⟩

/-- `Popen.kill`: the code of a process killed so is `-9`; one which ended stays as it
is. The process ends at once here. -/
def P.signal (p : P) : P := { p with os := some (p.os.getD (-9)) }

/-- `close` (`316-345`). Closing the transports makes their connections be lost later. The
task of `_process_exited` is created. -/
def P.close (p : P) : P :=
  if p.closed then p
  else
    let p := { p with closed := true }
    if p.returnCode.isNone && p.os.isNone then { p.signal with killed := true } else p

/-- `_maybe_process_exited` (`589-596`). -/
def P.maybeExited (p : P) : P := if p.alive.isEmpty then p.close else p

/-- `_do_pipe_connection_lost` (`441-491`). A transport loses its connection once. -/
def P.lost (p : P) (fd : Nat) : P :=
  if fd ∈ p.pipes then P.maybeExited { p with pipes := p.pipes.erase fd, alive := p.alive.erase fd } else p

/-- `_process_exited` (`562-586`), the task created by `close`, when it can go on. -/
def P.finish (p : P) : P :=
  if p.closed && !p.finished then
    match p.os with
    | none => p
    | some c =>
      { p with returnCode := some c, finished := true, waiters := []
               answers := p.answers ++ (p.waiters.filter (fun w => !w.stopped)).map (fun w => (w.id, c)) }
  else p

/-- `wait` (`599-645`). -/
def P.wait (p : P) (i : Nat) : P :=
  match p.returnCode with
  | some c => { p with answers := p.answers ++ [(i, c)] }
  | none => { p with waiters := p.waiters ++ [⟨i, false⟩] }

inductive Op where
  /-- The process ends by itself. -/
  | exit (code : Int)
  /-- The connection of stdout or stderr is lost. -/
  | lost (fd : Nat)
  /-- The connection of stdin is lost (`471-477`): only writers are told. -/
  | stdinLost
  | close
  /-- `kill` (`386-400`). -/
  | kill
  | wait (i : Nat)
  /-- A `wait` is cancelled or its time is over. -/
  | stop (i : Nat)
  /-- The loop runs the task of `_process_exited`. -/
  | finish
deriving DecidableEq, Repr

def step (p : P) : Op → P
  | .exit c => { p with os := some (p.os.getD c) }
  | .lost fd => p.lost fd
  | .stdinLost => p
  | .close => p.close
  | .kill => if p.finished then p else p.signal.close
  | .wait i => p.wait i
  | .stop i => { p with waiters := p.waiters.map (fun w => if w.id = i then { w with stopped := true } else w) }
  | .finish => p.finish

def run (p : P) (l : List Op) : P := l.foldl step p

/-! ### Waiting until the input is drained -/

/-- What a future was given as its loop. -/
inductive Owner where
  | loop | process
deriving DecidableEq, Repr

/-- Whether it has `_schedule_callbacks`, which a future calls when it becomes done
(`traps/future.py:408-410`, `432-434`); `AsyncProcess` has not. -/
def Owner.schedules : Owner → Bool
  | .loop => true
  | .process => false

/-- `_paused`, `_connection_lost` and `_drain_waiter`; `ended` are the calls of `drain` which
ended, with whether they raised. -/
structure D where
  paused : Bool
  connLost : Bool
  waiter : Option (Nat × Owner)
  ended : List (Nat × Bool)
deriving DecidableEq, Repr

def D.new : D := ⟨false, false, none, []⟩

/-- The future of a drain becomes done. If the owner can not schedule its callbacks
`AttributeError` is raised, and the task which waits does not go on. -/
def D.wake (d : D) (raises : Bool) : D :=
  match d.waiter with
  | none => d
  | some (i, o) =>
    if o.schedules then { d with waiter := none, ended := d.ended ++ [(i, raises)] } else { d with waiter := none }

inductive DOp where
  /-- `_drain_helper` (`907-920`). -/
  | drain (i : Nat)
  /-- `pause_writing` (`853-860`). -/
  | pause
  /-- `resume_writing` (`863-876`). -/
  | resume
  /-- `_do_connection_lost` (`879-904`), with whether there is an exception. -/
  | lost (failed : Bool)
deriving DecidableEq, Repr

def dstep (d : D) : DOp → D
  | .drain i =>
    if d.connLost then { d with ended := d.ended ++ [(i, true)] }
    else if !d.paused then { d with ended := d.ended ++ [(i, false)] }
    else { d with waiter := some (i, .process) }
  | .pause => { d with paused := true }
  | .resume => D.wake { d with paused := false } false
  | .lost f =>
    let d := { d with connLost := true }
    if !d.paused then d else d.wake f

def drun (d : D) (l : List DOp) : D := l.foldl dstep d

/-! ### Data which arrives while the process is being connected -/

/-- `_do_pipe_data_received` and `_do_pipe_connection_lost`. -/
inductive Call where
  | data (fd : Nat) (d : List Nat)
  | lost (fd : Nat)
deriving DecidableEq, Repr

/-- `pending` is `_pending_calls`; `got` is what the readers of stdout and of stderr were
given, `ended` whether they were told of the end. -/
structure C where
  pending : Option (List Call)
  got1 : List Nat
  got2 : List Nat
  ended1 : Bool
  ended2 : Bool
deriving DecidableEq, Repr

def C.new : C := ⟨some [], [], [], false, false⟩

/-- `_do_pipe_data_received` (`527-559`), `_do_pipe_connection_lost` (`441-491`). -/
def C.call (c : C) : Call → C
  | .data fd d =>
    if fd = 1 then { c with got1 := c.got1 ++ d }
    else if fd = 2 then { c with got2 := c.got2 ++ d }
    else c
  | .lost fd =>
    if fd = 0 then c
    else if fd = 1 then { c with ended1 := true }
    else if fd = 2 then { c with ended2 := true }
    else c

inductive COp where
  /-- `_pipe_data_received` (`494-524`) and `_pipe_connection_lost` (`403-438`). -/
  | call (c : Call)
  /-- The end of `__new__` (`228-231`). -/
  | connected
deriving DecidableEq, Repr

def cstep (c : C) : COp → C
  | .call x => match c.pending with
    | none => c.call x
    | some l => { c with pending := some (l ++ [x]) }
  | .connected => match c.pending with
    | none => c
    | some l => { l.foldl C.call c with pending := none }

def crun (c : C) (l : List COp) : C := l.foldl cstep c

end Verif.Process
