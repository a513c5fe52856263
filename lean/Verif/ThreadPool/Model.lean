/-!
# `Executor`, `ExecutorThread`, `ClaimedExecutor`

Model of `scarletio/core/event_loop/executor.py`: the threads in which an event loop runs blocking functions.

Threads, calls and `ClaimedExecutor` objects are numbered in the order in which they are created. A call is a function
together with the future which is returned for it (`ExecutionPair`, 661-691). Everything that belongs to the pool runs in
the thread of the event loop; the threads of the pool make steps of their own between any two of these. `SyncQueue` holds
its lock in every method (82-317, modelled in `Verif.SyncQueue`), so putting and getting are single steps here.

Simplified: `ExecutorThread.cancel` (460-470) is one step; the three values of `state` are one flag which says that the
thread was stopped (a thread that is stopped before its first instruction returns, here it ends at its first `fetch`);
the event loop does not stop (`call_soon_thread_safe` returns `None` then); times are tenths of a second.
-/

namespace Verif.ThreadPool

/-- Where a thread of the pool is in `run` (364-420). -/
inductive Pc where
  /-- at the head of the loop (374-376) -/
  | idle
  /-- blocked in `queue.get_result()` (378) -/
  | blocked
  /-- has got a pair (378), but did not look yet whether its future is done (383-385) -/
  | taken (n : Nat)
  /-- in `func()` (391) -/
  | running (n : Nat)
  /-- `run` returned -/
  | ended
deriving DecidableEq, Repr

structure Thread where
  /-- `queue._results`; `none` is the `None` which ends the thread -/
  queue : List (Option Nat) := []
  pc : Pc := .idle
  /-- `state == EXECUTOR_THREAD_STOPPED` -/
  stopped : Bool := false
deriving DecidableEq, Repr

/-- How a function ends. -/
inductive Raw where
  | value (v : Nat)
  | error (e : Nat)
  | stopIteration
deriving DecidableEq, Repr

/-- What a future is given. -/
inductive Outcome where
  | value (v : Nat)
  | error (e : Nat)
  /-- `RuntimeError` -/
  | runtime
deriving DecidableEq, Repr

inductive Stat where
  | pending
  | cancelled
  | done (o : Outcome)
deriving DecidableEq, Repr

/-- Handles in the `_ready` queue of the event loop. -/
inductive Cb where
  /-- `set_result_if_pending` / `set_exception_if_pending` (400, 404) -/
  | settle (n : Nat) (o : Outcome)
  /-- `future.cancel` (468) -/
  | cancel (n : Nat)
  /-- `ExecutionEndedCallback.__call__` (863-865) -/
  | doneCb (t : Nat)
  /-- `Executor._execution_ended` (865) -/
  | ended (t : Nat)
deriving DecidableEq, Repr

/-- The handle of `_release_executor_step`: when it is due, and its two parameters. -/
structure Timer where
  due : Nat
  scheduleTime : Nat
  interval : Nat
deriving DecidableEq, Repr

/-- What happens, seen from the outside. -/
inductive Event where
  /-- call `n` is put to the queue of thread `t` -/
  | submitted (t n : Nat)
  /-- thread `t` starts the function of call `n` -/
  | ran (t n : Nat)
  /-- the function of call `n` ends in thread `t` -/
  | returned (t n : Nat) (raw : Raw)
  /-- somebody cancels the future of call `n` -/
  | userCancel (n : Nat)
  /-- `cancel_executors` takes call `n` out of a queue -/
  | dropped (n : Nat)
  /-- the caller gets an exception (`AttributeError`, `RuntimeError`) -/
  | attributeError
  | runtimeError
deriving DecidableEq, Repr

structure State where
  /-- how many threads there are, and the threads -/
  count : Nat := 0
  thread : Nat → Thread := fun _ => {}
  /-- `free_executors`; the first of the list is the right end of the deque -/
  free : List Nat := []
  /-- `running_executors`, `claimed_executors` -/
  running : List Nat := []
  claimed : List Nat := []
  /-- `ClaimedExecutor.executor` of each of them -/
  handles : List (Option Nat) := []
  calls : Nat := 0
  fut : Nat → Stat := fun _ => .pending
  /-- the thread of the `ExecutionEndedCallback` of the future, if it has one -/
  home : Nat → Option Nat := fun _ => none
  /-- `_ready` of the event loop -/
  ready : List Cb := []
  now : Nat := 0
  /-- `_kept_executor_count`, `_kept_executor_last_schedule`, `_kept_executor_release_handle` -/
  kept : Nat := 0
  lastSchedule : Nat := 0
  timer : Option Timer := none

def upd {α : Type} (f : Nat → α) (i : Nat) (a : α) : Nat → α := fun j => if j = i then a else f j

/-- `EXECUTOR_RELEASE_INTERVAL` (27) -/
def interval : Nat := 6

/-- `queue.set_result` (118-134): a thread which waits gets the element at once. -/
def Thread.put (th : Thread) (x : Option Nat) : Thread :=
  match th.pc, x with
  | .blocked, some n => { th with pc := .taken n }
  | .blocked, none => { th with pc := .ended }
  | _, x => { th with queue := th.queue ++ [x] }

/-- `queue.get_result()` (154-177) at the head of the loop of `run` (374-381). -/
def Thread.fetch (th : Thread) : Thread :=
  if th.stopped then { th with pc := .ended } else
  match th.queue with
  | [] => { th with pc := .blocked }
  | none :: queue => { th with queue, pc := .ended }
  | some n :: queue => { th with queue, pc := .taken n }

/-- 392-404 -/
def deliver : Raw → Outcome
  | .value v => .value v
  | .error e => .error e
  | .stopIteration => .runtime

def State.put (s : State) (t : Nat) (x : Option Nat) : State :=
  { s with thread := upd s.thread t ((s.thread t).put x) }

/-- A future becomes done: `Future.set_*_if_pending`, `Future.cancel`. Its callbacks are put to the ready queue. -/
def State.settle (s : State) (n : Nat) (st : Stat) : State :=
  if s.fut n = .pending then
    { s with fut := upd s.fut n st, ready := s.ready ++ (s.home n).toList.map .doneCb }
  else s

/-- `_get_free_executor` (1112-1126) -/
def State.getFree (s : State) : State × Nat :=
  match s.free with
  | t :: free => ({ s with free }, t)
  | [] => ({ s with count := s.count + 1 }, s.count)

/-- `_sync_keep` (1147-1180). The `interval *= 2.0` (1168) is not used for anything. -/
def State.syncKeep (s : State) (t : Nat) : State :=
  let s := { s with free := t :: s.free }
  match s.timer with
  | some _ => s
  | none =>
    let used := s.running.length + 1
    { s with
      kept := if s.kept > 0 ∧ s.kept > used then s.kept else used
      lastSchedule := s.now
      timer := some ⟨s.now + interval, s.now, interval⟩ }

/-- `_release_executor_step` (1183-1232), without the reading of the handle -/
def State.releaseStep (s : State) (scheduleTime schedule : Nat) : State :=
  let last := s.lastSchedule
  let again (s : State) (schedule : Nat) : State :=
    { s with timer := some ⟨s.now + schedule, last, schedule⟩ }
  if last > scheduleTime then again s (schedule + interval)
  else
    match s.free with
    | [] => { s with timer := none }
    | t :: free =>
      let used := s.running.length + 1
      if s.kept > 0 ∧ used > s.kept then
        again { s with lastSchedule := s.now } (schedule + interval)
      else
        let s' := { s with free }.put t none
        if s.kept > 0 then again { s' with kept := s.kept - 1, lastSchedule := s.now } interval
        else again { s' with lastSchedule := s.now } schedule

/-- `ExecutorThread.release` (473-477) for each of some threads -/
def releaseList : List Nat → State → State
  | [], s => s
  | t :: ts, s => releaseList ts (s.put t none)

/--
The loop of `ExecutorThread.cancel` (466-468): the calls up to the first `None` are taken out. `None.future` raises; what
is behind it stays.
-/
def drain : List (Option Nat) → List Nat × Option (List (Option Nat))
  | [] => ([], none)
  | none :: rest => ([], some rest)
  | some n :: rest => (n :: (drain rest).1, (drain rest).2)

/-- `ExecutorThread.cancel` (460-470); whether it raised -/
def State.cancelThread (s : State) (t : Nat) : State × Bool :=
  let th := s.thread t
  let ready := s.ready ++ (drain th.queue).1.map .cancel
  match (drain th.queue).2 with
  | none => ({ s with thread := upd s.thread t ({ th with queue := [], stopped := true }.put none), ready }, false)
  | some rest => ({ s with thread := upd s.thread t { th with queue := rest, stopped := true }, ready }, true)

/-- `while executors: executors.pop().cancel()` (965-971); which threads are left over, and whether it raised -/
def cancelList : List Nat → State → State × List Nat × Bool
  | [], s => (s, [], false)
  | t :: ts, s =>
    if (s.cancelThread t).2 then ((s.cancelThread t).1, ts, true)
    else cancelList ts (s.cancelThread t).1

/-- `_reset_kept_executor_count` (1001-1010) -/
def State.resetKept (s : State) : State := { s with kept := 0, timer := none }

/-- `release_executors` (974-996) -/
def State.releaseAll (s : State) : State :=
  { releaseList s.claimed (releaseList s.running (releaseList s.free s.resetKept)) with
    free := [], running := [], claimed := [] }

/-- `cancel_executors` (950-971); whether it raised -/
def State.cancelAll (s : State) : State × Bool :=
  let s := { releaseList s.free s.resetKept with free := [] }
  let r := cancelList s.running s
  let s := { r.1 with running := r.2.1 }
  if r.2.2 then (s, true)
  else
    let r := cancelList s.claimed s
    ({ r.1 with claimed := r.2.1 }, r.2.2)

/-- The calls which wait in the queues of the threads in use -/
def State.queued (s : State) : List Nat := (s.running ++ s.claimed).flatMap fun t => (drain (s.thread t).queue).1

/-- A new call: its future, and the pair in the queue of the thread -/
def State.submit (s : State) (t : Nat) (home : Option Nat) : State :=
  { s.put t (some s.calls) with
    calls := s.calls + 1, fut := upd s.fut s.calls .pending, home := upd s.home s.calls home }

inductive Op where
  /-- `run_in_executor` (1037-1059) -/
  | run
  /-- `claim_executor` (1080-1091) -/
  | claim
  /-- `ClaimedExecutor.execute` (767-796), `.release` (799-823) of the `h`-th of them -/
  | execute (h : Nat)
  | release (h : Nat)
  /-- a step of thread `t`: it fetches the next pair; looks at its future and starts the function; the function ends -/
  | fetch (t : Nat)
  | start (t : Nat)
  | finish (t : Nat) (raw : Raw)
  /-- the event loop runs the next handle of its ready queue -/
  | loop
  /-- somebody cancels a future they got -/
  | cancel (n : Nat)
  /-- `cancel_executors`, `release_executors` -/
  | cancelAll
  | releaseAll
  /-- time passes -/
  | wait (d : Nat)
  /-- the event loop runs `_release_executor_step` if it is due -/
  | timer
deriving DecidableEq, Repr

/-- What the handle does -/
def State.runCb (s : State) : Cb → State
  | .settle n o => s.settle n (.done o)
  | .cancel n => s.settle n .cancelled
  -- 863-865
  | .doneCb t => { s with ready := s.ready ++ [.ended t] }
  -- 1062-1077
  | .ended t => if t ∈ s.running then ({ s with running := s.running.erase t }).syncKeep t else s

def State.stepFetch (s : State) (t : Nat) : State :=
  if t < s.count ∧ (s.thread t).pc = .idle then { s with thread := upd s.thread t (s.thread t).fetch } else s

def State.stepStart (s : State) (t : Nat) : State × List Event :=
  match (s.thread t).pc with
  | .taken n =>
    -- 384-386: a call whose future is done is skipped
    if s.fut n = .pending then
      ({ s with thread := upd s.thread t { s.thread t with pc := .running n } }, [.ran t n])
    else ({ s with thread := upd s.thread t { s.thread t with pc := .idle } }, [])
  | _ => (s, [])

def State.stepFinish (s : State) (t : Nat) (raw : Raw) : State × List Event :=
  match (s.thread t).pc with
  | .running n =>
    ({ s with
      thread := upd s.thread t { s.thread t with pc := .idle }
      ready := s.ready ++ [.settle n (deliver raw)] }, [.returned t n raw])
  | _ => (s, [])

/-- `ClaimedExecutor.execute` (767-796) -/
def State.stepExecute (s : State) (h : Nat) : State × List Event :=
  match s.handles[h]? with
  | some (some t) => (s.submit t none, [.submitted t s.calls])
  | some none => (s, [.runtimeError])
  | none => (s, [])

/--
`ClaimedExecutor.release` (799-823). `_shrink_queue` (480-493) asks the first *pair* of the queue `is_done()`, which
pairs do not have; so it raises unless the queue is empty, and nothing of 810-823 is done then.
-/
def State.stepRelease (s : State) (h : Nat) : State × List Event :=
  match s.handles[h]? with
  | some (some t) =>
    if (s.thread t).queue = [] then
      -- `_claim_ended` (1094-1109)
      let s' := if t ∈ s.claimed then ({ s with claimed := s.claimed.erase t }).syncKeep t else s
      ({ s' with handles := s.handles.set h none }, [])
    else (s, [.attributeError])
  | _ => (s, [])

def State.step (s : State) : Op → State × List Event
  | .run =>
    let (s, t) := s.getFree
    ({ s with running := t :: s.running }.submit t (some t), [.submitted t s.calls])
  | .claim =>
    let (s, t) := s.getFree
    ({ s with claimed := t :: s.claimed, handles := s.handles ++ [some t] }, [])
  | .execute h => s.stepExecute h
  | .release h => s.stepRelease h
  | .fetch t => (s.stepFetch t, [])
  | .start t => s.stepStart t
  | .finish t raw => s.stepFinish t raw
  | .loop =>
    match s.ready with
    | [] => (s, [])
    | cb :: ready => ({ s with ready }.runCb cb, [])
  | .cancel n => if n < s.calls then (s.settle n .cancelled, [.userCancel n]) else (s, [])
  | .cancelAll => (s.cancelAll.1, s.queued.map .dropped ++ if s.cancelAll.2 then [.attributeError] else [])
  | .releaseAll => (s.releaseAll, [])
  | .wait d => ({ s with now := s.now + d }, [])
  | .timer =>
    match s.timer with
    | none => (s, [])
    | some tm => if tm.due ≤ s.now then (s.releaseStep tm.scheduleTime tm.interval, []) else (s, [])

def State.runOps : State → List Op → State × List Event
  | s, [] => (s, [])
  | s, op :: ops => (((s.step op).1.runOps ops).1, (s.step op).2 ++ ((s.step op).1.runOps ops).2)

end Verif.ThreadPool
