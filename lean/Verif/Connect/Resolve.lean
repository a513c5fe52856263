/-!
# Lookups of hosts, shared by the requests

Model of `ConnectorTCP.get_resolve_host_waiter`, `ConnectorTCP.resolve_host` and `ConnectorTCP.close`,
`scarletio/http_client/connector_tcp.py`, with the first step of the task made for it, `Task._step` of
`scarletio/core/traps/task.py`.

Hosts with their ports are numbers, and so are the waiters, by the order in which they were made. What the lookup itself does
(`EventThread.get_address_info`) is not modelled: it ends in some way, or never. Lists of addresses are lists of numbers.
-/

namespace Verif.Connect

/-- A host and its port, the keys of `resolve_host_tasks_and_waiters` and of `host_info_basket_cache`. -/
abbrev Key := Nat

/-- How a lookup ends: the result given to the waiters, connector_tcp.py lines 154-171: `(basket, None)`, `(None, exception)`,
`(None, None)`. -/
inductive Outcome where
  | found (infos : List Nat)
  | failed (exception : Nat)
  | cancelled
  deriving DecidableEq

/-- A future made for a request. -/
inductive Status where
  | pending
  | done (o : Outcome)
  | dropped
  deriving DecidableEq

/-- How far a task got: it was not stepped yet, it was not stepped yet but is cancelled already (`FUTURE_STATE_CANCELLING_SELF`), its
coroutine waits for the lookup, it is over without its coroutine ever having been entered. -/
inductive Stage where
  | made
  | cancelling
  | running
  | dead
  deriving DecidableEq

/-- A value of `resolve_host_tasks_and_waiters`. -/
structure Job where
  stage : Stage
  waiters : List Nat

structure State where
  /-- `resolve_host_tasks_and_waiters` -/
  jobs : Key → Option Job := fun _ => none
  /-- `host_info_basket_cache` -/
  cache : Key → Option (List Nat) := fun _ => none
  /-- the futures made -/
  status : Nat → Status := fun _ => .pending
  /-- the count of the futures made -/
  made : Nat := 0

/-- What happens to a connector. -/
inductive Op where
  /-- a request asks for a host: `get_resolve_host_waiter` -/
  | ask (k : Key)
  /-- the event loop steps the task of the host for the first time -/
  | step (k : Key)
  /-- the lookup of the host ends -/
  | finish (k : Key) (o : Outcome)
  /-- whoever awaits a future is cancelled, and with it the future -/
  | drop (w : Nat)
  /-- `ConnectorTCP.close` -/
  | close
  deriving DecidableEq

/-- What can be seen of it. -/
inductive Out where
  /-- a task was made -/
  | began (k : Key)
  /-- a lookup ended, and its task with it -/
  | ended (k : Key)
  | nothing
  deriving DecidableEq

/-- `d[k] = v`, or `del d[k]` -/
def put {α : Type} (d : Nat → α) (k : Nat) (v : α) : Nat → α := fun x => if x = k then v else d x

/-- `get_resolve_host_waiter`, connector_tcp.py lines 200-210. -/
def ask (s : State) (k : Key) : State × Out :=
  match s.jobs k with
  | some j => ({ s with jobs := put s.jobs k (some { j with waiters := j.waiters ++ [s.made] }), made := s.made + 1 }, .nothing)
  | none => ({ s with jobs := put s.jobs k (some ⟨.made, [s.made]⟩), made := s.made + 1 }, .began k)

/-- The first `Task._step`, task.py lines 274-280: a cancelled task throws into its coroutine before it was entered, so that none of
`resolve_host` is run, not even its `finally`. -/
def first (s : State) (k : Key) : State :=
  match s.jobs k with
  | some ⟨.made, ws⟩ => { s with jobs := put s.jobs k (some ⟨.running, ws⟩) }
  | some ⟨.cancelling, ws⟩ => { s with jobs := put s.jobs k (some ⟨.dead, ws⟩) }
  | _ => s

/-- `waiter.set_result_if_pending(result)`, of all of the waiters, connector_tcp.py lines 179-180. -/
def answer (status : Nat → Status) (ws : List Nat) (o : Outcome) : Nat → Status :=
  fun w => if w ∈ ws ∧ status w = .pending then .done o else status w

/-- The end of `resolve_host`, connector_tcp.py lines 156-180. -/
def finish (s : State) (k : Key) (o : Outcome) : State × Out :=
  match s.jobs k with
  | some ⟨.running, ws⟩ =>
    ({ s with
      jobs := put s.jobs k none
      cache := match o with
        | .found infos => put s.cache k (some infos)
        | _ => s.cache
      status := answer s.status ws o }, .ended k)
  | _ => (s, .nothing)

/-- `Task.cancel`, task.py lines 116-130: of a task which was not stepped yet it is only noted. Of a running one the lookup is cancelled, which
ends by `finish`. -/
def Job.cancel (j : Job) : Job :=
  match j.stage with
  | .made => { j with stage := .cancelling }
  | _ => j

/-- `close`, connector_tcp.py lines 126-133. -/
def close (s : State) : State := { s with jobs := fun k => (s.jobs k).map Job.cancel }

/-- `Future.cancel` of a future which was made. -/
def drop (s : State) (w : Nat) : State :=
  if w < s.made ∧ s.status w = .pending then { s with status := put s.status w .dropped } else s

def step (s : State) : Op → State × Out
  | .ask k => ask s k
  | .step k => (first s k, .nothing)
  | .finish k o => finish s k o
  | .drop w => (drop s w, .nothing)
  | .close => (close s, .nothing)

/-- The states after some operations -/
def run (s : State) : List Op → State
  | [] => s
  | op :: ops => run (step s op).1 ops

/-- and what is seen of them. -/
def outs (s : State) : List Op → List Out
  | [] => []
  | op :: ops => (step s op).2 :: outs (step s op).1 ops

end Verif.Connect
