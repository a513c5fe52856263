/-!
# The selector for Windows

Modelled code: `scarletio/core/event_loop/selector.py` (the whole file: `DefaultSelector._select`).

Descriptors are numbers. What the system says of a descriptor does not change during a call, and
timeouts are left out, as is that `select` without any descriptor raises. `select` of the system raises `ValueError` when it gets more than `limit`
descriptors in a list, and `OSError` when one of them is broken.
-/

namespace Verif.WinSelect

/-- What the system says of descriptors. -/
structure World where
  limit : Nat
  readable : Nat → Bool
  writable : Nat → Bool
  failed : Nat → Bool
  broken : Nat → Bool

inductive Err
  | value | os | key
  deriving DecidableEq, Repr

/-- What `select` gives back is what it was given: descriptors, or a socket. -/
inductive Item
  | fd (n : Nat) | socket (n : Nat)
  deriving DecidableEq, Repr

/-- `select` of the system for readers and writers; writers are given for failures too. -/
def sys (W : World) (rs ws : List Nat) : Except Err (List Nat × List Nat × List Nat) :=
  if W.limit < rs.length ∨ W.limit < ws.length then .error .value
  else if (rs ++ ws).any W.broken then .error .os
  else .ok (rs.filter W.readable, ws.filter W.writable, ws.filter W.failed)

abbrev Shard := List Nat × List Nat

/-- The loop over readers (38–47); `cur`: the shard which is filled, with `count` descriptors. -/
def shardReaders : List Nat → Shard → Nat → List Shard × Shard × Nat
  | [], cur, count => ([], cur, count)
  | f :: fs, cur, count =>
    if count = 500 then
      match shardReaders fs ([f], []) 1 with
      | (done, cur', count') => (cur :: done, cur', count')
    else shardReaders fs (cur.1 ++ [f], cur.2) (count + 1)

/-- The loop over writers (49–57). -/
def shardWriters : List Nat → Shard → Nat → List Shard
  | [], cur, _ => [cur]
  | f :: fs, cur, count =>
    if count = 500 then cur :: shardWriters fs ([], [f]) 1
    else shardWriters fs (cur.1, cur.2 ++ [f]) (count + 1)

def shards (rs ws : List Nat) : List Shard :=
  match shardReaders rs ([], []) 0 with
  | (done, cur, count) => done ++ shardWriters ws cur count

/-- What was collected, and which descriptors were unregistered. -/
structure Out where
  r : List Item := []
  w : List Nat := []
  gone : List Nat := []
  deriving DecidableEq, Repr

/-- Every reader is asked for alone (69–87, 134–154); `unregister` of it when that raises. -/
def probeReaders (W : World) : List Nat → Except Err (List Nat × List Nat)
  | [] => .ok ([], [])
  | f :: fs =>
    match sys W [f] [] with
    | .ok (r, _, _) =>
      match probeReaders W fs with
      | .ok (c, gone) => .ok (r ++ c, gone)
      | .error e => .error e
    | .error .os =>
      match probeReaders W fs with
      | .ok (c, gone) => .ok (c, f :: gone)
      | .error e => .error e
    | .error e => .error e

/-- Every writer is asked for alone (89–109, 156–178). -/
def probeWriters (W : World) : List Nat → Except Err (List Nat × List Nat)
  | [] => .ok ([], [])
  | f :: fs =>
    match sys W [] [f] with
    | .ok (_, w, x) =>
      match probeWriters W fs with
      | .ok (c, gone) => .ok ((if w ≠ [] then w else x) ++ c, gone)
      | .error e => .error e
    | .error .os =>
      match probeWriters W fs with
      | .ok (c, gone) => .ok (c, f :: gone)
      | .error e => .error e
    | .error e => .error e

/-- Readers, then writers. A writer which was unregistered as a reader already is asked for too; among
shards it is (89), else the set of writers lacks it, which makes no difference as it is broken. -/
def probe (W : World) (rs ws : List Nat) : Except Err Out :=
  match probeReaders W rs with
  | .error e => .error e
  | .ok (cr, gr) =>
    match probeWriters W ws with
    | .error e => .error e
    | .ok (cw, gw) => .ok ⟨cr.map .fd, cw, gr ++ gw⟩

/-- A shard (65–113). -/
def pollShard (W : World) (rs ws : List Nat) : Except Err Out :=
  match sys W rs ws with
  | .ok (r, w, x) => .ok ⟨r.map .fd, w ++ x, []⟩
  | .error .os => probe W rs ws
  | .error e => .error e

/-- The loop over shards (64–113). -/
def pollShards (W : World) : List Shard → Except Err Out
  | [] => .ok {}
  | (rs, ws) :: ss =>
    match pollShard W rs ws with
    | .error e => .error e
    | .ok o =>
      match pollShards W ss with
      | .error e => .error e
      | .ok o' => .ok ⟨o.r ++ o'.r, o.w ++ o'.w, o.gone ++ o'.gone⟩

/-- `_select` (26–188). `self`: the descriptor of the socket which wakes the loop up. -/
def select (W : World) (self : Nat) (rs ws : List Nat) : Except Err Out :=
  match sys W rs ws with
  | .ok (r, w, x) => .ok ⟨r.map .fd, w ++ x, []⟩
  | .error .value =>
    if self ∉ rs then .error .key
    else
      match pollShards W (shards (rs.erase self) ws) with
      | .error e => .error e
      | .ok o =>
        if o.r = [] ∧ o.w = [] then
          match sys W [self] [] with
          | .error e => .error e
          | .ok (r, _, _) => .ok { o with r := r.map .socket }
        else .ok o
  | .error _ =>
    match probe W rs ws with
    | .error e => .error e
    | .ok o =>
      if o.r ≠ [] ∨ o.w ≠ [] then .ok o
      else
        match sys W (rs.filter (· ∉ o.gone)) (ws.filter (· ∉ o.gone)) with
        | .error e => .error e
        | .ok (r, w, x) => .ok ⟨r.map .fd, w ++ x, o.gone⟩

end Verif.WinSelect
