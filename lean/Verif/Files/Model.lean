/-!
# Infos of files, sessions of the line cache, alike exceptions

Modelled code: `get_file_info` (`scarletio/utils/trace/expression_parsing/file_info.py`, 187–235), `LineCacheSession`
(`line_cache_session.py`), `ExceptionProxyBase._is_alike` (`exception_proxy/exception_proxy_base.py`, 127–152),
`FrameGroup._is_alike`, `__len__`, `iter_frames` (`frame_group.py`, 111–186).
-/

namespace Verif.Files

/-! ## Infos of files -/

/-- The state. `cache`: `FILE_INFO_CACHE`, which holds its values weakly; `active`: `LINE_CACHE_SESSIONS`; `memo`: what each
session memorised; `held`: infos which anything else holds; `content`: that of each info, `none` for a dummy. -/
structure St where
  files : Nat → Option Nat := fun _ => none
  cache : Nat → Option Nat := fun _ => none
  next : Nat := 0
  content : Nat → Option Nat := fun _ => none
  active : List Nat := []
  memo : Nat → List Nat := fun _ => []
  held : List Nat := []

/-- What happens. -/
inductive Op
  | write (n : Nat) (c : Option Nat)
  | get (n : Nat)
  | hold (id : Nat)
  | release (id : Nat)
  | collect
  | enter (s : Nat)
  | exit (s : Nat)

/-- Whether something holds an info strongly. -/
def St.holds (s : St) (id : Nat) : Bool := s.held.contains id || s.active.any fun k => (s.memo k).contains id

/-- The end of `get_file_info` (230–235). -/
def St.put (s : St) (n id : Nat) : St :=
  { s with
    cache := fun m => if m = n then some id else s.cache m
    memo := fun k => if k ∈ s.active then id :: s.memo k else s.memo k }

/-- `get_file_info` (187–235): which info. -/
def St.get (s : St) (n : Nat) : St × Nat :=
  match s.cache n with
  | some id => (s.put n id, id)
  | none =>
    let id := s.next
    let s := { s with next := id + 1, content := fun k => if k = id then s.files n else s.content k }
    (s.put n id, id)

/-- One step; whether it raised. -/
def St.step (s : St) : Op → St × Bool
  | .write n c => ({ s with files := fun m => if m = n then c else s.files m }, false)
  | .get n => ((s.get n).1, false)
  | .hold id => ({ s with held := id :: s.held }, false)
  | .release id => ({ s with held := s.held.filter (· ≠ id) }, false)
  | .collect =>
    ({ s with cache := fun n => match s.cache n with | some id => if s.holds id then some id else none | none => none }, false)
  | .enter k => ({ s with active := if k ∈ s.active then s.active else k :: s.active }, false)
  | .exit k => if k ∈ s.active then ({ s with active := s.active.filter (· ≠ k) }, false) else (s, true)

/-- Many steps. -/
def St.run (s : St) (ops : List Op) : St := ops.foldl (fun s o => (s.step o).1) s

/-! ## Alike exceptions -/

/-- A group of frames, each given by its key, which is repeated. -/
structure Group where
  frames : List Nat
  count : Nat

/-- `__len__` (134–140). -/
def Group.len (g : Group) : Nat := g.frames.length * g.count

/-- `iter_frames` (172–185). -/
def Group.all (g : Group) : List Nat := (List.replicate g.count g.frames).flatten

/-- The loop over two iterators. -/
def zipAll {α : Type} (p : α → α → Bool) : List α → List α → Bool
  | a :: as, b :: bs => if p a b then zipAll p as bs else false
  | _, _ => true

/-- `FrameGroup._is_alike` (111–131). -/
def Group.alike (a b : Group) : Bool := if a.len ≠ b.len then false else zipAll (fun x y => x == y) a.all b.all

/-- The number of frames of an exception (84–86). -/
def total (l : List Group) : Nat := (l.map Group.len).sum

/-- `ExceptionProxyBase._is_alike` (127–152) of a representation and groups. -/
def alike (a b : Nat × List Group) : Bool :=
  if a.1 ≠ b.1 then false else if total a.2 ≠ total b.2 then false else zipAll Group.alike a.2 b.2

end Verif.Files
