/-!
# Rendering of exceptions

Modelled code: `scarletio/utils/trace/trace.py` (`_produce_exception`, `_produce_exception_step`),
`scarletio/utils/trace/rendering.py` (`produce_frame_groups`, `produce_frame_group`),
`scarletio/utils/trace/frame_ignoring.py` and
`scarletio/utils/trace/frame_proxy/frame_proxying.py` (`populate_frame_proxies`).

Exceptions are numbers, what they refer to is given by a heap, so chains may be cyclic. What is yielded is a list of
parts; the traceback and representation of one exception are one part, titles are parts too, token types and the
highlighting are left out. Generators which may not end are run with fuel; `none`: not ended yet.
-/

namespace Verif.Rendering

/-- What is read of an exception; `group`: the causes if it is a `CauseGroup`. -/
structure Exc where
  cause : Option Nat := none
  context : Option Nat := none
  suppress : Bool := false
  group : Option (List Nat) := none

abbrev Heap := Nat → Exc

/-- `REASON_TYPE_*` (75–78). -/
inductive Reason
  | none
  | cause
  | context
  | group
  deriving DecidableEq

/-- What is yielded. -/
inductive Part
  /-- `Traceback (most recent call last):`, the frames and the representation of the exception. -/
  | traceback (e : Nat)
  /-- A line break between exceptions. -/
  | break_
  /-- `The above exception was the direct cause of the following exception:` -/
  | causeTitle
  /-- `During handling of the above exception another exception occurred:` -/
  | contextTitle
  /-- `The following {n} exceptions where the reason of the exception following them:` -/
  | groupTitle (n : Nat)
  /-- `[Exception {index}] ` -/
  | member (index : Nat)
  /-- `The above {n} exception was the direct cause of the following exception:` -/
  | groupEnd (n : Nat)
  deriving DecidableEq

/-- One turn of the collecting loop (176–196). -/
def next (h : Heap) (e : Nat) : Option (Nat × Reason) :=
  match (h e).cause with
  | some c => some (c, if (h c).group.isSome then .group else .cause)
  | none =>
    if !(h e).suppress then
      match (h e).context with
      | some c => some (c, .context)
      | none => none
    else none

/-- The collecting loop; `exceptions` without what was collected before. -/
def collect (h : Heap) : Nat → Nat → Reason → Option (List (Nat × Reason))
  | 0, _, _ => none
  | k + 1, e, r =>
    match next h e with
    | none => some [(e, r)]
    | some (e', r') =>
      match collect h k e' r' with
      | none => none
      | some l => some ((e, r) :: l)

/-- What a step yields: a part, or an exception back to the caller. -/
inductive Item
  | part (p : Part)
  | sub (e : Nat)

/-- The members of a cause group (205–211), from `index` on. -/
def members (length : Nat) : Nat → List Nat → List Item
  | _, [] => []
  | index, c :: cs =>
    [.part (.member index), .sub c] ++ (if index ≠ length then [.part .break_] else []) ++ members length (index + 1) cs

/-- The title below an exception (224–234). -/
def title (n : Nat) : Reason → List Item
  | .cause => [.part .causeTitle]
  | .context => [.part .contextTitle]
  | .group => [.part (.groupEnd n)]
  | .none => []

/-- The rendering loop over the reversed chain (199–241). -/
def script (h : Heap) : List (Nat × Reason) → List Item
  | [] => []
  | (e, r) :: l =>
    let n := ((h e).group.getD []).length
    if r = .group then
      [.part (.groupTitle n)] ++ members n 1 ((h e).group.getD []) ++ [.part .break_] ++ title n r ++ script h l
    else if r = .none then [.part (.traceback e)]
    else [.part (.traceback e), .part .break_] ++ title n r ++ script h l

/-- `_produce_exception` (117–148): the queue of steps, each with what it is about to yield. -/
def run (h : Heap) : Nat → List (List Item) → Option (List Part)
  | _, [] => some []
  | 0, _ :: _ => none
  | k + 1, [] :: queue => run h k queue
  | k + 1, (.part p :: rest) :: queue =>
    match run h k (rest :: queue) with
    | none => none
    | some ps => some (p :: ps)
  | k + 1, (.sub e :: rest) :: queue =>
    match collect h k e .none with
    | none => none
    | some l => run h k (script h l.reverse :: rest :: queue)

/-- `_produce_exception` of an exception. -/
def render (h : Heap) (k : Nat) (e : Nat) : Option (List Part) := run h k [[.sub e]]

/-! ## Frames -/

/-- What is yielded for groups of frames; a frame is one part. -/
inductive FramePart
  | frame (n : Nat)
  /-- `[Following {count} frames were repeated {times} times]` -/
  | repeated (count times : Nat)
  /-- `[End of repeated frames]` -/
  | stop
  deriving DecidableEq

/-- A frame group: its frames and how many times they are repeated. -/
structure Group where
  frames : List Nat
  times : Nat

/-- `produce_frame_group` (81–115 of rendering.py). -/
def produceGroup (g : Group) : List FramePart :=
  if g.times > 1 then [.repeated g.frames.length g.times] ++ g.frames.map .frame ++ [.stop] else g.frames.map .frame

/-- `produce_frame_groups` (34–51). -/
def produceGroups : List Group → List FramePart
  | [] => []
  | g :: gs => produceGroup g ++ produceGroups gs

/-! ## Ignored frames -/

/-- What identifies a frame: file name, name and line. -/
structure Place where
  file : Nat
  name : Nat
  line : Nat
  deriving DecidableEq

/-- `IGNORED_FRAME_LINES`: the keys in order of insertion, each with its set of lines. -/
abbrev Ignored := List ((Nat × Nat) × List Nat)

/-- Lookup in the dictionary. -/
def linesOf (key : Nat × Nat) : Ignored → Option (List Nat)
  | [] => none
  | (k, ls) :: d => if k = key then some ls else linesOf key d

/-- Adding a line to the set under a key which is there. -/
def addLine (key : Nat × Nat) (line : Nat) : Ignored → Ignored
  | [] => []
  | (k, ls) :: d => if k = key then (k, if line ∈ ls then ls else line :: ls) :: d else (k, ls) :: addLine key line d

/-- `ignore_frame` (13–34). -/
def ignore (d : Ignored) (p : Place) : Ignored :=
  match linesOf (p.file, p.name) d with
  | none => addLine (p.file, p.name) p.line (d ++ [((p.file, p.name), [])])
  | some _ => addLine (p.file, p.name) p.line d

/-- `should_keep_frame_from_defaults` (37–67); `enabled`: `DEFAULT_IGNORED_FRAMES`. -/
def keepDefault (enabled : Bool) (d : Ignored) (p : Place) : Bool :=
  if !enabled then true
  else
    match linesOf (p.file, p.name) d with
    | none => true
    | some ls => if p.line ∉ ls then true else false

/-- `should_keep_frame` (90–113). -/
def keep (enabled : Bool) (d : Ignored) (filter : Option (Place → Bool)) (p : Place) : Bool :=
  if !keepDefault enabled d p then false
  else
    match filter with
    | some f => if !f p then false else true
    | none => true

/-! ## Populating -/

/-- A frame proxy: its key and its expression info if it has one. -/
structure Frame where
  key : Nat
  info : Option Nat
  deriving DecidableEq

/-- The first loop (95–102): the infos known by key; `none` inside: to be looked up. -/
def known : List Frame → (Nat → Option (Option Nat)) → (Nat → Option (Option Nat))
  | [], d => d
  | f :: fs, d =>
    match f.info with
    | none => known fs fun k => if k = f.key then (match d k with | none => some none | some v => some v) else d k
    | some i => known fs fun k => if k = f.key then some (some i) else d k

/-- `populate_frame_proxies` (82–137); `get`: `get_expression_info`. Keys do not change meanwhile. -/
def populate (get : Nat → Nat) (fs : List Frame) : List Frame :=
  let d := known fs fun _ => none
  fs.map fun f => { f with info := some (match d f.key with | some (some i) => i | _ => get f.key) }

end Verif.Rendering
