/-! Model of the grouping of the frames of a traceback (`utils/trace/frame_grouping.py`, `frame_group.py`, `repeat_strategies.py`).

A frame proxy is its expression key (file name, line, name, instruction: `frame_proxy_base.py` 204-246; two frames are alike exactly if
their keys are equal) and its identity, which stands for everything else, like the variables. -/
namespace Verif.Frames

structure Frame where
  key : Nat
  id : Nat
deriving DecidableEq, Repr

/-- `FRAME_GROUP_TYPE_NONE`, `FRAME_GROUP_TYPE_SINGLES`, `FRAME_GROUP_TYPE_REPEAT` (frame_group.py 10-12). -/
inductive Kind where
  | none
  | singles
  | repeated
deriving DecidableEq, Repr

/-- `FrameGroup` (15-28); `frames = None` is the empty list. -/
structure Group where
  frames : List Frame
  count : Nat
  kind : Kind
deriving DecidableEq, Repr

/-- `FrameGroup.__new__` (30-38). -/
def Group.new : Group := ⟨[], 0, .none⟩

/-- `FrameGroup.iter_frames` (172-185). -/
def Group.expand (g : Group) : List Frame := (List.replicate g.count g.frames).flatten

/-- `_count_alikes` (frame_grouping.py 120-147): the `alike_count` of a frame. -/
def alikeCount (frames : List Frame) (f : Frame) : Nat := (frames.filter fun g => g.key = f.key).length

/-- `FrameGroup.try_add_frame` (frame_group.py 337-379). -/
def Group.tryAdd (alike : Frame → Nat) (g : Group) (f : Frame) : Option Group :=
  match g.kind with
  | .none => some ⟨[f], 1, if alike f > 1 then .repeated else .singles⟩
  | .singles => if alike f > 1 then none else some { g with frames := g.frames ++ [f] }
  | .repeated => if alike f ≤ 1 then none else some { g with frames := g.frames ++ [f] }

/-- The loop of `_group_frames_to_frame_groups` (frame_grouping.py 46-57), `g` is `frame_group`. -/
def groupLoop (alike : Frame → Nat) : Group → List Frame → List Group
  | g, [] => if g.kind ≠ .none then [g] else []
  | g, f :: fs =>
    match g.tryAdd alike f with
    | some g' => groupLoop alike g' fs
    | none => g :: groupLoop alike ((Group.new.tryAdd alike f).getD Group.new) fs

/-- `FrameGroup.try_merge` (frame_group.py 382-428). -/
def Group.tryMerge (g h : Group) : Option Group :=
  if g.count ≠ 1 ∨ h.count ≠ 1 then none
  else
    match g.kind, h.kind with
    | .singles, .singles => some { g with frames := g.frames ++ h.expand, kind := .singles }
    | .singles, .repeated => if h.frames.length ≤ 2 then some { g with frames := g.frames ++ h.expand, kind := .singles } else none
    | .repeated, .singles => if g.frames.length ≤ 2 then some { g with frames := g.frames ++ h.expand, kind := .singles } else none
    | _, _ => none

/-- The loop of `_merge_frame_groups` (frame_grouping.py 75-86), `g` is `frame_group_0`, which is the last of `outcome`. -/
def mergeLoop : Group → List Group → List Group
  | g, [] => [g]
  | g, h :: hs =>
    match g.tryMerge h with
    | some g' => mergeLoop g' hs
    | none => g :: mergeLoop h hs

/-- `_merge_frame_groups` (60-86). -/
def merge : List Group → List Group
  | [] => []
  | g :: gs => mergeLoop g gs

/-- Whether `items[start + shift] % items[other + shift]` for all `shift < size` (repeat_strategies.py 65-67). -/
def sameChunk (items : List Frame) (start other size : Nat) : Bool :=
  (List.range size).all fun shift => (items[start + shift]?.map Frame.key) == (items[other + shift]?.map Frame.key)

/-- The loop over `additional_element_index` of `get_repeat_with_strategy_bot` (63-71): how many chunks above `start` are alike, `position` starting
with `start`. -/
def countUp (items : List Frame) (start size : Nat) : Nat → Nat → Nat
  | 0, _ => 0
  | fuel + 1, position => if size ≤ position ∧ sameChunk items start (position - size) size then countUp items start size fuel (position - size) + 1 else 0

/-- The loop over `start_shift` (61-74), from `size + n - 1` down to `size`. -/
def botStarts (items : List Frame) (size : Nat) : Nat → Option (Nat × Nat × Nat)
  | 0 => none
  | n + 1 =>
    let r := countUp items (size + n) size items.length (size + n)
    if 2 ≤ r * size then some (size + n - size * r, size, r + 1) else botStarts items size n

/-- `get_repeat_with_strategy_bot` (38-74). -/
def repeatBot (items : List Frame) : Option (Nat × Nat × Nat) :=
  (List.range (items.length / 2)).findSome? fun i => botStarts items (i + 1) (items.length + 1 - 2 * (i + 1))

/-- The loop over `additional_element_index` of `get_repeat_with_strategy_top` (25-33). -/
def countDown (items : List Frame) (start size : Nat) : Nat → Nat → Nat
  | 0, _ => 0
  | fuel + 1, position =>
    if position + size + size ≤ items.length ∧ sameChunk items start (position + size) size then countDown items start size fuel (position + size) + 1 else 0

/-- The loop over `start_shift` (23-36), from `start` on. -/
def topStarts (items : List Frame) (size : Nat) : Nat → Nat → Option (Nat × Nat × Nat)
  | 0, _ => none
  | n + 1, start =>
    let r := countDown items start size items.length start
    if 2 ≤ r * size then some (start, size, r + 1) else topStarts items size n (start + 1)

/-- `get_repeat_with_strategy_top` (4-36). -/
def repeatTop (items : List Frame) : Option (Nat × Nat × Nat) :=
  (List.range (items.length / 2)).findSome? fun i => topStarts items (i + 1) (items.length - (i + 1) - 1) 0

/-- `FrameGroup.iter_separate_repeated` (frame_group.py 430-465). -/
def Group.separate (g : Group) : List (Bool × Group) :=
  if g.kind ≠ .repeated ∨ g.count > 1 then [(true, g)]
  else
    match repeatBot g.frames with
    | none => [(true, { g with kind := .singles })]
    | some (start, size, times) =>
      (if start > 0 then [(false, ⟨g.frames.take start, 1, .repeated⟩)] else []) ++ [(true, ⟨(g.frames.drop start).take size, times, .repeated⟩)] ++
      (if g.frames.length > start + size * times then [(false, ⟨g.frames.drop (start + size * times), 1, .repeated⟩)] else [])

/-- The loop of `_separate_repeats_in_frame_groups` (frame_grouping.py 106-117); the top of the stack is the head. `none` if the fuel is used up. -/
def separateLoop : Nat → List (Bool × Group) → Option (List Group)
  | _, [] => some []
  | 0, _ :: _ => none
  | fuel + 1, (true, g) :: todo => (separateLoop fuel todo).map (g :: ·)
  | fuel + 1, (false, g) :: todo => separateLoop fuel (g.separate ++ todo)

/-- `group_frames` (6-29), with fuel for the loop; no frames give `None`. -/
def groupFrames (fuel : Nat) (frames : List Frame) : Option (List Group) :=
  if frames = [] then some []
  else (separateLoop fuel ((merge (groupLoop (alikeCount frames) Group.new frames)).map fun g => (false, g))).map merge

/-- `FrameGroup.apply_frame_filter` (314-334), `drop_ignored_frames` (291-311). -/
def Group.filter (p : Frame → Bool) (g : Group) : Group :=
  let frames := g.frames.filter p
  if frames = [] then ⟨[], 0, .none⟩ else { g with frames := frames }

end Verif.Frames
