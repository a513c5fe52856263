import Verif.Stream.Model
/-! Specification vocabulary for stream reading: only lists, no helper of the readers. -/
namespace Verif.Stream

variable {α : Type}

/-- The bytes received (or still to arrive) and not yet consumed. -/
def unread (s : RState α) : List α := s.chunks.flatten.drop s.offset

/-- States in which a protocol can be between two reads: no empty chunk is ever buffered (`data_received` 488-489), and the
offset points into the first chunk. -/
def WF (s : RState α) : Prop :=
  (∀ c ∈ s.chunks, c ≠ []) ∧
  match s.chunks with
  | [] => s.offset = 0
  | c :: _ => s.offset < c.length

/-- `b` occurs in `s` for the first time after `pre`, and `post` follows it. -/
def FirstOccurrence (b s pre post : List α) : Prop :=
  s = pre ++ b ++ post ∧ ∀ pre' post', s = pre' ++ b ++ post' → pre.length ≤ pre'.length

/-- A read succeeded with the bytes `data` and left `s'` behind. -/
def Returned (r : RRes α) (data : List α) (s' : RState α) : Prop :=
  ∃ out, r = .ok out s' ∧ out.flatten = data

/-- A read failed because the stream ended. -/
def Failed (r : RRes α) : Prop := ∃ out s', r = .eof out s'

/-- Segmentations on which `read_until` is right: every segment after the first is at least as long as the boundary (or the
boundary has at most two bytes); and the unread part `d` of the first segment contains the boundary, or no occurrence of the
boundary begins inside the first `offset` bytes of `d` and is cut by the end of `d`. -/
def GoodSegments (b : List α) (s : RState α) : Prop :=
  match s.chunks with
  | [] => True
  | c :: cs =>
    (∀ x ∈ cs, b.length ≤ x.length ∨ b.length ≤ 2) ∧
    (b <:+: c.drop s.offset ∨
      ∀ pre post, unread s = pre ++ b ++ post → pre.length < s.offset → pre.length < (c.drop s.offset).length →
        pre.length + b.length ≤ (c.drop s.offset).length)

/-- No segment border separates an `x` from a directly following `y`. -/
def Uncut (x y : α) (segments : List (List α)) : Prop :=
  ∀ before c d after, segments = before ++ c :: d :: after → ¬ (c.getLast? = some x ∧ d.head? = some y)

end Verif.Stream
