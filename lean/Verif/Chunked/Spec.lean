import Verif.Chunked.Model
/-! Specification vocabulary for chunked transfer coding. -/
namespace Verif.Chunked
open Verif.Stream

/-- Splitting at the first `\r\n`. -/
def splitLine : List Byte → Option (List Byte × List Byte)
  | [] => none
  | [_] => none
  | a :: b :: rest =>
    if a = 13 ∧ b = 10 then some ([], rest)
    else (splitLine (b :: rest)).map (fun (l, r) => (a :: l, r))

theorem splitLine_length : ∀ (s l r : List Byte), splitLine s = some (l, r) → s.length = l.length + 2 + r.length
  | [], _, _, h => by simp [splitLine] at h
  | [_], _, _, h => by simp [splitLine] at h
  | a :: b :: rest, l, r, h => by
    unfold splitLine at h
    split at h
    · simp at h; obtain ⟨rfl, rfl⟩ := h; simp; omega
    · match hs : splitLine (b :: rest) with
      | none => rw [hs] at h; simp at h
      | some (l', r') =>
        rw [hs] at h; simp at h
        obtain ⟨rfl, rfl⟩ := h
        have := splitLine_length _ _ _ hs
        simp at this ⊢; omega

inductive End where
  | done (rest : List Byte) | payloadError | eof | negative
deriving DecidableEq, Repr

/-- A chunked decoder on the whole byte stream, with the size line grammar as parameter: the decoded bytes and how it ended. -/
def decode (sizeOf : List Byte → Option Int) (s : List Byte) : List Byte × End :=
  match _h : splitLine s with
  | none => ([], .eof)
  | some (line, post) =>
    match sizeOf line with
    | none => ([], .payloadError)
    | some size =>
      let n := size.toNat
      if size < 0 then ([], .negative)
      else if size = 0 then
        if post.length < 2 then ([], .eof)
        else if post.take 2 = [13, 10] then ([], .done (post.drop 2))
        else ([], .payloadError)
      else if post.length < n then (post, .eof)
      else if (post.drop n).length < 2 then (post.take n, .eof)
      else if (post.drop n).take 2 = [13, 10] then
        let r := decode sizeOf (post.drop (n + 2))
        (post.take n ++ r.1, r.2)
      else (post.take n, .payloadError)
termination_by s.length
decreasing_by have := splitLine_length _ _ _ _h; simp; omega

/-- The outcome of the model described like the outcome of `decode`. -/
def outcome : ChunkedRes → List Byte × Option End
  | .done out s => (out.flatten, some (.done (unread s)))
  | .payloadError out => (out.flatten, some .payloadError)
  | .eof out => (out.flatten, some .eof)
  | .negative out => (out.flatten, some .negative)
  | .stuck => ([], none)

/-- What the code takes as the size of a line. -/
def lineSize (line : List Byte) : Option Int := parseInt16 (line.takeWhile (· ≠ 59))

/-- Lines with plain hexadecimal numbers (one or more digits). -/
def IsHexDigit (b : Byte) : Prop := (48 ≤ b.toNat ∧ b.toNat ≤ 57) ∨ (65 ≤ b.toNat ∧ b.toNat ≤ 70) ∨ (97 ≤ b.toNat ∧ b.toNat ≤ 102)

def PlainHex (line : List Byte) : Prop := line ≠ [] ∧ ∀ b ∈ line, IsHexDigit b

/-- Value of a hexadecimal digit, and of a sequence of digits by positional notation. -/
def digitValue (b : Byte) : Nat := if b.toNat ≤ 57 then b.toNat - 48 else if b.toNat ≤ 70 then b.toNat - 55 else b.toNat - 87

def hexNumber : List Byte → Nat
  | [] => 0
  | b :: bs => digitValue b * 16 ^ bs.length + hexNumber bs

/-- The pieces of body data in a history of writer calls, up to the end of the body. -/
def bodyOf : List WOp → List Byte
  | [] => []
  | .write c :: ops => c ++ bodyOf ops
  | .writeEof c :: _ => c
  | .close :: ops => bodyOf ops

end Verif.Chunked
