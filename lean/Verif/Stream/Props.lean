import Verif.Stream.UntilLemmas
/-! Property theorems C01, C02, C03. -/
namespace Verif.Stream
variable {α : Type}

/-! ## C01 -/

/-- C01. If at least `n` unconsumed bytes are received (now or later), reading exactly `n` bytes returns the first `n` of them
and leaves precisely the others, whatever the segmentation and the offset left by earlier reads. -/
theorem C01_read_exactly (s : RState α) (hs : WF s) (n : Nat) (hn : 0 < n) (hlen : n ≤ (unread s).length) :
    ∃ s', Returned (readExactly n s) ((unread s).take n) s' ∧ unread s' = (unread s).drop n ∧ WF s' := by
  obtain ⟨out, s', h1, h2, h3, h4, _⟩ := readExactly_ok s hs n hn hlen
  exact ⟨s', ⟨out, h1, h2⟩, h3, h4⟩

/-- C01. If fewer than `n` bytes arrive before the end of the stream the read fails; nothing is returned. -/
theorem C01_read_exactly_short (s : RState α) (hs : WF s) (n : Nat) (hlen : (unread s).length < n) :
    Failed (readExactly n s) := by
  obtain ⟨out, s', h1, _, _⟩ := readExactly_eof s hs n hlen
  exact ⟨out, s', h1⟩

/-- C01. The returned bytes depend only on the byte stream, not on its segmentation. -/
theorem C01_segmentation_independent (s t : RState α) (hs : WF s) (ht : WF t) (h : unread s = unread t) (n : Nat)
    (hn : 0 < n) :
    (Failed (readExactly n s) ∧ Failed (readExactly n t)) ∨
    ∃ data s' t', Returned (readExactly n s) data s' ∧ Returned (readExactly n t) data t' ∧ unread s' = unread t' := by
  by_cases hlen : n ≤ (unread s).length
  · obtain ⟨s', h1, h2, _⟩ := C01_read_exactly s hs n hn hlen
    obtain ⟨t', h3, h4, _⟩ := C01_read_exactly t ht n hn (h ▸ hlen)
    exact .inr ⟨_, s', t', h1, by rw [h]; exact h3, by rw [h2, h4, h]⟩
  · exact .inl ⟨C01_read_exactly_short s hs n (by omega), C01_read_exactly_short t ht n (by rw [← h]; omega)⟩

/-- Issues a list of `read_exactly` calls one after the other, collecting what they return; `none` if one fails. -/
def readAll : List Nat → RState α → Option (List (List α) × RState α)
  | [], s => some ([], s)
  | n :: ns, s =>
    match readExactly n s with
    | .ok out s' => (readAll ns s').map (fun (rs, s'') => (out.flatten :: rs, s''))
    | .eof _ _ => none

/-- C01. Any sequence of exact reads returns consecutive pieces: their concatenation is the beginning of the stream, each has
the requested length, and what remains is the rest of the stream. -/
theorem C01_read_sequence (ns : List Nat) (hns : ∀ n ∈ ns, 0 < n) : ∀ (s : RState α), WF s → ns.sum ≤ (unread s).length →
    ∃ rs s', readAll ns s = some (rs, s') ∧ rs.map List.length = ns ∧ rs.flatten ++ unread s' = unread s ∧ WF s' := by
  induction ns with
  | nil => intro s hs _; exact ⟨[], s, rfl, rfl, rfl, hs⟩
  | cons n ns ih =>
    intro s hs hlen
    simp only [List.sum_cons] at hlen
    obtain ⟨out, s1, h1, h2, h3, h4, _⟩ := readExactly_ok s hs n (hns n (by simp)) (by omega)
    obtain ⟨rs, s2, e1, e2, e3, e4⟩ := ih (fun m hm => hns m (List.mem_cons_of_mem _ hm)) s1 h4 (by
      rw [h3]; simp; omega)
    refine ⟨out.flatten :: rs, s2, by simp [readAll, h1, e1], ?_, ?_, e4⟩
    · simp only [List.map_cons, h2, e2]
      congr 1
      simp; omega
    · simp only [List.flatten_cons, List.append_assoc, e3, h3, h2, List.take_append_drop]

/-- C01 instance: five bytes across three segments, starting inside the first one. -/
example : readExactly 5 ⟨[[1, 2, 3], [4, 5], [6, 7, 8]], 1, false⟩ =
    .ok [[2, 3], [4, 5], [6]] (⟨[[6, 7, 8]], 1, false⟩ : RState Nat) := by decide

example : WF (⟨[[1, 2, 3], [4, 5], [6, 7, 8]], 1, false⟩ : RState Nat) := by
  refine ⟨by simp, ?_⟩; simp

/-! ## C02 -/

variable [DecidableEq α]

/-- C02 (full statement): reading until a boundary splits the stream at its first occurrence for every segmentation. -/
def ReadUntilCorrect (α : Type) [DecidableEq α] : Prop :=
  ∀ (b : List α) (s : RState α), b ≠ [] → WF s → ∀ pre post, FirstOccurrence b (unread s) pre post →
    ∃ s', Returned (readUntil b s) pre s' ∧ unread s' = post ∧ WF s'

/-- C02, proved part: the statement holds if the segmentation is `GoodSegments`, that is: if every segment after the first is
at least as long as the boundary (or the boundary has at most 2 bytes), and the unread part of the first segment contains the
boundary or does not end with the beginning of a boundary that starts within `offset` bytes.
Missing: other segmentations - there the code is wrong, see the `C02_*_violated` theorems. -/
theorem C02_read_until_partial (b : List α) (s : RState α) (hb : b ≠ []) (hs : WF s) (hg : GoodSegments b s)
    (pre post : List α) (h : FirstOccurrence b (unread s) pre post) :
    ∃ s', Returned (readUntil b s) pre s' ∧ unread s' = post ∧ WF s' := by
  obtain ⟨hf, hpre, hpost⟩ := first_iff.mp h
  obtain ⟨out, s', h1, h2, h3, h4, _⟩ := (readUntil_achieves hb s hs hg).1 _ hf
  exact ⟨s', ⟨out, h1, by rw [h2, ← hpre]⟩, by rw [h3, ← hpost], h4⟩

/-- C02, proved part: for boundaries of one or two bytes (such as `\r\n`) read from the start of a segment, every segmentation
works. -/
theorem C02_short_boundary_partial (b : List α) (s : RState α) (hb : b ≠ []) (hb2 : b.length ≤ 2) (hs : WF s)
    (h0 : s.offset = 0) (pre post : List α) (h : FirstOccurrence b (unread s) pre post) :
    ∃ s', Returned (readUntil b s) pre s' ∧ unread s' = post ∧ WF s' := by
  refine C02_read_until_partial b s hb hs ?_ pre post h
  unfold GoodSegments
  split
  · trivial
  · exact ⟨fun _ _ => .inr hb2, .inr (fun pre _ _ h => by omega)⟩

/-- C02, proved part: a two byte boundary (such as `\r\n`) is found at every offset and under every segmentation which does not
cut between its two bytes. -/
theorem C02_uncut_pair_partial (x y : α) (s : RState α) (hs : WF s) (hu : Uncut x y s.chunks)
    (pre post : List α) (h : FirstOccurrence [x, y] (unread s) pre post) :
    ∃ s', Returned (readUntil [x, y] s) pre s' ∧ unread s' = post ∧ WF s' :=
  C02_read_until_partial [x, y] s (by simp) hs (uncut_good hs hu) pre post h

/-- C02, proved part: a boundary of a single byte is found under every segmentation and at every offset. -/
theorem C02_single_byte_boundary (x : α) (s : RState α) (hs : WF s)
    (pre post : List α) (h : FirstOccurrence [x] (unread s) pre post) :
    ∃ s', Returned (readUntil [x] s) pre s' ∧ unread s' = post ∧ WF s' := by
  refine C02_read_until_partial [x] s (by simp) hs ?_ pre post h
  unfold GoodSegments
  split
  · trivial
  · exact ⟨fun _ _ => .inr (by simp), .inr (fun pre _ _ _ h => by simp at h ⊢; omega)⟩

/-- C02, proved part: without the boundary in the stream the read fails at the end of the stream instead of returning. -/
theorem C02_missing_boundary_partial (b : List α) (s : RState α) (hb : b ≠ []) (hs : WF s) (hg : GoodSegments b s)
    (h : ¬ b <:+: unread s) : Failed (readUntil b s) := by
  apply (readUntil_achieves hb s hs hg).2
  intro i hocc
  apply h
  obtain ⟨t, ht⟩ := hocc
  exact ⟨(unread s).take i, t, by rw [List.append_assoc, ht, List.take_append_drop]⟩

/-- C02 instance: `\r\n` cut between two segments. -/
example : readUntil [13, 10] ⟨[[65, 13], [10, 66]], 0, false⟩ = .ok [[65]] (⟨[[10, 66]], 1, false⟩ : RState Nat) := by decide

omit [DecidableEq α] in
theorem releaseLoop_spec (held : List (List α)) : ∀ amount, 0 < amount → amount ≤ held.flatten.length →
    (releaseLoop amount held).1.flatten = held.flatten.take amount ∧
    (releaseLoop amount held).2.flatten = held.flatten.drop amount := by
  induction held with
  | nil => intro amount h h'; simp at h'; omega
  | cons c held ih =>
    intro amount h h'
    simp only [List.flatten_cons, List.length_append] at h'
    unfold releaseLoop
    by_cases h1 : c.length < amount
    · obtain ⟨i1, i2⟩ := ih (amount - c.length) (by omega) (by omega)
      simp only [h1, if_true, List.flatten_cons, i1, i2]
      rw [List.take_append, List.take_of_length_le (by omega : c.length ≤ amount), List.drop_append,
        List.drop_of_length_le (by omega : c.length ≤ amount)]
      simp
    · simp only [h1, if_false]
      by_cases h2 : amount < c.length
      · simp only [h2, if_true, List.flatten_cons, List.flatten_nil, List.append_nil]
        rw [List.take_append_of_le_length (by omega), List.drop_append_of_le_length (by omega)]
        exact ⟨rfl, rfl⟩
      · have h3 : amount = c.length := by omega
        subst h3
        simp

omit [DecidableEq α] in
/-- C02, proved part, for the bytes held back because they may begin a boundary: however they are spread over segments, when
at most `keep` of them may still belong to a boundary, exactly the others are released, in order, and none is lost. -/
theorem C02_held_back_partial (held : List (List α)) (keep : Int) :
    (releaseHeld held keep).1.flatten = held.flatten.take (held.flatten.length - keep.toNat) ∧
    (releaseHeld held keep).1.flatten ++ (releaseHeld held keep).2.flatten = held.flatten := by
  unfold releaseHeld
  by_cases h : keep ≤ 0
  · simp only [h, if_true, show keep.toNat = 0 by omega, Nat.sub_zero, List.take_length]; simp
  · simp only [h, if_false]
    rw [← List.length_flatten]
    by_cases h1 : (held.flatten.length : Int) - keep ≤ 0
    · simp only [h1, if_true, show held.flatten.length - keep.toNat = 0 by omega]; simp
    · simp only [h1, if_false]
      obtain ⟨a, b⟩ := releaseLoop_spec held ((held.flatten.length : Int) - keep).toNat (by omega) (by omega)
      rw [a, b, show ((held.flatten.length : Int) - keep).toNat = held.flatten.length - keep.toNat by omega]
      simp

example : releaseHeld [[1], [2, 3], [4, 5]] 3 = ([[1], [2]], [[3], [4, 5]]) := by decide

/-- C02 is violated: when a read starts at a non-zero offset, a boundary cut by a segment border is overlooked, because the
offset is applied twice (protocol.py 1039-1040). Here `A\r\n B\r | \n C\r\n` is read from offset 3 (after the first line). -/
theorem C02_offset_violated :
    let s : RState Nat := ⟨[[65, 13, 10, 66, 13], [10, 67, 13, 10]], 3, false⟩
    WF s ∧ FirstOccurrence [13, 10] (unread s) [66] [67, 13, 10] ∧
    readUntil [13, 10] s = .ok [[66, 13], [10, 67]] ⟨[], 0, false⟩ := by
  refine ⟨⟨by simp, by simp⟩, ?_, by decide⟩
  rw [first_iff]
  refine ⟨⟨⟨[67, 13, 10], by decide⟩, ?_⟩, by decide, by decide⟩
  intro j hj
  have : j = 0 := by simp at hj; omega
  subst this
  intro ⟨t, ht⟩
  simp [unread] at ht

/-- C02 is violated: segments shorter than the boundary make held back bytes disappear (protocol.py 1004-1019).
`A\r`, `B`, `C\r\n\r\n` read until `\r\n\r\n` gives `AC` instead of `A\rBC`. -/
theorem C02_small_segment_violated :
    let s : RState Nat := ⟨[[65, 13], [66], [67, 13, 10, 13, 10]], 0, false⟩
    WF s ∧ unread s = [65, 13, 66, 67] ++ [13, 10, 13, 10] ∧
    readUntil [13, 10, 13, 10] s = .ok [[65], [67]] ⟨[], 0, false⟩ := by
  refine ⟨⟨by simp, by simp⟩, by decide, by decide⟩

/-- C02 is violated: if the boundary ends exactly at the end of a segment and starts at a later partial match, the bytes before
it are dropped (protocol.py 984-989). `aa`, `ab` read until `aab` gives nothing instead of `a`. -/
theorem C02_exact_end_violated :
    let s : RState Nat := ⟨[[97, 97], [97, 98]], 0, false⟩
    WF s ∧ unread s = [97] ++ [97, 97, 98] ∧ readUntil [97, 97, 98] s = .ok [] ⟨[], 0, false⟩ := by
  refine ⟨⟨by simp, by simp⟩, by decide, by decide⟩

/-- Hence the full statement of C02 is false for the code. -/
theorem C02_full_violated : ¬ ReadUntilCorrect Nat := by
  intro h
  obtain ⟨h1, h2, h3⟩ := C02_offset_violated
  obtain ⟨s', ⟨out, e1, e2⟩, _⟩ := h _ _ (by simp) h1 _ _ h2
  rw [h3] at e1
  injection e1 with e1 e3
  rw [← e1] at e2
  simp at e2

/-! ## C03 -/

omit [DecidableEq α] in
/-- C03. Reading until the end of the stream returns all unconsumed bytes and leaves nothing. -/
theorem C03_read_until_eof (s : RState α) (hs : WF s) :
    (readUntilEof s).1.flatten = unread s ∧ unread (readUntilEof s).2 = [] ∧ WF (readUntilEof s).2 := by
  obtain ⟨chunks, offset, atEof⟩ := s
  cases chunks with
  | nil => exact ⟨by simp [readUntilEof, unread], by simp [readUntilEof, unread], by simp [readUntilEof], rfl⟩
  | cons c cs =>
    have hoff : offset < c.length := hs.2
    refine ⟨?_, by simp [readUntilEof, unread], by simp [readUntilEof], rfl⟩
    simp only [readUntilEof, unread, List.flatten_cons]
    rw [List.drop_append_of_le_length (by omega)]
    split
    · rename_i h; simp [h]
    · rfl

omit [DecidableEq α] in
/-- C03. Mixed with exact reads: whatever was read exactly before, `read_until_eof` returns all the rest. -/
theorem C03_after_exact_reads (ns : List Nat) (hns : ∀ n ∈ ns, 0 < n) (s : RState α) (hs : WF s)
    (hlen : ns.sum ≤ (unread s).length) :
    ∃ rs s', readAll ns s = some (rs, s') ∧ rs.flatten ++ (readUntilEof s').1.flatten = unread s := by
  obtain ⟨rs, s', h1, _, h3, h4⟩ := C01_read_sequence ns hns s hs hlen
  exact ⟨rs, s', h1, by rw [(C03_read_until_eof s' h4).1, h3]⟩

omit [DecidableEq α] in
/-- `read_once` returns the next piece: a non-empty beginning of the unconsumed stream, leaving the rest. -/
theorem C03_read_once (s : RState α) (hs : WF s) (hne : unread s ≠ []) :
    (readOnce s).1.flatten ≠ [] ∧ (readOnce s).1.flatten ++ unread (readOnce s).2 = unread s ∧ WF (readOnce s).2 := by
  obtain ⟨chunks, offset, atEof⟩ := s
  cases chunks with
  | nil => simp [unread] at hne
  | cons c cs =>
    have hoff : offset < c.length := hs.2
    have hd : (if offset = 0 then c else c.drop offset) = c.drop offset := by
      split
      · rename_i h; simp [h]
      · rfl
    refine ⟨?_, ?_, WF_tail hs.1 _⟩
    · simp only [readOnce, hd]
      intro h0
      have := congrArg List.length h0
      simp at this; omega
    · simp only [readOnce, hd, unread, List.flatten_cons]
      rw [List.drop_append_of_le_length (by omega)]
      simp

example : readUntilEof ⟨[[1, 2, 3], [4]], 2, true⟩ = ([[3], [4]], (⟨[], 0, true⟩ : RState Nat)) := by decide

/-! ## Offset left behind at the end of the stream -/

/-- `get_size` (protocol.py 386-402) without payload stream. -/
def getSize (s : RState α) : Int := (s.chunks.map List.length).sum - (s.offset : Int)

omit [DecidableEq α] in
/-- C01: after every successful exact read the reported size is the number of unconsumed bytes. -/
theorem C01_size_after_read (s : RState α) (hs : WF s) : getSize s = (unread s).length := by
  obtain ⟨chunks, offset, atEof⟩ := s
  cases chunks with
  | nil => have : offset = 0 := hs.2; simp [getSize, unread, this]
  | cons c cs =>
    have hoff : offset < c.length := hs.2
    simp [getSize, unread, List.length_flatten]
    omega

/-- The reported size is wrong (negative) after a read which began inside a segment failed because EOF arrived while it was
waiting (protocol.py 860-862, 872: the offset is not reset). -/
theorem C01_size_after_eof_violated :
    ∃ s : RState Nat, WF s ∧ ∃ out s', readExactly 5 s = .eof out s' ∧ getSize s' < 0 :=
  ⟨⟨[[1, 2, 3]], 1, false⟩, ⟨by simp, by simp⟩, [[2, 3]], ⟨[], 1, true⟩, by decide, by decide⟩

end Verif.Stream
