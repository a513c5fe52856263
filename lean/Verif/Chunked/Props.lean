import Verif.Chunked.HexLemmas
/-! Property theorems C08, C09, C10. -/
namespace Verif.Chunked
open Verif.Stream

/-! ## C08 -/

/-- A history of body writes. -/
def writes (pieces : List (List Byte)) : List WOp := pieces.map .write

theorem run_writes (pieces : List (List Byte)) : ∀ (w : Writer), w.chunked = true → w.transport = true → w.closing = false →
    ∀ ops, ∃ enc, (∀ tail, decode lineSize (enc ++ tail) = (pieces.flatten ++ (decode lineSize tail).1, (decode lineSize tail).2)) ∧
      (w.run (writes pieces ++ ops)).1 = (({ w with out := w.out ++ enc } : Writer).run ops).1 ∧
      (w.run (writes pieces ++ ops)).2.take pieces.length = List.replicate pieces.length .ok := by
  induction pieces with
  | nil => intro w _ _ _ ops; exact ⟨[], by simp, by simp [writes], by simp⟩
  | cons p ps ih =>
    intro w h1 h2 h3 ops
    by_cases hp : p = []
    · subst hp
      obtain ⟨enc, i1, i2, i3⟩ := ih w h1 h2 h3 ops
      refine ⟨enc, by simpa using i1, ?_, ?_⟩
      · simp only [writes, List.map_cons, List.cons_append, Writer.run, Writer.step, if_true]
        exact i2
      · simp only [writes, List.map_cons, List.cons_append, Writer.run, Writer.step, if_true, List.length_cons,
          List.take_succ_cons, List.replicate_succ, List.cons.injEq, true_and]
        exact i3
    · let w' : Writer := { w with out := w.out ++ (toHex p.length ++ crlf ++ p ++ crlf) }
      obtain ⟨enc, i1, i2, i3⟩ := ih w' h1 h2 h3 ops
      have hstep : w.step (.write p) = (w', .ok) := by
        simp [Writer.step, hp, Writer.rawWrite, h1, h2, h3, w']
      refine ⟨toHex p.length ++ crlf ++ p ++ crlf ++ enc, ?_, ?_, ?_⟩
      · intro tail
        have := decode_frame p (enc ++ tail) hp
        rw [i1] at this
        simpa using this
      · simp only [writes, List.map_cons, List.cons_append, Writer.run, hstep]
        have : w'.out ++ enc = w.out ++ (toHex p.length ++ crlf ++ p ++ crlf ++ enc) := by simp [w']
        simp only [writes] at i2
        rw [i2, this]
      · simp only [writes, List.map_cons, List.cons_append, Writer.run, hstep, List.length_cons,
          List.take_succ_cons, List.replicate_succ, List.cons.injEq, true_and]
        exact i3

theorem run_after_eof (ops : List WOp) : ∀ w : Writer, w.atEof = true → w.transport = false → (w.run ops).1.out = w.out := by
  induction ops with
  | nil => intro w _ _; rfl
  | cons op ops ih =>
    intro w h1 h2
    have : ∀ w' o, w.step op = (w', o) → w'.atEof = true ∧ w'.transport = false ∧ w'.out = w.out := by
      intro w' o h
      cases op with
      | write c =>
        simp only [Writer.step, Writer.rawWrite, h2] at h
        split at h
        · simp at h; simp [← h.1, h1, h2]
        · simp at h; simp [← h.1, h1, h2]
      | writeEof c => simp [Writer.step, h1] at h; simp [← h.1, h1, h2]
      | close => simp [Writer.step] at h; simp [← h.1, h1, h2]
    match hs : w.step op with
    | (w', o) =>
      obtain ⟨a, b, c⟩ := this w' o hs
      simp only [Writer.run, hs]
      rw [ih w' a b, c]

/-- C08. Any writes (empty ones too), then the end of the body with a last piece, then anything else: what the reader decodes
from the produced bytes is the concatenation of the pieces, and the bytes following are left; a second end of body and later
calls change nothing. The bytes may arrive in any segmentation that does not cut a `\r\n` (see C09 for the reason). -/
theorem C08_round_trip (pieces : List (List Byte)) (last : List Byte) (more : List WOp) (rest : List Byte) (s : RState Byte)
    (hs : WF s) (hu : Uncut 13 10 s.chunks)
    (h : unread s = (({ chunked := true } : Writer).run (writes pieces ++ .writeEof last :: more)).1.out ++ rest) :
    outcome (readChunked s) = (pieces.flatten ++ last, some (.done rest)) := by
  rw [readChunked_refines s hs hu, h]
  obtain ⟨enc, i1, i2, _⟩ := run_writes pieces { chunked := true } rfl rfl rfl (.writeEof last :: more)
  rw [i2]
  by_cases hl : last = []
  · subst hl
    have hstep : ({ chunked := true, out := [] ++ enc } : Writer).step (.writeEof []) =
        ({ chunked := true, atEof := true, transport := false, out := enc ++ [48, 13, 10, 13, 10] }, .ok) := by
      simp [Writer.step, Writer.rawWrite]
    simp only [Writer.run, hstep]
    rw [run_after_eof _ _ rfl rfl]
    simp only [List.append_assoc, i1]
    rw [decode_end]
  · have hstep : ({ chunked := true, out := [] ++ enc } : Writer).step (.writeEof last) =
        ({ chunked := true, atEof := true, transport := false,
           out := enc ++ (toHex last.length ++ crlf ++ last ++ crlf ++ [48, 13, 10, 13, 10]) }, .ok) := by
      simp [Writer.step, Writer.rawWrite, hl, crlf]
    simp only [Writer.run, hstep]
    rw [run_after_eof _ _ rfl rfl, List.append_assoc, i1]
    rw [List.append_assoc _ [48, 13, 10, 13, 10] rest, decode_frame _ _ hl, decode_end]
    simp

/-- C08. The whole message in a single segment: no condition on the contents is left. -/
theorem C08_round_trip_single_segment (pieces : List (List Byte)) (last : List Byte) (more : List WOp) (rest : List Byte) :
    outcome (readChunked
      ⟨[(({ chunked := true } : Writer).run (writes pieces ++ .writeEof last :: more)).1.out ++ rest], 0, false⟩) =
      (pieces.flatten ++ last, some (.done rest)) := by
  apply C08_round_trip pieces last more rest
  · refine ⟨?_, ?_⟩
    · intro c hc
      simp at hc
      subst hc
      intro h0
      have hd := readChunked_refines ⟨[], 0, false⟩ ⟨by simp, rfl⟩ (by intro b c d a h; simp at h)
      have := C08_round_trip pieces last more rest ⟨[], 0, false⟩ ⟨by simp, rfl⟩ (by intro b c d a h; simp at h) (by
        rw [h0]; rfl)
      rw [hd] at this
      rw [show unread (⟨[], 0, false⟩ : RState Byte) = [] from rfl, decode_nil] at this
      simp at this
    · simp only
      apply List.length_pos_iff.mpr
      intro h0
      have hd := readChunked_refines ⟨[], 0, false⟩ ⟨by simp, rfl⟩ (by intro b c d a h; simp at h)
      have := C08_round_trip pieces last more rest ⟨[], 0, false⟩ ⟨by simp, rfl⟩ (by intro b c d a h; simp at h) (by
        rw [h0]; rfl)
      rw [hd] at this
      rw [show unread (⟨[], 0, false⟩ : RState Byte) = [] from rfl, decode_nil] at this
      simp at this
  · intro b c d a h
    have := congrArg List.length h
    simp at this
    omega
  · simp [unread]

/-- C08. Before the end of the body was written, no sequence of writes looks like a finished body: the reader gets all pieces
and then waits for more (it fails if the stream ends). -/
theorem C08_unfinished_body (pieces : List (List Byte)) (s : RState Byte) (hs : WF s) (hu : Uncut 13 10 s.chunks)
    (h : unread s = (({ chunked := true } : Writer).run (writes pieces)).1.out) :
    outcome (readChunked s) = (pieces.flatten, some .eof) := by
  rw [readChunked_refines s hs hu, h]
  obtain ⟨enc, i1, i2, _⟩ := run_writes pieces { chunked := true } rfl rfl rfl []
  simp only [List.append_nil] at i2
  rw [i2]
  have := i1 []
  simp only [List.append_nil, decode_nil] at this
  simp [Writer.run, this]

/-- C08. Without chunking the bytes are written as they are. -/
theorem C08_plain_body (pieces : List (List Byte)) (last : List Byte) (more : List WOp) :
    (({ chunked := false } : Writer).run (writes pieces ++ .writeEof last :: more)).1.out = pieces.flatten ++ last := by
  have gen : ∀ (w : Writer), w.chunked = false → w.transport = true → w.closing = false → w.atEof = false →
      (w.run (writes pieces ++ .writeEof last :: more)).1.out = w.out ++ (pieces.flatten ++ last) := by
    induction pieces with
    | nil =>
      intro w h1 h2 h3 h4
      simp only [writes, List.map_nil, List.nil_append, Writer.run]
      by_cases hl : last = []
      · subst hl
        simp only [Writer.step, h1, h4]
        simp only [Bool.false_eq_true, if_false, ne_eq, not_true_eq_false]
        rw [run_after_eof _ _ rfl rfl]; simp
      · simp only [Writer.step, h1, h4]
        simp only [Bool.false_eq_true, if_false, ne_eq, hl, not_false_eq_true, if_true, Writer.rawWrite, h2, h3]
        simp only [Bool.true_eq_false, or_self, if_false]
        rw [run_after_eof _ _ rfl rfl]; simp
    | cons p ps ih =>
      intro w h1 h2 h3 h4
      by_cases hp : p = []
      · subst hp
        simp only [writes, List.map_cons, List.cons_append, Writer.run, Writer.step, if_true]
        simpa [writes] using ih w h1 h2 h3 h4
      · have hstep : w.step (.write p) = ({ w with out := w.out ++ p }, .ok) := by
          simp [Writer.step, hp, Writer.rawWrite, h1, h2, h3]
        simp only [writes, List.map_cons, List.cons_append, Writer.run, hstep]
        have := ih { w with out := w.out ++ p } h1 h2 h3 h4
        simp only [writes] at this
        rw [this]; simp
  simpa using gen { chunked := false } rfl rfl rfl rfl

/-- Instance: pieces `ab`, empty, 17 bytes; the reader gets them in two segments. -/
example :
    let w := (({ chunked := true } : Writer).run [.write [97, 98], .write [], .write (List.replicate 17 120), .writeEof [99],
      .writeEof [100]]).1.out
    w = [50, 13, 10, 97, 98, 13, 10, 49, 49, 13, 10] ++ List.replicate 17 120 ++ [13, 10, 49, 13, 10, 99, 13, 10, 48, 13, 10, 13, 10] ∧
    outcome (readChunked ⟨[w.take 4, w.drop 4 ++ [1, 2]], 0, false⟩) =
      ([97, 98] ++ List.replicate 17 120 ++ [99], some (.done [1, 2])) := by decide +kernel

/-! ## C09 -/

/-- C09, full statement: the outcome only depends on the byte stream. -/
def SegmentationIndependent : Prop :=
  ∀ s t : RState Byte, WF s → WF t → unread s = unread t → outcome (readChunked s) = outcome (readChunked t)

/-- C09, proved part: two segmentations of the same stream (well formed or not) give the same decoded bytes, the same kind of
ending and the same remaining bytes, if none of them cuts a `\r\n`. Missing: segmentations which do; there the statement is
false, see `C09_violated`. -/
theorem C09_segmentation_independent_partial (s t : RState Byte) (hs : WF s) (ht : WF t) (hus : Uncut 13 10 s.chunks)
    (hut : Uncut 13 10 t.chunks) (h : unread s = unread t) : outcome (readChunked s) = outcome (readChunked t) := by
  rw [readChunked_refines s hs hus, readChunked_refines t ht hut, h]

/-- C09, proved part: under such segmentations the reader is a chunked decoder applied to the whole stream. -/
theorem C09_reader_is_decoder_partial (s : RState Byte) (hs : WF s) (hu : Uncut 13 10 s.chunks) :
    outcome (readChunked s) = ((decode lineSize (unread s)).1, some (decode lineSize (unread s)).2) :=
  readChunked_refines s hs hu

/-- `2\r\nab\r\n2\r` and `\ncd\r\n0\r\n\r\n`: the cut is inside of the second size line. -/
def cutStream : List (List Byte) :=
  [[50, 13, 10, 97, 98, 13, 10, 50, 13], [10, 99, 100, 13, 10, 48, 13, 10, 13, 10]]

/-- C09 is violated: a valid body cut inside the `\r\n` of its second size line is refused, uncut it is accepted. -/
theorem C09_violated :
    outcome (readChunked ⟨cutStream, 0, false⟩) = ([97, 98], some .payloadError) ∧
    outcome (readChunked ⟨[cutStream.flatten], 0, false⟩) = ([97, 98, 99, 100], some (.done [])) := by decide +kernel

theorem C09_full_violated : ¬ SegmentationIndependent := by
  intro h
  have := h ⟨cutStream, 0, false⟩ ⟨[cutStream.flatten], 0, false⟩ ⟨by simp [cutStream], by simp [cutStream]⟩
    ⟨by simp [cutStream], by simp [cutStream]⟩ (by simp [unread])
  rw [C09_violated.1, C09_violated.2] at this
  simp at this

/-! ## C10 -/

/-- C10, full statement: a size line is accepted only if it is a plain hexadecimal number. -/
def OnlyPlainHex : Prop := ∀ line v, lineSize line = some v → PlainHex (line.takeWhile (· ≠ 59))

/-- C10. Plain hexadecimal lines, with or without extension, are accepted with their positional value. -/
theorem C10_plain_accepted (digits ext : List Byte) (h : PlainHex digits) :
    lineSize digits = some (hexNumber digits : Int) ∧ lineSize (digits ++ 59 :: ext) = some (hexNumber digits : Int) := by
  refine ⟨lineSize_plain h, ?_⟩
  unfold lineSize
  rw [List.takeWhile_append_of_pos (fun b hb => by simp [(hex_props (h.2 b hb)).2.2.2.2.2.2.1])]
  simp [parse_plain h]

/-- C10 is violated: `-1`, `+1`, `0x1`, `1_0`, ` 1 ` are accepted as sizes. -/
theorem C10_lenient_violated :
    lineSize [45, 49] = some (-1) ∧ lineSize [43, 49] = some 1 ∧ lineSize [48, 120, 49] = some 1 ∧
    lineSize [49, 95, 48] = some 16 ∧ lineSize [32, 49, 32] = some 1 := by decide +kernel

theorem C10_full_violated : ¬ OnlyPlainHex := by
  intro h
  have := (h [43, 49] 1 C10_lenient_violated.2.1).2 43 (by decide +kernel)
  exact absurd this (by decide)

/-- C10 is violated at the reader: the body `0x2\r\nab\r\n0\r\n\r\n` is decoded, `-2\r\n...` is not refused. -/
theorem C10_reader_violated :
    outcome (readChunked ⟨[[48, 120, 50, 13, 10, 97, 98, 13, 10, 48, 13, 10, 13, 10]], 0, false⟩) =
      ([97, 98], some (.done [])) ∧
    outcome (readChunked ⟨[[45, 50, 13, 10, 97, 98, 13, 10, 48, 13, 10, 13, 10]], 0, false⟩) =
      ([], some .negative) := by decide +kernel

/-- C10, proved part: exactly which other shapes can be accepted. An accepted line consists of white space, a sign, a `0x`
prefix (maybe with an underscore), and hexadecimal digits with single underscores between them, and white space; the value is
the positional value of the digits. Missing: that only the digits part may be present. -/
theorem C10_accepted_shape_partial (line : List Byte) (v : Int) (h : parseInt16 line = some v) :
    ∃ ws sign pfx digits ws' : List Byte, line = ws ++ sign ++ pfx ++ digits ++ ws' ∧
      (∀ b ∈ ws, isSpace b = true) ∧ (∀ b ∈ ws', isSpace b = true) ∧
      sign ∈ [[], [43], [45]] ∧ pfx ∈ [[], [48, 120], [48, 88], [48, 120, 95], [48, 88, 95]] ∧
      (∀ b ∈ digits, IsHexDigit b ∨ b = 95) ∧ (∃ b ds, digits = b :: ds ∧ IsHexDigit b) ∧ digits.getLast? ≠ some 95 ∧
      ¬ [95, 95] <:+: digits ∧
      v = (if sign = [45] then -1 else 1) * (hexNumber (digits.filter (· ≠ 95)) : Int) := by
  unfold parseInt16 at h
  have h0 : ∃ ws, line = ws ++ line.dropWhile isSpace ∧ ∀ b ∈ ws, isSpace b = true :=
    ⟨line.takeWhile isSpace, (List.takeWhile_append_dropWhile).symm, fun b hb => by
      exact List.all_eq_true.mp List.all_takeWhile b hb⟩
  obtain ⟨ws, hws, hws2⟩ := h0
  generalize line.dropWhile isSpace = l0 at *
  have h1 : ∃ sign, l0 = sign ++ (scanSign l0).2 ∧ sign ∈ [[], [43], [45]] ∧ ((scanSign l0).1 = true ↔ sign = [45]) := by
    unfold scanSign
    split
    · exact ⟨[43], by simp⟩
    · exact ⟨[45], by simp⟩
    · exact ⟨[], by simp⟩
  obtain ⟨sign, hs1, hs2, hs3⟩ := h1
  generalize scanSign l0 = sg at *
  obtain ⟨neg, l1⟩ := sg
  simp only at h hs1 hs3
  have h2 : ∃ pfx, l1 = pfx ++ scanPrefix l1 ∧ pfx ∈ [[], [48, 120], [48, 88], [48, 120, 95], [48, 88, 95]] := by
    unfold scanPrefix
    split
    · split
      · rename_i x bs hx
        rcases hx with rfl | rfl
        all_goals split
        · exact ⟨[48, 120, 95], by simp⟩
        · exact ⟨[48, 120], by simp⟩
        · exact ⟨[48, 88, 95], by simp⟩
        · exact ⟨[48, 88], by simp⟩
      · exact ⟨[], by simp⟩
    · exact ⟨[], by simp⟩
  obtain ⟨pfx, hp1, hp2⟩ := h2
  generalize scanPrefix l1 = l2 at *
  match l2, h with
  | b :: l3, h =>
    simp only at h
    split at h
    · simp at h
    · rename_i w hw
      have hhex : IsHexDigit b := by
        by_cases hh : IsHexDigit b
        · exact hh
        · rw [hexVal_none hh] at hw; simp at hw
      split at h
      · simp at h
      · rename_i value rest hscan
        split at h
        · rename_i hall
          obtain ⟨ds, e1, e2, e3, e4, _, e6⟩ := scan_shape _ _ _ _ _ hscan
          refine ⟨ws, sign, pfx, ds, rest, ?_, hws2, List.all_eq_true.mp hall, hs2, hp2, e2, ?_, e4, e6, ?_⟩
          · rw [hws, hs1, hp1, e1]; simp
          · cases ds with
            | nil =>
              exfalso
              simp at e1
              unfold scanDigits at hscan
              rw [if_neg (hex_props hhex).1, hexVal_some hhex] at hscan
              simp only at hscan
              obtain ⟨ds', f1, _⟩ := scan_shape _ _ _ _ _ hscan
              have := congrArg List.length f1
              rw [← e1] at this
              simp at this
              omega
            | cons d ds => simp at e1; exact ⟨d, ds, rfl, e1.1 ▸ hhex⟩
          · simp at e3
            simp at h
            rw [← h]
            have hneg : neg = true ↔ sign = [45] := hs3
            by_cases hn : neg = true
            · simp [hn, hneg.mp hn, e3]
            · have : sign ≠ [45] := fun hh => hn (hneg.mpr hh)
              simp [hn, this, e3]
        · simp at h

/-- C10, proved part: a line with a byte which is neither a hexadecimal digit, nor white space, sign, underscore or `x` is
rejected; so is a line without hexadecimal digit (in particular the empty line). -/
theorem C10_rejected_partial (line : List Byte)
    (h : (∃ b ∈ line, ¬ IsHexDigit b ∧ isSpace b = false ∧ b ∉ [43, 45, 95, 88, 120]) ∨ ∀ b ∈ line, ¬ IsHexDigit b) :
    parseInt16 line = none := by
  match hv : parseInt16 line with
  | none => rfl
  | some v =>
    exfalso
    obtain ⟨ws, sign, pfx, digits, ws', h1, h2, h3, h4, h5, h6, ⟨d, ds, h7, h7'⟩, _⟩ := C10_accepted_shape_partial line v hv
    rcases h with ⟨b, hb, hb1, hb2, hb3⟩ | hb
    · rw [h1] at hb
      simp only [List.mem_append] at hb
      rcases hb with (((hb | hb) | hb) | hb) | hb
      · rw [h2 b hb] at hb2; simp at hb2
      · simp at h4; rcases h4 with rfl | rfl | rfl <;> simp_all
      · simp only [List.mem_cons, List.not_mem_nil, or_false] at h5
        rcases h5 with rfl | rfl | rfl | rfl | rfl
        · simp at hb
        all_goals
          simp only [List.mem_cons, List.not_mem_nil, or_false] at hb
          rcases hb with rfl | rfl | rfl
          all_goals first | exact absurd (by decide) hb1 | exact absurd (by decide) hb3
      · rcases h6 b hb with hh | rfl
        · exact hb1 hh
        · exact hb3 (by decide)
      · rw [h3 b hb] at hb2; simp at hb2
    · exact hb d (by rw [h1, h7]; simp) h7'

example : parseInt16 [49, 71] = none ∧ parseInt16 [] = none ∧ parseInt16 [49, 95, 95, 50] = none ∧ parseInt16 [48, 120] = none ∧
    parseInt16 [102, 70, 49] = some 4081 := by decide +kernel

end Verif.Chunked
