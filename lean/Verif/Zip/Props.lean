import Verif.Zip.Spec
/-! Properties C157 to C160 of zip streaming. -/
namespace Verif.Zip
open Spec (lit bytes int value then' Entry Central readZip central centrals entry contents deflated stored expected)

/-! ## Packing and parsing -/

theorem length_le (n v : Nat) : (le n v).length = n := by
  induction n generalizing v with
  | zero => rfl
  | succ n ih => simp [le, ih]

theorem value_le (n v : Nat) (h : v < 256 ^ n) : value (le n v) = v := by
  induction n generalizing v with
  | zero => simp at h; subst h; rfl
  | succ n ih =>
    simp only [le, value]
    rw [ih (v / 256) (by rw [Nat.pow_succ, Nat.mul_comm] at h; exact Nat.div_lt_of_lt_mul h)]
    omega

theorem bytes_append (x r : Bytes) : bytes x.length (x ++ r) = some (x, r) := by
  unfold bytes
  rw [if_pos (by simp)]
  simp

theorem bytes_append' (n : Nat) (x r : Bytes) (h : x.length = n) : bytes n (x ++ r) = some (x, r) := by
  subst h; exact bytes_append x r

theorem int_le (n v : Nat) (r : Bytes) (h : v < 256 ^ n) : int n (le n v ++ r) = some (v, r) := by
  unfold int
  rw [bytes_append' n _ r (length_le n v)]
  simp [value_le n v h]

theorem lit_append (x r : Bytes) : lit x (x ++ r) = some ((), r) := by
  unfold lit
  rw [if_pos (by simp)]
  simp

theorem lit_le (n v : Nat) (r : Bytes) {x : Bytes} (h : le n v = x) : lit x (le n v ++ r) = some ((), r) := by
  subst h; exact lit_append _ _

/-- The numbers fit into their fields. -/
def Fits : List Field → Prop
  | [] => True
  | .s _ :: fs => Fits fs
  | .u n v :: fs => v < 256 ^ n ∧ Fits fs

def glue : List Field → Bytes
  | [] => []
  | .s b :: fs => b ++ glue fs
  | .u n v :: fs => le n v ++ glue fs

theorem pack_eq {fs : List Field} {b : Bytes} (h : pack fs = some b) : Fits fs ∧ b = glue fs := by
  induction fs generalizing b with
  | nil => exact ⟨trivial, (Option.some.inj h).symm⟩
  | cons f fs ih =>
    simp only [pack] at h
    split at h
    · rename_i x y hx hy
      obtain ⟨h1, h2⟩ := ih hy
      have hb := (Option.some.inj h).symm
      cases f with
      | s c =>
        have : c = x := Option.some.inj hx
        exact ⟨h1, by rw [hb, ← this, h2]; rfl⟩
      | u n v =>
        simp only [Field.pack] at hx
        split at hx
        · rename_i hv
          have : le n v = x := Option.some.inj hx
          exact ⟨⟨hv, h1⟩, by rw [hb, ← this, h2]; rfl⟩
        · cases hx
    · cases h

theorem pack_of_fits {fs : List Field} (h : Fits fs) : pack fs = some (glue fs) := by
  induction fs with
  | nil => rfl
  | cons f fs ih =>
    cases f with
    | s c => simp only [pack, Field.pack, ih h, glue]
    | u n v => simp only [pack, Field.pack, if_pos h.1, ih h.2, glue]

theorem pack_none {fs : List Field} (h : ¬ Fits fs) : pack fs = none := by
  cases hp : pack fs with
  | none => rfl
  | some b => exact absurd (pack_eq hp).1 h

theorem crc_lt (c : UInt32) : c.toNat < 256 ^ 4 := c.toNat_lt

theorem then_some {α β : Type} {p : Spec.Parser α} {q : α → Spec.Parser β} {b r : Bytes} {a : α} (h : p b = some (a, r)) : then' p q b = q a r := by
  unfold then'; rw [h]

theorem le_ff : le 4 0xffffffff = [255, 255, 255, 255] := by decide
theorem le_28 : le 2 28 = [28, 0] := by decide
theorem le_24 : le 2 24 = [24, 0] := by decide
theorem le_0 : le 2 0 = [0, 0] := by decide
theorem le_00 : le 4 0 = [0, 0, 0, 0] := by decide
theorem le_1 : le 4 1 = [1, 0, 0, 0] := by decide

/-- Two fields read as one. -/
theorem bytes_two (n k m v w : Nat) (r : Bytes) (h : k + m = n) : bytes n (le k v ++ (le m w ++ r)) = some (le k v ++ le m w, r) := by
  rw [← List.append_assoc]; exact bytes_append' _ _ _ (by simp [length_le, h])

theorem bytes_three (n k m p v w x : Nat) (r : Bytes) (h : k + m + p = n) : bytes n (le k v ++ (le m w ++ (le p x ++ r))) = some (le k v ++ (le m w ++ le p x), r) := by
  rw [← List.append_assoc, ← List.append_assoc]
  have := bytes_append' n (le k v ++ (le m w ++ le p x)) r (by simp only [List.length_append, length_le]; omega)
  simpa only [List.append_assoc] using this

theorem lit_zeros (r : Bytes) : lit [0, 0, 0, 0, 0, 0, 0, 0] (le 4 0 ++ (le 4 0 ++ r)) = some ((), r) := by
  rw [le_00]; exact lit_append [0, 0, 0, 0, 0, 0, 0, 0] r

theorem lit_end (r : Bytes) : lit [0x50, 0x4b, 5, 6, 0, 0, 0, 0] ([0x50, 0x4b, 5, 6] ++ (le 2 0 ++ (le 2 0 ++ r))) = some ((), r) := by
  rw [le_0]; exact lit_append [0x50, 0x4b, 5, 6, 0, 0, 0, 0] r

theorem lit_masks : lit [255, 255, 255, 255, 255, 255, 255, 255, 0, 0] (le 4 0xffffffff ++ (le 4 0xffffffff ++ (le 2 0 ++ []))) = some ((), []) := by
  rw [le_0, le_ff]; exact lit_append [255, 255, 255, 255, 255, 255, 255, 255, 0, 0] []

theorem bytes_zero (r : Bytes) : bytes 0 r = some ([], r) := bytes_append' 0 [] r rfl

theorem bytes_header (a b c d e v w x : Nat) (r : Bytes) :
    bytes 22 (le 2 a ++ (le 2 b ++ (le 2 c ++ (le 2 d ++ (le 2 e ++ (le 4 v ++ (le 4 w ++ (le 4 x ++ r)))))))) =
      some (le 2 a ++ (le 2 b ++ (le 2 c ++ (le 2 d ++ (le 2 e ++ (le 4 v ++ (le 4 w ++ le 4 x)))))), r) := by
  have := bytes_append' 22 (le 2 a ++ (le 2 b ++ (le 2 c ++ (le 2 d ++ (le 2 e ++ (le 4 v ++ (le 4 w ++ le 4 x))))))) r (by simp only [List.length_append, length_le])
  simpa only [List.append_assoc] using this

theorem le_add (m n v : Nat) : le (m + n) v = le m v ++ le n (v / 256 ^ m) := by
  induction m generalizing v with
  | zero => simp [le]
  | succ m ih => rw [Nat.add_right_comm, le, ih, le, Nat.div_div_eq_div_mul, Nat.pow_succ, Nat.mul_comm (256 ^ m)]; rfl

attribute [local irreducible] le bytes int lit then'

/-- Reading an entry of the central directory. -/
theorem read_central {f : File} {s : FileState} {h e : Bytes} (hh : centralHeader f s = some h) (he : extraField s = some e) (r : Bytes) :
    central (h ++ (s.name ++ (e ++ r))) = some (⟨s.name, s.flags, f.method, s.time, s.date, s.crc.toNat, s.sizeUncompressed, s.sizeCompressed, s.offset⟩, r) := by
  obtain ⟨⟨_, _, h1, h2, h3, h4, h5, _, _, h6, _⟩, rfl⟩ := pack_eq hh
  obtain ⟨⟨_, e1, e2, e3, _⟩, rfl⟩ := pack_eq he
  unfold central
  simp only [glue, List.append_assoc, List.nil_append]
  rw [then_some (lit_append _ _)]
  rw [then_some (bytes_two 4 2 2 _ _ _ rfl)]
  rw [then_some (int_le 2 _ _ h1), then_some (int_le 2 _ _ h2), then_some (int_le 2 _ _ h3), then_some (int_le 2 _ _ h4), then_some (int_le 4 _ _ h5)]
  rw [then_some (lit_le 4 0xffffffff _ le_ff), then_some (lit_le 4 0xffffffff _ le_ff), then_some (int_le 2 _ _ h6), then_some (lit_le 2 28 _ le_28),
    then_some (lit_le 2 0 _ le_0), then_some (lit_le 2 0 _ le_0)]
  rw [then_some (bytes_two 6 2 4 _ _ _ rfl)]
  rw [then_some (lit_le 4 0xffffffff _ le_ff), then_some (bytes_append _ _), then_some (lit_append _ _), then_some (lit_le 2 24 _ le_24),
    then_some (int_le 8 _ _ e1), then_some (int_le 8 _ _ e2), then_some (int_le 8 _ _ e3)]

theorem crc32_append (a b : Bytes) (v : UInt32) : crc32 (a ++ b) v = crc32 b (crc32 a v) := by
  simp [crc32]

theorem flatten_yielded (x : Bytes) : (yielded x).flatten = x := by
  unfold yielded
  split
  · rename_i h; rw [h]; rfl
  · simp

/-- Streaming the chunks of a file which is not compressed. -/
theorem streamChunks_none {d : Deflate} (chunks : List Bytes) (s : FileState) (h : s.sizeCompressed = s.sizeUncompressed) :
    (streamChunks (none : Compressor d) s chunks).1.flatten = chunks.flatten ∧ (streamChunks (none : Compressor d) s chunks).2 =
      { s with crc := crc32 chunks.flatten s.crc, sizeUncompressed := s.sizeUncompressed + chunks.flatten.length, sizeCompressed := s.sizeCompressed + chunks.flatten.length } := by
  induction chunks generalizing s with
  | nil =>
    refine ⟨by simp [streamChunks, Compressor.tail, yielded], ?_⟩
    simp [streamChunks, Compressor.tail, crc32]
  | cons chunk chunks ih =>
    obtain ⟨i1, i2⟩ := ih { s with crc := crc32 chunk s.crc, sizeUncompressed := s.sizeUncompressed + chunk.length, sizeCompressed := s.sizeUncompressed + chunk.length } rfl
    constructor
    · show (yielded chunk ++ (streamChunks (none : Compressor d) _ chunks).1).flatten = _
      rw [List.flatten_append, i1, flatten_yielded]
      rfl
    · show (streamChunks (none : Compressor d) _ chunks).2 = _
      rw [i2]
      simp [crc32_append, Nat.add_assoc, h]

/-- Streaming the chunks of a file which is compressed. -/
theorem streamChunks_some {d : Deflate} (chunks : List Bytes) (σ : d.σ) (s : FileState) :
    (streamChunks (some σ : Compressor d) s chunks).1.flatten = deflated d σ chunks ∧ (streamChunks (some σ : Compressor d) s chunks).2 =
      { s with crc := crc32 chunks.flatten s.crc, sizeUncompressed := s.sizeUncompressed + chunks.flatten.length, sizeCompressed := s.sizeCompressed + (deflated d σ chunks).length } := by
  induction chunks generalizing σ s with
  | nil =>
    refine ⟨?_, ?_⟩
    · show (yielded (d.flush σ)).flatten = _
      rw [flatten_yielded]; rfl
    · simp [streamChunks, Compressor.tail, crc32, deflated]
  | cons chunk chunks ih =>
    obtain ⟨i1, i2⟩ := ih (d.compress σ chunk).1 { s with crc := crc32 chunk s.crc, sizeUncompressed := s.sizeUncompressed + chunk.length, sizeCompressed := s.sizeCompressed + (d.compress σ chunk).2.length }
    constructor
    · show (yielded (d.compress σ chunk).2 ++ (streamChunks (some (d.compress σ chunk).1 : Compressor d) _ chunks).1).flatten = _
      rw [List.flatten_append, i1, flatten_yielded]
      rfl
    · show (streamChunks (some (d.compress σ chunk).1 : Compressor d) _ chunks).2 = _
      rw [i2]
      simp [crc32_append, Nat.add_assoc, deflated]

/-- The state of a file when it was streamed. -/
def finalState (d : Deflate) (f : File) (offset : Nat) : FileState :=
  { FileState.new f with offset := offset, crc := crc32 (contents f) 0, sizeUncompressed := (contents f).length, sizeCompressed := (stored d f).length }

theorem streamChunks_file (d : Deflate) (f : File) (offset : Nat) :
    (streamChunks (Compressor.new d f) { FileState.new f with offset := offset } f.chunks).1.flatten = stored d f ∧
    (streamChunks (Compressor.new d f) { FileState.new f with offset := offset } f.chunks).2 = finalState d f offset := by
  unfold Compressor.new stored finalState
  cases hd : f.deflate with
  | false =>
    obtain ⟨h1, h2⟩ := streamChunks_none (d := d) f.chunks { FileState.new f with offset := offset } rfl
    refine ⟨h1, ?_⟩
    rw [if_neg (by simp)]
    rw [h2]
    simp [FileState.new, stored, contents, hd]
  | true =>
    obtain ⟨h1, h2⟩ := streamChunks_some (d := d) f.chunks d.init { FileState.new f with offset := offset }
    refine ⟨h1, ?_⟩
    rw [if_pos rfl]
    rw [h2]
    simp [FileState.new, stored, contents, hd]

/-! ## The parts of the archive -/

/-- The entry of the central directory. -/
def centralOf (f : File) (s : FileState) : Central :=
  ⟨s.name, s.flags, f.method, s.time, s.date, s.crc.toNat, s.sizeUncompressed, s.sizeCompressed, s.offset⟩

theorem read_local {f : File} {s : FileState} {h : Bytes} (hh : localFileHeader f s = some h) (c : Central) (hn : c.name = s.name) (hf : c.flags = s.flags) (hm : c.method = f.method)
    (data r : Bytes) (hd : c.compressed = data.length) : Spec.localData c (h ++ (s.name ++ (data ++ r))) = some (data, r) := by
  obtain ⟨⟨_, h1, h2, h3, h4, _, _, _, h5, h6, _⟩, rfl⟩ := pack_eq hh
  unfold Spec.localData
  simp only [glue, List.append_assoc, List.nil_append]
  rw [then_some (lit_append _ _), then_some (bytes_append' 2 (le 2 45) _ (length_le _ _)), then_some (int_le 2 _ _ h1), then_some (int_le 2 _ _ h2)]
  rw [then_some (bytes_two 4 2 2 _ _ _ rfl)]
  rw [then_some (bytes_three 12 4 4 4 _ _ _ _ rfl)]
  rw [then_some (int_le 2 _ _ h5), then_some (int_le 2 _ _ h6), then_some (bytes_append _ _), then_some (bytes_zero _), then_some (bytes_append' _ _ _ hd.symm)]
  rw [if_pos ⟨hn.symm, hf.symm, hm.symm⟩]

theorem streamCentral_spec {l : List (File × FileState)} {zs : List Bytes} (h : streamCentral l = (zs, true)) (r : Bytes) :
    centrals l.length (zs.flatten ++ r) = some (l.map fun p => centralOf p.1 p.2, r) ∧ zs.flatten.length = centralSize l := by
  induction l generalizing zs with
  | nil =>
    simp only [streamCentral, Prod.mk.injEq, and_true] at h
    subst h
    exact ⟨rfl, rfl⟩
  | cons p l ih =>
    obtain ⟨f, s⟩ := p
    simp only [streamCentral] at h
    cases hh : centralHeader f s with
    | none => rw [hh] at h; cases h
    | some header =>
      rw [hh] at h
      cases he : extraField s with
      | none => rw [he] at h; cases h
      | some extra =>
        rw [he] at h
        simp only [Prod.mk.injEq] at h
        obtain ⟨h1, h2⟩ := h
        obtain ⟨i1, i2⟩ := ih (zs := (streamCentral l).1) (by rw [← h2])
        subst h1
        constructor
        · show then' central _ _ = _
          simp only [List.flatten_cons, List.append_assoc]
          rw [then_some (read_central hh he _)]
          rw [then_some i1]
          rfl
        · simp only [List.flatten_cons, List.length_append, i2]
          obtain ⟨_, rfl⟩ := pack_eq hh
          obtain ⟨_, rfl⟩ := pack_eq he
          simp only [glue, List.length_append, length_le, centralSize, List.length_cons, List.map_cons, List.sum_cons, List.length_nil]
          omega

theorem streamFile_spec {d : Deflate} {f : File} {offset : Nat} {ys : List Bytes} {s : FileState}
    (h : streamFile d f { FileState.new f with offset := offset } = (ys, some s)) :
    s = finalState d f offset ∧ ys.flatten.length = 30 + s.name.length + s.sizeCompressed + 24 ∧
    ∃ header descriptor, localFileHeader f s = some header ∧ dataDescriptor s = some descriptor ∧ ys.flatten = header ++ (f.name ++ (stored d f ++ descriptor)) := by
  unfold streamFile at h
  cases hh : localFileHeader f { FileState.new f with offset := offset } with
  | none => rw [hh] at h; cases h
  | some header =>
    rw [hh] at h
    obtain ⟨k1, k2⟩ := streamChunks_file d f offset
    simp only [k2] at h
    cases hd : dataDescriptor (finalState d f offset) with
    | none => rw [hd] at h; cases h
    | some descriptor =>
      rw [hd] at h
      simp only [Prod.mk.injEq, Option.some.injEq] at h
      obtain ⟨h1, h2⟩ := h
      subst h2 h1
      have hf : ({ FileState.new f with offset := offset } : FileState).name = f.name := rfl
      have key : (header :: ({ FileState.new f with offset := offset } : FileState).name :: (streamChunks (Compressor.new d f) { FileState.new f with offset := offset } f.chunks).1 ++ [descriptor]).flatten =
          header ++ (f.name ++ (stored d f ++ descriptor)) := by
        simp only [List.flatten_append, List.cons_append, List.flatten_cons, List.flatten_nil, List.append_nil]
        rw [k1]
        rfl
      refine ⟨rfl, ?_, header, descriptor, hh, hd, key⟩
      rw [key]
      obtain ⟨_, rfl⟩ := pack_eq hh
      obtain ⟨_, rfl⟩ := pack_eq hd
      simp only [glue, List.length_append, length_le, List.length_cons, List.length_nil, finalState, FileState.new]
      omega

theorem streamFiles_spec {d : Deflate} {fs : List File} {offset o : Nat} {ys : List Bytes} {l : List (File × FileState)} (h : streamFiles d offset fs = (ys, some (o, l))) :
    o = offset + ys.flatten.length ∧ l.map Prod.fst = fs ∧
    ∀ pre post : Bytes, pre.length = offset → ∀ p ∈ l, ∃ i, p.2 = finalState d p.1 i ∧
      ∃ r, Spec.localData (centralOf p.1 p.2) ((pre ++ (ys.flatten ++ post)).drop p.2.offset) = some (stored d p.1, r) := by
  induction fs generalizing offset o ys l with
  | nil =>
    simp only [streamFiles, Prod.mk.injEq, Option.some.injEq] at h
    obtain ⟨h1, h2, h3⟩ := h
    subst h1 h2 h3
    refine ⟨by simp, rfl, ?_⟩
    intro pre post hp p hm
    cases hm
  | cons f fs ih =>
    simp only [streamFiles] at h
    cases hs : streamFile d f { FileState.new f with offset := offset } with
    | mk zs s =>
      rw [hs] at h
      cases s with
      | none => cases h
      | some s =>
        obtain ⟨k1, k2, header, descriptor, k3, k4, k5⟩ := streamFile_spec hs
        simp only at h
        cases hr : streamFiles d (offset + (30 + s.name.length + s.sizeCompressed + 24)) fs with
        | mk ws q =>
          rw [hr] at h
          cases q with
          | none => simp at h
          | some q =>
            obtain ⟨o', l'⟩ := q
            simp only [Option.map_some, Prod.mk.injEq, Option.some.injEq] at h
            obtain ⟨h1, h2, h3⟩ := h
            subst h1 h2 h3
            obtain ⟨i1, i2, i3⟩ := ih hr
            refine ⟨by rw [i1, List.flatten_append, List.length_append, k2]; omega, by simp [i2], ?_⟩
            intro pre post hp p hm
            rcases List.mem_cons.1 hm with hm | hm
            · subst hm
              refine ⟨offset, k1, descriptor ++ (ws.flatten ++ post), ?_⟩
              have ho : s.offset = pre.length := by rw [k1, hp]; rfl
              have hn : f.name = s.name := by rw [k1]; rfl
              show Spec.localData (centralOf f s) ((pre ++ ((zs ++ ws).flatten ++ post)).drop s.offset) = _
              rw [ho, List.drop_left, List.flatten_append, k5, hn]
              simp only [List.append_assoc]
              exact read_local k3 _ rfl rfl rfl _ _ (by rw [k1]; rfl)
            · have := i3 (pre ++ zs.flatten) post (by rw [List.length_append, hp, k2]) p hm
              simp only [List.append_assoc, List.flatten_append] at this ⊢
              exact this

theorem mapM_some {α β : Type} (g : α → Option β) (h : α → β) (l : List α) (hl : ∀ x ∈ l, g x = some (h x)) : l.mapM g = some (l.map h) := by
  induction l with
  | nil => rfl
  | cons x l ih =>
    rw [List.mapM_cons, hl x (by simp), ih fun y hy => hl y (by simp [hy])]
    rfl

theorem read_end64 {count offset size : Nat} {b : Bytes} (h : end64Record count offset size = some b) (r : Bytes) :
    Spec.end64 (b ++ r) = some ((count, size, offset), r) := by
  obtain ⟨⟨_, _, _, _, _, h1, h2, h3, h4, _⟩, rfl⟩ := pack_eq h
  unfold Spec.end64
  simp only [glue, List.append_assoc, List.nil_append]
  rw [then_some (lit_append _ _), then_some (int_le 8 44 _ (by decide))]
  rw [then_some (bytes_two 4 2 2 _ _ _ rfl)]
  rw [then_some (lit_zeros _)]
  rw [then_some (int_le 8 _ _ h1), then_some (int_le 8 _ _ h2), then_some (int_le 8 _ _ h3), then_some (int_le 8 _ _ h4)]
  rw [if_pos ⟨rfl, rfl⟩]

theorem read_locator {offset : Nat} {b : Bytes} (h : end64Locator offset = some b) (r : Bytes) : Spec.locator (b ++ r) = some (offset, r) := by
  obtain ⟨⟨_, h1, _⟩, rfl⟩ := pack_eq h
  unfold Spec.locator
  simp only [glue, List.append_assoc, List.nil_append]
  rw [then_some (lit_append _ _), then_some (lit_le 4 0 _ le_00), then_some (int_le 8 _ _ h1), then_some (lit_le 4 1 _ le_1)]

theorem read_end {count : Nat} {b : Bytes} (h : endRecord count = some b) : Spec.endOfArchive b = some (count, []) := by
  obtain ⟨⟨_, _, h1, h2, _⟩, rfl⟩ := pack_eq h
  unfold Spec.endOfArchive
  simp only [glue]
  rw [then_some (lit_end _)]
  rw [then_some (int_le 2 _ _ h1), then_some (int_le 2 _ _ h2)]
  rw [then_some lit_masks]
  rw [if_pos ⟨rfl, rfl⟩]

/-! ## C157: the archive can be read -/

/-- Whenever the stream ends without error, a reader of the archive finds exactly the given files, in order: names, dates, sizes, checksums of their
contents, and data. -/
theorem C157_round_trip (d : Deflate) (files : List File) (ys : List Bytes) (h : stream d files = (ys, true)) :
    readZip ys.flatten = some (files.map (expected d)) := by
  unfold stream at h
  cases hs : streamFiles d 0 files with
  | mk as q =>
    rw [hs] at h
    cases q with
    | none => cases h
    | some q =>
      obtain ⟨o, l⟩ := q
      simp only at h
      cases hc : streamCentral l with
      | mk zs ok =>
        rw [hc] at h
        cases ok with
        | false => cases h
        | true =>
          simp only at h
          cases h1 : end64Record l.length o (centralSize l) with
          | none => rw [h1] at h; cases h
          | some record =>
            rw [h1] at h
            simp only at h
            cases h2 : end64Locator (o + centralSize l) with
            | none => rw [h2] at h; cases h
            | some locator =>
              rw [h2] at h
              simp only at h
              cases h3 : endRecord l.length with
              | none => rw [h3] at h; cases h
              | some e =>
                rw [h3] at h
                simp only [Prod.mk.injEq, and_true] at h
                subst h
                obtain ⟨f1, f2, f3⟩ := streamFiles_spec hs
                obtain ⟨c1, c2⟩ := streamCentral_spec hc (record ++ (locator ++ e))
                have lr : record.length = 56 := by obtain ⟨_, rfl⟩ := pack_eq h1; simp [glue, length_le]
                have ll : locator.length = 20 := by obtain ⟨_, rfl⟩ := pack_eq h2; simp [glue, length_le]
                have lend : e.length = 22 := by obtain ⟨_, rfl⟩ := pack_eq h3; simp [glue, length_le]
                have hb : (as ++ zs ++ [record, locator, e]).flatten = as.flatten ++ (zs.flatten ++ (record ++ (locator ++ e))) := by
                  simp [List.flatten_append]
                rw [hb]
                have hlen : (as.flatten ++ (zs.flatten ++ (record ++ (locator ++ e)))).length = as.flatten.length + (centralSize l + (56 + (20 + 22))) := by
                  simp only [List.length_append, c2, lr, ll, lend]
                have d1 : (as.flatten ++ (zs.flatten ++ (record ++ (locator ++ e)))).drop ((as.flatten ++ (zs.flatten ++ (record ++ (locator ++ e)))).length - 22) = e := by
                  rw [hlen, show as.flatten ++ (zs.flatten ++ (record ++ (locator ++ e))) = (as.flatten ++ (zs.flatten ++ (record ++ locator))) ++ e by simp]
                  exact List.drop_left' (by simp only [List.length_append, c2, lr, ll]; omega)
                have d2 : (as.flatten ++ (zs.flatten ++ (record ++ (locator ++ e)))).drop ((as.flatten ++ (zs.flatten ++ (record ++ (locator ++ e)))).length - 42) = locator ++ e := by
                  rw [hlen, show as.flatten ++ (zs.flatten ++ (record ++ (locator ++ e))) = (as.flatten ++ (zs.flatten ++ record)) ++ (locator ++ e) by simp]
                  exact List.drop_left' (by simp only [List.length_append, c2, lr]; omega)
                have d3 : (as.flatten ++ (zs.flatten ++ (record ++ (locator ++ e)))).drop (o + centralSize l) = record ++ (locator ++ e) := by
                  rw [show as.flatten ++ (zs.flatten ++ (record ++ (locator ++ e))) = (as.flatten ++ zs.flatten) ++ (record ++ (locator ++ e)) by simp]
                  exact List.drop_left' (by simp only [List.length_append, c2, f1]; omega)
                have d4 : (as.flatten ++ (zs.flatten ++ (record ++ (locator ++ e)))).drop o = zs.flatten ++ (record ++ (locator ++ e)) :=
                  List.drop_left' (by rw [f1]; omega)
                unfold readZip
                rw [d1, d2, read_end h3, read_locator h2]
                simp only
                rw [d3, read_end64 h1]
                simp only
                rw [if_pos trivial, d4, c1]
                simp only
                rw [if_pos (by rw [hlen]; simp only [List.length_append, lr, ll, lend]; omega)]
                rw [← f2, List.mapM_map]
                rw [mapM_some _ (fun p => expected d p.1) l]
                · simp
                · intro p hp
                  obtain ⟨i, g1, r, g2⟩ := f3 [] (zs.flatten ++ (record ++ (locator ++ e))) rfl p hp
                  simp only [List.nil_append] at g2
                  show entry _ (centralOf p.1 p.2) = _
                  unfold entry
                  rw [show (centralOf p.1 p.2).offset = p.2.offset from rfl, g2, g1]
                  simp [centralOf, finalState, FileState.new, expected, File.method]

/-- A machine which drops every byte `0` and ends with a mark. -/
def toy : Deflate := ⟨Unit, (), fun _ b => ((), b.filter (· ≠ 0)), fun _ => [7]⟩

example : let files : List File := [⟨[97], 1, false, 2024, 5, 6, 7, 8, 9, [[1, 2], [], [0, 3]]⟩, ⟨[195, 169], 1, true, 1999, 12, 31, 23, 59, 59, [[0, 0], [4, 0, 5]]⟩]
    (stream toy files).2 = true ∧ (files.map (expected toy)).map (fun e => (e.flags, e.method, e.size, e.data)) = [(8, 0, 4, [1, 2, 0, 3]), (2056, 8, 5, [4, 5, 7])] := by
  decide +kernel

example : crc32 [49, 50, 51, 52, 53, 54, 55, 56, 57] 0 = 0xCBF43926 := by decide +kernel

/-! ## C158: which lists of files can be streamed -/

theorem flags_lt (f : File) : (FileState.new f).flags < 256 ^ 2 := by
  simp only [FileState.new]
  split <;> decide

theorem method_lt (f : File) : f.method < 256 ^ 2 := by
  unfold File.method
  split <;> decide

theorem date_lt (a b c : Nat) : dosDate a b c < 256 ^ 2 := Nat.mod_lt _ (by decide)
theorem time_lt (a b c : Nat) : dosTime a b c < 256 ^ 2 := Nat.mod_lt _ (by decide)

/-- What the first loop needs. -/
def FileFits (d : Deflate) (f : File) : Prop := f.name.length < 65536 ∧ (contents f).length < 2 ^ 64 ∧ (stored d f).length < 2 ^ 64

theorem streamFile_ok (d : Deflate) (f : File) (offset : Nat) :
    (streamFile d f { FileState.new f with offset := offset }).2 = some (finalState d f offset) ∧ FileFits d f ∨
    (streamFile d f { FileState.new f with offset := offset }).2 = none ∧ ¬ FileFits d f := by
  obtain ⟨_, k2⟩ := streamChunks_file d f offset
  unfold streamFile
  cases hh : localFileHeader f { FileState.new f with offset := offset } with
  | none =>
    right
    refine ⟨rfl, fun hf => ?_⟩
    have : localFileHeader f { FileState.new f with offset := offset } = some _ :=
      pack_of_fits ⟨by decide, flags_lt f, method_lt f, time_lt _ _ _, date_lt _ _ _, by decide, by decide, by decide, hf.1, by decide, trivial⟩
    rw [hh] at this
    cases this
  | some header =>
    obtain ⟨⟨_, _, _, _, _, _, _, _, hn, _⟩, _⟩ := pack_eq hh
    simp only [k2]
    cases hd : dataDescriptor (finalState d f offset) with
    | none =>
      right
      refine ⟨rfl, fun hf => ?_⟩
      have : dataDescriptor (finalState d f offset) = some _ := pack_of_fits ⟨crc_lt _, hf.2.2, hf.2.1, trivial⟩
      rw [hd] at this
      cases this
    | some descriptor =>
      obtain ⟨⟨_, h1, h2, _⟩, _⟩ := pack_eq hd
      exact Or.inl ⟨rfl, hn, h2, h1⟩

/-- Where the files are put. -/
def layout (d : Deflate) : Nat → List File → List (File × FileState)
  | _, [] => []
  | offset, f :: fs => (f, finalState d f offset) :: layout d (offset + (54 + f.name.length + (stored d f).length)) fs

/-- What the files take. -/
def dataSize (d : Deflate) (fs : List File) : Nat := (fs.map fun f => 54 + f.name.length + (stored d f).length).sum

theorem streamFiles_ok (d : Deflate) (fs : List File) (offset : Nat) :
    (streamFiles d offset fs).2 = some (offset + dataSize d fs, layout d offset fs) ∧ (∀ f ∈ fs, FileFits d f) ∨
    (streamFiles d offset fs).2 = none ∧ ¬ ∀ f ∈ fs, FileFits d f := by
  induction fs generalizing offset with
  | nil => exact Or.inl ⟨rfl, nofun⟩
  | cons f fs ih =>
    simp only [streamFiles]
    have hk := streamFile_ok d f offset
    cases hs : streamFile d f { FileState.new f with offset := offset } with
    | mk zs s =>
      rw [hs] at hk
      rcases hk with ⟨h1, h2⟩ | ⟨h1, h2⟩
      · simp only at h1
        subst h1
        have he : offset + (30 + (finalState d f offset).name.length + (finalState d f offset).sizeCompressed + 24) = offset + (54 + f.name.length + (stored d f).length) := by
          show offset + (30 + f.name.length + (stored d f).length + 24) = _
          omega
        simp only [he]
        rcases ih (offset + (54 + f.name.length + (stored d f).length)) with ⟨i1, i2⟩ | ⟨i1, i2⟩
        · left
          rw [i1]
          refine ⟨?_, fun g hg => ?_⟩
          · simp only [Option.map_some, layout, dataSize, List.map_cons, List.sum_cons, Nat.add_assoc]
          · rcases List.mem_cons.1 hg with hg | hg
            · rw [hg]; exact h2
            · exact i2 g hg
        · right
          rw [i1]
          exact ⟨rfl, fun h => i2 fun g hg => h g (by simp [hg])⟩
      · simp only at h1
        subst h1
        right
        exact ⟨rfl, fun h => h2 (h f (by simp))⟩

theorem streamCentral_ok (d : Deflate) (fs : List File) (offset : Nat) (hf : ∀ f ∈ fs, FileFits d f) (ho : offset + dataSize d fs < 2 ^ 64) :
    (streamCentral (layout d offset fs)).2 = true := by
  induction fs generalizing offset with
  | nil => rfl
  | cons f fs ih =>
    obtain ⟨h1, h2, h3⟩ := hf f (by simp)
    have hs : dataSize d (f :: fs) = 54 + f.name.length + (stored d f).length + dataSize d fs := by simp [dataSize]
    simp only [layout, streamCentral]
    have e1 : centralHeader f (finalState d f offset) = some _ := pack_of_fits ⟨by decide, by decide, flags_lt f, method_lt f, time_lt _ _ _, date_lt _ _ _, crc_lt _, by decide, by decide,
      h1, by decide, by decide, by decide, by decide, by decide, by decide, trivial⟩
    have e2 : extraField (finalState d f offset) = some _ := pack_of_fits ⟨by decide, h2, h3, (by show offset < 2 ^ 64; omega), trivial⟩
    rw [e1]
    simp only
    rw [e2]
    exact ih _ (fun g hg => hf g (by simp [hg])) (by omega)

theorem layout_length (d : Deflate) (fs : List File) (offset : Nat) : (layout d offset fs).length = fs.length := by
  induction fs generalizing offset with
  | nil => rfl
  | cons f fs ih => simp [layout, ih]

theorem layout_centralSize (d : Deflate) (fs : List File) (offset : Nat) : centralSize (layout d offset fs) = (fs.map fun f => 74 + f.name.length).sum := by
  induction fs generalizing offset with
  | nil => rfl
  | cons f fs ih =>
    have := ih (offset + (54 + f.name.length + (stored d f).length))
    simp only [centralSize, layout, List.length_cons, List.map_cons, List.sum_cons] at this ⊢
    rw [← this]
    show 74 * _ + (f.name.length + _) = _
    omega

theorem stored_le (d : Deflate) (fs : List File) : ∀ f ∈ fs, (stored d f).length ≤ dataSize d fs := by
  induction fs with
  | nil => nofun
  | cons g fs ih =>
    intro f hf
    have hs : dataSize d (g :: fs) = 54 + g.name.length + (stored d g).length + dataSize d fs := by simp [dataSize]
    rcases List.mem_cons.1 hf with hf | hf
    · rw [hf]; omega
    · have := ih f hf; omega

/-- The stream ends without error exactly if no name has more than 65535 bytes, there are at most 65535 files, and sizes and offsets fit into 8 bytes. -/
theorem C158_streamable (d : Deflate) (files : List File) : (stream d files).2 = true ↔ Spec.Fits d files := by
  unfold stream
  have hk := streamFiles_ok d files 0
  cases hs : streamFiles d 0 files with
  | mk as q =>
    rw [hs] at hk
    rcases hk with ⟨h1, h2⟩ | ⟨h1, h2⟩
    · simp only [Nat.zero_add] at h1
      subst h1
      simp only
      have hl := layout_length d files 0
      have hcs := layout_centralSize d files 0
      constructor
      · intro h
        cases hc : streamCentral (layout d 0 files) with
        | mk zs ok =>
          rw [hc] at h
          cases ok with
          | false => cases h
          | true =>
            simp only at h
            cases g1 : end64Record (layout d 0 files).length (dataSize d files) (centralSize (layout d 0 files)) with
            | none => rw [g1] at h; cases h
            | some record =>
              rw [g1] at h
              simp only at h
              cases g2 : end64Locator (dataSize d files + centralSize (layout d 0 files)) with
              | none => rw [g2] at h; cases h
              | some locator =>
                rw [g2] at h
                simp only at h
                cases g3 : endRecord (layout d 0 files).length with
                | none => rw [g3] at h; cases h
                | some e =>
                  obtain ⟨⟨_, k1, _⟩, _⟩ := pack_eq g2
                  obtain ⟨⟨_, _, k2, _⟩, _⟩ := pack_eq g3
                  rw [hl] at k2
                  rw [hcs] at k1
                  exact ⟨fun f hf => ⟨(h2 f hf).1, (h2 f hf).2.1⟩, k2, k1⟩
      · rintro ⟨_, k2, k3⟩
        have k3' : dataSize d files + (files.map fun f => 74 + f.name.length).sum < 2 ^ 64 := k3
        have hc := streamCentral_ok d files 0 h2 (by omega)
        cases hc' : streamCentral (layout d 0 files) with
        | mk zs ok =>
          rw [hc'] at hc
          simp only at hc
          subst hc
          simp only
          have e1 : end64Record (layout d 0 files).length (dataSize d files) (centralSize (layout d 0 files)) = some _ :=
            pack_of_fits ⟨by decide, by decide, by decide, by decide, by decide, (by rw [hl]; exact Nat.lt_trans k2 (by decide)), (by rw [hl]; exact Nat.lt_trans k2 (by decide)),
              (by rw [hcs]; show _ < 2 ^ 64; omega), (by show _ < 2 ^ 64; omega), trivial⟩
          have e2 : end64Locator (dataSize d files + centralSize (layout d 0 files)) = some _ := pack_of_fits ⟨by decide, (by rw [hcs]; exact k3'), by decide, trivial⟩
          have e3 : endRecord (layout d 0 files).length = some _ :=
            pack_of_fits ⟨by decide, by decide, (by rw [hl]; exact k2), (by rw [hl]; exact k2), by decide, by decide, by decide, trivial⟩
          rw [e1, e2, e3]
    · simp only at h1
      subst h1
      simp only
      constructor
      · nofun
      · rintro ⟨k1, _, k3⟩
        exfalso
        apply h2
        intro f hf
        have k3' : dataSize d files + (files.map fun f => 74 + f.name.length).sum < 2 ^ 64 := k3
        have := stored_le d files f hf
        exact ⟨(k1 f hf).1, (k1 f hf).2, by omega⟩

/-- With fewer than 65536 files everything which the format can hold is streamed. -/
theorem C158_within_format_partial (d : Deflate) (files : List File) (h : Spec.Format d files) (hn : files.length < 65536) :
    ∃ ys, stream d files = (ys, true) ∧ readZip ys.flatten = some (files.map (expected d)) := by
  have hs : (stream d files).2 = true := (C158_streamable d files).2 ⟨h.1, hn, h.2.2⟩
  exact ⟨(stream d files).1, by rw [← hs], C157_round_trip d files _ (by rw [← hs])⟩

/-- `n` empty files. -/
def empties (n : Nat) : List File := List.replicate n ⟨[97], 1, false, 2024, 1, 1, 0, 0, 0, []⟩

theorem empties_sum (n : Nat) (g : File → Nat) : ((empties n).map g).sum = n * g ⟨[97], 1, false, 2024, 1, 1, 0, 0, 0, []⟩ := by
  induction n with
  | zero => simp [empties]
  | succ n ih =>
    simp only [empties, List.replicate_succ, List.map_cons, List.sum_cons] at ih ⊢
    rw [ih, Nat.succ_mul, Nat.add_comm]

/-- More than 65535 files raise `struct.error` after all files were sent, although the format can hold them: the number of files in the last record is not
masked by `0xffff`. -/
theorem C158_many_files_violated :
    (∀ (d : Deflate) (files : List File), 65536 ≤ files.length → (stream d files).2 = false) ∧
    ∀ (d : Deflate) (n : Nat), 65536 ≤ n → n < 2 ^ 32 → Spec.Format d (empties n) ∧ (stream d (empties n)).2 = false := by
  have first : ∀ (d : Deflate) (files : List File), 65536 ≤ files.length → (stream d files).2 = false := by
    intro d files h
    cases hs : (stream d files).2 with
    | false => rfl
    | true =>
      have := ((C158_streamable d files).1 hs).2.1
      omega
  refine ⟨first, fun d n h1 h2 => ⟨⟨?_, ?_, ?_⟩, first d _ (by simp [empties]; exact h1)⟩⟩
  · intro f hf
    rw [List.eq_of_mem_replicate hf]
    exact ⟨by decide, by decide⟩
  · simp only [empties, List.length_replicate]
    omega
  · rw [empties_sum, empties_sum]
    simp only [stored, contents, List.length_cons, List.length_nil, List.flatten_nil, Bool.false_eq_true, if_false]
    omega

example : Spec.Fits toy (empties 3) := ⟨fun f hf => by rw [List.eq_of_mem_replicate hf]; exact ⟨by decide, by decide⟩, by decide, by decide⟩

/-! ## C159: dates -/

/-- The date of the local header and the central directory is that of the file for the years 1980 to 2107; the time is exact up to the odd second. -/
theorem C159_dates_partial (d : Deflate) (files : List File) (ys : List Bytes) (h : stream d files = (ys, true))
    (hd : ∀ f ∈ files, 1980 ≤ f.year ∧ f.year ≤ 2107 ∧ f.month ≤ 12 ∧ f.day ≤ 31 ∧ f.hour < 24 ∧ f.minute < 60 ∧ f.second < 60) :
    (readZip ys.flatten).map (·.map fun e => (Spec.decodeDate e.date, Spec.decodeTime e.time)) =
      some (files.map fun f => ((f.year, f.month, f.day), (f.hour, f.minute, f.second - f.second % 2))) := by
  rw [C157_round_trip d files ys h]
  simp only [Option.map_some, List.map_map, Option.some.injEq]
  apply List.map_congr_left
  intro f hf
  obtain ⟨h1, h2, h3, h4, h5, h6, h7⟩ := hd f hf
  show (Spec.decodeDate (dosDate f.year f.month f.day), Spec.decodeTime (dosTime f.hour f.minute f.second)) = _
  have a1 : dosDate f.year f.month f.day = (f.year - 1980) * 512 + f.month * 32 + f.day := by
    unfold dosDate
    have e1 : (f.year + 2048 - 1980) <<< 9 ||| f.month <<< 5 = (f.year + 2048 - 1980) * 512 + f.month * 32 := by
      rw [← Nat.shiftLeft_add_eq_or_of_lt (by rw [Nat.shiftLeft_eq]; omega), Nat.shiftLeft_eq, Nat.shiftLeft_eq]
    have e2 : (f.year + 2048 - 1980) * 512 + f.month * 32 = ((f.year + 2048 - 1980) * 16 + f.month) <<< 5 := by
      rw [Nat.shiftLeft_eq]; omega
    rw [e1, e2, ← Nat.shiftLeft_add_eq_or_of_lt (by omega), Nat.shiftLeft_eq]
    omega
  have a2 : dosTime f.hour f.minute f.second = f.hour * 2048 + f.minute * 32 + f.second / 2 := by
    unfold dosTime
    have e1 : f.hour <<< 11 ||| f.minute <<< 5 = (f.hour * 64 + f.minute) <<< 5 := by
      rw [← Nat.shiftLeft_add_eq_or_of_lt (by rw [Nat.shiftLeft_eq]; omega), Nat.shiftLeft_eq, Nat.shiftLeft_eq, Nat.shiftLeft_eq]
      omega
    rw [e1, ← Nat.shiftLeft_add_eq_or_of_lt (by rw [Nat.shiftRight_eq_div_pow]; omega), Nat.shiftLeft_eq, Nat.shiftRight_eq_div_pow]
    omega
  rw [a1, a2]
  simp only [Spec.decodeDate, Spec.decodeTime, Prod.mk.injEq]
  omega

/-- For every other year the archive tells another year, without error. -/
theorem C159_years_violated (year month day : Nat) (h1 : 1 ≤ year) (hm : month ≤ 12) (hd : day ≤ 31) :
    (Spec.decodeDate (dosDate year month day)).1 = 1980 + (year + 2048 - 1980) % 128 ∧
    (year < 1980 ∨ 2107 < year → (Spec.decodeDate (dosDate year month day)).1 ≠ year) := by
  have a1 : dosDate year month day = ((year + 2048 - 1980) * 512 + month * 32 + day) % 65536 := by
    unfold dosDate
    have e1 : (year + 2048 - 1980) <<< 9 ||| month <<< 5 = (year + 2048 - 1980) * 512 + month * 32 := by
      rw [← Nat.shiftLeft_add_eq_or_of_lt (by rw [Nat.shiftLeft_eq]; omega), Nat.shiftLeft_eq, Nat.shiftLeft_eq]
    have e2 : (year + 2048 - 1980) * 512 + month * 32 = ((year + 2048 - 1980) * 16 + month) <<< 5 := by
      rw [Nat.shiftLeft_eq]; omega
    rw [e1, e2, ← Nat.shiftLeft_add_eq_or_of_lt (by omega), Nat.shiftLeft_eq]
  rw [a1]
  simp only [Spec.decodeDate]
  omega

example : Spec.decodeDate (dosDate 2024 5 6) = (2024, 5, 6) ∧ Spec.decodeTime (dosTime 7 8 9) = (7, 8, 8) ∧ Spec.decodeDate (dosDate 1970 1 1) = (2098, 1, 1) ∧
    Spec.decodeDate (dosDate 2108 1 1) = (1980, 1, 1) := by decide

/-! ## C160: reading from the front -/

/-- What is to be found. -/
def foundOf (d : Deflate) (f : File) : Spec.Found := ⟨f.name, stored d f, (crc32 (contents f) 0).toNat, (stored d f).length, (contents f).length⟩

/-- Reading the header, the name, and the data. -/
theorem read_found {f : File} {d : Deflate} {offset : Nat} {h : Bytes} (hh : localFileHeader f (finalState d f offset) = some h)
    (w : Nat) (r : Bytes) :
    Spec.found w (stored d f).length (h ++ (f.name ++ (stored d f ++ ([0x50, 0x4b, 7, 8] ++ (le 4 (crc32 (contents f) 0).toNat ++ r))))) =
      then' (int w) (fun compressed => then' (int w) fun size => fun r => some (⟨f.name, stored d f, (crc32 (contents f) 0).toNat, compressed, size⟩, r)) r := by
  obtain ⟨⟨_, _, _, _, _, _, _, _, h5, _⟩, rfl⟩ := pack_eq hh
  unfold Spec.found
  simp only [glue, List.append_assoc, List.nil_append]
  rw [then_some (lit_append _ _), then_some (bytes_header _ _ _ _ _ _ _ _ _), then_some (int_le 2 _ _ h5), then_some (lit_le 2 0 _ le_0), then_some (bytes_append' (finalState d f offset).name.length f.name _ rfl),
    then_some (bytes_append _ _), then_some (lit_append _ _), then_some (int_le 4 _ _ (crc_lt _))]

theorem read_files {d : Deflate} {fs : List File} {offset o : Nat} {ys : List Bytes} {l : List (File × FileState)} (h : streamFiles d offset fs = (ys, some (o, l))) (post : Bytes) :
    Spec.sequential 8 (fs.map fun f => (stored d f).length) (ys.flatten ++ post) = some (fs.map (foundOf d), post) := by
  induction fs generalizing offset o ys l with
  | nil =>
    simp only [streamFiles, Prod.mk.injEq, Option.some.injEq] at h
    obtain ⟨h1, _⟩ := h
    subst h1
    rfl
  | cons f fs ih =>
    simp only [streamFiles] at h
    cases hs : streamFile d f { FileState.new f with offset := offset } with
    | mk zs s =>
      rw [hs] at h
      cases s with
      | none => cases h
      | some s =>
        obtain ⟨k1, k2, header, descriptor, k3, k4, k5⟩ := streamFile_spec hs
        simp only at h
        cases hr : streamFiles d (offset + (30 + s.name.length + s.sizeCompressed + 24)) fs with
        | mk ws q =>
          rw [hr] at h
          cases q with
          | none => simp at h
          | some q =>
            obtain ⟨o', l'⟩ := q
            simp only [Option.map_some, Prod.mk.injEq, Option.some.injEq] at h
            obtain ⟨h1, _, _⟩ := h
            subst h1
            subst k1
            obtain ⟨⟨g1, g2, g3, _⟩, rfl⟩ := pack_eq k4
            have e : (glue [Field.s [0x50, 0x4b, 7, 8], .u 4 (finalState d f offset).crc.toNat, .u 8 (finalState d f offset).sizeCompressed, .u 8 (finalState d f offset).sizeUncompressed]) =
                [0x50, 0x4b, 7, 8] ++ (le 4 (crc32 (contents f) 0).toNat ++ (le 8 (stored d f).length ++ le 8 (contents f).length)) := by
              simp only [glue, List.append_nil]
              rfl
            rw [e] at k5
            simp only [List.map_cons, Spec.sequential, List.flatten_append, k5, List.append_assoc]
            have hf : Spec.found 8 (stored d f).length (header ++ (f.name ++ (stored d f ++ ([0x50, 0x4b, 7, 8] ++ (le 4 (crc32 (contents f) 0).toNat ++
                (le 8 (stored d f).length ++ (le 8 (contents f).length ++ (ws.flatten ++ post)))))))) = some (foundOf d f, ws.flatten ++ post) := by
              rw [read_found k3]
              rw [then_some (int_le 8 (stored d f).length _ g2), then_some (int_le 8 (contents f).length _ g3)]
              rfl
            rw [then_some hf, then_some (ih hr)]

/-- A reader which reads the archive from its front, and takes the sizes of the data descriptors for 8 bytes wide, finds all files: names, data, checksums and sizes. -/
theorem C160_front_partial (d : Deflate) (files : List File) (ys : List Bytes) (h : stream d files = (ys, true)) :
    ∃ rest, Spec.sequential 8 (files.map fun f => (stored d f).length) ys.flatten = some (files.map (foundOf d), rest) := by
  have hk := streamFiles_ok d files 0
  cases hs : streamFiles d 0 files with
  | mk as q =>
    cases q with
    | none => simp only [stream, hs] at h; cases h
    | some q =>
      obtain ⟨o, l⟩ := q
      have : ∃ post, ys.flatten = as.flatten ++ post := by
        simp only [stream, hs] at h
        split at h
        · cases h
        · split at h
          · cases h
          · split at h
            · cases h
            · split at h
              · cases h
              · cases h
                exact ⟨_, by rw [List.append_assoc, List.flatten_append]⟩
      obtain ⟨post, hp⟩ := this
      exact ⟨post, by rw [hp]; exact read_files hs post⟩

/-- The local header has no zip64 extra field, so a reader which follows the specification takes the sizes for 4 bytes wide, and then every file which is not empty seems empty. -/
theorem C160_front_violated (d : Deflate) (f : File) (hf : Spec.Fits d [f]) (hs : (stored d f).length < 2 ^ 32) (hc : contents f ≠ []) :
    ∃ ys rest, stream d [f] = (ys, true) ∧
      Spec.sequential 4 [(stored d f).length] ys.flatten = some ([⟨f.name, stored d f, (crc32 (contents f) 0).toNat, (stored d f).length, 0⟩], rest) ∧ (contents f).length ≠ 0 := by
  have ho := (C158_streamable d [f]).2 hf
  cases hst : stream d [f] with
  | mk ys ok =>
    rw [hst] at ho
    simp only at ho
    subst ho
    have hk := streamFile_ok d f 0
    cases h1 : streamFile d f { FileState.new f with offset := 0 } with
    | mk zs q =>
      cases q with
      | none =>
        exfalso
        simp only [stream, streamFiles, h1] at hst
        cases hst
      | some s =>
        obtain ⟨k1, k2, header, descriptor, k3, k4, k5⟩ := streamFile_spec h1
        subst k1
        have : ∃ post, ys.flatten = zs.flatten ++ post := by
          simp only [stream, streamFiles, h1, Option.map_some] at hst
          split at hst
          · cases hst
          · split at hst
            · cases hst
            · split at hst
              · cases hst
              · split at hst
                · cases hst
                · cases hst
                  exact ⟨_, by simp only [List.append_assoc, List.flatten_append]; rfl⟩
        obtain ⟨post, hp⟩ := this
        obtain ⟨_, rfl⟩ := pack_eq k4
        have e : (glue [Field.s [0x50, 0x4b, 7, 8], .u 4 (finalState d f 0).crc.toNat, .u 8 (finalState d f 0).sizeCompressed, .u 8 (finalState d f 0).sizeUncompressed]) =
            [0x50, 0x4b, 7, 8] ++ (le 4 (crc32 (contents f) 0).toNat ++ (le 4 (stored d f).length ++ (le 4 0 ++ le 8 (contents f).length))) := by
          simp only [glue, List.append_nil]
          show _ ++ (_ ++ (le (4 + 4) (stored d f).length ++ _)) = _
          rw [le_add, Nat.div_eq_of_lt (by exact hs), List.append_assoc]
          rfl
        rw [e] at k5
        refine ⟨ys, le 8 (contents f).length ++ post, rfl, ?_, fun h => hc (List.eq_nil_of_length_eq_zero h)⟩
        rw [hp, k5]
        simp only [Spec.sequential, List.append_assoc]
        have hf' : Spec.found 4 (stored d f).length (header ++ (f.name ++ (stored d f ++ ([0x50, 0x4b, 7, 8] ++ (le 4 (crc32 (contents f) 0).toNat ++
            (le 4 (stored d f).length ++ (le 4 0 ++ (le 8 (contents f).length ++ post)))))))) =
              some (⟨f.name, stored d f, (crc32 (contents f) 0).toNat, (stored d f).length, 0⟩, le 8 (contents f).length ++ post) := by
          rw [read_found k3]
          rw [then_some (int_le 4 _ _ hs), then_some (int_le 4 _ _ (by decide))]
        rw [then_some hf']
        unfold then'
        rfl

example : Spec.Fits toy [⟨[97], 1, true, 2024, 5, 6, 7, 8, 9, [[1, 2], [0, 3]]⟩] :=
  ⟨fun f hf => by rw [List.mem_singleton.1 hf]; exact ⟨by decide, by decide⟩, by decide, by decide⟩

end Verif.Zip
