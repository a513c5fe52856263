import Verif.Multipart.Model

/-!
# C100: the transfer encoding of a part

C100 says that what is written for the data of a part with `Content-Transfer-Encoding: base64` is the base 64 encoding of it, in
whatever chunks it comes.  The specification is the decoder of RFC 4648, section 4, below.
-/

namespace Verif.Multipart

open Http (Bytes)

/-! ### Specification -/

/-- RFC 4648, section 4, table 1. -/
def alphabet : List UInt8 :=
  [65, 66, 67, 68, 69, 70, 71, 72, 73, 74, 75, 76, 77, 78, 79, 80, 81, 82, 83, 84, 85, 86, 87, 88, 89, 90,
   97, 98, 99, 100, 101, 102, 103, 104, 105, 106, 107, 108, 109, 110, 111, 112, 113, 114, 115, 116, 117, 118, 119, 120, 121, 122,
   48, 49, 50, 51, 52, 53, 54, 55, 56, 57, 43, 47]

def pad : UInt8 := 61

/-- The number of a digit. -/
def sextet (b : UInt8) : Option Nat := alphabet.idxOf? b

/-- Four digits are three bytes; two pads in place of the last two digits are for one byte, one pad is for two bytes.  Bits behind the
data are zero. -/
def decode64 : Bytes → Option Bytes
  | [] => some []
  | p :: q :: r :: s :: rest => do
    let a ← sextet p
    let b ← sextet q
    if r = pad ∧ s = pad ∧ rest = [] then
      if b % 16 = 0 then some [UInt8.ofNat (a * 4 + b / 16)] else none
    else
      let c ← sextet r
      if s = pad ∧ rest = [] then
        if c % 4 = 0 then some [UInt8.ofNat (a * 4 + b / 16), UInt8.ofNat (b % 16 * 16 + c / 4)] else none
      else
        let d ← sextet s
        let more ← decode64 rest
        some ([UInt8.ofNat (a * 4 + b / 16), UInt8.ofNat (b % 16 * 16 + c / 4), UInt8.ofNat (c % 4 * 64 + d)] ++ more)
  | _ => none

/-- What comes out of the compressor: the empty chunks are not given to it. -/
def compressed (codec : Codec) (content : Content) (chunks : List Bytes) : Bytes :=
  let r := (chunks.filter (· ≠ [])).foldl (fun (s : codec.State × Bytes) chunk =>
    ((codec.compress s.1 chunk).1, s.2 ++ (codec.compress s.1 chunk).2)) (codec.start content, [])
  r.2 ++ codec.flush r.1

/-- The data of a part before its transfer encoding. -/
def plain (codec : Codec) (content : Option Content) (chunks : List Bytes) : Bytes :=
  match content with
  | none => chunks.flatten
  | some content => compressed codec content chunks

/-! ### The encoding -/

theorem sextet_digit : ∀ n : Fin 64, sextet (b64Digit n.val) = some n.val ∧ b64Digit n.val ≠ pad := by decide

theorem sextet_lt {n : Nat} (h : n < 64) : sextet (b64Digit n) = some n := (sextet_digit ⟨n, h⟩).1

theorem digit_ne_pad {n : Nat} (h : n < 64) : b64Digit n ≠ pad := (sextet_digit ⟨n, h⟩).2

theorem ofNat_eq {a : UInt8} {n : Nat} (h : n = a.toNat) : UInt8.ofNat n = a := by rw [h]; simp

theorem decode64_b64 (data : Bytes) : decode64 (b64 data) = some data := by
  fun_induction b64 data with
  | case1 a b c rest ih =>
    have ha := a.toNat_lt
    have hb := b.toNat_lt
    have hc := c.toNat_lt
    simp only [List.cons_append, List.nil_append, decode64, sextet_lt (show a.toNat / 4 < 64 by omega),
      sextet_lt (show a.toNat % 4 * 16 + b.toNat / 16 < 64 by omega), Option.bind_eq_bind, Option.bind_some,
      digit_ne_pad (show b.toNat % 16 * 4 + c.toNat / 64 < 64 by omega), false_and, if_false,
      sextet_lt (show b.toNat % 16 * 4 + c.toNat / 64 < 64 by omega), digit_ne_pad (show c.toNat % 64 < 64 by omega),
      sextet_lt (show c.toNat % 64 < 64 by omega), ih, Option.some.injEq, List.cons.injEq, and_true]
    exact ⟨ofNat_eq (by omega), ofNat_eq (by omega), ofNat_eq (by omega)⟩
  | case2 a b =>
    have ha := a.toNat_lt
    have hb := b.toNat_lt
    simp only [decode64, sextet_lt (show a.toNat / 4 < 64 by omega),
      sextet_lt (show a.toNat % 4 * 16 + b.toNat / 16 < 64 by omega), Option.bind_eq_bind, Option.bind_some,
      digit_ne_pad (show b.toNat % 16 * 4 < 64 by omega), false_and, if_false,
      sextet_lt (show b.toNat % 16 * 4 < 64 by omega), show (61 : UInt8) = pad from rfl, and_self, if_true]
    rw [if_pos (by omega)]
    simp only [Option.some.injEq, List.cons.injEq, and_true]
    exact ⟨ofNat_eq (by omega), ofNat_eq (by omega)⟩
  | case3 a =>
    have ha := a.toNat_lt
    simp only [decode64, sextet_lt (show a.toNat / 4 < 64 by omega),
      sextet_lt (show a.toNat % 4 * 16 < 64 by omega), Option.bind_eq_bind, Option.bind_some, show (61 : UInt8) = pad from rfl, and_self, if_true]
    rw [if_pos (by omega)]
    simp only [Option.some.injEq, List.cons.injEq, and_true]
    exact ofNat_eq (by omega)
  | case4 => rfl

theorem b64_append {a : Bytes} (b : Bytes) (h : a.length % 3 = 0) : b64 (a ++ b) = b64 a ++ b64 b := by
  fun_induction b64 a with
  | case1 x y z rest ih =>
    simp only [List.cons_append, b64, List.nil_append, List.cons.injEq, true_and]
    exact ih (by simp only [List.length_cons] at h; omega)
  | case2 x y => simp at h
  | case3 x => simp at h
  | case4 => rfl

/-! ### The chunks -/

/-- The invariant with base 64: `raw` was given to `emit`. -/
structure Holds {codec : Codec} (e : Encoder codec) (raw : Bytes) : Prop where
  transfer : e.transfer = some .base64
  split : ∃ done, done.length % 3 = 0 ∧ raw = done ++ e.buffer ∧ e.out.flatten = b64 done

theorem Holds.emit {codec : Codec} {e : Encoder codec} {raw : Bytes} (h : Holds e raw) (chunk : Bytes) : Holds (e.emit chunk) (raw ++ chunk) := by
  obtain ⟨ht, done, h1, h2, h3⟩ := h
  simp only [Encoder.emit, ht]
  split
  · refine ⟨rfl, done, h1, ?_, h3⟩
    rw [h2, List.append_assoc]
  · refine ⟨rfl, done ++ (e.buffer ++ chunk).take ((e.buffer ++ chunk).length / 3 * 3), ?_, ?_, ?_⟩
    · rw [List.length_append, List.length_take]
      omega
    · simp only [List.append_assoc, List.take_append_drop]
      rw [h2, List.append_assoc]
    · simp only [List.flatten_append, List.flatten_cons, List.flatten_nil, List.append_nil]
      rw [h3, b64_append _ h1]

/-- The invariant of `write`: what came out of the compressor was given to `emit`. -/
structure Follows {codec : Codec} (content : Option Content) (e : Encoder codec) (chunks : List Bytes) : Prop where
  state : match content with
    | none => e.compressor = none ∧ ∀ raw, raw = chunks.flatten → Holds e raw
    | some content => ∃ s out, (s, out) = (chunks.filter (· ≠ [])).foldl (fun (s : codec.State × Bytes) chunk =>
        ((codec.compress s.1 chunk).1, s.2 ++ (codec.compress s.1 chunk).2)) (codec.start content, []) ∧ e.compressor = some s ∧ Holds e out

theorem Holds.with_compressor {codec : Codec} {e : Encoder codec} {raw : Bytes} (h : Holds e raw) (c : Option codec.State) :
    Holds { e with compressor := c } raw := ⟨h.transfer, h.split⟩

theorem emit_compressor {codec : Codec} (e : Encoder codec) (chunk : Bytes) : (e.emit chunk).compressor = e.compressor := by
  simp only [Encoder.emit]
  split
  · split <;> rfl
  · rfl
  · rfl

theorem Follows.write {codec : Codec} {content : Option Content} {e : Encoder codec} {chunks : List Bytes} (h : Follows content e chunks)
    (chunk : Bytes) : Follows content (e.write chunk) (chunks ++ [chunk]) := by
  constructor
  cases content with
  | none =>
    obtain ⟨h1, h2⟩ := h.state
    simp only [Encoder.write, h1]
    refine ⟨(emit_compressor e chunk).trans h1, ?_⟩
    rintro raw rfl
    have := (h2 _ rfl).emit chunk
    simpa using this
  | some content =>
    obtain ⟨s, out, h1, h2, h3⟩ := h.state
    simp only [Encoder.write, h2]
    by_cases h0 : chunk = []
    · simp only [h0, if_true]
      refine ⟨s, out, by simpa using h1, (emit_compressor e []).trans h2, ?_⟩
      have := h3.emit []
      simpa using this
    · simp only [h0, if_false]
      have hf : (chunks ++ [chunk]).filter (· ≠ []) = chunks.filter (· ≠ []) ++ [chunk] := by simp [h0]
      rw [hf, List.foldl_append, ← h1]
      refine ⟨(codec.compress s chunk).1, out ++ (codec.compress s chunk).2, rfl, ?_⟩
      split
      · rename_i hr
        rw [hr, List.append_nil]
        exact ⟨rfl, h3.with_compressor _⟩
      · exact ⟨emit_compressor _ _, (h3.with_compressor _).emit _⟩

theorem Follows.writeAll {codec : Codec} {content : Option Content} (chunks : List Bytes) : ∀ {e : Encoder codec} {before : List Bytes},
    Follows content e before → Follows content (chunks.foldl Encoder.write e) (before ++ chunks) := by
  induction chunks with
  | nil => intro e before h; simpa using h
  | cons c chunks ih =>
    intro e before h
    have := ih (h.write c)
    simpa using this

theorem Follows.new (codec : Codec) (content : Option Content) : Follows content (Encoder.new codec content (some .base64)) [] := by
  constructor
  cases content with
  | none =>
    refine ⟨rfl, ?_⟩
    rintro raw rfl
    exact ⟨rfl, [], rfl, rfl, rfl⟩
  | some content => exact ⟨_, _, rfl, rfl, rfl, [], rfl, rfl, rfl⟩

theorem Holds.finish {codec : Codec} {e : Encoder codec} {raw : Bytes} (h : Holds e raw) :
    (if e.transfer = some .base64 ∧ e.buffer ≠ [] then { e with out := e.out ++ [b64 e.buffer] } else e).out.flatten = b64 raw := by
  obtain ⟨ht, done, h1, h2, h3⟩ := h
  by_cases h0 : e.buffer = []
  · rw [if_neg (by simp [h0]), h3, h2, h0, List.append_nil]
  · rw [if_pos ⟨ht, h0⟩]
    simp only [List.flatten_append, List.flatten_cons, List.flatten_nil, List.append_nil]
    rw [h3, h2, b64_append _ h1]

theorem Follows.eof {codec : Codec} {content : Option Content} {e : Encoder codec} {chunks : List Bytes} (h : Follows content e chunks) :
    e.eof.out.flatten = b64 (plain codec content chunks) := by
  cases content with
  | none =>
    obtain ⟨h1, h2⟩ := h.state
    have := (h2 _ rfl).finish
    simp only [h1] at this
    simp only [Encoder.eof, h1, plain]
    exact this
  | some content =>
    obtain ⟨s, out, h1, h2, h3⟩ := h.state
    simp only [Encoder.eof, h2, plain, compressed]
    rw [← h1]
    dsimp only
    by_cases h0 : codec.flush s = []
    · simp only [h0, if_true, List.append_nil]
      exact (h3.with_compressor none).finish
    · simp only [h0, if_false]
      have : Holds (codec := codec) (Encoder.write { e with compressor := none } (codec.flush s)) (out ++ codec.flush s) := by
        simp only [Encoder.write]
        exact (h3.with_compressor none).emit _
      exact this.finish

/-- **C100**: what is written for the data of a part with base 64 is decoded to the data, or with a content encoding to what came out of the
compressor, in whatever chunks it came. -/
theorem C100_base64 (codec : Codec) (e : Entry) (h : e.transfer = some .base64) :
    decode64 (e.body codec) = some (plain codec e.content e.payload.chunks) := by
  have hb : e.body codec = b64 (plain codec e.content e.payload.chunks) := by
    simp only [Entry.body, h]
    rw [if_pos (by simp)]
    have := ((Follows.new codec e.content).writeAll e.payload.chunks).eof
    simpa using this
  rw [hb, decode64_b64]

/-- **C100**: it does not depend on the chunks. -/
theorem C100_chunks (codec : Codec) (e e' : Entry) (h : e.transfer = some .base64) (h' : e'.transfer = some .base64)
    (hc : e.content = none) (hc' : e'.content = none) (he : e.payload.chunks.flatten = e'.payload.chunks.flatten) : e.body codec = e'.body codec := by
  have key : ∀ e : Entry, e.transfer = some .base64 → e.content = none → e.body codec = b64 e.payload.chunks.flatten := by
    intro e h hc
    simp only [Entry.body, h, hc]
    rw [if_pos (by simp)]
    have := ((Follows.new codec none).writeAll e.payload.chunks).eof
    simpa [plain] using this
  rw [key e h hc, key e' h' hc', he]

/-- An instance: `Man` and `M` in chunks of one byte. -/
example : (Entry.mk ⟨[], [], none, [[77], [97], [], [110], [77]]⟩ [] none (some .base64)).body
    ⟨Unit, fun _ => (), fun _ _ => ((), []), fun _ => [], id⟩ = [84, 87, 70, 117, 84, 81, 61, 61] := by decide

end Verif.Multipart
