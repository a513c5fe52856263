import Verif.WebSocket.Lemmas
/-! Property theorems C04, C05, C06, C07. -/
namespace Verif.WebSocket
open Verif.Stream

/-! ## C05 -/

/-- C05. Masking with a 4 byte key succeeds and is the positional XOR of RFC 6455. -/
theorem C05_mask_is_positional_xor (m0 m1 m2 m3 : Byte) (data : List Byte) :
    applyMask [m0, m1, m2, m3] data = some (xorMask m0 m1 m2 m3 data) := applyMask_eq ..

/-- C05, by index: byte `i` of the result is byte `i` of the data XOR byte `i % 4` of the key; the length is kept. -/
theorem C05_mask_pointwise (mask data : List Byte) (hm : mask.length = 4) :
    ∃ out, applyMask mask data = some out ∧ ∃ hl : out.length = data.length, ∀ (i : Nat) (hi : i < data.length),
      out[i] = data[i] ^^^ mask[i % 4]'(by omega) := by
  obtain ⟨a, b, c, d, rfl⟩ := mask_cases hm
  refine ⟨_, applyMask_eq .., xorMask_length .., fun i hi => ?_⟩
  rw [xorMask_getElem _ _ _ _ _ _ hi]
  congr 1
  have : i % 4 = 0 ∨ i % 4 = 1 ∨ i % 4 = 2 ∨ i % 4 = 3 := by omega
  rcases this with h | h | h | h <;> simp [h]

/-- C05. Masking twice with the same key gives back the data. -/
theorem C05_mask_involutive (mask data : List Byte) (hm : mask.length = 4) :
    (applyMask mask data).bind (applyMask mask) = some data := by
  obtain ⟨a, b, c, d, rfl⟩ := mask_cases hm
  simp [applyMask_eq, xorMask_twice]

/-- C05. A key shorter than 4 bytes is an error, never a partially masked result. -/
theorem C05_short_key (mask data : List Byte) (hm : mask.length < 4) : applyMask mask data = none := mask_short hm data

example : applyMask [1, 2, 4, 8] [10, 20, 30, 40, 50] = some [11, 22, 26, 32, 51] := by decide +kernel

/-! ## C07 -/

/-- C07. The check passes exactly for the frames RFC 6455 allows. -/
theorem C07_check_iff (f : Frame) : f.check = .ok () ↔ Valid f.head0.toNat f.data.length := by
  obtain ⟨h, data⟩ := f
  generalize hl : data.length = n
  have key : ∀ b : Byte,
      ((b &&& 0b01110000 ≠ 0) ↔ b.toNat / 16 % 8 ≠ 0) ∧ ((b &&& 0b10000000 = 0) ↔ b.toNat < 128) ∧
      (b &&& 0b00001111).toNat = b.toNat % 16 := by
    apply byte_all (P := fun b : Byte =>
      ((b &&& 0b01110000 ≠ 0) ↔ b.toNat / 16 % 8 ≠ 0) ∧ ((b &&& 0b10000000 = 0) ↔ b.toNat < 128) ∧
      (b &&& 0b00001111).toNat = b.toNat % 16)
    decide +kernel
  obtain ⟨k1, k2, k3⟩ := key h
  have e : ∀ k : Byte, (h &&& 0b00001111 = k) ↔ h.toNat % 16 = k.toNat := by
    intro k; rw [← k3]; exact UInt8.toNat_inj.symm
  unfold Frame.check Valid
  simp only [k1, k2, e, hl]
  simp only [show (0 : Byte).toNat = 0 from rfl, show (1 : Byte).toNat = 1 from rfl, show (2 : Byte).toNat = 2 from rfl,
    show (8 : Byte).toNat = 8 from rfl, show (9 : Byte).toNat = 9 from rfl, show (10 : Byte).toNat = 10 from rfl]
  repeat' split
  all_goals simp only [reduceCtorEq, false_iff, true_iff]
  all_goals omega

/-- C07. Which rule is reported: reserved bits first, then the opcode, then the control frame limits. -/
theorem C07_check_error (f : Frame) :
    (f.check = .error .reservedBits ↔ f.head0.toNat / 16 % 8 ≠ 0) ∧
    (f.check = .error .tooLong → 8 ≤ f.head0.toNat % 16 ∧ 125 < f.data.length) ∧
    (f.check = .error .fragmentedControl → 8 ≤ f.head0.toNat % 16 ∧ f.head0.toNat < 128) ∧
    (f.check = .error .invalidOperationCode → f.head0.toNat % 16 ∈ [3, 4, 5, 6, 7, 11, 12, 13, 14, 15]) := by
  obtain ⟨h, data⟩ := f
  generalize hl : data.length = n
  have key : ∀ b : Byte,
      ((b &&& 0b01110000 ≠ 0) ↔ b.toNat / 16 % 8 ≠ 0) ∧ ((b &&& 0b10000000 = 0) ↔ b.toNat < 128) ∧
      (b &&& 0b00001111).toNat = b.toNat % 16 := by
    apply byte_all (P := fun b : Byte =>
      ((b &&& 0b01110000 ≠ 0) ↔ b.toNat / 16 % 8 ≠ 0) ∧ ((b &&& 0b10000000 = 0) ↔ b.toNat < 128) ∧
      (b &&& 0b00001111).toNat = b.toNat % 16)
    decide +kernel
  obtain ⟨k1, k2, k3⟩ := key h
  have e : ∀ k : Byte, (h &&& 0b00001111 = k) ↔ h.toNat % 16 = k.toNat := by
    intro k; rw [← k3]; exact UInt8.toNat_inj.symm
  unfold Frame.check
  simp only [k1, k2, e, hl]
  simp only [show (0 : Byte).toNat = 0 from rfl, show (1 : Byte).toNat = 1 from rfl, show (2 : Byte).toNat = 2 from rfl,
    show (8 : Byte).toNat = 8 from rfl, show (9 : Byte).toNat = 9 from rfl, show (10 : Byte).toNat = 10 from rfl]
  refine ⟨?_, ?_, ?_, ?_⟩
  all_goals repeat' split
  all_goals simp only [reduceCtorEq, false_iff, true_iff, false_implies, true_implies, Except.error.injEq, List.mem_cons,
    List.not_mem_nil, or_false]
  all_goals omega

example : (Frame.new true 9 [1, 2]).check = .ok () ∧ (Frame.new false 9 [1, 2]).check = .error .fragmentedControl ∧
    (Frame.new false 1 []).check = .ok () ∧ (Frame.new true 3 []).check = .error .invalidOperationCode :=
  ⟨rfl, rfl, rfl, rfl⟩

/-! ## C06 -/

/-- C06. A frame whose mask bit is not what the endpoint expects (a client expects unmasked, a server masked frames) is
rejected as soon as its two first bytes are there. -/
theorem C06_wrong_masking_rejected (clientSide : Bool) (maxSize : Option Nat) (s : RState Byte) (hs : WF s)
    (head0 head1 : Byte) (rest : List Byte) (h : unread s = head0 :: head1 :: rest)
    (hm : (128 ≤ head1.toNat) ↔ clientSide = true) : readFrame clientSide maxSize s = .incorrectMasking := by
  obtain ⟨s1, h1, _, _⟩ := api_ok s hs [head0, head1] rest 2 rfl (by simpa using h)
  unfold readFrame
  simp only [h1, high1]
  rw [if_pos (by cases clientSide <;> simp_all)]

/-- C06. A frame announcing more than the allowed size is rejected; this is decided from the header alone (`rest` is
arbitrary, no byte of it is looked at). -/
theorem C06_oversized_rejected (clientSide : Bool) (m : Nat) (s : RState Byte) (hs : WF s) (head0 head1 : Byte)
    (ext rest : List Byte) (length : Nat) (ha : Announces (head1.toNat % 128) ext length)
    (hm : (128 ≤ head1.toNat) ↔ clientSide = false) (h : unread s = head0 :: head1 :: (ext ++ rest)) (hlen : m < length) :
    readFrame clientSide (some m) s = .tooLong length := by
  obtain ⟨s1, h1, _, _⟩ := readFrame_header clientSide (some m) s hs head0 head1 ext rest length ha hm h
  rw [h1, readFrameBody]; simp [hlen]

/-- C06. Every other complete frame is accepted. Client side (unmasked frames): the payload is returned as it is and the
following bytes are left. -/
theorem C06_client_accepts (maxSize : Option Nat) (s : RState Byte) (hs : WF s) (head0 head1 : Byte) (ext data rest : List Byte)
    (ha : Announces (head1.toNat % 128) ext data.length) (hm : head1.toNat < 128) (hmax : Allowed maxSize data.length)
    (h : unread s = head0 :: head1 :: (ext ++ (data ++ rest))) :
    ∃ s', readFrame true maxSize s = .frame ⟨head0, data⟩ s' ∧ unread s' = rest ∧ WF s' := by
  obtain ⟨s1, h1, h2, h3⟩ := readFrame_header true maxSize s hs head0 head1 ext _ _ ha (by simp; omega) h
  obtain ⟨s2, e1, e2, e3⟩ := api_ok s1 h3 data rest _ rfl h2
  refine ⟨s2, ?_, e2, e3⟩
  rw [h1, readFrameBody.eq_def, if_neg]
  · simp [e1]
  · cases maxSize with
    | none => simp
    | some m => have := hmax m rfl; simp; omega

/-- C06. Server side (masked frames): the 4 bytes after the header are the key, the payload is returned unmasked. -/
theorem C06_server_accepts (maxSize : Option Nat) (s : RState Byte) (hs : WF s) (head0 head1 m0 m1 m2 m3 : Byte)
    (ext data rest : List Byte)
    (ha : Announces (head1.toNat % 128) ext data.length) (hm : 128 ≤ head1.toNat) (hmax : Allowed maxSize data.length)
    (h : unread s = head0 :: head1 :: (ext ++ ([m0, m1, m2, m3] ++ (data ++ rest)))) :
    ∃ s', readFrame false maxSize s = .frame ⟨head0, xorMask m0 m1 m2 m3 data⟩ s' ∧ unread s' = rest ∧ WF s' := by
  obtain ⟨s1, h1, h2, h3⟩ := readFrame_header false maxSize s hs head0 head1 ext _ _ ha (by simp; omega) h
  obtain ⟨s2, e1, e2, e3⟩ := api_ok s1 h3 [m0, m1, m2, m3] _ 4 rfl h2
  obtain ⟨s3, f1, f2, f3⟩ := api_ok s2 e3 data rest _ rfl e2
  refine ⟨s3, ?_, f2, f3⟩
  rw [h1, readFrameBody.eq_def, if_neg]
  · simp [e1, f1, applyMask_eq]
  · cases maxSize with
    | none => simp
    | some m => have := hmax m rfl; simp; omega

/-- C06. If the stream ends inside of the (masking key and) payload, no frame is returned. -/
theorem C06_truncated_payload (clientSide : Bool) (maxSize : Option Nat) (s : RState Byte) (hs : WF s) (head0 head1 : Byte)
    (ext tail : List Byte) (length : Nat) (ha : Announces (head1.toNat % 128) ext length)
    (hm : (128 ≤ head1.toNat) ↔ clientSide = false) (hmax : Allowed maxSize length)
    (h : unread s = head0 :: head1 :: (ext ++ tail)) (hlen : tail.length < (if clientSide then 0 else 4) + length) :
    readFrame clientSide maxSize s = .eof := by
  obtain ⟨s1, h1, h2, h3⟩ := readFrame_header clientSide maxSize s hs head0 head1 ext _ _ ha hm h
  rw [h1, readFrameBody.eq_def, if_neg]
  · cases clientSide with
    | true => simp at hlen; simp [api_none s1 h3 length (by rw [h2]; exact hlen)]
    | false =>
      simp at hlen
      by_cases h4 : tail.length < 4
      · simp [api_none s1 h3 4 (by rw [h2]; exact h4)]
      · obtain ⟨s2, e1, e2, e3⟩ := api_ok s1 h3 (tail.take 4) (tail.drop 4) 4 (by simp; omega) (by simpa using h2)
        simp [e1, api_none s2 e3 length (by rw [e2]; simp; omega)]
  · cases maxSize with
    | none => simp
    | some m => have := hmax m rfl; simp; omega

/-- C06. If the stream ends inside of the header, no frame is returned. -/
theorem C06_truncated_header (clientSide : Bool) (maxSize : Option Nat) (s : RState Byte) (hs : WF s)
    (h : (unread s).length < 2 ∨ ∃ head0 head1 ext, unread s = head0 :: head1 :: ext ∧
      ((128 ≤ head1.toNat) ↔ clientSide = false) ∧
      ((head1.toNat % 128 = 126 ∧ ext.length < 2) ∨ (head1.toNat % 128 = 127 ∧ ext.length < 8))) :
    readFrame clientSide maxSize s = .eof := by
  rcases h with h | ⟨head0, head1, ext, h, hm, hl⟩
  · simp [readFrame, api_none s hs 2 h]
  · obtain ⟨s1, h1, h2, h3⟩ := api_ok s hs [head0, head1] ext 2 rfl (by simpa using h)
    unfold readFrame
    simp only [h1, high1, low7]
    rw [if_neg (by cases clientSide <;> simp_all)]
    rcases hl with ⟨hc, hl⟩ | ⟨hc, hl⟩
    · simp [hc, api_none s1 h3 2 (by rw [h2]; exact hl)]
    · simp [hc, api_none s1 h3 8 (by rw [h2]; exact hl)]

/-- Instances: a server gets an unmasked frame; a client with limit 3 gets a 4 byte frame; announced length `0x0102`. -/
example : readFrame false none ⟨[[0x81, 0x01], [0x41]], 0, false⟩ = .incorrectMasking ∧
    readFrame true (some 3) ⟨[[0x81], [0x04, 1]], 0, false⟩ = .tooLong 4 ∧
    readFrame true (some 3) ⟨[[0x81], [0x7e, 1], [2]], 0, false⟩ = .tooLong 258 ∧
    readFrame true (some 4) ⟨[[0x81], [0x02, 1], [2, 3]], 0, false⟩ = .frame ⟨0x81, [1, 2]⟩ ⟨[[2, 3]], 1, false⟩ := by
  decide +kernel

/-! ## C04 -/

theorem announced (clientSide : Bool) (data : List Byte) (h : data.length < 2 ^ 64) :
    ∃ (head1 : Byte) (ext : List Byte), Announces (head1.toNat % 128) ext data.length ∧
      ((128 ≤ head1.toNat) ↔ clientSide = true) ∧ ∀ (head0 : Byte) (mask : List Byte),
      writeFrame ⟨head0, data⟩ clientSide mask =
        if clientSide then (applyMask mask data).map (fun d => head0 :: head1 :: (ext ++ (mask ++ d)))
        else some (head0 :: head1 :: (ext ++ data)) := by
  have hh : ∀ n, n < 128 → (128 ≤ (if clientSide then 128 else 0) + n ↔ clientSide = true) ∧
      ((if clientSide then 128 else 0) + n) % 128 = n := by
    intro n hn; cases clientSide <;> simp <;> omega
  by_cases h1 : data.length < 126
  · refine ⟨((if clientSide then 1 else 0 : Byte) <<< 7) ||| UInt8.ofNat data.length, [], ?_, ?_, fun head0 mask => ?_⟩
    · rw [head1_toNat _ _ (by omega), (hh _ (by omega)).2]; exact .short _ (by omega)
    · rw [head1_toNat _ _ (by omega)]; exact (hh _ (by omega)).1
    · unfold writeFrame
      simp only [h1, if_true]
      cases clientSide <;> cases applyMask mask data <;> simp
  · by_cases h2 : data.length < 65536
    · refine ⟨((if clientSide then 1 else 0 : Byte) <<< 7) ||| UInt8.ofNat 126, beBytes 2 data.length, ?_, ?_, fun head0 mask => ?_⟩
      · rw [head1_toNat _ _ (by omega), (hh _ (by omega)).2]
        have := Announces.two (beBytes 2 data.length) (beBytes_length ..)
        rwa [bigEndian_beBytes _ _ (by omega)] at this
      · rw [head1_toNat _ _ (by omega)]; exact (hh _ (by omega)).1
      · unfold writeFrame
        simp only [h1, if_false, h2, if_true]
        cases clientSide <;> cases applyMask mask data <;> simp
    · refine ⟨((if clientSide then 1 else 0 : Byte) <<< 7) ||| UInt8.ofNat 127, beBytes 8 data.length, ?_, ?_, fun head0 mask => ?_⟩
      · rw [head1_toNat _ _ (by omega), (hh _ (by omega)).2]
        have := Announces.eight (beBytes 8 data.length) (beBytes_length ..)
        rwa [bigEndian_beBytes _ _ (by omega)] at this
      · rw [head1_toNat _ _ (by omega)]; exact (hh _ (by omega)).1
      · unfold writeFrame
        simp only [h1, if_false, h2, h, if_true]
        cases clientSide <;> cases applyMask mask data <;> simp

/-- C04. The other side reads back the written frame, head byte and payload unchanged, whatever follows it and however the bytes
are cut into segments; exactly the bytes of the frame are consumed. `mask` are the random key bytes. -/
theorem C04_round_trip (f : Frame) (clientSide : Bool) (mask : List Byte) (hm : mask.length = 4) (hlen : f.data.length < 2 ^ 64) :
    ∃ bytes, writeFrame f clientSide mask = some bytes ∧
      ∀ (maxSize : Option Nat) (s : RState Byte) (rest : List Byte), Allowed maxSize f.data.length → WF s →
        unread s = bytes ++ rest →
        ∃ s', readFrame (!clientSide) maxSize s = .frame f s' ∧ unread s' = rest ∧ WF s' := by
  obtain ⟨head0, data⟩ := f
  obtain ⟨head1, ext, ha, hb, hw⟩ := announced clientSide data hlen
  obtain ⟨a, b, c, d, rfl⟩ := mask_cases hm
  rw [hw]
  cases clientSide with
  | false =>
    refine ⟨_, rfl, fun maxSize s rest hmax hs h => ?_⟩
    exact C06_client_accepts maxSize s hs head0 head1 ext data rest ha (by simp at hb; exact hb) hmax (by simpa using h)
  | true =>
    rw [applyMask_eq]
    refine ⟨_, rfl, fun maxSize s rest hmax hs h => ?_⟩
    have := C06_server_accepts maxSize s hs head0 head1 a b c d ext (xorMask a b c d data) rest
      (by rw [xorMask_length]; exact ha) (by simpa using hb) (by rw [xorMask_length]; exact hmax) (by simpa using h)
    simpa [xorMask_twice] using this

/-- Writing frames one after the other; `none` if one is refused. -/
def writeAll (clientSide : Bool) : List (Frame × List Byte) → Option (List Byte)
  | [] => some []
  | (f, mask) :: fs => do return (← writeFrame f clientSide mask) ++ (← writeAll clientSide fs)

/-- Reading `n` frames one after the other; `none` if one read does not give a frame. -/
def readMany (clientSide : Bool) (maxSize : Option Nat) : Nat → RState Byte → Option (List Frame × RState Byte)
  | 0, s => some ([], s)
  | n + 1, s =>
    match readFrame clientSide maxSize s with
    | .frame f s' => (readMany clientSide maxSize n s').map (fun (fs, s'') => (f :: fs, s''))
    | _ => none

/-- C04 for a conversation: any sequence of frames is read back as the same sequence, for every segmentation of the stream. -/
theorem C04_sequence_round_trip (clientSide : Bool) (maxSize : Option Nat) (fs : List (Frame × List Byte))
    (hf : ∀ x ∈ fs, x.2.length = 4 ∧ x.1.data.length < 2 ^ 64 ∧ Allowed maxSize x.1.data.length) :
    ∃ bytes, writeAll clientSide fs = some bytes ∧
      ∀ (s : RState Byte) (rest : List Byte), WF s → unread s = bytes ++ rest →
        ∃ s', readMany (!clientSide) maxSize fs.length s = some (fs.map (·.1), s') ∧ unread s' = rest ∧ WF s' := by
  induction fs with
  | nil => exact ⟨[], rfl, fun s rest hs h => ⟨s, rfl, by simpa using h, hs⟩⟩
  | cons x fs ih =>
    obtain ⟨f, mask⟩ := x
    obtain ⟨h1, h2, h3⟩ := hf _ (List.mem_cons_self ..)
    obtain ⟨b1, w1, r1⟩ := C04_round_trip f clientSide mask h1 h2
    obtain ⟨b2, w2, r2⟩ := ih (fun x hx => hf x (List.mem_cons_of_mem _ hx))
    refine ⟨b1 ++ b2, by simp [writeAll, w1, w2], fun s rest hs h => ?_⟩
    obtain ⟨s1, e1, e2, e3⟩ := r1 maxSize s (b2 ++ rest) h3 hs (by simpa using h)
    obtain ⟨s2, g1, g2, g3⟩ := r2 s1 rest e3 e2
    exact ⟨s2, by simp [readMany, e1, g1], g2, g3⟩

/-- C04. The FIN bit and the opcode given to the frame constructor are what the getters of the frame return. -/
theorem C04_head_fields (final : Bool) (op : Byte) (hop : op.toNat < 16) (data : List Byte) :
    (Frame.new final op data).final = final ∧ (Frame.new final op data).operationCode = op ∧
    (Frame.new final op data).head0.toNat / 16 % 8 = 0 ∧ (Frame.new final op data).data = data := by
  have key : ∀ b : Byte, b.toNat < 16 →
      (Frame.new final b []).final = final ∧ (Frame.new final b []).operationCode = b ∧
      (Frame.new final b []).head0.toNat / 16 % 8 = 0 := by
    apply byte_all (P := fun b : Byte => b.toNat < 16 →
      (Frame.new final b []).final = final ∧ (Frame.new final b []).operationCode = b ∧
      (Frame.new final b []).head0.toNat / 16 % 8 = 0)
    cases final <;> decide +kernel
  obtain ⟨k1, k2, k3⟩ := key op hop
  exact ⟨k1, k2, k3, rfl⟩

/-- C04. A frame built from an allowed opcode passes the check of the receiver, unless a control frame is unfinished or too long. -/
theorem C04_constructed_frame_valid (final : Bool) (op : Byte) (data : List Byte)
    (hop : op ∈ [0, 1, 2] ∨ (op ∈ [8, 9, 10] ∧ final = true ∧ data.length ≤ 125)) :
    (Frame.new final op data).check = .ok () := by
  rw [C07_check_iff]
  have h0 : (Frame.new final op data).head0 = (Frame.new final op []).head0 := rfl
  simp only [Valid, h0]
  rw [show (Frame.new final op data).data = data from rfl]
  simp only [List.mem_cons, List.not_mem_nil, or_false] at hop
  rcases hop with (rfl | rfl | rfl) | ⟨rfl | rfl | rfl, rfl, hl⟩
  · cases final <;> exact ⟨by decide +kernel, .inl (by decide +kernel)⟩
  · cases final <;> exact ⟨by decide +kernel, .inr (.inl (by decide +kernel))⟩
  · cases final <;> exact ⟨by decide +kernel, .inr (.inr (.inl (by decide +kernel)))⟩
  · exact ⟨by decide +kernel, .inr (.inr (.inr ⟨by decide +kernel, by decide +kernel, hl⟩))⟩
  · exact ⟨by decide +kernel, .inr (.inr (.inr ⟨by decide +kernel, by decide +kernel, hl⟩))⟩
  · exact ⟨by decide +kernel, .inr (.inr (.inr ⟨by decide +kernel, by decide +kernel, hl⟩))⟩

/-- Instance: a masked text frame, cut into three segments and followed by one byte. -/
example : writeFrame (Frame.new true 1 [72, 105]) true [1, 2, 3, 4] = some [0x81, 0x82, 1, 2, 3, 4, 73, 107] ∧
    readFrame false none ⟨[[0x81, 0x82, 1], [2, 3], [4, 73, 107, 99]], 0, false⟩ =
      .frame (Frame.new true 1 [72, 105]) ⟨[[4, 73, 107, 99]], 3, false⟩ := by decide +kernel

end Verif.WebSocket
