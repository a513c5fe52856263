import Verif.WebSocket.Spec
import Verif.Stream.ExactLemmas
namespace Verif.WebSocket
open Verif.Stream

theorem byte_all {P : Byte → Prop} [DecidablePred P] (h : ∀ n : Fin 256, P (UInt8.ofNat n.val)) (b : Byte) : P b := by
  have := h ⟨b.toNat, b.toNat_lt⟩
  simpa using this

/-! ### reading -/

theorem api_ok (s : RState Byte) (hs : WF s) (a rest : List Byte) (n : Nat) (hn : n = a.length) (h : unread s = a ++ rest) :
    ∃ s', readExactlyApi n s = some (a, s') ∧ unread s' = rest ∧ WF s' := by
  subst hn
  unfold readExactlyApi
  by_cases h0 : a.length = 0
  · have : a = [] := List.eq_nil_of_length_eq_zero h0
    subst this
    exact ⟨s, by simp, by simpa using h, hs⟩
  · obtain ⟨out, s', h1, h2, h3, h4, _⟩ := readExactly_ok s hs a.length (by omega) (by rw [h]; simp)
    refine ⟨s', ?_, by rw [h3, h]; simp, h4⟩
    simp only [h0, if_false, h1, h2, h]
    simp

theorem api_none (s : RState Byte) (hs : WF s) (n : Nat) (h : (unread s).length < n) : readExactlyApi n s = none := by
  obtain ⟨out, s', h1, _, _⟩ := readExactly_eof s hs n h
  unfold readExactlyApi
  rw [if_neg (by omega), h1]

/-! ### masking -/

theorem maskStripe_length (i : Nat) (k : Byte) (d : List Byte) : (maskStripe i k d).length = d.length := by
  simp [maskStripe]

theorem xorMask_length (d : List Byte) : ∀ a b c e, (xorMask a b c e d).length = d.length := by
  induction d with
  | nil => intros; rfl
  | cons x xs ih => intros; simp [xorMask, ih]

theorem xorMask_getElem (d : List Byte) : ∀ (a b c e : Byte) (i : Nat) (h : i < d.length),
    (xorMask a b c e d)[i]'(by rw [xorMask_length]; exact h) =
      d[i] ^^^ (if i % 4 = 0 then a else if i % 4 = 1 then b else if i % 4 = 2 then c else e) := by
  induction d with
  | nil => intro _ _ _ _ i h; simp at h
  | cons x xs ih =>
    intro a b c e i h
    cases i with
    | zero => simp [xorMask]
    | succ i =>
      simp only [xorMask, List.getElem_cons_succ]
      rw [ih]
      · congr 1
        have : i % 4 = 0 ∨ i % 4 = 1 ∨ i % 4 = 2 ∨ i % 4 = 3 := by omega
        rcases this with h | h | h | h
        · have : (i + 1) % 4 = 1 := by omega
          simp [h, this]
        · have : (i + 1) % 4 = 2 := by omega
          simp [h, this]
        · have : (i + 1) % 4 = 3 := by omega
          simp [h, this]
        · have : (i + 1) % 4 = 0 := by omega
          simp [h, this]
      · simpa using h

theorem applyMask_eq (m0 m1 m2 m3 : Byte) (more data : List Byte) :
    applyMask (m0 :: m1 :: m2 :: m3 :: more) data = some (xorMask m0 m1 m2 m3 data) := by
  simp only [applyMask, Option.some.injEq]
  apply List.ext_getElem
  · simp [maskStripe_length, xorMask_length]
  · intro i h1 h2
    rw [xorMask_getElem _ _ _ _ _ _ (by simpa [xorMask_length] using h2)]
    simp only [maskStripe, List.getElem_mapIdx]
    have : i % 4 = 0 ∨ i % 4 = 1 ∨ i % 4 = 2 ∨ i % 4 = 3 := by omega
    rcases this with h | h | h | h
    · rw [if_neg (by omega), if_neg (by omega), if_neg (by omega), if_pos (by omega), if_pos h]
    · rw [if_neg (by omega), if_neg (by omega), if_pos (by omega), if_neg (by omega), if_neg (by omega), if_pos h]
    · rw [if_neg (by omega), if_pos (by omega), if_neg (by omega), if_neg (by omega), if_neg (by omega), if_neg (by omega),
        if_pos h]
    · rw [if_pos (by omega), if_neg (by omega), if_neg (by omega), if_neg (by omega), if_neg (by omega), if_neg (by omega),
        if_neg (by omega)]

theorem xorMask_twice (d : List Byte) : ∀ a b c e, xorMask a b c e (xorMask a b c e d) = d := by
  induction d with
  | nil => intros; rfl
  | cons x xs ih => intro a b c e; simp [xorMask, ih, UInt8.xor_assoc]

theorem mask_cases {mask : List Byte} (h : mask.length = 4) : ∃ a b c d, mask = [a, b, c, d] := by
  match mask, h with
  | [a, b, c, d], _ => exact ⟨a, b, c, d, rfl⟩

theorem mask_short {mask : List Byte} (h : mask.length < 4) (data) : applyMask mask data = none := by
  match mask, h with
  | [], _ => rfl
  | [_], _ => rfl
  | [_, _], _ => rfl
  | [_, _, _], _ => rfl

/-! ### lengths -/

theorem beBytes_length (k n : Nat) : (beBytes k n).length = k := by
  induction k generalizing n with
  | zero => rfl
  | succ k ih => simp [beBytes, ih]

theorem foldl_be (l : List Byte) : ∀ acc, l.foldl (fun acc b => acc * 256 + b.toNat) acc = acc * 256 ^ l.length + bigEndian l := by
  induction l with
  | nil => intro acc; simp [bigEndian]
  | cons b bs ih =>
    intro acc
    simp only [List.foldl_cons, ih, bigEndian, List.length_cons, Nat.pow_succ, Nat.add_mul]
    rw [Nat.mul_assoc, Nat.mul_comm 256, Nat.add_assoc]

theorem beNat_eq (l : List Byte) : beNat l = bigEndian l := by
  unfold beNat; rw [foldl_be]; simp

theorem bigEndian_beBytes (k n : Nat) (h : n < 256 ^ k) : bigEndian (beBytes k n) = n := by
  induction k generalizing n with
  | zero => simp at h; simp [beBytes, bigEndian, h]
  | succ k ih =>
    have hp : 0 < 256 ^ k := Nat.pow_pos (by omega)
    simp only [beBytes, bigEndian, beBytes_length]
    rw [ih _ (Nat.mod_lt _ hp)]
    have : n / 256 ^ k < 256 := by
      apply Nat.div_lt_of_lt_mul; rw [Nat.mul_comm]; rwa [Nat.pow_succ, Nat.mul_comm] at h
    simp only [UInt8.toNat_ofNat', Nat.mod_eq_of_lt this]
    rw [Nat.mul_comm]; exact Nat.div_add_mod n (256 ^ k)

/-! ### header bytes -/

theorem low7 (b : Byte) : (b &&& 0b01111111).toNat = b.toNat % 128 := by
  apply byte_all (P := fun b => (b &&& 0b01111111).toNat = b.toNat % 128); decide +kernel

theorem high1 (b : Byte) : ((b &&& 0b10000000) >>> 7) = (if 128 ≤ b.toNat then 1 else 0) := by
  apply byte_all (P := fun b => ((b &&& 0b10000000) >>> 7) = (if 128 ≤ b.toNat then 1 else 0)); decide +kernel

theorem head1_toNat (c : Bool) (n : Nat) (h : n < 128) :
    (((if c then 1 else 0 : Byte) <<< 7) ||| UInt8.ofNat n).toNat = (if c then 128 else 0) + n := by
  have : ∀ n : Fin 128, (((if c then 1 else 0 : Byte) <<< 7) ||| UInt8.ofNat n.val).toNat = (if c then 128 else 0) + n.val := by
    cases c <;> decide +kernel
  exact this ⟨n, h⟩

theorem readFrame_header (clientSide : Bool) (maxSize : Option Nat) (s : RState Byte) (hs : WF s) (head0 head1 : Byte)
    (ext rest : List Byte) (length : Nat) (ha : Announces (head1.toNat % 128) ext length)
    (hm : (128 ≤ head1.toNat) ↔ clientSide = false)
    (h : unread s = head0 :: head1 :: (ext ++ rest)) :
    ∃ s', readFrame clientSide maxSize s = readFrameBody clientSide maxSize head0 length s' ∧ unread s' = rest ∧ WF s' := by
  obtain ⟨s1, h1, h2, h3⟩ := api_ok s hs [head0, head1] (ext ++ rest) 2 rfl (by simpa using h)
  unfold readFrame
  simp only [h1, high1, low7]
  rw [if_neg (by cases clientSide <;> simp_all)]
  generalize hcode : head1.toNat % 128 = code at ha
  cases ha with
  | short _ hl =>
    rw [if_neg (by omega), if_neg (by omega)]
    exact ⟨s1, rfl, by simpa using h2, h3⟩
  | two _ hl =>
    obtain ⟨s2, e1, e2, e3⟩ := api_ok s1 h3 ext rest 2 hl.symm h2
    refine ⟨s2, ?_, e2, e3⟩
    simp [e1, beNat_eq]
  | eight _ hl =>
    obtain ⟨s2, e1, e2, e3⟩ := api_ok s1 h3 ext rest 8 hl.symm h2
    refine ⟨s2, ?_, e2, e3⟩
    simp [e1, beNat_eq]

end Verif.WebSocket
