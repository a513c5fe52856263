import Verif.Chunked.Lemmas
namespace Verif.Chunked
open Verif.Stream

theorem byte_all {P : Byte → Prop} [DecidablePred P] (h : ∀ n : Fin 256, P (UInt8.ofNat n.val)) (b : Byte) : P b := by
  have := h ⟨b.toNat, b.toNat_lt⟩
  simpa using this

instance (b : Byte) : Decidable (IsHexDigit b) := by unfold IsHexDigit; infer_instance

theorem hexVal_some {b : Byte} (h : IsHexDigit b) : hexVal b = some (digitValue b) := by
  revert h
  exact byte_all (P := fun b => IsHexDigit b → hexVal b = some (digitValue b)) (by decide +kernel) b

theorem hexVal_none {b : Byte} (h : ¬ IsHexDigit b) : hexVal b = none := by
  revert h
  exact byte_all (P := fun b => ¬ IsHexDigit b → hexVal b = none) (by decide +kernel) b

theorem hex_props {b : Byte} (h : IsHexDigit b) : b ≠ 95 ∧ b ≠ 120 ∧ b ≠ 88 ∧ b ≠ 43 ∧ b ≠ 45 ∧ b ≠ 13 ∧ b ≠ 59 ∧
    isSpace b = false := by
  revert h
  exact byte_all (P := fun b => IsHexDigit b → b ≠ 95 ∧ b ≠ 120 ∧ b ≠ 88 ∧ b ≠ 43 ∧ b ≠ 45 ∧ b ≠ 13 ∧ b ≠ 59 ∧
    isSpace b = false) (by decide +kernel) b

/-- Digits left to right. -/
theorem scan_plain : ∀ (l : List Byte) (acc : Nat) , (∀ b ∈ l, IsHexDigit b) →
    scanDigits false acc l = some (acc * 16 ^ l.length + hexNumber l, [])
  | [], acc, _ => by simp [scanDigits, hexNumber]
  | b :: l, acc, h => by
    have hb := h b (by simp)
    unfold scanDigits
    rw [if_neg (hex_props hb).1, hexVal_some hb]
    simp only
    rw [scan_plain l _ (fun x hx => h x (by simp [hx]))]
    simp only [hexNumber, List.length_cons, Nat.pow_succ, Option.some.injEq, Prod.mk.injEq, and_true]
    rw [Nat.add_mul, Nat.mul_assoc, Nat.mul_comm 16, Nat.add_assoc]

theorem scanSign_plain {b : Byte} {l : List Byte} (h : IsHexDigit b) : scanSign (b :: l) = (false, b :: l) := by
  have := hex_props h
  unfold scanSign
  split <;> simp_all

theorem scanPrefix_plain {l : List Byte} (h : ∀ b ∈ l, IsHexDigit b) : scanPrefix l = l := by
  unfold scanPrefix
  split
  · rename_i x bs
    have := hex_props (h x (by simp))
    simp [this]
  · rfl

theorem parse_plain {l : List Byte} (h : PlainHex l) : parseInt16 l = some (hexNumber l : Int) := by
  obtain ⟨hne, hl⟩ := h
  match l, hne with
  | b :: l, _ =>
    have hb := hl b (by simp)
    have hd : (b :: l).dropWhile isSpace = b :: l := by
      rw [List.dropWhile_cons, (hex_props hb).2.2.2.2.2.2.2]; simp
    unfold parseInt16
    simp only [hd, scanSign_plain hb, scanPrefix_plain hl, hexVal_some hb]
    rw [scan_plain _ _ hl]
    simp

theorem lineSize_plain {l : List Byte} (h : PlainHex l) : lineSize l = some (hexNumber l : Int) := by
  unfold lineSize
  have : l.takeWhile (· ≠ 59) = l := by
    have := List.takeWhile_append_of_pos (p := (· ≠ 59)) (l₁ := l) (l₂ := [])
      (fun b hb => by simp [(hex_props (h.2 b hb)).2.2.2.2.2.2.1])
    simpa using this
  rw [this, parse_plain h]

/-! ### the writer's numbers -/

theorem hexNumber_append (l r : List Byte) : hexNumber (l ++ r) = hexNumber l * 16 ^ r.length + hexNumber r := by
  induction l with
  | nil => simp [hexNumber]
  | cons b l ih =>
    simp only [List.cons_append, hexNumber, ih, List.length_append, Nat.pow_add, Nat.add_mul, Nat.mul_assoc, Nat.add_assoc]

theorem hexDigit_props (n : Nat) (h : n < 16) : IsHexDigit (hexDigit n) ∧ digitValue (hexDigit n) = n := by
  have : ∀ n : Fin 16, IsHexDigit (hexDigit n.val) ∧ digitValue (hexDigit n.val) = n.val := by decide +kernel
  exact this ⟨n, h⟩

theorem toHex_plain (n : Nat) : PlainHex (toHex n) ∧ hexNumber (toHex n) = n := by
  induction n using Nat.strongRecOn with
  | _ n ih =>
    rw [toHex]
    split
    · rename_i h
      have := hexDigit_props n h
      exact ⟨⟨by simp, by simpa using this.1⟩, by simp [hexNumber, this.2]⟩
    · rename_i h
      obtain ⟨⟨h1, h2⟩, h3⟩ := ih (n / 16) (by omega)
      have hd := hexDigit_props (n % 16) (by omega)
      refine ⟨⟨by simp, ?_⟩, ?_⟩
      · intro b hb
        rcases List.mem_append.mp hb with hb | hb
        · exact h2 b hb
        · simp at hb; rw [hb]; exact hd.1
      · rw [hexNumber_append, h3]
        simp [hexNumber, hd.2]; omega

theorem splitLine_toHex (n : Nat) (r : List Byte) : splitLine (toHex n ++ crlf ++ r) = some (toHex n, r) :=
  splitLine_append (fun b hb => (hex_props ((toHex_plain n).1.2 b hb)).2.2.2.2.2.1) r

theorem decode_frame (p tail : List Byte) (hp : p ≠ []) :
    decode lineSize (toHex p.length ++ crlf ++ p ++ crlf ++ tail) =
      (p ++ (decode lineSize tail).1, (decode lineSize tail).2) := by
  have hpl : 0 < p.length := List.length_pos_iff.mpr hp
  have hsplit : splitLine (toHex p.length ++ crlf ++ p ++ crlf ++ tail) = some (toHex p.length, p ++ crlf ++ tail) := by
    have := splitLine_toHex p.length (p ++ crlf ++ tail)
    simpa using this
  rw [decode_some hsplit, lineSize_plain (toHex_plain _).1, (toHex_plain _).2]
  have e1 : ((p.length : Int)).toNat = p.length := by omega
  have e2 : ¬ ((p.length : Int) < 0) := by omega
  have e3 : ¬ ((p.length : Int) = 0) := by omega
  have e4 : ¬ (p ++ crlf ++ tail).length < p.length := by simp
  have e5 : (p ++ crlf ++ tail).drop p.length = crlf ++ tail := by simp
  have e6 : (p ++ crlf ++ tail).take p.length = p := by simp
  have e7 : (p ++ crlf ++ tail).drop (p.length + 2) = tail := by
    rw [← List.drop_drop, e5]; simp [crlf]
  have e8 : ¬ (crlf ++ tail).length < 2 := by simp [crlf]
  simp only [e1, e2, e3, e4, e5, e6, e7, e8, if_false]
  simp [crlf]

theorem decode_end (rest : List Byte) : decode lineSize ([48, 13, 10, 13, 10] ++ rest) = ([], .done rest) := by
  have hsplit : splitLine ([48, 13, 10, 13, 10] ++ rest) = some ([48], [13, 10] ++ rest) := by
    have := splitLine_append (l := [48]) (by decide) ([13, 10] ++ rest)
    simpa [crlf] using this
  rw [decode_some hsplit]
  have : lineSize [48] = some 0 := by decide
  rw [this]
  simp

theorem decode_nil : decode lineSize [] = ([], .eof) := decode_none rfl

/-! ### lines the parser accepts -/

theorem scan_shape : ∀ (l : List Byte) (u : Bool) (acc v : Nat) (rest : List Byte), scanDigits u acc l = some (v, rest) →
    ∃ digits, l = digits ++ rest ∧ (∀ b ∈ digits, IsHexDigit b ∨ b = 95) ∧
      v = acc * 16 ^ (digits.filter (· ≠ 95)).length + hexNumber (digits.filter (· ≠ 95)) ∧
      digits.getLast? ≠ some 95 ∧ (u = true → digits ≠ [] ∧ digits.head? ≠ some 95) ∧
      ¬ [95, 95] <:+: digits
  | [], u, acc, v, rest, h => by
    unfold scanDigits at h
    split at h
    · simp at h
    · rename_i hu
      simp at h
      exact ⟨[], by simp [h.2], by simp, by simp [hexNumber, h.1], by simp, by simp [hu], by simp⟩
  | b :: l, u, acc, v, rest, h => by
    unfold scanDigits at h
    split at h
    · rename_i hb
      subst hb
      split at h
      · simp at h
      · rename_i hu
        obtain ⟨ds, e1, e2, e3, e4, e5, e6⟩ := scan_shape l _ _ _ _ h
        obtain ⟨e5, e5'⟩ := e5 rfl
        refine ⟨95 :: ds, by simp [e1], ?_, by simpa using e3, ?_, by simp [hu], ?_⟩
        · intro b hb
          rcases List.mem_cons.mp hb with rfl | hb
          · exact .inr rfl
          · exact e2 b hb
        · cases ds with
          | nil => exact absurd rfl e5
          | cons d ds => simpa [List.getLast?_cons_cons] using e4
        · intro hi
          rw [List.infix_cons_iff] at hi
          rcases hi with hi | hi
          · cases ds with
            | nil => exact absurd rfl e5
            | cons d ds => simp at hi e5'; exact e5' hi.symm
          · exact e6 hi
    · rename_i hb
      split at h
      · rename_i w hw
        have hhex : IsHexDigit b := by
          by_cases hh : IsHexDigit b
          · exact hh
          · rw [hexVal_none hh] at hw; simp at hw
        have hwv : w = digitValue b := by rw [hexVal_some hhex] at hw; simpa using hw.symm
        obtain ⟨ds, e1, e2, e3, e4, e5, e6⟩ := scan_shape l _ _ _ _ h
        refine ⟨b :: ds, by simp [e1], ?_, ?_, ?_, ?_, ?_⟩
        · intro x hx
          rcases List.mem_cons.mp hx with rfl | hx
          · exact .inl hhex
          · exact e2 x hx
        · have hf : (b :: ds).filter (· ≠ 95) = b :: ds.filter (· ≠ 95) := by simp [hb]
          rw [hf, e3, hwv]
          simp only [hexNumber, List.length_cons, Nat.pow_succ]
          rw [Nat.add_mul, Nat.mul_assoc, Nat.mul_comm 16, Nat.add_assoc]
        · cases ds with
          | nil => simpa using hb
          | cons d ds => simpa [List.getLast?_cons_cons] using e4
        · intro _; exact ⟨by simp, by simpa using hb⟩
        · intro hi
          rw [List.infix_cons_iff] at hi
          rcases hi with hi | hi
          · rw [List.cons_prefix_cons] at hi; exact hb hi.1.symm
          · exact e6 hi
      · rename_i hw
        split at h
        · simp at h
        · rename_i hu
          simp at h
          exact ⟨[], by simp [h.2], by simp, by simp [hexNumber, h.1], by simp, by simp [hu], by simp⟩

end Verif.Chunked
