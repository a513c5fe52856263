import Verif.Quoting.Model

/-! Properties C38, C39 and C62. -/
namespace Verif.Quoting

open Verif.Utf8

/-! ### The loop of `unquote` -/

section Loop
variable {uns : Option Text} {query : Bool}

theorem loop_esc (c0 c1 : Char) (rest : Text) (st : St) :
    loop uns query ('%' :: c0 :: c1 :: rest) st =
      match hexValue c0, hexValue c1 with
      | some a, some b => loop uns query rest { flush uns query st with
          pct := some ((flush uns query st).pct.getD [] ++ [UInt8.ofNat (a * 16 ||| b)]), last := some (c0, c1) }
      | _, _ => none := by
  rw [loop]
  cases hexValue c0 <;> cases hexValue c1 <;> rfl

theorem loop_plain {c : Char} (hc : c ≠ '%') (rest : Text) (st : St) :
    loop uns query (c :: rest) st = loop uns query rest (plainChar uns (flush uns query st) c) := by
  rw [loop.eq_def]
  split
  · simp_all
  · simp_all
  · simp_all
  · rename_i h; simp only [List.cons.injEq] at h; exact absurd h.1 hc
  · rename_i h; simp only [List.cons.injEq] at h; rw [h.1, h.2]

theorem flush_flush (st : St) : flush uns query (flush uns query st) = flush uns query st := by
  cases hp : st.pct with
  | none =>
    have : flush uns query st = st := by unfold flush; rw [hp]
    rw [this, this]
  | some p =>
    cases hd : decode p with
    | none =>
      have : flush uns query st = st := by unfold flush; rw [hp]; simp only; rw [hd]
      rw [this, this]
    | some t =>
      have : flush uns query st = { pct := none, last := st.last, out := st.out ++ shown uns query t } := by
        unfold flush; rw [hp]; simp only; rw [hd]
      rw [this]; rfl

theorem finish_flush (st : St) : finish uns query (flush uns query st) = finish uns query st := by
  unfold flush
  cases hp : st.pct with
  | none => simp only
  | some p =>
    cases hd : decode p with
    | none => simp only [hd]
    | some t => simp only [hd, finish, hp]

theorem loop_flush (t : Text) (st : St) : loop uns query t (flush uns query st) = loop uns query t st := by
  unfold loop
  split
  · rw [finish_flush]
  · rw [flush_flush]
  · simp only [flush_flush]
  · simp only [flush_flush]
  · rw [flush_flush]

/-- The bytes read so far, of which nothing is decoded yet. -/
def pending (p : Bytes) (last : Option (Char × Char)) (out : Text) : St := { pct := if p = [] then none else some p, last, out }

theorem flush_pending {p : Bytes} (h : p ≠ [] → decode p = none) (last : Option (Char × Char)) (out : Text) :
    flush uns query (pending p last out) = pending p last out := by
  unfold flush pending
  by_cases hp : p = []
  · simp [hp]
  · simp [hp, h hp]

theorem pending_getD (p : Bytes) (last : Option (Char × Char)) (out : Text) : (pending p last out).pct.getD [] = p := by
  unfold pending
  by_cases hp : p = []
  · simp [hp]
  · simp [hp]

end Loop

/-! ### Bytes -/

theorem byte_all (P : UInt8 → Prop) [DecidablePred P] (h : ∀ i : Fin 256, P (UInt8.ofNat i.val)) (b : UInt8) : P b := by
  have := h ⟨b.toNat, b.toNat_lt⟩
  simpa using this

/-- How `_base_16_char_to_int` reads a digit `quote` writes. -/
def reread (n : Nat) : Nat := if n = 8 then 0 else if n = 9 then 1 else n

/-- How an escaped byte is read back. -/
def rereadByte (b : UInt8) : UInt8 := UInt8.ofNat (reread (b.toNat / 16) * 16 + reread (b.toNat % 16))

/-- The escape of a byte. -/
def escape (b : UInt8) : Text := ['%', hexDigit (b.toNat / 16), hexDigit (b.toNat % 16)]

theorem hexValue_hexDigit : ∀ n : Fin 16, hexValue (hexDigit n.val) = some (reread n.val) := by decide

theorem reread_lt : ∀ n : Fin 16, reread n.val < 16 := by decide

theorem or_add : ∀ a b : Fin 16, a.val * 16 ||| b.val = a.val * 16 + b.val := by decide

theorem loop_escape {uns : Option Text} {query : Bool} (b : UInt8) (rest : Text) (st : St) :
    loop uns query (escape b ++ rest) st = loop uns query rest { flush uns query st with
      pct := some ((flush uns query st).pct.getD [] ++ [rereadByte b]),
      last := some (hexDigit (b.toNat / 16), hexDigit (b.toNat % 16)) } := by
  have hb := b.toNat_lt
  have h1 := hexValue_hexDigit ⟨b.toNat / 16, by omega⟩
  have h2 := hexValue_hexDigit ⟨b.toNat % 16, by omega⟩
  have h3 := reread_lt ⟨b.toNat / 16, by omega⟩
  have h4 := reread_lt ⟨b.toNat % 16, by omega⟩
  have h5 := or_add ⟨_, h3⟩ ⟨_, h4⟩
  simp only at h1 h2 h5
  simp only [escape, List.cons_append, List.nil_append]
  rw [loop_esc, h1, h2]
  simp only
  rw [h5]; rfl

/-- The escapes of bytes are read one after the other; as long as nothing can be decoded, they pile up. -/
theorem loop_escapes {uns : Option Text} {query : Bool} (rest : Text) : ∀ (bs p : Bytes) (last : Option (Char × Char)) (out : Text),
    (∀ q r, bs.map rereadByte = q ++ r → r ≠ [] → p ++ q ≠ [] → decode (p ++ q) = none) →
    ∃ last', loop uns query (bs.flatMap escape ++ rest) (pending p last out) =
      loop uns query rest (pending (p ++ bs.map rereadByte) last' out) := by
  intro bs
  induction bs with
  | nil => intro p last out _; exact ⟨last, by simp⟩
  | cons b bs ih =>
    intro p last out h
    rw [List.flatMap_cons, List.append_assoc, loop_escape]
    have h0 : p ≠ [] → decode p = none := by
      intro hp
      have := h [] _ rfl (by simp) (by simpa using hp)
      simpa using this
    rw [flush_pending h0, pending_getD]
    obtain ⟨last', hl⟩ := ih (p ++ [rereadByte b]) (some (hexDigit (b.toNat / 16), hexDigit (b.toNat % 16))) out (by
      intro q r hq hr hne
      have := h (rereadByte b :: q) r (by rw [List.map_cons, hq]; rfl) hr (by simp)
      rwa [List.append_assoc]) 
    refine ⟨last', ?_⟩
    rw [List.map_cons]
    have e : p ++ [rereadByte b] ++ bs.map rereadByte = p ++ rereadByte b :: bs.map rereadByte := by simp
    rw [e] at hl
    rw [← hl]
    congr 1
    simp [pending]

/-! ### What `quote` makes of a character -/

/-- What `quote` makes of a character, as characters. -/
def piece (safe : Text) (query : Bool) (c : Char) : Text :=
  if query = true ∧ c = ' ' then ['+'] else if c ∈ safe then [c] else (String.utf8EncodeChar c).flatMap escape

/-- All of them are ASCII. -/
def Ascii (t : Text) : Prop := ∀ c ∈ t, c.toNat < 128

theorem binarySafe_iff {safe : Text} {b : UInt8} : binarySafe safe b = true ↔ ∃ c ∈ safe, c.toNat = b.toNat := by
  simp [binarySafe]

theorem ofNat_toNat (c : Char) : Char.ofNat c.toNat = c := Char.ofNat_toNat c

theorem char_eq_of_toNat {c d : Char} (h : c.toNat = d.toNat) : c = d := by
  rw [← ofNat_toNat c, h, ofNat_toNat]

theorem hexDigit_ascii : ∀ n : Fin 16, (hexDigit n.val).toNat < 128 ∧ Char.ofNat (UInt8.ofNat (hexDigit n.val).toNat).toNat = hexDigit n.val := by
  decide

/-- A byte which is neither a space nor safe is escaped. -/
theorem decodeAscii_escape (b : UInt8) :
    ([0x25, UInt8.ofNat (hexDigit (b.toNat / 16)).toNat, UInt8.ofNat (hexDigit (b.toNat % 16)).toNat] : Bytes).all (fun b => b.toNat < 128) = true ∧
    ([0x25, UInt8.ofNat (hexDigit (b.toNat / 16)).toNat, UInt8.ofNat (hexDigit (b.toNat % 16)).toNat] : Bytes).map (fun b => Char.ofNat b.toNat)
      = escape b := by
  have hb := b.toNat_lt
  have h1 := hexDigit_ascii ⟨b.toNat / 16, by omega⟩
  have h2 := hexDigit_ascii ⟨b.toNat % 16, by omega⟩
  simp only at h1 h2
  refine ⟨?_, ?_⟩
  · simp only [List.all_cons, List.all_nil, Bool.and_true, Bool.and_eq_true, decide_eq_true_eq, UInt8.toNat_ofNat']
    exact ⟨by decide, by omega, by omega⟩
  · simp only [List.map_cons, List.map_nil, h1.2, h2.2, escape]
    rfl

theorem decodeAscii_append {a b : Bytes} {s t : Text} (ha : decodeAscii a = some s) (hb : decodeAscii b = some t) :
    decodeAscii (a ++ b) = some (s ++ t) := by
  unfold decodeAscii at *
  split at ha
  · split at hb
    · rename_i h1 h2
      rw [if_pos (by rw [List.all_append, h1, h2]; rfl)]
      simp only [Option.some.injEq] at ha hb ⊢
      rw [← ha, ← hb, List.map_append]
    · simp at hb
  · simp at ha

theorem quoteByte_escape {safe : Text} {query : Bool} {b : UInt8} (h1 : ¬ (query = true ∧ b = 0x20)) (h2 : binarySafe safe b = false) :
    decodeAscii (quoteByte safe query b) = some (escape b) := by
  have h1' : ¬ (query && b == 0x20) = true := by
    rw [Bool.and_eq_true, beq_iff_eq]; exact h1
  have := decodeAscii_escape b
  unfold quoteByte
  rw [if_neg h1', if_neg (by rw [h2]; simp), decodeAscii, if_pos this.1, this.2]

theorem decodeAscii_flatMap_escape {safe : Text} {query : Bool} : ∀ (bs : Bytes), (∀ b ∈ bs, ¬ (query = true ∧ b = 0x20) ∧ binarySafe safe b = false) →
    decodeAscii (bs.flatMap (quoteByte safe query)) = some (bs.flatMap escape) := by
  intro bs
  induction bs with
  | nil => intro _; rfl
  | cons b bs ih =>
    intro h
    rw [List.flatMap_cons, List.flatMap_cons]
    have hb := h b List.mem_cons_self
    exact decodeAscii_append (quoteByte_escape hb.1 hb.2) (ih fun b' h' => h b' (List.mem_cons_of_mem _ h'))

/-- With safe characters which are ASCII, `quote` works character by character. -/
theorem quote_char {safe : Text} {query : Bool} (hs : Ascii safe) (c : Char) :
    decodeAscii ((String.utf8EncodeChar c).flatMap (quoteByte safe query)) = some (piece safe query c) := by
  unfold piece
  by_cases hc : c.toNat < 128
  · have hu : (UInt8.ofNat c.toNat).toNat = c.toNat := by rw [UInt8.toNat_ofNat']; omega
    have hb : binarySafe safe (UInt8.ofNat c.toNat) = true ↔ c ∈ safe := by
      rw [binarySafe_iff, hu]
      constructor
      · rintro ⟨d, hd, he⟩; rw [← char_eq_of_toNat he]; exact hd
      · intro h; exact ⟨c, h, rfl⟩
    have hsp : UInt8.ofNat c.toNat = 0x20 ↔ c = ' ' := by
      rw [← UInt8.toNat_inj, hu]
      constructor
      · intro h; exact char_eq_of_toNat h
      · rintro rfl; rfl
    rw [encode_ascii hc, List.flatMap_cons, List.flatMap_nil, List.append_nil]
    by_cases h1 : query = true ∧ c = ' '
    · rw [if_pos h1, quoteByte, if_pos (by rw [h1.1, hsp.2 h1.2]; rfl)]; rfl
    · rw [if_neg h1]
      have h1' : ¬ (query = true ∧ UInt8.ofNat c.toNat = 0x20) := by rw [hsp]; exact h1
      by_cases h2 : c ∈ safe
      · rw [if_pos h2, quoteByte, if_neg (by rw [Bool.and_eq_true, beq_iff_eq]; exact h1'), if_pos (hb.2 h2), decodeAscii, if_pos (by simp [hu, hc]),
          List.map_cons, List.map_nil, hu, ofNat_toNat]
      · rw [if_neg h2, quoteByte_escape h1' (by cases hx : binarySafe safe (UInt8.ofNat c.toNat) with
          | false => rfl
          | true => exact absurd (hb.1 hx) h2)]
        simp
  · have h1 : ¬ (query = true ∧ c = ' ') := by rintro ⟨_, rfl⟩; exact hc (by decide)
    have h2 : c ∉ safe := fun h => hc (hs c h)
    rw [if_neg h1, if_neg h2]
    apply decodeAscii_flatMap_escape
    intro b hb
    have h128 := encode_not_ascii hc b hb
    refine ⟨?_, ?_⟩
    · rintro ⟨_, rfl⟩; exact absurd h128 (by decide)
    · cases hx : binarySafe safe b with
      | false => rfl
      | true =>
        obtain ⟨d, hd, he⟩ := binarySafe_iff.1 hx
        have := hs d hd
        omega

theorem quote_pieces {safe : Text} {query : Bool} (hs : Ascii safe) (t : Text) :
    decodeAscii ((encode t).flatMap (quoteByte safe query)) = some (t.flatMap (piece safe query)) := by
  induction t with
  | nil => rfl
  | cons c t ih =>
    have e : encode (c :: t) = String.utf8EncodeChar c ++ encode t := rfl
    rw [e, List.flatMap_append, List.flatMap_cons]
    exact decodeAscii_append (quote_char hs c) ih

theorem safeSet_ascii {safe protect : Text} {query : Bool} (h1 : Ascii safe) (h2 : Ascii protect) : Ascii (safeSet safe protect query) := by
  have ha : Ascii allowed := by unfold Ascii; decide
  have hq : Ascii queryNotSafe := by unfold Ascii; decide
  intro c hc
  unfold safeSet at hc
  rw [List.mem_append, List.mem_append, List.mem_append] at hc
  rcases hc with ((hc | hc) | hc) | hc
  · exact h1 c hc
  · exact ha c hc
  · exact h2 c hc
  · cases query
    · exact hq c (by simpa using hc)
    · simp at hc

/-! ### Reading back -/

/-- What `quote` makes of `c` is read back as `w`. -/
def Comes (safe : Text) (query query' : Bool) (c : Char) (w : Text) : Prop :=
  ∀ rest last out, ∃ last', loop none query' (piece safe query c ++ rest) (pending [] last out) = loop none query' rest (pending [] last' (out ++ w))

theorem loop_pieces {safe : Text} {query query' : Bool} {f : Char → Text} : ∀ (t : Text), (∀ c ∈ t, Comes safe query query' c (f c)) →
    ∀ last out, loop none query' (t.flatMap (piece safe query)) (pending [] last out) = some (out ++ t.flatMap f) := by
  intro t
  induction t with
  | nil => intro _ last out; simp [loop, finish, pending]
  | cons c t ih =>
    intro h last out
    rw [List.flatMap_cons]
    obtain ⟨last', hl⟩ := h c List.mem_cons_self (t.flatMap (piece safe query)) last out
    rw [hl, ih (fun c' h' => h c' (List.mem_cons_of_mem _ h'))]
    simp

/-- The text which comes back, if it is known for each character. -/
theorem unquote_quote {safe protect : Text} {query query' : Bool} (h1 : Ascii safe) (h2 : Ascii protect) (f : Char → Text) (t : Text)
    (h : ∀ c ∈ t, Comes (safeSet safe protect query) query query' c (f c)) :
    ∃ q, quote t safe protect query = some q ∧ unquote q none query' = some (t.flatMap f) := by
  refine ⟨_, quote_pieces (safeSet_ascii h1 h2) t, ?_⟩
  have := loop_pieces t h none []
  simpa [unquote, pending] using this

theorem flush_none {query' : Bool} (last : Option (Char × Char)) (out : Text) :
    flush none query' (pending [] last out) = pending [] last out := flush_pending (by simp) last out

theorem comes_plain {safe : Text} {query query' : Bool} {c : Char} (h0 : ¬ (query = true ∧ c = ' ')) (h1 : c ∈ safe) (h2 : c ≠ '%') :
    Comes safe query query' c [if c = '+' then ' ' else c] := by
  intro rest last out
  refine ⟨last, ?_⟩
  unfold piece
  rw [if_neg h0, if_pos h1]
  simp only [List.cons_append, List.nil_append]
  rw [loop_plain h2, flush_none]
  congr 1
  by_cases hp : c = '+' <;> simp [plainChar, pending, hp]

theorem comes_space {safe : Text} {query' : Bool} : Comes safe true query' ' ' [' '] := by
  intro rest last out
  refine ⟨last, ?_⟩
  have : piece safe true ' ' = ['+'] := by simp [piece]
  rw [this]
  simp only [List.cons_append, List.nil_append]
  rw [loop_plain (by decide), flush_none]
  congr 1

theorem comes_escaped {safe : Text} {query query' : Bool} {c d : Char} (h0 : ¬ (query = true ∧ c = ' ')) (h1 : c ∉ safe)
    (h2 : (String.utf8EncodeChar c).map rereadByte = String.utf8EncodeChar d) : Comes safe query query' c (shown none query' [d]) := by
  intro rest last out
  unfold piece
  rw [if_neg h0, if_neg h1]
  obtain ⟨last', hl⟩ := loop_escapes (uns := none) (query := query') rest (String.utf8EncodeChar c) [] last out (by
    intro q r hq hr hne
    rw [h2] at hq
    exact decode_prefix d hq (by simpa using hne) hr)
  refine ⟨last', ?_⟩
  rw [hl, h2, ← loop_flush]
  congr 1
  have hne : String.utf8EncodeChar d ≠ [] := List.length_pos_iff.1 (encode_length_pos d)
  have hd : decode (String.utf8EncodeChar d) = some [d] := by
    have := decode_encode [d]
    simpa [encode] using this
  simp [flush, pending, hne, hd]

theorem rereadByte_self {b : UInt8} (h1 : b.toNat / 16 ≠ 8 ∧ b.toNat / 16 ≠ 9) (h2 : b.toNat % 16 ≠ 8 ∧ b.toNat % 16 ≠ 9) : rereadByte b = b := by
  unfold rereadByte reread
  rw [if_neg h1.1, if_neg h1.2, if_neg h2.1, if_neg h2.2]
  rw [← UInt8.toNat_inj, UInt8.toNat_ofNat']
  have := b.toNat_lt
  omega

/-! ### C38 -/

/-- The digits of the escapes of a character are none of `8` and `9`. -/
def NoEightNine (c : Char) : Prop :=
  ∀ b ∈ String.utf8EncodeChar c, (b.toNat / 16 ≠ 8 ∧ b.toNat / 16 ≠ 9) ∧ (b.toNat % 16 ≠ 8 ∧ b.toNat % 16 ≠ 9)

/-- The characters which survive: a space in a query; a safe character other than `%` and `+`; an escaped character whose escapes have no `8` and
no `9` in them, and which is none of `+&=` if the text is unquoted as a query. -/
def Survives (safe protect : Text) (query query' : Bool) (c : Char) : Prop :=
  (query = true ∧ c = ' ') ∨
    (c ∈ safeSet safe protect query ∧ c ≠ '%' ∧ c ≠ '+') ∨
    (¬ (query = true ∧ c = ' ') ∧ c ∉ safeSet safe protect query ∧ NoEightNine c ∧ (query' = true → c ∉ queryNotSafe))

theorem shown_self {query' : Bool} {c : Char} (h : query' = true → c ∉ queryNotSafe) : shown none query' [c] = [c] := by
  unfold shown
  cases query' with
  | false => simp
  | true =>
    have := h rfl
    simp [this]

theorem comes_survives {safe protect : Text} {query query' : Bool} {c : Char} (h : Survives safe protect query query' c) :
    Comes (safeSet safe protect query) query query' c [c] := by
  rcases h with ⟨rfl, rfl⟩ | ⟨h1, h2, h3⟩ | ⟨h0, h1, h2, h3⟩
  · exact comes_space
  · by_cases h0 : query = true ∧ c = ' '
    · obtain ⟨rfl, rfl⟩ := h0; exact comes_space
    · have := comes_plain (query' := query') h0 h1 h2
      rwa [if_neg h3] at this
  · rw [← shown_self h3]
    refine comes_escaped h0 h1 ?_
    have : ∀ bs : Bytes, (∀ b ∈ bs, (b.toNat / 16 ≠ 8 ∧ b.toNat / 16 ≠ 9) ∧ (b.toNat % 16 ≠ 8 ∧ b.toNat % 16 ≠ 9)) → bs.map rereadByte = bs := by
      intro bs
      induction bs with
      | nil => intro _; rfl
      | cons b bs ih =>
        intro hb
        have h := hb b List.mem_cons_self
        rw [List.map_cons, rereadByte_self h.1 h.2, ih fun b' h' => hb b' (List.mem_cons_of_mem _ h')]
    exact this _ h2

/-- **C38, part.** A text whose characters survive comes back, whatever ASCII characters are declared safe. -/
theorem C38_partial (safe protect : Text) (h1 : Ascii safe) (h2 : Ascii protect) (query query' : Bool) (t : Text)
    (h : ∀ c ∈ t, Survives safe protect query query' c) :
    ∃ q, quote t safe protect query = some q ∧ unquote q none query' = some t := by
  have := unquote_quote h1 h2 (fun c => [c]) t fun c hc => comes_survives (h c hc)
  simpa using this

/-- **C38 is violated**: in any text around it, `é` comes back as `á` and a tabulator as the control character 1, since the digits `8` and `9` of
escapes are read as 0 and 1. This is so for query strings as well. -/
theorem C38_digits_violated (query query' : Bool) (t t' : Text) (ht : ∀ c ∈ t, Survives [] [] query query' c)
    (ht' : ∀ c ∈ t', Survives [] [] query query' c) :
    (∃ q, quote (t ++ ['é'] ++ t') [] [] query = some q ∧ unquote q none query' = some (t ++ ['á'] ++ t')) ∧
    (∃ q, quote (t ++ ['\t'] ++ t') [] [] query = some q ∧ unquote q none query' = some (t ++ ['\x01'] ++ t')) := by
  have key : ∀ c d : Char, ¬ (query = true ∧ c = ' ') → c ∉ safeSet [] [] query →
      (String.utf8EncodeChar c).map rereadByte = String.utf8EncodeChar d → (query' = true → d ∉ queryNotSafe) →
      ∃ q, quote (t ++ [c] ++ t') [] [] query = some q ∧ unquote q none query' = some (t ++ [d] ++ t') := by
    intro c d h0 h1 h2 h3
    have hasc : Ascii (safeSet [] [] query) := safeSet_ascii (by simp [Ascii]) (by simp [Ascii])
    refine ⟨_, quote_pieces hasc _, ?_⟩
    rw [List.flatMap_append, List.flatMap_append]
    have hfront : ∀ (t : Text), (∀ c ∈ t, Survives [] [] query query' c) → ∀ rest last out, ∃ last',
        loop none query' (t.flatMap (piece (safeSet [] [] query) query) ++ rest) (pending [] last out) =
          loop none query' rest (pending [] last' (out ++ t)) := by
      intro t
      induction t with
      | nil => intro _ rest last out; exact ⟨last, by simp⟩
      | cons a t ih =>
        intro h rest last out
        rw [List.flatMap_cons, List.append_assoc]
        obtain ⟨l1, hl1⟩ := comes_survives (h a List.mem_cons_self) (t.flatMap (piece (safeSet [] [] query) query) ++ rest) last out
        obtain ⟨l2, hl2⟩ := ih (fun c hc => h c (List.mem_cons_of_mem _ hc)) rest l1 (out ++ [a])
        exact ⟨l2, by rw [hl1, hl2]; simp⟩
    obtain ⟨l1, hl1⟩ := hfront t ht (piece (safeSet [] [] query) query c ++ t'.flatMap (piece (safeSet [] [] query) query)) none []
    obtain ⟨l2, hl2⟩ := comes_escaped (query' := query') h0 h1 h2 (t'.flatMap (piece (safeSet [] [] query) query)) l1 ([] ++ t)
    obtain ⟨l3, hl3⟩ := hfront t' ht' [] l2 ([] ++ t ++ shown none query' [d])
    have e : ({} : St) = pending [] none [] := rfl
    rw [unquote, e, List.append_assoc]
    have e2 : [c].flatMap (piece (safeSet [] [] query) query) = piece (safeSet [] [] query) query c := by simp
    rw [e2, hl1, hl2]
    rw [List.append_nil] at hl3
    rw [hl3, shown_self h3]
    simp [loop, finish, pending]
  refine ⟨key 'é' 'á' (by rintro ⟨_, h⟩; exact absurd h (by decide)) (by cases query <;> decide) (by decide +kernel) (fun _ => by decide),
    key '\t' '\x01' (by rintro ⟨_, h⟩; exact absurd h (by decide)) (by cases query <;> decide) (by decide +kernel) (fun _ => by decide)⟩

example : quote "a é".toList [] [] false = some "a%20%C3%A9".toList := by decide +kernel
example : unquote "a%20%C3%A9".toList = some "a á".toList := by decide +kernel

/-- **C38 is violated**: `quote` leaves `+` as it is, `unquote` makes a space of it. -/
theorem C38_plus_violated : quote ['a', '+', 'b'] [] [] false = some ['a', '+', 'b'] ∧ unquote ['a', '+', 'b'] = some ['a', ' ', 'b'] := by
  decide +kernel

/-- **C38 is violated**: the separators of query strings are quoted, but not unquoted: they come back as their escapes. -/
theorem C38_query_violated : ∀ c ∈ queryNotSafe, ∃ q, quote [c] [] [] true = some q ∧ unquote q none true = some q ∧ q ≠ [c] := by
  intro c hc
  have hq : queryNotSafe = ['+', '&', '='] := by decide
  have : c = '+' ∨ c = '&' ∨ c = '=' := by rw [hq] at hc; simpa using hc
  rcases this with rfl | rfl | rfl
  · exact ⟨"%2B".toList, by decide +kernel⟩
  · exact ⟨"%26".toList, by decide +kernel⟩
  · exact ⟨"%3D".toList, by decide +kernel⟩

/-! ### C39 -/

/-- A digit of an escape. -/
def isHexDigit (c : Char) : Prop := c ∈ "0123456789ABCDEF".toList

/-- What the output may consist of. -/
def Permitted (safe protect : Text) (query : Bool) (w : Text) : Prop :=
  (query = true ∧ w = ['+']) ∨ (∃ c, (c ∈ safe ∨ c ∈ allowed ∨ c ∈ protect ∨ (query = false ∧ c ∈ queryNotSafe)) ∧ w = [c]) ∨
    ∃ a b, isHexDigit a ∧ isHexDigit b ∧ w = ['%', a, b]

theorem hexDigit_is : ∀ n : Fin 16, hexDigit n.val ∈ "0123456789ABCDEF".toList := by decide

/-- **C39.** What `quote` returns consists of unreserved characters, permitted punctuation, characters declared safe or protected, of `+` in a
query and of well-formed escapes. -/
theorem C39_output (t safe protect q : Text) (query : Bool) (h : quote t safe protect query = some q) :
    ∃ ws : List Text, (∀ w ∈ ws, Permitted safe protect query w) ∧ q = ws.flatten := by
  unfold quote at h
  generalize encode t = bs at h
  induction bs generalizing q with
  | nil =>
    simp only [List.flatMap_nil, decodeAscii, List.all_nil, ↓reduceIte, List.map_nil, Option.some.injEq] at h
    exact ⟨[], by simp, h.symm⟩
  | cons b bs ih =>
    rw [List.flatMap_cons] at h
    unfold decodeAscii at h
    split at h
    · rename_i hall
      rw [List.all_append, Bool.and_eq_true] at hall
      simp only [Option.some.injEq, List.map_append] at h
      obtain ⟨ws, hw, he⟩ := ih _ (by rw [decodeAscii, if_pos hall.2])
      refine ⟨((quoteByte (safeSet safe protect query) query b).map fun b => Char.ofNat b.toNat) :: ws, ?_, ?_⟩
      · intro w hw'
        rcases List.mem_cons.1 hw' with rfl | hw'
        · unfold quoteByte at hall ⊢
          split
          · rename_i hq
            rw [Bool.and_eq_true] at hq
            exact Or.inl ⟨hq.1, rfl⟩
          · split
            · rename_i hsafe
              obtain ⟨c, hc, hcb⟩ := binarySafe_iff.1 hsafe
              refine Or.inr (Or.inl ⟨c, ?_, ?_⟩)
              · unfold safeSet at hc
                rw [List.mem_append, List.mem_append, List.mem_append] at hc
                rcases hc with ((hc | hc) | hc) | hc
                · exact Or.inl hc
                · exact Or.inr (Or.inl hc)
                · exact Or.inr (Or.inr (Or.inl hc))
                · cases query
                  · exact Or.inr (Or.inr (Or.inr ⟨rfl, by simpa using hc⟩))
                  · simp at hc
              · rw [List.map_cons, List.map_nil, ← hcb, ofNat_toNat]
            · have hb := b.toNat_lt
              refine Or.inr (Or.inr ⟨hexDigit (b.toNat / 16), hexDigit (b.toNat % 16), hexDigit_is ⟨b.toNat / 16, by omega⟩,
                hexDigit_is ⟨b.toNat % 16, by omega⟩, (decodeAscii_escape b).2⟩)
        · exact hw w hw'
      · rw [List.flatten_cons, ← he, h]
    · simp at h

/-- **C39.** If the characters declared safe or protected are ASCII, `quote` returns. -/
theorem C39_returns (t safe protect : Text) (query : Bool) (h1 : Ascii safe) (h2 : Ascii protect) : (quote t safe protect query).isSome := by
  rw [quote, quote_pieces (safeSet_ascii h1 h2) t]; rfl

/-- If they are not, it can raise (`UnicodeDecodeError`). -/
theorem C39_raises : quote ['退'] ['é'] [] false = none := by decide +kernel

example : quote "x/y z?".toList "/".toList [] true = some "x/y+z%3F".toList := by decide +kernel

/-! ### C62 -/

/-- Text without `%` and `+`. -/
def PlainText (t : Text) : Prop := ∀ c ∈ t, c ≠ '%' ∧ c ≠ '+'

theorem loop_plainText {query : Bool} : ∀ (t : Text), PlainText t → ∀ rest last out,
    loop none query (t ++ rest) (pending [] last out) = loop none query rest (pending [] last (out ++ t)) := by
  intro t
  induction t with
  | nil => intro _ rest last out; simp
  | cons c t ih =>
    intro h rest last out
    have hc := h c List.mem_cons_self
    rw [List.cons_append, loop_plain hc.1, flush_none]
    have : plainChar none (pending [] last out) c = pending [] last (out ++ [c]) := by simp [plainChar, pending, hc.2]
    rw [this, ih fun c' h' => h c' (List.mem_cons_of_mem _ h')]
    simp

/-- **C62, part.** Text without `%` and `+` is left as it is. -/
theorem C62_plain_partial (t : Text) (query : Bool) (h : PlainText t) : unquote t none query = some t := by
  have := loop_plainText (query := query) t h [] none []
  rw [List.append_nil] at this
  have e : ({} : St) = pending [] none [] := rfl
  rw [unquote, e, this]
  simp [loop, finish, pending]

/-- **C62, part.** A single escape which cannot be decoded is kept, within text without further `%` and `+`. -/
theorem C62_escape_partial (t t' : Text) (query : Bool) (ht : PlainText t) (ht' : PlainText t') (c0 c1 : Char) (a b : Nat)
    (ha : hexValue c0 = some a) (hb : hexValue c1 = some b) (hd : decode [UInt8.ofNat (a * 16 ||| b)] = none) :
    unquote (t ++ '%' :: c0 :: c1 :: t') none query = some (t ++ '%' :: c0 :: c1 :: t') := by
  have e : ({} : St) = pending [] none [] := rfl
  rw [unquote, e, loop_plainText t ht, loop_esc, ha, hb]
  simp only
  generalize UInt8.ofNat (a * 16 ||| b) = v at hd
  rw [flush_none]
  have hbad : ∀ (t' : Text), PlainText t' → ∀ out, loop none query t' { pct := some [v], last := none, out } = some (out ++ t') := by
    intro t'
    induction t' with
    | nil => intro _ out; simp [loop, finish, hd]
    | cons c t' ih =>
      intro h out
      have hc := h c List.mem_cons_self
      rw [loop_plain hc.1]
      have hf : flush none query { pct := some [v], last := none, out } =
          { pct := some [v], last := none, out } := by simp [flush, hd]
      have hp : plainChar none { pct := some [v], last := none, out } c =
          { pct := some [v], last := none, out := out ++ [c] } := by simp [plainChar, hc.2]
      rw [hf, hp, ih fun c' h' => h c' (List.mem_cons_of_mem _ h')]
      simp
  cases t' with
  | nil => simp [loop, finish, pending, hd]
  | cons c t' =>
    have hc := ht' c List.mem_cons_self
    rw [loop_plain hc.1]
    have hf : flush none query { pct := some [v], last := some (c0, c1), out := t } =
        { pct := some [v], last := some (c0, c1), out := t } := by simp [flush, hd]
    have hp : plainChar none { pct := some [v], last := some (c0, c1), out := t } c =
        { pct := some [v], last := none, out := t ++ ['%', c0, c1] ++ [c] } := by simp [plainChar, hc.2]
    have hs : (({ pending [] none ([] ++ t) with
        pct := some ((pending [] none ([] ++ t)).pct.getD [] ++ [v]), last := some (c0, c1) }) : St) =
        { pct := some [v], last := some (c0, c1), out := t } := by simp [pending]
    rw [hs, hf, hp, hbad t' fun c' h' => ht' c' (List.mem_cons_of_mem _ h')]
    simp

theorem decode_FF (bs : Bytes) : decode (0xFF :: bs) = none := by
  have h : (0xFF :: bs).toByteArray.utf8DecodeChar? 0 = none := by
    have hs : 0 < (0xFF :: bs).toByteArray.size := by rw [List.size_toByteArray]; simp
    have hg : (0xFF :: bs).toByteArray[0] = 0xFF := by simp
    unfold ByteArray.utf8DecodeChar?
    rw [dif_pos hs]
    split
    · rfl
    all_goals
      rename_i h
      rw [hg] at h
      have hi : ByteArray.utf8DecodeChar?.parseFirstByte 0xFF = .invalid := by rfl
      rw [hi] at h
      cases h
  unfold decode
  rw [List.length_cons, decodeRounds, h]

/-- **C62 is violated**: of several escapes which cannot be decoded only the last is kept, the others are lost. -/
theorem C62_lost_violated (n : Nat) (t : Text) (ht : PlainText t) :
    unquote (t ++ (List.replicate (n + 1) "%FF".toList).flatten) = some (t ++ "%FF".toList) := by
  have hr : ∀ n p, loop none false ((List.replicate n "%FF".toList).flatten) { pct := some (0xFF :: p), last := some ('F', 'F'), out := t } =
      some (t ++ "%FF".toList) := by
    intro n
    induction n with
    | zero => intro p; simp [loop, finish, decode_FF]
    | succ n ih =>
      intro p
      have e : (List.replicate (n + 1) "%FF".toList).flatten = '%' :: 'F' :: 'F' :: (List.replicate n "%FF".toList).flatten := by
        rw [List.replicate_succ, List.flatten_cons]; rfl
      have hv : hexValue 'F' = some 15 := by decide
      have hf : flush none false { pct := some (0xFF :: p), last := some ('F', 'F'), out := t } =
          { pct := some (0xFF :: p), last := some ('F', 'F'), out := t } := by simp [flush, decode_FF]
      rw [e, loop_esc, hv, hf]
      exact ih (p ++ [0xFF])
  have e : (List.replicate (n + 1) "%FF".toList).flatten = '%' :: 'F' :: 'F' :: (List.replicate n "%FF".toList).flatten := by
    rw [List.replicate_succ, List.flatten_cons]; rfl
  have e0 : ({} : St) = pending [] none [] := rfl
  have hv : hexValue 'F' = some 15 := by decide
  rw [unquote, e0, loop_plainText t ht, e, loop_esc, hv, flush_none]
  exact hr n []

/-- **C62 is violated**: a `%` at the end of a text is lost, with the character after it if there is one. -/
theorem C62_truncated_violated (t : Text) (ht : PlainText t) (query : Bool) (c : Char) :
    unquote (t ++ ['%']) none query = some t ∧ unquote (t ++ ['%', c]) none query = some t := by
  have e : ({} : St) = pending [] none [] := rfl
  constructor
  · rw [unquote, e, loop_plainText t ht]
    simp [loop, flush_none]
    simp [finish, pending]
  · rw [unquote, e, loop_plainText t ht]
    simp [loop, flush_none]
    simp [finish, pending]

/-- **C62 is violated**: a `%` which is not followed by two digits raises `ValueError`. -/
theorem C62_raises_violated (t rest : Text) (ht : PlainText t) (query : Bool) (c0 c1 : Char) (h : hexValue c0 = none ∨ hexValue c1 = none) :
    unquote (t ++ '%' :: c0 :: c1 :: rest) none query = none := by
  have e : ({} : St) = pending [] none [] := rfl
  rw [unquote, e, loop_plainText t ht, loop_esc]
  rcases h with h | h
  · rw [h]
  · rw [h]; cases hexValue c0 <;> rfl

example : unquote "50% off".toList = none := by decide +kernel
example : unquote "%FF%41".toList = some "%41".toList := by decide +kernel

end Verif.Quoting
