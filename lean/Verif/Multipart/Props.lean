import Verif.Multipart.Model

/-!
# C99: the size of a multipart body

C99 says that the size of a `MultipartWriter`, if it has one, is the number of the bytes it writes.
-/

namespace Verif.Multipart

open Http (Bytes Headers crlf)

/-- A payload whose size, if it has one, is the number of the bytes it gives to the writer. -/
def Payload.Truthful (p : Payload) : Prop := ∀ n, p.size = some n → p.chunks.flatten.length = n

theorem append_cases {fold : Bytes → Bytes} {w w' : Writer} {p : Payload} (h : w.append fold p = some w') :
    ∃ content transfer, contentOf fold (typed fold p) = some content ∧ transferOf fold (typed fold p) = some transfer ∧
      w' = { w with
        size := sizeWith w p.size content transfer (Http.writeHeaders (measured fold (typed fold p) p.size content transfer) ++ crlf)
        data := w.data ++ [⟨{ p with headers := measured fold (typed fold p) p.size content transfer },
          Http.writeHeaders (measured fold (typed fold p) p.size content transfer) ++ crlf, content, transfer⟩] } := by
  simp only [Writer.append] at h
  split at h
  · cases h
  · rename_i content hc
    split at h
    · cases h
    · rename_i transfer ht
      exact ⟨content, transfer, hc, ht, (Option.some.inj h).symm⟩

/-- The invariant: the size is known if and only if the sizes of all are, and then it is right. -/
structure Sized (codec : Codec) (w : Writer) : Prop where
  empty : w.data = [] → w.size = none
  known : w.data ≠ [] → (w.size.isSome ↔ ∀ e ∈ w.data, e.payload.size.isSome ∧ e.content = none ∧ e.transfer = none)
  right : ∀ n, w.size = some n → (∀ e ∈ w.data, e.payload.Truthful) → (w.written codec).length = n

theorem entry_length {codec : Codec} {boundary : Bytes} {e : Entry} (hc : e.content = none) (ht : e.transfer = none) :
    (e.written codec boundary).length = 6 + boundary.length + e.payload.chunks.flatten.length + e.headers.length := by
  have : e.body codec = e.payload.chunks.flatten := by simp [Entry.body, hc, ht]
  simp only [Entry.written, this, List.length_append, dashes, crlf, List.length_cons, List.length_nil]
  omega

theorem written_append (codec : Codec) (w : Writer) (e : Entry) (size : Option Nat) :
    (Writer.written codec { w with size, data := w.data ++ [e] }).length = (w.written codec).length + (e.written codec w.boundary).length := by
  simp only [Writer.written, List.flatMap_append, List.length_append, List.flatMap_cons, List.flatMap_nil, List.append_nil]
  omega

theorem Sized.append {codec : Codec} {fold : Bytes → Bytes} {w w' : Writer} {p : Payload} (hw : Sized codec w) (h : w.append fold p = some w') :
    Sized codec w' := by
  obtain ⟨content, transfer, _, _, rfl⟩ := append_cases h
  generalize Http.writeHeaders (measured fold (typed fold p) p.size content transfer) ++ crlf = rendered
  generalize measured fold (typed fold p) p.size content transfer = headers
  refine ⟨by simp, fun _ => ?_, fun n hn htruth => ?_⟩
  · simp only [List.mem_append, List.mem_cons, List.not_mem_nil, or_false]
    simp only [sizeWith]
    by_cases h0 : w.data = []
    · simp only [h0, ne_eq, not_true, if_false, List.not_mem_nil, false_or, forall_eq]
      cases p.size with
      | none => simp
      | some k => by_cases hk : content = none ∧ transfer = none <;> simp [hk]
    · simp only [ne_eq, h0, not_false_iff, if_true]
      cases hs : w.size with
      | none =>
        simp only [Option.isSome_none, Bool.false_eq_true, false_iff]
        intro hall
        have := (hw.known h0).mpr fun e he => hall e (.inl he)
        simp [hs] at this
      | some k =>
        have hk := (hw.known h0).mp (by simp [hs])
        cases hp : p.size with
        | none =>
          simp only [Option.isSome_none, Bool.false_eq_true, false_iff]
          intro hall
          have := (hall _ (.inr rfl)).1
          simp at this
        | some j =>
          by_cases hj : content = none ∧ transfer = none
          · simp only [hj, and_self, if_true, Option.isSome_some, true_iff]
            rintro e (he | rfl)
            · exact hk e he
            · simp
          · simp only [hj, if_false, Option.isSome_none, Bool.false_eq_true, false_iff]
            intro hall
            exact hj (hall _ (.inr rfl)).2
  · have hlen := written_append codec w ⟨{ p with headers := headers }, rendered, content, transfer⟩
      (sizeWith w p.size content transfer rendered)
    dsimp only at hn
    rw [hlen]
    simp only [sizeWith] at hn
    cases hp : p.size with
    | none =>
      rw [hp] at hn
      by_cases h0 : w.data = []
      · simp [h0] at hn
      · cases hs : w.size with
        | none => simp [h0, hs] at hn
        | some k => simp [h0, hs] at hn
    | some j =>
      rw [hp] at hn
      have hj : content = none ∧ transfer = none := by
        by_cases hj : content = none ∧ transfer = none
        · exact hj
        · exfalso
          by_cases h0 : w.data = []
          · simp [h0, hj] at hn
          · cases hs : w.size with
            | none => simp [h0, hs] at hn
            | some k => simp [h0, hs, hj] at hn
      have ht : p.chunks.flatten.length = j := htruth ⟨{ p with headers := headers }, rendered, content, transfer⟩ (by simp) j hp
      rw [entry_length hj.1 hj.2]
      dsimp only
      rw [ht]
      by_cases h0 : w.data = []
      · simp only [h0, ne_eq, not_true, if_false, hj, and_self, if_true, Option.some.injEq] at hn
        simp only [Writer.written, h0, List.flatMap_nil, List.nil_append, List.length_append, dashes, crlf, List.length_cons, List.length_nil]
        omega
      · cases hs : w.size with
        | none => simp [h0, hs] at hn
        | some k =>
          simp only [ne_eq, h0, not_false_iff, if_true, hs, hj, and_self, Option.some.injEq] at hn
          have := hw.right k hs fun e he => htruth e (by simp [he])
          omega

theorem Sized.appendAll {codec : Codec} {fold : Bytes → Bytes} (ps : List Payload) : ∀ {w : Writer}, Sized codec w → Sized codec (w.appendAll fold ps) := by
  induction ps with
  | nil => intro w h; exact h
  | cons p ps ih =>
    intro w h
    simp only [Writer.appendAll, List.foldl_cons]
    refine ih ?_
    cases ha : w.append fold p with
    | none => exact h
    | some w' => exact h.append ha

theorem Sized.new (codec : Codec) (boundary : Bytes) : Sized codec { boundary } := by
  refine ⟨fun _ => rfl, fun h => absurd rfl h, fun n h => by cases h⟩

/-- The payloads which were appended, in order. -/
theorem appendAll_payloads {fold : Bytes → Bytes} (ps : List Payload) : ∀ (w : Writer),
    ∀ e ∈ (w.appendAll fold ps).data, e ∈ w.data ∨ ∃ p ∈ ps, e.payload.size = p.size ∧ e.payload.chunks = p.chunks := by
  induction ps with
  | nil => intro w e he; exact .inl he
  | cons p ps ih =>
    intro w e he
    simp only [Writer.appendAll, List.foldl_cons] at he
    rcases ih _ e he with h | ⟨q, hq, h⟩
    · cases ha : w.append fold p with
      | none => rw [ha] at h; exact .inl h
      | some w' =>
        rw [ha] at h
        obtain ⟨_, _, _, _, rfl⟩ := append_cases ha
        simp only [Option.getD_some, List.mem_append, List.mem_cons, List.not_mem_nil, or_false] at h
        rcases h with h | rfl
        · exact .inl h
        · exact .inr ⟨p, by simp, rfl, rfl⟩
    · exact .inr ⟨q, by simp [hq], h⟩

/-- **C99**, part: whatever was appended to a writer, its size is the number of bytes it writes, if the sizes of the payloads are. -/
theorem C99_size_partial (codec : Codec) (fold : Bytes → Bytes) (boundary : Bytes) (ps : List Payload) (n : Nat) (hp : ∀ p ∈ ps, p.Truthful)
    (h : (Writer.appendAll fold { boundary } ps).size = some n) : ((Writer.appendAll fold { boundary } ps).written codec).length = n := by
  refine (Sized.appendAll ps (Sized.new codec boundary)).right n h fun e he => ?_
  rcases appendAll_payloads ps { boundary } e he with h' | ⟨p, hpm, h1, h2⟩
  · cases h'
  · intro k hk
    rw [h2]
    exact hp p hpm k (h1 ▸ hk)

/-- **C99**: a writer has a size if and only if something was appended, everything has a size, and nothing is encoded. -/
theorem C99_known (fold : Bytes → Bytes) (boundary : Bytes) (ps : List Payload) :
    (Writer.appendAll fold { boundary } ps).size.isSome ↔
      (Writer.appendAll fold { boundary } ps).data ≠ [] ∧
        ∀ e ∈ (Writer.appendAll fold { boundary } ps).data, e.payload.size.isSome ∧ e.content = none ∧ e.transfer = none := by
  have hs := Sized.appendAll (fold := fold) ps (Sized.new ⟨Unit, fun _ => (), fun _ _ => ((), []), fun _ => [], id⟩ boundary)
  by_cases h0 : (Writer.appendAll fold { boundary } ps).data = []
  · simp [h0, hs.empty h0]
  · simp only [hs.known h0, ne_eq, h0, not_false_iff, true_and]

/-! ### The payloads -/

theorem bytes_truthful (headers : Headers) (contentType data : Bytes) : (Payload.bytes headers contentType data).Truthful := by
  intro n h
  simp only [Payload.bytes, Option.some.injEq] at h
  simp [Payload.bytes, h]

/-- What is read of a file is what is in it. -/
theorem file_truthful (headers : Headers) (contentType stored : Bytes) (chunks : List Bytes) (h : chunks.flatten = stored) :
    (Payload.file headers contentType stored chunks).Truthful := by
  intro n hn
  simp only [Payload.file, Option.some.injEq] at hn
  simp only [Payload.file]
  rw [h, hn]

/-- **C99**: a writer is a payload with the right size, if nothing is appended to it behind that. -/
theorem C99_nested (codec : Codec) (fold : Bytes → Bytes) (boundary : Bytes) (ps : List Payload) (headers : Headers) (contentType : Bytes)
    (hp : ∀ p ∈ ps, p.Truthful) :
    (Payload.nested headers contentType codec (Writer.appendAll fold { boundary } ps) (Writer.appendAll fold { boundary } ps)).Truthful := by
  intro n h
  simpa [Payload.nested] using C99_size_partial codec fold boundary ps n hp h

theorem appendAll_one (fold : Bytes → Bytes) (w : Writer) (p : Payload) : w.appendAll fold [p] = (w.append fold p).getD w := rfl

/-- **C99 is violated**: something is appended to a writer which was appended to another one.  The size of the other one is too small
by all of it, whatever it is. -/
theorem C99_stale_violated (codec : Codec) (fold : Bytes → Bytes) (boundary inner : Bytes) (ps : List Payload) (p : Payload) (w : Writer)
    (headers : Headers) (contentType : Bytes) (hps : ∀ q ∈ ps, q.Truthful)
    (hw : (Writer.appendAll fold { boundary := inner } ps).append fold p = some w) (n : Nat)
    (h : (Writer.appendAll fold { boundary }
      [Payload.nested headers contentType codec (Writer.appendAll fold { boundary := inner } ps) w]).size = some n) :
    n < ((Writer.appendAll fold { boundary }
      [Payload.nested headers contentType codec (Writer.appendAll fold { boundary := inner } ps) w]).written codec).length := by
  rw [appendAll_one] at h ⊢
  cases ha : Writer.append fold { boundary } (Payload.nested headers contentType codec (Writer.appendAll fold { boundary := inner } ps) w) with
  | none => rw [ha] at h; cases h
  | some v =>
    rw [ha] at h
    simp only [Option.getD_some] at h ⊢
    obtain ⟨content, transfer, _, _, hv⟩ := append_cases ha
    generalize Http.writeHeaders _ ++ crlf = rendered at hv
    generalize measured fold _ _ content transfer = hs at hv
    subst hv
    dsimp only at h
    simp only [sizeWith, Payload.nested] at h
    cases hsz : (Writer.appendAll fold { boundary := inner } ps).size with
    | none => rw [hsz] at h; simp at h
    | some k =>
      have hk := C99_size_partial codec fold inner ps k hps hsz
      have hwl : k < (w.written codec).length := by
        obtain ⟨c, t, _, _, rfl⟩ := append_cases hw
        rw [written_append, hk]
        simp only [Entry.written, List.length_append, dashes, crlf, List.length_cons, List.length_nil]
        omega
      by_cases hj : content = none ∧ transfer = none
      · rw [written_append]
        rw [entry_length hj.1 hj.2]
        simp only [hsz, hj, and_self, if_true] at h
        simp only [Writer.written, List.flatMap_nil, List.nil_append, List.length_append, dashes, crlf, List.length_cons, List.length_nil,
          Payload.nested, List.flatten_cons, List.flatten_nil, List.append_nil] at h hwl ⊢
        simp at h
        omega
      · simp only [hsz, hj, if_false] at h
        simp at h

/-- An instance: the size says 106, and 152 bytes are written. -/
example : ∃ w, (Writer.appendAll id { boundary := [99] } [Payload.bytes [] [97] [1]]).append id (Payload.bytes [] [97] [2]) = some w ∧
    (Writer.appendAll id { boundary := [98] } [Payload.nested [] [97] ⟨Unit, fun _ => (), fun _ _ => ((), []), fun _ => [], id⟩
      (Writer.appendAll id { boundary := [99] } [Payload.bytes [] [97] [1]]) w]).size = some 106 :=
  ⟨_, rfl, by with_unfolding_all decide⟩

/-- **C99 is violated**: the size of a text file is the number of the bytes in the file, but what is written is its text in the encoding
of the payload.  Here a file has `\r\n` in it, which is read as `\n`. -/
theorem C99_text_violated :
    ¬ (Payload.text [] [] [97, 13, 10] [[97, 10]] (id : Bytes → Bytes)).Truthful ∧
    (Writer.appendAll id { boundary := [98] } [Payload.text [] [] [97, 13, 10] [[97, 10]] (id : Bytes → Bytes)]).size ≠
      some ((Writer.appendAll id { boundary := [98] } [Payload.text [] [] [97, 13, 10] [[97, 10]] (id : Bytes → Bytes)]).written
        ⟨Unit, fun _ => (), fun _ _ => ((), []), fun _ => [], id⟩).length := by
  constructor
  · intro h
    exact absurd (h 3 rfl) (by decide)
  · with_unfolding_all decide

/-- An instance: two payloads. -/
example : (Writer.appendAll id { boundary := [98] } [Payload.bytes [] [97] [1, 2], Payload.bytes [] [97] []]).size =
    some ((Writer.appendAll id { boundary := [98] } [Payload.bytes [] [97] [1, 2], Payload.bytes [] [97] []]).written
      ⟨Unit, fun _ => (), fun _ _ => ((), []), fun _ => [], id⟩).length := by
  with_unfolding_all decide

end Verif.Multipart
