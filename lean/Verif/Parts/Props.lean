import Verif.Parts.Model

/-!
# Parts of urls: properties
-/

namespace Verif.Parts

variable {α β : Type}

/-! ## C388: reading of parts -/

/-- Whatever was read, a part made of a decoded text has it, and at most its encoded form beside. -/
theorem decoded_reads (enc dec : Option α → Option α) (x : Option α) : ∀ rs (p : Part α),
    (p.decodedSet = true ∧ p.decoded = x ∧ (p.encodedSet = true → p.encoded = enc x)) →
    (Part.reads enc dec p rs).decodedSet = true ∧ (Part.reads enc dec p rs).decoded = x ∧
      ((Part.reads enc dec p rs).encodedSet = true → (Part.reads enc dec p rs).encoded = enc x)
  | [], _, h => h
  | r :: rs, p, ⟨h1, h2, h3⟩ => by
    rw [Part.reads]
    apply decoded_reads enc dec x rs
    cases r with
    | decoded => simp [Part.read, Part.getDecoded, h1, h2]; exact h3
    | encoded =>
      rw [Part.read, Part.getEncoded]
      split
      · exact ⟨h1, h2, h3⟩
      · simp [Part.getDecoded, h1, h2]

/-- C388: A part made of a decoded text reads as it and as its encoded form, whatever was read before and how many times. -/
theorem C388_decoded (enc dec : Option α → Option α) (x : Option α) (rs : List Read) :
    ((Part.reads enc dec (.ofDecoded x) rs).read enc dec .decoded).2 = x ∧
      ((Part.reads enc dec (.ofDecoded x) rs).read enc dec .encoded).2 = enc x := by
  obtain ⟨h1, h2, h3⟩ := decoded_reads enc dec x rs (.ofDecoded x) ⟨rfl, rfl, by simp [Part.ofDecoded]⟩
  generalize Part.reads enc dec (.ofDecoded x) rs = p at *
  refine ⟨by simp [Part.read, Part.getDecoded, h1, h2], ?_⟩
  rw [Part.read, Part.getEncoded]
  split
  · rename_i h; exact h3 h
  · simp [Part.getDecoded, h1, h2]

theorem encoded_reads (enc dec : Option α → Option α) (x : Option α) : ∀ rs (p : Part α),
    (p.encodedSet = true ∧ p.encoded = x ∧ (p.decodedSet = true → p.decoded = dec x)) →
    (Part.reads enc dec p rs).encodedSet = true ∧ (Part.reads enc dec p rs).encoded = x ∧
      ((Part.reads enc dec p rs).decodedSet = true → (Part.reads enc dec p rs).decoded = dec x)
  | [], _, h => h
  | r :: rs, p, ⟨h1, h2, h3⟩ => by
    rw [Part.reads]
    apply encoded_reads enc dec x rs
    cases r with
    | decoded =>
      rw [Part.read, Part.getDecoded]
      split
      · exact ⟨h1, h2, h3⟩
      · simp [h1, h2]
    | encoded => simp [Part.read, Part.getEncoded, h1, h2]; exact h3

/-- C388: A part made of an encoded text reads as it, unchanged, and as its decoded form. -/
theorem C388_encoded (enc dec : Option α → Option α) (x : Option α) (rs : List Read) :
    ((Part.reads enc dec (.ofEncoded x) rs).read enc dec .encoded).2 = x ∧
      ((Part.reads enc dec (.ofEncoded x) rs).read enc dec .decoded).2 = dec x := by
  obtain ⟨h1, h2, h3⟩ := encoded_reads enc dec x rs (.ofEncoded x) ⟨rfl, rfl, by simp [Part.ofEncoded]⟩
  generalize Part.reads enc dec (.ofEncoded x) rs = p at *
  refine ⟨by simp [Part.read, Part.getEncoded, h1, h2], ?_⟩
  rw [Part.read, Part.getDecoded]
  split
  · rename_i h; exact h3 h
  · simp [h2]

theorem parsed_reads (serialize : β → Bool → Option α) (y : β) : ∀ rs (p : Parsed α β),
    (p.parsed = y ∧ (p.part.decodedSet = true → p.part.decoded = serialize y false) ∧
      (p.part.encodedSet = true → p.part.encoded = serialize y true)) →
    ((Parsed.reads serialize p rs).parsed = y ∧
      ((Parsed.reads serialize p rs).part.decodedSet = true → (Parsed.reads serialize p rs).part.decoded = serialize y false) ∧
      ((Parsed.reads serialize p rs).part.encodedSet = true → (Parsed.reads serialize p rs).part.encoded = serialize y true))
  | [], _, h => h
  | r :: rs, p, ⟨h1, h2, h3⟩ => by
    rw [Parsed.reads]
    apply parsed_reads serialize y rs
    cases r with
    | decoded =>
      rw [Parsed.read]
      split
      · exact ⟨h1, h2, h3⟩
      · exact ⟨h1, fun _ => by rw [← h1], h3⟩
    | encoded =>
      rw [Parsed.read]
      split
      · exact ⟨h1, h2, h3⟩
      · exact ⟨h1, h2, fun _ => by rw [← h1]⟩

/-- C388: A parsed part reads as its value serialized the wanted way, whatever was read before; its value stays. -/
theorem C388_parsed (serialize : β → Bool → Option α) (y : β) (rs : List Read) :
    ((Parsed.reads serialize (.ofParsed y) rs).read serialize .decoded).2 = serialize y false ∧
      ((Parsed.reads serialize (.ofParsed y) rs).read serialize .encoded).2 = serialize y true ∧
      (Parsed.reads serialize (.ofParsed y) rs).parsed = y := by
  obtain ⟨h1, h2, h3⟩ := parsed_reads serialize y rs (.ofParsed (α := α) y)
    ⟨rfl, by simp [Parsed.ofParsed], by simp [Parsed.ofParsed]⟩
  generalize Parsed.reads serialize (.ofParsed y) rs = p at *
  refine ⟨?_, ?_, h1⟩
  · rw [Parsed.read]
    split
    · rename_i h; exact h2 h
    · rw [← h1]
  · rw [Parsed.read]
    split
    · rename_i h; exact h3 h
    · rw [← h1]

/-- C388: Made of a text, it reads as what is parsed of the text serialized. -/
theorem C388_text (parse : Option α → Bool → β) (serialize : β → Bool → Option α) (x : Option α) (isEncoded : Bool)
    (rs : List Read) :
    ((Parsed.reads serialize (.ofText parse x isEncoded) rs).read serialize .decoded).2 = serialize (parse x isEncoded) false ∧
      ((Parsed.reads serialize (.ofText parse x isEncoded) rs).read serialize .encoded).2 =
        serialize (parse x isEncoded) true := by
  obtain ⟨h1, h2, _⟩ := C388_parsed serialize (parse x isEncoded) rs
  exact ⟨h1, h2⟩

example : ((Part.reads (Option.map (· * 2)) (Option.map (· / 2)) (.ofEncoded (some 7)) [.decoded, .encoded]).read
    (Option.map (· * 2)) (Option.map (· / 2)) .encoded).2 = some 7 := by decide

/-! ## C389: comparing of parts -/

/-- C389: Parts are equal exactly if what they decode to is, whatever was read of them before. -/
theorem C389_parts [DecidableEq α] (enc dec : Option α → Option α) (x y : Option α) (rs ss : List Read) :
    (Part.eq dec (Part.reads enc dec (.ofDecoded x) rs) (Part.reads enc dec (.ofDecoded y) ss) = true ↔ x = y) ∧
    (Part.eq dec (Part.reads enc dec (.ofDecoded x) rs) (Part.reads enc dec (.ofEncoded y) ss) = true ↔ x = dec y) ∧
    (Part.eq dec (Part.reads enc dec (.ofEncoded x) rs) (Part.reads enc dec (.ofEncoded y) ss) = true ↔ dec x = dec y) := by
  have a := (C388_decoded enc dec x rs).1
  have b := (C388_decoded enc dec y ss).1
  have c := (C388_encoded enc dec x rs).2
  have d := (C388_encoded enc dec y ss).2
  rw [Part.read] at a b c d
  refine ⟨?_, ?_, ?_⟩
  · rw [Part.eq, a, b, decide_eq_true_iff]
  · rw [Part.eq, a, d, decide_eq_true_iff]
  · rw [Part.eq, c, d, decide_eq_true_iff]

/-- C389: A part read back from its encoded form is equal to it, if decoding undoes encoding. -/
theorem C389_back [DecidableEq α] (enc dec : Option α → Option α) (hd : ∀ x, dec (enc x) = x) (x : Option α)
    (rs : List Read) :
    Part.eq dec (.ofEncoded ((Part.reads enc dec (.ofDecoded x) rs).read enc dec .encoded).2)
      (Part.reads enc dec (.ofDecoded x) rs) = true := by
  rw [(C388_decoded enc dec x rs).2]
  have b := (C388_decoded enc dec x rs).1
  rw [Part.read] at b
  rw [Part.eq, b]
  simp [Part.getDecoded, Part.ofEncoded, hd]

/-- What the names or passwords of two user infos tell. -/
def decodes (dec : Option α → Option α) (isEncoded : Bool) : Option α → Option (Option α)
  | none => none
  | some x => some (match isEncoded with
    | true => dec (some x)
    | false => some x)

theorem differ_made [DecidableEq α] (dec : Option α → Option α) (e f : Bool) (x y : Option α) :
    differ dec (x.map (Part.made e)) (y.map (Part.made f)) = true ↔
      decodes dec e x ≠ decodes dec f y := by
  cases x <;> cases y <;> cases e <;> cases f <;>
    simp [differ, decodes, Part.made, Part.eq, Part.getDecoded, Part.ofEncoded, Part.ofDecoded]

/-- C389: User infos are equal exactly if their names and their passwords are, missing ones being equal only to missing
ones. -/
theorem C389_user [DecidableEq α] (dec : Option α → Option α) (e f : Bool) (n p n' p' : Option α) :
    UserInfo.eq dec (.create e n p) (.create f n' p') = true ↔
      decodes dec e n = decodes dec f n' ∧ decodes dec e p = decodes dec f p' := by
  have h1 := differ_made dec e f n n'
  have h2 := differ_made dec e f p p'
  show (if differ dec (n.map (Part.made e)) (n'.map (Part.made f)) then false
    else if differ dec (p.map (Part.made e)) (p'.map (Part.made f)) then false else true) = true ↔ _
  by_cases a : decodes dec e n = decodes dec f n'
  · rw [if_neg (fun h => h1.1 h a)]
    by_cases b : decodes dec e p = decodes dec f p'
    · rw [if_neg (fun h => h2.1 h b)]
      exact ⟨fun _ => ⟨a, b⟩, fun _ => rfl⟩
    · rw [if_pos (h2.2 b)]
      exact ⟨fun h => (by cases h), fun h => absurd h.2 b⟩
  · rw [if_pos (h1.2 a)]
    exact ⟨fun h => (by cases h), fun h => absurd h.1 a⟩

example : UserInfo.eq (Option.map (· / 2)) (.create true (some 7) none) (.create false (some 3) none) = true ∧
    UserInfo.eq (Option.map (· / 2)) (.create true (some 7) none) (.create false (some 3) (some 0)) = false := by decide

end Verif.Parts
