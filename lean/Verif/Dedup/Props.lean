import Verif.Dedup.Model

/-!
# Properties of the name deduplication

C56.
-/

namespace Verif.Dedup

/-! ### Choosing an index -/

theorem skip_spec (taken : List Nat) (n : Nat) :
    n ≤ (skip taken n).1 ∧ (skip taken n).1 ∉ taken ∧
      ∀ m ∈ taken, m < (skip taken n).1 ∨ m ∈ (skip taken n).2 := by
  have key : ∀ (turns : Nat) (taken : List Nat) (n : Nat), taken.length ≤ turns →
      n ≤ (skipLoop turns taken n).1 ∧ (skipLoop turns taken n).1 ∉ taken ∧
        ∀ m ∈ taken, m < (skipLoop turns taken n).1 ∨ m ∈ (skipLoop turns taken n).2 := by
    intro turns
    induction turns with
    | zero =>
      intro taken n h
      have : taken = [] := List.length_eq_zero_iff.mp (Nat.le_zero.mp h)
      subst this
      exact ⟨Nat.le_refl _, by simp, by simp⟩
    | succ turns ih =>
      intro taken n hl
      simp only [skipLoop]
      by_cases h : n ∈ taken
      · rw [if_pos h]
        by_cases he : taken.erase n = []
        · rw [if_pos he]
          have hall : ∀ m ∈ taken, m = n := by
            intro m hm
            rcases Decidable.em (m = n) with e | e
            · exact e
            · have := (List.mem_erase_of_ne e).mpr hm
              rw [he] at this
              cases this
          refine ⟨Nat.le_succ _, fun hm => ?_, fun m hm => ?_⟩
          · have := hall _ hm; simp at this
          · left; have := hall m hm; simp; omega
        · rw [if_neg he]
          have hlen := List.length_erase_of_mem h
          obtain ⟨h1, h2, h3⟩ := ih (taken.erase n) (n + 1) (by omega)
          refine ⟨by omega, fun hm => h2 ?_, fun m hm => ?_⟩
          · exact (List.mem_erase_of_ne (by omega)).mpr hm
          · rcases Decidable.em (m = n) with e | e
            · left; omega
            · exact h3 m ((List.mem_erase_of_ne e).mpr hm)
      · rw [if_neg h]
        exact ⟨Nat.le_refl _, h, fun m hm => Or.inr hm⟩
  exact key _ _ _ (Nat.le_refl _)

/-- The indexes an entry knows of. -/
def Known (entry : Nat × List Nat) (n : Nat) : Prop := n < entry.1 ∨ n ∈ entry.2

theorem choose_spec (entry : Nat × List Nat) (index : Option Nat) :
    ¬ Known entry (choose entry index).1 ∧ Known (choose entry index).2 (choose entry index).1 ∧
      ∀ m, Known entry m → Known (choose entry index).2 m := by
  have key : ¬ Known entry (skip entry.2 entry.1).1 ∧
      Known ((skip entry.2 entry.1).1 + 1, (skip entry.2 entry.1).2) (skip entry.2 entry.1).1 ∧
      ∀ m, Known entry m → Known ((skip entry.2 entry.1).1 + 1, (skip entry.2 entry.1).2) m := by
    obtain ⟨h1, h2, h3⟩ := skip_spec entry.2 entry.1
    refine ⟨?_, Or.inl (Nat.lt_succ_self _), ?_⟩
    · rintro (h | h)
      · omega
      · exact h2 h
    · rintro m (h | h)
      · left; simp only; omega
      · rcases h3 m h with h | h
        · left; simp only; omega
        · exact Or.inr h
  unfold choose
  cases index with
  | none => exact key
  | some i =>
    simp only
    split
    · rename_i h
      refine ⟨?_, Or.inr (by simp), ?_⟩
      · rintro (h' | h')
        · omega
        · exact h.2 h'
      · rintro m (h' | h')
        · exact Or.inl h'
        · exact Or.inr (List.mem_cons_of_mem _ h')
    · exact key

/-! ### Matching -/

theorem not_digit_space (u : Char → Option Nat) : isDigit u ' ' = false := rfl
theorem not_digit_dot (u : Char → Option Nat) : isDigit u '.' = false := rfl
theorem not_digit_close (u : Char → Option Nat) : isDigit u ')' = false := rfl

/-- A text behind the stem: it is empty, or starts with a blank or a dot. -/
def Behind (t : Text) : Prop := t = [] ∨ ∃ c r, t = c :: r ∧ (c = ' ' ∨ c = '.')

theorem Behind.takeWhile {u : Char → Option Nat} {t : Text} (h : Behind t) : t.takeWhile (isDigit u) = [] := by
  rcases h with rfl | ⟨c, r, rfl, rfl | rfl⟩
  · rfl
  · rw [List.takeWhile_cons, not_digit_space]; rfl
  · rw [List.takeWhile_cons, not_digit_dot]; rfl

theorem Behind.dropWhile {u : Char → Option Nat} {t : Text} (h : Behind t) : t.dropWhile (isDigit u) = t := by
  rcases h with rfl | ⟨c, r, rfl, rfl | rfl⟩
  · rfl
  · rw [List.dropWhile_cons, not_digit_space]; rfl
  · rw [List.dropWhile_cons, not_digit_dot]; rfl

theorem takeWhile_append_behind {u : Char → Option Nat} (x : Text) {t : Text} (h : Behind t) :
    (x ++ t).takeWhile (isDigit u) = x.takeWhile (isDigit u) := by
  induction x with
  | nil => exact h.takeWhile
  | cons c x ih =>
    rw [List.cons_append, List.takeWhile_cons, List.takeWhile_cons, ih]

theorem dropWhile_append_behind {u : Char → Option Nat} (x : Text) {t : Text} (h : Behind t) :
    (x ++ t).dropWhile (isDigit u) = x.dropWhile (isDigit u) ++ t := by
  induction x with
  | nil => exact h.dropWhile
  | cons c x ih =>
    rw [List.cons_append, List.dropWhile_cons, List.dropWhile_cons, ih]
    split <;> rfl

theorem indexed_append {u : Char → Option Nat} {x t r : Text} {n : Nat} (ht : Behind t) (hx : x ≠ [])
    (h : indexed u (x ++ t) = some (n, r)) : ∃ b, indexed u x = some (n, b) ∧ r = b ++ t := by
  match x, hx with
  | [a], _ =>
    exfalso
    rcases ht with rfl | ⟨c, t, rfl, hc⟩
    · cases h
    · simp only [List.cons_append, List.nil_append, indexed] at h
      split at h
      · rename_i hcond
        rw [hcond.2.1] at hc
        rcases hc with hc | hc <;> exact absurd hc (by decide)
      · cases h
  | a :: b :: x, _ =>
    simp only [List.cons_append, indexed, takeWhile_append_behind x ht, dropWhile_append_behind x ht] at h
    simp only [indexed]
    split at h
    · rename_i hcond
      rw [if_pos hcond]
      cases hd : x.dropWhile (isDigit u) with
      | nil =>
        rw [hd] at h
        rcases ht with rfl | ⟨c, t, rfl, hc⟩
        · cases h
        · simp only [List.nil_append] at h
          split at h
          · rename_i hc'
            rw [hc'] at hc
            rcases hc with hc | hc <;> exact absurd hc (by decide)
          · cases h
      | cons c y =>
        rw [hd] at h
        simp only [List.cons_append] at h ⊢
        split at h
        · rename_i hc
          rw [if_pos hc]
          simp only [Option.some.injEq, Prod.mk.injEq] at h
          exact ⟨y, by rw [← h.1], h.2.symm⟩
        · cases h
    · cases h

theorem indexed_suffix {u : Char → Option Nat} {x b : Text} {n : Nat} (h : indexed u x = some (n, b)) :
    ∃ a, x = a ++ b ∧ a ≠ [] := by
  match x with
  | [] => cases h
  | [_] => cases h
  | a :: c :: t =>
    simp only [indexed] at h
    split at h
    · split at h
      · rename_i d r hd
        split at h
        · simp only [Option.some.injEq, Prod.mk.injEq] at h
          refine ⟨a :: c :: (t.takeWhile (isDigit u) ++ [d]), ?_, by simp⟩
          have := List.takeWhile_append_dropWhile (p := isDigit u) (l := t)
          rw [hd] at this
          rw [← h.2]
          simp [this]
        · cases h
      · cases h
    · cases h

theorem ending_cons {c : Char} {t : Text} {e : Option Text} (h : ending (c :: t) = some e) : c = '.' := by
  rw [ending] at h
  split at h
  · assumption
  · cases h

theorem tail_none_iff (u : Char → Option Nat) (t : Text) :
    tail u t = none ↔ ending t = none ∧ ∀ n r, indexed u t = some (n, r) → ending r = none := by
  unfold tail
  cases hi : indexed u t with
  | none => simp
  | some x =>
    obtain ⟨n, r⟩ := x
    cases he : ending r with
    | none => simp [he]
    | some e => simp [he]

/-- The stem is what it is as long as nothing at its end looks like what comes behind it. -/
theorem stem_append {u : Char → Option Nat} (s t : Text) (x : Option Nat × Option Text) (hx : tail u t = some x)
    (h : ∀ a c b, s = a ++ c :: b → tail u (c :: b ++ t) = none) : stem u (s ++ t) = (s, x) := by
  induction s with
  | nil =>
    cases t with
    | nil =>
      have : tail u [] = some (none, none) := rfl
      rw [this] at hx
      cases hx; rfl
    | cons c t => simp only [List.nil_append, stem, hx]
  | cons c s ih =>
    have h0 := h [] c s rfl
    rw [List.cons_append] at h0 ⊢
    simp only [stem, h0]
    rw [ih fun a d b e => h (c :: a) d b (by rw [e]; rfl)]

theorem stem_spec (u : Char → Option Nat) (t : Text) :
    ∃ r, t = (stem u t).1 ++ r ∧ tail u r = some (stem u t).2 ∧
      ∀ a c b, (stem u t).1 = a ++ c :: b → tail u (c :: b ++ r) = none := by
  induction t with
  | nil => exact ⟨[], rfl, rfl, by intro a c b h; cases a <;> cases h⟩
  | cons c t ih =>
    cases hx : tail u (c :: t) with
    | some x =>
      have e : stem u (c :: t) = ([], x) := by simp only [stem, hx]
      rw [e]
      exact ⟨c :: t, rfl, hx, by intro a c b h; cases a <;> cases h⟩
    | none =>
      have e : stem u (c :: t) = (c :: (stem u t).1, (stem u t).2) := by simp only [stem, hx]
      rw [e]
      obtain ⟨r, h1, h2, h3⟩ := ih
      refine ⟨r, by rw [List.cons_append, ← h1], h2, ?_⟩
      intro a d b hab
      cases a with
      | nil =>
        simp only [List.nil_append, List.cons.injEq] at hab
        rw [← hab.1, ← hab.2, List.cons_append, ← h1]
        exact hx
      | cons a' a =>
        simp only [List.cons_append, List.cons.injEq] at hab
        exact h3 a d b hab.2

/-- The directory of a text is what is up to its last slash. -/
theorem splitDirectory_spec (t : Text) :
    t = (splitDirectory t).1 ++ (splitDirectory t).2 ∧ '/' ∉ (splitDirectory t).2 ∧
      ((splitDirectory t).1 = [] ∨ ∃ d, (splitDirectory t).1 = d ++ ['/']) := by
  induction t with
  | nil => simp [splitDirectory]
  | cons c t ih =>
    obtain ⟨h1, h2, h3⟩ := ih
    simp only [splitDirectory]
    split
    · rename_i hne
      refine ⟨by rw [List.cons_append, ← h1], h2, Or.inr ?_⟩
      rcases h3 with h3 | ⟨d, h3⟩
      · exact absurd h3 hne
      · exact ⟨c :: d, by simp only; rw [h3]; rfl⟩
    · rename_i he
      have he : (splitDirectory t).1 = [] := Classical.not_not.mp he
      rw [he] at h1
      split
      · rename_i hc
        refine ⟨congrArg (c :: ·) h1, h2, Or.inr ⟨[], by simp [hc]⟩⟩
      · rename_i hc
        refine ⟨congrArg (c :: ·) h1, ?_, Or.inl rfl⟩
        simp only [List.mem_cons, not_or]
        exact ⟨fun h => hc h.symm, h2⟩

theorem splitDirectory_append (d b : Text) (hb : '/' ∉ b) (hd : d = [] ∨ ∃ d', d = d' ++ ['/']) :
    splitDirectory (d ++ b) = (d, b) := by
  have h0 : ∀ b : Text, '/' ∉ b → splitDirectory b = ([], b) := by
    intro b
    induction b with
    | nil => intro _; rfl
    | cons c b ih =>
      intro h
      simp only [List.mem_cons, not_or] at h
      simp only [splitDirectory, ih h.2]
      rw [if_neg (by simp), if_neg (fun e => h.1 e.symm)]
  rcases hd with rfl | ⟨d', rfl⟩
  · exact h0 b hb
  · induction d' with
    | nil =>
      simp only [List.nil_append, List.cons_append, splitDirectory, h0 b hb]
      simp
    | cons c d' ih =>
      rw [List.cons_append, List.cons_append, splitDirectory, ih]
      simp

theorem digit_of_toDigits {u : Char → Option Nat} {n : Nat} {c : Char} (h : c ∈ Nat.toDigits 10 n) :
    digit u c = some (c.toNat - '0'.toNat) := by
  have := Nat.isDigit_of_mem_toDigits (by omega) (by omega) h
  simp only [Char.isDigit, Bool.and_eq_true, decide_eq_true_eq] at this
  have h1 : 48 ≤ c.toNat := this.1
  have h2 : c.toNat ≤ 57 := this.2
  unfold digit
  rw [if_pos (by omega), if_pos ⟨h1, h2⟩]

theorem value_toDigits (u : Char → Option Nat) (n : Nat) : value u (Nat.toDigits 10 n) = n := by
  have key : ∀ (ds : Text) (m : Nat), (∀ c ∈ ds, digit u c = some (c.toNat - '0'.toNat)) →
      ds.foldl (fun n c => 10 * n + (digit u c).getD 0) m = Nat.ofDigitChars 10 ds m := by
    intro ds
    induction ds with
    | nil => intro m _; simp
    | cons c ds ih =>
      intro m h
      rw [List.foldl_cons, Nat.ofDigitChars_cons, ih _ fun c hc => h c (by simp [hc]), h c (by simp)]
      rfl
  unfold value
  rw [key _ _ fun c hc => digit_of_toDigits hc]
  exact Nat.ofDigitChars_ten_toDigits

theorem indexed_toDigits (u : Char → Option Nat) (n : Nat) (r : Text) :
    indexed u (' ' :: '(' :: (Nat.toDigits 10 n ++ [')'] ++ r)) = some (n, r) := by
  have hall : ∀ c ∈ Nat.toDigits 10 n, isDigit u c = true := by
    intro c hc; unfold isDigit; rw [digit_of_toDigits hc]; rfl
  have ht : (Nat.toDigits 10 n ++ [')'] ++ r).takeWhile (isDigit u) = Nat.toDigits 10 n := by
    rw [List.append_assoc, List.takeWhile_append_of_pos hall]
    rw [List.cons_append, List.takeWhile_cons, not_digit_close]
    simp
  have hd : (Nat.toDigits 10 n ++ [')'] ++ r).dropWhile (isDigit u) = ')' :: r := by
    rw [List.append_assoc, List.dropWhile_append_of_pos hall]
    rw [List.cons_append, List.dropWhile_cons, not_digit_close]
    rfl
  simp only [indexed, ht, hd]
  rw [if_pos ⟨trivial, trivial, Nat.toDigits_ne_nil⟩, if_pos trivial, value_toDigits]

/-- What is written for an extension. -/
def extensionText : Option Text → Text
  | none => []
  | some extension => '.' :: extension

theorem ending_extensionText (e : Option Text) : ending (extensionText e) = some e := by
  cases e with
  | none => rfl
  | some e => simp [extensionText, ending]

theorem behind_extensionText (e : Option Text) : Behind (extensionText e) := by
  cases e with
  | none => exact Or.inl rfl
  | some e => exact Or.inr ⟨_, _, rfl, Or.inr rfl⟩

/-- The path ends with something that looks like an index. -/
def EndsWithIndex (u : Char → Option Nat) (path : Text) : Prop :=
  ∃ front digits, digits ≠ [] ∧ (∀ c ∈ digits, isDigit u c = true) ∧ path = front ++ ' ' :: '(' :: (digits ++ [')'])

theorem endsWithIndex_of_indexed {u : Char → Option Nat} {x : Text} {n : Nat} (h : indexed u x = some (n, [])) :
    ∃ digits, digits ≠ [] ∧ (∀ c ∈ digits, isDigit u c = true) ∧ x = ' ' :: '(' :: (digits ++ [')']) := by
  match x with
  | [] => cases h
  | [_] => cases h
  | a :: b :: t =>
    simp only [indexed] at h
    split at h
    · rename_i hcond
      split at h
      · rename_i c r hd
        split at h
        · rename_i hc
          simp only [Option.some.injEq, Prod.mk.injEq] at h
          refine ⟨t.takeWhile (isDigit u), hcond.2.2, ?_, ?_⟩
          · intro c hc
            have := List.all_takeWhile (p := isDigit u) (l := t)
            exact List.all_eq_true.mp this c hc
          · have := List.takeWhile_append_dropWhile (p := isDigit u) (l := t)
            rw [hd, h.2, hc] at this
            rw [hcond.1, hcond.2.1, this]
        · cases h
      · cases h
    · cases h

/-- Matching what was reconstructed. -/
theorem parse_reconstruct (u : Char → Option Nat) (name : Text) (hn : '\n' ∉ name) (i : Nat)
    (hi : i = 0 → ¬ EndsWithIndex u (parse u name).path) :
    parse u (reconstruct (parse u name).path i (parse u name).extension)
      = ⟨(parse u name).path, if i = 0 then none else some i, (parse u name).extension⟩ := by
  obtain ⟨hd1, hd2, hd3⟩ := splitDirectory_spec name
  obtain ⟨r, hs1, hs2, hs3⟩ := stem_spec u (splitDirectory name).2
  have hp : parse u name = ⟨(splitDirectory name).1 ++ (stem u (splitDirectory name).2).1,
      (stem u (splitDirectory name).2).2.1, (stem u (splitDirectory name).2).2.2⟩ := by
    unfold parse; rw [if_neg hn]
  rw [hp] at hi ⊢
  simp only at hi ⊢
  generalize (splitDirectory name).1 = d at *
  generalize (splitDirectory name).2 = b at *
  generalize hse : stem u b = se at *
  obtain ⟨s, idx, e⟩ := se
  simp only at hs1 hs2 hs3 hi ⊢
  -- what is behind the stem
  have hr : ∃ front, r = front ++ extensionText e := by
    unfold tail at hs2
    cases hix : indexed u r with
    | none =>
      rw [hix] at hs2
      simp only [Option.bind_none] at hs2
      cases r with
      | nil => simp [ending] at hs2; rw [← hs2.2]; exact ⟨[], rfl⟩
      | cons c r =>
        simp only [ending] at hs2
        split at hs2
        · rename_i hc
          simp only [Option.map_some, Option.some.injEq, Prod.mk.injEq] at hs2
          rw [← hs2.2, hc]; exact ⟨[], rfl⟩
        · cases hs2
    | some x =>
      obtain ⟨n, r'⟩ := x
      obtain ⟨a, ha, _⟩ := indexed_suffix hix
      rw [hix] at hs2
      simp only [Option.bind_some] at hs2
      have key : ∀ (t : Text) (e' : Option Text), ending t = some e' → t = extensionText e' := by
        intro t e' h
        cases t with
        | nil => cases h; rfl
        | cons c t =>
          have := ending_cons h
          subst this
          simp only [ending, if_pos] at h
          cases h; rfl
      cases he : ending r' with
      | none =>
        rw [he] at hs2
        simp only [Option.map_none] at hs2
        cases he2 : ending r with
        | none => rw [he2] at hs2; cases hs2
        | some e' =>
          rw [he2] at hs2
          simp only [Option.map_some, Option.some.injEq, Prod.mk.injEq] at hs2
          rw [← hs2.2, ← key r e' he2]
          exact ⟨[], rfl⟩
      | some e' =>
        rw [he] at hs2
        simp only [Option.map_some, Option.some.injEq, Prod.mk.injEq] at hs2
        rw [← hs2.2, ha]
        exact ⟨a, by rw [key r' e' he]⟩
  obtain ⟨front, hr⟩ := hr
  have hsub : ∀ c, c ∈ s ∨ c ∈ extensionText e → c ∈ b := by
    intro c hc
    rw [hs1, hr]
    rcases hc with h | h <;> simp [h]
  have hdot : '.' ∉ s := by
    intro hm
    obtain ⟨a, b', hab⟩ := List.append_of_mem hm
    have := (tail_none_iff _ _).mp (hs3 a '.' b' hab)
    simp [ending] at this
  have hidx : ∀ c, c ∈ ' ' :: '(' :: (Nat.toDigits 10 i ++ [')']) → c ≠ '\n' ∧ c ≠ '/' := by
    intro c hc
    simp only [List.mem_cons, List.mem_append, List.not_mem_nil, or_false] at hc
    rcases hc with rfl | rfl | hc | rfl
    · decide
    · decide
    · have := Nat.isDigit_of_mem_toDigits (by omega) (by omega) hc
      constructor <;> (rintro rfl; revert this; decide)
    · decide
  -- the text behind the stem in what was reconstructed
  have hrec : reconstruct (d ++ s) i e = d ++ (s ++ ((if i = 0 then [] else ' ' :: '(' :: (Nat.toDigits 10 i ++ [')'])) ++ extensionText e)) := by
    unfold reconstruct extensionText
    cases e <;> simp
  have htail : tail u ((if i = 0 then [] else ' ' :: '(' :: (Nat.toDigits 10 i ++ [')'])) ++ extensionText e)
      = some (if i = 0 then none else some i, e) := by
    by_cases h0 : i = 0
    · rw [if_pos h0, if_pos h0, List.nil_append]
      unfold tail
      have hnone : (indexed u (extensionText e)).bind
          (fun x => (ending x.2).map fun extension => (some x.1, extension)) = none := by
        cases e with
        | none => rfl
        | some e =>
          cases e with
          | nil => rfl
          | cons c e =>
            have : indexed u (extensionText (some (c :: e))) = none := by
              simp [extensionText, indexed]
            rw [this]
            rfl
      rw [hnone, ending_extensionText]
      rfl
    · rw [if_neg h0, if_neg h0]
      unfold tail
      have := indexed_toDigits u i (extensionText e)
      rw [show (' ' :: '(' :: (Nat.toDigits 10 i ++ [')'])) ++ extensionText e
        = ' ' :: '(' :: (Nat.toDigits 10 i ++ [')'] ++ extensionText e) from rfl, this]
      simp [ending_extensionText]
  have hbehind : Behind ((if i = 0 then [] else ' ' :: '(' :: (Nat.toDigits 10 i ++ [')'])) ++ extensionText e) := by
    split
    · exact behind_extensionText e
    · exact Or.inr ⟨_, _, rfl, Or.inl rfl⟩
  have hstem : stem u (s ++ ((if i = 0 then [] else ' ' :: '(' :: (Nat.toDigits 10 i ++ [')'])) ++ extensionText e))
      = (s, if i = 0 then none else some i, e) := by
    refine stem_append _ _ _ htail ?_
    intro a c b' hab
    have hc : c ≠ '.' := by
      rintro rfl
      exact hdot (by rw [hab]; simp)
    rw [tail_none_iff]
    refine ⟨?_, ?_⟩
    · simp [ending, hc]
    · intro n r' hix
      obtain ⟨b2, h1, h2⟩ := indexed_append hbehind (by simp) hix
      cases b2 with
      | cons x b2 =>
        rw [h2]
        obtain ⟨a2, ha2, _⟩ := indexed_suffix h1
        have : x ∈ s := by
          rw [hab, ha2]
          simp
        have hx : x ≠ '.' := by rintro rfl; exact hdot this
        simp [ending, hx]
      | nil =>
        rw [h2, List.nil_append]
        by_cases h0 : i = 0
        · exfalso
          refine hi h0 ?_
          obtain ⟨digits, h3, h4, h5⟩ := endsWithIndex_of_indexed h1
          exact ⟨d ++ a, digits, h3, h4, by rw [hab, h5, List.append_assoc]⟩
        · rw [if_neg h0]
          simp [ending]
  have hno : ∀ c, (c = '\n' ∨ c = '/') → c ∈ s ++ ((if i = 0 then [] else ' ' :: '(' :: (Nat.toDigits 10 i ++ [')'])) ++ extensionText e) →
      c ∈ b := by
    intro c hc hm
    rw [List.mem_append, List.mem_append] at hm
    rcases hm with hm | hm | hm
    · exact hsub c (Or.inl hm)
    · split at hm
      · cases hm
      · have := hidx c hm
        rcases hc with hc | hc
        · exact absurd hc this.1
        · exact absurd hc this.2
    · exact hsub c (Or.inr hm)
  rw [hrec]
  unfold parse
  rw [if_neg, splitDirectory_append d _ (fun hm => hd2 (hno '/' (Or.inr rfl) hm)) hd3]
  · simp only [hstem]
  · intro hm
    rw [List.mem_append] at hm
    refine hn ?_
    rw [hd1, List.mem_append]
    rcases hm with hm | hm
    · exact Or.inl hm
    · exact Or.inr (hno '\n' (Or.inl rfl) hm)

/-! ## C56: the names are pairwise distinct -/

/-- The names for which it works: no line feed, and nothing that looks like an index in front of the index. -/
def Plain (u : Char → Option Nat) (name : Text) : Prop := '\n' ∉ name ∧ ¬ EndsWithIndex u (parse u name).path

/-- What a name stands for. -/
def meaning (u : Char → Option Nat) (name : Text) : Key × Nat :=
  (((parse u name).path, (parse u name).extension), (parse u name).index.getD 0)

theorem meaning_send (u : Char → Option Nat) (collected : Collected) (name : Text) (h : Plain u name) :
    meaning u (send u collected name).1 = (((parse u name).path, (parse u name).extension),
      (choose (collected ((parse u name).path, (parse u name).extension)) (parse u name).index).1) := by
  simp only [send]
  split
  · rename_i hidx
    unfold meaning
    generalize choose (collected ((parse u name).path, (parse u name).extension)) (parse u name).index = r at hidx ⊢
    rw [hidx]
    rfl
  · unfold meaning
    rw [parse_reconstruct u name h.1 _ fun _ => h.2]
    simp only
    split
    · rename_i h0; rw [h0]; rfl
    · rfl

/-- **C56.** Whatever names are sent: as long as none has a line feed, and none has something like an index in front of its
index (`a (1) (2).txt`), the answers are pairwise distinct.  Missing: those names. -/
theorem C56_distinct_partial (u : Char → Option Nat) (names : List Text) (h : ∀ name ∈ names, Plain u name) :
    (deduplicate u names).Nodup := by
  have key : ∀ (names : List Text) (collected : Collected), (∀ name ∈ names, Plain u name) →
      (sendAll u collected names).Nodup ∧
        ∀ name ∈ sendAll u collected names, ¬ Known (collected (meaning u name).1) (meaning u name).2 := by
    intro names
    induction names with
    | nil => intro collected _; exact ⟨List.nodup_nil, by intro n hn; cases hn⟩
    | cons name names ih =>
      intro collected h
      obtain ⟨h1, h2⟩ := ih (send u collected name).2 fun n hn => h n (by simp [hn])
      have hm := meaning_send u collected name (h name (by simp))
      obtain ⟨hc1, hc2, hc3⟩ := choose_spec (collected ((parse u name).path, (parse u name).extension)) (parse u name).index
      have hnew : ∀ k, (send u collected name).2 k = if k = ((parse u name).path, (parse u name).extension)
          then (choose (collected ((parse u name).path, (parse u name).extension)) (parse u name).index).2
          else collected k := fun k => rfl
      simp only [sendAll]
      refine ⟨List.nodup_cons.mpr ⟨fun hin => ?_, h1⟩, ?_⟩
      · have := h2 _ hin
        rw [hm, hnew, if_pos rfl] at this
        exact this hc2
      · intro n hn
        rcases List.mem_cons.mp hn with rfl | hn
        · rw [hm]; exact hc1
        · intro hk
          refine h2 n hn ?_
          rw [hnew]
          split
          · rename_i e; rw [e] at hk; exact hc3 _ hk
          · exact hk
  exact (key names _ h).1

/-- **C56, violated.** A name with two indexes is answered by the name with the first one, which was given away before. -/
theorem C56_distinct_violated (u : Char → Option Nat) :
    deduplicate u ["a (1)".toList, "a (1) (5)".toList, "a (1) (5)".toList]
      = ["a (1)".toList, "a (1) (5)".toList, "a (1)".toList] := by
  rfl

/-- **C56, violated.** The answer for the second request for a name with a line feed is not remembered. -/
theorem C56_line_feed_violated (u : Char → Option Nat) :
    deduplicate u ["a\n".toList, "a\n".toList, "a\n (1)".toList]
      = ["a\n".toList, "a\n (1)".toList, "a\n (1)".toList] := by
  with_unfolding_all rfl

/-- **C56.** An answer is the name itself, or has its path and its extension. -/
theorem C56_form (u : Char → Option Nat) (collected : Collected) (name : Text) :
    (send u collected name).1 = name ∨
      ∃ index, (send u collected name).1 = (parse u name).path
        ++ (if index = 0 then [] else " (".toList ++ Nat.toDigits 10 index ++ [')'])
        ++ (match (parse u name).extension with
          | none => []
          | some extension => '.' :: extension) := by
  simp only [send]
  split
  · exact Or.inl rfl
  · exact Or.inr ⟨_, rfl⟩

example (u : Char → Option Nat) :
    deduplicate u ["d/a.b".toList, "d/a.b".toList, "d/a (2).b".toList, "a.b".toList]
      = ["d/a.b".toList, "d/a (1).b".toList, "d/a (2).b".toList, "a.b".toList] := by
  with_unfolding_all rfl

example (u : Char → Option Nat) : parse u "x/y (3)/a (12).tar.gz".toList = ⟨"x/y (3)/a".toList, some 12, some "tar.gz".toList⟩ := by
  rfl

end Verif.Dedup
