/-
The text of a split text, and the keys on it.
-/
import Verif.Editor.Lemmas
import Verif.Editor.Spec

namespace Verif.Editor

/-- The lines before the line of the cursor, with their line breaks. -/
def pj : List Line → List Chr
  | [] => []
  | l :: r => l ++ 10 :: pj r

theorem text_append : ∀ (p : List Line) (l : Line) (q : List Line), text (p ++ l :: q) = pj p ++ text (l :: q)
  | [], _, _ => rfl
  | [a], l, q => by simp [text, pj]
  | a :: b :: r, l, q => by
    have := text_append (b :: r) l q
    simp only [List.cons_append, text, pj] at this ⊢
    rw [this]; simp

theorem pj_snoc (p : List Line) (l : Line) : pj (p ++ [l]) = pj p ++ l ++ [10] := by
  induction p with
  | nil => simp [pj]
  | cons a r ih => simp [pj, ih]

theorem text_head (x y : Line) (q : List Line) : text ((x ++ y) :: q) = x ++ text (y :: q) := by
  cases q <;> simp [text]

theorem pj_length (p : List Line) : (p.map (fun l => l.length + 1)).sum = (pj p).length := by
  induction p with
  | nil => rfl
  | cons a r ih => simp [pj, ih]; omega

theorem flat_z (pre x y post) : flat (Z.ds ⟨pre, x, y, post⟩) = (pj pre ++ x, text (y :: post)) := by
  have h : text (Z.ds ⟨pre, x, y, post⟩).buf = (pj pre ++ x) ++ text (y :: post) := by
    simp only [Z.ds]; rw [text_append, text_head, List.append_assoc]
  have h2 : offset (Z.ds ⟨pre, x, y, post⟩) = (pj pre ++ x).length := by
    simp only [offset, Z.ds]; rw [List.take_left' rfl, pj_length]; simp
  simp only [flat, h, h2]
  rw [List.take_left' rfl, List.drop_left' rfl]

/-! ### Lines of the flat text -/

theorem takeWhile_all {p : Chr → Bool} {l : List Chr} (h : ∀ c ∈ l, p c = true) (m : List Chr)
    (hm : m = [] ∨ ∃ c r, m = c :: r ∧ p c = false) :
    (l ++ m).takeWhile p = l ∧ (l ++ m).dropWhile p = m := by
  induction l with
  | nil =>
    rcases hm with hm | ⟨c, r, hm, hc⟩
    · subst hm; simp
    · subst hm; simp [hc]
  | cons a r ih =>
    have ha := h a (List.mem_cons_self ..)
    have := ih (fun c hc => h c (List.mem_cons_of_mem _ hc))
    simp [ha, this]

theorem not_mem_all {l : List Chr} (h : 10 ∉ l) : ∀ c ∈ l, (c != 10) = true := by
  intro c hc
  simp only [bne_iff_ne, ne_eq]
  intro h2; subst h2; exact h hc

theorem pj_cases (p : List Line) : pj p = [] ∧ p = [] ∨ ∃ q l, p = q ++ [l] ∧ pj p = pj q ++ l ++ [10] := by
  rcases snoc_cases p with h | ⟨q, l, h⟩
  · subst h; exact .inl ⟨rfl, rfl⟩
  · subst h; exact .inr ⟨q, l, rfl, pj_snoc q l⟩

theorem rev_cut {x : Line} (h : 10 ∉ x) (p : List Chr) (hp : p = [] ∨ ∃ q, p = q ++ [10]) :
    earlier (p ++ x) = p ∧ lineBefore (p ++ x) = x := by
  have hx : ∀ c ∈ x.reverse, (c != 10) = true := not_mem_all (by simpa using h)
  have := takeWhile_all hx p.reverse (by
    rcases hp with hp | ⟨q, hp⟩
    · left; simp [hp]
    · right; exact ⟨10, q.reverse, by simp [hp], rfl⟩)
  simp only [earlier, lineBefore, List.reverse_append, this.1, this.2, List.reverse_reverse, and_self]

theorem pj_end (p : List Line) : pj p = [] ∨ ∃ q, pj p = q ++ [10] := by
  rcases pj_cases p with ⟨h, _⟩ | ⟨q, l, _, h⟩
  · exact .inl h
  · exact .inr ⟨pj q ++ l, h⟩

theorem before_cut {x : Line} (h : 10 ∉ x) (pre : List Line) :
    earlier (pj pre ++ x) = pj pre ∧ lineBefore (pj pre ++ x) = x := rev_cut h _ (pj_end pre)

/-- What is after the line of the cursor. -/
def rest : List Line → List Chr
  | [] => []
  | q :: r => 10 :: text (q :: r)

theorem text_cons (y : Line) (post : List Line) : text (y :: post) = y ++ rest post := by
  cases post <;> simp [text, rest]

theorem after_cut {y : Line} (h : 10 ∉ y) (post : List Line) :
    lineAfter (text (y :: post)) = y ∧ later (text (y :: post)) = rest post := by
  rw [text_cons]
  exact takeWhile_all (not_mem_all h) _ (by
    cases post with
    | nil => exact .inl rfl
    | cons q r => exact .inr ⟨10, _, rfl, rfl⟩)

theorem leading_eq : ∀ l : Line, leading l = startSpaces l
  | [] => rfl
  | c :: r => by
    have ih := leading_eq r
    simp only [leading] at ih
    by_cases h : c = 32
    · simp [leading, startSpaces, h, ih]
    · simp [leading, startSpaces, h]

theorem dedent_eq {n : Nat} (h : n ≠ 0) : dedent n = removeBy n := by
  simp only [dedent, removeBy]; split
  · omega
  · split <;> omega

/-- A split text without line breaks in its lines. -/
structure Z.Ok (z : Z) : Prop where
  pre : Broken z.pre
  x : 10 ∉ z.x
  y : 10 ∉ z.y
  post : Broken z.post

theorem broken_append {p q : List Line} : Broken (p ++ q) ↔ Broken p ∧ Broken q := by
  simp only [Broken, List.mem_append]
  exact ⟨fun h => ⟨fun l hl => h l (.inl hl), fun l hl => h l (.inr hl)⟩,
    fun h l hl => hl.elim (h.1 l) (h.2 l)⟩

theorem broken_cons {l : Line} {q : List Line} : Broken (l :: q) ↔ 10 ∉ l ∧ Broken q := by
  simp [Broken]

theorem Z.ok_iff (z : Z) : Z.Ok z ↔ Broken z.ds.buf := by
  simp only [Z.ds, broken_append, broken_cons, List.mem_append, not_or]
  exact ⟨fun h => ⟨h.pre, ⟨h.x, h.y⟩, h.post⟩, fun h => ⟨h.1, h.2.1.1, h.2.1.2, h.2.2⟩⟩

theorem inText_iff (d : DS) : InText d ↔ ∃ z : Z, z.Ok ∧ d = z.ds := by
  constructor
  · rintro ⟨h1, h2, h3⟩
    obtain ⟨z, hz⟩ := valid_split (d := d) ⟨h1, h2⟩
    exact ⟨z, (Z.ok_iff z).2 (hz ▸ h3), hz⟩
  · rintro ⟨z, hz, rfl⟩
    exact ⟨(valid_ds z).1, (valid_ds z).2, (Z.ok_iff z).1 hz⟩

end Verif.Editor
