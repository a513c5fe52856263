/-
The tokenizer.
-/
import Verif.Editor.Complete

namespace Verif.Editor

/-- Control characters are not printable: those the keys begin with. -/
def PrOk (pr : Chr → Bool) : Prop := ∀ c ∈ [3, 4, 9, 10, 13, 27, 127], pr c = false

theorem sub_none {c : Chr} (h : c ∉ [3, 4, 9, 10, 13, 27, 127]) : sub keySeqs c = [] := by
  simp only [List.mem_cons, List.not_mem_nil, or_false, not_or] at h
  obtain ⟨h1, h2, h3, h4, h5, h6, h7⟩ := h
  have e : ∀ {a : Nat}, ¬ c = a → (a == c) = false := by
    intro a h; simp only [beq_eq_false_iff_ne, ne_eq]; exact fun h' => h h'.symm
  simp [keySeqs, keyTable, sub, e h1, e h2, e h3, e h4, e h5, e h6, e h7]

theorem walk_stop (r : Line) (n e : Nat) : walk [[]] r n e = e := by
  cases r with
  | nil => rfl
  | cons c r => simp [walk, sub]

/-- A key is read as a whole, whatever is after it. -/
theorem read_key (pr : Chr → Bool) : ∀ k ∈ keySeqs, ∀ r : Line, readTok pr (k ++ r) = k.length := by
  intro k hk r
  simp only [keySeqs, keyTable, List.map_cons, List.map_nil, List.mem_cons, List.not_mem_nil, or_false] at hk
  rcases hk with h | h | h | h | h | h | h | h | h | h | h | h | h | h <;> subst h <;>
    simp [readTok, keySeqs, keyTable, sub, walk, walk_stop]

theorem read_print {pr : Chr → Bool} (hp : PrOk pr) {c : Chr} (hc : pr c = true) (r : Line) :
    readTok pr (c :: r) = 1 := by
  have : c ∉ [3, 4, 9, 10, 13, 27, 127] := by
    intro h; rw [hp c h] at hc; exact absurd hc nofun
  simp [readTok, sub_none this, hc]

theorem tokensAux_fuel (pr : Chr → Bool) : ∀ (f g : Nat) (s : Line), s.length ≤ f → s.length ≤ g →
    tokensAux pr f s = tokensAux pr g s
  | f, g, [], _, _ => by cases f <;> cases g <;> rfl
  | 0, _, _ :: _, h, _ => by simp at h
  | _, 0, _ :: _, _, h => by simp at h
  | f + 1, g + 1, c :: s, h1, h2 => by
    simp only [tokensAux, List.length_cons] at *
    by_cases hr : readTok pr (c :: s) = 0
    · rw [if_pos hr, if_pos hr]
      exact tokensAux_fuel pr f g _ (by simp; omega) (by simp; omega)
    · rw [if_neg hr, if_neg hr]
      congr 1
      exact tokensAux_fuel pr f g _ (by simp; omega) (by simp; omega)

theorem tokens_append {pr : Chr → Bool} {t : Line} (r : Line) (ht : t ≠ [])
    (h : readTok pr (t ++ r) = t.length) : tokens pr (t ++ r) = t :: tokens pr r := by
  cases t with
  | nil => exact absurd rfl ht
  | cons c t =>
    simp only [tokens, List.cons_append, List.length_cons, tokensAux] at h ⊢
    rw [if_neg (by omega), h]
    congr 1
    · simp
    · rw [List.drop_succ_cons, List.drop_left' rfl]
      exact tokensAux_fuel pr _ _ _ (by simp) (Nat.le_refl _)

theorem tokens_skip {pr : Chr → Bool} {c : Chr} (r : Line) (h : readTok pr (c :: r) = 0) :
    tokens pr (c :: r) = tokens pr r := by
  simp only [tokens, List.length_cons, tokensAux, h, if_true]
  simp

/-- A token: a key or a printable character. -/
def IsToken (pr : Chr → Bool) (t : Line) : Prop := t ∈ keySeqs ∨ ∃ c, t = [c] ∧ pr c = true

theorem tokens_flatten {pr : Chr → Bool} (hp : PrOk pr) : ∀ (ts : List Line), (∀ t ∈ ts, IsToken pr t) →
    tokens pr ts.flatten = ts
  | [], _ => rfl
  | t :: ts, h => by
    have ih := tokens_flatten hp ts (fun x hx => h x (List.mem_cons_of_mem _ hx))
    rw [List.flatten_cons]
    rcases h t (List.mem_cons_self ..) with hk | ⟨c, rfl, hc⟩
    · rw [tokens_append _ ?_ (read_key pr t hk _), ih]
      intro he; subst he; exact absurd hk (by decide)
    · rw [tokens_append _ (by simp) ?_, ih]
      simpa using read_print hp hc ts.flatten

end Verif.Editor
