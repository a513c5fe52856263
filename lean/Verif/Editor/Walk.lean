/-
Walking in the history.
-/
import Verif.Editor.Tokens

namespace Verif.Editor

theorem prevLoop_spec (h : Hist) (cur : Option (List Line)) : ∀ k,
    (∀ e, (prevLoop h cur k).2 = some e → (prevLoop h cur k).1 < k ∧ h.at_ (prevLoop h cur k).1 = some e ∧
      some e ≠ cur ∧ ∀ j, (prevLoop h cur k).1 < j → j < k → h.at_ j = none ∨ h.at_ j = cur) ∧
    ((prevLoop h cur k).2 = none → (prevLoop h cur k).1 = 0 ∧ ∀ j, j < k → h.at_ j = none ∨ h.at_ j = cur)
  | 0 => by
    simp only [prevLoop]
    exact ⟨fun e he => absurd he nofun, fun _ => ⟨trivial, fun j hj => absurd hj (by omega)⟩⟩
  | k + 1 => by
    have ih := prevLoop_spec h cur k
    have step : h.at_ k = none ∨ h.at_ k = cur → prevLoop h cur (k + 1) = prevLoop h cur k := by
      intro hh
      simp only [prevLoop]
      split
      · next e he =>
        rw [he] at hh
        rcases hh with hh | hh
        · exact absurd hh nofun
        · rw [if_pos hh]
      · rfl
    by_cases hk : h.at_ k = none ∨ h.at_ k = cur
    · rw [step hk]
      refine ⟨fun e he => ?_, fun hn => ?_⟩
      · obtain ⟨h1, h2, h3, h4⟩ := ih.1 e he
        refine ⟨by omega, h2, h3, fun j hj1 hj2 => ?_⟩
        by_cases hjk : j = k
        · subst hjk; exact hk
        · exact h4 j hj1 (by omega)
      · obtain ⟨h1, h2⟩ := ih.2 hn
        refine ⟨h1, fun j hj => ?_⟩
        by_cases hjk : j = k
        · subst hjk; exact hk
        · exact h2 j (by omega)
    · rw [not_or] at hk
      obtain ⟨hk1, hk2⟩ := hk
      cases hat : h.at_ k with
      | none => exact absurd hat hk1
      | some e =>
        have : prevLoop h cur (k + 1) = (k, some e) := by
          simp only [prevLoop, hat]
          rw [if_neg (by rw [← hat]; exact hk2)]
        rw [this]
        refine ⟨fun e' he' => ?_, fun hn => absurd hn nofun⟩
        cases he'
        exact ⟨by omega, hat, by rw [← hat]; exact hk2, fun j h1 h2 => by simp only at h1; omega⟩

theorem nextLoop_spec (h : Hist) (cur : Option (List Line)) : ∀ f k,
    (∀ e, (nextLoop h cur f k).2 = some e → k < (nextLoop h cur f k).1 ∧ (nextLoop h cur f k).1 ≤ k + f ∧
      h.at_ (nextLoop h cur f k).1 = some e ∧
      some e ≠ cur ∧ ∀ j, k < j → j < (nextLoop h cur f k).1 → h.at_ j = none ∨ h.at_ j = cur) ∧
    ((nextLoop h cur f k).2 = none → (nextLoop h cur f k).1 = k + f ∧
      ∀ j, k < j → j ≤ k + f → h.at_ j = none ∨ h.at_ j = cur)
  | 0, k => by
    simp only [nextLoop]
    exact ⟨fun e he => absurd he nofun, fun _ => ⟨by omega, fun j hj => by omega⟩⟩
  | f + 1, k => by
    have ih := nextLoop_spec h cur f (k + 1)
    have step : h.at_ (k + 1) = none ∨ h.at_ (k + 1) = cur →
        nextLoop h cur (f + 1) k = nextLoop h cur f (k + 1) := by
      intro hh
      simp only [nextLoop]
      split
      · next e he =>
        rw [he] at hh
        rcases hh with hh | hh
        · exact absurd hh nofun
        · rw [if_pos hh]
      · rfl
    by_cases hk : h.at_ (k + 1) = none ∨ h.at_ (k + 1) = cur
    · rw [step hk]
      refine ⟨fun e he => ?_, fun hn => ?_⟩
      · obtain ⟨h1, h1', h2, h3, h4⟩ := ih.1 e he
        refine ⟨by omega, by omega, h2, h3, fun j hj1 hj2 => ?_⟩
        by_cases hjk : j = k + 1
        · subst hjk; exact hk
        · exact h4 j (by omega) hj2
      · obtain ⟨h1, h2⟩ := ih.2 hn
        refine ⟨by omega, fun j hj hj2 => ?_⟩
        by_cases hjk : j = k + 1
        · subst hjk; exact hk
        · exact h2 j (by omega) (by omega)
    · rw [not_or] at hk
      obtain ⟨hk1, hk2⟩ := hk
      cases hat : h.at_ (k + 1) with
      | none => exact absurd hat hk1
      | some e =>
        have : nextLoop h cur (f + 1) k = (k + 1, some e) := by
          simp only [nextLoop, hat]
          rw [if_neg (by rw [← hat]; exact hk2)]
        rw [this]
        refine ⟨fun e' he' => ?_, fun hn => absurd hn nofun⟩
        cases he'
        exact ⟨by simp, by simp only; omega, hat, by rw [← hat]; exact hk2,
          fun j h1 h2 => by simp only at h2; omega⟩

theorem at_pos (h : Hist) (p : Nat) : ({ h with pos := p } : Hist).at_ = h.at_ := by
  funext k; cases k <;> rfl

theorem prev_elems (h : Hist) : h.prev.1.elems = h.elems ∧ h.prev.1.size = h.size := ⟨rfl, rfl⟩
theorem next_elems (h : Hist) : h.next.1.elems = h.elems ∧ h.next.1.size = h.size := ⟨rfl, rfl⟩

theorem prev_mem {h : Hist} {b : List Line} (hb : h.prev.2 = some b) : ∃ i, h.elems i = some b := by
  obtain ⟨_, h2, _⟩ := (prevLoop_spec h (h.at_ h.pos) h.pos).1 b hb
  revert h2
  cases (prevLoop h (h.at_ h.pos) h.pos).1 with
  | zero => intro h2; exact absurd h2 nofun
  | succ i => exact fun h2 => ⟨i, h2⟩

theorem next_mem {h : Hist} {b : List Line} (hb : h.next.2 = some b) : ∃ i, h.elems i = some b := by
  obtain ⟨_, _, h2, _⟩ := (nextLoop_spec h (h.at_ h.pos) (h.size + 1 - h.pos) h.pos).1 b hb
  revert h2
  cases (nextLoop h (h.at_ h.pos) (h.size + 1 - h.pos) h.pos).1 with
  | zero => intro h2; exact absurd h2 nofun
  | succ i => exact fun h2 => ⟨i, h2⟩

/-- The history after inputs: every input has a number larger than those before;
the lines are `none` for an input which is not kept. -/
def adds (h : Hist) : List (Nat × Option (List Line)) → Hist
  | [] => h
  | (i, b) :: r => adds (h.add i b) r

/-- `History.__new__` (`history.py:21-30`). -/
def Hist.empty : Hist := ⟨fun _ => none, 0, 1⟩

/-- Nothing is kept past the size. -/
def Bounded (h : Hist) : Prop := ∀ i, h.size < i → h.elems i = none

theorem add_bounded {h : Hist} (hb : Bounded h) (i : Nat) (b) (hi : h.size ≤ i) : Bounded (h.add i b) := by
  intro j hj
  unfold Hist.add at hj ⊢
  split at hj
  · exact hb j (by simp only at hj; omega)
  · exact hb j (by simp only at hj; omega)
  · simp only at hj ⊢
    rw [if_neg (by omega)]
    exact hb j (by omega)

theorem add_size (h : Hist) (i : Nat) (b) : (h.add i b).size = i := by
  unfold Hist.add
  split <;> rfl

/-- The numbers of the inputs grow. -/
def Growing : Nat → List (Nat × Option (List Line)) → Prop
  | _, [] => True
  | n, (i, _) :: r => n ≤ i ∧ Growing (i + 1) r

theorem adds_bounded : ∀ (l : List (Nat × Option (List Line))) (h : Hist) (n : Nat), Bounded h → h.size ≤ n →
    Growing n l → Bounded (adds h l)
  | [], _, _, hb, _, _ => hb
  | (i, b) :: r, h, n, hb, hs, hg => by
    refine adds_bounded r _ (i + 1) (add_bounded hb i b (by have := hg.1; omega)) ?_ hg.2
    rw [add_size]; omega

end Verif.Editor
