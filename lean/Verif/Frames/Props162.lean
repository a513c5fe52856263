import Verif.Frames.Spec
/-! Property C162: finding repeats. -/
namespace Verif.Frames
open Spec (Repeats Worth NoRepeat)

theorem sameChunk_iff (items : List Frame) (a b size : Nat) :
    sameChunk items a b size = true ↔ ∀ i, i < size → (items.map Frame.key)[a + i]? = (items.map Frame.key)[b + i]? := by
  simp [sameChunk, List.all_eq_true]

/-- The chunk at `a` and the chunk at `b`. -/
def Same (keys : List Nat) (a b size : Nat) : Prop := ∀ i, i < size → keys[a + i]? = keys[b + i]?

theorem countUp_sound (items : List Frame) (start size fuel position : Nat) :
    countUp items start size fuel position * size ≤ position ∧
    ∀ j, j < countUp items start size fuel position → Same (items.map Frame.key) start (position - (j + 1) * size) size := by
  induction fuel generalizing position with
  | zero => simp [countUp]
  | succ fuel ih =>
    simp only [countUp]
    split
    · rename_i h
      obtain ⟨h1, h2⟩ := h
      obtain ⟨i1, i2⟩ := ih (position - size)
      refine ⟨by rw [Nat.succ_mul]; omega, ?_⟩
      intro j hj
      cases j with
      | zero => rw [Nat.zero_add, Nat.one_mul]; exact (sameChunk_iff _ _ _ _).1 h2
      | succ j =>
        have := i2 j (by omega)
        rw [show position - (j + 1 + 1) * size = position - size - (j + 1) * size by rw [Nat.succ_mul (j + 1)]; omega]
        exact this
    · exact ⟨by simp, fun j hj => absurd hj (by simp)⟩

theorem countUp_complete (items : List Frame) (start size : Nat) (m fuel position : Nat) (hf : m ≤ fuel) (hp : m * size ≤ position)
    (h : ∀ j, j < m → Same (items.map Frame.key) start (position - (j + 1) * size) size) : m ≤ countUp items start size fuel position := by
  induction m generalizing fuel position with
  | zero => simp
  | succ m ih =>
    cases fuel with
    | zero => omega
    | succ fuel =>
      rw [Nat.succ_mul] at hp
      have h0 := h 0 (by omega)
      rw [Nat.zero_add, Nat.one_mul] at h0
      simp only [countUp]
      rw [if_pos ⟨by omega, (sameChunk_iff _ _ _ _).2 h0⟩]
      apply Nat.succ_le_succ
      apply ih fuel (position - size) (by omega) (by omega)
      intro j hj
      have := h (j + 1) (by omega)
      rw [show position - (j + 1 + 1) * size = position - size - (j + 1) * size by rw [Nat.succ_mul (j + 1)]; omega] at this
      exact this

theorem countDown_sound (items : List Frame) (start size fuel position : Nat) (hp : position + size ≤ items.length) :
    position + countDown items start size fuel position * size + size ≤ items.length ∧
    ∀ j, j < countDown items start size fuel position → Same (items.map Frame.key) start (position + (j + 1) * size) size := by
  induction fuel generalizing position with
  | zero => simp [countDown, hp]
  | succ fuel ih =>
    simp only [countDown]
    split
    · rename_i h
      obtain ⟨h1, h2⟩ := h
      obtain ⟨i1, i2⟩ := ih (position + size) (by omega)
      refine ⟨by rw [Nat.succ_mul]; omega, ?_⟩
      intro j hj
      cases j with
      | zero => rw [Nat.zero_add, Nat.one_mul]; exact (sameChunk_iff _ _ _ _).1 h2
      | succ j =>
        have := i2 j (by omega)
        rw [show position + (j + 1 + 1) * size = position + size + (j + 1) * size by rw [Nat.succ_mul (j + 1)]; omega]
        exact this
    · exact ⟨by simp [hp], fun j hj => absurd hj (by simp)⟩

theorem countDown_complete (items : List Frame) (start size : Nat) (m fuel position : Nat) (hf : m ≤ fuel) (hp : position + m * size + size ≤ items.length)
    (h : ∀ j, j < m → Same (items.map Frame.key) start (position + (j + 1) * size) size) : m ≤ countDown items start size fuel position := by
  induction m generalizing fuel position with
  | zero => simp
  | succ m ih =>
    cases fuel with
    | zero => omega
    | succ fuel =>
      rw [Nat.succ_mul] at hp
      have h0 := h 0 (by omega)
      rw [Nat.zero_add, Nat.one_mul] at h0
      simp only [countDown]
      rw [if_pos ⟨by omega, (sameChunk_iff _ _ _ _).2 h0⟩]
      apply Nat.succ_le_succ
      apply ih fuel (position + size) (by omega) (by omega)
      intro j hj
      have := h (j + 1) (by omega)
      rw [show position + (j + 1 + 1) * size = position + size + (j + 1) * size by rw [Nat.succ_mul (j + 1)]; omega] at this
      exact this

/-- What is counted above `start`. -/
def up (items : List Frame) (size start : Nat) : Nat := countUp items start size items.length start

/-- What is counted below `start`. -/
def down (items : List Frame) (size start : Nat) : Nat := countDown items start size items.length start

theorem up_repeats (items : List Frame) (size start : Nat) (hs : 0 < size) (hf : start + size ≤ items.length) :
    up items size start * size ≤ start ∧ Repeats (items.map Frame.key) (start - size * up items size start) size (up items size start + 1) := by
  obtain ⟨h1, h2⟩ := countUp_sound items start size items.length start
  change up items size start * size ≤ start at h1
  change ∀ j, j < up items size start → _ at h2
  generalize up items size start = r at h1 h2 ⊢
  refine ⟨h1, hs, ?_, ?_⟩
  · rw [List.length_map, Nat.mul_succ, Nat.mul_comm size r]; omega
  · have key : ∀ q, q < r + 1 → ∀ i, i < size → (items.map Frame.key)[start - size * r + size * q + i]? = (items.map Frame.key)[start + i]? := by
      intro q hq i hi
      by_cases hqr : q = r
      · subst hqr
        congr 1
        rw [Nat.mul_comm] at h1; omega
      · have hj := h2 (r - 1 - q) (by omega) i hi
        rw [hj]
        congr 1
        rw [show r - 1 - q + 1 = r - q by omega]
        have : r * size = (r - q) * size + q * size := by rw [← Nat.add_mul]; congr 1; omega
        rw [Nat.mul_comm size r, Nat.mul_comm size q]; omega
    intro q hq i hi
    rw [key q hq i hi]
    have := key 0 (by omega) i hi
    rw [Nat.mul_zero, Nat.add_zero] at this
    rw [this]

theorem up_complete (items : List Frame) (s size t : Nat) (h : Repeats (items.map Frame.key) s size (t + 1)) : t ≤ up items size (s + size * t) := by
  have hf := h.fits
  rw [List.length_map, Nat.mul_succ] at hf
  have ht : t ≤ size * t := Nat.le_mul_of_pos_left t h.pos
  apply countUp_complete
  · omega
  · rw [Nat.mul_comm]; omega
  · intro j hj i hi
    have a := h.same t (by omega) i hi
    have b := h.same (t - 1 - j) (by omega) i hi
    rw [a, ← b]
    congr 1
    have : t * size = (t - 1 - j) * size + (j + 1) * size := by rw [← Nat.add_mul]; congr 1; omega
    rw [Nat.mul_comm size t, Nat.mul_comm size]; omega

theorem down_repeats (items : List Frame) (size start : Nat) (hs : 0 < size) (hf : start + size ≤ items.length) :
    Repeats (items.map Frame.key) start size (down items size start + 1) := by
  obtain ⟨h1, h2⟩ := countDown_sound items start size items.length start hf
  change start + down items size start * size + size ≤ _ at h1
  change ∀ j, j < down items size start → _ at h2
  generalize down items size start = r at h1 h2 ⊢
  refine ⟨hs, ?_, ?_⟩
  · rw [List.length_map, Nat.mul_succ, Nat.mul_comm size r]; omega
  · intro q hq i hi
    cases q with
    | zero => rw [Nat.mul_zero, Nat.add_zero]
    | succ q =>
      rw [h2 q (by omega) i hi, Nat.mul_comm]

theorem down_complete (items : List Frame) (s size t : Nat) (h : Repeats (items.map Frame.key) s size (t + 1)) : t ≤ down items size s := by
  have hf := h.fits
  rw [List.length_map, Nat.mul_succ] at hf
  have ht : t ≤ size * t := Nat.le_mul_of_pos_left t h.pos
  apply countDown_complete
  · omega
  · rw [Nat.mul_comm]; omega
  · intro j hj i hi
    rw [← h.same (j + 1) (by omega) i hi, Nat.mul_comm]

theorem botStarts_none {items : List Frame} {size n : Nat} (h : botStarts items size n = none) : ∀ k, k < n → up items size (size + k) * size < 2 := by
  induction n with
  | zero => intro k hk; omega
  | succ n ih =>
    simp only [botStarts] at h
    split at h
    · cases h
    · rename_i hn
      intro k hk
      by_cases hkn : k = n
      · subst hkn; exact Nat.lt_of_not_le hn
      · exact ih h k (by omega)

theorem botStarts_some {items : List Frame} {size n : Nat} {s c t : Nat} (h : botStarts items size n = some (s, c, t)) :
    ∃ k, k < n ∧ c = size ∧ s = size + k - size * up items size (size + k) ∧ t = up items size (size + k) + 1 ∧ 2 ≤ up items size (size + k) * size ∧
      ∀ k', k < k' → k' < n → up items size (size + k') * size < 2 := by
  induction n with
  | zero => cases h
  | succ n ih =>
    simp only [botStarts] at h
    split at h
    · rename_i hn
      simp only [Option.some.injEq, Prod.mk.injEq] at h
      obtain ⟨h1, h2, h3⟩ := h
      exact ⟨n, by omega, h2.symm, h1.symm, h3.symm, hn, fun k' a b => by omega⟩
    · rename_i hn
      obtain ⟨k, h1, h2, h3, h4, h5, h6⟩ := ih h
      refine ⟨k, by omega, h2, h3, h4, h5, fun k' a b => ?_⟩
      by_cases hkn : k' = n
      · subst hkn; exact Nat.lt_of_not_le hn
      · exact h6 k' a (by omega)

theorem topStarts_none {items : List Frame} {size n start : Nat} (h : topStarts items size n start = none) : ∀ k, k < n → down items size (start + k) * size < 2 := by
  induction n generalizing start with
  | zero => intro k hk; omega
  | succ n ih =>
    simp only [topStarts] at h
    split at h
    · cases h
    · rename_i hn
      intro k hk
      cases k with
      | zero => exact Nat.lt_of_not_le hn
      | succ k => rw [show start + (k + 1) = start + 1 + k by omega]; exact ih h k (by omega)

theorem topStarts_some {items : List Frame} {size n start : Nat} {s c t : Nat} (h : topStarts items size n start = some (s, c, t)) :
    ∃ k, k < n ∧ c = size ∧ s = start + k ∧ t = down items size (start + k) + 1 ∧ 2 ≤ down items size (start + k) * size ∧
      ∀ k', k' < k → down items size (start + k') * size < 2 := by
  induction n generalizing start with
  | zero => cases h
  | succ n ih =>
    simp only [topStarts] at h
    split at h
    · rename_i hn
      simp only [Option.some.injEq, Prod.mk.injEq] at h
      obtain ⟨h1, h2, h3⟩ := h
      exact ⟨0, by omega, h2.symm, h1.symm, h3.symm, hn, fun k' a => by omega⟩
    · rename_i hn
      obtain ⟨k, h1, h2, h3, h4, h5, h6⟩ := ih h
      rw [show start + 1 + k = start + (k + 1) by omega] at h3 h4 h5
      refine ⟨k + 1, by omega, h2, h3, h4, h5, fun k' a => ?_⟩
      cases k' with
      | zero => exact Nat.lt_of_not_le hn
      | succ k' => rw [show start + (k' + 1) = start + 1 + k' by omega]; exact h6 k' (by omega)

theorem findSome_range_none {β : Type} {f : Nat → Option β} {n : Nat} (h : (List.range n).findSome? f = none) : ∀ i, i < n → f i = none := by
  intro i hi
  exact List.findSome?_eq_none_iff.1 h i (List.mem_range.2 hi)

theorem findSome_range_some {β : Type} {f : Nat → Option β} {n : Nat} {b : β} (h : (List.range n).findSome? f = some b) :
    ∃ i, i < n ∧ f i = some b ∧ ∀ j, j < i → f j = none := by
  induction n with
  | zero => cases h
  | succ n ih =>
    rw [List.range_succ, List.findSome?_append] at h
    cases hp : (List.range n).findSome? f with
    | some c =>
      rw [hp] at h
      obtain ⟨i, h1, h2, h3⟩ := ih (by rw [hp]; exact h)
      exact ⟨i, by omega, h2, h3⟩
    | none =>
      rw [hp] at h
      simp only [Option.none_or] at h
      refine ⟨n, by omega, ?_, findSome_range_none hp⟩
      cases hf : f n with
      | none => rw [List.findSome?_cons, hf] at h; cases h
      | some c => rw [List.findSome?_cons, hf] at h; exact h

/-- The number of rounds, as it is counted. -/
theorem Worth.two {keys : List Nat} {s c t : Nat} (h : Worth keys s c t) : ∃ m, t = m + 1 ∧ 1 ≤ m ∧ 2 ≤ m * c ∧ s + c * m + c ≤ keys.length := by
  cases t with
  | zero => exact absurd h.2 (by simp)
  | succ m =>
    have h2 := h.2
    rw [Nat.add_sub_cancel] at h2
    have hf := h.1.fits
    rw [Nat.mul_succ] at hf
    refine ⟨m, rfl, ?_, h2, by omega⟩
    cases m with
    | zero => simp at h2
    | succ m => omega

theorem Worth.size {items : List Frame} {s c t : Nat} (h : Worth (items.map Frame.key) s c t) : 1 ≤ c ∧ c - 1 < items.length / 2 ∧ c * 2 ≤ items.length := by
  obtain ⟨m, rfl, h1, h2, h3⟩ := Worth.two h
  rw [List.length_map] at h3
  have hp := h.1.pos
  have : c ≤ c * m := Nat.le_mul_of_pos_right c h1
  refine ⟨hp, ?_, by omega⟩
  have : c ≤ items.length / 2 := (Nat.le_div_iff_mul_le (by decide)).2 (by omega)
  omega

/-- The search from the bottom finds nothing exactly if there is no repeat worth to be shown; otherwise it finds one of the smallest chunk size, of these the
bottom-most, of these the longest. -/
theorem C162_bottom (items : List Frame) :
    (repeatBot items = none ↔ NoRepeat (items.map Frame.key)) ∧
    ∀ s c t, repeatBot items = some (s, c, t) → Worth (items.map Frame.key) s c t ∧
      ∀ s' c' t', Worth (items.map Frame.key) s' c' t' → c ≤ c' ∧ (c' = c → s' + c' * t' ≤ s + c * t ∧ (s' + c' * t' = s + c * t → t' ≤ t)) := by
  constructor
  · constructor
    · intro h s c t hw
      have hn := findSome_range_none h
      obtain ⟨h1, h2, h3⟩ := Worth.size hw
      obtain ⟨m, rfl, g1, g2, g3⟩ := Worth.two hw
      rw [List.length_map] at g3
      have hb := hn (c - 1) h2
      rw [show c - 1 + 1 = c by omega] at hb
      have := botStarts_none hb (s + c * m - c) (by
        have : c ≤ c * m := Nat.le_mul_of_pos_right c g1
        omega)
      have hc : c ≤ c * m := Nat.le_mul_of_pos_right c g1
      rw [show c + (s + c * m - c) = s + c * m by omega] at this
      have hu := Nat.mul_le_mul_right c (up_complete items s c m hw.1)
      omega
    · intro h
      cases hr : repeatBot items with
      | none => rfl
      | some q =>
        obtain ⟨s, c, t⟩ := q
        obtain ⟨i, hi, hs, _⟩ := findSome_range_some hr
        obtain ⟨k, h1, rfl, h3, h4, h5, _⟩ := botStarts_some hs
        exfalso
        obtain ⟨_, u2⟩ := up_repeats items (i + 1) (i + 1 + k) (by omega) (by omega)
        exact h _ _ _ ⟨u2, by rw [Nat.add_sub_cancel]; exact h5⟩
  · intro s c t hr
    obtain ⟨i, hi, hs, hsmall⟩ := findSome_range_some hr
    obtain ⟨k, h1, rfl, h3, h4, h5, h6⟩ := botStarts_some hs
    obtain ⟨u1, u2⟩ := up_repeats items (i + 1) (i + 1 + k) (by omega) (by omega)
    rw [← h3, ← h4] at u2
    refine ⟨⟨u2, by rw [h4, Nat.add_sub_cancel]; exact h5⟩, ?_⟩
    have hend : s + (i + 1) * t = i + 1 + k + (i + 1) := by
      rw [h3, h4, Nat.mul_succ]
      rw [Nat.mul_comm] at u1
      omega
    intro s' c' t' hw
    obtain ⟨g1, g2, g3⟩ := Worth.size hw
    obtain ⟨m, rfl, w1, w2, w3⟩ := Worth.two hw
    rw [List.length_map] at w3
    have hc : c' ≤ c' * m := Nat.le_mul_of_pos_right c' w1
    have hcomp := up_complete items s' c' m hw.1
    have hu := Nat.mul_le_mul_right c' hcomp
    refine ⟨?_, ?_⟩
    · apply Nat.le_of_not_lt
      intro hlt
      have hb := hsmall (c' - 1) (by omega)
      rw [show c' - 1 + 1 = c' by omega] at hb
      have := botStarts_none hb (s' + c' * m - c') (by omega)
      rw [show c' + (s' + c' * m - c') = s' + c' * m by omega] at this
      omega
    · intro hcc
      subst hcc
      rw [hend, Nat.mul_succ]
      refine ⟨?_, ?_⟩
      · apply Nat.le_of_not_lt
        intro hlt
        have := h6 (s' + (i + 1) * m - (i + 1)) (by omega) (by omega)
        rw [show i + 1 + (s' + (i + 1) * m - (i + 1)) = s' + (i + 1) * m by omega] at this
        omega
      · intro he
        rw [show s' + (i + 1) * m = i + 1 + k by omega] at hcomp
        omega

/-- The same from the top. -/
theorem C162_top (items : List Frame) :
    (repeatTop items = none ↔ NoRepeat (items.map Frame.key)) ∧
    ∀ s c t, repeatTop items = some (s, c, t) → Worth (items.map Frame.key) s c t ∧
      ∀ s' c' t', Worth (items.map Frame.key) s' c' t' → c ≤ c' ∧ (c' = c → s ≤ s' ∧ (s' = s → t' ≤ t)) := by
  have inRange : ∀ s c m, 1 ≤ c → 1 ≤ m → 2 ≤ m * c → s + c * m + c ≤ items.length → s < items.length - c - 1 := by
    intro s c m hc hm h2 h3
    rw [Nat.mul_comm] at h2
    omega
  constructor
  · constructor
    · intro h s c t hw
      have hn := findSome_range_none h
      obtain ⟨h1, h2, h3⟩ := Worth.size hw
      obtain ⟨m, rfl, g1, g2, g3⟩ := Worth.two hw
      rw [List.length_map] at g3
      have hb := hn (c - 1) h2
      rw [show c - 1 + 1 = c by omega] at hb
      have := topStarts_none hb s (inRange s c m h1 g1 g2 g3)
      rw [Nat.zero_add] at this
      have hu := Nat.mul_le_mul_right c (down_complete items s c m hw.1)
      omega
    · intro h
      cases hr : repeatTop items with
      | none => rfl
      | some q =>
        obtain ⟨s, c, t⟩ := q
        obtain ⟨i, hi, hs, _⟩ := findSome_range_some hr
        obtain ⟨k, h1, rfl, h3, h4, h5, _⟩ := topStarts_some hs
        exfalso
        have u2 := down_repeats items (i + 1) (0 + k) (by omega) (by omega)
        exact h _ _ _ ⟨u2, by rw [Nat.add_sub_cancel]; exact h5⟩
  · intro s c t hr
    obtain ⟨i, hi, hs, hsmall⟩ := findSome_range_some hr
    obtain ⟨k, h1, rfl, h3, h4, h5, h6⟩ := topStarts_some hs
    have u2 := down_repeats items (i + 1) (0 + k) (by omega) (by omega)
    rw [← h4, ← h3] at u2
    refine ⟨⟨u2, by rw [h4, Nat.add_sub_cancel]; exact h5⟩, ?_⟩
    intro s' c' t' hw
    obtain ⟨g1, g2, g3⟩ := Worth.size hw
    obtain ⟨m, rfl, w1, w2, w3⟩ := Worth.two hw
    rw [List.length_map] at w3
    have hcomp := down_complete items s' c' m hw.1
    have hu := Nat.mul_le_mul_right c' hcomp
    have hin := inRange s' c' m g1 w1 w2 w3
    refine ⟨?_, ?_⟩
    · apply Nat.le_of_not_lt
      intro hlt
      have hb := hsmall (c' - 1) (by omega)
      rw [show c' - 1 + 1 = c' by omega] at hb
      have := topStarts_none hb s' hin
      rw [Nat.zero_add] at this
      omega
    · intro hcc
      subst hcc
      refine ⟨?_, ?_⟩
      · apply Nat.le_of_not_lt
        intro hlt
        have := h6 s' (by omega)
        rw [Nat.zero_add] at this
        omega
      · intro he
        subst he
        rw [h4, ← h3]
        omega

example : repeatBot ([1, 2, 1, 2, 1, 3, 3].map fun k => ⟨k, 0⟩) = some (1, 2, 2) ∧ repeatTop ([1, 2, 1, 2, 1, 3, 3].map fun k => ⟨k, 0⟩) = some (0, 2, 2) ∧
    repeatBot ([1, 2, 2, 2, 1, 1].map fun k => ⟨k, 0⟩) = some (1, 1, 3) ∧ repeatBot ([1, 1, 2, 2, 3].map fun k => ⟨k, 0⟩) = none := by decide

end Verif.Frames
