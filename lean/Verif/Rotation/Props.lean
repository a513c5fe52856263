import Verif.Rotation.Model

/-!
# Properties of the rotation of host infos

C55.
-/

namespace Verif.Rotation

variable {α : Type}

theorem getElem?_rotations (n : Nat) (b : Basket α) (hb : b.start < b.hostInfos.length) (i : Nat) (hi : i < n) :
    (rotations n b)[i]? = some (b.hostInfos.drop ((b.start + i) % b.hostInfos.length)
      ++ b.hostInfos.take ((b.start + i) % b.hostInfos.length)) := by
  induction n generalizing b i with
  | zero => omega
  | succ n ih =>
    rw [rotations]
    cases i with
    | zero => simp [next, Nat.mod_eq_of_lt hb]
    | succ i =>
      rw [List.getElem?_cons_succ]
      by_cases he : b.start + 1 = b.hostInfos.length
      · have := ih (next b).2 (by simp only [next, he, if_pos]; omega) i (by omega)
        rw [this]
        simp only [next, he, if_pos]
        have : b.start + (i + 1) = 0 + i + b.hostInfos.length := by omega
        rw [this, Nat.add_mod_right]
      · have := ih (next b).2 (by simp only [next, if_neg he]; omega) i (by omega)
        rw [this]
        simp only [next, if_neg he]
        rw [Nat.add_assoc, Nat.add_comm 1 i]

/-- **C55.** The `i`-th rotation of a new basket starts at the host info `i` (cyclically), and goes on in cyclic order: its
`j`-th host info is the `(i + j)`-th one.  It has as many host infos as there are. -/
theorem C55_cyclic (hostInfos : List α) (n i : Nat) (hi : i < n) :
    ∃ rotation, (rotations n { hostInfos })[i]? = some rotation ∧ rotation.length = hostInfos.length ∧
      ∀ j, j < hostInfos.length → rotation[j]? = hostInfos[(i + j) % hostInfos.length]? := by
  by_cases h0 : hostInfos = []
  · subst h0
    have key : ∀ n (b : Basket α), b.hostInfos = [] → ∀ i, i < n → (rotations n b)[i]? = some [] := by
      intro n
      induction n with
      | zero => intro b _ i hi; omega
      | succ n ih =>
        intro b hb i hi
        rw [rotations]
        cases i with
        | zero => simp [next, hb]
        | succ i => rw [List.getElem?_cons_succ]; exact ih _ (by simp [next, hb]) i (by omega)
    exact ⟨[], key n _ rfl i hi, rfl, by intro j hj; simp at hj⟩
  · have hpos : 0 < hostInfos.length := List.length_pos_iff.mpr h0
    refine ⟨_, getElem?_rotations n { hostInfos } hpos i hi, ?_, ?_⟩
    · simp only [Nat.zero_add, List.length_append, List.length_drop, List.length_take]
      have := Nat.mod_lt i hpos
      omega
    · intro j hj
      simp only [Nat.zero_add]
      have hlt := Nat.mod_lt i hpos
      rw [List.getElem?_append, List.length_drop, List.getElem?_drop, List.getElem?_take]
      have hmod : (i + j) % hostInfos.length = (i % hostInfos.length + j) % hostInfos.length := by
        rw [Nat.mod_add_mod]
      rw [hmod]
      by_cases hc : j < hostInfos.length - i % hostInfos.length
      · rw [if_pos hc, Nat.mod_eq_of_lt (a := i % hostInfos.length + j) (by omega)]
      · rw [if_neg hc]
        have h2 : i % hostInfos.length + j = (j - (hostInfos.length - i % hostInfos.length)) + hostInfos.length := by omega
        rw [h2, Nat.add_mod_right, Nat.mod_eq_of_lt (a := j - (hostInfos.length - i % hostInfos.length)) (by omega), if_pos (by omega)]

/-- **C55.** Every rotation has each host info as often as the basket has it. -/
theorem C55_each_once (hostInfos : List α) (n : Nat) : ∀ rotation ∈ rotations n { hostInfos }, rotation.Perm hostInfos := by
  have key : ∀ n (b : Basket α), ∀ rotation ∈ rotations n b, rotation.Perm b.hostInfos := by
    intro n
    induction n with
    | zero => intro b r hr; cases hr
    | succ n ih =>
      intro b r hr
      rw [rotations] at hr
      rcases List.mem_cons.mp hr with rfl | hr
      · refine List.perm_append_comm.trans ?_
        rw [List.take_append_drop]
      · exact ih (next b).2 r hr
  exact key n _

theorem nodup_inj {l : List α} (h : l.Nodup) {i j : Nat} (hi : i < l.length) (hj : j < l.length) (e : l[i] = l[j]) : i = j := by
  rw [List.Nodup, List.pairwise_iff_getElem] at h
  rcases Nat.lt_trichotomy i j with hlt | he | hgt
  · exact absurd e (h i j hi hj hlt)
  · exact he
  · exact absurd e.symm (h j i hj hi hgt)

/-- **C55.** `n` consecutive rotations of `n` different host infos, after any number `m` of rotations, start at `n` different
ones. -/
theorem C55_starts (hostInfos : List α) (hn : hostInfos.Nodup) (m : Nat) :
    (((rotations (m + hostInfos.length) { hostInfos }).drop m).map List.head?).Nodup := by
  rcases Nat.eq_zero_or_pos hostInfos.length with h0 | hpos
  · have hl : ∀ n (b : Basket α), (rotations n b).length = n := by
      intro n
      induction n with
      | zero => intro b; rfl
      | succ n ih => intro b; rw [rotations, List.length_cons, ih]
    rw [List.drop_of_length_le (by rw [hl]; omega)]
    simp
  · rw [List.Nodup, List.pairwise_iff_getElem]
    intro i j hi hj hij
    have hl : ∀ n (b : Basket α), (rotations n b).length = n := by
      intro n
      induction n with
      | zero => intro b; rfl
      | succ n ih => intro b; rw [rotations, List.length_cons, ih]
    simp only [List.length_map, List.length_drop, hl] at hj
    have head : ∀ i, i < hostInfos.length →
        (((rotations (m + hostInfos.length) { hostInfos }).drop m).map List.head?)[i]?
          = some (hostInfos[(m + i) % hostInfos.length]?) := by
      intro i hi
      obtain ⟨r, h1, h2, h3⟩ := C55_cyclic hostInfos (m + hostInfos.length) (m + i) (by omega)
      rw [List.getElem?_map, List.getElem?_drop, h1]
      have := h3 0 hpos
      rw [Nat.add_zero] at this
      rw [Option.map_some, List.head?_eq_getElem?, this]
    intro he
    have he : some _ = some _ := congrArg some he
    rw [← List.getElem?_eq_getElem, ← List.getElem?_eq_getElem, head i (by omega), head j (by omega)] at he
    have he := Option.some.inj he
    have hli := Nat.mod_lt (m + i) hpos
    have hlj := Nat.mod_lt (m + j) hpos
    rw [List.getElem?_eq_getElem hli, List.getElem?_eq_getElem hlj] at he
    have := nodup_inj hn hli hlj (Option.some.inj he)
    -- two numbers at a distance less than the length
    have h1 := Nat.div_add_mod (m + i) hostInfos.length
    have h2 := Nat.div_add_mod (m + j) hostInfos.length
    rw [this] at h1
    have hq : (m + i) / hostInfos.length ≤ (m + j) / hostInfos.length := Nat.div_le_div_right (by omega)
    rcases Nat.lt_or_eq_of_le hq with hq | hq
    · have : hostInfos.length * ((m + i) / hostInfos.length) + hostInfos.length
          ≤ hostInfos.length * ((m + j) / hostInfos.length) := by
        rw [← Nat.mul_succ]
        exact Nat.mul_le_mul_left _ hq
      omega
    · rw [hq] at h1
      omega

example : rotations 4 { hostInfos := [1, 2, 3] } = [[1, 2, 3], [2, 3, 1], [3, 1, 2], [1, 2, 3]] := by decide

end Verif.Rotation
