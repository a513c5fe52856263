import Verif.Lists.Model

namespace Verif.Lists

/-! ## Specification -/

/-- From the smallest to the greatest. -/
def Ascending (l : List Int) : Prop := l.Pairwise (· ≤ ·)

/-- The list after `v` was moved from one position to another. -/
def move (l : List Int) (old new : Nat) (v : Int) : List Int := (l.eraseIdx old).insertIdx new v

/-! ## C356: relative_index -/

theorem bisect_range (l : List Int) (v : Int) (bot top : Nat) (h : bot ≤ top) :
    bot ≤ bisect l v bot top ∧ bisect l v bot top ≤ top := by
  fun_induction bisect l v bot top with
  | case1 bot top hlt hv ih => have := ih (by omega); omega
  | case2 bot top hlt hv ih => have := ih (by omega); omega
  | case3 bot top hlt => omega

theorem getD_mono {l : List Int} (hs : Ascending l) {i j : Nat} (hij : i ≤ j) (hj : j < l.length) : l.getD i 0 ≤ l.getD j 0 := by
  rcases Nat.lt_or_eq_of_le hij with h | h
  · have := List.pairwise_iff_getElem.1 hs i j (by omega) hj h
    simpa [List.getD_eq_getElem?_getD, List.getElem?_eq_getElem (show i < l.length by omega), List.getElem?_eq_getElem hj] using this
  · subst h; exact Int.le_refl _

theorem bisect_spec (l : List Int) (v : Int) (hs : Ascending l) (bot top : Nat) (h : bot ≤ top) (ht : top ≤ l.length)
    (h1 : ∀ i, i < bot → l.getD i 0 < v) (h2 : ∀ i, top ≤ i → i < l.length → v ≤ l.getD i 0) :
    (∀ i, i < bisect l v bot top → l.getD i 0 < v) ∧ (∀ i, bisect l v bot top ≤ i → i < l.length → v ≤ l.getD i 0) := by
  fun_induction bisect l v bot top with
  | case1 bot top hlt hv ih =>
    refine ih (by omega) ht (fun i hi => ?_) h2
    exact Int.lt_of_le_of_lt (getD_mono hs (by omega) (by omega)) hv
  | case2 bot top hlt hv ih =>
    refine ih (by omega) (by omega) h1 (fun i hi hl => ?_)
    exact Int.le_trans (Int.not_lt.1 hv) (getD_mono hs hi hl)
  | case3 bot top hlt =>
    have : bot = top := by omega
    subst this
    exact ⟨h1, h2⟩

/-- C356: in an ascending list, `relative_index` gives the position before which all elements are smaller, and from which
on none is. -/
theorem C356_split (l : List Int) (v : Int) (hs : Ascending l) :
    relativeIndex l v ≤ l.length ∧ (∀ x ∈ l.take (relativeIndex l v), x < v) ∧ (∀ x ∈ l.drop (relativeIndex l v), v ≤ x) := by
  have hr := bisect_range l v 0 l.length (Nat.zero_le _)
  obtain ⟨h1, h2⟩ := bisect_spec l v hs 0 l.length (Nat.zero_le _) (Nat.le_refl _) (by omega) (by omega)
  refine ⟨hr.2, fun x hx => ?_, fun x hx => ?_⟩
  · obtain ⟨i, hi, rfl⟩ := List.mem_iff_getElem.1 hx
    simp only [List.length_take] at hi
    have := h1 i (by unfold relativeIndex at hi; omega)
    rw [List.getElem_take]
    simpa [List.getD_eq_getElem?_getD, List.getElem?_eq_getElem (show i < l.length by omega)] using this
  · obtain ⟨i, hi, rfl⟩ := List.mem_iff_getElem.1 hx
    simp only [List.length_drop] at hi
    have := h2 (relativeIndex l v + i) (by unfold relativeIndex; omega) (by omega)
    rw [List.getElem_drop]
    simpa [List.getD_eq_getElem?_getD, List.getElem?_eq_getElem (show relativeIndex l v + i < l.length by omega)] using this

/-- C356: inserting there keeps it ascending. -/
theorem C356_insert (l : List Int) (v : Int) (hs : Ascending l) :
    Ascending (l.take (relativeIndex l v) ++ v :: l.drop (relativeIndex l v)) := by
  obtain ⟨_, h1, h2⟩ := C356_split l v hs
  have hs' := hs
  unfold Ascending at *
  rw [← List.take_append_drop (relativeIndex l v) l, List.pairwise_append] at hs'
  rw [List.pairwise_append, List.pairwise_cons]
  refine ⟨hs'.1, ⟨h2, hs'.2.1⟩, fun a ha b hb => ?_⟩
  rcases List.mem_cons.1 hb with rfl | hb
  · exact Int.le_of_lt (h1 a ha)
  · exact Int.le_trans (Int.le_of_lt (h1 a ha)) (h2 b hb)

/-- C356: it stays within the list even if that is not ascending. -/
theorem C356_within (l : List Int) (v : Int) : relativeIndex l v ≤ l.length :=
  (bisect_range l v 0 l.length (Nat.zero_le _)).2

example : relativeIndex [1, 3, 3, 8] 3 = 1 ∧ relativeIndex [1, 3, 3, 8] 9 = 4 := by decide +kernel

/-! ## C357: change_on_switch -/

theorem index_of_mem (l : List Int) (v : Int) (hs : Ascending l) (hv : v ∈ l) :
    relativeIndex l v < l.length ∧ l.getD (relativeIndex l v) 0 = v := by
  obtain ⟨h0, h1, h2⟩ := C356_split l v hs
  have hmem : v ∈ l.drop (relativeIndex l v) := by
    have : v ∈ l.take (relativeIndex l v) ++ l.drop (relativeIndex l v) := by rw [List.take_append_drop]; exact hv
    rcases List.mem_append.1 this with h | h
    · exact absurd (h1 v h) (Int.lt_irrefl v)
    · exact h
  have hlt : relativeIndex l v < l.length := by
    rcases Nat.lt_or_eq_of_le h0 with h | h
    · exact h
    · rw [h] at hmem; simp at hmem
  refine ⟨hlt, ?_⟩
  rw [List.drop_eq_getElem_cons hlt] at h2 hmem
  have hle := h2 _ List.mem_cons_self
  have hge : l[relativeIndex l v] ≤ v := by
    rcases List.mem_cons.1 hmem with h | h
    · omega
    · obtain ⟨j, hj, hjv⟩ := List.mem_iff_getElem.1 h
      simp only [List.length_drop] at hj
      rw [List.getElem_drop] at hjv
      have := List.pairwise_iff_getElem.1 hs (relativeIndex l v) (relativeIndex l v + 1 + j) hlt (by omega) (by omega)
      omega
  have : l[relativeIndex l v] = v := by omega
  simp [List.getD_eq_getElem?_getD, List.getElem?_eq_getElem hlt, this]

theorem changes_eq (l : List Int) (c : Int) (i n : Nat) :
    changes l c i n = (List.range' i n).map fun k => (l.getD k 0, (k : Int) + 1 + c) := by
  induction n generalizing i with
  | zero => rfl
  | succ n ih =>
    rw [changes, List.range'_succ, List.map_cons, ih]
    simp

/-- C357: a value which is not in the list is told with a ValueError. -/
theorem C357_missing_partial (l : List Int) (v p : Int) (hs : Ascending l) : changeOnSwitch l v p = .inl .value ↔ v ∉ l := by
  unfold changeOnSwitch
  constructor
  · intro h hv
    obtain ⟨h1, h2⟩ := index_of_mem l v hs hv
    dsimp only at h
    rw [if_neg (by rintro (h | h); omega; exact h h2)] at h
    split at h
    · cases h
    · split at h <;> cases h
  · intro hv
    dsimp only
    rw [if_pos]
    rcases Nat.lt_or_eq_of_le (C356_within l v) with h | h
    · right
      intro he
      apply hv
      rw [← he]
      simp [List.getD_eq_getElem?_getD, List.getElem?_eq_getElem h]
    · left; exact h

/-- C357: which positions a value may be moved to: those below zero are the first one, those after the last one are the
last one. -/
theorem C357_same_partial (l : List Int) (v p : Int) (hs : Ascending l) (hv : v ∈ l) :
    changeOnSwitch l v p = .inr [] ↔
      p = relativeIndex l v ∨ (p < 0 ∧ relativeIndex l v = 0) ∨ ((l.length : Int) ≤ p ∧ relativeIndex l v + 1 = l.length) := by
  obtain ⟨h1, h2⟩ := index_of_mem l v hs hv
  unfold changeOnSwitch
  dsimp only
  rw [if_neg (by rintro (h | h); omega; exact h h2)]
  have hc : clamp l.length p = relativeIndex l v ↔
      p = relativeIndex l v ∨ (p < 0 ∧ relativeIndex l v = 0) ∨ ((l.length : Int) ≤ p ∧ relativeIndex l v + 1 = l.length) := by
    unfold clamp
    split
    · omega
    · split <;> omega
  rw [← hc]
  constructor
  · intro h
    split at h
    · assumption
    · split at h
      · cases h
      · simp at h
  · intro h
    rw [if_pos h]

/-- C357: when a value is moved to the end, the elements told are those which change their position, in order, and the
value with its new position at last. -/
theorem C357_up_partial (l : List Int) (v : Int) (new : Nat) (hs : Ascending l) (hv : v ∈ l) (hn : relativeIndex l v < new)
    (hl : new < l.length) :
    ∃ r, changeOnSwitch l v new = .inr (r ++ [(v, (new : Int))]) ∧
      r.map (·.1) = (l.drop (relativeIndex l v + 1)).take (new - relativeIndex l v) := by
  obtain ⟨h1, h2⟩ := index_of_mem l v hs hv
  refine ⟨changes l (-1) (relativeIndex l v + 1) (new - relativeIndex l v), ?_, ?_⟩
  · unfold changeOnSwitch
    dsimp only
    rw [if_neg (by rintro (h | h); omega; exact h h2)]
    have hc : clamp l.length (new : Int) = new := by
      unfold clamp
      rw [if_neg (by omega), if_neg (by omega)]
    rw [hc, if_neg (by omega), if_neg (by omega)]
    simp
  · rw [changes_eq, List.map_map]
    apply List.ext_getElem
    · simp; omega
    · intro k hk1 hk2
      simp at hk1 hk2
      simp [List.getD_eq_getElem?_getD, List.getElem?_eq_getElem (show relativeIndex l v + 1 + k < l.length by omega)]

/-- C357: a position behind the last one is the last one, a negative one is the first one. -/
theorem C357_outside_partial (l : List Int) (v p : Int) (hl : l ≠ []) :
    ((l.length : Int) ≤ p → changeOnSwitch l v p = changeOnSwitch l v ((l.length : Int) - 1)) ∧
    (p < 0 → changeOnSwitch l v p = changeOnSwitch l v 0) := by
  have h0 : 0 < l.length := List.length_pos_iff.2 hl
  have hc : ((l.length : Int) ≤ p → clamp l.length p = clamp l.length ((l.length : Int) - 1)) ∧
      (p < 0 → clamp l.length p = clamp l.length 0) := by
    constructor
    · intro h
      unfold clamp
      rw [if_pos (by omega), if_neg (by omega), if_neg (by omega)]
    · intro h
      unfold clamp
      rw [if_neg (by omega), if_pos h, if_neg (by omega), if_neg (by omega)]
  constructor
  · intro h
    simp only [changeOnSwitch, hc.1 h]
  · intro h
    simp only [changeOnSwitch, hc.2 h]

/-- C357: but each of these elements is told with the position it already has, instead of the one it gets. -/
theorem C357_positions_violated (l : List Int) (v : Int) (new : Nat) (hs : Ascending l) (hv : v ∈ l) (hn : relativeIndex l v < new)
    (hl : new < l.length) :
    ∃ r, changeOnSwitch l v new = .inr (r ++ [(v, (new : Int))]) ∧
      ∀ k < new - relativeIndex l v,
        r[k]? = some (l.getD (relativeIndex l v + 1 + k) 0, ((relativeIndex l v + 1 + k : Nat) : Int)) ∧
          (move l (relativeIndex l v) new v)[relativeIndex l v + k]? = l[relativeIndex l v + 1 + k]? := by
  obtain ⟨h1, h2⟩ := index_of_mem l v hs hv
  refine ⟨changes l (-1) (relativeIndex l v + 1) (new - relativeIndex l v), ?_, fun k hk => ⟨?_, ?_⟩⟩
  · unfold changeOnSwitch
    dsimp only
    rw [if_neg (by rintro (h | h); omega; exact h h2)]
    have hc : clamp l.length (new : Int) = new := by
      unfold clamp
      rw [if_neg (by omega), if_neg (by omega)]
    rw [hc, if_neg (by omega), if_neg (by omega)]
    simp
  · rw [changes_eq, List.getElem?_map, List.getElem?_range' hk]
    simp
    omega
  · unfold move
    rw [List.getElem?_insertIdx_of_lt (by omega), List.getElem?_eraseIdx_of_ge (by omega)]
    congr 1
    omega

/-- C357: and every move to the front raises a TypeError. -/
theorem C357_down_violated (l : List Int) (v : Int) (p : Int) (hs : Ascending l) (hv : v ∈ l) (hn : p < relativeIndex l v)
    (h0 : 0 < relativeIndex l v) : changeOnSwitch l v p = .inl .type := by
  obtain ⟨h1, h2⟩ := index_of_mem l v hs hv
  unfold changeOnSwitch
  dsimp only
  rw [if_neg (by rintro (h | h); omega; exact h h2)]
  have hc : clamp l.length p < relativeIndex l v := by
    unfold clamp
    rw [if_neg (by omega)]
    split <;> omega
  rw [if_neg (by omega), if_pos hc]

example : changeOnSwitch [1, 2, 3, 4] 2 3 = .inr [(3, 2), (4, 3), (2, 3)] ∧ move [1, 2, 3, 4] 1 3 2 = [1, 3, 4, 2] := by decide +kernel
example : changeOnSwitch [1, 2, 3, 4] 3 0 = .inl .type := by decide +kernel

/-! ## C358: list_difference -/

theorem diff_balance (xs ys : List Int) (a : Int) :
    (diff xs ys).1.count a + ys.count a = (diff xs ys).2.count a + xs.count a := by
  fun_induction diff xs ys with
  | case1 ys => simp
  | case2 x xs => simp
  | case3 x xs y ys h d ih =>
    simp only [List.count_cons, d] at ih ⊢
    omega
  | case4 x xs y ys h1 h2 d ih =>
    simp only [List.count_cons, d] at ih ⊢
    omega
  | case5 x xs y ys h1 h2 ih =>
    have : x = y := by omega
    subst this
    simp only [List.count_cons]
    omega

theorem diff_sublist (xs ys : List Int) : (diff xs ys).1.Sublist xs ∧ (diff xs ys).2.Sublist ys := by
  fun_induction diff xs ys with
  | case1 ys => simp
  | case2 x xs => simp
  | case3 x xs y ys h d ih => exact ⟨ih.1.cons_cons x, ih.2⟩
  | case4 x xs y ys h1 h2 d ih => exact ⟨ih.1, ih.2.cons_cons y⟩
  | case5 x xs y ys h1 h2 ih => exact ⟨ih.1.cons x, ih.2.cons y⟩

theorem count_zero_of_lt (x a : Int) (xs : List Int) (h : ∀ b ∈ xs, x ≤ b) (ha : a < x) : xs.count a = 0 := by
  rw [List.count_eq_zero]
  intro hm
  have := h a hm
  omega

theorem diff_counts (xs ys : List Int) (hx : Ascending xs) (hy : Ascending ys) (a : Int) :
    (diff xs ys).1.count a = xs.count a - ys.count a := by
  fun_induction diff xs ys with
  | case1 ys => simp
  | case2 x xs => simp
  | case3 x xs y ys h d ih =>
    have hx' := List.pairwise_cons.1 hx
    have hy' := List.pairwise_cons.1 hy
    have := ih hx'.2 hy
    simp only [List.count_cons, d] at this ⊢
    rw [this]
    by_cases hax : x = a
    · subst hax
      have h1 : ys.count x = 0 := count_zero_of_lt y x ys hy'.1 h
      have h2 : (y == x) = false := by simp; omega
      simp [h1, h2]
    · have : (x == a) = false := by simp; omega
      simp [this]
  | case4 x xs y ys h1 h2 d ih =>
    have hx' := List.pairwise_cons.1 hx
    have hy' := List.pairwise_cons.1 hy
    have := ih hx hy'.2
    simp only [List.count_cons, d] at this ⊢
    rw [this]
    by_cases hay : y = a
    · subst hay
      have h3 : xs.count y = 0 := count_zero_of_lt x y xs hx'.1 (by omega)
      have h4 : (x == y) = false := by simp; omega
      simp [h3, h4]
    · have : (y == a) = false := by simp; omega
      simp [this]
  | case5 x xs y ys h1 h2 ih =>
    have hx' := List.pairwise_cons.1 hx
    have hy' := List.pairwise_cons.1 hy
    have := ih hx'.2 hy'.2
    have e : x = y := by omega
    subst e
    simp only [List.count_cons]
    omega

/-- Which elements were given. -/
def Has : Given → List Int → Prop
  | .none, l => l = []
  | .list a, l => l = a ∧ Ascending a
  | .set a, l => l = a ∧ a.Nodup

theorem sorted_perm (l : List Int) : (sorted l).Perm l := List.mergeSort_perm _ _

theorem sorted_ascending (l : List Int) : Ascending (sorted l) := by
  have := List.pairwise_mergeSort (le := fun a b : Int => decide (a ≤ b)) (by simp; omega) (by simp; omega) l
  simpa [Ascending, sorted] using this

theorem take_spec (g : Given) (l : List Int) (h : Has g l) : Ascending g.take ∧ g.take.Perm l := by
  cases g with
  | none => cases h; exact ⟨List.Pairwise.nil, List.Perm.refl _⟩
  | list a => obtain ⟨rfl, h⟩ := h; exact ⟨h, List.Perm.refl _⟩
  | set a => obtain ⟨rfl, _⟩ := h; exact ⟨sorted_ascending _, sorted_perm _⟩

theorem difference_counts (g1 g2 : Given) (l1 l2 : List Int) (h1 : Has g1 l1) (h2 : Has g2 l2) (a : Int) :
    (listDifference g1 g2).1.count a = l1.count a - l2.count a ∧ (listDifference g1 g2).2.count a = l2.count a - l1.count a := by
  have key : (diff g1.take g2.take).1.count a = l1.count a - l2.count a ∧
      (diff g1.take g2.take).2.count a = l2.count a - l1.count a := by
    obtain ⟨s1, p1⟩ := take_spec g1 l1 h1
    obtain ⟨s2, p2⟩ := take_spec g2 l2 h2
    have hc := diff_counts _ _ s1 s2 a
    have hb := diff_balance g1.take g2.take a
    rw [p1.count_eq, p2.count_eq] at hc hb
    omega
  cases g1 <;> cases g2 <;> first
    | exact key
    | (simp only [Has] at h1 h2; simp [listDifference, h1, h2])

/-- C358: of ascending lists, sets or None, each element is in the first result as many times as it is in the first one
more than in the second one, and in the second result the other way round. -/
theorem C358_difference (g1 g2 : Given) (l1 l2 : List Int) (h1 : Has g1 l1) (h2 : Has g2 l2) (a : Int) :
    (listDifference g1 g2).1.count a = l1.count a - l2.count a ∧ (listDifference g1 g2).2.count a = l2.count a - l1.count a :=
  difference_counts g1 g2 l1 l2 h1 h2 a

/-- C358: no element is in both results, and both are empty exactly if the same elements were given. -/
theorem C358_same (g1 g2 : Given) (l1 l2 : List Int) (h1 : Has g1 l1) (h2 : Has g2 l2) :
    (∀ a, a ∈ (listDifference g1 g2).1 → a ∉ (listDifference g1 g2).2) ∧
      (listDifference g1 g2 = ([], []) ↔ l1.Perm l2) := by
  constructor
  · intro a ha hb
    have := C358_difference g1 g2 l1 l2 h1 h2 a
    have p1 := List.count_pos_iff.2 ha
    have p2 := List.count_pos_iff.2 hb
    omega
  · rw [List.perm_iff_count]
    constructor
    · intro h a
      have := C358_difference g1 g2 l1 l2 h1 h2 a
      rw [h] at this
      simp at this
      omega
    · intro h
      refine Prod.ext ?_ ?_
      · rw [List.eq_nil_iff_forall_not_mem]
        intro a ha
        have := C358_difference g1 g2 l1 l2 h1 h2 a
        have p := List.count_pos_iff.2 ha
        have := h a
        omega
      · rw [List.eq_nil_iff_forall_not_mem]
        intro a ha
        have := C358_difference g1 g2 l1 l2 h1 h2 a
        have p := List.count_pos_iff.2 ha
        have := h a
        omega

/-- C358: of lists in any order, the results are parts of them in their order, and what is left out is the same in both. -/
theorem C358_any (xs ys : List Int) :
    (listDifference (.list xs) (.list ys)).1.Sublist xs ∧ (listDifference (.list xs) (.list ys)).2.Sublist ys ∧
      ∀ a, (listDifference (.list xs) (.list ys)).1.count a + ys.count a = (listDifference (.list xs) (.list ys)).2.count a + xs.count a :=
  ⟨(diff_sublist xs ys).1, (diff_sublist xs ys).2, diff_balance xs ys⟩

example : (listDifference (.list [1, 2, 2, 5]) (.list [2, 3, 5])).1.count 2 = 1 := by
  have := C358_difference (.list [1, 2, 2, 5]) (.list [2, 3, 5]) _ _ ⟨rfl, by simp [Ascending]⟩ ⟨rfl, by simp [Ascending]⟩ 2
  simpa using this.1

/-! ## C359: un_map_pack -/

theorem alternately_eq (l : List (Nat × Int)) (v : Option Int) (n : Nat) (h : l.length ≤ n) :
    alternately n ⟨l, v⟩ = l.map fun x => (x.1, some x.2) := by
  induction n generalizing l v with
  | zero => cases l with
    | nil => rfl
    | cons _ _ => simp at h
  | succ n ih =>
    cases l with
    | nil => rfl
    | cons x xs =>
      obtain ⟨k, a⟩ := x
      simp only [alternately, Pack.next, Pack.get, List.map_cons]
      rw [ih xs (some a) (by simpa using h)]

theorem keys_eq (l : List (Nat × Int)) (v : Option Int) :
    Pack.keys l v = (l.map (·.1), ⟨[], (l.getLast?.map (·.2)).or v⟩) := by
  induction l generalizing v with
  | nil => simp [Pack.keys]
  | cons x xs ih =>
    obtain ⟨k, a⟩ := x
    simp only [Pack.keys, ih, List.map_cons]
    cases xs with
    | nil => simp
    | cons y ys =>
      cases hl : (y :: ys).getLast? with
      | none => simp at hl
      | some z => simp [List.getLast?_cons_cons, hl]

/-- C359: if each value is asked for after its key, the pairs are those of the generator. -/
theorem C359_pairs_partial (l : List (Nat × Int)) :
    alternately l.length ⟨l, none⟩ = l.map fun x => (x.1, some x.2) := alternately_eq l none l.length (Nat.le_refl _)

/-- C359: if all keys are taken first, all of them get the last value. -/
theorem C359_keys_first_violated (l : List (Nat × Int)) (k : Nat) (v : Int) :
    keysFirst ⟨l ++ [(k, v)], none⟩ = (l ++ [(k, v)]).map fun x => (x.1, some v) := by
  simp [keysFirst, keys_eq, Pack.get]

/-- C359: which are the right ones only if all values are the same. -/
theorem C359_constant_partial (l : List (Nat × Int)) :
    keysFirst ⟨l, none⟩ = l.map (fun x => (x.1, some x.2)) ↔ ∃ v, ∀ x ∈ l, x.2 = v := by
  rcases List.eq_nil_or_concat l with rfl | ⟨l', ⟨k, v⟩, rfl⟩
  · simp [keysFirst, keys_eq]
  · rw [List.concat_eq_append, C359_keys_first_violated]
    constructor
    · intro h
      refine ⟨v, fun x hx => ?_⟩
      have := List.map_inj_left.1 h x hx
      simp at this
      exact this.symm
    · rintro ⟨w, hw⟩
      have hv : v = w := hw (k, v) (by simp)
      subst hv
      exact List.map_inj_left.2 fun x hx => by rw [hw x hx]

example : keysFirst ⟨[(1, 10), (2, 20)], none⟩ = [(1, some 20), (2, some 20)] := by decide

/-! ## C360: equality of views -/

theorem removeAll_iff (xs ys : List Int) : removeAll xs ys = true ↔ xs.Perm ys := by
  induction xs generalizing ys with
  | nil => simp [removeAll, List.isEmpty_iff]
  | cons x xs ih =>
    rw [removeAll]
    split
    · rename_i hm
      rw [ih, List.cons_perm_iff_perm_erase]
      exact ⟨fun h => ⟨hm, h⟩, fun h => h.2⟩
    · rename_i hm
      constructor
      · intro h; cases h
      · intro h
        exact absurd (h.subset List.mem_cons_self) hm

/-- C360: a view of values equals a list, or any other iterable, exactly if that has the same values the same times in some
order; what cannot be iterated is not compared. -/
theorem C360_values_partial (parent : List (Int × Int)) (l : List Int) (sized : Bool) :
    (valuesEq parent (.list l) = some true ↔ (parent.map (·.2)).Perm l) ∧
      (valuesEq parent (.iterable sized l) = some true ↔ (parent.map (·.2)).Perm l) ∧
      (valuesEq parent (.list l)).isSome ∧ valuesEq parent .other = none := by
  have key : (if parent.length ≠ l.length then some false else some (removeAll (parent.map (·.2)) l)) = some true ↔
      (parent.map (·.2)).Perm l := by
    split
    · rename_i h
      constructor
      · intro h'; cases h'
      · intro h'
        have := h'.length_eq
        simp at this
        exact absurd this h
    · rw [Option.some.injEq, removeAll_iff]
  refine ⟨key, key, ?_, rfl⟩
  simp only [valuesEq]
  split <;> rfl

/-- C360: but two views of values with the same values differ if the keys differ. -/
theorem C360_values_violated (k1 k2 v : Int) (h : k1 ≠ k2) :
    valuesEq [(k1, v)] (.view [(k2, v)]) = some false ∧ valuesEq [(k1, v)] (.list [v]) = some true ∧
      valuesEq [(k2, v)] (.list [v]) = some true := by
  refine ⟨?_, ?_, ?_⟩
  · have : (k1 == k2) = false := by simp [h]
    simp [valuesEq, dictEq, List.lookup, this]
  · simp [valuesEq, removeAll]
  · simp [valuesEq, removeAll]

/-- C360: and two views of keys with the same keys differ if the values differ. -/
theorem C360_keys_violated (k v1 v2 : Int) (h : v1 ≠ v2) : keysEq [(k, v1)] [(k, v2)] = false := by
  simp [keysEq, dictEq, List.lookup, Ne.symm h]

example : valuesEq [(1, 5), (2, 6), (3, 5)] (.list [5, 5, 6]) = some true := by decide
example : valuesEq [(1, 5), (2, 6), (3, 5)] (.list [5, 6, 6]) = some false := by decide

/-! ## C361: any_to_any, where -/

/-- C361: whether two containers have an element in common. -/
theorem C361_any (xs ys : List Int) : anyToAny xs ys = true ↔ ∃ a, a ∈ xs ∧ a ∈ ys := by
  induction xs with
  | nil => simp [anyToAny]
  | cons x xs ih =>
    rw [anyToAny]
    split
    · rename_i h
      exact ⟨fun _ => ⟨x, List.mem_cons_self, h⟩, fun _ => rfl⟩
    · rename_i h
      rw [ih]
      constructor
      · rintro ⟨a, h1, h2⟩; exact ⟨a, List.mem_cons_of_mem _ h1, h2⟩
      · rintro ⟨a, h1, h2⟩
        rcases List.mem_cons.1 h1 with rfl | h1
        · exact absurd h2 h
        · exact ⟨a, h1, h2⟩

/-- C361: `where` gives the first element wanted, and raises exactly if there is none. -/
theorem C361_where (key : Int → Bool) (l : List Int) :
    (where_ key l = none ↔ ∀ a ∈ l, key a = false) ∧
      ∀ x, where_ key l = some x ↔ ∃ p q, l = p ++ x :: q ∧ key x = true ∧ ∀ a ∈ p, key a = false := by
  induction l with
  | nil => simp [where_]
  | cons y ys ih =>
    rw [where_]
    split
    · rename_i h
      constructor
      · simp [h]
      · intro x
        constructor
        · intro hx
          cases hx
          exact ⟨[], ys, rfl, h, by simp⟩
        · rintro ⟨p, q, he, hx, hp⟩
          cases p with
          | nil => simp at he; rw [he.1]
          | cons a p =>
            simp at he
            have := hp y (by simp [he.1])
            simp [h] at this
    · rename_i h
      constructor
      · rw [ih.1]; simp [h]
      · intro x
        rw [ih.2]
        constructor
        · rintro ⟨p, q, he, hx, hp⟩
          refine ⟨y :: p, q, by simp [he], hx, ?_⟩
          intro a ha
          rcases List.mem_cons.1 ha with rfl | ha
          · simpa using h
          · exact hp a ha
        · rintro ⟨p, q, he, hx, hp⟩
          cases p with
          | nil => simp at he; rw [he.1] at h; exact absurd hx h
          | cons a p =>
            simp at he
            exact ⟨p, q, he.2, hx, fun b hb => hp b (List.mem_cons_of_mem _ hb)⟩

example : where_ (fun x => decide (x > 2)) [1, 3, 5] = some 3 := by decide

end Verif.Lists
