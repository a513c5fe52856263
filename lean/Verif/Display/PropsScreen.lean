import Verif.Display.PropsRows

/-!
# The screen: jumping, clearing, writing, and writing of the difference
-/

namespace Verif.Display

/-- A row of the screen shows a text and is blank behind it. -/
def Shows (cells : Nat → Nat) (t : Text) : Prop := ∀ x, cells x = t.getD x 32

/-- Items are texts with their length, or commands. -/
def Good (r : Row) : Prop := ∀ i ∈ r, i.length = 0 ∨ i.length = i.text.length

theorem run_append (c : Nat) (t : Term) (a b : List Cmd) : run c t (a ++ b) = run c (run c t a) b := by
  simp [run, List.foldl_append]

theorem run_cons (c : Nat) (t : Term) (a : Cmd) (b : List Cmd) : run c t (a :: b) = run c (exec c t a) b := rfl

theorem run_nil (c : Nat) (t : Term) : run c t [] = t := rfl

/-! ## C376: jumping -/

/-- C376: Jumping between rows only changes the row, to the wanted one. -/
theorem C376_vertical (c : Nat) (t : Term) (new : Nat) : run c t (jumpV t.row new) = { t with row := new } := by
  unfold jumpV
  split
  · simp only [run, List.foldl_cons, List.foldl_nil, exec]
    congr 1; omega
  · split
    · simp only [run, List.foldl_cons, List.foldl_nil, exec]
      congr 1; omega
    · obtain rfl : new = t.row := by omega
      rfl

/-- C376: Jumping between columns only changes the column, to the wanted one. -/
theorem C376_horizontal (c : Nat) (t : Term) (new : Nat) (ht : t.col < c) (hn : new < c) :
    run c t (jumpH t.col new) = { t with col := new } := by
  unfold jumpH
  split
  · simp only [run, List.foldl_cons, List.foldl_nil, exec]
    congr 1; omega
  · split
    · simp only [run, List.foldl_cons, List.foldl_nil, exec]
      congr 1; omega
    · obtain rfl : new = t.col := by omega
      rfl

/-! ## Texts written -/

theorem put_row (c : Nat) (t : Term) (a : Nat) (h : t.col < c) :
    put c t a = { t with cells := fun y x => if y = t.row ∧ x = t.col then a else t.cells y x, col := t.col + 1 } := by
  have : ¬ t.col ≥ c := by omega
  simp [put, this]

/-- A text written where there is place for it. -/
theorem exec_text (c : Nat) : ∀ (s : Text) (t : Term), t.col + s.length ≤ c →
    (exec c t (.text s)).row = t.row ∧ (exec c t (.text s)).col = t.col + s.length ∧
    (∀ y, y ≠ t.row → (exec c t (.text s)).cells y = t.cells y) ∧
    ∀ x, (exec c t (.text s)).cells t.row x =
      if t.col ≤ x ∧ x < t.col + s.length then s.getD (x - t.col) 32 else t.cells t.row x
  | [], t, h => ⟨rfl, rfl, fun _ _ => rfl, fun x => by
      rw [if_neg (by simp)]; rfl⟩
  | a :: s, t, h => by
    simp only [List.length_cons] at h
    have hp := put_row c t a (by omega)
    obtain ⟨h1, h2, h3, h4⟩ := exec_text c s (put c t a) (by rw [hp]; simp only; omega)
    have e : exec c t (.text (a :: s)) = exec c (put c t a) (.text s) := rfl
    rw [e]
    rw [hp] at h1 h2 h3 h4 ⊢
    simp only at h1 h2 h3 h4 ⊢
    refine ⟨h1, by rw [h2, List.length_cons]; omega, ?_, ?_⟩
    · intro y hy
      rw [h3 y hy]
      funext x
      rw [if_neg (fun h => hy h.1)]
    · intro x
      rw [h4 x]
      by_cases hx : x = t.col
      · subst hx
        rw [if_neg (by omega), if_pos ⟨trivial, rfl⟩, if_pos (by rw [List.length_cons]; omega)]
        simp
      · by_cases hx2 : t.col ≤ x ∧ x < t.col + (s.length + 1)
        · rw [if_pos (by omega), if_pos (by rw [List.length_cons]; omega)]
          rw [show x - t.col = (x - (t.col + 1)) + 1 by omega, List.getD_cons_succ]
        · rw [if_neg (by omega), if_neg (fun h => hx h.2), if_neg (by rw [List.length_cons]; omega)]

theorem visible_nil : visible [] = [] := rfl

theorem visible_cons (i : Item) (r : Row) : visible (i :: r) = (if i.length = 0 then [] else i.text) ++ visible r := rfl

theorem len_cons (i : Item) (r : Row) : Row.len (i :: r) = i.length + Row.len r := rfl

theorem len_append (a b : Row) : Row.len (a ++ b) = Row.len a + Row.len b := by simp [Row.len]

/-- The length of a row is the number of its visible characters. -/
theorem len_visible : ∀ {r : Row}, Good r → (visible r).length = r.len
  | [], _ => rfl
  | i :: r, h => by
    have hi := h i (by simp)
    rw [visible_cons, len_cons, List.length_append, len_visible (r := r) fun j hj => h j (by simp [hj])]
    split
    · rename_i h0; simp [h0]
    · rcases hi with hi | hi
      · exact absurd hi (by assumption)
      · rw [hi]

/-- A list of items written where there is place for it. -/
theorem run_items (c : Nat) : ∀ (r : Row) (t : Term), Good r → t.col + r.len ≤ c →
    (run c t (r.map emit)).row = t.row ∧ (run c t (r.map emit)).col = t.col + r.len ∧
    (∀ y, y ≠ t.row → (run c t (r.map emit)).cells y = t.cells y) ∧
    ∀ x, (run c t (r.map emit)).cells t.row x =
      if t.col ≤ x ∧ x < t.col + r.len then (visible r).getD (x - t.col) 32 else t.cells t.row x
  | [], t, _, h => ⟨rfl, rfl, fun _ _ => rfl, fun x => by
      rw [if_neg (by simp [Row.len])]; rfl⟩
  | i :: (r : Row), t, hg, h => by
    rw [len_cons] at h
    have hgr : Good r := fun j hj => hg j (by simp [hj])
    have hi := hg i (by simp)
    rw [List.map_cons, run_cons, visible_cons, len_cons]
    by_cases h0 : i.length = 0
    · have e : exec c t (emit i) = t := by simp [emit, h0, exec]
      rw [e, h0, if_pos rfl, List.nil_append, Nat.zero_add]
      exact run_items c r t hgr (by omega)
    · have e : emit i = .text i.text := by simp [emit, h0]
      have hl : i.length = i.text.length := by omega
      rw [e]
      obtain ⟨a1, a2, a3, a4⟩ := exec_text c i.text t (by omega)
      obtain ⟨b1, b2, b3, b4⟩ := run_items c r (exec c t (.text i.text)) hgr (by omega)
      rw [if_neg h0]
      rw [a1] at b1 b3 b4
      refine ⟨b1, by rw [b2, a2]; omega, ?_, ?_⟩
      · intro y hy; rw [b3 y hy, a3 y hy]
      · intro x
        rw [b4 x, a4 x, a2, ← hl]
        by_cases h1 : t.col + i.length ≤ x ∧ x < t.col + i.length + r.len
        · rw [if_pos h1, if_pos (by omega)]
          simp only [List.getD_eq_getElem?_getD]
          rw [List.getElem?_append_right (by omega), show x - t.col - i.text.length = x - (t.col + i.length) by omega]
        · rw [if_neg h1]
          by_cases h2 : t.col ≤ x ∧ x < t.col + i.length
          · rw [if_pos h2, if_pos (by omega)]
            simp only [List.getD_eq_getElem?_getD]
            rw [List.getElem?_append_left (by omega)]
          · rw [if_neg h2, if_neg (by omega)]

/-- A row written from its start. -/
theorem start_items (c : Nat) (r : Row) (t : Term) (hg : Good r) (hl : r.len ≤ c) :
    (run c (exec c t .start) (r.map emit)).row = t.row ∧ (run c (exec c t .start) (r.map emit)).col = r.len ∧
    (∀ y, y ≠ t.row → (run c (exec c t .start) (r.map emit)).cells y = t.cells y) ∧
    ∀ x, (run c (exec c t .start) (r.map emit)).cells t.row x =
      if x < r.len then (visible r).getD x 32 else t.cells t.row x := by
  have hc : (exec c t .start).col = 0 := rfl
  have hr : (exec c t .start).row = t.row := rfl
  have hcl : (exec c t .start).cells = t.cells := rfl
  generalize exec c t .start = v at hc hr hcl ⊢
  obtain ⟨h1, h2, h3, h4⟩ := run_items c r v hg (by omega)
  rw [hr] at h1 h3 h4
  rw [hcl] at h3 h4
  rw [hc] at h2 h4
  refine ⟨h1, by omega, h3, ?_⟩
  intro x
  rw [h4 x]
  by_cases hx : x < r.len
  · rw [if_pos (by omega), if_pos hx, Nat.sub_zero]
  · rw [if_neg (by omega), if_neg hx]

/-- Behind the text there is nothing. -/
theorem getD_behind (t : Text) (x : Nat) (h : t.length ≤ x) : t.getD x 32 = 32 := by
  rw [List.getD_eq_getElem?_getD, List.getElem?_eq_none h]; rfl

/-! ## C377: clearing -/

theorem clear_loop (c : Nat) : ∀ (n : Nat) (t : Term), n ≤ t.row → t.col = 0 →
    (run c t (clearLoop n)).row = t.row - n ∧ (run c t (clearLoop n)).col = 0 ∧
    ∀ y, (run c t (clearLoop n)).cells y = if t.row - n ≤ y ∧ y ≤ t.row then fun _ => 32 else t.cells y
  | 0, t, _, hc => ⟨rfl, hc, fun y => by
      show (fun x => if y = t.row then 32 else t.cells y x) = _
      by_cases hy : y = t.row
      · subst hy; simp
      · rw [if_neg (by omega)]
        funext x; rw [if_neg hy]⟩
  | n + 1, t, hn, _ => by
    obtain ⟨h1, h2, h3⟩ := clear_loop c n (exec c (exec c t .clearLine) .previous) (by
      show n ≤ t.row - 1; omega) rfl
    have e : run c t (clearLoop (n + 1)) = run c (exec c (exec c t .clearLine) .previous) (clearLoop n) := rfl
    rw [e]
    have er : (exec c (exec c t .clearLine) .previous).row = t.row - 1 := rfl
    rw [er] at h1 h3
    refine ⟨by rw [h1]; omega, h2, ?_⟩
    intro y
    rw [h3 y]
    have ec : (exec c (exec c t .clearLine) .previous).cells y = fun x => if y = t.row then 32 else t.cells y x := rfl
    rw [ec]
    by_cases hy : y = t.row
    · subst hy
      rw [if_neg (by omega), if_pos (by omega)]
      simp
    · by_cases hy2 : t.row - 1 - n ≤ y ∧ y ≤ t.row - 1
      · rw [if_pos hy2, if_pos (by omega)]
      · rw [if_neg hy2, if_neg (by omega)]
        funext x; rw [if_neg hy]

/-- C377: Clearing erases the rows of the buffer, no other one, and goes to the start of the first of them, while the
terminal did not become narrower. -/
theorem C377_clear (c w new p top : Nat) (s : State) (t : Term) (l : Text) (hs : s.width = some w) (hn : w ≤ new)
    (hl : s.buffer[s.line]? = some l) (hi : s.index ≤ l.length) (ht : t.row = top + s.fromStart p) :
    (run c t (s.clear p new)).row = top ∧ (run c t (s.clear p new)).col = 0 ∧
    ∀ y, (run c t (s.clear p new)).cells y =
      if top ≤ y ∧ y < top + s.startTillEnd p new then fun _ => 32 else t.cells y := by
  have hsum := C374_sum s w new p hs hn l hl hi
  have e : run c t (s.clear p new) =
      run c { t with row := t.row + s.tillEnd p new, col := 0 } (clearLoop (s.startTillEnd p new - 1)) := by
    simp only [State.clear, hs]
    rw [run_append, run_cons]
    congr 1
    have := C376_vertical c { t with row := 0 } (s.tillEnd p new)
    unfold jumpV
    simp only [Nat.not_lt_zero, gt_iff_lt, if_false]
    split
    · simp only [run, List.foldl_cons, List.foldl_nil, exec, Nat.sub_zero]
    · rename_i h
      have h0 : s.tillEnd p new = 0 := by omega
      simp only [run, List.foldl_nil, exec, h0, Nat.add_zero]
  rw [e]
  obtain ⟨h1, h2, h3⟩ := clear_loop c (s.startTillEnd p new - 1)
    { t with row := t.row + s.tillEnd p new, col := 0 } (by simp only; omega) rfl
  simp only at h1 h2 h3
  refine ⟨by rw [h1]; omega, h2, ?_⟩
  intro y
  rw [h3 y]
  by_cases hy : top ≤ y ∧ y < top + s.startTillEnd p new
  · rw [if_pos hy, if_pos (by omega)]
  · rw [if_neg hy, if_neg (by omega)]

/-- C377: What was never drawn is not cleared. -/
theorem C377_never (s : State) (p new : Nat) (hs : s.width = none) : s.clear p new = [] := by simp [State.clear, hs]

/-! ## C378: writing -/

theorem write_rows (c : Nat) : ∀ (rows : List Row) (t : Term), rows ≠ [] → (∀ r ∈ rows, Good r ∧ r.len ≤ c) →
    (∀ y x, t.row ≤ y → t.cells y x = 32) →
    (run c t (writeRows rows)).row = t.row + rows.length - 1 ∧
    (∀ y, y < t.row → (run c t (writeRows rows)).cells y = t.cells y) ∧
    ∀ i, Shows ((run c t (writeRows rows)).cells (t.row + i)) (visible (rows.getD i []))
  | [], t, h, _, _ => absurd rfl h
  | [r], t, _, hg, hb => by
    obtain ⟨hgr, hlen⟩ := hg r (by simp)
    obtain ⟨h1, h2, h3, h4⟩ := start_items c r t hgr hlen
    have e : run c t (writeRows [r]) = run c (exec c t .start) (r.map emit) := rfl
    rw [e]
    refine ⟨by rw [h1]; simp, ?_, ?_⟩
    · intro y hy
      exact h3 y (by omega)
    · intro i x
      cases i with
      | zero =>
        simp only [Nat.add_zero, List.getD_cons_zero]
        rw [h4 x]
        by_cases hx : x < r.len
        · rw [if_pos hx]
        · rw [if_neg hx, hb _ _ (Nat.le_refl _), getD_behind _ _ (by rw [len_visible hgr]; omega)]
      | succ i =>
        rw [h3 (t.row + (i + 1)) (by omega)]
        simp only [List.getD_cons_succ, List.getD_nil]
        rw [hb _ _ (by omega)]
        rfl
  | r :: r2 :: rs, t, _, hg, hb => by
    obtain ⟨hgr, hlen⟩ := hg r (by simp)
    obtain ⟨h1, h2, h3, h4⟩ := start_items c r t hgr hlen
    have e : run c t (writeRows (r :: r2 :: rs)) =
        run c (exec c (run c (exec c t .start) (r.map emit)) (.down 1)) (writeRows (r2 :: rs)) := by
      show run c t (.start :: r.map emit ++ .down 1 :: writeRows (r2 :: rs)) = _
      rw [List.cons_append, run_cons, run_append, run_cons]
    rw [e]
    generalize hu : run c (exec c t .start) (r.map emit) = u at h1 h2 h3 h4 ⊢
    have hur : u.row = t.row := h1
    have hcl : ∀ y, y ≠ t.row → u.cells y = t.cells y := h3
    obtain ⟨i1, i2, i3⟩ := write_rows c (r2 :: rs) (exec c u (.down 1)) (by simp)
      (fun q hq => hg q (by simp only [List.mem_cons] at hq ⊢; exact Or.inr hq)) (by
        intro y x hy
        have hy' : u.row + 1 ≤ y := hy
        show u.cells y x = 32
        rw [hcl y (by omega)]
        exact hb y x (by omega))
    have hr : (exec c u (.down 1)).row = t.row + 1 := by show u.row + 1 = _; omega
    have hc : (exec c u (.down 1)).cells = u.cells := rfl
    rw [hr] at i1 i2 i3
    rw [hc] at i2
    refine ⟨by rw [i1]; simp only [List.length_cons]; omega, ?_, ?_⟩
    · intro y hy
      rw [i2 y (by omega), hcl y (by omega)]
    · intro i
      cases i with
      | zero =>
        intro x
        simp only [Nat.add_zero, List.getD_cons_zero]
        rw [i2 t.row (by omega)]
        rw [h4 x]
        by_cases hx : x < r.len
        · rw [if_pos hx]
        · rw [if_neg hx, hb _ _ (Nat.le_refl _), getD_behind _ _ (by rw [len_visible hgr]; omega)]
      | succ i =>
        have := i3 i
        rw [show t.row + (i + 1) = t.row + 1 + i by omega]
        simpa using this

/-- C378: Writing to a screen which is blank from the row of the cursor on shows the rows there, leaves the rows above,
and writing of the cursor moves it where the cursor of the buffer is. -/
theorem C378_write (c w p : Nat) (rows : List Row) (s : State) (t : Term) (l : Text) (hr : rows ≠ [])
    (hg : ∀ r ∈ rows, Good r ∧ r.len ≤ c) (hb : ∀ y x, t.row ≤ y → t.cells y x = 32) (hs : s.width = some w)
    (hl : s.buffer[s.line]? = some l) (hi : s.index ≤ l.length) (hc : rows.length = s.startTillEnd p w)
    (hcol : cursorColumn w s.index p < c) :
    let t' := run c t (write rows ++ s.writeCursor p)
    t'.row = t.row + s.fromStart p ∧ t'.col = cursorColumn w s.index p ∧
    (∀ y, y < t.row → t'.cells y = t.cells y) ∧ ∀ i, Shows (t'.cells (t.row + i)) (visible (rows.getD i [])) := by
  intro t'
  have hsum := C374_sum s w w p hs (Nat.le_refl _) l hl hi
  obtain ⟨h1, h2, h3⟩ := write_rows c rows t hr hg hb
  have e : t' = run c (run c t (writeRows rows)) (s.writeCursor p) := by
    show run c t (write rows ++ s.writeCursor p) = _
    rw [run_append, write, if_neg hr, run_cons]
    rfl
  have e2 : t' = { run c t (writeRows rows) with
      row := (run c t (writeRows rows)).row - s.tillEnd p w
      col := min (0 + cursorColumn w s.index p) (c - 1) } := by
    rw [e]
    simp [State.writeCursor, run, exec, hs]
  rw [e2]
  refine ⟨?_, ?_, h2, h3⟩
  · show (run c t (writeRows rows)).row - s.tillEnd p w = _
    rw [h1]; omega
  · show min (0 + cursorColumn w s.index p) (c - 1) = _
    omega

/-! ## C379: difference of a row -/

theorem cut_spec : ∀ a b : Text, ∃ p, a = p ++ (cut a b).2.1 ∧ b = p ++ (cut a b).2.2 ∧ (cut a b).1 = p.length
  | [], b => ⟨[], by cases b <;> simp [cut], by cases b <;> simp [cut], by cases b <;> simp [cut]⟩
  | a :: as, [] => ⟨[], by simp [cut], by simp [cut], by simp [cut]⟩
  | a :: as, b :: bs => by
    obtain ⟨p, h1, h2, h3⟩ := cut_spec as bs
    by_cases h : a = b
    · subst h
      refine ⟨a :: p, ?_, ?_, ?_⟩
      · simp only [cut, if_pos]; rw [List.cons_append, ← h1]
      · simp only [cut, if_pos]; rw [List.cons_append, ← h2]
      · simp only [cut, if_pos]; rw [h3]; rfl
    · exact ⟨[], by simp [cut, h], by simp [cut, h], by simp [cut, h]⟩

/-- The items of the stop, if any. -/
def Stop.selfAll (p : Stop) : Row := (match p.at_ with
  | none => []
  | some (s, _) => [s]) ++ p.self

/-- The same of the other row. -/
def Stop.otherAll (p : Stop) : Row := (match p.at_ with
  | none => []
  | some (_, o) => [o]) ++ p.other

/-- What was skipped is the same in both rows and as long as the jump. -/
theorem skip_spec : ∀ (ss os : Row) (jump : Nat) (last : Option Text) (lasts pre : Row), pre.len + lasts.len = jump →
    (∀ i ∈ lasts, i.length = 0) →
    ∃ done, pre ++ lasts ++ ss = done ++ (skip ss os jump last lasts).selfAll ∧
      pre ++ lasts ++ os = done ++ (skip ss os jump last lasts).otherAll ∧
      (skip ss os jump last lasts).jump = done.len
  | [], os, jump, last, lasts, pre, h, _ => ⟨pre ++ lasts, by simp [skip, Stop.selfAll], by simp [skip, Stop.otherAll], by
      rw [len_append]; simpa [skip] using h.symm⟩
  | s :: ss, [], jump, last, lasts, pre, h, _ => ⟨pre ++ lasts, by simp [skip, Stop.selfAll], by
      simp [skip, Stop.otherAll], by rw [len_append]; simpa [skip] using h.symm⟩
  | s :: ss, o :: os, jump, last, lasts, pre, h, hz => by
    rw [skip.eq_1]
    by_cases hne : s ≠ o
    · rw [if_pos hne]
      cases lasts with
      | nil =>
        rw [stopAt]
        exact ⟨pre, by simp [Stop.selfAll], by simp [Stop.otherAll], by simpa [Row.len] using h.symm⟩
      | cons p ps =>
        rw [stopAt]
        by_cases hs : s.length ≠ 0
        · rw [if_pos hs]
          exact ⟨pre ++ p :: ps, by simp [Stop.selfAll], by simp [Stop.otherAll], by rw [len_append]; exact h.symm⟩
        · rw [if_neg hs]
          refine ⟨pre, by simp [Stop.selfAll], by simp [Stop.otherAll], ?_⟩
          have : Row.len (p :: ps) = 0 := by
            unfold Row.len
            rw [List.sum_eq_zero_iff_forall_eq_nat]
            simpa using hz
          show jump = pre.len
          omega
    · rw [if_neg hne]
      have heq : s = o := by simpa using hne
      subst heq
      by_cases hs : s.length ≠ 0
      · rw [if_pos hs]
        obtain ⟨d, h1, h2, h3⟩ := skip_spec ss os (jump + s.length)
          (if lasts = [] then last else some (lasts.map Item.text).flatten) [] (pre ++ lasts ++ [s])
          (by simp only [len_append, len_cons]; simp only [Row.len] at h ⊢; simp; omega) (by simp)
        exact ⟨d, by rw [← h1]; simp, by rw [← h2]; simp, h3⟩
      · rw [if_neg hs]
        have hs0 : s.length = 0 := by omega
        by_cases h27 : 27 ∈ s.text
        · rw [if_pos h27]
          obtain ⟨d, h1, h2, h3⟩ := skip_spec ss os (jump + s.length) last [s] (pre ++ lasts)
            (by simp only [len_append, len_cons]; simp only [Row.len] at h ⊢; simp; omega) (by simpa using hs0)
          exact ⟨d, by rw [← h1]; simp, by rw [← h2]; simp, h3⟩
        · rw [if_neg h27]
          obtain ⟨d, h1, h2, h3⟩ := skip_spec ss os (jump + s.length) last (lasts ++ [s]) pre
            (by simp only [len_append, len_cons]; simp only [Row.len] at h ⊢; simp; omega) (by
              intro i hi
              rcases List.mem_append.1 hi with hi | hi
              · exact hz i hi
              · simp at hi; rw [hi]; exact hs0)
          exact ⟨d, by rw [← h1]; simp, by rw [← h2]; simp, h3⟩

theorem exec_empty (c : Nat) (t : Term) (n : Nat) : exec c t (emit ⟨n, []⟩) = t := by
  unfold emit; split <;> rfl

/-- What of the commands for a row changes the screen. -/
theorem lineDiff_run (c : Nat) (t : Term) (first : Bool) (s o : Row) :
    run c t (lineDiff first s o) =
      run c (run c (exec c (run c t (if (skip s o 0 none []).cutted.2.2 > 0 then [.right (skip s o 0 none []).cutted.2.2] else []))
        (emit ⟨(skip s o 0 none []).cutted.1, (skip s o 0 none []).cutted.2.1⟩)) ((skip s o 0 none []).self.map emit))
        (if (skip s o 0 none []).toClear > 0 then [.clearRest] else []) := by
  unfold lineDiff
  dsimp only
  generalize skip s o 0 none [] = p
  generalize p.cutted = q
  obtain ⟨length, part, jump⟩ := q
  dsimp only
  simp only [run_append]
  congr 1
  generalize run c t (if jump > 0 then [Cmd.right jump] else []) = u
  have h1 : run c u (if part ≠ [] then (if length ≠ 0 then before first p.last else []) ++ [emit ⟨length, part⟩] else []) =
      exec c u (emit ⟨length, part⟩) := by
    by_cases hp : part = []
    · subst hp; rw [exec_empty]; simp [run]
    · rw [if_pos hp, run_append]
      have : run c u (if length ≠ 0 then before first p.last else []) = u := by
        split
        · unfold before
          split
          · rfl
          · split <;> rfl
        · rfl
      rw [this]; rfl
  rw [h1]
  by_cases hs : p.self = []
  · rw [if_neg (by simpa using hs), hs]; rfl
  · rw [if_pos hs, run_append]
    congr 1
    split <;> rfl

/-- C379: Writing the difference of a row onto the other row shows the row, changes no other row and ends behind its
last character. -/
theorem C379_row (c : Nat) (t : Term) (first : Bool) (s o : Row) (hs : Good s) (ho : Good o) (hsl : s.len ≤ c)
    (hol : o.len ≤ c) (hcol : t.col = 0) (ht : Shows (t.cells t.row) (visible o)) :
    let t' := run c t (lineDiff first s o)
    t'.row = t.row ∧ (min t'.col (c - 1) = min s.len (c - 1) ∧ (s.len < c → t'.col = s.len)) ∧ (∀ y, y ≠ t.row → t'.cells y = t.cells y) ∧
      Shows (t'.cells t.row) (visible s) := by
  intro t'
  have e : t' = _ := lineDiff_run c t first s o
  rw [e]
  obtain ⟨done, d1, d2, d3⟩ := skip_spec s o 0 none [] [] rfl (by simp)
  simp only [List.nil_append] at d1 d2
  -- the common text, the items written, the rest of the other text
  have key : ∃ (P Q : Text) (W : Row), Good W ∧ visible s = P ++ visible W ∧ visible o = P ++ Q ∧
      (skip s o 0 none []).cutted.2.2 = P.length ∧
      (∀ u, run c (exec c u (emit ⟨(skip s o 0 none []).cutted.1, (skip s o 0 none []).cutted.2.1⟩))
        ((skip s o 0 none []).self.map emit) = run c u (W.map emit)) ∧
      (skip s o 0 none []).toClear = (o.len : Int) - s.len := by
    generalize skip s o 0 none [] = p at d1 d2 d3
    obtain ⟨at_, sr, or, jump, last⟩ := p
    have hgd : Good done := fun i hi => hs i (by rw [d1]; simp [hi])
    have hdl := len_visible hgd
    simp only at d3
    cases at_ with
    | none =>
      simp only [Stop.selfAll, Stop.otherAll, List.nil_append] at d1 d2
      refine ⟨visible done, visible or, sr, fun i hi => hs i (by rw [d1]; simp [hi]), by rw [d1, visible_append],
        by rw [d2, visible_append], ?_, ?_, ?_⟩
      · simp only [Stop.cutted]; omega
      · intro u
        simp only [Stop.cutted]
        rw [exec_empty]
      · simp only [Stop.toClear]
        rw [d1, d2, len_append, len_append]
        omega
    | some so =>
      obtain ⟨si, oi⟩ := so
      simp only [Stop.selfAll, Stop.otherAll, List.singleton_append] at d1 d2
      have hsi := hs si (by rw [d1]; simp)
      have hoi := ho oi (by rw [d2]; simp)
      have hgs : Good sr := fun i hi => hs i (by rw [d1]; simp [hi])
      have hclear : (Stop.mk (some (si, oi)) sr or jump last).toClear = (o.len : Int) - s.len := by
        simp only [Stop.toClear]
        rw [d1, d2, len_append, len_append, len_cons, len_cons]
        omega
      by_cases hb : si.length ≠ 0 ∧ oi.length ≠ 0
      · obtain ⟨q, q1, q2, q3⟩ := cut_spec si.text oi.text
        refine ⟨visible done ++ q, (cut si.text oi.text).2.2 ++ visible or,
          ⟨(cut si.text oi.text).2.1.length, (cut si.text oi.text).2.1⟩ :: sr, ?_, ?_, ?_, ?_, ?_, hclear⟩
        · intro i hi
          rcases List.mem_cons.1 hi with hi | hi
          · subst hi; exact Or.inr rfl
          · exact hgs i hi
        · rw [d1, visible_append, visible_cons, if_neg hb.1]
          rw [show (⟨(cut si.text oi.text).2.1.length, (cut si.text oi.text).2.1⟩ :: sr : Row) =
            [⟨(cut si.text oi.text).2.1.length, (cut si.text oi.text).2.1⟩] ++ sr from rfl, visible_append, visible_item]
          conv => lhs; rw [q1]
          simp
        · rw [d2, visible_append, visible_cons, if_neg hb.2]
          conv => lhs; rw [q2]
          simp
        · simp only [Stop.cutted, if_pos hb, List.length_append]
          rw [← q3]; omega
        · intro u
          simp only [Stop.cutted, if_pos hb]
          rw [List.map_cons, run_cons]
          congr 1
          by_cases hc0 : (cut si.text oi.text).2.1 = []
          · rw [hc0, exec_empty, exec_empty]
          · have : (cut si.text oi.text).2.1.length ≠ 0 := by simpa using hc0
            simp [emit, hb.1, hc0]
      · refine ⟨visible done, visible (oi :: or), si :: sr, ?_, ?_, ?_, ?_, ?_, hclear⟩
        · intro i hi
          rcases List.mem_cons.1 hi with hi | hi
          · subst hi; exact hsi
          · exact hgs i hi
        · rw [d1, visible_append]
        · rw [d2, visible_append]
        · simp only [Stop.cutted, if_neg hb]; omega
        · intro u
          simp only [Stop.cutted, if_neg hb]
          rfl
  obtain ⟨P, Q, W, hW, v1, v2, hj, hrun, hcl⟩ := key
  rw [hrun, hj, hcl]
  have hls := len_visible hs
  have hlo := len_visible ho
  have hlw := len_visible hW
  rw [v1, List.length_append] at hls
  rw [v2, List.length_append] at hlo
  -- the jump
  have hjump : run c t (if P.length > 0 then [.right P.length] else []) = { t with col := min P.length (c - 1) } := by
    split
    · simp only [run, List.foldl_cons, List.foldl_nil, exec, hcol]
      congr 1; omega
    · have : P.length = 0 := by omega
      obtain ⟨a, b, d⟩ := t
      simp only at hcol
      simp [run, this, hcol]
  rw [hjump]
  obtain ⟨i1, i2, i3, i4⟩ := run_items c W { t with col := min P.length (c - 1) } hW (by simp only; omega)
  generalize run c { t with col := min P.length (c - 1) } (W.map emit) = u at i1 i2 i3 i4
  simp only at i1 i2 i3 i4
  have hrow : ∀ x, x < s.len → u.cells t.row x = (visible s).getD x 32 := by
    intro x hx
    rw [i4 x, v1]
    simp only [List.getD_eq_getElem?_getD]
    by_cases hxp : x < P.length
    · rw [if_neg (by omega), ht x, v2, List.getD_eq_getElem?_getD, List.getElem?_append_left hxp,
        List.getElem?_append_left hxp]
    · have : min P.length (c - 1) = P.length := by omega
      rw [this, if_pos (by omega), List.getElem?_append_right (by omega)]
  by_cases hpos : (o.len : Int) - s.len > 0
  · rw [if_pos hpos]
    have hlt : s.len < o.len := by omega
    have hucol : min u.col (c - 1) = s.len := by omega
    simp only [run, List.foldl_cons, List.foldl_nil, exec]
    refine ⟨i1, ⟨by omega, by omega⟩, ?_, ?_⟩
    · intro y hy
      funext x
      rw [if_neg (by rw [i1]; exact fun h => hy h.1), i3 y hy]
    · intro x
      rw [i1, hucol]
      show (if t.row = t.row ∧ s.len ≤ x then 32 else u.cells t.row x) = _
      by_cases hx : s.len ≤ x
      · rw [if_pos ⟨rfl, hx⟩, getD_behind _ _ (by rw [len_visible hs]; exact hx)]
      · rw [if_neg (fun h => hx h.2)]
        exact hrow x (by omega)
  · rw [if_neg hpos, run_nil]
    refine ⟨i1, ⟨by omega, by omega⟩, i3, ?_⟩
    intro x
    by_cases hx : x < s.len
    · exact hrow x hx
    · rw [i4 x, getD_behind (visible s) _ (by rw [len_visible hs]; omega), if_neg (by omega), ht x,
        getD_behind _ _ (by rw [len_visible ho]; omega)]

/-! ## C380: difference of the screen -/

/-- Where the column is known to be: where it was, or behind the row written last. -/
def Column (c col : Nat) (t : Term) : Option Row → Prop
  | none => t.col = col
  | some r => min t.col (c - 1) = min r.len (c - 1) ∧ (r.len < c → t.col = r.len)

theorem jump_rel (c top a b : Nat) (t : Term) (h : t.row = top + a) : run c t (jumpV a b) = { t with row := top + b } := by
  unfold jumpV
  split
  · simp only [run, List.foldl_cons, List.foldl_nil, exec]
    congr 1; omega
  · split
    · simp only [run, List.foldl_cons, List.foldl_nil, exec]
      congr 1; omega
    · obtain rfl : a = b := by omega
      rw [← h]; rfl

theorem diffRows_nil (i cur : Nat) (last : Option Row) : diffRows i cur last [] [] = ([], cur, last) := rfl

theorem diffRows_clear (i cur : Nat) (last : Option Row) (o : Row) (os : List Row) :
    diffRows i cur last [] (o :: os) =
      (jumpV cur i ++ [.clearLine] ++ (diffRows (i + 1) i last [] os).1, (diffRows (i + 1) i last [] os).2) := rfl

theorem diff_rows (c col top : Nat) : ∀ (ss os : List Row) (i cur : Nat) (last : Option Row) (t : Term),
    t.row = top + cur → (∀ r ∈ ss, Good r ∧ r.len ≤ c) → (∀ r ∈ os, Good r ∧ r.len ≤ c) →
    (∀ j, Shows (t.cells (top + i + j)) (visible (os.getD j []))) → Column c col t last →
    (run c t (diffRows i cur last ss os).1).row = top + (diffRows i cur last ss os).2.1 ∧
    (∀ y, y < top + i → (run c t (diffRows i cur last ss os).1).cells y = t.cells y) ∧
    (∀ j, Shows ((run c t (diffRows i cur last ss os).1).cells (top + i + j)) (visible (ss.getD j []))) ∧
    Column c col (run c t (diffRows i cur last ss os).1) (diffRows i cur last ss os).2.2
  | [], [], i, cur, last, t, hr, _, _, hsh, hc => by
    rw [diffRows_nil]
    exact ⟨hr, fun _ _ => rfl, hsh, hc⟩
  | s :: ss, [], i, cur, last, t, hr, hs, ho, hsh, hc => by
    rw [diffRows]
    dsimp only
    have e : run c t (jumpV cur i ++ Cmd.start :: ((if last.isNone = true then [Cmd.format []] else []) ++ s.map emit)) =
        run c (exec c { t with row := top + i } .start) (s.map emit) := by
      rw [run_append, jump_rel c top cur i t hr, run_cons, run_append]
      congr 1
      split <;> rfl
    rw [run_append, e]
    obtain ⟨hg, hl⟩ := hs s (by simp)
    obtain ⟨h1, h2, h3, h4⟩ := start_items c s { t with row := top + i } hg hl
    generalize run c (exec c { t with row := top + i } .start) (s.map emit) = u at h1 h2 h3 h4
    simp only at h1 h3 h4
    have hu0 : Shows (u.cells (top + i)) (visible s) := by
      intro x
      rw [h4 x]
      split
      · rfl
      · have h0 := hsh 0 x
        simp only [Nat.add_zero] at h0
        rw [h0, getD_behind (visible s) _ (by rw [len_visible hg]; omega)]
        rfl
    obtain ⟨k1, k2, k3, k4⟩ := diff_rows c col top ss [] (i + 1) i (some s) u h1
      (fun r hr => hs r (by simp [hr])) (fun r hr => absurd hr (by simp)) (by
        intro j
        rw [h3 (top + (i + 1) + j) (by omega)]
        have := hsh (j + 1)
        rw [show top + i + (j + 1) = top + (i + 1) + j by omega] at this
        simpa using this) (by
        show min u.col (c - 1) = _ ∧ _
        rw [h2]; exact ⟨rfl, fun _ => rfl⟩)
    refine ⟨k1, ?_, ?_, k4⟩
    · intro y hy
      rw [k2 y (by omega), h3 y (by omega)]
    · intro j
      cases j with
      | zero =>
        rw [show top + i + 0 = top + i from rfl, k2 (top + i) (by omega)]
        exact hu0
      | succ j =>
        have := k3 j
        rw [show top + (i + 1) + j = top + i + (j + 1) by omega] at this
        simpa using this
  | [], o :: os, i, cur, last, t, hr, hs, ho, hsh, hc => by
    rw [diffRows_clear]
    dsimp only
    have e : run c t (jumpV cur i ++ [Cmd.clearLine]) = exec c { t with row := top + i } .clearLine := by
      rw [run_append, jump_rel c top cur i t hr]; rfl
    rw [run_append, e]
    have h1 : (exec c { t with row := top + i } .clearLine).row = top + i := rfl
    have h2 : (exec c { t with row := top + i } .clearLine).col = t.col := rfl
    have h3 : ∀ y, y ≠ top + i → (exec c { t with row := top + i } .clearLine).cells y = t.cells y := by
      intro y hy; funext x; simp [exec, hy]
    have h4 : ∀ x, (exec c { t with row := top + i } .clearLine).cells (top + i) x = 32 := by
      intro x; simp [exec]
    generalize exec c { t with row := top + i } .clearLine = u at h1 h2 h3 h4
    obtain ⟨k1, k2, k3, k4⟩ := diff_rows c col top [] os (i + 1) i last u h1
      (fun r hr => absurd hr (by simp)) (fun r hr => ho r (by simp [hr])) (by
        intro j
        rw [h3 (top + (i + 1) + j) (by omega)]
        have := hsh (j + 1)
        rw [show top + i + (j + 1) = top + (i + 1) + j by omega] at this
        simpa using this) (by
        cases last with
        | none => show u.col = col; rw [h2]; exact hc
        | some r => show min u.col (c - 1) = _ ∧ _; rw [h2]; exact hc)
    refine ⟨k1, ?_, ?_, k4⟩
    · intro y hy
      rw [k2 y (by omega), h3 y (by omega)]
    · intro j
      cases j with
      | zero =>
        rw [show top + i + 0 = top + i from rfl, k2 (top + i) (by omega)]
        intro x
        rw [h4 x]; rfl
      | succ j =>
        have := k3 j
        rw [show top + (i + 1) + j = top + i + (j + 1) by omega] at this
        simpa using this
  | s :: ss, o :: os, i, cur, last, t, hr, hs, ho, hsh, hc => by
    rw [diffRows]
    have hsh1 : ∀ j, Shows (t.cells (top + (i + 1) + j)) (visible (os.getD j [])) := by
      intro j
      have := hsh (j + 1)
      rw [show top + i + (j + 1) = top + (i + 1) + j by omega] at this
      simpa using this
    by_cases he : s = o
    · rw [if_pos he]
      obtain ⟨k1, k2, k3, k4⟩ := diff_rows c col top ss os (i + 1) cur last t hr
        (fun r hr => hs r (by simp [hr])) (fun r hr => ho r (by simp [hr])) hsh1 hc
      refine ⟨k1, fun y hy => k2 y (by omega), ?_, k4⟩
      intro j
      cases j with
      | zero =>
        rw [show top + i + 0 = top + i from rfl, k2 (top + i) (by omega)]
        have := hsh 0
        rw [he]
        simpa using this
      | succ j =>
        have := k3 j
        rw [show top + (i + 1) + j = top + i + (j + 1) by omega] at this
        simpa using this
    · rw [if_neg he]
      dsimp only
      have e : run c t (jumpV cur i ++ Cmd.start :: lineDiff last.isNone s o) =
          run c (exec c { t with row := top + i } .start) (lineDiff last.isNone s o) := by
        rw [run_append, jump_rel c top cur i t hr, run_cons]
      rw [run_append, e]
      obtain ⟨hg, hl⟩ := hs s (by simp)
      obtain ⟨hg', hl'⟩ := ho o (by simp)
      obtain ⟨h1, h2, h3, h4⟩ := C379_row c (exec c { t with row := top + i } .start) last.isNone s o hg hg' hl hl' rfl
        (by
          have := hsh 0
          simpa [exec] using this)
      have hrow : (exec c { t with row := top + i } .start).row = top + i := rfl
      have hcells : (exec c { t with row := top + i } .start).cells = t.cells := rfl
      rw [hrow] at h1 h3 h4
      rw [hcells] at h3
      generalize run c (exec c { t with row := top + i } .start) (lineDiff last.isNone s o) = u at h1 h2 h3 h4
      obtain ⟨k1, k2, k3, k4⟩ := diff_rows c col top ss os (i + 1) i (some s) u h1
        (fun r hr => hs r (by simp [hr])) (fun r hr => ho r (by simp [hr])) (by
          intro j
          rw [h3 (top + (i + 1) + j) (by omega)]
          exact hsh1 j) h2
      refine ⟨k1, ?_, ?_, k4⟩
      · intro y hy
        rw [k2 y (by omega), h3 y (by omega)]
      · intro j
        cases j with
        | zero =>
          rw [show top + i + 0 = top + i from rfl, k2 (top + i) (by omega)]
          simpa using h4
        | succ j =>
          have := k3 j
          rw [show top + (i + 1) + j = top + i + (j + 1) by omega] at this
          simpa using this

theorem jumpH_keeps (c : Nat) (t : Term) (a b : Nat) :
    (run c t (jumpH a b)).row = t.row ∧ (run c t (jumpH a b)).cells = t.cells := by
  unfold jumpH
  split
  · exact ⟨rfl, rfl⟩
  · split <;> exact ⟨rfl, rfl⟩

/-- C380: Writing the difference onto a screen which shows the other rows shows the rows, leaves the rows above, and goes
to the row of the cursor. -/
theorem C380_screen (c top : Nat) (self other : List Row) (sc oc : Nat × Nat) (t : Term) (hne : other ≠ [])
    (hs : ∀ r ∈ self, Good r ∧ r.len ≤ c) (ho : ∀ r ∈ other, Good r ∧ r.len ≤ c)
    (hsh : ∀ j, Shows (t.cells (top + j)) (visible (other.getD j []))) (hr : t.row = top + oc.1) :
    let t' := run c t (difference self other sc oc)
    t'.row = top + sc.1 ∧ (∀ y, y < top → t'.cells y = t.cells y) ∧
      ∀ j, Shows (t'.cells (top + j)) (visible (self.getD j [])) := by
  intro t'
  obtain ⟨k1, k2, k3, -⟩ := diff_rows c t.col top self other 0 oc.1 none t hr hs ho (by simpa using hsh) rfl
  have e : t' = run c (run c (run c t (diffRows 0 oc.1 none self other).1)
      (jumpV (diffRows 0 oc.1 none self other).2.1 sc.1))
      (jumpH (columnAt oc.2 ((diffRows 0 oc.1 none self other).2.2)) sc.2) := by
    show run c t (difference self other sc oc) = _
    rw [difference, if_neg hne]
    dsimp only
    rw [run_append, run_append]
  rw [jump_rel c top _ _ _ k1] at e
  rw [e]
  obtain ⟨j1, j2⟩ := jumpH_keeps c { run c t (diffRows 0 oc.1 none self other).1 with row := top + sc.1 }
    (columnAt oc.2 ((diffRows 0 oc.1 none self other).2.2)) sc.2
  rw [j1, j2]
  exact ⟨rfl, fun y hy => k2 y hy, by simpa using k3⟩

/-! ## C381: the cursor after the difference -/

/-- A row is the last one which is not the same as the other row. -/
def LastChanged (self other : List Row) (r : Row) : Prop :=
  ∃ j : Nat, self[j]? = some r ∧ other[j]? ≠ some r ∧ ∀ (k : Nat) (q : Row), j < k → self[k]? = some q → other[k]? = some q

/-- No row is different. -/
def Unchanged (self other : List Row) : Prop := ∀ (k : Nat) (q : Row), self[k]? = some q → other[k]? = some q

theorem last_spec : ∀ (ss os : List Row) (i cur : Nat) (last : Option Row),
    (Unchanged ss os ∧ (diffRows i cur last ss os).2.2 = last) ∨
    ∃ r, LastChanged ss os r ∧ (diffRows i cur last ss os).2.2 = some r
  | [], [], i, cur, last => Or.inl ⟨fun k q h => by simp at h, rfl⟩
  | [], o :: os, i, cur, last => by
    rw [diffRows_clear]
    rcases last_spec [] os (i + 1) i last with ⟨_, h⟩ | ⟨r, ⟨j, h, _⟩, _⟩
    · exact Or.inl ⟨fun k q h => by simp at h, h⟩
    · simp at h
  | s :: ss, [], i, cur, last => by
    rw [diffRows]
    rcases last_spec ss [] (i + 1) i (some s) with ⟨h1, h⟩ | ⟨r, ⟨j, h1, h2, h3⟩, h⟩
    · refine Or.inr ⟨s, ⟨0, rfl, by simp, ?_⟩, h⟩
      intro k q hk hq
      obtain ⟨k, rfl⟩ : ∃ m, k = m + 1 := ⟨k - 1, by omega⟩
      have := h1 k q (by simpa using hq)
      simp at this
    · refine Or.inr ⟨r, ⟨j + 1, by simpa using h1, by simp, ?_⟩, h⟩
      intro k q hk hq
      obtain ⟨k, rfl⟩ : ∃ m, k = m + 1 := ⟨k - 1, by omega⟩
      have := h3 k q (by omega) (by simpa using hq)
      simp at this
  | s :: ss, o :: os, i, cur, last => by
    rw [diffRows]
    by_cases he : s = o
    · rw [if_pos he]
      rcases last_spec ss os (i + 1) cur last with ⟨h1, h⟩ | ⟨r, ⟨j, h1, h2, h3⟩, h⟩
      · refine Or.inl ⟨?_, h⟩
        intro k q hq
        cases k with
        | zero => simp at hq ⊢; rw [← he, hq]
        | succ k => simp at hq ⊢; exact h1 k q hq
      · refine Or.inr ⟨r, ⟨j + 1, by simpa using h1, by simpa using h2, ?_⟩, h⟩
        intro k q hk hq
        obtain ⟨k, rfl⟩ : ∃ m, k = m + 1 := ⟨k - 1, by omega⟩
        simp at hq ⊢
        exact h3 k q (by omega) hq
    · rw [if_neg he]
      rcases last_spec ss os (i + 1) i (some s) with ⟨h1, h⟩ | ⟨r, ⟨j, h1, h2, h3⟩, h⟩
      · refine Or.inr ⟨s, ⟨0, rfl, by simpa using Ne.symm he, ?_⟩, h⟩
        intro k q hk hq
        obtain ⟨k, rfl⟩ : ∃ m, k = m + 1 := ⟨k - 1, by omega⟩
        simp at hq ⊢
        exact h1 k q hq
      · refine Or.inr ⟨r, ⟨j + 1, by simpa using h1, by simpa using h2, ?_⟩, h⟩
        intro k q hk hq
        obtain ⟨k, rfl⟩ : ∃ m, k = m + 1 := ⟨k - 1, by omega⟩
        simp at hq ⊢
        exact h3 k q (by omega) hq

/-- Two rows cannot both be the last one. -/
theorem lastChanged_unique {self other : List Row} {r q : Row} (h : LastChanged self other r)
    (h' : LastChanged self other q) : r = q := by
  obtain ⟨j, a1, a2, a3⟩ := h
  obtain ⟨k, b1, b2, b3⟩ := h'
  rcases Nat.lt_trichotomy j k with hlt | rfl | hlt
  · exact absurd (a3 k q hlt b1) b2
  · rw [a1] at b1; exact Option.some.inj b1
  · exact absurd (b3 j r hlt a1) a2

theorem difference_column (c top : Nat) (self other : List Row) (sc oc : Nat × Nat) (t : Term) (hne : other ≠ [])
    (hs : ∀ r ∈ self, Good r ∧ r.len ≤ c) (ho : ∀ r ∈ other, Good r ∧ r.len ≤ c)
    (hsh : ∀ j, Shows (t.cells (top + j)) (visible (other.getD j []))) (hr : t.row = top + oc.1) :
    ∃ u last, Column c t.col u last ∧
      ((Unchanged self other ∧ last = none) ∨ ∃ r, LastChanged self other r ∧ last = some r) ∧
      (run c t (difference self other sc oc)).col = (run c u (jumpH (columnAt oc.2 (last)) sc.2)).col := by
  obtain ⟨k1, -, -, k4⟩ := diff_rows c t.col top self other 0 oc.1 none t hr hs ho (by simpa using hsh) rfl
  refine ⟨{ run c t (diffRows 0 oc.1 none self other).1 with row := top + sc.1 },
    (diffRows 0 oc.1 none self other).2.2, ?_, last_spec self other 0 oc.1 none, ?_⟩
  · revert k4
    cases (diffRows 0 oc.1 none self other).2.2 with
    | none => exact id
    | some r => exact id
  · rw [difference, if_neg hne]
    dsimp only
    rw [run_append, run_append, jump_rel c top _ _ _ k1]

/-- C381: After the difference the cursor is in the column of the cursor of the buffer if the last row which changed is
shorter than the terminal is wide. Missing: changed rows which continue in the next one, they are as long. -/
theorem C381_column_partial (c top : Nat) (self other : List Row) (sc oc : Nat × Nat) (t : Term) (hne : other ≠ [])
    (hs : ∀ r ∈ self, Good r ∧ r.len ≤ c) (ho : ∀ r ∈ other, Good r ∧ r.len ≤ c)
    (hsh : ∀ j, Shows (t.cells (top + j)) (visible (other.getD j []))) (hr : t.row = top + oc.1) (hc : t.col = oc.2)
    (hoc : oc.2 < c) (hsc : sc.2 < c) (hl : ∀ r, LastChanged self other r → r.len < c) :
    (run c t (difference self other sc oc)).col = sc.2 := by
  obtain ⟨u, last, h1, h2, h3⟩ := difference_column c top self other sc oc t hne hs ho hsh hr
  rw [h3]
  have hucol : u.col < c ∧ (columnAt oc.2 (last)) = u.col := by
    rcases h2 with ⟨_, rfl⟩ | ⟨r, hr', rfl⟩
    · have h1' : u.col = t.col := h1
      exact ⟨by omega, by show oc.2 = u.col; omega⟩
    · have h1' := h1.2 (hl r hr')
      exact ⟨by rw [h1']; exact hl r hr', h1'.symm⟩
  rw [hucol.2, C376_horizontal c u sc.2 hucol.1 hsc]

/-- C381: If the last row which changed is as long as the terminal is wide, the cursor is one column left of where it has
to be. -/
theorem C381_column_violated (c top : Nat) (self other : List Row) (sc oc : Nat × Nat) (t : Term) (hne : other ≠ [])
    (hs : ∀ r ∈ self, Good r ∧ r.len ≤ c) (ho : ∀ r ∈ other, Good r ∧ r.len ≤ c)
    (hsh : ∀ j, Shows (t.cells (top + j)) (visible (other.getD j []))) (hr : t.row = top + oc.1)
    (hsc : sc.2 < c) (r : Row) (hl : LastChanged self other r) (hlen : r.len = c) :
    (run c t (difference self other sc oc)).col = sc.2 - 1 := by
  obtain ⟨u, last, h1, h2, h3⟩ := difference_column c top self other sc oc t hne hs ho hsh hr
  rw [h3]
  rcases h2 with ⟨hu, rfl⟩ | ⟨q, hq, rfl⟩
  · obtain ⟨j, a1, a2, _⟩ := hl
    exact absurd (hu j r a1) a2
  · obtain rfl := lastChanged_unique hl hq
    have h1' : min u.col (c - 1) = min r.len (c - 1) := h1.1
    rw [show columnAt oc.2 (some r) = r.len from rfl, jumpH, if_pos (by omega)]
    show min u.col (c - 1) - (r.len - sc.2) = _
    omega

/-- A screen as wide as four characters, both rows written, the cursor behind the last character. -/
def shown : Term := run 4 ⟨fun _ _ => 32, 0, 0⟩ (write [[⟨3, [1, 2, 3]⟩, ⟨1, [92]⟩], [⟨1, [5]⟩]])

/-- The third character of a line of four characters is another one; the cursor is behind the fourth one. -/
def redrawn : Term := run 4 shown
  (difference [[⟨3, [1, 2, 4]⟩, ⟨1, [92]⟩], [⟨1, [5]⟩]] [[⟨3, [1, 2, 3]⟩, ⟨1, [92]⟩], [⟨1, [5]⟩]] (1, 1) (1, 1))

example : (shown.row, shown.col) = (1, 1) ∧ (redrawn.row, redrawn.col) = (1, 0) ∧
    (List.range 4).map (redrawn.cells 0) = [1, 2, 4, 92] := by decide

example : difference [[⟨2, [1, 2]⟩, ⟨0, [27]⟩, ⟨1, [3]⟩]] [[⟨2, [1, 2]⟩, ⟨0, [27]⟩, ⟨2, [4, 5]⟩]] (0, 3) (0, 4) =
    [.start, .right 2, .format [27], .text [3], .clearRest] := by decide

example : lineDiff true [⟨2, [1, 2]⟩, ⟨0, [7]⟩, ⟨1, [3]⟩] [⟨2, [1, 9]⟩] = [.right 1, .format [], .text [2], .format [7], .text [3]] := by
  decide

example : (run 9 ⟨fun _ _ => 65, 5, 3⟩ (State.clear ⟨[[1, 2, 3], [4]], 0, 3, some 2⟩ 1 2)).row = 4 ∧
    (List.range 9).map ((run 9 ⟨fun _ _ => 65, 5, 3⟩ (State.clear ⟨[[1, 2, 3], [4]], 0, 3, some 2⟩ 1 2)).cells · 0) =
      [65, 65, 65, 65, 32, 32, 32, 65, 65] := by decide

end Verif.Display
