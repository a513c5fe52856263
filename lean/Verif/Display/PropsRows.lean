import Verif.Display.Model

/-!
# Rows: breaking of lines, counting of rows, position of the cursor
-/

namespace Verif.Display

/-! ## C373: breaking of lines -/

/-- What is visible of a row. -/
def visible (r : Row) : Text := r.flatMap fun i => if i.length = 0 then [] else i.text

/-- The rows a line has to be drawn as: `w` characters in each with a backslash behind, the rest in the last one. -/
inductive Wraps (w : Nat) (blank : Text) : Text → Text → List Text → Prop
  | short {pre t : Text} : t.length ≤ w → Wraps w blank pre t [pre ++ t]
  | long {pre t : Text} {rows : List Text} :
    w < t.length → Wraps w blank blank (t.drop w) rows → Wraps w blank pre t ((pre ++ t.take w ++ [92]) :: rows)

/-- The rows many lines have to be drawn as. -/
inductive Draws (w : Nat) (blank cont : Text) : Text → List Text → List Text → Prop
  | last {pre t : Text} {rows : List Text} : Wraps w blank pre t rows → Draws w blank cont pre [t] rows
  | more {pre t : Text} {ts rows rest : List Text} :
    Wraps w blank pre t rows → Draws w blank cont cont ts rest → Draws w blank cont pre (t :: ts) (rows ++ rest)

/-- The lines a stream of parts is of: formats are not seen, a part which is a line break ends a line. -/
inductive Lines : List Part → List Text → Prop
  | nil : Lines [] [[]]
  | command {t : Text} {ps : List Part} {ls : List Text} : Lines ps ls → Lines (.command t :: ps) ls
  | break_ {ps : List Part} {ls : List Text} : Lines ps ls → Lines (.text [10] :: ps) ([] :: ls)
  | text {t l : Text} {ps : List Part} {ls : List Text} :
    t ≠ [] → 10 ∉ t → Lines ps (l :: ls) → Lines (.text t :: ps) ((t ++ l) :: ls)

theorem visible_append (a b : Row) : visible (a ++ b) = visible a ++ visible b := by simp [visible]

theorem visible_item (t : Text) : visible [⟨t.length, t⟩] = t := by
  by_cases h : t.length = 0
  · have : t = [] := by simpa using h
    simp [visible, this]
  · simp [visible, h]

/-- Breaking of a part: what comes behind continues the row being written. -/
theorem addText_wraps (w : Nat) (hw : 0 < w) (blank last : Text) :
    ∀ (n : Nat) (line : Row) (left : Nat) (part pre cur : Text),
      visible line = pre ++ cur → left + cur.length = w → part.length + (if left = 0 then 1 else 0) < n →
      ∃ pre' cur', visible (addText w blank last n line left part).2.1 = pre' ++ cur' ∧
        (addText w blank last n line left part).2.2 + cur'.length = w ∧
        ∀ q rs, Wraps w blank pre' (cur' ++ q) rs →
          Wraps w blank pre (cur ++ part ++ q) ((addText w blank last n line left part).1.map visible ++ rs)
  | 0, _, _, _, _, _, _, _, h => absurd h (by omega)
  | n + 1, line, left, part, pre, cur, hv, hl, hn => by
    rw [addText]
    by_cases hp : part.length ≤ left
    · rw [if_pos hp]
      refine ⟨pre, cur ++ part, ?_, ?_, ?_⟩
      · rw [visible_append, visible_item, hv, List.append_assoc]
      · simp only [List.length_append]; omega
      · intro q rs h
        simpa using h
    · rw [if_neg hp]
      dsimp only
      have hdrop : (part.drop left).length + (if w = 0 then 1 else 0) < n := by
        rw [List.length_drop, if_neg (by omega)]
        split at hn <;> omega
      obtain ⟨pre', cur', h1, h2, h3⟩ := addText_wraps w hw blank last n [⟨blank.length, blank⟩, ⟨0, last⟩] w
        (part.drop left) blank [] (by
          rw [show ([⟨blank.length, blank⟩, ⟨0, last⟩] : Row) = [⟨blank.length, blank⟩] ++ [⟨0, last⟩] from rfl,
            visible_append, visible_item]; simp [visible]) (by simp) hdrop
      refine ⟨pre', cur', h1, h2, ?_⟩
      intro q rs h
      have h4 := h3 q rs h
      have htake : visible (line ++ [⟨left, part.take left⟩, ⟨1, [92]⟩]) = pre ++ (cur ++ part ++ q).take w ++ [92] := by
        have e1 : (part.take left).length = left := by rw [List.length_take]; omega
        rw [visible_append, hv]
        rw [show ([⟨left, part.take left⟩, ⟨1, [92]⟩] : Row) = [⟨(part.take left).length, part.take left⟩] ++ [⟨1, [92]⟩] by
          rw [e1]; rfl, visible_append, visible_item]
        have e2 : (cur ++ part ++ q).take w = cur ++ part.take left := by
          rw [List.append_assoc, List.take_append, List.take_of_length_le (by omega), List.take_append,
            show w - cur.length = left by omega, show left - part.length = 0 by omega]
          simp
        rw [e2]
        simp [visible]
      have hdr : (cur ++ part ++ q).drop w = [] ++ part.drop left ++ q := by
        rw [List.append_assoc, List.drop_append, List.drop_of_length_le (by omega), List.drop_append,
          show w - cur.length = left by omega, show left - part.length = 0 by omega]
        simp
      rw [List.map_cons, htake, List.cons_append]
      refine Wraps.long ?_ ?_
      · simp only [List.length_append]; omega
      · rw [hdr]; exact h4

/-- The same with further lines behind. -/
theorem draws_of_wraps {w : Nat} {blank cont pre pre' a b q : Text} {done : List Text} {ls : List Text} {rs : List Text}
    (h : ∀ rs, Wraps w blank pre' (b ++ q) rs → Wraps w blank pre (a ++ q) (done ++ rs))
    (hd : Draws w blank cont pre' ((b ++ q) :: ls) rs) : Draws w blank cont pre ((a ++ q) :: ls) (done ++ rs) := by
  cases hd with
  | last hw => exact Draws.last (h _ hw)
  | more hw hrest =>
    rw [← List.append_assoc]
    exact Draws.more (h _ hw) hrest

theorem lines_ne {ps : List Part} {ls : List Text} (h : Lines ps ls) : ls ≠ [] := by
  induction h with
  | nil => simp
  | command _ ih => exact ih
  | break_ _ _ => simp
  | text _ _ _ _ => simp

theorem settled_line (r : Rendering) : r.settled.line = r.line ∧ r.settled.left = r.left := by
  unfold Rendering.settled; split <;> exact ⟨rfl, rfl⟩

theorem text_break (r : Rendering) (w : Nat) (blank : Text) : r.text w blank [10] = (true, [], r.settled) := by
  simp [Rendering.text]

theorem last_ne {t : Text} (h : 10 ∉ t) : t.getLast? ≠ some 10 := fun e => h (List.mem_of_getLast? e)

theorem text_other (r : Rendering) (w : Nat) (blank t : Text) (h0 : t ≠ []) (h : 10 ∉ t) :
    r.text w blank t = (false, (addText w blank r.settled.last (t.length + 2) r.line r.left t).1,
      { r.settled with
        line := (addText w blank r.settled.last (t.length + 2) r.line r.left t).2.1
        left := (addText w blank r.settled.last (t.length + 2) r.line r.left t).2.2 }) := by
  simp [Rendering.text, last_ne h, h0, (settled_line r).1, (settled_line r).2]

theorem render_draws (w : Nat) (hw : 0 < w) (blank cont : Text) {ps : List Part} {ls : List Text} (h : Lines ps ls) :
    ∀ (n : Nat) (r : Rendering) (pre cur l : Text) (ls' : List Text), ls = l :: ls' → 0 < n → n ≤ ls.length →
      visible r.line = pre ++ cur → r.left + cur.length = w →
      Draws w blank cont pre ((cur ++ l) :: ls'.take (n - 1)) ((render w blank cont n r ps).map visible) := by
  induction h with
  | nil =>
    intro n r pre cur l ls' e hn hle hv hl
    simp at e
    obtain ⟨rfl, rfl⟩ := e
    simp only [render, List.map_cons, List.map_nil, hv, List.take_nil, List.append_nil]
    exact Draws.last (Wraps.short (by omega))
  | @command t ps ls hps ih =>
    intro n r pre cur l ls' e hn hle hv hl
    rw [render]
    refine ih n (r.command t) pre cur l ls' e hn hle ?_ hl
    show visible (r.line ++ [⟨0, t⟩]) = _
    rw [visible_append, hv]
    simp [visible]
  | @break_ ps ls hps ih =>
    intro n r pre cur l ls' e hn hle hv hl
    simp at e
    obtain ⟨rfl, rfl⟩ := e
    rw [render, text_break]
    dsimp only
    have hw1 : Wraps w blank pre (cur ++ []) [visible r.settled.line] := by
      rw [(settled_line r).1, hv, List.append_nil]
      exact Wraps.short (by omega)
    by_cases h1 : n = 1
    · rw [if_pos h1, h1]
      exact Draws.last hw1
    · rw [if_neg h1]
      obtain ⟨l2, ls2, rfl⟩ : ∃ a b, ls = a :: b := by
        cases ls with
        | nil => exact absurd rfl (lines_ne hps)
        | cons a b => exact ⟨a, b, rfl⟩
      have := ih (n - 1) { r.settled with line := [⟨cont.length, cont⟩], left := w } cont [] l2 ls2 rfl (by omega)
        (by simp at hle ⊢; omega) (by rw [visible_item]; simp) (by simp)
      have e2 : (l2 :: ls2).take (n - 1) = l2 :: ls2.take (n - 1 - 1) := by
        rw [show n - 1 = (n - 1 - 1) + 1 by omega, List.take_succ_cons]; simp
      rw [e2]
      exact Draws.more hw1 this
  | @text t l2 ps ls h0 h10 hps ih =>
    intro n r pre cur l ls' e hn hle hv hl
    simp at e
    obtain ⟨rfl, rfl⟩ := e
    rw [render, text_other r w blank t h0 h10]
    dsimp only
    obtain ⟨pre', cur', h1, h2, h3⟩ := addText_wraps w hw blank r.settled.last (t.length + 2) r.line r.left t pre cur hv hl
      (by split <;> omega)
    have := ih n { r.settled with
        line := (addText w blank r.settled.last (t.length + 2) r.line r.left t).2.1
        left := (addText w blank r.settled.last (t.length + 2) r.line r.left t).2.2 } pre' cur' l2 ls rfl hn
        (by simpa using hle) h1 h2
    rw [List.map_append, ← List.append_assoc]
    exact draws_of_wraps (h3 l2) this

/-- C373: However the highlighter splits the text into parts, the rows of the buffer show each of its lines. -/
theorem C373_rows (w : Nat) (hw : 0 < w) (first cont blank reset : Text) (parts : List Part) (lines : List Text) (n : Nat)
    (h : Lines parts lines) (hn : 0 < n) (hle : n ≤ lines.length) :
    Draws w blank cont first (lines.take n) ((rowsOf w first cont blank reset n parts).map visible) := by
  obtain ⟨l, ls, rfl⟩ : ∃ a b, lines = a :: b := by
    cases lines with
    | nil => exact absurd rfl (lines_ne h)
    | cons a b => exact ⟨a, b, rfl⟩
  rw [rowsOf, if_neg (by omega)]
  have := render_draws w hw blank cont h n ⟨[⟨first.length, first⟩], w, reset, none⟩ first [] l ls rfl hn hle
    (by rw [visible_item]; simp) (by simp)
  rw [show n = n - 1 + 1 by omega, List.take_succ_cons]
  rw [show n - 1 + 1 = n by omega]
  exact this

/-- C373: Without width nothing is drawn. -/
theorem C373_none (first cont blank reset : Text) (parts : List Part) (n : Nat) :
    rowsOf 0 first cont blank reset n parts = [] := rfl

example : (rowsOf 2 [62] [46] [32] [0] 2 [.text [1], .command [27], .text [2, 3], .text [10], .text [4]]).map visible =
    [[62, 1, 2, 92], [32, 3], [46, 4]] := by decide

/-- A part with a line break behind other characters would lose the character before it. -/
example : (rowsOf 9 [62] [46] [32] [0] 1 [.text [1, 2, 10]]).map visible = [[62, 1]] := by decide

/-! ## C374: counting of rows -/

theorem countSame_step {n w : Nat} (hw : 0 < w) (h : w < n) : countSame n w = 1 + countSame (n - w) w := by
  rw [countSame, if_neg (by omega), countSame, if_neg (by omega)]
  rw [show n - 1 = n - w - 1 + w by omega, Nat.add_div_right _ hw]
  omega

theorem countSame_short {n w : Nat} (hw : 0 < w) (h : n ≤ w) : countSame n w = 1 := by
  rw [countSame]
  split
  · rfl
  · rw [Nat.div_eq_of_lt (by omega)]

/-- C374: A line is drawn as as many rows as counted. -/
theorem C374_line {w : Nat} (hw : 0 < w) {blank pre t : Text} {rows : List Text} (h : Wraps w blank pre t rows) (new n : Nat)
    (hn : w ≤ new) : rows.length = lineCount t.length (some w) new n ∧ rows.length = lineCount t.length none w n := by
  have key : rows.length = countSame t.length w := by
    induction h with
    | short h => rw [countSame_short hw h]; rfl
    | long h _ ih =>
      rw [countSame_step hw h, List.length_cons, ih, List.length_drop]
      omega
  exact ⟨by rw [lineCount, if_pos hn]; exact key, key⟩

theorem counts_same (w new p : Nat) (h : w ≤ new) : ∀ ls, counts (some w) new p ls = counts none w p ls
  | [] => rfl
  | l :: ls => by rw [counts, counts, counts_same w new p h ls, lineCount, lineCount, if_pos h]

/-- C374: A buffer is drawn as as many rows as counted. -/
theorem C374_buffer {w : Nat} (hw : 0 < w) {blank cont pre : Text} {lines rows : List Text}
    (h : Draws w blank cont pre lines rows) (line index new n : Nat) (hn : w ≤ new) :
    rows.length = State.startTillEnd ⟨lines, line, index, some w⟩ n new := by
  show rows.length = counts (some w) new n lines
  induction h with
  | last h => simpa [counts] using (C374_line hw h new n hn).1
  | more h _ ih => rw [List.length_append, counts, ih, (C374_line hw h new n hn).1]

theorem countSame_mono {a b w : Nat} (h : a ≤ b) : countSame a w ≤ countSame b w := by
  simp only [countSame]
  split
  · split
    · omega
    · exact Nat.le_add_right 1 _
  · rw [if_neg (by omega)]
    have := Nat.div_le_div_right (c := w) (show a - 1 ≤ b - 1 by omega)
    exact Nat.add_le_add_left this 1

theorem countSame_pos (a w : Nat) : 1 ≤ countSame a w := by
  rw [countSame]
  split
  · omega
  · exact Nat.le_add_right 1 _

theorem counts_append (o : Option Nat) (w p : Nat) : ∀ a b, counts o w p (a ++ b) = counts o w p a + counts o w p b
  | [], b => by simp [counts]
  | l :: a, b => by simp only [List.cons_append, counts, counts_append o w p a b]; omega

/-- C374: The rows above the cursor, the one of the cursor and the rows below are all the rows. -/
theorem C374_sum (s : State) (w new n : Nat) (hs : s.width = some w) (hn : w ≤ new) (l : Text)
    (hl : s.buffer[s.line]? = some l) (hi : s.index ≤ l.length) :
    s.fromStart n + 1 + s.tillEnd n new = s.startTillEnd n new := by
  obtain ⟨buffer, line, index, width⟩ := s
  simp only at hs hl hi
  subst hs
  obtain ⟨hlt, he⟩ := List.getElem?_eq_some_iff.1 hl
  have hb : buffer = buffer.take line ++ l :: buffer.drop (line + 1) := by
    rw [← he, List.getElem_cons_drop, List.take_append_drop]
  have hget : buffer.getD line [] = l := by rw [List.getD_eq_getElem?_getD, hl]; rfl
  simp only [State.fromStart, State.tillEnd, State.startTillEnd, counts_same w new n hn, hget]
  have e : counts none w n buffer = counts none w n (buffer.take line) + (lineCount l.length none w n +
      counts none w n (buffer.drop (line + 1))) := by
    conv => lhs; rw [hb]
    rw [counts_append, counts]
  rw [e]
  have h1 := countSame_mono (w := w) hi
  have h2 := countSame_pos index w
  simp only [lineCount, if_pos hn]
  omega

/-- C374: The cell before the cursor is the one of the character before the cursor. -/
theorem C374_cursor {w : Nat} (hw : 0 < w) {blank pre t : Text} {rows : List Text} (h : Wraps w blank pre t rows) (p c : Nat)
    (hp : pre.length = p) (hb : blank.length = p) (hc : c < t.length) :
    ∃ r, rows[lineCount (c + 1) none w p - 1]? = some r ∧ r[cursorColumn w (c + 1) p - 1]? = t[c]? := by
  show ∃ r, rows[countSame (c + 1) w - 1]? = some r ∧ r[p + (c % w + 1) - 1]? = t[c]?
  rw [show p + (c % w + 1) - 1 = p + c % w by omega]
  have hrow : countSame (c + 1) w - 1 = c / w := by
    rw [countSame, if_neg (by omega)]
    simp only [Nat.add_sub_cancel, Nat.add_sub_cancel_left]
  rw [hrow]
  induction h generalizing c with
  | @short pre t h =>
    refine ⟨pre ++ t, ?_, ?_⟩
    · rw [Nat.div_eq_of_lt (by omega)]; rfl
    · rw [Nat.mod_eq_of_lt (by omega), ← hp, List.getElem?_append_right (by omega)]
      simp
  | @long pre t rows h _ ih =>
    by_cases hcw : c < w
    · refine ⟨pre ++ t.take w ++ [92], ?_, ?_⟩
      · rw [Nat.div_eq_of_lt hcw]; rfl
      · rw [Nat.mod_eq_of_lt hcw, ← hp, List.append_assoc, List.getElem?_append_right (by omega),
          Nat.add_sub_cancel_left, List.getElem?_append_left (by rw [List.length_take]; omega), List.getElem?_take]
        simp [hcw]
    · obtain ⟨r, h1, h2⟩ := ih (c - w) hb (by rw [List.length_drop]; omega) (by
        rw [countSame, if_neg (by omega)]; simp only [Nat.add_sub_cancel, Nat.add_sub_cancel_left])
      refine ⟨r, ?_, ?_⟩
      · rw [show c / w = (c - w) / w + 1 by
          rw [← Nat.add_div_right _ hw, Nat.sub_add_cancel (by omega)], List.getElem?_cons_succ]
        exact h1
      · rw [show c % w = (c - w) % w by
          rw [← Nat.add_mod_right (c - w) w, Nat.sub_add_cancel (by omega)], h2, List.getElem?_drop]
        congr 1; omega

/-- C374: At the start of the line the cursor is right behind the prefix of its first row. -/
theorem C374_start (w p : Nat) : lineCount 0 none w p - 1 = 0 ∧ cursorColumn w 0 p = p := ⟨rfl, rfl⟩

example : State.fromStart ⟨[[1, 2, 3], [4, 5, 6, 7, 8]], 1, 4, some 2⟩ 1 = 3 ∧
    State.tillEnd ⟨[[1, 2, 3], [4, 5, 6, 7, 8]], 1, 4, some 2⟩ 1 2 = 1 ∧ cursorColumn 2 4 1 = 3 := by decide

/-! ## C375: counting after the terminal became narrower -/

/-- How many rows a row of `length` characters is after the terminal has `columns` columns. -/
inductive Refolds (columns : Nat) : Nat → Nat → Prop
  | fits {n : Nat} : n ≤ columns → Refolds columns n 1
  | folds {n k : Nat} : columns < n → Refolds columns (n - columns) k → Refolds columns n (k + 1)

/-- How many rows many rows are. -/
inductive Refold (columns : Nat) : List Text → Nat → Prop
  | nil : Refold columns [] 0
  | cons {t : Text} {ts : List Text} {k m : Nat} :
    Refolds columns t.length k → Refold columns ts m → Refold columns (t :: ts) (k + m)

theorem refolds_count {c n k : Nat} (hc : 0 < c) (h : Refolds c n k) : k = countSame n c := by
  induction h with
  | fits h => rw [countSame_short hc h]
  | folds h _ ih => rw [countSame_step hc h, ih]; omega

/-- The rows of a line, folded again. -/
def refolded (length w new p : Nat) : Nat :=
  (countSame length w - 1) * countSame (p + w + 1) (new + (p + 1)) +
    countSame (p + (length - (countSame length w - 1) * w)) (new + (p + 1))

theorem refold_wraps {w new p : Nat} (hw : 0 < w) {blank pre t : Text} {rows : List Text} (h : Wraps w blank pre t rows)
    (hp : pre.length = p) (hb : blank.length = p) {k : Nat} (hk : Refold (new + (p + 1)) rows k) :
    k = refolded t.length w new p := by
  induction h generalizing k with
  | @short pre t h =>
    cases hk with
    | cons h1 h2 =>
      cases h2
      rw [refolded, countSame_short hw h, refolds_count (by omega) h1]
      simp [hp]
  | @long pre t rows h _ ih =>
    cases hk with
    | cons h1 h2 =>
      have := ih hb h2
      rw [refolded, countSame_step hw h, refolds_count (by omega) h1, this, refolded]
      have hpos := countSame_pos (t.length - w) w
      simp only [List.length_append, List.length_take, List.length_drop, List.length_singleton, hp, Nat.min_eq_left (Nat.le_of_lt h)]
      rw [Nat.add_sub_cancel_left]
      have e1 : countSame (t.length - w) w = (countSame (t.length - w) w - 1) + 1 := by omega
      have e2 : t.length - countSame (t.length - w) w * w = t.length - w - (countSame (t.length - w) w - 1) * w := by
        conv => lhs; rw [e1, Nat.add_mul]
        omega
      rw [e2]
      conv => rhs; rw [e1]
      rw [Nat.add_mul]
      simp only [Nat.add_sub_cancel]
      omega

/-- The number counted is the one of rows, unless the line fills two or more rows exactly. -/
theorem reduced_eq {n w new p : Nat} (hw : 0 < w) (h : n % w ≠ 0 ∨ n ≤ w) : countReduced n w new p = refolded n w new p := by
  unfold countReduced refolded
  by_cases h0 : n = 0
  · subst h0
    rw [if_pos rfl]
    have : countSame 0 w = 1 := rfl
    rw [this]
    rw [show p + (0 - (1 - 1) * w) = p by omega, countSame_short (n := p) (by omega) (by omega)]
    simp
  · rw [if_neg h0]
    dsimp only
    by_cases hm : n % w = 0
    · have hnw : n = w := by
        rcases h with h | h
        · exact absurd hm h
        · rcases Nat.lt_or_eq_of_le h with h | h
          · rw [Nat.mod_eq_of_lt h] at hm; omega
          · exact h
      subst hnw
      rw [countSame_short hw (Nat.le_refl _)]
      simp [h0, hm, Nat.div_self hw, countSame, Nat.add_comm p]
    · rw [if_neg (c := n % w = 0 ∧ n / w ≠ 0) (fun h => hm h.1)]
      dsimp only
      have e : countSame n w - 1 = n / w := by
        rw [countSame, if_neg h0]
        have := Nat.div_add_mod n w
        have hlt := Nat.mod_lt n hw
        rw [Nat.add_sub_cancel_left]
        have hn : n - 1 = (n % w - 1) + w * (n / w) := by omega
        rw [hn, Nat.add_mul_div_left _ _ hw, Nat.div_eq_of_lt (by omega)]
        simp
      rw [e, if_pos hm]
      have e2 : n - n / w * w = n % w := by
        have := Nat.div_add_mod n w
        rw [Nat.mul_comm] at this
        omega
      rw [e2]
      have e3 : countSame (p + n % w) (new + (p + 1)) = 1 + (n % w + p - 1) / (new + (p + 1)) := by
        rw [countSame, if_neg (by omega), Nat.add_comm p]
      rw [e3]
      congr 1
      by_cases hf : n / w = 0
      · simp [hf]
      · rw [if_pos hf]
        congr 2
        omega

/-- C375: After the terminal became narrower the rows of a line are counted right, unless the line fills two or more
rows exactly. Missing: those lines. -/
theorem C375_narrower_partial {w new p : Nat} (hw : 0 < w) (hn : new < w) {blank pre t : Text} {rows : List Text}
    (h : Wraps w blank pre t rows) (hp : pre.length = p) (hb : blank.length = p)
    (ht : t.length % w ≠ 0 ∨ t.length ≤ w) {k : Nat} (hk : Refold (new + p + 1) rows k) :
    lineCount t.length (some w) new p = k := by
  rw [lineCount, if_neg (by omega), reduced_eq hw ht]
  exact (refold_wraps hw h hp hb hk).symm

/-- C375: Never fewer rows are counted than there are. -/
theorem C375_enough_partial {w new p : Nat} (hw : 0 < w) (hn : new < w) {blank pre t : Text} {rows : List Text}
    (h : Wraps w blank pre t rows) (hp : pre.length = p) (hb : blank.length = p)
    {k : Nat} (hk : Refold (new + p + 1) rows k) : k ≤ lineCount t.length (some w) new p := by
  by_cases ht : t.length % w ≠ 0 ∨ t.length ≤ w
  · rw [C375_narrower_partial hw hn h hp hb ht hk]
    exact Nat.le_refl _
  · have hm : t.length % w = 0 := by omega
    have hlt : w < t.length := by omega
    rw [refold_wraps hw h hp hb hk, lineCount, if_neg (by omega), countReduced, if_neg (by omega)]
    dsimp only
    have hd := Nat.div_add_mod t.length w
    have hq : t.length / w ≠ 0 := by
      intro e; rw [e] at hd; omega
    rw [if_pos (c := t.length % w = 0 ∧ t.length / w ≠ 0) ⟨hm, hq⟩]
    dsimp only
    have e : countSame t.length w - 1 = t.length / w - 1 := by
      rw [countSame, if_neg (by omega), Nat.add_sub_cancel_left]
      have hn : t.length - 1 = (w - 1) + w * (t.length / w - 1) := by
        have : w * (t.length / w - 1) + w = w * (t.length / w) := by
          conv => rhs; rw [show t.length / w = (t.length / w - 1) + 1 from
            (Nat.sub_add_cancel (Nat.pos_of_ne_zero hq)).symm, Nat.mul_add]
          rw [Nat.mul_one]
        omega
      rw [hn, Nat.add_mul_div_left _ _ hw, Nat.div_eq_of_lt (by omega)]
      simp
    rw [refolded, e]
    have hpos : t.length ≠ 0 := by omega
    rw [if_pos hpos]
    have h1 : countSame (p + (t.length - (t.length / w - 1) * w)) (new + (p + 1)) ≤
        1 + (t.length + p - 1) / (new + (p + 1)) := by
      have := countSame_mono (w := new + (p + 1))
        (show p + (t.length - (t.length / w - 1) * w) ≤ t.length + p by omega)
      have e5 : countSame (t.length + p) (new + (p + 1)) = 1 + (t.length + p - 1) / (new + (p + 1)) := by
        rw [countSame, if_neg (by omega)]
      rw [e5] at this
      exact this
    have h2 : (t.length / w - 1) * countSame (p + w + 1) (new + (p + 1)) ≤
        (if t.length / w - 1 ≠ 0 then (t.length / w - 1) * countSame (w + (p + 1)) (new + (p + 1)) else 0) := by
      split
      · rw [show p + w + 1 = w + (p + 1) by omega]; exact Nat.le_refl _
      · rename_i h; simp only [ne_eq, Decidable.not_not] at h; rw [h]; simp
    omega

/-- C375: Of a line which fills two rows of two columns exactly four rows are counted after the terminal became narrower
by one column, and there are three. -/
theorem C375_narrower_violated : ∃ (t : Text) (rows : List Text), Wraps 2 [] [] t rows ∧ Refold 2 rows 3 ∧
    lineCount t.length (some 2) 1 0 = 4 :=
  ⟨[1, 2, 3, 4], [[1, 2, 92], [3, 4]], .long (by decide) (.short (by decide)),
    .cons (k := 2) (m := 1) (.folds (by decide) (.fits (by decide)))
      (.cons (k := 1) (m := 0) (.fits (by decide)) .nil), by decide⟩

end Verif.Display
