import Verif.Keys.Model

/-
Properties of the command which tells which key was pressed: C420, C421 and C422.
-/

namespace Verif.Keys

/-! ### C420 -/

/-- `d` is the (lower case) hexadecimal digit of value `x`. -/
def IsDigit (d x : Nat) : Prop := (48 ≤ d ∧ d ≤ 57 ∧ d = 48 + x) ∨ (97 ≤ d ∧ d ≤ 102 ∧ d = 87 + x)

/-- The value of hexadecimal digits. -/
inductive Hex : List Nat → Nat → Prop where
  | nil : Hex [] 0
  | snoc (l : List Nat) (v d x : Nat) (s : List Nat) : Hex l v → IsDigit d x → s = l ++ [d] → Hex s (16 * v + x)

/-- How Python reads an escaped text: after a backslash `x`, `u` or `U` come two, four or eight
digits. -/
inductive Reads : List Nat → List Nat → Prop where
  | nil : Reads [] []
  | esc (p n : Nat) (l t s : List Nat) (v : Nat) (cs : List Nat) :
      ((p = 120 ∧ n = 2) ∨ (p = 117 ∧ n = 4) ∨ (p = 85 ∧ n = 8)) → l.length = n → Hex l v → Reads t cs →
      s = 92 :: p :: (l ++ t) → Reads s (v :: cs)

theorem digit_isDigit (n : Nat) (h : n < 16) : IsDigit (digit n) n := by
  unfold IsDigit digit; split <;> omega

theorem nibble (c i : Nat) : (c >>> (i <<< 2)) &&& 0x0f = c / 16 ^ i % 16 := by
  rw [show (0x0f : Nat) = 2 ^ 4 - 1 from rfl, Nat.and_two_pow_sub_one_eq_mod, Nat.shiftRight_eq_div_pow,
    Nat.shiftLeft_eq, Nat.mul_comm i, Nat.pow_mul]

theorem digits_succ (c n : Nat) : digits c (n + 1) = digits (c / 16) n ++ [digit (c % 16)] := by
  unfold digits
  rw [List.range_succ_eq_map, List.reverse_cons, List.map_append, ← List.map_reverse, List.map_map]
  congr 1
  · apply List.map_congr_left
    intro i _
    simp only [Function.comp_apply, nibble, Nat.succ_eq_add_one, Nat.pow_succ]
    rw [Nat.mul_comm, Nat.div_div_eq_div_mul]
  · simp only [List.map_cons, List.map_nil, nibble]; simp

theorem digits_length (c n : Nat) : (digits c n).length = n := by simp [digits]

theorem digits_hex (n : Nat) : ∀ c, Hex (digits c n) (c % 16 ^ n) := by
  induction n with
  | zero => intro c; rw [Nat.pow_zero, Nat.mod_one]; exact .nil
  | succ n ih =>
    intro c
    have e : c % 16 ^ (n + 1) = 16 * (c / 16 % 16 ^ n) + c % 16 := by
      rw [Nat.pow_succ, Nat.mul_comm, Nat.mod_mul, Nat.add_comm]
    rw [e]
    exact .snoc _ _ _ _ _ (ih (c / 16)) (digit_isDigit _ (Nat.mod_lt _ (by decide))) (digits_succ c n)

/-- C420: what was escaped is read back, for every text. -/
theorem C420_read_back (content : List Nat) (h : ∀ c ∈ content, c < 0x110000) :
    Reads (escapeString content) content := by
  induction content with
  | nil => exact .nil
  | cons c l ih =>
    have hc := h c (by simp)
    have ih := ih fun x hx => h x (by simp [hx])
    have e : escapeString (c :: l) = escapeChar c ++ escapeString l := by simp [escapeString]
    rw [e]; unfold escapeChar
    split
    · have hx := digits_hex 8 c
      rw [Nat.mod_eq_of_lt (by omega)] at hx
      exact .esc 85 8 (digits c 8) _ _ c l (by simp) (digits_length _ _) hx ih rfl
    · split
      · have hx := digits_hex 4 c
        rw [Nat.mod_eq_of_lt (by omega)] at hx
        exact .esc 117 4 (digits c 4) _ _ c l (by simp) (digits_length _ _) hx ih rfl
      · have hx := digits_hex 2 c
        rw [Nat.mod_eq_of_lt (by omega)] at hx
        exact .esc 120 2 (digits c 2) _ _ c l (by simp) (digits_length _ _) hx ih rfl

theorem isDigit_unique {d x y : Nat} (a : IsDigit d x) (b : IsDigit d y) : x = y := by
  unfold IsDigit at a b; omega

theorem hex_unique {l : List Nat} {v : Nat} (a : Hex l v) : ∀ {w}, Hex l w → v = w := by
  induction a with
  | nil =>
    intro w b
    cases b with
    | nil => rfl
    | snoc _ _ _ _ _ _ _ e => simp at e
  | snoc l v d x s _ hd e ih =>
    intro w b
    cases b with
    | nil => simp at e
    | snoc l' v' d' x' _ h' hd' e' =>
      obtain ⟨e1, e2⟩ := List.append_inj' (e.symm.trans e') rfl
      subst e1
      obtain rfl : d = d' := by simpa using e2
      rw [ih h', isDigit_unique hd hd']

theorem reads_unique {s a : List Nat} (ra : Reads s a) : ∀ {b}, Reads s b → a = b := by
  induction ra with
  | nil =>
    intro b rb
    cases rb with
    | nil => rfl
    | esc _ _ _ _ _ _ _ _ _ _ _ e => simp at e
  | esc p n l t s v cs hp hl hv _ e ih =>
    intro b rb
    cases rb with
    | nil => simp at e
    | esc p' n' l' t' _ v' cs' hp' hl' hv' ht' e' =>
      rw [e] at e'
      simp only [List.cons.injEq, true_and] at e'
      obtain ⟨rfl, e'⟩ := e'
      have hn : n = n' := by omega
      obtain ⟨rfl, rfl⟩ := List.append_inj e' (by omega)
      rw [hex_unique hv hv', ih ht']

/-- C420: different texts are escaped differently. -/
theorem C420_injective (a b : List Nat) (ha : ∀ c ∈ a, c < 0x110000) (hb : ∀ c ∈ b, c < 0x110000)
    (h : escapeString a = escapeString b) : a = b := by
  have := C420_read_back b hb
  rw [← h] at this
  exact reads_unique (C420_read_back a ha) this

theorem digit_visible (n : Nat) (h : n < 16) : 33 ≤ digit n ∧ digit n ≤ 126 := by
  unfold digit; split <;> omega

/-- C420: escaped texts are of visible ASCII characters. -/
theorem C420_visible (content : List Nat) : ∀ x ∈ escapeString content, 33 ≤ x ∧ x ≤ 126 := by
  intro x hx
  simp only [escapeString, List.mem_flatten, List.mem_map] at hx
  obtain ⟨_, ⟨c, _, rfl⟩, hx⟩ := hx
  have hd : ∀ n, x ∈ digits c n → 33 ≤ x ∧ x ≤ 126 := by
    intro n h
    simp only [digits, List.mem_map] at h
    obtain ⟨i, _, rfl⟩ := h
    rw [nibble]; exact digit_visible _ (Nat.mod_lt _ (by decide))
  unfold escapeChar at hx
  split at hx
  · simp only [List.mem_cons] at hx
    rcases hx with rfl | rfl | hx
    · omega
    · omega
    · exact hd _ hx
  · split at hx
    all_goals
      simp only [List.mem_cons] at hx
      rcases hx with rfl | rfl | hx
      · omega
      · omega
      · exact hd _ hx

/-- `\x1b€\U0001f600`. -/
example : escapeString [0x1b, 0x20ac, 0x1f600] = text ['\\', 'x', '1', 'b', '\\', 'u', '2', '0', 'a', 'c',
    '\\', 'U', '0', '0', '0', '1', 'f', '6', '0', '0'] := by decide

/-! ### C421 -/

/-- The rounds end with a content: those before gave nothing. -/
inductive Answers : List Round → Result → Prop where
  | got (c l) : c ≠ [] → Answers (.content c :: l) (.returns c)
  | failed (l) : Answers (.error :: l) .raises
  | skip (r l x) : r = .nothing ∨ r = .blocked ∨ r = .content [] → Answers l x → Answers (r :: l) x
  | never : Answers [] .waits

theorem loop_answers (l : List Round) : Answers l (loop l) := by
  induction l with
  | nil => exact .never
  | cons r l ih =>
    match r with
    | .nothing => exact .skip _ _ _ (by simp) ih
    | .blocked => exact .skip _ _ _ (by simp) ih
    | .error => exact .failed l
    | .content [] => exact .skip _ _ _ (by simp) ih
    | .content (c :: cs) => exact .got (c :: cs) l (by simp)

/-- C421, what holds: if the terminal can be set, the first content is returned, and the
terminal is as before once the command ended, also if it raised. -/
theorem C421_input_partial (t : Term) (raw : Nat) (l : List Round) :
    Answers l (inputOnce t (some raw) true l).1 ∧
    ((inputOnce t (some raw) true l).1 ≠ .waits → (inputOnce t (some raw) true l).2 = t) ∧
    ((inputOnce t (some raw) true l).1 = .waits → (inputOnce t (some raw) true l).2 = ⟨raw, false⟩) := by
  have h := loop_answers l
  unfold inputOnce
  dsimp only
  generalize loop l = x at h ⊢
  cases x with
  | waits => exact ⟨h, by simp, by simp⟩
  | raises => exact ⟨h, by simp, by simp⟩
  | returns c => exact ⟨h, by simp, by simp⟩

/-- C421 is violated: if `tty.setraw` raises, reading stays without blocking. -/
theorem C421_not_blocking_violated (settings : Nat) (restores : Bool) (l : List Round) :
    inputOnce ⟨settings, true⟩ none restores l = (.raises, ⟨settings, false⟩) := rfl

/-- C421 is violated: if the settings can not be restored, that reading blocks is not restored
either, and what was read is lost. -/
theorem C421_content_lost_violated (t : Term) (raw : Nat) (c : List Nat) (hc : c ≠ []) (l : List Round) :
    inputOnce t (some raw) false (.content c :: l) = (.raises, ⟨raw, false⟩) := by
  cases c with
  | nil => exact absurd rfl hc
  | cons _ _ => rfl

example : inputOnce ⟨5, true⟩ (some 7) true [.nothing, .blocked, .content [], .content [27, 91, 65], .content [3]] =
    (.returns [27, 91, 65], ⟨5, true⟩) := by decide
example : inputOnce ⟨5, true⟩ (some 7) true [.nothing, .error, .content [3]] = (.raises, ⟨5, true⟩) := by decide

/-! ### C422 -/

/-- C422, what holds: among the inputs without name which are printable, and among those
which are not, different inputs have different names. -/
theorem C422_names_partial (printable : Nat → Bool) (a b : List Nat) (ha : ∀ c ∈ a, c < 0x110000)
    (hb : ∀ c ∈ b, c < 0x110000) (na : keyNames.lookup a = none) (nb : keyNames.lookup b = none)
    (hp : (∀ c ∈ a, printable c = true) ↔ (∀ c ∈ b, printable c = true))
    (h : inputName printable a = inputName printable b) : a = b := by
  unfold inputName at h
  rw [na, nb] at h
  have e : a.all printable = b.all printable := by
    rw [Bool.eq_iff_iff, List.all_eq_true, List.all_eq_true]; exact hp
  dsimp only at h
  rw [← e] at h
  split at h
  · exact h
  · exact C420_injective a b ha hb h

/-- What the keys are called. -/
inductive Called : List Nat → List Char → Prop where
  | interrupt : Called [3] ['k', 'e', 'y', 'b', 'o', 'a', 'r', 'd', ' ', 'i', 'n', 't', 'e', 'r', 'r', 'u', 'p', 't']
  | destroy : Called [4] ['d', 'e', 's', 't', 'r', 'o', 'y']
  | tab : Called [9] ['t', 'a', 'b']
  | lf : Called [10] ['n', 'e', 'w', ' ', 'l', 'i', 'n', 'e']
  | cr : Called [13] ['n', 'e', 'w', ' ', 'l', 'i', 'n', 'e']
  | backspace : Called [127] ['b', 'a', 'c', 'k', 's', 'p', 'a', 'c', 'e']
  | backTab : Called [27, 91, 90] ['b', 'a', 'c', 'k', ' ', 't', 'a', 'b']
  | up : Called [27, 91, 65] ['a', 'r', 'r', 'o', 'w', ' ', 'u', 'p']
  | down : Called [27, 91, 66] ['a', 'r', 'r', 'o', 'w', ' ', 'd', 'o', 'w', 'n']
  | right : Called [27, 91, 67] ['a', 'r', 'r', 'o', 'w', ' ', 'r', 'i', 'g', 'h', 't']
  | left : Called [27, 91, 68] ['a', 'r', 'r', 'o', 'w', ' ', 'l', 'e', 'f', 't']
  | last : Called [27, 91, 70] ['e', 'n', 'd']
  | home : Called [27, 91, 72] ['h', 'o', 'm', 'e']
  | delete : Called [27, 91, 51, 126] ['d', 'e', 'l', 'e', 't', 'e']

/-- C422: the keys have their names; other inputs are shown as they are if all their
characters are printable, escaped if not. -/
theorem C422_named (printable : Nat → Bool) (content : List Nat) :
    (∃ n, Called content n ∧ inputName printable content = n.map Char.toNat) ∨
    ((∀ n, ¬ Called content n) ∧
      (((∀ c ∈ content, printable c = true) ∧ inputName printable content = content) ∨
       ((∃ c ∈ content, printable c = false) ∧ inputName printable content = escapeString content))) := by
  by_cases hn : ∃ n, Called content n
  · obtain ⟨n, hn⟩ := hn
    refine .inl ⟨n, hn, ?_⟩
    cases hn <;> rfl
  · refine .inr ⟨fun n h => hn ⟨n, h⟩, ?_⟩
    have hl : keyNames.lookup content = none := by
      rw [List.lookup_eq_none_iff]
      intro p hp
      rw [bne_iff_ne]
      intro e
      apply hn
      rw [e]
      simp only [keyNames, List.mem_cons, List.not_mem_nil, or_false] at hp
      rcases hp with rfl | rfl | rfl | rfl | rfl | rfl | rfl | rfl | rfl | rfl | rfl | rfl | rfl | rfl
      · exact ⟨_, .interrupt⟩
      · exact ⟨_, .destroy⟩
      · exact ⟨_, .tab⟩
      · exact ⟨_, .backTab⟩
      · exact ⟨_, .lf⟩
      · exact ⟨_, .cr⟩
      · exact ⟨_, .up⟩
      · exact ⟨_, .down⟩
      · exact ⟨_, .right⟩
      · exact ⟨_, .left⟩
      · exact ⟨_, .last⟩
      · exact ⟨_, .home⟩
      · exact ⟨_, .delete⟩
      · exact ⟨_, .backspace⟩
    unfold inputName
    rw [hl]
    dsimp only
    split
    · rename_i h; exact .inl ⟨List.all_eq_true.1 h, rfl⟩
    · rename_i h
      refine .inr ⟨?_, rfl⟩
      refine Classical.byContradiction fun hc => h (List.all_eq_true.2 fun c hm => ?_)
      cases hx : printable c with
      | true => rfl
      | false => exact absurd ⟨c, hm, hx⟩ hc

/-- C422 is violated: the two characters of new lines have the same name. -/
theorem C422_new_lines_violated (printable : Nat → Bool) :
    inputName printable [0x0a] = inputName printable [0x0d] := rfl

/-- C422 is violated: an unprintable input without name has the same name as the text of its
escape, if visible ASCII is printable and the text is not that of a key. -/
theorem C422_escapes_violated (printable : Nat → Bool) (hp : ∀ x, 33 ≤ x → x ≤ 126 → printable x = true)
    (a : List Nat) (na : keyNames.lookup a = none) (c : Nat) (hc : c ∈ a) (hu : printable c = false) :
    inputName printable (escapeString a) = inputName printable a := by
  have h1 : inputName printable a = escapeString a := by
    unfold inputName; rw [na]; dsimp only
    rw [if_neg]
    intro h
    rw [List.all_eq_true] at h
    have := h c hc
    rw [hu] at this; exact absurd this (by decide)
  have h2 : ∀ n, ¬ Called (escapeString a) n := by
    cases a with
    | nil => simp at hc
    | cons x l =>
      have : ∃ r, escapeString (x :: l) = 92 :: r := by
        simp only [escapeString, List.map_cons, List.flatten_cons]
        unfold escapeChar
        split
        · exact ⟨_, rfl⟩
        · split <;> exact ⟨_, rfl⟩
      obtain ⟨r, e⟩ := this
      rw [e]; intro n h; cases h
  rw [h1]
  rcases C422_named printable (escapeString a) with ⟨n, h, _⟩ | ⟨_, ⟨_, h⟩ | ⟨⟨x, hx, hf⟩, _⟩⟩
  · exact absurd h (h2 n)
  · exact h
  · have := C420_visible a x hx
    rw [hp x this.1 this.2] at hf; exact absurd hf (by decide)

/-- The text `\x01` and the character `1`. -/
example : inputName (fun c => decide (32 ≤ c)) [1] = [92, 120, 48, 49] ∧
    inputName (fun c => decide (32 ≤ c)) [92, 120, 48, 49] = [92, 120, 48, 49] := by decide
example : inputName (fun c => decide (32 ≤ c)) [27, 91, 65] = "arrow up".toList.map Char.toNat := by decide

end Verif.Keys
