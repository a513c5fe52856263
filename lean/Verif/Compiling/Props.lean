import Verif.Compiling.Model

/-!
# Compiling what was typed into the console: theorems
-/

namespace Verif.Compiling

/-! ## Empty sources -/

/-- A line of blanks, and maybe a comment. -/
inductive Blank : Text → Prop
  | nil : Blank []
  | comment (l : Text) : Blank (35 :: l)
  | cons (c : Nat) (l : Text) : c ∈ [13, 10, 32, 9] → Blank l → Blank (c :: l)

theorem lineFilled_iff (l : Text) : lineFilled l = false ↔ Blank l := by
  induction l with
  | nil => exact ⟨fun _ => .nil, fun _ => rfl⟩
  | cons c l ih =>
    unfold lineFilled
    constructor
    · intro h
      split at h
      · rename_i hc; exact .cons c l (by simpa using hc) (ih.1 h)
      · split at h
        · rename_i hc; subst hc; exact .comment l
        · cases h
    · intro h
      cases h with
      | comment => rfl
      | cons _ _ hc hl => rw [if_pos (by simpa using hc)]; exact ih.2 hl

/-- C324: a source is empty exactly if its lines are blanks and comments. -/
theorem C324_empty (buffer : List Text) : isEmpty buffer = true ↔ ∀ l ∈ buffer, Blank l := by
  induction buffer with
  | nil => simp [isEmpty]
  | cons l ls ih =>
    unfold isEmpty
    cases h : lineFilled l with
    | true =>
      have hn : ¬Blank l := fun hb => by rw [(lineFilled_iff l).2 hb] at h; cases h
      simp [hn]
    | false =>
      have hb := (lineFilled_iff l).1 h
      simp [hb, ih]

/-- C324: such a source is not compiled. -/
theorem C324_not_compiled (space : Nat → Bool) (compile : Bool → Text → Compiled) (buffer : List Text)
    (h : ∀ l ∈ buffer, Blank l) : maybeCompile space compile buffer = .nothing := by
  unfold maybeCompile
  rw [if_pos ((C324_empty buffer).2 h)]

example : isEmpty [[32, 35, 97], [], [9, 10]] = true ∧ isEmpty [[32], [97, 35]] = false := by decide

/-! ## Code -/

/-- The source is not finished, or is more than one statement where one is expected. -/
def Open (single : Bool) : Compiled → Prop
  | .indentation e => (single = true ∧ e.multiple = true) ∨ e.incomplete = true
  | .wrong e => (single = true ∧ e.multiple = true) ∨ e.incomplete = true
  | _ => False

theorem try_code (single : Bool) (c : Compiled) (n : Nat) : tryCompile single c = .code n ↔ c = .code n := by
  cases c <;> simp only [tryCompile] <;> first | (constructor <;> (intro h; cases h; rfl)) | skip
  all_goals (repeat' split) <;> simp

theorem try_open (single : Bool) (c : Compiled) : tryCompile single c = .nothing ↔ Open single c := by
  cases c <;> simp only [tryCompile, Open] <;> (repeat' split) <;> simp_all

theorem second_code (space : Nat → Bool) (e0 : Option Err) (exec : Compiled) (n : Nat) :
    second space e0 exec = .code n ↔ exec = .code n := by
  have hd : ∀ a b, decide2 space a b ≠ .code n := by
    intro a b
    cases a <;> cases b <;> simp [decide2]
    split <;> simp
  unfold second
  rw [← try_code false exec n]
  cases tryCompile false exec <;> simp [hd]

/-- C325: code is given exactly if the source is compiled as a single statement, or else as many, unless it is wrongly
indented as a single one. -/
theorem C325_code (space : Nat → Bool) (compile : Bool → Text → Compiled) (buffer : List Text) (n : Nat)
    (hne : ∃ l ∈ buffer, ¬Blank l) :
    maybeCompile space compile buffer = .code n ↔
      compile true (source space buffer) = .code n ∨
        ((∀ m, compile true (source space buffer) ≠ .code m) ∧
          (∀ e, compile true (source space buffer) = .indentation e → e.multiple = true ∨ e.incomplete = true) ∧
          compile false (source space buffer) = .code n) := by
  have hemp : ¬isEmpty buffer = true := by
    rw [C324_empty]
    obtain ⟨l, hl, hb⟩ := hne
    exact fun h => hb (h l hl)
  unfold maybeCompile
  rw [if_neg hemp]
  cases h : compile true (source space buffer) with
  | code m => simp [tryCompile]
  | indentation e =>
    by_cases hm : e.multiple = true
    · simp [tryCompile, hm, second_code]
    · by_cases hi : e.incomplete = true
      · simp [tryCompile, hm, hi, second_code]
      · simp [tryCompile, hm, hi]
  | wrong e =>
    by_cases hm : e.multiple = true
    · simp [tryCompile, hm, second_code]
    · by_cases hi : e.incomplete = true
      · simp [tryCompile, hm, hi, second_code]
      · simp [tryCompile, hm, hi, second_code]
  | other e => simp [tryCompile, second_code]

/-! ## Errors -/

/-- An error of one mode for good. -/
inductive Wrong (single : Bool) : Compiled → Err → Prop
  | wrong (e : Err) : e.incomplete = false → ¬(single = true ∧ e.multiple = true) → Wrong single (.wrong e) e
  | other (e : Err) : Wrong single (.other e) e

theorem try_wrong (single : Bool) (c : Compiled) (e : Err) (h : Wrong single c e) : tryCompile single c = .wrong e := by
  cases h with
  | wrong _ h1 h2 => simp only [tryCompile]; rw [if_neg h2, if_neg (by simp [h1])]
  | other => rfl

/-- What an error tells: its details, or those of its slots, and the line without white space at its end. -/
inductive Told (space : Nat → Bool) : Err → Args → Prop
  | full (e : Err) (m : Nat) (d : Details) : e.args = .full m d →
    Told space e (.full m ⟨d.line, d.offset, d.text.map (rstrip space), d.last⟩)
  | slots (e : Err) (m : Nat) : e.args = .message m → e.valid = true →
    Told space e (.full m ⟨e.slots.line, e.slots.offset, e.slots.text.map (rstrip space), e.slots.last⟩)
  | message (e : Err) (m : Nat) : e.args = .message m → e.valid = false → Told space e (.message m)
  | odd (e : Err) (n : Nat) : e.args = .odd n → Told space e (.odd n)

theorem told_iff (space : Nat → Bool) (e : Err) (a : Args) : Told space e a ↔ stripLine space (fixup e) = a := by
  constructor
  · intro h
    cases h with
    | full m d h => simp [fixup, h, stripLine]
    | slots m h hv => simp [fixup, h, hv, stripLine]
    | message m h hv => simp [fixup, h, hv, stripLine]
    | odd n h => simp [fixup, h, stripLine]
  · intro h
    subst h
    cases ha : e.args with
    | full m d => simp only [fixup, ha, stripLine]; exact .full e m d ha
    | message m =>
      cases hv : e.valid with
      | true => simp only [fixup, ha, hv, stripLine, if_true]; exact .slots e m ha hv
      | false => simp only [fixup, ha, hv, stripLine, Bool.false_eq_true, if_false]; exact .message e m ha hv
    | odd n => simp only [fixup, ha, stripLine]; exact .odd e n ha

/-- C326: nothing is raised if the source can be compiled or waits for more in the end. -/
theorem C326_sound (space : Nat → Bool) (compile : Bool → Text → Compiled) (buffer : List Text) (a : Args)
    (h : maybeCompile space compile buffer = .raised a) :
    (∀ n, compile true (source space buffer) ≠ .code n) ∧
      ((∃ e, compile true (source space buffer) = .indentation e ∧ e.incomplete = false) ∨
        ((∀ n, compile false (source space buffer) ≠ .code n) ∧ ¬Open false (compile false (source space buffer)))) := by
  unfold maybeCompile at h
  split at h
  · cases h
  · have hs : ∀ e0, second space e0 (compile false (source space buffer)) = .raised a →
        (∀ n, compile false (source space buffer) ≠ .code n) ∧ ¬Open false (compile false (source space buffer)) := by
      intro e0 h
      unfold second at h
      constructor
      · intro n hn
        rw [hn] at h
        simp [tryCompile] at h
      · intro ho
        rw [(try_open false _).2 ho] at h
        cases e0 <;> simp [decide2] at h
    cases ht : tryCompile true (compile true (source space buffer)) with
    | code n => rw [ht] at h; cases h
    | nothing =>
      rw [ht] at h
      refine ⟨?_, Or.inr (hs _ h)⟩
      intro n hn
      rw [hn] at ht
      cases ht
    | wrong e =>
      rw [ht] at h
      refine ⟨?_, Or.inr (hs _ h)⟩
      intro n hn
      rw [hn] at ht
      cases ht
    | indentation e =>
      refine ⟨?_, Or.inl ⟨e, ?_⟩⟩
      · intro n hn
        rw [hn] at ht
        cases ht
      · cases hc : compile true (source space buffer) with
        | code n => rw [hc] at ht; cases ht
        | indentation e' =>
          rw [hc] at ht
          simp only [tryCompile] at ht
          split at ht
          · cases ht
          · split at ht
            · cases ht
            · rename_i hi
              cases ht
              exact ⟨rfl, by simpa using hi⟩
        | wrong e' =>
          rw [hc] at ht
          simp only [tryCompile] at ht
          split at ht
          · cases ht
          · split at ht <;> cases ht
        | other e' => rw [hc] at ht; cases ht

/-- C327: a source for which both modes tell the same error is refused with it. -/
theorem C327_refused_partial (space : Nat → Bool) (compile : Bool → Text → Compiled) (buffer : List Text) (e0 e1 : Err) (a : Args)
    (hne : ∃ l ∈ buffer, ¬Blank l) (h0 : Wrong true (compile true (source space buffer)) e0)
    (h1 : Wrong false (compile false (source space buffer)) e1) (t0 : Told space e0 a) (t1 : Told space e1 a) :
    maybeCompile space compile buffer = .raised a := by
  have hemp : ¬isEmpty buffer = true := by
    rw [C324_empty]
    obtain ⟨l, hl, hb⟩ := hne
    exact fun h => hb (h l hl)
  unfold maybeCompile
  rw [if_neg hemp, try_wrong true _ e0 h0]
  dsimp only
  unfold second
  rw [try_wrong false _ e1 h1]
  dsimp only
  unfold decide2
  dsimp only
  rw [(told_iff space e0 a).1 t0, (told_iff space e1 a).1 t1, if_pos rfl]

/-- C327: so is one of many statements with an error. -/
theorem C327_many_partial (space : Nat → Bool) (compile : Bool → Text → Compiled) (buffer : List Text) (e1 : Err)
    (hne : ∃ l ∈ buffer, ¬Blank l) (h0 : Open true (compile true (source space buffer)))
    (h1 : Wrong false (compile false (source space buffer)) e1) :
    ∃ a, maybeCompile space compile buffer = .raised a := by
  have hemp : ¬isEmpty buffer = true := by
    rw [C324_empty]
    obtain ⟨l, hl, hb⟩ := hne
    exact fun h => hb (h l hl)
  unfold maybeCompile
  rw [if_neg hemp, (try_open true _).2 h0]
  dsimp only
  unfold second
  rw [try_wrong false _ e1 h1]
  exact ⟨_, rfl⟩

/-- C327: a wrong indentation which is told for good is raised as it is, in the first mode, or in the second one if the
first one did not give code. -/
theorem C327_indentation_partial (space : Nat → Bool) (compile : Bool → Text → Compiled) (buffer : List Text) (e : Err)
    (hne : ∃ l ∈ buffer, ¬Blank l) (hi : e.incomplete = false) :
    (compile true (source space buffer) = .indentation e → e.multiple = false → maybeCompile space compile buffer = .raised e.args) ∧
      (∀ e0, Open true (compile true (source space buffer)) ∨ Wrong true (compile true (source space buffer)) e0 →
        compile false (source space buffer) = .indentation e → maybeCompile space compile buffer = .raised e.args) := by
  have hemp : ¬isEmpty buffer = true := by
    rw [C324_empty]
    obtain ⟨l, hl, hb⟩ := hne
    exact fun h => hb (h l hl)
  constructor
  · intro h hm
    unfold maybeCompile
    rw [if_neg hemp, h]
    simp [tryCompile, hm, hi]
  · intro e0 h0 h1
    unfold maybeCompile
    rw [if_neg hemp, h1]
    rcases h0 with h0 | h0
    · rw [(try_open true _).2 h0]
      simp [second, tryCompile, hi]
    · rw [try_wrong true _ e0 h0]
      simp [second, tryCompile, hi]

/-- C327: but if the modes tell different errors, more is waited for, although none will help. -/
theorem C327_different_violated (space : Nat → Bool) (compile : Bool → Text → Compiled) (buffer : List Text) (e0 e1 : Err) (a0 a1 : Args)
    (h0 : Wrong true (compile true (source space buffer)) e0)
    (h1 : Wrong false (compile false (source space buffer)) e1) (t0 : Told space e0 a0) (t1 : Told space e1 a1) (hne : a0 ≠ a1) :
    maybeCompile space compile buffer = .nothing := by
  unfold maybeCompile
  split
  · rfl
  · rw [try_wrong true _ e0 h0]
    dsimp only
    unfold second
    rw [try_wrong false _ e1 h1]
    dsimp only
    unfold decide2
    dsimp only
    rw [(told_iff space e0 a0).1 t0, (told_iff space e1 a1).1 t1, if_neg hne]

/-- Two errors at different places. -/
example : ∃ (e0 e1 : Err) (a0 a1 : Args), Wrong true (.wrong e0) e0 ∧ Wrong false (.wrong e1) e1 ∧
    Told (· == 32) e0 a0 ∧ Told (· == 32) e1 a1 ∧ a0 ≠ a1 :=
  ⟨⟨.full 1 ⟨1, 2, none, none⟩, ⟨1, 2, none, none⟩, true, false, false⟩,
    ⟨.full 1 ⟨1, 3, none, none⟩, ⟨1, 3, none, none⟩, true, false, false⟩, _, _,
    .wrong _ rfl (by simp), .wrong _ rfl (by simp), .full _ 1 ⟨1, 2, none, none⟩ rfl, .full _ 1 ⟨1, 3, none, none⟩ rfl, by simp⟩

/-! ## The source -/

/-- C328: the lines are compiled as they were typed if they have no white space at their ends. -/
theorem C328_source_partial (space : Nat → Bool) (buffer : List Text)
    (h : ∀ l ∈ buffer, ∀ o z, l = o ++ [z] → space z = false) : source space buffer = joinLines buffer := by
  unfold source
  have : buffer.map (rstrip space) = buffer := by
    conv => rhs; rw [← List.map_id buffer]
    apply List.map_congr_left
    intro l hl
    rcases List.eq_nil_or_concat l with rfl | ⟨o, z, e⟩
    · rfl
    · rw [List.concat_eq_append] at e
      have := h l hl o z e
      subst e
      simp [rstrip, this]
  rw [this]

/-- C328: but white space at the end of a line is dropped, be it in the middle of a string. -/
theorem C328_trailing_violated (space : Nat → Bool) (before after : Text) (z : Nat) (hz : space z = true)
    (hb : ∀ o y, before = o ++ [y] → space y = false) (ha : ∀ o y, after = o ++ [y] → space y = false) :
    source space [before ++ [z], after] = joinLines [before, after] ∧
      joinLines [before ++ [z], after] ≠ joinLines [before, after] := by
  have hs : ∀ l : Text, (∀ o y, l = o ++ [y] → space y = false) → rstrip space l = l := by
    intro l h
    rcases List.eq_nil_or_concat l with rfl | ⟨o, y, e⟩
    · rfl
    · rw [List.concat_eq_append] at e
      have := h o y e
      subst e
      simp [rstrip, this]
  constructor
  · have h1 : rstrip space (before ++ [z]) = rstrip space before := by simp [rstrip, hz]
    simp only [source, List.map_cons, List.map_nil, h1, hs before hb, hs after ha]
  · intro h
    have := congrArg List.length h
    simp [joinLines] at this

/-- `'''a ` and `b'''`. -/
example : source (· == 32) [[39, 39, 39, 97, 32], [98, 39, 39, 39]] = [39, 39, 39, 97, 10, 98, 39, 39, 39] := by decide

end Verif.Compiling
