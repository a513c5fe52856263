/-
Every key does to the text what the specification says, and leaves the cursor in
the text.
-/
import Verif.Editor.Flat

namespace Verif.Editor

/-- `d'` is the state of a split text whose flat text is `t`. -/
def Does (d' : DS) (t : Flat) : Prop := ∃ z : Z, z.Ok ∧ d' = z.ds ∧ flat d' = t

theorem does {z : Z} (h : z.Ok) {t : Flat} (ht : flat z.ds = t) : Does z.ds t := ⟨z, h, rfl, ht⟩

theorem does4 {pre : List Line} {x y : Line} {post : List Line} {t : Flat}
    (h : Broken pre ∧ 10 ∉ x ∧ 10 ∉ y ∧ Broken post) (ht : flat (Z.ds ⟨pre, x, y, post⟩) = t) :
    Does (Z.ds ⟨pre, x, y, post⟩) t := ⟨_, ⟨h.1, h.2.1, h.2.2.1, h.2.2.2⟩, rfl, ht⟩

theorem key_print {z : Z} (h : z.Ok) {c : Chr} (hc : c ≠ 10) :
    Does (printDS c z.ds) (refKey (flat z.ds) (.print c)) := by
  obtain ⟨pre, x, y, post⟩ := z
  rw [print_z, flat_z]
  refine does4 ⟨h.pre, ?_, h.y, h.post⟩ ?_
  · have := h.x
    simp only [List.mem_append, List.mem_singleton] at this ⊢
    rintro (h1 | h1)
    · exact this h1
    · exact hc h1.symm
  · rw [flat_z]; simp [refKey]

theorem replicate_no (k : Nat) : 10 ∉ List.replicate k (32 : Nat) := by
  simp only [List.mem_replicate]; omega

theorem key_enter (env : Env) (auto : Bool) {z : Z} (h : z.Ok) :
    Does (enterDS env auto z.ds) (refEnter (flat z.ds) (indentBy env auto z.x z.y)) := by
  obtain ⟨pre, x, y, post⟩ := z
  rw [enter_z, flat_z]
  refine does4 ⟨?_, replicate_no _, h.y, h.post⟩ ?_
  · exact broken_append.2 ⟨h.pre, broken_cons.2 ⟨h.x, by simp [Broken]⟩⟩
  · rw [flat_z, pj_snoc]; simp [refEnter]

theorem key_delLeft {z : Z} (h : z.Ok) : Does ((delLeftDS z.ds).getD z.ds) (refKey (flat z.ds) .delLeft) := by
  obtain ⟨pre, x, y, post⟩ := z
  rcases snoc_cases x with hx | ⟨x', c, hx⟩
  · subst hx
    rcases snoc_cases pre with hp | ⟨p', p, hp⟩
    · subst hp
      rw [delLeft_start, flat_z]
      exact does h (by rw [flat_z]; simp [refKey, pj])
    · subst hp
      rw [delLeft_line, flat_z]
      have hb := broken_append.1 h.pre
      refine does4 ⟨hb.1, (broken_cons.1 hb.2).1, h.y, h.post⟩ ?_
      rw [flat_z, pj_snoc]; simp [refKey]
  · subst hx
    rw [delLeft_char, flat_z]
    have hx := h.x
    simp only [List.mem_append, not_or] at hx
    refine does4 ⟨h.pre, hx.1, h.y, h.post⟩ ?_
    rw [flat_z]; simp [refKey, ← List.append_assoc]

theorem key_delRight {z : Z} (h : z.Ok) :
    Does ((delRightDS z.ds).getD z.ds) (refKey (flat z.ds) .delRight) := by
  obtain ⟨pre, x, y, post⟩ := z
  cases y with
  | nil =>
    cases post with
    | nil =>
      rw [delRight_end, flat_z]
      exact does h (by rw [flat_z]; simp [refKey, text])
    | cons q r =>
      rw [delRight_line, flat_z]
      have hb := broken_cons.1 h.post
      refine does4 ⟨h.pre, h.x, hb.1, hb.2⟩ ?_
      rw [flat_z]; simp [refKey, text]
  | cons c y =>
    rw [delRight_char, flat_z]
    have hy := h.y
    simp only [List.mem_cons, not_or] at hy
    refine does4 ⟨h.pre, h.x, hy.2, h.post⟩ ?_
    rw [flat_z, text_cons, text_cons]; simp [refKey]

theorem key_left {z : Z} (h : z.Ok) : Does ((leftDS z.ds).getD z.ds) (refKey (flat z.ds) .left) := by
  obtain ⟨pre, x, y, post⟩ := z
  rcases snoc_cases x with hx | ⟨x', c, hx⟩
  · subst hx
    rcases snoc_cases pre with hp | ⟨p', p, hp⟩
    · subst hp
      rw [left_start, flat_z]
      exact does h (by rw [flat_z]; simp [refKey, pj])
    · subst hp
      rw [left_line, flat_z]
      have hb := broken_append.1 h.pre
      refine does4 ⟨hb.1, (broken_cons.1 hb.2).1, by simp, broken_cons.2 ⟨h.y, h.post⟩⟩ ?_
      rw [flat_z, pj_snoc]; simp [refKey, text]
  · subst hx
    rw [left_char, flat_z]
    have hx := h.x
    simp only [List.mem_append, List.mem_singleton, not_or] at hx
    refine does4 ⟨h.pre, hx.1, ?_, h.post⟩ ?_
    · simp only [List.mem_cons, not_or]; exact ⟨hx.2, h.y⟩
    · rw [flat_z, text_cons, text_cons]; simp [refKey, ← List.append_assoc]

theorem key_right {z : Z} (h : z.Ok) : Does ((rightDS z.ds).getD z.ds) (refKey (flat z.ds) .right) := by
  obtain ⟨pre, x, y, post⟩ := z
  cases y with
  | nil =>
    cases post with
    | nil =>
      rw [right_end, flat_z]
      exact does h (by rw [flat_z]; simp [refKey, text])
    | cons q r =>
      rw [right_line, flat_z]
      have hb := broken_cons.1 h.post
      refine does4 ⟨broken_append.2 ⟨h.pre, broken_cons.2 ⟨h.x, by simp [Broken]⟩⟩, by simp, hb.1, hb.2⟩ ?_
      rw [flat_z, pj_snoc]; simp [refKey, text]
  | cons c y =>
    rw [right_char, flat_z]
    have hy := h.y
    simp only [List.mem_cons, not_or] at hy
    refine does4 ⟨h.pre, ?_, hy.2, h.post⟩ ?_
    · simp only [List.mem_append, List.mem_singleton, not_or]; exact ⟨h.x, hy.1⟩
    · rw [flat_z, text_cons, text_cons]; simp [refKey]

theorem nomem_append {x y : Line} (hx : 10 ∉ x) (hy : 10 ∉ y) : 10 ∉ x ++ y := by
  simp only [List.mem_append, not_or]; exact ⟨hx, hy⟩

theorem nomem_take {x : Line} (n : Nat) (hx : 10 ∉ x) : 10 ∉ x.take n := fun h => hx (List.mem_of_mem_take h)

theorem nomem_drop {x : Line} (n : Nat) (hx : 10 ∉ x) : 10 ∉ x.drop n := fun h => hx (List.mem_of_mem_drop h)

theorem key_home {z : Z} (h : z.Ok) : Does ((homeDS z.ds).getD z.ds) (refKey (flat z.ds) .home) := by
  obtain ⟨pre, x, y, post⟩ := z
  have hc := before_cut h.x pre
  simp only at hc
  by_cases hx : x = []
  · subst hx
    rw [home_none, flat_z]
    refine does h ?_
    rw [flat_z]; simp only [refKey, hc]; simp
  · rw [home_z _ _ _ _ hx, flat_z]
    refine does4 ⟨h.pre, by simp, nomem_append h.x h.y, h.post⟩ ?_
    rw [flat_z]; simp only [refKey, hc]; rw [text_head]; simp

theorem key_end {z : Z} (h : z.Ok) : Does ((endDS z.ds).getD z.ds) (refKey (flat z.ds) .end_) := by
  obtain ⟨pre, x, y, post⟩ := z
  have hc := after_cut h.y post
  simp only at hc
  by_cases hy : y = []
  · subst hy
    rw [end_none, flat_z]
    refine does h ?_
    rw [flat_z]; simp only [refKey, hc]; rw [text_cons]; simp
  · rw [end_z _ _ _ _ hy, flat_z]
    refine does4 ⟨h.pre, nomem_append h.x h.y, by simp, h.post⟩ ?_
    rw [flat_z]; simp only [refKey, hc]; rw [text_cons]; simp

theorem key_up {z : Z} (h : z.Ok) : Does ((upDS z.ds).getD z.ds) (refKey (flat z.ds) .up) := by
  obtain ⟨pre, x, y, post⟩ := z
  have hc := before_cut h.x pre
  simp only at hc
  rcases snoc_cases pre with hp | ⟨p', p, hp⟩
  · subst hp
    have e : refKey (flat (Z.ds ⟨[], x, y, post⟩)) .up = ([], x ++ text (y :: post)) := by
      rw [flat_z]; simp only [refKey, hc]; simp [pj]
    rw [e]
    by_cases hx : x = []
    · subst hx
      rw [up_none]
      exact does h (by rw [flat_z]; simp [pj])
    · rw [up_first _ _ _ hx]
      refine does4 ⟨h.pre, by simp, nomem_append h.x h.y, h.post⟩ ?_
      rw [flat_z, text_head]; simp [pj]
  · subst hp
    have hb := broken_append.1 h.pre
    have hpp : 10 ∉ p := (broken_cons.1 hb.2).1
    have hc2 := before_cut hpp p'
    have e : refKey (flat (Z.ds ⟨p' ++ [p], x, y, post⟩)) .up
        = (pj p' ++ p.take x.length, p.drop x.length ++ 10 :: x ++ text (y :: post)) := by
      rw [flat_z]; simp only [refKey, hc]
      rw [pj_snoc]
      generalize hg : pj p' ++ p ++ [10] = g
      cases g with
      | nil => simp at hg
      | cons a g =>
        have : (a :: g).dropLast = pj p' ++ p := by rw [← hg]; simp
        simp only [this, hc2]
    rw [e, up_line]
    refine does4 ⟨hb.1, nomem_take _ hpp, nomem_drop _ hpp, broken_cons.2 ⟨nomem_append h.x h.y, h.post⟩⟩ ?_
    rw [flat_z, text_cons]; simp only [rest]; rw [text_head]; simp

theorem key_down {z : Z} (h : z.Ok) : Does ((downDS z.ds).getD z.ds) (refKey (flat z.ds) .down) := by
  obtain ⟨pre, x, y, post⟩ := z
  have hc := after_cut h.y post
  have hb := before_cut h.x pre
  simp only at hc hb
  cases post with
  | nil =>
    have e : refKey (flat (Z.ds ⟨pre, x, y, []⟩)) .down = (pj pre ++ x ++ y, []) := by
      rw [flat_z]; simp only [refKey, hc, rest]; simp [text]
    rw [e]
    by_cases hy : y = []
    · subst hy
      rw [down_none]
      exact does h (by rw [flat_z]; simp [text])
    · rw [down_last _ _ _ hy]
      refine does4 ⟨h.pre, nomem_append h.x h.y, by simp, h.post⟩ ?_
      rw [flat_z]; simp [text]
  | cons q r =>
    have hp := broken_cons.1 h.post
    have hc2 := after_cut hp.1 r
    have e : refKey (flat (Z.ds ⟨pre, x, y, q :: r⟩)) .down
        = (pj pre ++ x ++ y ++ 10 :: q.take x.length, q.drop x.length ++ rest r) := by
      rw [flat_z]; simp only [refKey, hc, rest, hc2, hb]
    rw [e, down_line]
    refine does4 ⟨broken_append.2 ⟨h.pre, broken_cons.2 ⟨nomem_append h.x h.y, by simp [Broken]⟩⟩,
      nomem_take _ hp.1, nomem_drop _ hp.1, hp.2⟩ ?_
    rw [flat_z, pj_snoc, text_cons]; simp

theorem key_backTab {z : Z} (h : z.Ok) :
    Does ((backTabDS z.ds).getD z.ds) (refKey (flat z.ds) .backTab) := by
  obtain ⟨pre, x, y, post⟩ := z
  have hc := after_cut h.y post
  have hb := before_cut h.x pre
  simp only at hc hb
  have e : refKey (flat (Z.ds ⟨pre, x, y, post⟩)) .backTab
      = (pj pre ++ x.drop (dedent (startSpaces (x ++ y))),
         y.drop (dedent (startSpaces (x ++ y)) - x.length) ++ rest post) := by
    rw [flat_z]; simp only [refKey, hc, hb, leading_eq]
  rw [e]
  by_cases hn : startSpaces (x ++ y) = 0
  · rw [backTab_none _ _ _ _ hn]
    refine does h ?_
    rw [flat_z, hn, text_cons]; simp [dedent]
  · rw [backTab_z _ _ _ _ hn, dedent_eq hn]
    refine does4 ⟨h.pre, nomem_drop _ h.x, nomem_drop _ h.y, h.post⟩ ?_
    rw [flat_z, text_cons]

theorem key_tab_paste (env : Env) {z : Z} (h : z.Ok) :
    Does (tabDS env false z.ds).1 (refKey (flat z.ds) .tab) := by
  obtain ⟨pre, x, y, post⟩ := z
  rw [tab_paste, flat_z]
  refine does4 ⟨h.pre, nomem_append h.x (replicate_no _), h.y, h.post⟩ ?_
  rw [flat_z]; simp [refKey, List.replicate]

theorem skip_length : ∀ (k : Nat) (l : Line) (m : List Chr), m.head? ≠ some 32 →
    k - tabSkip l k = (((l ++ m).take k).takeWhile (· == 32)).length
  | 0, _, _, _ => by simp
  | k + 1, [], m, hm => by
    cases m with
    | nil => simp [tabSkip]
    | cons c r =>
      have : ¬ c = 32 := by simpa using hm
      simp [tabSkip, this]
  | k + 1, c :: r, m, hm => by
    by_cases h : c = 32
    · have ih := skip_length k r m hm
      have := (tabSkip_split k r).1
      subst h
      have e : tabSkip (32 :: r) (k + 1) = tabSkip r k := by simp [tabSkip]
      rw [e]
      simp only [List.cons_append, List.take_succ_cons, beq_self_eq_true,
        List.takeWhile_cons_of_pos, List.length_cons]
      omega
    · simp [tabSkip, h]

theorem rest_head (post : List Line) : (rest post).head? ≠ some 32 := by
  cases post <;> simp [rest]

theorem key_tab_spaces {z : Z} (h : z.Ok) : Does (tabSpacesDS true z.ds).1 (refTab (flat z.ds)) := by
  obtain ⟨pre, x, y, post⟩ := z
  have hb := before_cut h.x pre
  simp only at hb
  rw [tabSpaces_auto, flat_z]
  refine does4 ⟨h.pre, nomem_append h.x (replicate_no _), nomem_drop _ h.y, h.post⟩ ?_
  rw [flat_z]
  simp only [refTab, hb]
  rw [text_cons, text_cons, ← skip_length _ y (rest post) (rest_head post)]
  have hle : 4 - x.length % 4 - tabSkip y (4 - x.length % 4) ≤ y.length := by
    obtain ⟨_, r, hr⟩ := tabSkip_split (4 - x.length % 4) y
    have := congrArg List.length hr
    simp at this; omega
  rw [List.drop_append_of_le_length hle]
  simp

/-! ### The spaces of a new line -/

theorem endsWithRev_iff : ∀ l : Line, endsWithRev 58 l = true ↔ (l.dropWhile (· == 32)).head? = some 58
  | [] => by simp [endsWithRev]
  | c :: r => by
    have ih := endsWithRev_iff r
    by_cases h : c = 58
    · simp [endsWithRev, h]
    · by_cases h2 : c = 32
      · simp [endsWithRev, h2, ih]
      · simp [endsWithRev, h, h2]

theorem word_iff (w l : Line) : (w.isPrefixOf l && (l.length == w.length || l.getD w.length 0 == 32)) = true ↔
    ∃ r, l = w ++ r ∧ (r = [] ∨ r.head? = some 32) := by
  simp only [Bool.and_eq_true, List.isPrefixOf_iff_prefix, Bool.or_eq_true, beq_iff_eq]
  constructor
  · rintro ⟨⟨r, rfl⟩, h⟩
    refine ⟨r, rfl, ?_⟩
    rcases h with h | h
    · left; simpa using h
    · cases r with
      | nil => left; rfl
      | cons c r => right; simpa using h
  · rintro ⟨r, rfl, h⟩
    refine ⟨⟨r, rfl⟩, ?_⟩
    rcases h with h | h
    · left; simp [h]
    · right
      cases r with
      | nil => simp at h
      | cons c r => simpa using h

theorem startsWithWord_iff (env : Env) (l : Line) :
    startsWithWord env dedentWords l = true ↔ leavesBlock env.ws l := by
  simp only [startsWithWord, leavesBlock, List.any_eq_true, word_iff]
  rfl

end Verif.Editor
