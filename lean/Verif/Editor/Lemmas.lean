/-
The keys on a display state whose text is split at the cursor: the lines before,
the two halves of the line of the cursor, the lines after.
-/
import Verif.Editor.Model

namespace Verif.Editor

/-- A text split at the cursor. -/
structure Z where
  pre : List Line
  x : Line
  y : Line
  post : List Line

/-- The display state of a split text. -/
def Z.ds (z : Z) : DS := ⟨z.pre ++ (z.x ++ z.y) :: z.post, z.pre.length, z.x.length⟩

/-- The cursor is in the text. -/
def Valid (d : DS) : Prop := d.li < d.buf.length ∧ d.ci ≤ (lineAt d.buf d.li).length

theorem lineAt_mid (p : List Line) (l : Line) (q : List Line) : lineAt (p ++ l :: q) p.length = l := by
  simp [lineAt]

theorem set_mid (p : List Line) (l m : Line) (q : List Line) : (p ++ l :: q).set p.length m = p ++ m :: q := by
  simp

theorem insert_mid (p : List Line) (l m : Line) (q : List Line) :
    insertAt (p ++ l :: q) (p.length + 1) m = p ++ l :: m :: q := by
  have h : p ++ l :: q = (p ++ [l]) ++ q := by simp
  simp only [insertAt]
  rw [h, List.take_left' (by simp), List.drop_left' (by simp)]; simp

theorem pop_mid (p : List Line) (l : Line) (q : List Line) : popAt (p ++ l :: q) p.length = p ++ q := by
  have h : p ++ l :: q = (p ++ [l]) ++ q := by simp
  simp only [popAt]
  rw [List.take_left' rfl, h, List.drop_left' (by simp)]

theorem valid_ds (z : Z) : Valid z.ds := by
  refine ⟨?_, ?_⟩
  · simp [Z.ds]
  · simp only [Z.ds]; rw [lineAt_mid]; simp

theorem valid_split {d : DS} (h : Valid d) : ∃ z : Z, d = z.ds := by
  obtain ⟨b, i, c⟩ := d
  obtain ⟨h1, h2⟩ := h
  simp only at h1 h2
  have hb : b = b.take i ++ lineAt b i :: b.drop (i + 1) := by
    have : lineAt b i = b[i] := by simp [lineAt, h1]
    rw [this]; simp
  refine ⟨⟨b.take i, (lineAt b i).take c, (lineAt b i).drop c, b.drop (i + 1)⟩, ?_⟩
  simp only [Z.ds, DS.mk.injEq, List.take_append_drop]
  refine ⟨hb, ?_, ?_⟩
  · rw [List.length_take]; omega
  · rw [List.length_take]; omega

/-! ### Movements -/

theorem snoc_cases {α} (l : List α) : l = [] ∨ ∃ l' a, l = l' ++ [a] := by
  rcases List.eq_nil_or_concat l with h | ⟨l', a, h⟩
  · exact .inl h
  · exact .inr ⟨l', a, by simpa using h⟩

theorem left_start (y post) : leftDS (Z.ds ⟨[], [], y, post⟩) = none := by simp [leftDS, Z.ds]

theorem left_line (pre p y post) :
    leftDS (Z.ds ⟨pre ++ [p], [], y, post⟩) = some (Z.ds ⟨pre, p, [], y :: post⟩) := by
  have := lineAt_mid pre p (y :: post)
  simp [leftDS, Z.ds, this]

theorem left_char (pre x c y post) :
    leftDS (Z.ds ⟨pre, x ++ [c], y, post⟩) = some (Z.ds ⟨pre, x, c :: y, post⟩) := by
  simp [leftDS, Z.ds]

theorem right_end (pre x) : rightDS (Z.ds ⟨pre, x, [], []⟩) = none := by
  have := lineAt_mid pre x []
  simp [rightDS, Z.ds, this]

theorem right_line (pre x q post) :
    rightDS (Z.ds ⟨pre, x, [], q :: post⟩) = some (Z.ds ⟨pre ++ [x], [], q, post⟩) := by
  have := lineAt_mid pre x (q :: post)
  simp [rightDS, Z.ds, this]

theorem right_char (pre x c y post) :
    rightDS (Z.ds ⟨pre, x, c :: y, post⟩) = some (Z.ds ⟨pre, x ++ [c], y, post⟩) := by
  have := lineAt_mid pre (x ++ c :: y) post
  simp [rightDS, Z.ds, this]

theorem home_z (pre x y post) (h : x ≠ []) :
    homeDS (Z.ds ⟨pre, x, y, post⟩) = some (Z.ds ⟨pre, [], x ++ y, post⟩) := by
  simp [homeDS, Z.ds, h]

theorem home_none (pre y post) : homeDS (Z.ds ⟨pre, [], y, post⟩) = none := by simp [homeDS, Z.ds]

theorem end_z (pre x y post) (h : y ≠ []) :
    endDS (Z.ds ⟨pre, x, y, post⟩) = some (Z.ds ⟨pre, x ++ y, [], post⟩) := by
  have := lineAt_mid pre (x ++ y) post
  simp [endDS, Z.ds, this, h]

theorem end_none (pre x post) : endDS (Z.ds ⟨pre, x, [], post⟩) = none := by
  have := lineAt_mid pre x post
  simp [endDS, Z.ds, this]

theorem min_take (l : Line) (c : Nat) : (l.take c).length = if l.length < c then l.length else c := by
  rw [List.length_take]; split <;> omega

theorem up_first (x y post) (h : x ≠ []) :
    upDS (Z.ds ⟨[], x, y, post⟩) = some (Z.ds ⟨[], [], x ++ y, post⟩) := by simp [upDS, Z.ds, h]

theorem up_none (y post) : upDS (Z.ds ⟨[], [], y, post⟩) = none := by simp [upDS, Z.ds]

theorem up_line (pre p x y post) :
    upDS (Z.ds ⟨pre ++ [p], x, y, post⟩)
      = some (Z.ds ⟨pre, p.take x.length, p.drop x.length, (x ++ y) :: post⟩) := by
  have := lineAt_mid pre p ((x ++ y) :: post)
  simp only [upDS, Z.ds, List.append_assoc, List.singleton_append, List.length_append,
    List.length_singleton, Nat.add_sub_cancel, this, List.take_append_drop, min_take]
  rw [if_neg (by omega)]

theorem down_last (pre x y) (h : y ≠ []) :
    downDS (Z.ds ⟨pre, x, y, []⟩) = some (Z.ds ⟨pre, x ++ y, [], []⟩) := by
  have := lineAt_mid pre (x ++ y) []
  simp [downDS, Z.ds, this, h]

theorem down_none (pre x) : downDS (Z.ds ⟨pre, x, [], []⟩) = none := by
  have := lineAt_mid pre x []
  simp [downDS, Z.ds, this]

theorem down_line (pre x y q post) :
    downDS (Z.ds ⟨pre, x, y, q :: post⟩)
      = some (Z.ds ⟨pre ++ [x ++ y], q.take x.length, q.drop x.length, post⟩) := by
  have h2 : pre ++ (x ++ y) :: q :: post = (pre ++ [x ++ y]) ++ q :: post := by simp
  have h3 : pre.length + 1 = (pre ++ [x ++ y]).length := by simp
  have h4 : lineAt (pre ++ (x ++ y) :: q :: post) (pre.length + 1) = q := by rw [h2, h3, lineAt_mid]
  have h5 : ¬ pre.length = (pre ++ (x ++ y) :: q :: post).length - 1 := by
    simp only [List.length_append, List.length_cons]; omega
  simp only [downDS, Z.ds, List.take_append_drop, min_take, h4, if_neg h5]
  rw [h2, h3]

/-! ### Edits -/

theorem print_z (c pre x y post) :
    printDS c (Z.ds ⟨pre, x, y, post⟩) = Z.ds ⟨pre, x ++ [c], y, post⟩ := by
  simp only [printDS, Z.ds, lineAt_mid, set_mid, List.take_left' rfl, List.drop_left' rfl]
  simp

/-- How many spaces enter puts before the rest of the line. -/
def indentBy (env : Env) (auto : Bool) (x y : Line) : Nat :=
  (if auto then
    let n : Int := startSpaces (x ++ y)
    let n := if endsWithRev 58 x.reverse then n + 4
      else if startsWithWord env dedentWords x then n - 4 else n
    if n < 0 then 0 else n
  else (0 : Int)).toNat

theorem enter_z (env auto pre x y post) :
    enterDS env auto (Z.ds ⟨pre, x, y, post⟩)
      = Z.ds ⟨pre ++ [x], List.replicate (indentBy env auto x y) 32, y, post⟩ := by
  simp only [enterDS, Z.ds, lineAt_mid, set_mid, List.take_left' rfl, List.drop_left' rfl, insert_mid,
    indentBy]
  simp

theorem delLeft_start (y post) : delLeftDS (Z.ds ⟨[], [], y, post⟩) = none := by simp [delLeftDS, Z.ds]

theorem delLeft_line (pre p y post) :
    delLeftDS (Z.ds ⟨pre ++ [p], [], y, post⟩) = some (Z.ds ⟨pre, p, y, post⟩) := by
  have h0 : (pre ++ [p]) ++ y :: post = pre ++ p :: y :: post := by simp
  have h1 : lineAt ((pre ++ [p]) ++ y :: post) (pre ++ [p]).length = y := lineAt_mid _ _ _
  have h2 : popAt ((pre ++ [p]) ++ y :: post) (pre ++ [p]).length = (pre ++ [p]) ++ post := pop_mid _ _ _
  have h3 : (pre ++ [p]) ++ post = pre ++ p :: post := by simp
  simp only [delLeftDS, Z.ds, List.nil_append, h1, h2]
  rw [if_pos (by rfl), if_neg (by simp), h3]
  simp only [List.length_append, List.length_singleton, Nat.add_sub_cancel, lineAt_mid, set_mid]

theorem delLeft_char (pre x c y post) :
    delLeftDS (Z.ds ⟨pre, x ++ [c], y, post⟩) = some (Z.ds ⟨pre, x, y, post⟩) := by
  simp only [delLeftDS, Z.ds, lineAt_mid, set_mid]
  rw [if_neg (by simp), List.drop_left' rfl]
  simp

theorem delRight_end (pre x) : delRightDS (Z.ds ⟨pre, x, [], []⟩) = none := by
  have := lineAt_mid pre x []
  simp [delRightDS, Z.ds, this]

theorem delRight_line (pre x q post) :
    delRightDS (Z.ds ⟨pre, x, [], q :: post⟩) = some (Z.ds ⟨pre, x, q, post⟩) := by
  have h2 : pre ++ x :: q :: post = (pre ++ [x]) ++ q :: post := by simp
  have h3 : pre.length + 1 = (pre ++ [x]).length := by simp
  have h4 : lineAt (pre ++ x :: q :: post) (pre.length + 1) = q := by rw [h2, h3, lineAt_mid]
  have h5 : popAt (pre ++ x :: q :: post) (pre.length + 1) = pre ++ x :: post := by
    rw [h2, h3, pop_mid]; simp
  have h6 : ¬ pre.length = (pre ++ x :: q :: post).length - 1 := by
    simp only [List.length_append, List.length_cons]; omega
  simp only [delRightDS, Z.ds, List.append_nil, lineAt_mid, h4, h5, set_mid, if_true, if_neg h6]

theorem delRight_char (pre x c y post) :
    delRightDS (Z.ds ⟨pre, x, c :: y, post⟩) = some (Z.ds ⟨pre, x, y, post⟩) := by
  have h : x ++ c :: y = (x ++ [c]) ++ y := by simp
  simp only [delRightDS, Z.ds, lineAt_mid, set_mid]
  rw [if_neg (by simp), List.take_left' rfl, h, List.drop_left' (by simp)]

/-! ### Tab -/

/-- The leading spaces of a line. -/
theorem startSpaces_split : ∀ l : Line, ∃ r, l = List.replicate (startSpaces l) 32 ++ r ∧ r.head? ≠ some 32
  | [] => ⟨[], by simp [startSpaces]⟩
  | c :: r => by
    by_cases h : c = 32
    · obtain ⟨t, ht, h2⟩ := startSpaces_split r
      refine ⟨t, ?_, h2⟩
      simp only [startSpaces, h]
      rw [if_neg (by simp), List.replicate_succ, List.cons_append, ← ht]
    · refine ⟨c :: r, ?_, ?_⟩
      · simp [startSpaces, h]
      · simp [h]

theorem tabSkip_split : ∀ (k : Nat) (l : Line), tabSkip l k ≤ k ∧
    ∃ r, l = List.replicate (k - tabSkip l k) 32 ++ r
  | 0, l => by simp [tabSkip]
  | k + 1, [] => by simp [tabSkip]
  | k + 1, c :: r => by
    by_cases h : c = 32
    · obtain ⟨h1, t, ht⟩ := tabSkip_split k r
      simp only [tabSkip, h]
      rw [if_neg (by simp)]
      refine ⟨by omega, t, ?_⟩
      have : k + 1 - tabSkip r k = (k - tabSkip r k) + 1 := by omega
      rw [this, List.replicate_succ, List.cons_append, ← ht]
    · simp [tabSkip, h]

theorem tabSkip_pos (k : Nat) (l : Line) (h : tabSkip l k ≠ 0) :
    (l.drop (k - tabSkip l k)).head? ≠ some 32 := by
  induction k generalizing l with
  | zero => simp [tabSkip] at h
  | succ k ih =>
    cases l with
    | nil => simp
    | cons c r =>
      by_cases hc : c = 32
      · simp only [tabSkip, hc] at h ⊢
        rw [if_neg (by simp)] at h ⊢
        have := (tabSkip_split k r).1
        have e : k + 1 - tabSkip r k = (k - tabSkip r k) + 1 := by omega
        rw [e, List.drop_succ_cons]
        exact ih r h
      · simp [tabSkip, hc]

/-- A tab which is not part of a paste: the cursor goes over the spaces there are,
then spaces are added up to the next multiple of four. -/
theorem tabSpaces_auto (pre x y post) :
    tabSpacesDS true (Z.ds ⟨pre, x, y, post⟩)
      = (Z.ds ⟨pre, x ++ List.replicate (4 - x.length % 4) 32,
          y.drop (4 - x.length % 4 - tabSkip y (4 - x.length % 4)), post⟩,
         tabSkip y (4 - x.length % 4) != 0) := by
  obtain ⟨hle, r, hr⟩ := tabSkip_split (4 - x.length % 4) y
  simp only [tabSpacesDS, Z.ds, lineAt_mid, List.drop_left' rfl, if_true]
  generalize hk : 4 - x.length % 4 = k at *
  generalize hs : tabSkip y k = s at *
  have hy : y.drop (k - s) = r := by rw [hr, List.drop_left' (by simp)]
  rw [hy]
  have e1 : x ++ y = (x ++ List.replicate (k - s) 32) ++ r := by rw [hr, List.append_assoc]
  have e2 : x.length + (k - s) = (x ++ List.replicate (k - s) 32).length := by simp
  by_cases h0 : s = 0
  · subst h0
    simp only [bne_self_eq_false, Bool.false_eq_true, if_false, Prod.mk.injEq, and_true, DS.mk.injEq]
    refine ⟨?_, trivial, ?_⟩
    · rw [e1]; simp
    · simp
  · rw [if_pos (by simpa using h0)]
    simp only [Prod.mk.injEq, DS.mk.injEq]
    refine ⟨⟨?_, trivial, ?_⟩, by simpa using h0⟩
    · rw [set_mid, e1, e2, List.take_left' rfl, List.drop_left' rfl]
      have : List.replicate k 32 = List.replicate (k - s) 32 ++ List.replicate s (32 : Nat) := by
        rw [List.replicate_append_replicate]; congr 1; omega
      rw [this]; simp
    · simp; omega

theorem tabSpaces_paste (pre x y post) :
    tabSpacesDS false (Z.ds ⟨pre, x, y, post⟩)
      = (Z.ds ⟨pre, x ++ List.replicate 4 32, y, post⟩, true) := by
  simp only [tabSpacesDS, Z.ds, lineAt_mid, set_mid, Bool.false_eq_true, if_false,
    List.take_left' rfl, List.drop_left' rfl]
  simp

/-- How many spaces a back tab removes. -/
def removeBy (n : Nat) : Nat := (4 - (-(n : Int)) % 4).toNat

theorem removeBy_le {n : Nat} (h : n ≠ 0) : 1 ≤ removeBy n ∧ removeBy n ≤ 4 ∧ removeBy n ≤ n ∧
    (n - removeBy n) % 4 = 0 := by
  simp only [removeBy]; omega

theorem backTab_none (pre x y post) (h : startSpaces (x ++ y) = 0) :
    backTabDS (Z.ds ⟨pre, x, y, post⟩) = none := by
  simp [backTabDS, Z.ds, lineAt_mid, h]

theorem backTab_z (pre x y post) (h : startSpaces (x ++ y) ≠ 0) :
    backTabDS (Z.ds ⟨pre, x, y, post⟩)
      = some (Z.ds ⟨pre, x.drop (removeBy (startSpaces (x ++ y))),
          y.drop (removeBy (startSpaces (x ++ y)) - x.length), post⟩) := by
  simp only [backTabDS, Z.ds, lineAt_mid, set_mid]
  rw [if_neg h]
  simp only [Option.some.injEq, DS.mk.injEq, true_and]
  rw [← removeBy]
  generalize removeBy (startSpaces (x ++ y)) = k
  refine ⟨?_, ?_⟩
  · rw [List.drop_append]
  · rw [List.length_drop]; split <;> omega

theorem tab_paste (env pre x y post) :
    tabDS env false (Z.ds ⟨pre, x, y, post⟩) = (Z.ds ⟨pre, x ++ List.replicate 4 32, y, post⟩, true) := by
  simp only [tabDS, Bool.false_eq_true, if_false]
  exact tabSpaces_paste _ _ _ _

/-- What a tab completes the word before the cursor with. -/
def completion (env : Env) (x y : Line) : Option (Option Line) :=
  match identAt env (x ++ y) x.length with
  | none => none
  | some w => some ((commonPrefix env.names w).map (·.drop w.length))

theorem tab_auto (env pre x y post) :
    tabDS env true (Z.ds ⟨pre, x, y, post⟩) =
      match completion env x y with
      | some none => (Z.ds ⟨pre, x, y, post⟩, false)
      | some (some a) => (Z.ds ⟨pre, x ++ a, y, post⟩, true)
      | none => tabSpacesDS true (Z.ds ⟨pre, x, y, post⟩) := by
  simp only [tabDS, completion, if_true]
  have hl : lineAt (Z.ds ⟨pre, x, y, post⟩).buf (Z.ds ⟨pre, x, y, post⟩).li = x ++ y := lineAt_mid _ _ _
  rw [hl]
  change (match identAt env (x ++ y) x.length with | some w => _ | none => _) = _
  cases hi : identAt env (x ++ y) x.length with
  | none => rfl
  | some w =>
    simp only
    cases hc : commonPrefix env.names w with
    | none => rfl
    | some p =>
      simp only [Z.ds, set_mid, List.take_left' rfl, List.drop_left' rfl, Option.map_some]
      simp

end Verif.Editor
