import Verif.Callbacks.Model

/-!
# Formatting of callbacks, file names and results: properties
-/

namespace Verif.Callbacks

/-! ## C399: what a callback calls -/

/-- Calling of a callable in the end calls a function with parameters: a partial one puts its own before, and given keyword
parameters win; an incendiary takes none and gives its own. -/
inductive Calls : Fn → List Nat → Dict → Nat → List Nat → Dict → Prop
  | plain (id : Nat) (a : List Nat) (k : Dict) : Calls (.plain id) a k id a k
  | partial_ (f : Fn) (a a' : List Nat) (k k' : Dict) (id : Nat) (ra : List Nat) (rk both : Dict) :
      (∀ x v, k' x = some v → both x = some v) → (∀ x, k' x = none → both x = k x) →
      Calls f (a ++ a') both id ra rk → Calls (.partial_ f a k) a' k' id ra rk
  | incendiary (f : Fn) (a : List Nat) (k : Option Dict) (none_ : Dict) (id : Nat) (ra : List Nat) (rk : Dict) :
      (∀ x, none_ x = none) → Calls f a (k.getD none_) id ra rk → Calls (.incendiary f a k) [] none_ id ra rk

theorem unwrap_calls (f : Fn) (a : List Nat) (k : Dict) (id : Nat) (ra : List Nat) (rk : Dict) (h : Calls f a k id ra rk) :
    ∀ oa ok, oa.getD [] = a → ok.getD (fun _ => none) = k →
      (unwrap f oa ok).1 = id ∧ (unwrap f oa ok).2.1.getD [] = ra ∧ (unwrap f oa ok).2.2.getD (fun _ => none) = rk := by
  induction h with
  | plain id a k => intro oa ok h1 h2; exact ⟨rfl, h1, h2⟩
  | partial_ f a a' k k' id ra rk both hb hb' _ ih =>
    intro oa ok h1 h2
    rw [unwrap]
    apply ih
    · cases oa with
      | none => simp at h1; subst h1; simp [mergeTuples]
      | some b => simp at h1; subst h1; simp [mergeTuples]
    · funext x
      cases ok with
      | none =>
        simp only [Option.getD_none] at h2
        simp only [mergeDicts, Option.getD_some]
        exact (hb' x (by rw [← h2])).symm
      | some d =>
        simp only [Option.getD_some] at h2
        subst h2
        simp only [mergeDicts, Option.getD_some, Dict.merge]
        rcases Option.eq_none_or_eq_some (d x) with hx | ⟨v, hx⟩
        · rw [hx]; exact (hb' x hx).symm
        · rw [hx]; exact (hb x v hx).symm
  | incendiary f a k none_ id ra rk hn _ ih =>
    intro oa ok _ _
    rw [unwrap]
    apply ih
    · rfl
    · have : none_ = fun _ => none := funext hn
      rw [this]

/-- C399: A formatted callback shows the function which is called in the end and the parameters it is called with. -/
theorem C399_shown (f : Fn) (a : List Nat) (k : Dict) (id : Nat) (ra : List Nat) (rk : Dict) (h : Calls f a k id ra rk) :
    (unwrap f (some a) (some k)).1 = id ∧ (unwrap f (some a) (some k)).2.1.getD [] = ra ∧
      (unwrap f (some a) (some k)).2.2.getD (fun _ => none) = rk :=
  unwrap_calls f a k id ra rk h (some a) (some k) rfl rfl

/-- C399: The same without parameters given. -/
theorem C399_none (f : Fn) (id : Nat) (ra : List Nat) (rk : Dict) (h : Calls f [] (fun _ => none) id ra rk) :
    (unwrap f none none).1 = id ∧ (unwrap f none none).2.1.getD [] = ra ∧
      (unwrap f none none).2.2.getD (fun _ => none) = rk :=
  unwrap_calls f [] _ id ra rk h none none rfl rfl

example : (unwrap (.partial_ (.partial_ (.plain 5) [1] (fun _ => some 3)) [2] (fun _ => some 4)) none none).2.1 = some [1, 2] ∧
    ((unwrap (.partial_ (.partial_ (.plain 5) [1] (fun _ => some 3)) [2] (fun _ => some 4)) none none).2.2.getD
      (fun _ => none)) 0 = some 4 := ⟨rfl, rfl⟩

/-! ## C400: the text of a callback -/

/-- Texts with commas between. -/
def commas : List String → String
  | [] => ""
  | [s] => s
  | s :: t :: l => s ++ (", " ++ commas (t :: l))

theorem join_from (l : List String) (a : String) : l.foldl (· ++ ·) a = a ++ l.foldl (· ++ ·) "" := by
  induction l generalizing a with
  | nil => simp
  | cons x l ih => rw [List.foldl_cons, List.foldl_cons, ih, ih ("" ++ x), String.empty_append, String.append_assoc]

theorem join_cons (x : String) (l : List String) : String.join (x :: l) = x ++ String.join l := by
  simp only [String.join, List.foldl_cons]
  rw [join_from, String.empty_append]

theorem join_append (a b : List String) : String.join (a ++ b) = String.join a ++ String.join b := by
  induction a with
  | nil => simp [String.join]
  | cons x a ih => rw [List.cons_append, join_cons, join_cons, ih, String.append_assoc]

theorem positional_eq (show_ : Nat → String) : ∀ l, String.join (parameters.positional show_ l) = commas (l.map show_)
  | [] => rfl
  | [v] => by simp [parameters.positional, commas, String.join]
  | v :: w :: l => by
    rw [parameters.positional, join_cons]
    simp only [List.isEmpty_cons, Bool.false_eq_true, if_false]
    rw [join_cons, positional_eq show_ (w :: l)]
    rfl

theorem keyword_eq (show_ key : Nat → String) : ∀ l : List (Nat × Nat),
    String.join (parameters.keyword show_ key l) = commas (l.map fun e => key e.1 ++ " = " ++ show_ e.2)
  | [] => rfl
  | [(k, v)] => by simp [parameters.keyword, commas, String.join]
  | (k, v) :: e :: l => by
    rw [parameters.keyword, join_cons, join_cons, join_cons]
    simp only [List.isEmpty_cons, Bool.false_eq_true, if_false]
    rw [join_cons, keyword_eq show_ key (e :: l)]
    show _ = (key k ++ " = " ++ show_ v) ++ (", " ++ commas ((e :: l).map fun e => key e.1 ++ " = " ++ show_ e.2))
    simp only [String.append_assoc]

theorem commas_append : ∀ (a b : List String), a ≠ [] → b ≠ [] → commas (a ++ b) = commas a ++ (", " ++ commas b)
  | [x], b, _, hb => by
    cases b with
    | nil => exact absurd rfl hb
    | cons y b => rfl
  | x :: y :: a, b, _, hb => by
    have := commas_append (y :: a) b (by simp) hb
    rw [List.cons_append, List.cons_append, commas, ← List.cons_append, this, commas]
    simp only [String.append_assoc]

/-- C400: The text is the name and, between parentheses with commas between, the positional parameters in their order and
then the keyword parameters sorted by their names. -/
theorem C400_text (name : String) (show_ key : Nat → String) (args : List Nat) (items : List (Nat × Nat)) :
    ∃ sorted : List (Nat × Nat), sorted.Perm items ∧ sorted.Pairwise (fun a b => a.1 ≤ b.1) ∧
      text name show_ key args items =
        name ++ ("(" ++ (commas (args.map show_ ++ sorted.map fun e => key e.1 ++ " = " ++ show_ e.2) ++ ")")) := by
  refine ⟨items.mergeSort fun a b => decide (a.1 ≤ b.1), List.mergeSort_perm _ _, ?_, ?_⟩
  · have := List.pairwise_mergeSort (le := fun a b : Nat × Nat => decide (a.1 ≤ b.1))
      (fun a b c h1 h2 => by simp at *; omega) (fun a b => by simp; omega) items
    exact this.imp (by simp)
  · have hp : (items.mergeSort fun a b => decide (a.1 ≤ b.1)).Perm items := List.mergeSort_perm _ _
    rw [text, parameters]
    generalize items.mergeSort (fun a b => decide (a.1 ≤ b.1)) = sorted at hp
    show String.join (name :: "(" :: ((parameters.positional show_ args ++ _) ++ [")"])) = _
    rw [join_cons, join_cons, join_append, join_append, positional_eq]
    congr 2
    congr 1
    cases items with
    | nil =>
      have := hp.eq_nil
      subst this
      simp [String.join]
    | cons e items =>
      have hs : sorted ≠ [] := by
        intro h
        subst h
        have := hp.length_eq
        simp at this
      simp only [List.isEmpty_cons, Bool.false_eq_true, if_false]
      rw [join_append, keyword_eq]
      cases args with
      | nil => simp [String.join, commas]
      | cons v args =>
        simp only [List.isEmpty_cons, Bool.false_eq_true, if_false]
        rw [commas_append _ _ (by simp) (by simpa using hs)]
        simp [String.join]

/-! ## C401: file names -/

/-- A path under which a file is. -/
def Under (sep : Char) (p file : List Char) : Prop := ∃ rest, file = p ++ sep :: rest

theorem under_iff (sep : Char) (p file : List Char) :
    (p.isPrefixOf file = true ∧ ¬ file.length ≤ p.length ∧ file[p.length]? = some sep) ↔ Under sep p file := by
  constructor
  · rintro ⟨h1, _, h3⟩
    obtain ⟨r, rfl⟩ := List.isPrefixOf_iff_prefix.1 h1
    cases r with
    | nil => simp at h3
    | cons c r =>
      rw [List.getElem?_append_right (Nat.le_refl _)] at h3
      simp at h3
      exact ⟨r, by rw [h3]⟩
  · rintro ⟨r, rfl⟩
    exact ⟨List.isPrefixOf_iff_prefix.2 ⟨_, rfl⟩, by simp, by simp⟩

theorem go_eq (sep : Char) (file : List Char) : ∀ paths,
    (∃ before p after rest, paths = before ++ p :: after ∧ (∀ q ∈ before, ¬ Under sep q file) ∧ file = p ++ sep :: rest ∧
      cut.go sep file paths = ['.', '.', '.'] ++ sep :: rest) ∨
    ((∀ q ∈ paths, ¬ Under sep q file) ∧ cut.go sep file paths = file)
  | [] => .inr ⟨by simp, rfl⟩
  | p :: ps => by
    have hu := under_iff sep p file
    by_cases h : Under sep p file
    · left
      obtain ⟨h1, h2, h3⟩ := hu.2 h
      obtain ⟨rest, hr⟩ := h
      refine ⟨[], p, ps, rest, rfl, by simp, hr, ?_⟩
      rw [cut.go, if_neg (by simp [h1]), if_neg h2, if_neg (by simp [h3])]
      congr 1
      rw [hr]
      simp
    · have hg : cut.go sep file (p :: ps) = cut.go sep file ps := by
        rw [cut.go]
        split
        · rfl
        · rename_i h1
          split
          · rfl
          · rename_i h2
            split
            · rfl
            · rename_i h3
              exact absurd (hu.1 ⟨by simpa using h1, h2, by simpa using h3⟩) h
      rw [hg]
      rcases go_eq sep file ps with ⟨b, q, a, r, h1, h2, h3, h4⟩ | ⟨h1, h2⟩
      · refine .inl ⟨p :: b, q, a, r, by rw [h1]; rfl, ?_, h3, h4⟩
        intro x hx
        rcases List.mem_cons.1 hx with rfl | hx
        · exact h
        · exact h2 x hx
      · refine .inr ⟨?_, h2⟩
        intro x hx
        rcases List.mem_cons.1 hx with rfl | hx
        · exact h
        · exact h1 x hx

/-- C401: A file name is shown without the first path under which it is, with dots instead, so that the separator stays;
as it is if it is under none. -/
theorem C401_cut (sep : Char) (paths : List (List Char)) (file : List Char) (hf : file ≠ []) :
    (∃ before p after rest, paths = before ++ p :: after ∧ (∀ q ∈ before, ¬ Under sep q file) ∧ file = p ++ sep :: rest ∧
      cut sep paths file = some (['.', '.', '.'] ++ sep :: rest)) ∨
    ((∀ q ∈ paths, ¬ Under sep q file) ∧ cut sep paths file = some file) := by
  rw [cut, if_neg hf]
  rcases go_eq sep file paths with ⟨b, p, a, r, h1, h2, h3, h4⟩ | ⟨h1, h2⟩
  · exact .inl ⟨b, p, a, r, h1, h2, h3, by rw [h4]⟩
  · exact .inr ⟨h1, by rw [h2]⟩

/-- C401: Nothing is shown of an empty one, and of no other. -/
theorem C401_nothing (sep : Char) (paths : List (List Char)) (file : List Char) : cut sep paths file = none ↔ file = [] := by
  rw [cut]
  split
  · rename_i h; simp [h]
  · rename_i h; simp [h]

example : cut '/' ["/a".toList, "/a/b".toList] "/a/b/c".toList = some ".../b/c".toList ∧
    cut '/' ["/a".toList] "/ab/c".toList = some "/ab/c".toList := by decide

/-! ## C402: results of futures -/

/-- C402: The result of a future is shown exactly if it returned; else of a cancelled one the exception unless it is a plain
CancelledError; else the exception if it raised. -/
theorem C402_field (s : Bits) (r : Result) :
    (field s r = some .result ↔ s.returned = true) ∧
    (field s r = some .cancellation ↔
      s.returned = false ∧ s.cancelled = true ∧ r.isNone = false ∧ (r.isCancelled = false ∨ r.hasArgs = true)) ∧
    (field s r = some .exception ↔ s.returned = false ∧ s.cancelled = false ∧ s.raised = true) := by
  obtain ⟨a, b, c⟩ := s
  obtain ⟨d, e, f⟩ := r
  cases a <;> cases b <;> cases c <;> cases d <;> cases e <;> cases f <;> decide

/-- C402: A representation shown is one line of at most 80 characters, if the name of the type is so short. -/
theorem C402_short (repr name : List Char) (hl : name.length ≤ 74) (hn : '\n' ∉ name) :
    (short repr name).length ≤ 80 ∧ '\n' ∉ short repr name ∧ (repr.length ≤ 80 → '\n' ∉ repr → short repr name = repr) := by
  rw [short]
  split
  · rename_i h
    refine ⟨?_, ?_, ?_⟩
    · simp; omega
    · simp [hn]
    · intro h1 h2
      rcases h with h | h
      · omega
      · exact absurd h h2
  · rename_i h
    simp only [not_or] at h
    exact ⟨by omega, h.2, fun _ _ => rfl⟩

example : field ⟨false, true, true⟩ ⟨false, true, false⟩ = none := by decide

end Verif.Callbacks
