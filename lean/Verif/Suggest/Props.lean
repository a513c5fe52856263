import Verif.Suggest.Model

/-!
# Suggestions for attribute errors: properties
-/

namespace Verif.Suggest

/-! ## C403: variables -/

/-- The value a name has: the first one. -/
inductive First : List (Nat × Nat) → Nat → Nat → Prop
  | here (n v : Nat) (l : List (Nat × Nat)) : First ((n, v) :: l) n v
  | there (m w n v : Nat) (l : List (Nat × Nat)) : m ≠ n → First l n v → First ((m, w) :: l) n v

theorem unique_iff (n v : Nat) : ∀ l collected, (n, v) ∈ uniqueLoop collected l ↔ n ∉ collected ∧ First l n v
  | [], c => by
    simp only [uniqueLoop, List.not_mem_nil, false_iff, not_and]
    intro _ h
    cases h
  | (m, w) :: l, c => by
    rw [uniqueLoop]
    by_cases hm : m ∈ c
    · rw [if_pos hm, if_neg (by simp), unique_iff n v l c]
      constructor
      · rintro ⟨h1, h2⟩
        exact ⟨h1, .there m w n v l (fun he => h1 (he ▸ hm)) h2⟩
      · rintro ⟨h1, h2⟩
        cases h2 with
        | here => exact absurd hm h1
        | there _ _ _ _ _ _ h2 => exact ⟨h1, h2⟩
    · rw [if_neg hm, if_pos (by simp), List.mem_cons, unique_iff n v l (m :: c)]
      constructor
      · rintro (h | ⟨h1, h2⟩)
        · cases h
          exact ⟨hm, .here _ _ _⟩
        · simp only [List.mem_cons, not_or] at h1
          exact ⟨h1.2, .there m w n v l (Ne.symm h1.1) h2⟩
      · rintro ⟨h1, h2⟩
        cases h2 with
        | here => exact .inl rfl
        | there _ _ _ _ _ hne h2 =>
          refine .inr ⟨?_, h2⟩
          simp only [List.mem_cons, not_or]
          exact ⟨Ne.symm hne, h1⟩

theorem unique_nodup : ∀ l collected, ((uniqueLoop collected l).map (·.1)).Nodup
  | [], c => by simp [uniqueLoop]
  | (m, w) :: l, c => by
    rw [uniqueLoop]
    by_cases hm : m ∈ c
    · rw [if_pos hm, if_neg (by simp)]; exact unique_nodup l c
    · rw [if_neg hm, if_pos (by simp), List.map_cons, List.nodup_cons]
      refine ⟨?_, unique_nodup l _⟩
      intro h
      obtain ⟨⟨n, v⟩, h1, h2⟩ := List.mem_map.1 h
      dsimp only at h2
      subst h2
      exact ((unique_iff n v l _).1 h1).1 (List.mem_cons_self ..)

theorem first_append (a b : List (Nat × Nat)) (n v : Nat) :
    First (a ++ b) n v ↔ First a n v ∨ (n ∉ a.map (·.1) ∧ First b n v) := by
  induction a with
  | nil =>
    simp only [List.nil_append, List.map_nil, List.not_mem_nil, not_false_eq_true, true_and]
    constructor
    · exact .inr
    · rintro (h | h)
      · cases h
      · exact h
  | cons e a ih =>
    obtain ⟨m, w⟩ := e
    simp only [List.cons_append, List.map_cons, List.mem_cons, not_or]
    constructor
    · intro h
      cases h with
      | here => exact .inl (.here _ _ _)
      | there _ _ _ _ _ hne h =>
        rcases ih.1 h with h | ⟨h1, h2⟩
        · exact .inl (.there _ _ _ _ _ hne h)
        · exact .inr ⟨⟨Ne.symm hne, h1⟩, h2⟩
    · rintro (h | ⟨⟨h1, h2⟩, h3⟩)
      · cases h with
        | here => exact .here _ _ _
        | there _ _ _ _ _ hne h => exact .there _ _ _ _ _ hne (ih.2 (.inl h))
      · exact .there _ _ _ _ _ (Ne.symm h1) (ih.2 (.inr ⟨h2, h3⟩))

/-- C403: Every variable is given once, with the value it has for the frame: the local one, else the global one, else the
built-in one. -/
theorem C403_values (ls gs bs : List (Nat × Nat)) (n v : Nat) :
    (n, v) ∈ unique (some ⟨some ls, some gs, some bs⟩) ↔
      First ls n v ∨ (n ∉ ls.map (·.1) ∧ (First gs n v ∨ (n ∉ gs.map (·.1) ∧ First bs n v))) := by
  rw [unique, unique_iff]
  simp only [variables, Option.getD_some, List.append_assoc, List.not_mem_nil, not_false_eq_true, true_and]
  rw [first_append, first_append]

/-- C403: No name is given twice. -/
theorem C403_once (f : Option Frame) : ((unique f).map (·.1)).Nodup := unique_nodup _ _

example : unique (some ⟨some [(1, 5)], none, some [(2, 6), (1, 7)]⟩) = [(1, 5), (2, 6)] := by decide

/-! ## C404: variables with the attribute -/

theorem having_some (has : Nat → Has) : ∀ l, (∀ e ∈ l, has e.2 ≠ .raises) →
    having has l = some ((l.filter fun e => has e.2 = .yes).map (·.1))
  | [], _ => rfl
  | (n, v) :: l, h => by
    have ih := having_some has l fun e he => h e (List.mem_cons_of_mem _ he)
    have hv := h (n, v) (List.mem_cons_self ..)
    rw [having, ih, List.filter_cons]
    cases hh : has v with
    | raises => exact absurd hh hv
    | no => simp
    | yes => simp

/-- C404: At most so many names are suggested, sorted, each once and each of a variable which has the attribute; they are the
first such ones, and none at all only if there is no such variable. -/
theorem C404_names (max : Nat) (has : Nat → Has) (f : Option Frame) (hr : ∀ e ∈ unique f, has e.2 ≠ .raises) :
    (withAttribute max has f = some none ∧ ∀ e ∈ unique f, has e.2 ≠ .yes) ∨
    (∃ ns, withAttribute max has f = some (some ns) ∧ ns.length ≤ max ∧ ns.Pairwise (· ≤ ·) ∧ ns.Nodup ∧
      ns.Perm (((unique f).filter fun e => has e.2 = .yes).map (·.1) |>.take max) ∧
      (∀ n ∈ ns, ∃ v, (n, v) ∈ unique f ∧ has v = .yes) ∧ ∃ e ∈ unique f, has e.2 = .yes) := by
  have hs := having_some has _ hr
  rw [withAttribute, hs]
  have hnd : (((unique f).filter fun e => has e.2 = .yes).map (·.1)).Nodup :=
    (C403_once f).sublist (List.filter_sublist.map _)
  have hmem : ∀ n ∈ ((unique f).filter fun e => has e.2 = .yes).map (·.1), ∃ v, (n, v) ∈ unique f ∧ has v = .yes := by
    intro n hn
    obtain ⟨⟨m, v⟩, h1, h2⟩ := List.mem_map.1 hn
    obtain ⟨h3, h4⟩ := List.mem_filter.1 h1
    dsimp only at h2
    subst h2
    exact ⟨v, h3, by simpa using h4⟩
  cases hl : ((unique f).filter fun e => has e.2 = .yes).map (·.1) with
  | nil =>
    left
    refine ⟨rfl, fun e he hy => ?_⟩
    have : e.1 ∈ ((unique f).filter fun e => has e.2 = .yes).map (·.1) :=
      List.mem_map.2 ⟨e, List.mem_filter.2 ⟨he, by simpa using hy⟩, rfl⟩
    rw [hl] at this
    cases this
  | cons n ns =>
    rw [hl] at hnd hmem
    have hp : (((n :: ns).take max).mergeSort fun a b => decide (a ≤ b)).Perm ((n :: ns).take max) := List.mergeSort_perm _ _
    right
    refine ⟨_, rfl, ?_, ?_, ?_, hp, ?_, ?_⟩
    · rw [hp.length_eq, List.length_take]; omega
    · have := List.pairwise_mergeSort (le := fun a b : Nat => decide (a ≤ b))
        (fun a b c h1 h2 => by simp at *; omega) (fun a b => by simp; omega) ((n :: ns).take max)
      exact this.imp (by simp)
    · exact hp.nodup_iff.2 (hnd.sublist (List.take_sublist _ _))
    · intro m hm
      exact hmem m ((List.take_sublist _ _).subset (hp.subset hm))
    · obtain ⟨v, h1, h2⟩ := hmem n (List.mem_cons_self ..)
      exact ⟨(n, v), h1, h2⟩

example : withAttribute 2 (fun v => if v = 0 then .no else .yes) (some ⟨some [(9, 1), (3, 0), (7, 1), (1, 1)], none, none⟩) =
    some (some [7, 9]) := by
  simp [withAttribute, having, unique, uniqueLoop, variables, List.mergeSort, List.MergeSort.Internal.splitInTwo]

/-! ## C405: attributes -/

/-- C405: The missing name is never among those from which familiar ones are taken, all others of the instance are, and it is
told whether the instance lists it; a `__dir__` which raises does no harm. -/
theorem C405_attributes (own : List Nat) (dir : Dir) (name : Nat) (there : Bool) (names : List Nat)
    (h : familiar own dir name = some (there, names)) :
    name ∉ names ∧ (∀ n, n ≠ name → (n ∈ names ↔ n ∈ own ∨ ∃ l, dir = .names l ∧ n ∈ l)) ∧
      (there = true ↔ name ∈ own ∨ ∃ l, dir = .names l ∧ name ∈ l) := by
  rw [familiar] at h
  cases dir with
  | broken => cases h
  | default =>
    simp only [attributes, Option.some.injEq, Prod.mk.injEq] at h
    obtain ⟨rfl, rfl⟩ := h
    refine ⟨by simp, fun n hn => by simp [hn], by simp⟩
  | raises =>
    simp only [attributes, Option.some.injEq, Prod.mk.injEq] at h
    obtain ⟨rfl, rfl⟩ := h
    refine ⟨by simp, fun n hn => by simp [hn], by simp⟩
  | names l =>
    simp only [attributes, Option.some.injEq, Prod.mk.injEq] at h
    obtain ⟨rfl, rfl⟩ := h
    refine ⟨by simp, fun n hn => by simp [hn], by simp⟩

/-! ## C406: representing raises nothing -/

/-- C406: Representing of an attribute error does not raise if no attribute of a variable raises anything but an
AttributeError and the `__dir__` of the instance raises or gives names. Missing: all others. -/
theorem C406_tame_partial (max : Nat) (own : List Nat) (dir : Dir) (name : Nat) (has : Nat → Has) (f : Option Frame)
    (hd : dir ≠ .broken) (hh : ∀ e ∈ unique f, has e.2 ≠ .raises) : represent max own dir name has f ≠ none := by
  rw [represent]
  have h1 : familiar own dir name ≠ none := by
    rw [familiar]
    cases dir with
    | broken => exact absurd rfl hd
    | default => simp [attributes]
    | raises => simp [attributes]
    | names l => simp [attributes]
  have h2 : withAttribute max has f ≠ none := by
    rcases C404_names max has f hh with ⟨h, _⟩ | ⟨ns, h, _⟩
    · rw [h]; simp
    · rw [h]; simp
  rcases Option.eq_none_or_eq_some (familiar own dir name) with h | ⟨a, h⟩
  · exact absurd h h1
  · rw [h]
    rcases Option.eq_none_or_eq_some (withAttribute max has f) with h' | ⟨w, h'⟩
    · exact absurd h' h2
    · rw [h']; simp

theorem having_none (has : Nat → Has) : ∀ l, (∃ e ∈ l, has e.2 = .raises) → having has l = none
  | [], ⟨e, he, _⟩ => by cases he
  | (n, v) :: l, ⟨e, he, hr⟩ => by
    rw [having]
    rcases List.mem_cons.1 he with h | h
    · subst h
      rw [hr]
    · have := having_none has l ⟨e, h, hr⟩
      rw [this]
      cases has v <;> rfl

/-- C406: One variable of the frame, even a global or a built-in one, whose attribute of this name raises something else than
an AttributeError makes the representing raise that. -/
theorem C406_attribute_violated (max : Nat) (own : List Nat) (dir : Dir) (name : Nat) (has : Nat → Has) (f : Option Frame)
    (h : ∃ e ∈ unique f, has e.2 = .raises) : represent max own dir name has f = none := by
  rw [represent]
  rcases Option.eq_none_or_eq_some (familiar own dir name) with h' | ⟨a, h'⟩
  · rw [h']
  · rw [h']
    simp only [withAttribute, having_none has _ h]

/-- C406: So does a `__dir__` which gives something that cannot be put into a set, although one which raises does not. -/
theorem C406_dir_violated (max : Nat) (own : List Nat) (name : Nat) (has : Nat → Has) (f : Option Frame) :
    represent max own .broken name has f = none := rfl

example : represent 25 [1, 2] .raises 2 (fun _ => .no) none = some ((true, [1]), false, none) := by decide

end Verif.Suggest
