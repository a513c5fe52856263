import Verif.Resource.Model
import Mathlib.Data.List.Perm.Subperm

/-
Properties of resource streams and of the frame of an attribute error: C428, C429 and C430.
-/

namespace Verif.Resource

/-! ### C428 -/

/-- C428: streams are equal exactly if their functions and positional parameters are the same and
their keyword parameters are, in any order. -/
theorem C428_equal (a b : Stream) (ha : (a.keywords.map Prod.fst).Nodup) (hb : (b.keywords.map Prod.fst).Nodup) :
    a.eq b = true ↔ a.function = b.function ∧ a.positional = b.positional ∧ a.keywords.Perm b.keywords := by
  have look : ∀ (l : List (Nat × Nat)), (l.map Prod.fst).Nodup → ∀ k v, l.lookup k = some v ↔ (k, v) ∈ l := by
    intro l
    induction l with
    | nil => intro _ k v; simp
    | cons x l ih =>
      intro hn k v
      obtain ⟨x1, x2⟩ := x
      rw [List.map_cons, List.nodup_cons] at hn
      rw [List.lookup_cons]
      by_cases e : k = x1
      · subst e
        simp only [beq_self_eq_true, List.mem_cons, Prod.mk.injEq, true_and]
        constructor
        · intro h; left; injection h with h; exact h.symm
        · rintro (rfl | h)
          · rfl
          · exact absurd (List.mem_map.2 ⟨_, h, rfl⟩) hn.1
      · have : (k == x1) = false := by simpa using e
        simp only [this, List.mem_cons, Prod.mk.injEq, e, false_and, false_or]
        exact ih hn.2 k v
  have nd : ∀ (l : List (Nat × Nat)), (l.map Prod.fst).Nodup → l.Nodup := by
    intro l
    induction l with
    | nil => intro _; exact List.nodup_nil
    | cons x l ih =>
      intro hn
      rw [List.map_cons, List.nodup_cons] at hn
      rw [List.nodup_cons]
      exact ⟨fun h => hn.1 (List.mem_map.2 ⟨_, h, rfl⟩), ih hn.2⟩
  have key : dictEq a.keywords b.keywords = true ↔ a.keywords.Perm b.keywords := by
    unfold dictEq
    constructor
    · intro h
      split at h
      · exact absurd h (by decide)
      · rename_i hl
        have hl : a.keywords.length = b.keywords.length := Classical.not_not.1 hl
        rw [List.all_eq_true] at h
        have hs : a.keywords ⊆ b.keywords := fun x hx => by
          have := h x hx
          rw [beq_iff_eq, look b.keywords hb] at this; exact this
        exact (List.subperm_of_subset (nd _ ha) hs).perm_of_length_le (by omega)
    · intro h
      rw [if_neg (by simpa using h.length_eq), List.all_eq_true]
      intro x hx
      rw [beq_iff_eq, look b.keywords hb]
      exact h.mem_iff.1 hx
  unfold Stream.eq
  by_cases h1 : a.function = b.function
  · by_cases h2 : a.positional = b.positional
    · rw [← key]; cases dictEq a.keywords b.keywords <;> simp [h1, h2]
    · simp [h1, h2]
  · simp [h1]

example : Stream.eq ⟨1, [5, 6], [(7, 8), (9, 10)]⟩ ⟨1, [5, 6], [(9, 10), (7, 8)]⟩ = true := by decide
example : Stream.eq ⟨1, [5, 6], [(7, 8)]⟩ ⟨1, [5, 6], [(7, 9)]⟩ = false := by decide

/-! ### C429 -/

/-- Texts with commas between them. -/
inductive Joined : List (List Char) → List Char → Prop where
  | nil : Joined [] []
  | one (t) : Joined [t] t
  | more (l r t) : l ≠ [] → Joined l r → Joined (l ++ [t]) (r ++ ',' :: ' ' :: t)

theorem joined_nil {l : List (List Char)} {r : List Char} (h : Joined l r) : l = [] → r = [] := by
  intro e
  induction h with
  | nil => rfl
  | one t => simp at e
  | more l r t _ _ _ => simp at e

theorem foldl_joined {α : Type} (show' : α → List Char) (xs : List α) : ∀ (l : List (List Char)) (r : List Char),
    Joined l r → ∀ b, (b = true ↔ l ≠ []) →
    ∃ b', xs.foldl (fun (acc : List Char × Bool) x =>
      let text := if acc.2 then acc.1 ++ [',', ' '] else acc.1
      (text ++ show' x, true)) (r, b) =
      ((xs.foldl (fun (acc : List Char × Bool) x =>
      let text := if acc.2 then acc.1 ++ [',', ' '] else acc.1
      (text ++ show' x, true)) (r, b)).1, b') ∧ (b' = true ↔ l ++ xs.map show' ≠ []) ∧
      Joined (l ++ xs.map show') (xs.foldl (fun (acc : List Char × Bool) x =>
      let text := if acc.2 then acc.1 ++ [',', ' '] else acc.1
      (text ++ show' x, true)) (r, b)).1 := by
  induction xs with
  | nil => intro l r h b hb; exact ⟨b, rfl, by simpa using hb, by simpa using h⟩
  | cons x xs ih =>
    intro l r h b hb
    have hj : Joined (l ++ [show' x]) ((if b then r ++ [',', ' '] else r) ++ show' x) := by
      cases b with
      | true =>
        have := Joined.more l r (show' x) (hb.1 rfl) h
        simpa using this
      | false =>
        have hl : l = [] := Classical.byContradiction fun hc => absurd (hb.2 hc) (by decide)
        subst hl
        have hr : r = [] := joined_nil h rfl
        subst hr
        exact .one _
    obtain ⟨b', h1, h2, h3⟩ := ih _ _ hj true (by simp)
    rw [List.append_assoc] at h2 h3
    exact ⟨b', h1, h2, h3⟩

/-- C429: the parameters are shown in order, the positional ones first, with commas between them. -/
theorem C429_shown (value name : Nat → List Char) (s : Stream) :
    Joined (s.positional.map value ++ s.keywords.map fun x => name x.1 ++ ' ' :: '=' :: ' ' :: value x.2)
      (params value name s) := by
  obtain ⟨b, h1, h2, h3⟩ := foldl_joined value s.positional [] [] .nil false (by simp)
  rw [List.nil_append] at h2 h3
  obtain ⟨b2, g1, -, g3⟩ := foldl_joined (fun x : Nat × Nat => name x.1 ++ ' ' :: '=' :: ' ' :: value x.2) s.keywords _ _ h3 b h2
  unfold params
  rw [h1]
  dsimp only
  simp only [List.append_assoc, List.cons_append, List.nil_append] at g3 ⊢
  exact g3

/-- The calls which iterating makes, by the history: the parameters of the stream made as the
`i`-th, for every time it is iterated. -/
inductive Called : List Op → List Stream → List Stream → Prop where
  | nil : Called [] [] []
  | make (l f p k m c) : Called l m c → Called (l ++ [.make f p k]) (m ++ [⟨f, p, k⟩]) c
  | again (l i x m c) : Called l m c → m[i]? = some x → Called (l ++ [.iterate i]) m (c ++ [x])
  | unknown (l i m c) : Called l m c → m[i]? = none → Called (l ++ [.iterate i]) m c

theorem run_concat (s : St) (l : List Op) (o : Op) : run s (l ++ [o]) = step (run s l) o := by simp [run]

/-- C429: every iteration of a stream calls its function anew with its parameters. -/
theorem C429_calls (l : List Op) (m c : List Stream) (h : Called l m c) : run ⟨[], []⟩ l = ⟨m, c⟩ := by
  induction h with
  | nil => rfl
  | make l f p k m c _ ih => rw [run_concat, ih]; rfl
  | again l i x m c _ hx ih => rw [run_concat, ih]; simp [step, hx]
  | unknown l i m c _ hx ih => rw [run_concat, ih]; simp [step, hx]

example : params (fun n => (toString n).toList) (fun _ => ['k']) ⟨1, [5, 6], [(7, 8)]⟩ = ['5', ',', ' ', '6', ',', ' ', 'k', ' ', '=', ' ', '8'] := by decide
example : (run ⟨[], []⟩ [.make 1 [2] [], .make 3 [] [(4, 5)], .iterate 1, .iterate 0, .iterate 1]).calls =
    [⟨3, [], [(4, 5)]⟩, ⟨1, [2], []⟩, ⟨3, [], [(4, 5)]⟩] := by decide

/-! ### C430 -/

/-- The frame of which the attribute was looked up: the last one, but the one before if that is
`__getattr__` of a rich error. -/
inductive Context (getattr : Nat) (rich : Bool) : List Nat → Taken → Prop where
  | none : Context getattr rich [] .nothing
  | single (n) : Context getattr rich [n] (.frame 0)
  | before (l m n) : rich = true → n = getattr → Context getattr rich (l ++ [m, n]) (.frame l.length)
  | last (l m n) : rich = false ∨ n ≠ getattr → Context getattr rich (l ++ [m, n]) (.frame (l.length + 1))

/-- C430: the frame taken is that one. -/
theorem C430_context (getattr : Nat) (rich : Bool) (frames : List Nat) (r : Taken)
    (h : Context getattr rich frames r) : contextFrame getattr rich frames = r := by
  cases h with
  | none => rfl
  | single n => simp [contextFrame, fromEnd]
  | before l m n hr hn => subst hr; subst hn; simp [contextFrame, fromEnd]
  | last l m n hr =>
    have : (rich && (n == getattr)) = false := by
      rcases hr with rfl | hr
      · rfl
      · have : (n == getattr) = false := by simpa using hr
        rw [this, Bool.and_false]
    simp [contextFrame, fromEnd]
    intro h1 h2
    rw [h1, h2] at this; simp at this

/-- C430: there is one for all frames. -/
theorem C430_total (getattr : Nat) (rich : Bool) (frames : List Nat) : ∃ r, Context getattr rich frames r := by
  rcases List.eq_nil_or_concat frames with rfl | ⟨l, n, rfl⟩
  · exact ⟨_, .none⟩
  · rcases List.eq_nil_or_concat l with rfl | ⟨l, m, rfl⟩
    · exact ⟨_, .single n⟩
    · simp only [List.concat_eq_append, List.append_assoc, List.cons_append, List.nil_append]
      by_cases h : rich = true ∧ n = getattr
      · exact ⟨_, .before l m n h.1 h.2⟩
      · refine ⟨_, .last l m n ?_⟩
        cases rich with
        | false => exact .inl rfl
        | true => exact .inr fun e => h ⟨rfl, e⟩

example : contextFrame 9 true [3, 4, 9] = .frame 1 := by decide
example : contextFrame 9 false [3, 4, 9] = .frame 2 := by decide
example : contextFrame 9 true [9] = .frame 0 := by decide

end Verif.Resource
