import Verif.Highlight.Words

/-!
# Word patterns

C230: the longest word of those given which the string begins with is matched.
-/
namespace Verif.Highlight.Words

/-- A word is in the nodes. -/
def Nodes.has : Nodes → List Nat → Prop
  | .nil, _ => False
  | .cons _ _ _ _, [] => False
  | .cons x final sub rest, c :: w => if x = c then (w = [] ∧ final = true) ∨ sub.has w else rest.has (c :: w)

theorem has_nil : ∀ f : Nodes, ¬ f.has []
  | .nil => id
  | .cons _ _ _ _ => id

theorem has_fresh : ∀ (w : List Nat) (c : Nat) (v : List Nat), (fresh c w).has v ↔ v = c :: w
  | [], c, [] => by simp [fresh, Nodes.has]
  | [], c, x :: v => by
    simp only [fresh, Nodes.has]
    split
    · rename_i h; simp [h]
    · rename_i h; simp [Ne.symm h]
  | d :: w, c, [] => by simp [fresh, Nodes.has]
  | d :: w, c, x :: v => by
    simp only [fresh, Nodes.has]
    split
    · rename_i h; rw [has_fresh w d v]; simp [h]
    · rename_i h; simp [Ne.symm h]

theorem has_add : ∀ (f : Nodes) (c : Nat) (w v : List Nat), (f.add c w).has v ↔ f.has v ∨ v = c :: w
  | .nil, c, w, v => by simp only [Nodes.add, has_fresh, Nodes.has, false_or]
  | .cons x final sub rest, c, w, [] => by
    have := has_nil ((Nodes.cons x final sub rest).add c w)
    simp [this, Nodes.has]
  | .cons x final sub rest, c, w, y :: v => by
    unfold Nodes.add
    by_cases hx : x = c
    · rw [if_pos hx]
      cases w with
      | nil =>
        simp only [Nodes.has]
        by_cases hy : x = y
        · rw [if_pos hy, if_pos hy]
          have : c = y := hx ▸ hy
          simp only [this, List.cons.injEq, true_and, and_true]
          constructor
          · rintro (h | h)
            · exact .inr h
            · exact .inl (.inr h)
          · rintro ((h | h) | h)
            · exact .inl h.1
            · exact .inr h
            · exact .inl h
        · rw [if_neg hy, if_neg hy]
          have : ¬ y = c := fun e => hy (hx.trans e.symm)
          simp [this]
      | cons d w =>
        simp only [Nodes.has]
        by_cases hy : x = y
        · rw [if_pos hy, if_pos hy, has_add sub d w v]
          have : y = c := hy ▸ hx
          simp [this, or_assoc]
        · rw [if_neg hy, if_neg hy]
          have : ¬ y = c := fun e => hy (hx.trans e.symm)
          simp [this]
    · rw [if_neg hx]
      simp only [Nodes.has]
      by_cases hy : x = y
      · rw [if_pos hy, if_pos hy]
        have : ¬ y = c := fun e => hx (hy.trans e)
        simp [this]
      · rw [if_neg hy, if_neg hy, has_add rest c w (y :: v)]

/-- What is matched is a word, and no longer one is in the nodes. -/
theorem index_spec : ∀ (f : Nodes) (s : List Nat),
    (∀ n, f.index s = some n → f.has (s.take n) ∧ n ≤ s.length ∧ ∀ w, f.has w → w <+: s → w.length ≤ n) ∧
    (f.index s = none → ∀ w, f.has w → ¬ w <+: s)
  | .nil, s => ⟨fun _ h => (by cases h), fun _ _ h => h.elim⟩
  | .cons x final sub rest, [] =>
    ⟨fun _ h => (by cases h), fun _ w h hp => by rw [List.prefix_nil.1 hp] at h; exact h⟩
  | .cons x final sub rest, c :: s => by
    unfold Nodes.index
    by_cases hx : x = c
    · rw [if_pos hx]
      obtain ⟨i1, i2⟩ := index_spec sub s
      have hw : ∀ w, (Nodes.cons x final sub rest).has w → w <+: c :: s → w = [c] ∧ final = true ∨
          ∃ v, w = c :: v ∧ sub.has v ∧ v <+: s := by
        intro w h hp
        cases w with
        | nil => exact h.elim
        | cons y v =>
          obtain ⟨e, hv⟩ := List.cons_prefix_cons.1 hp
          subst e
          rw [Nodes.has, if_pos hx] at h
          rcases h with ⟨h1, h2⟩ | h
          · exact .inl ⟨by rw [h1], h2⟩
          · exact .inr ⟨v, rfl, h, hv⟩
      cases hs : sub.index s with
      | some n =>
        obtain ⟨j1, j2, j3⟩ := i1 n hs
        refine ⟨?_, fun h => (by cases h)⟩
        intro m hm
        cases hm
        refine ⟨?_, by simpa using j2, ?_⟩
        · rw [List.take_succ_cons, Nodes.has, if_pos hx]; exact .inr j1
        · intro w h hp
          rcases hw w h hp with ⟨e, -⟩ | ⟨v, e, h1, h2⟩
          · rw [e]; simp
          · rw [e]; simpa using j3 v h1 h2
      | none =>
        dsimp only
        cases final with
        | true =>
          rw [if_pos rfl]
          refine ⟨?_, fun h => (by cases h)⟩
          intro m hm
          cases hm
          refine ⟨?_, by simp, ?_⟩
          · rw [List.take_succ_cons, Nodes.has, if_pos hx]; exact .inl ⟨rfl, rfl⟩
          · intro w h hp
            rcases hw w h hp with ⟨e, -⟩ | ⟨v, e, h1, h2⟩
            · rw [e]; simp
            · exact absurd h2 (i2 hs v h1)
        | false =>
          rw [if_neg (by decide)]
          refine ⟨fun _ h => (by cases h), fun _ w h hp => ?_⟩
          rcases hw w h hp with ⟨-, e⟩ | ⟨v, e, h1, h2⟩
          · cases e
          · exact i2 hs v h1 h2
    · rw [if_neg hx]
      have hw : ∀ w, w <+: c :: s → (Nodes.cons x final sub rest).has w → rest.has w := by
        intro w hp h
        cases w with
        | nil => exact h.elim
        | cons y v =>
          have e := (List.cons_prefix_cons.1 hp).1
          rw [Nodes.has, if_neg (fun e' => hx (e'.trans e))] at h
          exact h
      obtain ⟨i1, i2⟩ := index_spec rest (c :: s)
      refine ⟨?_, fun h w h' hp => i2 h w (hw w hp h') hp⟩
      intro n hn
      obtain ⟨j1, j2, j3⟩ := i1 n hn
      refine ⟨?_, j2, fun w h hp => j3 w (hw w hp h) hp⟩
      cases n with
      | zero => exact absurd j1 (has_nil _)
      | succ n => rw [List.take_succ_cons] at j1 ⊢; rw [Nodes.has, if_neg hx]; exact j1

theorem create_has (words : List (List Nat)) : ∀ (p : Pattern) (v : List Nat),
    ((words.foldl Pattern.addWord p).nodes.has v ↔ p.nodes.has v ∨ v ∈ words ∧ v ≠ []) ∧
    ((words.foldl Pattern.addWord p).final = true ↔ p.final = true ∨ [] ∈ words) := by
  induction words with
  | nil => intro p v; simp
  | cons w words ih =>
    intro p v
    rw [List.foldl_cons]
    obtain ⟨h1, h2⟩ := ih (p.addWord w) v
    rw [h1, h2]
    cases w with
    | nil =>
      constructor
      · show p.nodes.has v ∨ _ ↔ _
        rw [List.mem_cons]
        constructor
        · rintro (h | h)
          · exact .inl h
          · exact .inr ⟨.inr h.1, h.2⟩
        · rintro (h | ⟨h | h, h'⟩)
          · exact .inl h
          · exact absurd h h'
          · exact .inr ⟨h, h'⟩
      · show true = true ∨ _ ↔ _
        simp
    | cons c w =>
      constructor
      · show (p.nodes.add c w).has v ∨ _ ↔ _
        rw [has_add, List.mem_cons]
        constructor
        · rintro ((h | h) | h)
          · exact .inl h
          · exact .inr ⟨.inl h, by rw [h]; simp⟩
          · exact .inr ⟨.inr h.1, h.2⟩
        · rintro (h | ⟨h | h, h'⟩)
          · exact .inl (.inl h)
          · exact .inl (.inr h)
          · exact .inr ⟨h, h'⟩
      · show p.final = true ∨ _ ↔ _
        simp

/-- C230. What is matched is one of the words, the string begins with it, and no longer one of the words begins it. -/
theorem C230_longest (words : List (List Nat)) (s w : List Nat) (h : (create words).find s = some w) :
    w ∈ words ∧ w <+: s ∧ ∀ v ∈ words, v <+: s → v.length ≤ w.length := by
  obtain ⟨i1, i2⟩ := index_spec (create words).nodes s
  have hn : ∀ v, (create words).nodes.has v ↔ v ∈ words ∧ v ≠ [] := fun v => by
    have := (create_has words ⟨false, .nil⟩ v).1
    simpa [create, Nodes.has] using this
  have hf : (create words).final = true ↔ [] ∈ words := by
    have := (create_has words ⟨false, .nil⟩ []).2
    simpa [create] using this
  unfold Pattern.find at h
  cases hi : (create words).nodes.index s with
  | some n =>
    rw [hi] at h
    cases h
    obtain ⟨j1, j2, j3⟩ := i1 n hi
    refine ⟨((hn _).1 j1).1, List.take_prefix _ _, ?_⟩
    intro v hv hp
    rw [List.length_take, Nat.min_eq_left j2]
    by_cases h0 : v = []
    · rw [h0]; exact Nat.zero_le _
    · exact j3 v ((hn v).2 ⟨hv, h0⟩) hp
  | none =>
    rw [hi] at h
    dsimp only at h
    split at h
    · rename_i hfin
      cases h
      refine ⟨hf.1 hfin, List.nil_prefix, ?_⟩
      intro v hv hp
      by_cases h0 : v = []
      · rw [h0]; exact Nat.le_refl _
      · exact absurd hp (i2 hi v ((hn v).2 ⟨hv, h0⟩))
    · cases h

/-- C230. Nothing is matched only if the string begins with none of the words. -/
theorem C230_none (words : List (List Nat)) (s : List Nat) : (create words).find s = none ↔ ∀ v ∈ words, ¬ v <+: s := by
  constructor
  · intro h v hv hp
    obtain ⟨-, i2⟩ := index_spec (create words).nodes s
    have hn : (create words).nodes.has v ↔ v ∈ words ∧ v ≠ [] := by
      have := (create_has words ⟨false, .nil⟩ v).1
      simpa [create, Nodes.has] using this
    have hf : (create words).final = true ↔ [] ∈ words := by
      have := (create_has words ⟨false, .nil⟩ []).2
      simpa [create] using this
    unfold Pattern.find at h
    cases hi : (create words).nodes.index s with
    | some n => rw [hi] at h; cases h
    | none =>
      rw [hi] at h
      dsimp only at h
      by_cases h0 : v = []
      · subst h0
        rw [if_pos (hf.2 hv)] at h; cases h
      · exact i2 hi v (hn.2 ⟨hv, h0⟩) hp
  · intro h
    cases hf : (create words).find s with
    | none => rfl
    | some w => exact absurd (C230_longest words s w hf).2.1 (h w (C230_longest words s w hf).1)

/-- `<`, `<<=` and `=`: of `<<=a` all three characters are matched, of `<<a` only the first one. -/
example : (create [[60], [60, 60, 61], [61]]).find [60, 60, 61, 97] = some [60, 60, 61] ∧
    (create [[60], [60, 60, 61], [61]]).find [60, 60, 97] = some [60] ∧ (create [[60], [60, 60, 61], [61]]).find [97] = none := by decide

end Verif.Highlight.Words
