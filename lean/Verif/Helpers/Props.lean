import Verif.Helpers.Model

/-!
# Extending of classes and updating of dictionaries from pairs: properties
-/

namespace Verif.Helpers

/-! ## C385, C386: extending of classes -/

/-- Attributes which are to be copied. -/
structure Copied (object new : Attrs) (name : String) (value : Attr) : Prop where
  has : new name = some value
  usual : name ≠ "__name__" ∧ name ≠ "__qualname__" ∧ name ≠ "__weakref__" ∧ name ≠ "__dict__" ∧ name ≠ "__slots__" ∧
    name ≠ "__module__"
  documentation : ¬ (name = "__doc__" ∧ value = .none_)
  other : ¬ (value = .none_ ∧ object name = some .none_) ∧ ∀ n, ¬ (value = .same n ∧ object name = some (.same n))

theorem skipped_iff (object new : Attrs) (name : String) (value : Attr) (hn : new name = some value) :
    skipped object name value = false ↔ Copied object new name value := by
  constructor
  · intro h
    unfold skipped at h
    split at h
    · cases h
    rename_i h1
    split at h
    · cases h
    rename_i h2
    simp only [ignored, List.mem_cons, List.not_mem_nil, or_false, not_or] at h1
    refine ⟨hn, h1, h2, ?_, ?_⟩
    · rintro ⟨hv, ho⟩
      rw [ho, hv] at h
      cases h
    · rintro n ⟨hv, ho⟩
      rw [ho, hv] at h
      simp [Attr.is] at h
  · rintro ⟨-, h1, h2, h3, h4⟩
    unfold skipped
    rw [if_neg (by simp only [ignored, List.mem_cons, List.not_mem_nil, or_false, not_or]; exact h1),
      if_neg h2]
    split
    · rename_i o ho
      cases value with
      | none_ =>
        cases o with
        | none_ => exact absurd ⟨rfl, ho⟩ h3
        | same m => rfl
        | bound m c => rfl
      | same m =>
        cases o with
        | none_ => rfl
        | same k =>
          simp only [Attr.is, beq_eq_false_iff_ne, ne_eq]
          intro hmk
          subst hmk
          exact h4 m ⟨rfl, ho⟩
        | bound k c => rfl
      | bound m c => cases o <;> rfl
    · rfl

theorem extend_eq (object new : Attrs) : ∀ names old name,
    (∀ value, Copied object new name value → name ∈ names → extend object new names old name = some value) ∧
    (name ∉ names ∨ (∀ value, ¬ Copied object new name value) → extend object new names old name = old name)
  | [], old, name => ⟨fun _ _ h => (by cases h), fun _ => rfl⟩
  | k :: names, old, name => by
    obtain ⟨ih1, ih2⟩ := extend_eq object new names old name
    rw [extend]
    rcases Option.eq_none_or_eq_some (new k) with hk | ⟨v, hk⟩
    · rw [hk]
      dsimp only
      refine ⟨fun value hc hm => ?_, fun h => ih2 (h.imp (fun h hm => h (List.mem_cons_of_mem _ hm)) id)⟩
      rcases List.mem_cons.1 hm with h1 | h1
      · subst h1
        have hn := hc.has
        rw [hk] at hn
        cases hn
      · exact ih1 value hc h1
    · rw [hk]
      dsimp only
      split
      · rename_i hs
        refine ⟨fun value hc hm => ?_, fun h => ih2 (h.imp (fun h hm => h (List.mem_cons_of_mem _ hm)) id)⟩
        rcases List.mem_cons.1 hm with h1 | h1
        · subst h1
          have hv : value = v := by
            have hn := hc.has
            rw [hk] at hn
            exact (Option.some.inj hn).symm
          subst hv
          rw [(skipped_iff object new name value hk).2 hc] at hs
          cases hs
        · exact ih1 value hc h1
      · rename_i hs
        have hs' : skipped object k v = false := by simpa using hs
        have hcv := (skipped_iff object new k v hk).1 hs'
        obtain ⟨jh1, jh2⟩ := extend_eq object new names (old.set k v) name
        refine ⟨fun value hc hm => ?_, fun h => ?_⟩
        · by_cases hmm : name ∈ names
          · exact jh1 value hc hmm
          · rw [jh2 (Or.inl hmm)]
            rcases List.mem_cons.1 hm with h1 | h1
            · subst h1
              have hn := hc.has
              rw [hk] at hn
              rw [Attrs.set, if_pos rfl, hn]
            · exact absurd h1 hmm
        · have hne : name ≠ k := by
            rintro rfl
            rcases h with h | h
            · exact h (List.mem_cons_self ..)
            · exact h v hcv
          rw [jh2 (h.imp (fun h hm => h (List.mem_cons_of_mem _ hm)) id), Attrs.set, if_neg hne]

/-- C385: Extending copies the attributes of the new class, but those with special names, a missing documentation and those
which are `object`'s, whatever the old class had. -/
theorem C385_copied (object new : Attrs) (names : List String) (old : Attrs) (name : String) (value : Attr)
    (h : Copied object new name value) (hm : name ∈ names) : extend object new names old name = some value :=
  (extend_eq object new names old name).1 value h hm

/-- C385: All others stay. -/
theorem C385_others (object new : Attrs) (names : List String) (old : Attrs) (name : String)
    (h : ∀ value, ¬ Copied object new name value) : extend object new names old name = old name :=
  (extend_eq object new names old name).2 (Or.inr h)

/-- C385: The names told by the documentation are never overwritten. -/
theorem C385_special (object new : Attrs) (names : List String) (old : Attrs) (name : String)
    (h : name ∈ ["__name__", "__qualname__", "__weakref__", "__dict__", "__slots__"]) :
    extend object new names old name = old name := by
  apply C385_others
  rintro value ⟨_, ⟨a, b, c, d, e, _⟩, _⟩
  simp only [List.mem_cons, List.not_mem_nil, or_false] at h
  rcases h with h | h | h | h | h
  · exact a h
  · exact b h
  · exact c h
  · exact d h
  · exact e h

/-- C386: Existing attributes are kept if the new class has none with the name. Missing: attributes of both. -/
theorem C386_kept_partial (object new : Attrs) (names : List String) (old : Attrs) (name : String) (h : new name = none) :
    extend object new names old name = old name := by
  apply C385_others
  rintro value ⟨hn, _⟩
  rw [h] at hn
  cases hn

/-- C386: Every other attribute of both is overwritten, although the documentation tells that existing ones are not. -/
theorem C386_overwritten_violated (n m : Nat) (h : n ≠ m) :
    ∃ (object new old : Attrs), old "f" = some (.same n) ∧ new "f" = some (.same m) ∧
      extend object new ["f"] old "f" ≠ old "f" := by
  refine ⟨fun _ => none, fun k => if k = "f" then some (.same m) else none, fun k => if k = "f" then some (.same n) else none,
    rfl, rfl, ?_⟩
  rw [C385_copied _ _ _ _ "f" (.same m) ⟨rfl, by decide, by simp, by simp, by simp⟩ (by simp)]
  simpa using fun h' => h h'.symm

/-- C386: An `__init_subclass__` of the old class is lost even if the new class has none of its own: what `getattr` gives for
`object`'s is bound anew each time, so it is never the same. -/
theorem C386_bound_violated (object new : Attrs) (names : List String) (old : Attrs) (own b objectClass newClass : Nat)
    (_ho : object "__init_subclass__" = some (.bound b objectClass))
    (hn : new "__init_subclass__" = some (.bound b newClass)) (hm : "__init_subclass__" ∈ names)
    (hold : old "__init_subclass__" = some (.same own)) :
    extend object new names old "__init_subclass__" = some (.bound b newClass) ∧
      extend object new names old "__init_subclass__" ≠ old "__init_subclass__" := by
  have := C385_copied object new names old "__init_subclass__" (.bound b newClass)
    ⟨hn, by decide, by simp, by simp, by simp⟩ hm
  refine ⟨this, ?_⟩
  rw [this, hold]
  simp

example : extend (fun k => if k = "__eq__" then some (.same 1) else none)
    (fun k => if k = "__eq__" then some (.same 1) else if k = "f" then some (.same 5) else none) ["__eq__", "f"]
    (fun k => if k = "__eq__" then some (.same 9) else none) "__eq__" = some (.same 9) := by decide

/-! ## C387: pairs -/

theorem count_eq : ∀ (l : List Nat) (n : Nat), n ≤ 9000 →
    (n + l.length ≤ 9000 → count l n = n + l.length) ∧ (9000 < n + l.length → 9000 < count l n)
  | [], n, h => ⟨fun _ => rfl, fun h' => absurd h' (by simp; omega)⟩
  | _ :: l, n, h => by
    rw [count]
    split
    · rename_i h'
      exact ⟨fun hl => by simp only [List.length_cons] at hl; omega, fun _ => by omega⟩
    · rename_i h'
      obtain ⟨h1, h2⟩ := count_eq l (n + 1) (by omega)
      simp only [List.length_cons]
      exact ⟨fun hl => by rw [h1 (by omega)]; omega, fun hl => h2 (by omega)⟩

/-- How an element which is no pair is told. -/
inductive Bad (i : Nat) : Item → End → Prop
  | other : Bad i .other (.typeError i)
  | short (l : List Nat) : l.length ≠ 2 → l.length ≤ 9000 → Bad i (.elements l) (.valueError i (.exact l.length))
  | long (l : List Nat) : 9000 < l.length → Bad i (.elements l) (.valueError i .over)

/-- An element which is a pair. -/
def asItem (p : Nat × Nat) : Item := .elements [p.1, p.2]

theorem pairs_split : ∀ (before : List (Nat × Nat)) (i : Nat) (items : List Item),
    pairs i (before.map asItem ++ items) = (before ++ (pairs (i + before.length) items).1, (pairs (i + before.length) items).2)
  | [], i, items => rfl
  | p :: before, i, items => by
    rw [List.map_cons, List.cons_append, asItem, pairs, pairs_split before (i + 1) items]
    simp only [List.length_cons, List.cons_append]
    rw [show i + 1 + before.length = i + (before.length + 1) by omega]

/-- C387: If all elements are pairs, they are given in their order. -/
theorem C387_all (l : List (Nat × Nat)) : pairs 0 (l.map asItem) = (l, .done) := by
  have := pairs_split l 0 []
  rw [List.append_nil] at this
  rw [this]
  simp [pairs]

/-- C387: Otherwise those before the first other one are given, and then its position and its length are told. -/
theorem C387_bad (before : List (Nat × Nat)) (item : Item) (after : List Item) (hb : ∀ p, item ≠ asItem p) :
    (pairs 0 (before.map asItem ++ item :: after)).1 = before ∧
      Bad before.length item (pairs 0 (before.map asItem ++ item :: after)).2 := by
  rw [pairs_split, Nat.zero_add]
  dsimp only
  cases item with
  | other => exact ⟨by simp [pairs], .other⟩
  | elements l =>
    match l with
    | [] => exact ⟨by simp [pairs], .short [] (by simp) (by simp)⟩
    | [a] => exact ⟨by simp [pairs], .short [a] (by simp) (by simp)⟩
    | [a, b] => exact absurd rfl (hb (a, b))
    | a :: b :: c :: l =>
      refine ⟨by simp [pairs], ?_⟩
      rw [pairs]
      dsimp only
      obtain ⟨h1, h2⟩ := count_eq l 3 (by omega)
      rw [told]
      by_cases h : l.length + 3 ≤ 9000
      · rw [h1 (by omega), if_neg (by omega)]
        have := Bad.short (i := before.length) (a :: b :: c :: l) (by simp) (by simp only [List.length_cons]; omega)
        simp only [List.length_cons] at this
        rw [show 3 + l.length = l.length + 1 + 1 + 1 by omega]
        exact this
      · rw [if_pos (h2 (by omega))]
        exact .long _ (by simp only [List.length_cons]; omega)

example : pairs 0 [.elements [1, 2], .elements [1, 2, 3, 4], .other] = ([(1, 2)], .valueError 1 (.exact 4)) := by decide

end Verif.Helpers
