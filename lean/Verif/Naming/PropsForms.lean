import Verif.Naming.Props

/-!
# Normalized names, dedented lines
-/

namespace Verif.Naming

/-! ## Normalizing -/

theorem underscore_join (w : Text) (ws : List Text) (h : ∀ v ∈ w :: ws, 95 ∉ v) : splitUnderscore [] (join (w :: ws)) = w :: ws := by
  have key : ∀ (a cur : Text) (rest : Text), 95 ∉ a →
      splitUnderscore cur (a ++ 95 :: rest) = (cur ++ a) :: splitUnderscore [] rest := by
    intro a
    induction a with
    | nil => intro cur rest _; simp [splitUnderscore]
    | cons c a ih =>
      intro cur rest h
      simp at h
      rw [List.cons_append, splitUnderscore, if_neg (fun e => h.1 e.symm), ih _ _ h.2]
      simp
  induction ws generalizing w with
  | nil => simpa [join] using underscore_none w [] (h w (by simp))
  | cons v ws ih =>
    rw [join, key w [] _ (h w (by simp)), ih v fun x hx => h x (List.mem_cons_of_mem _ hx)]
    rfl

theorem numbers_one (C : Chars) (w prev : Text) (h : Homogeneous C (prev ++ w)) (hne : prev ++ w ≠ []) :
    byNumbers C prev w = [prev ++ w] := by
  induction w generalizing prev with
  | nil =>
    rw [List.append_nil] at hne ⊢
    simp [byNumbers, hne]
  | cons c w ih =>
    unfold byNumbers
    rw [if_neg]
    · rw [ih (prev ++ [c]) (by simpa using h) (by simp)]; simp
    · rintro ⟨h1, h2⟩
      rcases List.eq_nil_or_concat prev with rfl | ⟨p, a, rfl⟩
      · exact h1 rfl
      · rw [List.concat_eq_append, lastIs_append] at h2
        rw [List.concat_eq_append] at h
        rcases h with h | h
        · exact h2 ((h a (by simp)).trans (h c (by simp)).symm)
        · exact h2 ((h a (by simp)).trans (h c (by simp)).symm)

theorem casing_lower (C : Chars) (w prev rest : Text) (hp : prev ≠ []) (hl : lastIs C.upper prev = false)
    (h : ∀ c ∈ w, C.upper c = false) : byCasing C prev (w ++ rest) = byCasing C (prev ++ w) rest := by
  induction w generalizing prev with
  | nil => simp
  | cons c w ih =>
    have hc := h c List.mem_cons_self
    rw [List.cons_append, byCasing, if_neg hp, if_neg (by simp [hc]), if_neg (by simp [hl]),
      ih (prev ++ [c]) (by simp) (by rw [lastIs_append]; exact hc) fun x hx => h x (List.mem_cons_of_mem _ hx)]
    simp

theorem casing_one (C : Chars) (w : Text) (hne : w ≠ []) (h : ∀ c ∈ w, C.upper c = false) : byCasing C [] w = [w] := by
  cases w with
  | nil => exact absurd rfl hne
  | cons c w =>
    rw [byCasing, if_pos rfl]
    have := casing_lower C w [c] [] (by simp) (by simpa [lastIs] using h c List.mem_cons_self)
      fun x hx => h x (List.mem_cons_of_mem _ hx)
    rw [List.append_nil] at this
    rw [this]
    simp [byCasing]

theorem flatMap_one {α : Type} (l : List α) (f : α → List α) (h : ∀ x ∈ l, f x = [x]) : l.flatMap f = l := by
  induction l with
  | nil => rfl
  | cons x l ih => rw [List.flatMap_cons, h x List.mem_cons_self, ih fun y hy => h y (List.mem_cons_of_mem _ hy)]; rfl

/-- A word without upper case, with numbers only or without them. -/
structure Plain (C : Chars) (w : Text) : Prop where
  ne : w ≠ []
  noUnderscore : 95 ∉ w
  homogeneous : Homogeneous C w
  lower : ∀ c ∈ w, C.upper c = false

theorem words_join (C : Chars) (ws : List Text) (h : ∀ w ∈ ws, Plain C w) : words C (join ws) = ws := by
  cases ws with
  | nil => rfl
  | cons w ws =>
    unfold words
    rw [underscore_join w ws fun v hv => (h v hv).noUnderscore]
    rw [List.filter_eq_self.2 fun v hv => by simpa using (h v hv).ne]
    apply flatMap_one
    intro v hv
    have hv' := h v hv
    rw [numbers_one C v [] (by simpa using hv'.homogeneous) (by simpa using hv'.ne)]
    simp only [List.nil_append, List.flatMap_cons, List.flatMap_nil, List.append_nil]
    exact casing_one C v hv'.ne hv'.lower

/-- What `str.casefold` does to characters of names: the result has no upper case, is numeric as before, and
is not changed again. -/
def Folds (C : Chars) : Prop :=
  ∀ c, c ≠ 95 → C.fold c ≠ [] ∧ 95 ∉ C.fold c ∧
    ∀ d ∈ C.fold c, C.upper d = false ∧ C.numeric d = C.numeric c ∧ C.fold d = [d]

theorem plain_fold (C : Chars) (hf : Folds C) (w : Text) (hne : w ≠ []) (h95 : 95 ∉ w) (hh : Homogeneous C w) :
    Plain C (w.flatMap C.fold) where
  ne := by
    cases w with
    | nil => exact absurd rfl hne
    | cons c w =>
      have := (hf c (fun e => h95 (by simp [e]))).1
      simp [this]
  noUnderscore := by
    intro h
    rw [List.mem_flatMap] at h
    obtain ⟨c, hc, h⟩ := h
    exact (hf c fun e => h95 (e ▸ hc)).2.1 h
  homogeneous := by
    rcases hh with hh | hh
    · left
      intro d hd
      rw [List.mem_flatMap] at hd
      obtain ⟨c, hc, hd⟩ := hd
      rw [((hf c fun e => h95 (e ▸ hc)).2.2 d hd).2.1]
      exact hh c hc
    · right
      intro d hd
      rw [List.mem_flatMap] at hd
      obtain ⟨c, hc, hd⟩ := hd
      rw [((hf c fun e => h95 (e ▸ hc)).2.2 d hd).2.1]
      exact hh c hc
  lower := by
    intro d hd
    rw [List.mem_flatMap] at hd
    obtain ⟨c, hc, hd⟩ := hd
    exact ((hf c fun e => h95 (e ▸ hc)).2.2 d hd).1

theorem fold_fold (C : Chars) (hf : Folds C) (w : Text) (h95 : 95 ∉ w) : (w.flatMap C.fold).flatMap C.fold = w.flatMap C.fold := by
  apply flatMap_one
  intro d hd
  rw [List.mem_flatMap] at hd
  obtain ⟨c, hc, hd⟩ := hd
  exact ((hf c fun e => h95 (e ▸ hc)).2.2 d hd).2.2

/-- C314: a normalized name is normalized. -/
theorem C314_idempotent (C : Chars) (hf : Folds C) (name : Text) : normalize C (normalize C name) = normalize C name := by
  have hw := C312_words C name
  unfold normalize
  rw [words_join, List.map_map]
  · congr 1
    apply List.map_congr_left
    intro w h
    exact fold_fold C hf w (hw w h).2.1
  · intro v hv
    obtain ⟨w, h, rfl⟩ := List.mem_map.1 hv
    exact plain_fold C hf w (hw w h).1 (hw w h).2.1 (hw w h).2.2.1

/-- A capitalized word: a letter of upper case, others behind it. -/
structure Capitalized (C : Chars) (w : Text) : Prop where
  split : ∃ u v, w = u :: v ∧ C.upper u = true ∧ v ≠ [] ∧ ∀ c ∈ v, C.upper c = false
  noUnderscore : 95 ∉ w
  letters : ∀ c ∈ w, C.numeric c = false

theorem casing_camel (C : Chars) (ws : List Text) (h : ∀ w ∈ ws, Capitalized C w) (prev : Text)
    (hp : prev ≠ []) (hl : lastIs C.upper prev = false) : byCasing C prev ws.flatten = prev :: ws := by
  induction ws generalizing prev with
  | nil => simp [byCasing, hp]
  | cons w ws ih =>
    obtain ⟨u, v, rfl, hu, hv, hlow⟩ := (h w List.mem_cons_self).split
    rw [List.flatten_cons, List.cons_append, byCasing, if_neg hp, if_pos hu, if_neg (by simp [hl])]
    cases v with
    | nil => exact absurd rfl hv
    | cons c v =>
      have hc := hlow c List.mem_cons_self
      rw [List.cons_append, byCasing, if_neg (by simp), if_neg (by simp [hc]), if_neg (by simp),
        casing_lower C v ([u] ++ [c]) _ (by simp) (by rw [lastIs_append]; exact hc) fun x hx => hlow x (List.mem_cons_of_mem _ hx)]
      rw [ih (fun x hx => h x (List.mem_cons_of_mem _ hx)) _ (by simp)]
      · rfl
      · rcases List.eq_nil_or_concat v with rfl | ⟨p, a, rfl⟩
        · rw [List.append_nil, lastIs_append]; exact hc
        · rw [List.concat_eq_append, ← List.append_assoc, lastIs_append]
          exact hlow a (by simp)

/-- The words of a name in which they are capitalized. -/
theorem words_camel (C : Chars) (ws : List Text) (h : ∀ w ∈ ws, Capitalized C w) : words C ws.flatten = ws := by
  have h95 : 95 ∉ ws.flatten := by
    intro hm
    obtain ⟨w, hw, hm⟩ := List.mem_flatten.1 hm
    exact (h w hw).noUnderscore hm
  unfold words
  rw [underscore_none _ [] h95]
  cases ws with
  | nil => rfl
  | cons w ws =>
    obtain ⟨u, v, rfl, hu, hv, hlow⟩ := (h w List.mem_cons_self).split
    have hne : [] ++ ((u :: v) :: ws).flatten ≠ [] := by simp
    rw [List.filter_cons_of_pos (by simp), List.filter_nil, List.flatMap_cons, List.flatMap_nil, List.append_nil]
    rw [numbers_one C _ [] (Or.inr ?_) (by simp)]
    · rw [List.flatMap_cons, List.flatMap_nil, List.append_nil]
      simp only [List.nil_append]
      cases v with
      | nil => exact absurd rfl hv
      | cons c v =>
        have hc := hlow c List.mem_cons_self
        rw [List.flatten_cons, List.cons_append, byCasing, if_pos rfl, List.cons_append, byCasing, if_neg (by simp),
          if_neg (by simp [hc]), if_neg (by simp),
          casing_lower C v ([u] ++ [c]) _ (by simp) (by rw [lastIs_append]; exact hc) fun x hx => hlow x (List.mem_cons_of_mem _ hx)]
        rw [casing_camel C ws (fun x hx => h x (List.mem_cons_of_mem _ hx)) _ (by simp)]
        · rfl
        · rcases List.eq_nil_or_concat v with rfl | ⟨p, a, rfl⟩
          · rw [List.append_nil, lastIs_append]; exact hc
          · rw [List.concat_eq_append, ← List.append_assoc, lastIs_append]
            exact hlow a (by simp)
    · intro c hc
      rw [List.nil_append, List.nil_append] at hc
      obtain ⟨w', hw', hc⟩ := List.mem_flatten.1 hc
      exact (h w' hw').letters c hc

/-- C315: a name of capitalized words is normalized to the same as when the words are in lower case, with
underscores between. -/
theorem C315_same_words_partial (C : Chars) (hf : Folds C) (ws : List Text) (h : ∀ w ∈ ws, Capitalized C w) :
    normalize C ws.flatten = normalize C (join (ws.map fun w => w.flatMap C.fold)) := by
  have hp : ∀ v ∈ ws.map (fun w => w.flatMap C.fold), Plain C v := by
    intro v hv
    obtain ⟨w, hw, rfl⟩ := List.mem_map.1 hv
    obtain ⟨u, v, e, _⟩ := (h w hw).split
    exact plain_fold C hf w (by rw [e]; simp) (h w hw).noUnderscore (Or.inr (h w hw).letters)
  unfold normalize
  rw [words_camel C ws h, words_join C _ hp, List.map_map]
  congr 1
  apply List.map_congr_left
  intro w hw
  exact (fold_fold C hf w (h w hw).noUnderscore).symm

/-- C315: but words of single letters are taken for one. -/
theorem C315_single_letters_violated (C : Chars) (hf : Folds C) (u v : Nat) (hu : C.upper u = true) (hv : C.upper v = true)
    (hu5 : u ≠ 95) (hv5 : v ≠ 95) (hun : C.numeric u = false) (hvn : C.numeric v = false) :
    normalize C [u, v] = C.fold u ++ C.fold v ∧
      normalize C (join [C.fold u, C.fold v]) = C.fold u ++ 95 :: C.fold v := by
  constructor
  · simp [normalize, words, splitUnderscore, hu5, hv5, byNumbers, lastIs, hun, hvn, byCasing, hu, hv, join]
  · have hp : ∀ c, c ≠ 95 → C.numeric c = false → Plain C (C.fold c) := by
      intro c hc hn
      have := plain_fold C hf [c] (by simp) (by simpa using fun e => hc e.symm) (Or.inr (by simpa using hn))
      simpa using this
    unfold normalize
    rw [words_join]
    · have h1 := fold_fold C hf [u] (by simpa using fun e => hu5 e.symm)
      have h2 := fold_fold C hf [v] (by simpa using fun e => hv5 e.symm)
      simp only [List.flatMap_cons, List.flatMap_nil, List.append_nil] at h1 h2
      simp [h1, h2, join]
    · intro w hw
      rcases List.mem_cons.1 hw with rfl | hw
      · exact hp u hu5 hun
      · rw [List.mem_singleton.1 hw]; exact hp v hv5 hvn

/-- `OpenFile` and `open_file`. -/
example : normalize ascii [79, 112, 101, 110, 70, 105, 108, 101] = normalize ascii [111, 112, 101, 110, 95, 102, 105, 108, 101] := by
  decide

/-! ## Dedenting -/

/-- A line as it was and as it is dedented by `n`. -/
inductive Dedented (C : Chars) (n : Nat) : Text → Text → Prop
  /-- Nothing is left of a line of white space. -/
  | blank (l : Text) : (∀ c ∈ l, C.space c = true) → Dedented C n l []
  /-- Of other lines exactly `n` blanks are taken away in front, and all white space at the end. -/
  | text (before o : Text) (z : Nat) (after : Text) : before.length = n → (∀ c ∈ before, c = 32 ∨ c = 9) → C.space z = false →
    (∀ c ∈ after, C.space c = true) → Dedented C n (before ++ (o ++ [z]) ++ after) (o ++ [z])

theorem rstrip_spec (C : Chars) (l : Text) :
    (rstrip C l = [] ∧ ∀ c ∈ l, C.space c = true) ∨
      ∃ o z after, rstrip C l = o ++ [z] ∧ l = o ++ [z] ++ after ∧ C.space z = false ∧ ∀ c ∈ after, C.space c = true := by
  have key : ∀ m : Text, (m.dropWhile C.space = [] ∧ ∀ c ∈ m, C.space c = true) ∨
      ∃ z t s, m.dropWhile C.space = z :: t ∧ m = s ++ z :: t ∧ C.space z = false ∧ ∀ c ∈ s, C.space c = true := by
    intro m
    induction m with
    | nil => left; simp
    | cons c m ih =>
      cases hc : C.space c
      · right
        exact ⟨c, m, [], by rw [List.dropWhile_cons_of_neg (by simp [hc])], rfl, hc, by simp⟩
      · rw [List.dropWhile_cons_of_pos hc]
        rcases ih with ⟨h1, h2⟩ | ⟨z, t, s, h1, h2, h3, h4⟩
        · left
          refine ⟨h1, ?_⟩
          intro x hx
          rcases List.mem_cons.1 hx with rfl | hx
          · exact hc
          · exact h2 x hx
        · right
          refine ⟨z, t, c :: s, h1, by simp [h2], h3, ?_⟩
          intro x hx
          rcases List.mem_cons.1 hx with rfl | hx
          · exact hc
          · exact h4 x hx
  unfold rstrip
  rcases key l.reverse with ⟨h1, h2⟩ | ⟨z, t, s, h1, h2, h3, h4⟩
  · left
    exact ⟨by simp [h1], fun c hc => h2 c (by simpa using hc)⟩
  · right
    refine ⟨t.reverse, z, s.reverse, by simp [h1], ?_, h3, fun c hc => h4 c (by simpa using hc)⟩
    have := congrArg List.reverse h2
    simpa using this

theorem least_none (ls : List Text) (r : Option Nat) (h : least ls r = none) :
    (r = none ∧ ∀ l ∈ ls, l = []) ∨ ∃ l ∈ ls, l ≠ [] ∧ indent l = 0 := by
  induction ls generalizing r with
  | nil => left; exact ⟨h, by simp⟩
  | cons l ls ih =>
    unfold least at h
    split at h
    · rename_i h0
      rcases ih r h with ⟨h1, h2⟩ | ⟨m, hm, h2⟩
      · left
        refine ⟨h1, ?_⟩
        intro x hx
        rcases List.mem_cons.1 hx with rfl | hx
        · exact h0
        · exact h2 x hx
      · right; exact ⟨m, List.mem_cons_of_mem _ hm, h2⟩
    · rename_i h0
      split at h
      · rename_i h1; right; exact ⟨l, List.mem_cons_self, h0, h1⟩
      · right
        have hr : ∀ n, least ls (some n) = none → ∃ m ∈ l :: ls, m ≠ [] ∧ indent m = 0 := by
          intro n hn
          rcases ih (some n) hn with ⟨h1, _⟩ | ⟨m, hm, h2⟩
          · cases h1
          · exact ⟨m, List.mem_cons_of_mem _ hm, h2⟩
        split at h
        · exact hr _ h
        · split at h
          · exact hr _ h
          · exact hr _ h

theorem least_some (ls : List Text) (r : Option Nat) (n : Nat) (h : least ls r = some n) :
    (∀ l ∈ ls, l ≠ [] → n ≤ indent l) ∧ (∀ k, r = some k → n ≤ k) ∧ (r = some n ∨ ∃ l ∈ ls, l ≠ [] ∧ indent l = n) := by
  induction ls generalizing r with
  | nil => exact ⟨by simp, fun k hk => by rw [show least [] r = r from rfl, hk] at h; cases h; omega, Or.inl h⟩
  | cons l ls ih =>
    unfold least at h
    split at h
    · rename_i h0
      obtain ⟨h1, h2, h3⟩ := ih r h
      refine ⟨?_, h2, ?_⟩
      · intro x hx hxn
        rcases List.mem_cons.1 hx with rfl | hx
        · exact absurd h0 hxn
        · exact h1 x hx hxn
      · rcases h3 with h3 | ⟨m, hm, h3⟩
        · exact Or.inl h3
        · exact Or.inr ⟨m, List.mem_cons_of_mem _ hm, h3⟩
    · rename_i h0
      split at h
      · cases h
      · have hs : ∀ k, k ≤ indent l → least ls (some k) = some n → (k = indent l ∨ r = some k) → (∀ j, r = some j → k ≤ j) →
            (∀ l' ∈ l :: ls, l' ≠ [] → n ≤ indent l') ∧ (∀ k, r = some k → n ≤ k) ∧
              (r = some n ∨ ∃ l' ∈ l :: ls, l' ≠ [] ∧ indent l' = n) := by
          intro k hk hn hor hle
          obtain ⟨h1, h2, h3⟩ := ih (some k) hn
          have hnk := h2 k rfl
          refine ⟨?_, fun j hj => by have := hle j hj; omega, ?_⟩
          · intro x hx hxn
            rcases List.mem_cons.1 hx with rfl | hx
            · omega
            · exact h1 x hx hxn
          · rcases h3 with h3 | ⟨m, hm, h3⟩
            · cases h3
              rcases hor with rfl | hor
              · exact Or.inr ⟨l, List.mem_cons_self, h0, rfl⟩
              · exact Or.inl hor
            · exact Or.inr ⟨m, List.mem_cons_of_mem _ hm, h3⟩
        split at h
        · exact hs _ (Nat.le_refl _) h (Or.inl rfl) (by simp)
        · rename_i j
          split at h
          · exact hs _ (Nat.le_refl _) h (Or.inl rfl) (by rintro _ ⟨⟩; omega)
          · exact hs j (by omega) h (Or.inr rfl) (by rintro _ ⟨⟩; omega)

theorem indent_take (l : Text) (n : Nat) (h : n ≤ indent l) :
    (∀ c ∈ l.take n, c = 32 ∨ c = 9) ∧ n ≤ l.length := by
  induction l generalizing n with
  | nil => simp [indent] at h; subst h; simp
  | cons c l ih =>
    unfold indent at h
    split at h
    · rename_i hc
      cases n with
      | zero => simp
      | succ n =>
        obtain ⟨h1, h2⟩ := ih n (by omega)
        refine ⟨?_, by simp; omega⟩
        intro x hx
        rw [List.take_succ_cons] at hx
        rcases List.mem_cons.1 hx with rfl | hx
        · exact hc
        · exact h1 x hx
    · have : n = 0 := by omega
      subst this; simp

theorem indent_drop (l : Text) : (l.drop (indent l)) = [] ∨ ∃ c t, l.drop (indent l) = c :: t ∧ ¬(c = 32 ∨ c = 9) := by
  induction l with
  | nil => left; rfl
  | cons c l ih =>
    unfold indent
    split
    · simpa using ih
    · rename_i hc; right; exact ⟨c, l, rfl, hc⟩

theorem dedented_of (C : Chars) (h32 : C.space 32 = true) (h9 : C.space 9 = true) (n : Nat) (l : Text)
    (h : rstrip C l ≠ [] → n ≤ indent (rstrip C l)) : Dedented C n l ((rstrip C l).drop n) := by
  rcases rstrip_spec C l with ⟨h1, h2⟩ | ⟨o, z, after, h1, h2, h3, h4⟩
  · rw [h1, List.drop_nil]; exact .blank l h2
  · have hn := h (by rw [h1]; simp)
    rw [h1] at hn ⊢
    obtain ⟨ht, hlen⟩ := indent_take _ n hn
    have hlt : n ≤ o.length := by
      apply Classical.byContradiction
      intro hc
      have hnl : n = (o ++ [z]).length := by simp at hlen ⊢; omega
      have hz := ht z (by rw [hnl, List.take_length]; simp)
      rcases hz with rfl | rfl
      · rw [h32] at h3; cases h3
      · rw [h9] at h3; cases h3
    rw [List.drop_append_of_le_length hlt]
    have hl : l = o.take n ++ (o.drop n ++ [z]) ++ after := by
      rw [h2, ← List.append_assoc, List.take_append_drop]
    rw [List.take_append_of_le_length hlt] at ht
    have := Dedented.text (C := C) (n := n) (o.take n) (o.drop n) z after (by simp; omega) ht h3 h4
    rw [← hl] at this
    exact this

/-- C316: of every line exactly as many blanks are taken away as is told, and the white space at its end. -/
theorem C316_dedented (C : Chars) (h32 : C.space 32 = true) (h9 : C.space 9 = true) (lines : List Text) :
    (dedent C lines).2.length = lines.length ∧
      ∀ (i : Nat) (l o : Text), lines[i]? = some l → (dedent C lines).2[i]? = some o → Dedented C (dedent C lines).1 l o := by
  unfold dedent
  dsimp only
  cases hl : least (lines.map (rstrip C)) none with
  | none =>
    refine ⟨by simp, ?_⟩
    intro i l o h1 h2
    simp [h1] at h2
    rw [← h2]
    simpa using dedented_of C h32 h9 0 l (fun _ => Nat.zero_le _)
  | some n =>
    refine ⟨by simp, ?_⟩
    intro i l o h1 h2
    simp [h1] at h2
    rw [← h2]
    exact dedented_of C h32 h9 n l fun hne =>
      (least_some _ _ _ hl).1 _ (List.mem_map_of_mem (List.mem_of_getElem? h1)) hne

/-- C316: no more could be: some line begins without a blank then, or nothing is left of any. -/
theorem C316_greatest (C : Chars) (h32 : C.space 32 = true) (h9 : C.space 9 = true) (lines : List Text) :
    (∃ o ∈ (dedent C lines).2, ∃ c t, o = c :: t ∧ c ≠ 32 ∧ c ≠ 9) ∨
      ((dedent C lines).1 = 0 ∧ ∀ o ∈ (dedent C lines).2, o = []) := by
  have hhead : ∀ l ∈ lines, rstrip C l ≠ [] → ∃ c t, (rstrip C l).drop (indent (rstrip C l)) = c :: t ∧ c ≠ 32 ∧ c ≠ 9 := by
    intro l _ hne
    have hd := dedented_of C h32 h9 (indent (rstrip C l)) l fun _ => Nat.le_refl _
    have hi := indent_drop (rstrip C l)
    rcases hi with hi | ⟨c, t, hi, hc⟩
    · rw [hi] at hd
      generalize hq : ([] : Text) = q at hd
      cases hd with
      | blank _ hb =>
        exfalso
        rcases rstrip_spec C l with ⟨h1, _⟩ | ⟨o, z, after, _, h2, h3, _⟩
        · exact hne h1
        · have := hb z (by rw [h2]; simp)
          rw [h3] at this; cases this
      | text before o z after _ _ _ _ => simp at hq
    · exact ⟨c, t, hi, fun e => hc (Or.inl e), fun e => hc (Or.inr e)⟩
  unfold dedent
  dsimp only
  cases hl : least (lines.map (rstrip C)) none with
  | none =>
    dsimp only
    rcases least_none _ _ hl with ⟨_, h⟩ | ⟨m, hm, h1, h2⟩
    · exact Or.inr ⟨rfl, h⟩
    · left
      obtain ⟨l, hlm, rfl⟩ := List.mem_map.1 hm
      obtain ⟨c, t, h3, h4⟩ := hhead l hlm h1
      rw [h2, List.drop_zero] at h3
      exact ⟨_, hm, c, t, h3, h4⟩
  | some n =>
    left
    dsimp only
    obtain ⟨_, _, h3⟩ := least_some _ _ _ hl
    rcases h3 with h3 | ⟨m, hm, h1, h2⟩
    · cases h3
    · obtain ⟨l, hlm, rfl⟩ := List.mem_map.1 hm
      obtain ⟨c, t, h3, h4⟩ := hhead l hlm h1
      rw [h2] at h3
      exact ⟨_, List.mem_map_of_mem hm, c, t, h3, h4⟩

example : dedent ascii [[32, 32, 97, 32], [], [32, 32, 32, 98], [32]] = (2, [[97], [], [32, 98], []]) := by decide

end Verif.Naming
