import Verif.Highlight.Lines
import Verif.Highlight.Props

/-!
# Lines and layers of tokens

C228: the layer of a token. C229: the lines of a file.
-/
namespace Verif.Highlight

/-! ### Searching -/

/-- Between two bounds. -/
theorem lowerLoop_spec (ts : List Token) (line : Nat)
    (hs : ∀ i j, i ≤ j → j < ts.length → lineAt ts i ≤ lineAt ts j) :
    ∀ n low high, high - low < n → low ≤ high → high ≤ ts.length → (∀ j, j < low → lineAt ts j < line) →
      (∀ j, high ≤ j → j < ts.length → line ≤ lineAt ts j) →
      lowerLoop ts line n low high ≤ ts.length ∧ (∀ j, j < lowerLoop ts line n low high → lineAt ts j < line) ∧
        (∀ j, lowerLoop ts line n low high ≤ j → j < ts.length → line ≤ lineAt ts j)
  | 0, low, high, h, _, _, _, _ => absurd h (Nat.not_lt_zero _)
  | n + 1, low, high, h, hle, hh, h1, h2 => by
    unfold lowerLoop
    by_cases hlt : low < high
    · rw [if_pos hlt]
      by_cases hm : lineAt ts ((low + high) / 2) < line
      · rw [if_pos hm]
        refine lowerLoop_spec ts line hs n _ _ (by omega) (by omega) hh ?_ h2
        intro j hj
        exact Nat.lt_of_le_of_lt (hs j ((low + high) / 2) (by omega) (by omega)) hm
      · rw [if_neg hm]
        refine lowerLoop_spec ts line hs n _ _ (by omega) (by omega) (by omega) h1 ?_
        intro j hj hj'
        exact Nat.le_trans (by omega) (hs ((low + high) / 2) j hj hj')
    · rw [if_neg hlt]
      exact ⟨by omega, h1, fun j hj => h2 j (by omega)⟩

theorem upperLoop_spec (ts : List Token) (line : Nat)
    (hs : ∀ i j, i ≤ j → j < ts.length → lineAt ts i ≤ lineAt ts j) :
    ∀ n low high, high - low < n → low ≤ high → high ≤ ts.length → (∀ j, j < low → lineAt ts j ≤ line) →
      (∀ j, high ≤ j → j < ts.length → line < lineAt ts j) →
      upperLoop ts line n low high ≤ ts.length ∧ (∀ j, j < upperLoop ts line n low high → lineAt ts j ≤ line) ∧
        (∀ j, upperLoop ts line n low high ≤ j → j < ts.length → line < lineAt ts j)
  | 0, low, high, h, _, _, _, _ => absurd h (Nat.not_lt_zero _)
  | n + 1, low, high, h, hle, hh, h1, h2 => by
    unfold upperLoop
    by_cases hlt : low < high
    · rw [if_pos hlt]
      by_cases hm : line < lineAt ts ((low + high) / 2)
      · rw [if_pos hm]
        refine upperLoop_spec ts line hs n _ _ (by omega) (by omega) (by omega) h1 ?_
        intro j hj hj'
        exact Nat.lt_of_lt_of_le hm (hs ((low + high) / 2) j hj hj')
      · rw [if_neg hm]
        refine upperLoop_spec ts line hs n _ _ (by omega) (by omega) hh ?_ h2
        intro j hj
        exact Nat.le_trans (hs j ((low + high) / 2) (by omega) (by omega)) (by omega)
    · rw [if_neg hlt]
      exact ⟨by omega, h1, fun j hj => h2 j (by omega)⟩

theorem lower_spec (ts : List Token) (line : Nat) (hs : ∀ i j, i ≤ j → j < ts.length → lineAt ts i ≤ lineAt ts j) :
    lower ts line ≤ ts.length ∧ (∀ j, j < lower ts line → lineAt ts j < line) ∧
      (∀ j, lower ts line ≤ j → j < ts.length → line ≤ lineAt ts j) :=
  lowerLoop_spec ts line hs _ _ _ (by omega) (by omega) (Nat.le_refl _) (fun j hj => absurd hj (Nat.not_lt_zero _))
    (fun j hj hj' => by omega)

theorem upper_spec (ts : List Token) (line : Nat) (hs : ∀ i j, i ≤ j → j < ts.length → lineAt ts i ≤ lineAt ts j) :
    upper ts line ≤ ts.length ∧ (∀ j, j < upper ts line → lineAt ts j ≤ line) ∧
      (∀ j, upper ts line ≤ j → j < ts.length → line < lineAt ts j) :=
  upperLoop_spec ts line hs _ _ _ (by omega) (by omega) (Nat.le_refl _) (fun j hj => absurd hj (Nat.not_lt_zero _))
    (fun j hj hj' => by omega)

/-! ### C229 -/

/-- The lines of a text, each with its line break. -/
def linesOf : List Nat → List (List Nat)
  | [] => []
  | c :: l => if c = 10 then [10] :: linesOf l else
    match linesOf l with
    | [] => [[c]]
    | x :: xs => (c :: x) :: xs

/-- A line begins at a place. -/
structure Begins (content : List Nat) (i a : Nat) : Prop where
  le : a ≤ content.length
  count : (content.take a).count 10 = i
  after : a = 0 ∨ content[a - 1]? = some 10

theorem begins_exists (content : List Nat) (j : Nat) : ∀ p, j ≤ (content.take p).count 10 → ∃ b, b ≤ p ∧ Begins content j b
  | 0, h => by
    have : j = 0 := by simpa using h
    subst this
    exact ⟨0, Nat.le_refl _, Nat.zero_le _, rfl, .inl rfl⟩
  | p + 1, h => by
    by_cases hp : j ≤ (content.take p).count 10
    · obtain ⟨b, h1, h2⟩ := begins_exists content j p hp
      exact ⟨b, by omega, h2⟩
    · by_cases hl : p < content.length
      · rw [List.take_add_one, List.getElem?_eq_getElem hl, List.count_append] at h
        simp only [Option.toList_some, List.count_singleton, beq_iff_eq] at h
        split at h
        · rename_i he
          refine ⟨p + 1, Nat.le_refl _, hl, ?_, .inr ?_⟩
          · rw [List.take_add_one, List.getElem?_eq_getElem hl, List.count_append]
            simp only [Option.toList_some, List.count_singleton, beq_iff_eq]
            rw [if_pos he]; omega
          · rw [Nat.add_sub_cancel, List.getElem?_eq_getElem hl, he]
        · exact absurd h (by omega)
      · rw [List.take_of_length_le (by omega)] at h
        rw [List.take_of_length_le (by omega)] at hp
        exact absurd h hp

theorem count_mono (content : List Nat) {a b : Nat} (h : a ≤ b) : (content.take a).count 10 ≤ (content.take b).count 10 := by
  have : content.take a = (content.take b).take a := by rw [List.take_take, Nat.min_eq_left h]
  rw [this]
  exact (List.take_sublist a (content.take b)).count_le 10

/-- Nothing before the begin of a line belongs to it. -/
theorem Begins.least {content : List Nat} {i a p : Nat} (h : Begins content i a) (hp : i ≤ (content.take p).count 10) : a ≤ p := by
  apply Nat.le_of_not_lt
  intro hlt
  rcases h.after with ha | ha
  · omega
  · have e : (content.take a) = content.take (a - 1) ++ [10] := by
      have : a = (a - 1) + 1 := by omega
      rw [this, List.take_add_one, Nat.add_sub_cancel, ha]; rfl
    have hc := h.count
    rw [e, List.count_append] at hc
    have hm := count_mono content (a := p) (b := a - 1) (by omega)
    simp at hc
    omega

/-- A line begins with a token. -/
theorem Cut.begin {pre : List Nat} {ts : List Token} (h : Cut pre ts) {i a : Nat} (hb : Begins pre i a) (ha : a < pre.length) :
    ∃ t ∈ ts, t.start = a ∧ t.line = i := by
  induction h with
  | nil => exact absurd ha (Nat.not_lt_zero _)
  | @snoc pre ts piece t hc hne hs hl hln hcol hp ih =>
    by_cases h1 : a < pre.length
    · have hb' : Begins pre i a := by
        refine ⟨by omega, ?_, ?_⟩
        · have := hb.count
          rwa [List.take_append_of_le_length (by omega)] at this
        · rcases hb.after with h | h
          · exact .inl h
          · right; rwa [List.getElem?_append_left (by omega)] at h
      obtain ⟨x, hx, hx'⟩ := ih hb' h1
      exact ⟨x, List.mem_append_left _ hx, hx'⟩
    · by_cases h2 : a = pre.length
      · refine ⟨t, by simp, by omega, ?_⟩
        have := hb.count
        rw [h2, List.take_left' rfl] at this
        rw [hln, this]
      · exfalso
        have h3 := hb.after.resolve_left (by omega)
        rw [List.getElem?_append_right (by omega)] at h3
        rw [List.length_append] at ha
        split at hp
        · rw [hp] at ha; simp at ha; omega
        · exact hp (List.mem_of_getElem? h3)

theorem linesOf_ne (c : Nat) (l : List Nat) : linesOf (c :: l) ≠ [] := by
  unfold linesOf
  split
  · simp
  · split <;> simp

theorem linesOf_cons_ne (c : Nat) (l : List Nat) (h : c ≠ 10) : linesOf (c :: l) =
    match linesOf l with | [] => [[c]] | x :: xs => (c :: x) :: xs := by rw [linesOf, if_neg h]

theorem linesOf_zero (content : List Nat) (h : content ≠ []) (b : Nat) (hb : Begins content 1 b ∨ b = content.length ∧ 10 ∉ content) :
    (linesOf content)[0]? = some (content.take b) := by
  induction content generalizing b with
  | nil => exact absurd rfl h
  | cons c l ih =>
    by_cases hc : c = 10
    · subst hc
      rw [linesOf, if_pos rfl]
      rcases hb with hb | ⟨-, hb⟩
      · have : b = 1 := by
          have h1 : 1 ≤ b := by
            rcases Nat.eq_zero_or_pos b with e | e
            · subst e; exact absurd hb.count (by simp)
            · exact e
          have := hb.least (p := 1) (by simp)
          omega
        subst this; rfl
      · exact absurd List.mem_cons_self hb
    · rw [linesOf_cons_ne c l hc]
      cases hl : l with
      | nil =>
        subst hl
        have : b = 1 := by
          rcases hb with hb | ⟨hb, -⟩
          · have := hb.count
            have := hb.le
            exfalso
            have h2 : b ≤ 1 := by simpa using hb.le
            rcases (by omega : b = 0 ∨ b = 1) with e | e <;> subst e
            · simp at this; have := hb.count; simp at this
            · have := hb.count; simp [hc] at this
          · simpa using hb
        subst this; rfl
      | cons d m =>
        rw [← hl]
        have hne : l ≠ [] := by rw [hl]; simp
        have hb' : Begins l 1 (b - 1) ∨ b - 1 = l.length ∧ 10 ∉ l := by
          rcases hb with hb | ⟨hb, hb'⟩
          · left
            have h1 : 1 < b := by
              rcases Nat.lt_or_ge 1 b with e | e
              · exact e
              · exfalso
                have := hb.count
                rcases (by omega : b = 0 ∨ b = 1) with e | e <;> subst e <;> simp [hc] at this
            obtain ⟨x, rfl⟩ : ∃ x, b = x + 2 := ⟨b - 2, by omega⟩
            refine ⟨?_, ?_, ?_⟩
            · have := hb.le; simp at this; omega
            · have := hb.count
              rw [List.take_succ_cons, List.count_cons_of_ne hc] at this
              exact this
            · right
              have := hb.after.resolve_left (by omega)
              simpa using this
          · exact .inr ⟨by simp at hb; omega, fun x => hb' (List.mem_cons_of_mem _ x)⟩
        have hpos : 0 < b := by
          rcases hb with hb | ⟨hb, -⟩
          · rcases Nat.eq_zero_or_pos b with e | e
            · subst e; exact absurd hb.count (by simp)
            · exact e
          · rw [hb]; simp
        have := ih hne (b - 1) hb'
        have e : b = (b - 1) + 1 := by omega
        rw [e, List.take_succ_cons]
        cases hx : linesOf l with
        | nil => rw [hl] at hx; exact absurd hx (linesOf_ne d m)
        | cons y ys =>
          rw [hx] at this
          simp only [List.getElem?_cons_zero, Option.some.injEq] at this
          simp only [List.getElem?_cons_zero, Option.some.injEq]
          rw [this]

/-- The lines after the first one are those of the rest. -/
theorem linesOf_split (content : List Nat) (a : Nat) : ∀ i, Begins content (i + 1) a →
    ∃ b, Begins content 1 b ∧ b ≤ a ∧ Begins (content.drop b) i (a - b) := by
  intro i h
  obtain ⟨b, hb1, hb2⟩ := begins_exists content 1 a (by rw [h.count]; omega)
  refine ⟨b, hb2, hb1, by rw [List.length_drop]; have := h.le; omega, ?_, ?_⟩
  · have e : content.take a = content.take b ++ (content.drop b).take (a - b) := by
      rw [← List.take_add]; congr 1; omega
    have := h.count
    rw [e, List.count_append, hb2.count] at this
    omega
  · rcases Nat.eq_zero_or_pos (a - b) with e | e
    · exact .inl e
    · right
      rw [List.getElem?_drop]
      have := h.after.resolve_left (by omega)
      rw [← this]; congr 1; omega

theorem linesOf_drop (content : List Nat) (b : Nat) (hb : Begins content 1 b) (i : Nat) :
    (linesOf content)[i + 1]? = (linesOf (content.drop b))[i]? := by
  induction content generalizing b with
  | nil => have := hb.count; simp at this
  | cons c l ih =>
    by_cases hc : c = 10
    · subst hc
      have h1 : 1 ≤ b := by
        rcases Nat.eq_zero_or_pos b with e | e
        · subst e; exact absurd hb.count (by simp)
        · exact e
      have : b = 1 := by have := hb.least (p := 1) (by simp); omega
      subst this
      rw [linesOf, if_pos rfl]; rfl
    · have h1 : 1 < b := by
        rcases Nat.lt_or_ge 1 b with e | e
        · exact e
        · exfalso
          have := hb.count
          rcases (by omega : b = 0 ∨ b = 1) with e | e <;> subst e <;> simp [hc] at this
      obtain ⟨x, rfl⟩ : ∃ x, b = x + 2 := ⟨b - 2, by omega⟩
      have hb' : Begins l 1 (x + 1) := by
        refine ⟨?_, ?_, ?_⟩
        · have := hb.le; simp at this; omega
        · have := hb.count
          rw [List.take_succ_cons, List.count_cons_of_ne hc] at this
          exact this
        · right
          have := hb.after.resolve_left (by omega)
          simpa using this
      rw [linesOf_cons_ne c l hc, List.drop_succ_cons, ← ih (x + 1) hb']
      cases linesOf l with
      | nil => rfl
      | cons y ys => rfl

/-- The line which begins at a place reaches to the next begin, or to the end. -/
theorem linesOf_slice : ∀ (i : Nat) (content : List Nat) (a b : Nat), Begins content i a → a < content.length →
    (Begins content (i + 1) b ∨ b = content.length ∧ (content.take b).count 10 = i) →
    (linesOf content)[i]? = some ((content.drop a).take (b - a))
  | 0, content, a, b, ha, hl, hb => by
    have : a = 0 := by
      rcases ha.after with h | h
      · exact h
      · have := ha.least (p := 0) (by simp); omega
    subst this
    rw [List.drop_zero, Nat.sub_zero]
    refine linesOf_zero content (by intro e; subst e; exact absurd hl (Nat.not_lt_zero _)) b ?_
    rcases hb with hb | ⟨h1, h2⟩
    · exact .inl hb
    · refine .inr ⟨h1, ?_⟩
      rw [h1, List.take_length] at h2
      exact List.count_eq_zero.1 h2
  | i + 1, content, a, b, ha, hl, hb => by
    obtain ⟨s, h1, h2, h3⟩ := linesOf_split content a i ha
    have hab : a ≤ b := by
      refine ha.least ?_
      rcases hb with hb | ⟨h1, h2⟩
      · rw [hb.count]; omega
      · rw [h2]; omega
    rw [linesOf_drop content s h1 i, linesOf_slice i (content.drop s) (a - s) (b - s) h3 (by rw [List.length_drop]; omega) ?_]
    · rw [List.drop_drop]
      congr 2
      · omega
      · congr 1; omega
    · have e : content.take b = content.take s ++ (content.drop s).take (b - s) := by
        rw [← List.take_add]; congr 1; omega
      rcases hb with hb | ⟨hb1, hb2⟩
      · left
        refine ⟨by rw [List.length_drop]; have := hb.le; omega, ?_, ?_⟩
        · have := hb.count
          rw [e, List.count_append, h1.count] at this
          omega
        · have hlt : a < b := by
            rcases Nat.lt_or_ge a b with h | h
            · exact h
            · have : b = a := by omega
              subst this
              have := hb.count; have := ha.count; omega
          right
          rw [List.getElem?_drop]
          have := hb.after.resolve_left (by omega)
          rw [← this]; congr 1; omega
      · refine .inr ⟨by rw [List.length_drop]; omega, ?_⟩
        rw [e, List.count_append, h1.count] at hb2
        omega

/-- If a line does not begin inside of a text, then it has no such line. -/
theorem linesOf_none : ∀ (i : Nat) (content : List Nat), (∀ a, Begins content i a → ¬ a < content.length) →
    (linesOf content)[i]? = none
  | 0, content, h => by
    cases content with
    | nil => rfl
    | cons c l => exact absurd (by simp) (h 0 ⟨Nat.zero_le _, rfl, .inl rfl⟩)
  | i + 1, content, h => by
    by_cases hc : 1 ≤ content.count 10
    · obtain ⟨b, -, hb⟩ := begins_exists content 1 content.length (by simpa using hc)
      rw [linesOf_drop content b hb]
      refine linesOf_none i _ ?_
      intro a ha hl
      rw [List.length_drop] at hl
      refine h (b + a) ⟨by omega, ?_, ?_⟩ (by omega)
      · rw [List.take_add, List.count_append, hb.count, ha.count]; omega
      · right
        rcases Nat.eq_zero_or_pos a with e | e
        · subst e
          have h0 : b ≠ 0 := fun e => by subst e; exact absurd hb.count (by simp)
          simpa using hb.after.resolve_left h0
        · have := ha.after.resolve_left (by omega)
          rw [List.getElem?_drop] at this
          rw [← this]; congr 1; omega
    · have h0 : 10 ∉ content := List.count_eq_zero.1 (by omega)
      have key : ∀ l : List Nat, 10 ∉ l → (linesOf l).length ≤ 1 := by
        intro l
        induction l with
        | nil => intro _; decide
        | cons c l ih =>
          intro h
          rw [List.mem_cons, not_or] at h
          have := ih h.2
          rw [linesOf_cons_ne c l (fun e => h.1 e.symm)]
          cases hx : linesOf l with
          | nil => simp
          | cons y ys => rw [hx] at this; simpa using this
      exact List.getElem?_eq_none (by have := key content h0; omega)

/-- The tokens of a parsed content. -/
theorem lines_sorted {content : List Nat} {d : Ctx} (h : Sound content d) :
    ∀ i j, i ≤ j → j < d.tokens.length → lineAt d.tokens i ≤ lineAt d.tokens j := by
  intro i j hij hj
  have hi : i < d.tokens.length := by omega
  have ei : lineAt d.tokens i = (content.take d.tokens[i].start).count 10 := by
    unfold lineAt; rw [List.getElem?_eq_getElem hi]; exact (h.place _ (List.getElem_mem hi)).2.1
  have ej : lineAt d.tokens j = (content.take d.tokens[j].start).count 10 := by
    unfold lineAt; rw [List.getElem?_eq_getElem hj]; exact (h.place _ (List.getElem_mem hj)).2.1
  rw [ei, ej]
  apply count_mono
  rcases Nat.lt_or_ge i j with hlt | hge
  · exact List.pairwise_iff_getElem.1 h.sorted i j hi hj hlt
  · have : i = j := by omega
    subst this; exact Nat.le_refl _

/-- The place of a token which is the first of its line or of a later one. -/
theorem first_place {content : List Nat} {d : Ctx} (h : Sound content d) (he : d.rest = []) {i r b : Nat} (hb : Begins content i b)
    (hr : r < d.tokens.length) (hline : i ≤ lineAt d.tokens r) (hfirst : ∀ j, j < d.tokens.length → i ≤ lineAt d.tokens j → r ≤ j) :
    startAt d.tokens r = b := by
  have es : startAt d.tokens r = d.tokens[r].start := by unfold startAt; rw [List.getElem?_eq_getElem hr]; rfl
  have el : lineAt d.tokens r = (content.take d.tokens[r].start).count 10 := by
    unfold lineAt; rw [List.getElem?_eq_getElem hr]; exact (h.place _ (List.getElem_mem hr)).2.1
  rw [es]
  have hge : b ≤ d.tokens[r].start := hb.least (el ▸ hline)
  rcases Nat.lt_or_ge b content.length with hlt | hgt
  · have c := h.cut
    rw [h.whole he] at c
    obtain ⟨t, ht, hs, hl⟩ := c.begin hb hlt
    obtain ⟨j, hj, e⟩ := List.getElem_of_mem (List.mem_filter.1 ht).1
    have hrj := hfirst j hj (by unfold lineAt; rw [List.getElem?_eq_getElem hj, e]; simp [hl])
    have : d.tokens[r].start ≤ d.tokens[j].start := by
      rcases Nat.lt_or_ge r j with h1 | h1
      · exact List.pairwise_iff_getElem.1 h.sorted r j hr hj h1
      · have : r = j := by omega
        subst this; exact Nat.le_refl _
    rw [e, hs] at this
    omega
  · have h1 := (h.place _ (List.getElem_mem hr)).1
    have h2 := h.len
    omega

/-- C229. `get_line` gives the lines of the content, each with its line break. -/
theorem C229_line {L : Lexer} (hL : L.Sane) (content : List Nat) (f : Flags) (hf : f.Top) (n : Nat) (d : Ctx)
    (h : parse L n .code (Ctx.new content f) = some d) (i : Nat) (l : List Nat) (hl : (linesOf content)[i]? = some l) :
    getLine content d.tokens i = some l := by
  obtain ⟨h1, h2⟩ := parse_result hL hf h
  have hex : ∃ a, Begins content i a ∧ a < content.length := by
    apply Classical.byContradiction
    intro hne
    rw [linesOf_none i content (fun a ha hlt => hne ⟨a, ha, hlt⟩)] at hl
    cases hl
  obtain ⟨a, ha, hlt⟩ := hex
  have c := h1.cut
  rw [h1.whole h2] at c
  obtain ⟨t, ht, hts, htl⟩ := c.begin ha hlt
  obtain ⟨j, hj, e⟩ := List.getElem_of_mem (List.mem_filter.1 ht).1
  have hjl : lineAt d.tokens j = i := by unfold lineAt; rw [List.getElem?_eq_getElem hj, e]; simp [htl]
  obtain ⟨l1, l2, l3⟩ := lower_spec d.tokens i (lines_sorted h1)
  obtain ⟨u1, u2, u3⟩ := upper_spec d.tokens i (lines_sorted h1)
  have hlj : lower d.tokens i ≤ j := Nat.le_of_not_lt (fun x => by have := l2 j x; omega)
  have huj : j < upper d.tokens i := Nat.lt_of_not_le (fun x => by have := u3 j x hj; omega)
  have hstart : startAt d.tokens (lower d.tokens i) = a := by
    refine first_place h1 h2 ha (by omega) (l3 _ (Nat.le_refl _) (by omega)) ?_
    intro k hk hk'
    exact Nat.le_of_not_lt (fun x => by have := l2 k x; omega)
  unfold getLine
  rw [if_neg (fun e => by rw [e] at hj; exact absurd hj (Nat.not_lt_zero _)), if_neg (by omega)]
  dsimp only
  rw [hstart, ← hl]
  refine (linesOf_slice i content a _ ha hlt ?_).symm
  have noBegin : upper d.tokens i = d.tokens.length → ∀ b, Begins content (i + 1) b → ¬ b < content.length := by
    intro hu b hb hbl
    obtain ⟨t', ht', hts', htl'⟩ := c.begin hb hbl
    obtain ⟨k, hk, e'⟩ := List.getElem_of_mem (List.mem_filter.1 ht').1
    have := u2 k (by omega)
    unfold lineAt at this
    rw [List.getElem?_eq_getElem hk, e'] at this
    simp [htl'] at this
    omega
  split
  · rename_i hu
    by_cases hcnt : i + 1 ≤ (content.take content.length).count 10
    · obtain ⟨b, hb1, hb2⟩ := begins_exists content (i + 1) content.length hcnt
      have : b = content.length := by have := noBegin hu b hb2; omega
      exact .inl (this ▸ hb2)
    · refine .inr ⟨rfl, ?_⟩
      have := count_mono content (a := a) (b := content.length) (by omega)
      rw [ha.count] at this
      omega
  · rename_i hu
    have hul : upper d.tokens i < d.tokens.length := by omega
    have hline := u3 _ (Nat.le_refl _) hul
    have el : lineAt d.tokens (upper d.tokens i) = (content.take d.tokens[upper d.tokens i].start).count 10 := by
      unfold lineAt; rw [List.getElem?_eq_getElem hul]; exact (h1.place _ (List.getElem_mem hul)).2.1
    obtain ⟨b, hb1, hb2⟩ := begins_exists content (i + 1) d.tokens[upper d.tokens i].start (by rw [← el]; exact hline)
    left
    rw [first_place h1 h2 hb2 hul hline ?_]
    · exact hb2
    · intro k hk hk'
      exact Nat.le_of_not_lt (fun x => by have := u2 k x; omega)

/-- C229. Where the content has no line there is none, or an empty one: after the last line break, if a token without a length
stands there. -/
theorem C229_none {L : Lexer} (hL : L.Sane) (content : List Nat) (f : Flags) (hf : f.Top) (n : Nat) (d : Ctx)
    (h : parse L n .code (Ctx.new content f) = some d) (i : Nat) (hl : (linesOf content)[i]? = none) :
    getLine content d.tokens i = none ∨ getLine content d.tokens i = some [] := by
  obtain ⟨h1, h2⟩ := parse_result hL hf h
  obtain ⟨l1, l2, l3⟩ := lower_spec d.tokens i (lines_sorted h1)
  obtain ⟨u1, u2, u3⟩ := upper_spec d.tokens i (lines_sorted h1)
  unfold getLine
  split
  · exact .inl rfl
  · split
    · exact .inl rfl
    · rename_i hne
      right
      have hlu : lower d.tokens i < d.tokens.length := by
        apply Nat.lt_of_not_le
        intro hge
        have : upper d.tokens i < d.tokens.length := by omega
        have a := u3 _ (Nat.le_refl _) this
        have b := l2 (upper d.tokens i) (by omega)
        omega
      have hline := l3 _ (Nat.le_refl _) hlu
      have el : lineAt d.tokens (lower d.tokens i) = (content.take d.tokens[lower d.tokens i].start).count 10 := by
        unfold lineAt; rw [List.getElem?_eq_getElem hlu]; exact (h1.place _ (List.getElem_mem hlu)).2.1
      obtain ⟨b, hb1, hb2⟩ := begins_exists content i d.tokens[lower d.tokens i].start (by rw [← el]; exact hline)
      have hbl : b = content.length := by
        have := hb2.le
        rcases Nat.lt_or_ge b content.length with hlt | hge
        · exfalso
          by_cases hcnt : i + 1 ≤ (content.take content.length).count 10
          · obtain ⟨s, hs1, hs2⟩ := begins_exists content (i + 1) content.length hcnt
            rw [linesOf_slice i content b s hb2 hlt (.inl hs2)] at hl; cases hl
          · rw [linesOf_slice i content b content.length hb2 hlt (.inr ⟨rfl, ?_⟩)] at hl
            · cases hl
            · have := count_mono content (a := b) (b := content.length) (by omega)
              rw [hb2.count] at this
              omega
        · omega
      have hs : startAt d.tokens (lower d.tokens i) = content.length := by
        rw [← hbl]
        refine first_place h1 h2 hb2 hlu hline ?_
        intro k hk hk'
        exact Nat.le_of_not_lt (fun x => by have := l2 k x; omega)
      dsimp only
      rw [hs, List.drop_length, List.take_nil]

/-- `a(`, a line break, `)b` and a line break: two lines. -/
example : ((parse toy 20 .code (Ctx.new [97, 40, 10, 41, 98, 10] {})).map fun d =>
      (List.range 4).map (getLine [97, 40, 10, 41, 98, 10] d.tokens)) =
    some [some [97, 40, 10], some [41, 98, 10], none, none] := by decide +kernel

/-! ### C228 -/

theorem layerLoop_sound (ls : List Layer) (t : Nat) : ∀ n low high m, layerLoop ls t n low high = some m →
    ∃ l e, ls[m]? = some l ∧ l.last = some e ∧ l.first ≤ t ∧ t ≤ e
  | 0, low, high, m, h => by cases h
  | n + 1, low, high, m, h => by
    unfold layerLoop at h
    split at h
    · split at h
      · cases h
      · rename_i l hl
        split at h
        · exact layerLoop_sound ls t n _ _ m h
        · rename_i h1
          split at h
          · exact layerLoop_sound ls t n _ _ m h
          · rename_i h2
            cases h
            unfold Layer.before at h2
            split at h2
            · exact absurd rfl h2
            · rename_i e he
              exact ⟨l, e, hl, he, by omega, by simpa using h2⟩
    · cases h

/-- C228, in one direction: the token is in the layer which is found. -/
theorem C228_inside_partial (ls : List Layer) (t m : Nat) (h : searchLayer ls t = some m) :
    ∃ l e, ls[m]? = some l ∧ l.last = some e ∧ l.first ≤ t ∧ t ≤ e := layerLoop_sound ls t _ _ _ m h

theorem layerLoop_finds (ls : List Layer) (t m : Nat) (l : Layer) (e : Nat) (hm : ls[m]? = some l) (he : l.last = some e)
    (h1 : l.first ≤ t) (h2 : t ≤ e)
    (hs : ∀ (i j : Nat) (a b : Layer), i < j → ls[i]? = some a → ls[j]? = some b → ∃ x, a.last = some x ∧ a.first ≤ x ∧ x < b.first) :
    ∀ n low high, high - low < n → low ≤ m → m < high → high ≤ ls.length → layerLoop ls t n low high = some m
  | 0, low, high, h, _, _, _ => absurd h (Nat.not_lt_zero _)
  | n + 1, low, high, h, hlow, hhigh, hlen => by
    unfold layerLoop
    have hmid := List.getElem?_eq_getElem (by omega : (low + high) / 2 < ls.length)
    rw [if_pos (by omega), hmid]
    dsimp only
    rcases Nat.lt_trichotomy ((low + high) / 2) m with hlt | heq | hgt
    · obtain ⟨x, hx, hx1, hx2⟩ := hs _ _ _ _ hlt hmid hm
      rw [if_neg (by omega), if_pos (by unfold Layer.before; rw [hx]; simpa using (by omega : x < t))]
      exact layerLoop_finds ls t m l e hm he h1 h2 hs n _ _ (by omega) (by omega) hhigh hlen
    · have hl : ls[(low + high) / 2] = l := by rw [← heq] at hm; rw [hmid] at hm; simpa using hm
      rw [hl, if_neg (by omega), if_neg (by unfold Layer.before; rw [he]; simpa using h2), heq]
    · obtain ⟨x, hx, hx1, hx2⟩ := hs _ _ _ _ hgt hm hmid
      rw [he] at hx; cases hx
      rw [if_pos (by omega)]
      exact layerLoop_finds ls t m l e hm he h1 h2 hs n _ _ (by omega) hlow hgt (by omega)

/-- C228, in the other direction: if no layer is in an other one, then the layer of a token is found. -/
theorem C228_found_partial (ls : List Layer) (t m : Nat) (l : Layer) (e : Nat) (hm : ls[m]? = some l) (he : l.last = some e)
    (h1 : l.first ≤ t) (h2 : t ≤ e)
    (hs : ∀ (i j : Nat) (a b : Layer), i < j → ls[i]? = some a → ls[j]? = some b → ∃ x, a.last = some x ∧ a.first ≤ x ∧ x < b.first) :
    searchLayer ls t = some m := by
  have := (List.getElem?_eq_some_iff.1 hm).1
  exact layerLoop_finds ls t m l e hm he h1 h2 hs _ _ _ (by omega) (Nat.zero_le _) this (Nat.le_refl _)

/-- C228 does not hold: a token of the outer layer, after an inner layer is not found at all. -/
theorem C228_missed_violated (a b x y t : Nat) (_h1 : a < x) (h2 : x ≤ y) (h3 : y < t) (_h4 : t ≤ b) :
    searchLayer [⟨none, a, some b⟩, ⟨some 0, x, some y⟩] t = none := by
  have h5 : ¬ t < x := by omega
  simp [searchLayer, layerLoop, Layer.before, h5, h3]

/-- C228 does not hold: of a layer, the one in it and the one in that the one in the middle is found for each token of the
innermost one. -/
theorem C228_innermost_violated (a b c d e f t : Nat) (_h1 : a < b) (h2 : b < c) (h3 : c ≤ t) (h4 : t ≤ d) (h5 : d < e) (_h6 : e < f) :
    searchLayer [⟨none, a, some f⟩, ⟨some 0, b, some e⟩, ⟨some 1, c, some d⟩] t = some 1 := by
  have h7 : ¬ t < b := by omega
  have h8 : t ≤ e := by omega
  simp [searchLayer, layerLoop, Layer.before, h7, h8]

/-- `(a(b)c)` and its layers: the `c` has none. `(a(b(c)))`: the innermost `c` is in the second one. -/
example : ((parse toy 20 .code (Ctx.new [40, 97, 40, 98, 41, 99, 41] {})).map fun d => (d.layers, searchLayer d.layers 5)) =
    some ([⟨none, 0, some 6⟩, ⟨some 0, 2, some 4⟩], none) := by decide +kernel

example : ((parse toy 20 .code (Ctx.new [40, 97, 40, 98, 40, 99, 41, 41, 41] {})).map fun d => (d.layers, searchLayer d.layers 5)) =
    some ([⟨none, 0, some 8⟩, ⟨some 0, 2, some 7⟩, ⟨some 1, 4, some 6⟩], some 1) := by decide +kernel

end Verif.Highlight
