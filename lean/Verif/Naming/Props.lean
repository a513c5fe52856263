import Verif.Naming.Model

/-!
# Words of names
-/

namespace Verif.Naming

/-! ## Splitting -/

theorem lastIs_append (P : Nat → Bool) (l : Text) (c : Nat) : lastIs P (l ++ [c]) = P c := by
  simp [lastIs]

/-- All characters are numeric, or none is. -/
def Homogeneous (C : Chars) (w : Text) : Prop := (∀ c ∈ w, C.numeric c = true) ∨ ∀ c ∈ w, C.numeric c = false

/-- Upper case characters only, or others, before which one of upper case may be. -/
inductive Cased (C : Chars) : Text → Prop
  | upper (w : Text) : w ≠ [] → (∀ c ∈ w, C.upper c = true) → Cased C w
  | lower (w : Text) : w ≠ [] → (∀ c ∈ w, C.upper c = false) → Cased C w
  | capital (u : Nat) (w : Text) : C.upper u = true → w ≠ [] → (∀ c ∈ w, C.upper c = false) → Cased C (u :: w)

/-- Why a word ends where the next begins: an underscore aside, numbers begin or end, or an upper case
character follows another, or a capitalized word follows upper case characters. -/
inductive Border (C : Chars) : Text → Text → Prop
  | number (v w : Text) (a b : Nat) : C.numeric a ≠ C.numeric b → Border C (v ++ [a]) (b :: w)
  | begins (v w : Text) (a b : Nat) : C.upper a = false → C.upper b = true → Border C (v ++ [a]) (b :: w)
  | capital (v w : Text) (a b c : Nat) : C.upper a = true → C.upper b = true → C.upper c = false → Border C (v ++ [a]) (b :: c :: w)

/-- What is next to another in a list is related to it. -/
inductive Chain (R : Text → Text → Prop) : List Text → Prop
  | nil : Chain R []
  | one (w : Text) : Chain R [w]
  | cons (v w : Text) (ws : List Text) : R v w → Chain R (w :: ws) → Chain R (v :: w :: ws)

theorem numbers_spec (C : Chars) (cs prev : Text) (h : Homogeneous C prev) :
    (byNumbers C prev cs).flatten = prev ++ cs ∧ (∀ w ∈ byNumbers C prev cs, w ≠ [] ∧ Homogeneous C w) := by
  induction cs generalizing prev with
  | nil =>
    unfold byNumbers
    split
    · rename_i h0; simp [h0]
    · rename_i h0; simp [h0, h]
  | cons c cs ih =>
    unfold byNumbers
    split
    · rename_i h0
      have hc : Homogeneous C [c] := by
        cases hn : C.numeric c
        · right; simpa using hn
        · left; simpa using hn
      have := ih [c] hc
      refine ⟨by simp [this.1], ?_⟩
      intro w hw
      rcases List.mem_cons.1 hw with rfl | hw
      · exact ⟨h0.1, h⟩
      · exact this.2 w hw
    · rename_i h0
      have hh : Homogeneous C (prev ++ [c]) := by
        rcases List.eq_nil_or_concat prev with rfl | ⟨p, a, rfl⟩
        · cases hn : C.numeric c
          · right; simpa using hn
          · left; simpa using hn
        · rw [List.concat_eq_append, lastIs_append] at h0
          have ha : C.numeric a = C.numeric c := by
            apply Classical.byContradiction
            intro hc
            exact h0 ⟨by simp, hc⟩
          rw [List.concat_eq_append] at h ⊢
          rcases h with h | h
          · left
            intro x hx
            rcases List.mem_append.1 hx with hx | hx
            · exact h x hx
            · rw [List.mem_singleton.1 hx, ← ha]; exact h a (by simp)
          · right
            intro x hx
            rcases List.mem_append.1 hx with hx | hx
            · exact h x hx
            · rw [List.mem_singleton.1 hx, ← ha]; exact h a (by simp)
      have := ih (prev ++ [c]) hh
      exact ⟨by simp [this.1], this.2⟩

theorem numbers_head (C : Chars) (cs prev : Text) (h : prev ≠ []) :
    ∃ w ws, byNumbers C prev cs = (prev ++ w) :: ws := by
  induction cs generalizing prev with
  | nil => exact ⟨[], [], by simp [byNumbers, h]⟩
  | cons c cs ih =>
    unfold byNumbers
    split
    · exact ⟨[], _, by simp; rfl⟩
    · obtain ⟨w, ws, e⟩ := ih (prev ++ [c]) (by simp)
      exact ⟨c :: w, ws, by simp [e]⟩

/-- What was collected: nothing, upper case only, or a word with others. -/
theorem casing_spec (C : Chars) (cs prev : Text) (h : prev = [] ∨ Cased C prev) :
    (byCasing C prev cs).flatten = prev ++ cs ∧ ∀ w ∈ byCasing C prev cs, Cased C w := by
  induction cs generalizing prev with
  | nil =>
    unfold byCasing
    split
    · rename_i h0; simp [h0]
    · rename_i h0
      rcases h with h | h
      · exact absurd h h0
      · simp [h]
  | cons c cs ih =>
    have hone : Cased C [c] := by
      cases hu : C.upper c
      · exact .lower _ (by simp) (by simpa using hu)
      · exact .upper _ (by simp) (by simpa using hu)
    unfold byCasing
    split
    · rename_i h0
      have := ih [c] (Or.inr hone)
      exact ⟨by simp [this.1, h0], this.2⟩
    · rename_i h0
      have hp : Cased C prev := by
        rcases h with h | h
        · exact absurd h h0
        · exact h
      rcases List.eq_nil_or_concat prev with rfl | ⟨p, a, e⟩
      · exact absurd rfl h0
      rw [List.concat_eq_append] at e
      -- with an upper case character at the end, everything is upper case
      have hall : C.upper a = true → ∀ x ∈ p ++ [a], C.upper x = true := by
        intro ha
        rw [e] at hp
        generalize hq : p ++ [a] = q at hp
        cases hp with
        | upper _ _ h => exact h
        | lower _ _ h =>
          have := h a (by rw [← hq]; simp)
          rw [ha] at this; cases this
        | capital u w hu hw h =>
          have hmem : a ∈ w := by
            have : (u :: w).getLast? = some a := by rw [← hq]; simp
            rw [List.getLast?_cons] at this
            rcases List.eq_nil_or_concat w with rfl | ⟨y, z, e⟩
            · exact absurd rfl hw
            · rw [List.concat_eq_append] at e
              rw [e] at this ⊢
              simp at this
              simp [this]
          have := h a hmem
          rw [ha] at this; cases this
      have hlow : C.upper a = false → C.upper c = false → Cased C (p ++ [a] ++ [c]) := by
        intro ha hc
        rw [e] at hp
        generalize hq : p ++ [a] = q at hp
        cases hp with
        | upper _ _ h =>
          have := h a (by rw [← hq]; simp)
          rw [ha] at this; cases this
        | lower _ _ h =>
          refine .lower _ (by simp) ?_
          intro x hx
          rcases List.mem_append.1 hx with hx | hx
          · exact h x hx
          · rw [List.mem_singleton.1 hx]; exact hc
        | capital u w hu hw h =>
          refine .capital u (w ++ [c]) hu (by simp) ?_
          intro x hx
          rcases List.mem_append.1 hx with hx | hx
          · exact h x hx
          · rw [List.mem_singleton.1 hx]; exact hc
      rw [e, lastIs_append]
      split
      · rename_i hc
        split
        · rename_i ha
          have := ih (p ++ [a] ++ [c]) (Or.inr (.upper _ (by simp) (by
            intro x hx
            rcases List.mem_append.1 hx with hx | hx
            · exact hall ha x hx
            · rw [List.mem_singleton.1 hx]; exact hc)))
          exact ⟨by rw [this.1]; simp, this.2⟩
        · have := ih [c] (Or.inr hone)
          refine ⟨by simp [this.1], ?_⟩
          intro w hw
          rcases List.mem_cons.1 hw with rfl | hw
          · rw [e] at hp; exact hp
          · exact this.2 w hw
      · rename_i hc
        have hc' : C.upper c = false := by simpa using hc
        split
        · rename_i ha
          have hd : (p ++ [a]).drop ((p ++ [a]).length - 1) = [a] := by simp
          rw [hd]
          have hcap : Cased C ([a] ++ [c]) := .capital a [c] ha.1 (by simp) (by simpa using hc')
          have := ih ([a] ++ [c]) (Or.inr hcap)
          have hdl : (p ++ [a]).dropLast = p := by simp
          rw [hdl]
          refine ⟨by rw [List.flatten_cons, this.1]; simp, ?_⟩
          intro w hw
          rcases List.mem_cons.1 hw with rfl | hw
          · refine .upper _ ?_ fun x hx => hall ha.1 x (by simp [hx])
            intro h
            rw [h] at ha
            simp at ha
          · exact this.2 w hw
        · rename_i ha
          have hcd : Cased C (p ++ [a] ++ [c]) := by
            cases hu : C.upper a
            · exact hlow hu hc'
            · have hl : p = [] := by
                cases p with
                | nil => rfl
                | cons x p => exact absurd ⟨hu, by simp⟩ ha
              rw [hl]
              exact .capital a [c] hu (by simp) (by simpa using hc')
          have := ih (p ++ [a] ++ [c]) (Or.inr hcd)
          exact ⟨by rw [this.1]; simp, this.2⟩

theorem underscore_spec (cs cur : Text) (h : 95 ∉ cur) :
    (splitUnderscore cur cs).flatten = cur ++ cs.filter (· ≠ 95) ∧ ∀ w ∈ splitUnderscore cur cs, 95 ∉ w := by
  induction cs generalizing cur with
  | nil => simp [splitUnderscore, h]
  | cons c cs ih =>
    unfold splitUnderscore
    split
    · rename_i hc
      have := ih [] (by simp)
      refine ⟨by simp [this.1, hc], ?_⟩
      intro w hw
      rcases List.mem_cons.1 hw with rfl | hw
      · exact h
      · exact this.2 w hw
    · rename_i hc
      have := ih (cur ++ [c]) (by simp [h]; omega)
      refine ⟨by rw [this.1]; simp [hc], this.2⟩

theorem flatten_filter (l : List Text) : (l.filter (· ≠ [])).flatten = l.flatten := by
  induction l with
  | nil => rfl
  | cons w l ih => cases w <;> simp_all

theorem flatMap_flatten (l : List Text) (f : Text → List Text) (h : ∀ p ∈ l, (f p).flatten = p) :
    (l.flatMap f).flatten = l.flatten := by
  induction l with
  | nil => rfl
  | cons p l ih =>
    rw [List.flatMap_cons, List.flatten_append, h p List.mem_cons_self, ih fun q hq => h q (List.mem_cons_of_mem _ hq)]
    rfl

/-- C312: the words of a name are, one after the other, the name without underscores. -/
theorem C312_nothing_lost (C : Chars) (name : Text) : (words C name).flatten = name.filter (· ≠ 95) := by
  unfold words
  rw [flatMap_flatten, flatten_filter, (underscore_spec name [] (by simp)).1]
  · rfl
  · intro p _
    rw [flatMap_flatten]
    · exact (numbers_spec C p [] (Or.inl (by simp))).1
    · intro q _
      exact (casing_spec C q [] (Or.inl rfl)).1

/-- C312: every word is not empty, has no underscore, is a number or has no numbers, and is upper case or
others behind at most one of upper case. -/
theorem C312_words (C : Chars) (name w : Text) (h : w ∈ words C name) :
    w ≠ [] ∧ 95 ∉ w ∧ Homogeneous C w ∧ Cased C w := by
  unfold words at h
  rw [List.mem_flatMap] at h
  obtain ⟨part, hp, h⟩ := h
  rw [List.mem_flatMap] at h
  obtain ⟨q, hq, h⟩ := h
  have h1 := (underscore_spec name [] (by simp)).2 part (List.mem_filter.1 hp).1
  have h2 := numbers_spec C part [] (Or.inl (by simp))
  have h3 := casing_spec C q [] (Or.inl rfl)
  have hc := h3.2 w h
  have hwq : ∀ c ∈ w, c ∈ q := by
    intro c hc
    have : q = (byCasing C [] q).flatten := by rw [h3.1]; rfl
    rw [this, List.mem_flatten]
    exact ⟨w, h, hc⟩
  have hqp : ∀ c ∈ q, c ∈ part := by
    intro c hc
    have : part = (byNumbers C [] part).flatten := by rw [h2.1]; rfl
    rw [this, List.mem_flatten]
    exact ⟨q, hq, hc⟩
  refine ⟨?_, fun hm => h1 (hqp _ (hwq _ hm)), ?_, hc⟩
  · cases hc with
    | upper _ h _ => exact h
    | lower _ h _ => exact h
    | capital _ _ _ _ _ => simp
  · rcases (h2.2 q hq).2 with h | h
    · exact Or.inl fun c hc => h c (hwq c hc)
    · exact Or.inr fun c hc => h c (hwq c hc)

theorem casing_head (C : Chars) (cs prev : Text) (h : prev ≠ []) :
    ∃ b w ws, byCasing C prev cs = (b :: w) :: ws ∧ prev.head? = some b ∧
      (∀ x y zs, prev = x :: y :: zs → C.upper y = false → ∃ w', w = y :: w') := by
  induction cs generalizing prev with
  | nil =>
    cases prev with
    | nil => exact absurd rfl h
    | cons b w => exact ⟨b, w, [], by simp [byCasing], rfl, by rintro x y zs e _; cases e; exact ⟨_, rfl⟩⟩
  | cons c cs ih =>
    unfold byCasing
    rw [if_neg h]
    have happ : ∃ b w ws, byCasing C (prev ++ [c]) cs = (b :: w) :: ws ∧ prev.head? = some b ∧
        (∀ x y zs, prev = x :: y :: zs → C.upper y = false → ∃ w', w = y :: w') := by
      obtain ⟨b, w, ws, h1, h2, h3⟩ := ih (prev ++ [c]) (by simp)
      cases prev with
      | nil => exact absurd rfl h
      | cons p ps => exact ⟨b, w, ws, h1, by simpa using h2, fun x y zs e hy => h3 x y (zs ++ [c]) (by rw [e]; rfl) hy⟩
    split
    · split
      · exact happ
      · cases prev with
        | nil => exact absurd rfl h
        | cons b w => exact ⟨b, w, _, rfl, rfl, by rintro x y zs e _; cases e; exact ⟨_, rfl⟩⟩
    · split
      · rename_i hl
        cases prev with
        | nil => exact absurd rfl h
        | cons b w =>
          cases w with
          | nil => simp at hl
          | cons d w =>
            refine ⟨b, (d :: w).dropLast, _, by rw [List.dropLast_cons_of_ne_nil (by simp)], rfl, ?_⟩
            rintro x y zs e hy
            cases e
            cases w with
            | nil => simp [lastIs] at hl; rw [hl] at hy; cases hy
            | cons z w => exact ⟨(z :: w).dropLast, rfl⟩
      · exact happ

theorem casing_chain (C : Chars) (cs prev : Text) (h : prev = [] ∨ Cased C prev) :
    Chain (Border C) (byCasing C prev cs) := by
  induction cs generalizing prev with
  | nil =>
    unfold byCasing
    split
    · exact .nil
    · exact .one _
  | cons c cs ih =>
    have hone : Cased C [c] := by
      cases hu : C.upper c
      · exact .lower _ (by simp) (by simpa using hu)
      · exact .upper _ (by simp) (by simpa using hu)
    have hsp := casing_spec C (c :: cs) prev h
    have hnext := fun (p : Text) => casing_spec C [c] p
    unfold byCasing
    split
    · exact ih [c] (Or.inr hone)
    · rename_i h0
      have hp : Cased C prev := by
        rcases h with h | h
        · exact absurd h h0
        · exact h
      rcases List.eq_nil_or_concat prev with rfl | ⟨p, a, e⟩
      · exact absurd rfl h0
      rw [List.concat_eq_append] at e
      have hsub : ∀ w, prev ++ [c] = w → byCasing C prev [c] = [w] → Cased C w := by
        intro w _ hb
        exact (hnext prev (Or.inr hp)).2 w (by rw [hb]; simp)
      split
      · rename_i hc
        split
        · rename_i ha
          refine ih _ (Or.inr (hsub _ rfl ?_))
          unfold byCasing
          rw [if_neg h0, if_pos hc, if_pos ha]
          simp [byCasing]
        · rename_i ha
          rw [e, lastIs_append] at ha
          obtain ⟨b, w, ws, h1, h2, _⟩ := casing_head C cs [c] (by simp)
          have := ih [c] (Or.inr hone)
          rw [h1] at this ⊢
          cases h2
          rw [e]
          exact .cons _ _ _ (.begins p w a c (by simpa using ha) hc) this
      · rename_i hc
        have hc' : C.upper c = false := by simpa using hc
        split
        · rename_i ha
          rw [e, lastIs_append] at ha
          have hd : prev.drop (prev.length - 1) = [a] := by rw [e]; simp
          rw [hd]
          have hcap : Cased C ([a] ++ [c]) := .capital a [c] ha.1 (by simp) (by simpa using hc')
          have hch := ih ([a] ++ [c]) (Or.inr hcap)
          obtain ⟨b, w, ws, h1, h2, h3⟩ := casing_head C cs ([a] ++ [c]) (by simp)
          obtain ⟨w', rfl⟩ := h3 a c [] rfl hc'
          rw [h1] at hch ⊢
          cases h2
          have hdl : prev.dropLast = p := by rw [e]; simp
          rw [hdl]
          rcases List.eq_nil_or_concat p with rfl | ⟨r, z, rfl⟩
          · simp at ha
          · rw [List.concat_eq_append] at e ⊢
            refine .cons _ _ _ (.capital r w' z a c ?_ ha.1 hc') hch
            rw [e] at hp
            generalize hq : r ++ [z] ++ [a] = q at hp
            have hza : z ∈ q := by rw [← hq]; simp
            have haq : a ∈ q := by rw [← hq]; simp
            cases hp with
            | upper _ _ h => exact h z hza
            | lower _ _ h =>
              have := h a haq
              rw [ha.1] at this; cases this
            | capital u w hu hw h =>
              exfalso
              have hmem : a ∈ w := by
                have : (u :: w).getLast? = some a := by rw [← hq]; simp
                rcases List.eq_nil_or_concat w with rfl | ⟨y, x, e⟩
                · exact absurd rfl hw
                · rw [List.concat_eq_append] at e
                  rw [List.getLast?_cons, e] at this
                  rw [e]
                  simp at this
                  simp [this]
              have := h a hmem
              rw [ha.1] at this; cases this
        · rename_i ha
          refine ih _ (Or.inr (hsub _ rfl ?_))
          unfold byCasing
          rw [if_neg h0, if_neg hc, if_neg ha]
          simp [byCasing]

theorem chain_append (R : Text → Text → Prop) (l m : List Text) (hl : Chain R l) (hm : Chain R m)
    (h : ∀ v w, l.getLast? = some v → m.head? = some w → R v w) : Chain R (l ++ m) := by
  induction hl with
  | nil => exact hm
  | one v =>
    cases m with
    | nil => exact .one v
    | cons w m => exact .cons v w m (h v w rfl rfl) hm
  | cons v w ws hvw _ ih => exact .cons v w (ws ++ m) hvw (ih fun a b ha hb => h a b (by simpa using ha) hb)

theorem flatten_head (l : List Text) (h : ∀ w ∈ l, w ≠ []) (b : Nat) (t : Text) (hf : l.flatten = b :: t) :
    ∃ w, l.head? = some (b :: w) := by
  cases l with
  | nil => simp at hf
  | cons p l =>
    cases p with
    | nil => exact absurd rfl (h [] List.mem_cons_self)
    | cons x p => simp at hf; exact ⟨p, by simp [hf.1]⟩

theorem flatten_last (l : List Text) (h : ∀ w ∈ l, w ≠ []) (a : Nat) (t : Text) (hf : l.flatten = t ++ [a]) :
    ∃ w, l.getLast? = some (w ++ [a]) := by
  rcases List.eq_nil_or_concat l with rfl | ⟨l', p, rfl⟩
  · simp at hf
  · rw [List.concat_eq_append] at hf h ⊢
    have hp := h p (by simp)
    rcases List.eq_nil_or_concat p with rfl | ⟨q, x, rfl⟩
    · exact absurd rfl hp
    · rw [List.concat_eq_append, List.flatten_append, List.flatten_singleton, ← List.append_assoc] at hf
      have := List.append_inj_right' hf rfl
      simp at this
      exact ⟨q, by simp [this]⟩

theorem cased_ne (C : Chars) (w : Text) (h : Cased C w) : w ≠ [] := by
  cases h with
  | upper _ h _ => exact h
  | lower _ h _ => exact h
  | capital _ _ _ _ _ => simp

theorem underscore_none (cs cur : Text) (h : 95 ∉ cs) : splitUnderscore cur cs = [cur ++ cs] := by
  induction cs generalizing cur with
  | nil => simp [splitUnderscore]
  | cons c cs ih =>
    simp at h
    unfold splitUnderscore
    rw [if_neg (fun e => h.1 e.symm), ih _ h.2]
    simp

/-- Numbers begin or end between what is next to each other. -/
theorem numbers_border (C : Chars) (cs prev : Text) :
    Chain (fun v w => ∃ x y a b, v = x ++ [a] ∧ w = b :: y ∧ C.numeric a ≠ C.numeric b) (byNumbers C prev cs) := by
  induction cs generalizing prev with
  | nil =>
    unfold byNumbers
    split
    · exact .nil
    · exact .one _
  | cons c cs ih =>
    unfold byNumbers
    split
    · rename_i h0
      have h := ih [c]
      obtain ⟨w, ws, e⟩ := numbers_head C cs [c] (by simp)
      rw [e] at h ⊢
      refine .cons _ _ _ ?_ h
      rcases List.eq_nil_or_concat prev with rfl | ⟨p, a, rfl⟩
      · exact absurd rfl h0.1
      · rw [List.concat_eq_append, lastIs_append] at h0
        rw [List.concat_eq_append]
        exact ⟨p, w, a, c, rfl, rfl, h0.2⟩
    · exact ih _

/-- Splitting every part by casing keeps the borders between the parts. -/
theorem chain_refine (C : Chars) (l : List Text)
    (hl : Chain (fun v w => ∃ x y a b, v = x ++ [a] ∧ w = b :: y ∧ C.numeric a ≠ C.numeric b) l) :
    Chain (Border C) (l.flatMap (byCasing C [])) := by
  induction hl with
  | nil => exact .nil
  | one v => simpa using casing_chain C v [] (Or.inl rfl)
  | cons v w ws hvw hc ih =>
    rw [List.flatMap_cons]
    refine chain_append _ _ _ (casing_chain C v [] (Or.inl rfl)) ih ?_
    intro x y hx hy
    obtain ⟨p, q, a, b, rfl, rfl, hab⟩ := hvw
    have h1 := casing_spec C (p ++ [a]) [] (Or.inl rfl)
    have h2 := casing_spec C (b :: q) [] (Or.inl rfl)
    obtain ⟨x', hx'⟩ := flatten_last _ (fun w hw => cased_ne C w (h1.2 w hw)) a p h1.1
    obtain ⟨y', hy'⟩ := flatten_head _ (fun w hw => cased_ne C w (h2.2 w hw)) b q h2.1
    rw [hx'] at hx
    cases hx
    rw [List.flatMap_cons] at hy
    cases hcb : byCasing C [] (b :: q) with
    | nil => rw [hcb] at hy'; simp at hy'
    | cons z zs =>
      rw [hcb] at hy hy'
      simp at hy hy'
      rw [← hy, hy']
      exact .number x' y' a b hab

/-- C313: a name without underscores is split nowhere but where numbers begin or end, an upper case character
follows another one, or a capitalized word follows upper case. -/
theorem C313_borders (C : Chars) (name : Text) (h : 95 ∉ name) : Chain (Border C) (words C name) := by
  unfold words
  rw [underscore_none name [] h]
  cases name with
  | nil => exact .nil
  | cons c cs =>
    simp only [List.nil_append, ne_eq, reduceCtorEq, not_false_eq_true, decide_true, List.filter_cons_of_pos, List.filter_nil,
      List.flatMap_cons, List.flatMap_nil, List.append_nil]
    exact chain_refine C _ (numbers_border C (c :: cs) [])

/-- ASCII. -/
def ascii : Chars where
  numeric c := decide (48 ≤ c ∧ c ≤ 57)
  upper c := decide (65 ≤ c ∧ c ≤ 90)
  space c := c == 32 || (decide (9 ≤ c) && decide (c ≤ 13))
  fold c := if 65 ≤ c ∧ c ≤ 90 then [c + 32] else [c]

/-- `HTTPServer2_x` -/
example : words ascii [72, 84, 84, 80, 83, 101, 114, 118, 101, 114, 50, 95, 120] =
    [[72, 84, 84, 80], [83, 101, 114, 118, 101, 114], [50], [120]] := by decide

end Verif.Naming
