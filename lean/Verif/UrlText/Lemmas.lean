import Verif.UrlText.Regex

/-! What the matcher of `Regex.lean` finds is a match, and if there is a match it finds one. -/
namespace Verif.UrlText

/-- Any number of steps. -/
inductive Steps (R : Pos → Pos → Prop) : Pos → Pos → Prop where
  | refl (s : Pos) : Steps R s s
  | step {s m t : Pos} : R s m → Steps R m t → Steps R s t

/-- A pattern matches from one position to another. -/
def Re.Sem : Re → Pos → Pos → Prop
  | .eps, s, t => t = s
  | .chr p, s, t => ∃ c r, s.rest = c :: r ∧ p c = true ∧ t = ⟨some c, r, s.caps⟩
  | .seq a b, s, t => ∃ m, a.Sem s m ∧ b.Sem m t
  | .alt a b, s, t => a.Sem s t ∨ b.Sem s t
  | .star _ r, s, t => Steps r.Sem s t
  | .cap n r, s, t =>
    ∃ m, r.Sem s m ∧ t = { m with caps := (n, s.rest.take (s.rest.length - m.rest.length)) :: m.caps }
  | .behind p, s, t => p s.prev = true ∧ t = s

theorem loop_sound {α : Type} {f : Pos → (Pos → Option α) → Option α} {R : Pos → Pos → Prop}
    (hf : ∀ s k x, f s k = some x → ∃ t, R s t ∧ k t = some x) (g : Bool) (k : Pos → Option α) (x : α) :
    ∀ n s, loop f g k n s = some x → ∃ t, Steps R s t ∧ k t = some x := by
  intro n
  induction n with
  | zero => intro s h; exact ⟨s, .refl s, h⟩
  | succ n ih =>
    intro s h
    have key : f s (loop f g k n) = some x ∨ k s = some x := by
      simp only [loop] at h
      split at h
      · rcases Option.or_eq_some_iff.1 h with h | ⟨_, h⟩
        · exact .inl h
        · exact .inr h
      · rcases Option.or_eq_some_iff.1 h with h | ⟨_, h⟩
        · exact .inr h
        · exact .inl h
    rcases key with h | h
    · obtain ⟨m, hm, h⟩ := hf _ _ _ h
      obtain ⟨t, ht, h⟩ := ih _ h
      exact ⟨t, .step hm ht, h⟩
    · exact ⟨s, .refl s, h⟩

/-- What is found is a match, with which the rest went on. -/
theorem sound {α : Type} (r : Re) : ∀ (s : Pos) (k : Pos → Option α) (x : α), r.run s k = some x → ∃ t, r.Sem s t ∧ k t = some x := by
  induction r with
  | eps => intro s k x h; exact ⟨s, rfl, h⟩
  | chr p =>
    intro s k x h
    simp only [Re.run] at h
    split at h
    · cases h
    · rename_i c r e
      split at h
      · exact ⟨_, ⟨c, r, e, by assumption, rfl⟩, h⟩
      · cases h
  | seq a b iha ihb =>
    intro s k x h
    obtain ⟨m, hm, h⟩ := iha _ _ _ h
    obtain ⟨t, ht, h⟩ := ihb _ _ _ h
    exact ⟨t, ⟨m, hm, ht⟩, h⟩
  | alt a b iha ihb =>
    intro s k x h
    rcases Option.or_eq_some_iff.1 h with h | ⟨_, h⟩
    · obtain ⟨t, ht, h⟩ := iha _ _ _ h; exact ⟨t, .inl ht, h⟩
    · obtain ⟨t, ht, h⟩ := ihb _ _ _ h; exact ⟨t, .inr ht, h⟩
  | star g r ih => intro s k x h; exact loop_sound ih g k x _ _ h
  | cap n r ih =>
    intro s k x h
    obtain ⟨m, hm, h⟩ := ih _ _ _ h
    exact ⟨_, ⟨m, hm, rfl⟩, h⟩
  | behind p =>
    intro s k x h
    simp only [Re.run] at h
    split at h
    · exact ⟨s, ⟨by assumption, rfl⟩, h⟩
    · cases h

/-- The characters of a pattern. -/
def Re.alphabet : Re → Char → Bool
  | .eps, _ => false
  | .chr p, c => p c
  | .seq a b, c => a.alphabet c || b.alphabet c
  | .alt a b, c => a.alphabet c || b.alphabet c
  | .star _ r, c => r.alphabet c
  | .cap _ r, c => r.alphabet c
  | .behind _, _ => false

/-- Whether a pattern may match nothing. -/
def Re.empty : Re → Bool
  | .eps => true
  | .chr _ => false
  | .seq a b => a.empty && b.empty
  | .alt a b => a.empty || b.empty
  | .star _ _ => true
  | .cap _ r => r.empty
  | .behind _ => true

/-- The groups of a pattern. -/
def Re.groups : Re → List Nat
  | .eps => []
  | .chr _ => []
  | .seq a b => a.groups ++ b.groups
  | .alt a b => a.groups ++ b.groups
  | .star _ r => r.groups
  | .cap n r => n :: r.groups
  | .behind _ => []

/-- What a match consumed. -/
structure Eats (r : Re) (s t : Pos) (w : Text) : Prop where
  rest : s.rest = w ++ t.rest
  chars : ∀ c ∈ w, r.alphabet c = true
  some : r.empty = false → w ≠ []
  caps : ∃ l, t.caps = l ++ s.caps ∧ ∀ e ∈ l, e.1 ∈ r.groups

theorem steps_eat {r : Re} (hr : ∀ s t, r.Sem s t → ∃ w, Eats r s t w) (g : Bool) {s t : Pos} (h : Steps r.Sem s t) :
    ∃ w, Eats (.star g r) s t w := by
  induction h with
  | refl s => exact ⟨[], rfl, fun _ h => (by cases h), fun h => (by cases h), [], rfl, fun _ h => (by cases h)⟩
  | step a _ ih =>
    obtain ⟨v, hv⟩ := hr _ _ a
    obtain ⟨w, hw⟩ := ih
    obtain ⟨l, e, hl⟩ := hv.caps
    obtain ⟨l', e', hl'⟩ := hw.caps
    refine ⟨v ++ w, by rw [hv.rest, hw.rest, List.append_assoc], ?_, fun h => (by cases h), l' ++ l, by rw [e', e, List.append_assoc], ?_⟩
    · intro c hc
      rcases List.mem_append.1 hc with hc | hc
      · exact hv.chars c hc
      · exact hw.chars c hc
    · intro x hx
      rcases List.mem_append.1 hx with hx | hx
      · exact hl' x hx
      · exact hl x hx

theorem eats (r : Re) : ∀ s t, r.Sem s t → ∃ w, Eats r s t w := by
  induction r with
  | eps =>
    intro s t h
    cases (show t = s from h)
    exact ⟨[], rfl, fun _ h => (by cases h), fun h => (by cases h), [], rfl, fun _ h => (by cases h)⟩
  | chr p =>
    intro s t ⟨c, r, e, hc, ht⟩
    subst ht
    refine ⟨[c], e, ?_, fun _ h => (by cases h), [], rfl, fun _ h => (by cases h)⟩
    intro x hx
    cases List.mem_singleton.1 hx
    exact hc
  | seq a b iha ihb =>
    intro s t ⟨m, ha, hb⟩
    obtain ⟨v, hv⟩ := iha _ _ ha
    obtain ⟨w, hw⟩ := ihb _ _ hb
    obtain ⟨l, e, hl⟩ := hv.caps
    obtain ⟨l', e', hl'⟩ := hw.caps
    refine ⟨v ++ w, by rw [hv.rest, hw.rest, List.append_assoc], ?_, ?_, l' ++ l, by rw [e', e, List.append_assoc], ?_⟩
    · intro c hc
      rcases List.mem_append.1 hc with hc | hc
      · simp [Re.alphabet, hv.chars c hc]
      · simp [Re.alphabet, hw.chars c hc]
    · intro h hn
      obtain ⟨h1, h2⟩ := List.append_eq_nil_iff.1 hn
      cases ha : a.empty
      · exact hv.some ha h1
      · cases hb : b.empty
        · exact hw.some hb h2
        · simp [Re.empty, ha, hb] at h
    · intro x hx
      rcases List.mem_append.1 hx with hx | hx
      · exact List.mem_append_right _ (hl' x hx)
      · exact List.mem_append_left _ (hl x hx)
  | alt a b iha ihb =>
    intro s t h
    rcases h with h | h
    · obtain ⟨w, hw⟩ := iha _ _ h
      obtain ⟨l, e, hl⟩ := hw.caps
      exact ⟨w, hw.rest, fun c hc => by simp [Re.alphabet, hw.chars c hc],
        fun h => hw.some (by simp [Re.empty] at h; exact h.1), l, e, fun x hx => List.mem_append_left _ (hl x hx)⟩
    · obtain ⟨w, hw⟩ := ihb _ _ h
      obtain ⟨l, e, hl⟩ := hw.caps
      exact ⟨w, hw.rest, fun c hc => by simp [Re.alphabet, hw.chars c hc],
        fun h => hw.some (by simp [Re.empty] at h; exact h.2), l, e, fun x hx => List.mem_append_right _ (hl x hx)⟩
  | star g r ih => intro s t h; exact steps_eat ih g h
  | cap n r ih =>
    intro s t ⟨m, hm, ht⟩
    obtain ⟨w, hw⟩ := ih _ _ hm
    obtain ⟨l, e, hl⟩ := hw.caps
    subst ht
    refine ⟨w, hw.rest, hw.chars, hw.some, (n, _) :: l, congrArg (_ :: ·) e, ?_⟩
    intro x hx
    rcases List.mem_cons.1 hx with hx | hx
    · subst hx; exact List.mem_cons_self
    · exact List.mem_cons_of_mem _ (hl x hx)
  | behind p =>
    intro s t ⟨_, ht⟩
    subst ht
    exact ⟨[], rfl, fun _ h => (by cases h), fun h => (by cases h), [], rfl, fun _ h => (by cases h)⟩

/-- A group has the text it consumed. -/
theorem eats_cap {n : Nat} {r : Re} {s t : Pos} (h : (Re.cap n r).Sem s t) :
    ∃ w m, r.Sem s m ∧ Eats r s m w ∧ s.rest = w ++ t.rest ∧ t.prev = m.prev ∧ t.rest = m.rest ∧ t.caps = (n, w) :: m.caps := by
  obtain ⟨m, hm, ht⟩ := h
  obtain ⟨w, hw⟩ := eats _ _ _ hm
  subst ht
  refine ⟨w, m, hm, hw, hw.rest, rfl, rfl, ?_⟩
  have : s.rest.length - m.rest.length = w.length := by rw [hw.rest, List.length_append]; omega
  show (n, s.rest.take (s.rest.length - m.rest.length)) :: m.caps = _
  rw [this, hw.rest, List.take_left' rfl]

/-- Repeated patterns do not match nothing. -/
def Re.Proper : Re → Prop
  | .seq a b => a.Proper ∧ b.Proper
  | .alt a b => a.Proper ∧ b.Proper
  | .star _ r => r.Proper ∧ r.empty = false
  | .cap _ r => r.Proper
  | _ => True

theorem loop_complete {α : Type} {f : Pos → (Pos → Option α) → Option α} {R : Pos → Pos → Prop}
    (hf : ∀ s t k, R s t → (k t).isSome → (f s k).isSome) (hR : ∀ s t, R s t → t.rest.length < s.rest.length) (g : Bool)
    (k : Pos → Option α) {s t : Pos} (h : Steps R s t) (hk : (k t).isSome) :
    ∀ n, s.rest.length ≤ n → (loop f g k n s).isSome := by
  induction h with
  | refl s =>
    intro n _
    cases n with
    | zero => exact hk
    | succ n =>
      simp only [loop]
      split
      · simp [hk]
      · simp [hk]
  | step a _ ih =>
    intro n hn
    have := hR _ _ a
    cases n with
    | zero => omega
    | succ n =>
      have key := hf _ _ _ a (ih hk n (by omega))
      simp only [loop]
      split
      · simp [key]
      · simp [key]

/-- If there is a match with which the rest goes on, something is found. -/
theorem complete {α : Type} (r : Re) :
    r.Proper → ∀ (s t : Pos) (k : Pos → Option α), r.Sem s t → (k t).isSome → (r.run s k).isSome := by
  induction r with
  | eps => intro _ s t k h hk; cases (show t = s from h); exact hk
  | chr p =>
    intro _ s t k ⟨c, r, e, hc, ht⟩ hk
    subst ht
    simp only [Re.run, e, hc, if_true]
    exact hk
  | seq a b iha ihb => intro hp s t k ⟨m, ha, hb⟩ hk; exact iha hp.1 _ _ _ ha (ihb hp.2 _ _ _ hb hk)
  | alt a b iha ihb =>
    intro hp s t k h hk
    rcases h with h | h
    · simp [Re.run, iha hp.1 _ _ _ h hk]
    · simp [Re.run, ihb hp.2 _ _ _ h hk]
  | star g r ih =>
    intro hp s t k h hk
    refine loop_complete (fun s t k => ih hp.1 s t k) ?_ g k h hk _ (Nat.le_refl _)
    intro s t h
    obtain ⟨w, hw⟩ := eats _ _ _ h
    rw [hw.rest, List.length_append]
    have := List.length_pos_iff.2 (hw.some hp.2)
    omega
  | cap n r ih => intro hp s t k ⟨m, hm, ht⟩ hk; subst ht; exact ih hp _ _ _ hm hk
  | behind p =>
    intro _ s t k ⟨h, ht⟩ hk
    subst ht
    simp only [Re.run, h, if_true]
    exact hk

/-! ### What follows -/

/-- A position with more text behind it. -/
def Pos.more (s : Pos) (tail : Text) : Pos := { s with rest := s.rest ++ tail }

theorem loop_more {α β : Type} {r : Re} (hp : r.empty = false) {tail : Text}
    (ht : ∀ c t, tail = c :: t → r.alphabet c = false) (F : α → β)
    (ih : ∀ (s : Pos) (k : Pos → Option α) (k' : Pos → Option β), (∀ t, r.Sem s t → k' (t.more tail) = (k t).map F) →
      r.run (s.more tail) k' = (r.run s k).map F) (g : Bool) (k : Pos → Option α) (k' : Pos → Option β) :
    ∀ (l : Nat) (s : Pos), s.rest.length ≤ l → (∀ t, Steps r.Sem s t → k' (t.more tail) = (k t).map F) →
      ∀ n n', s.rest.length ≤ n → s.rest.length ≤ n' →
      loop r.run g k' n' (s.more tail) = (loop r.run g k n s).map F := by
  intro l
  induction l with
  | zero =>
    intro s hs hk n n' hn hn'
    have he : s.rest = [] := List.length_eq_zero_iff.1 (by omega)
    have h0 : loop r.run g k n s = k s := by
      cases n with
      | zero => rfl
      | succ n =>
        have : r.run s (loop r.run g k n) = none := by
          cases hr : r.run s (loop r.run g k n) with
          | none => rfl
          | some x =>
            obtain ⟨t, ht, _⟩ := sound _ _ _ _ hr
            obtain ⟨w, hw⟩ := eats _ _ _ ht
            have := hw.rest
            rw [he] at this
            exact absurd (List.append_eq_nil_iff.1 this.symm).1 (hw.some hp)
        simp [loop, this]
    have h1 : loop r.run g k' n' (s.more tail) = k' (s.more tail) := by
      cases n' with
      | zero => rfl
      | succ n =>
        have : r.run (s.more tail) (loop r.run g k' n) = none := by
          cases hr : r.run (s.more tail) (loop r.run g k' n) with
          | none => rfl
          | some x =>
            obtain ⟨t, h, _⟩ := sound _ _ _ _ hr
            obtain ⟨w, hw⟩ := eats _ _ _ h
            have e : tail = w ++ t.rest := by
              have := hw.rest
              rw [Pos.more] at this
              simpa [he] using this
            cases w with
            | nil => exact absurd rfl (hw.some hp)
            | cons c w =>
              have := ht c _ e
              rw [hw.chars c List.mem_cons_self] at this
              cases this
        simp [loop, this]
    rw [h0, h1]
    exact hk s (.refl s)
  | succ l ih' =>
    intro s hs hk n n' hn hn'
    by_cases he : s.rest.length ≤ l
    · exact ih' s he hk n n' hn hn'
    · obtain ⟨n, rfl⟩ : ∃ m, n = m + 1 := ⟨n - 1, by omega⟩
      obtain ⟨n', rfl⟩ : ∃ m, n' = m + 1 := ⟨n' - 1, by omega⟩
      have key : r.run (s.more tail) (loop r.run g k' n') = (r.run s (loop r.run g k n)).map F := by
        apply ih
        intro t h
        obtain ⟨w, hw⟩ := eats _ _ _ h
        have h1 := List.length_pos_iff.2 (hw.some hp)
        have h2 : s.rest.length = w.length + t.rest.length := by rw [hw.rest, List.length_append]
        exact ih' t (by omega) (fun t' h' => hk t' (.step h h')) n n' (by omega) (by omega)
      have k0 := hk s (.refl s)
      simp only [loop, key, k0]
      cases g
      · cases k s <;> rfl
      · cases r.run s (loop r.run true k n) <;> rfl

/-- Text behind, which begins with no character of the pattern, changes nothing. -/
theorem run_more {α β : Type} (F : α → β) {tail : Text} (r : Re) : r.Proper → (∀ c t, tail = c :: t → r.alphabet c = false) →
    ∀ (s : Pos) (k : Pos → Option α) (k' : Pos → Option β), (∀ t, r.Sem s t → k' (t.more tail) = (k t).map F) →
    r.run (s.more tail) k' = (r.run s k).map F := by
  induction r with
  | eps => intro _ _ s k k' h; exact h s rfl
  | chr p =>
    intro _ ht s k k' h
    obtain ⟨pv, rest, caps⟩ := s
    cases rest with
    | nil =>
      cases tail with
      | nil => rfl
      | cons c t =>
        have : p c = false := ht c t rfl
        simp [Re.run, Pos.more, this]
    | cons c rest =>
      by_cases hc : p c = true
      · simp only [Re.run, Pos.more, List.cons_append, hc, if_true]
        exact h ⟨some c, rest, caps⟩ ⟨c, rest, rfl, hc, rfl⟩
      · simp [Re.run, Pos.more, hc]
  | seq a b iha ihb =>
    intro hp ht s k k' h
    refine iha hp.1 (fun c t e => by have := ht c t e; simp [Re.alphabet] at this; exact this.1) s _ _ fun m hm => ?_
    exact ihb hp.2 (fun c t e => by have := ht c t e; simp [Re.alphabet] at this; exact this.2) m _ _ fun t ht => h t ⟨m, hm, ht⟩
  | alt a b iha ihb =>
    intro hp ht s k k' h
    have h1 := iha hp.1 (fun c t e => by have := ht c t e; simp [Re.alphabet] at this; exact this.1) s k k' fun t ht => h t (.inl ht)
    have h2 := ihb hp.2 (fun c t e => by have := ht c t e; simp [Re.alphabet] at this; exact this.2) s k k' fun t ht => h t (.inr ht)
    simp only [Re.run, h1, h2]
    cases a.run s k <;> rfl
  | star g r ih =>
    intro hp ht s k k' h
    refine loop_more hp.2 ht F (ih hp.1 ht) g k k' _ s (Nat.le_refl _) h _ _ (Nat.le_refl _) ?_
    simp [Pos.more]
  | cap n r ih =>
    intro hp ht s k k' h
    refine ih hp ht s _ _ fun m hm => ?_
    have := h _ ⟨m, hm, rfl⟩
    rw [← this]
    obtain ⟨w, hw⟩ := eats _ _ _ hm
    have e1 : s.rest.take (s.rest.length - m.rest.length) = w := by
      rw [show s.rest.length - m.rest.length = w.length by rw [hw.rest, List.length_append]; omega, hw.rest, List.take_left' rfl]
    have e2 : (s.more tail).rest.take ((s.more tail).rest.length - (m.more tail).rest.length) = w := by
      have : (s.more tail).rest = w ++ (m.rest ++ tail) := by simp [Pos.more, hw.rest]
      rw [this, show (w ++ (m.rest ++ tail)).length - (m.more tail).rest.length = w.length by simp [Pos.more],
        List.take_left' rfl]
    rw [e1, e2]
    rfl
  | behind p =>
    intro _ _ s k k' h
    by_cases hc : p s.prev = true
    · simp only [Re.run, Pos.more, hc, if_true]
      exact h s ⟨hc, rfl⟩
    · simp [Re.run, Pos.more, hc]

/-! ### Groups -/

/-- The last text of a group, of those of a list. -/
def look (l : List (Nat × Text)) (n : Nat) : Option Text := (l.find? (·.1 == n)).map (·.2)

theorem look_cons_self (n : Nat) (w : Text) (l : List (Nat × Text)) : look ((n, w) :: l) n = some w := by simp [look]

theorem look_cons_ne {n m : Nat} (h : m ≠ n) (w : Text) (l : List (Nat × Text)) : look ((m, w) :: l) n = look l n := by
  simp [look, h]

theorem look_append {l r : List (Nat × Text)} {n : Nat} (h : ∀ e ∈ l, e.1 ≠ n) : look (l ++ r) n = look r n := by
  induction l with
  | nil => rfl
  | cons a l ih =>
    obtain ⟨m, w⟩ := a
    rw [List.cons_append, look_cons_ne (h _ List.mem_cons_self), ih fun e he => h e (List.mem_cons_of_mem _ he)]

/-- A pattern leaves the groups it does not have. -/
theorem look_sem {r : Re} {s t : Pos} (h : r.Sem s t) {n : Nat} (hn : n ∉ r.groups) : look t.caps n = look s.caps n := by
  obtain ⟨w, hw⟩ := eats _ _ _ h
  obtain ⟨l, e, hl⟩ := hw.caps
  rw [e, look_append]
  intro x hx he
  exact hn (he ▸ hl x hx)

end Verif.UrlText
