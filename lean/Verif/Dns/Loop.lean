import Verif.Dns.Lemmas

/-!
# DNS messages: when the reading loop ends

The loop of `_parse_labels` either ends within as many rounds as there are bytes, plus one,
or it comes back to a position where it has been before and never ends.
-/

namespace Verif.Dns

/-- The state after a number of rounds that all asked for another one. -/
def after (data : Bytes) : Nat → LabelState → Option LabelState
  | 0, s => some s
  | n + 1, s =>
    match labelRound data s with
    | .again s' => after data n s'
    | _ => none

theorem labelLoop_none_iff (data : Bytes) (fuel : Nat) (s : LabelState) :
    labelLoop data fuel s = none ↔ (after data fuel s).isSome := by
  induction fuel generalizing s with
  | zero => simp [labelLoop, after]
  | succ fuel ih =>
    simp only [labelLoop, after]
    cases labelRound data s with
    | again s' => simpa using ih s'
    | failed e => simp
    | done l f => simp

theorem after_add (data : Bytes) (m n : Nat) (s : LabelState) :
    after data (m + n) s = (after data m s).bind (after data n) := by
  induction m generalizing s with
  | zero => simp [after]
  | succ m ih =>
    rw [show m + 1 + n = (m + n) + 1 by omega]
    simp only [after]
    cases labelRound data s with
    | again s' => simpa using ih s'
    | failed e => simp
    | done l f => simp

theorem after_le {data : Bytes} {m n : Nat} {s : LabelState} (h : m ≤ n)
    (hn : (after data n s).isSome) : (after data m s).isSome := by
  obtain ⟨k, rfl⟩ : ∃ k, n = m + k := ⟨n - m, by omega⟩
  rw [after_add] at hn
  cases hm : after data m s with
  | none => simp [hm] at hn
  | some s' => rfl

/-- A round that goes on also goes on from the same position when more has been read. -/
theorem labelRound_more {data : Bytes} {s t s' : LabelState} (hi : t.index = s.index)
    (hf : s.furthest ≤ t.furthest) (h : labelRound data s = .again s') :
    ∃ t', labelRound data t = .again t' ∧ t'.index = s'.index ∧ s'.furthest ≤ t'.furthest := by
  unfold labelRound at h ⊢
  rw [hi]
  cases h1 : data[s.index]? with
  | none => simp [h1] at h
  | some byte =>
    simp only [h1] at h ⊢
    by_cases c1 : byte.toNat = 0
    · simp [c1] at h
    rw [if_neg c1] at h ⊢
    by_cases c2 : byte.toNat < 64
    · rw [if_pos c2] at h ⊢
      by_cases c3 : data.length < s.index + 1 + byte.toNat
      · simp [c3] at h
      rw [if_neg c3] at h ⊢
      injection h with h
      subst h
      exact ⟨_, rfl, rfl, by dsimp only; omega⟩
    rw [if_neg c2] at h ⊢
    by_cases c3 : byte.toNat < 192
    · simp [c3] at h
    rw [if_neg c3] at h ⊢
    cases h2 : data[s.index + 1]? with
    | none => simp [h2] at h
    | some low =>
      simp only [h2] at h ⊢
      by_cases c4 : max (max s.furthest (s.index + 1)) (s.index + 1 + 1)
          < ((byte.toNat &&& 0x3f) <<< 8) ||| low.toNat
      · rw [if_pos c4] at h; simp at h
      rw [if_neg c4] at h
      rw [if_neg (by omega)]
      injection h with h
      subst h
      exact ⟨_, rfl, rfl, by dsimp only; omega⟩

/-- What has been read only grows. -/
theorem labelRound_furthest {data : Bytes} {s s' : LabelState} (h : labelRound data s = .again s') :
    s.furthest ≤ s'.furthest ∧ s.index < data.length := by
  unfold labelRound at h
  cases h1 : data[s.index]? with
  | none => simp [h1] at h
  | some byte =>
    obtain ⟨hlt, -⟩ := List.getElem?_eq_some_iff.mp h1
    simp only [h1] at h
    split at h
    · simp at h
    split at h
    · split at h
      · simp at h
      · injection h with h; subst h; exact ⟨by dsimp only; omega, hlt⟩
    split at h
    · simp at h
    split at h
    · simp at h
    · split at h
      · simp at h
      · injection h with h; subst h; exact ⟨by dsimp only; omega, hlt⟩

theorem after_furthest {data : Bytes} {n : Nat} {s s' : LabelState}
    (h : after data n s = some s') : s.furthest ≤ s'.furthest := by
  induction n generalizing s with
  | zero => simp only [after, Option.some.injEq] at h; subst h; omega
  | succ n ih =>
    simp only [after] at h
    cases hr : labelRound data s with
    | again s1 =>
      rw [hr] at h
      have := ih h
      have := (labelRound_furthest hr).1
      omega
    | failed e => simp [hr] at h
    | done l f => simp [hr] at h

theorem after_more {data : Bytes} {n : Nat} {s t s' : LabelState} (hi : t.index = s.index)
    (hf : s.furthest ≤ t.furthest) (h : after data n s = some s') :
    ∃ t', after data n t = some t' ∧ t'.index = s'.index ∧ s'.furthest ≤ t'.furthest := by
  induction n generalizing s t with
  | zero =>
    simp only [after, Option.some.injEq] at h
    subst h
    exact ⟨t, rfl, hi, hf⟩
  | succ n ih =>
    simp only [after] at h ⊢
    cases hr : labelRound data s with
    | again s1 =>
      rw [hr] at h
      obtain ⟨t1, ht, hi1, hf1⟩ := labelRound_more hi hf hr
      obtain ⟨t', h1, h2, h3⟩ := ih hi1 hf1 h
      exact ⟨t', by rw [ht]; exact h1, h2, h3⟩
    | failed e => simp [hr] at h
    | done l f => simp [hr] at h

/-- A position that comes back comes back for ever. -/
theorem after_cycle {data : Bytes} {n : Nat} {s s' : LabelState} (hn : 0 < n)
    (h : after data n s = some s') (hi : s'.index = s.index) (k : Nat) :
    (after data k s).isSome := by
  have hmany : ∀ m, ∃ t, after data (m * n) s = some t ∧ t.index = s.index ∧
      s.furthest ≤ t.furthest := by
    intro m
    induction m with
    | zero => exact ⟨s, by simp [after], rfl, Nat.le_refl _⟩
    | succ m ih =>
      obtain ⟨t, ht, hti, htf⟩ := ih
      obtain ⟨t', h1, h2, h3⟩ := after_more hti htf h
      refine ⟨t', ?_, by omega, ?_⟩
      · rw [Nat.succ_mul, after_add, ht]; exact h1
      · have := after_furthest h
        omega
  obtain ⟨t, ht, -⟩ := hmany k
  refine after_le (n := k * n) ?_ (by simp [ht])
  exact Nat.le_mul_of_pos_right k hn

theorem pigeonhole (L : Nat) (f : Nat → Nat) (h : ∀ k, k ≤ L → f k < L) :
    ∃ a b, a < b ∧ b ≤ L ∧ f a = f b := by
  induction L generalizing f with
  | zero => exact absurd (h 0 (Nat.le_refl 0)) (by omega)
  | succ L ih =>
    by_cases hex : ∃ k, k ≤ L ∧ f k = f (L + 1)
    · obtain ⟨k, hk, he⟩ := hex
      exact ⟨k, L + 1, by omega, Nat.le_refl _, he⟩
    · have hno : ∀ k, k ≤ L → f k ≠ f (L + 1) := fun k hk he => hex ⟨k, hk, he⟩
      obtain ⟨a, b, hab, hb, he⟩ := ih (fun k => if f k = L then f (L + 1) else f k) (by
        intro k hk
        have h1 := h k (by omega)
        have h2 := h (L + 1) (Nat.le_refl _)
        have h3 := hno k hk
        split <;> omega)
      refine ⟨a, b, hab, by omega, ?_⟩
      have ha' := hno a (by omega)
      have hb' := hno b hb
      split at he <;> split at he <;> omega

/-- A loop that goes on for more rounds than there are bytes goes on for ever. -/
theorem after_forever {data : Bytes} {s : LabelState}
    (h : (after data (data.length + 1) s).isSome) (k : Nat) : (after data k s).isSome := by
  have hin : ∀ j, j ≤ data.length → ∃ t, after data j s = some t ∧ t.index < data.length := by
    intro j hj
    have h1 := after_le (m := j + 1) (by omega) h
    rw [after_add] at h1
    cases hjs : after data j s with
    | none => simp [hjs] at h1
    | some t =>
      refine ⟨t, rfl, ?_⟩
      simp only [hjs, Option.bind_some, after] at h1
      cases hr : labelRound data t with
      | again t' => exact (labelRound_furthest hr).2
      | failed e => simp [hr] at h1
      | done l f => simp [hr] at h1
  obtain ⟨a, b, hab, hb, he⟩ := pigeonhole data.length
    (fun j => match after data j s with | some t => t.index | none => 0) (by
      intro j hj
      obtain ⟨t, ht, hlt⟩ := hin j hj
      simpa [ht] using hlt)
  obtain ⟨ta, hta, -⟩ := hin a (by omega)
  obtain ⟨tb, htb, -⟩ := hin b hb
  simp only [hta, htb] at he
  have hcyc : after data (b - a) ta = some tb := by
    have := after_add data a (b - a) s
    rw [show a + (b - a) = b by omega, hta, htb] at this
    exact this.symm
  have hall := after_cycle (by omega) hcyc he.symm
  by_cases hk : k ≤ a
  · exact after_le hk (by simp [hta])
  · have := after_add data a (k - a) s
    rw [show a + (k - a) = k by omega, hta] at this
    rw [this]
    exact hall (k - a)

theorem labelLoop_mono {data : Bytes} {fuel : Nat} {s : LabelState}
    {r : Except ParseError (Option (List Bytes) × Nat)} (h : labelLoop data fuel s = some r)
    (more : Nat) : labelLoop data (fuel + more) s = some r := by
  induction fuel generalizing s with
  | zero => simp [labelLoop] at h
  | succ fuel ih =>
    rw [show fuel + 1 + more = (fuel + more) + 1 by omega]
    simp only [labelLoop] at h ⊢
    cases hr : labelRound data s with
    | again s' => rw [hr] at h; exact ih h
    | failed e => rw [hr] at h; exact h
    | done l f => rw [hr] at h; exact h

/-- From as many rounds as there are bytes plus one, more rounds change nothing. -/
theorem parseLabels_bound (data : Bytes) (index fuel : Nat) (h : data.length + 1 ≤ fuel) :
    parseLabels fuel data index = parseLabels (data.length + 1) data index := by
  unfold parseLabels
  cases hb : labelLoop data (data.length + 1) ⟨none, index, index⟩ with
  | none =>
    rw [labelLoop_none_iff]
    exact after_forever ((labelLoop_none_iff ..).mp hb) fuel
  | some r =>
    have := labelLoop_mono hb (fuel - (data.length + 1))
    rwa [show data.length + 1 + (fuel - (data.length + 1)) = fuel by omega] at this

/-- Without a byte that marks a pointer every round gets further. -/
theorem labelLoop_plain (data : Bytes) (h : ∀ byte ∈ data, byte.toNat < 192) (fuel : Nat)
    (s : LabelState) (hf : data.length < s.index + fuel ∨ data.length ≤ s.index) (hpos : 0 < fuel) :
    labelLoop data fuel s ≠ none := by
  induction fuel generalizing s with
  | zero => omega
  | succ fuel ih =>
    simp only [labelLoop]
    cases hr : labelRound data s with
    | failed e => simp
    | done l f => simp
    | again s' =>
      have hidx := (labelRound_furthest hr).2
      have hgrow : s.index + 1 < s'.index ∧ s'.index ≤ data.length := by
        unfold labelRound at hr
        rw [List.getElem?_eq_getElem hidx] at hr
        have hlt := h _ (List.getElem_mem hidx)
        simp only at hr
        split at hr
        · simp at hr
        split at hr
        · split at hr
          · simp at hr
          · injection hr with hr; subst hr; dsimp only; omega
        · simp at hr
      exact ih s' (by omega) (by omega)

end Verif.Dns
