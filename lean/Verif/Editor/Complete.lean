/-
The completion of the auto completer.
-/
import Verif.Editor.Keys

namespace Verif.Editor

theorem mem_matches (names : List Line) (s m : Line) :
    m ∈ matchesOf names s ↔ m ∈ names ∧ s <+: m ∧ m ≠ s := by
  simp [matchesOf, isMatch]

theorem minLen_le (f : Line) (r : List Line) : ∀ m ∈ f :: r, minLen f r ≤ m.length := by
  induction r generalizing f with
  | nil => simp [minLen]
  | cons a r ih =>
    intro m hm
    simp only [minLen]
    by_cases h : a.length < f.length
    · rw [if_pos h]
      rcases List.mem_cons.1 hm with h1 | h1
      · subst h1
        have := ih a a (List.mem_cons_self ..)
        omega
      · exact ih a m h1
    · rw [if_neg h]
      rcases List.mem_cons.1 hm with h1 | h1
      · subst h1; exact ih m m (List.mem_cons_self ..)
      · rcases List.mem_cons.1 h1 with h2 | h2
        · subst h2
          have := ih f f (List.mem_cons_self ..)
          omega
        · exact ih f m (List.mem_cons_of_mem _ h2)

theorem minLen_mem (f : Line) (r : List Line) : ∃ m ∈ f :: r, minLen f r = m.length := by
  induction r generalizing f with
  | nil => exact ⟨f, by simp, rfl⟩
  | cons a r ih =>
    simp only [minLen]
    by_cases h : a.length < f.length
    · rw [if_pos h]
      obtain ⟨m, hm, he⟩ := ih a
      exact ⟨m, List.mem_cons_of_mem _ hm, he⟩
    · rw [if_neg h]
      obtain ⟨m, hm, he⟩ := ih f
      refine ⟨m, ?_, he⟩
      rcases List.mem_cons.1 hm with h1 | h1
      · subst h1; exact List.mem_cons_self ..
      · exact List.mem_cons_of_mem _ (List.mem_cons_of_mem _ h1)

/-- The first `i` characters are common to all. -/
def Common (first : Line) (ms : List Line) (i : Nat) : Prop := ∀ m ∈ ms, first.take i <+: m

theorem take_succ_getD (l : Line) (i : Nat) (h : i < l.length) : l.take (i + 1) = l.take i ++ [l.getD i 0] := by
  have : l.getD i 0 = l[i] := by simp [h]
  rw [this]; simp

theorem prefix_next {p m : Line} (h : p <+: m) (hl : p.length < m.length) :
    p ++ [m.getD p.length 0] <+: m := by
  obtain ⟨r, rfl⟩ := h
  cases r with
  | nil => simp at hl
  | cons c r => exact ⟨r, by simp⟩

theorem cpLoop_spec (first : Line) (ms : List Line) (sh : Nat) (hf : sh ≤ first.length)
    (hs : ∀ m ∈ ms, sh ≤ m.length) :
    ∀ (f i : Nat), i ≤ sh → sh ≤ f + i → Common first ms i →
      i ≤ cpLoop first ms sh f i ∧ cpLoop first ms sh f i ≤ sh ∧ Common first ms (cpLoop first ms sh f i) ∧
      (cpLoop first ms sh f i = sh ∨
        ∃ m ∈ ms, m.getD (cpLoop first ms sh f i) 0 ≠ first.getD (cpLoop first ms sh f i) 0)
  | 0, i, h1, h2, h3 => by
    simp only [cpLoop]
    exact ⟨Nat.le_refl _, h1, h3, .inl (by omega)⟩
  | f + 1, i, h1, h2, h3 => by
    simp only [cpLoop]
    by_cases hi : i < sh
    · rw [if_pos hi]
      by_cases ha : (ms.all (fun m => m.getD i 0 == first.getD i 0)) = true
      · rw [if_pos ha]
        have hc : Common first ms (i + 1) := by
          intro m hm
          have hb := List.all_eq_true.1 ha m hm
          simp only [beq_iff_eq] at hb
          rw [take_succ_getD _ _ (by omega), ← hb]
          have hl : (first.take i).length = i := by rw [List.length_take]; omega
          have := prefix_next (h3 m hm) (by rw [hl]; have := hs m hm; omega)
          rwa [hl] at this
        have := cpLoop_spec first ms sh hf hs f (i + 1) (by omega) (by omega) hc
        exact ⟨by omega, this.2⟩
      · rw [if_neg ha]
        refine ⟨Nat.le_refl _, h1, h3, .inr ?_⟩
        simp only [List.all_eq_true, beq_iff_eq] at ha
        exact Classical.byContradiction fun hn =>
          ha (fun m hm => Classical.byContradiction fun hne => hn ⟨m, hm, hne⟩)
    · rw [if_neg hi]
      exact ⟨Nat.le_refl _, h1, h3, .inl (by omega)⟩

theorem prefix_take {q m : Line} (h : q <+: m) (n : Nat) (hl : q.length ≤ n) : q <+: m.take n := by
  rw [List.prefix_take_iff]; exact ⟨h, hl⟩

/-- What the loop finds is the longest common prefix. -/
theorem loop_longest (m : Line) (r : List Line) (s : Line) (hs : ∀ x ∈ m :: r, s <+: x) (i : Nat)
    (hi : i = cpLoop m (m :: r) (minLen m r) (minLen m r) s.length) :
    s.length ≤ i ∧ i ≤ m.length ∧ (∀ x ∈ m :: r, m.take i <+: x) ∧
      ∀ q : Line, (∀ x ∈ m :: r, q <+: x) → q <+: m.take i := by
  have hmin := minLen_le m r
  obtain ⟨w, hw, hwl⟩ := minLen_mem m r
  have h0 : Common m (m :: r) s.length := by
    intro x hx
    obtain ⟨t, ht⟩ := hs m (List.mem_cons_self ..)
    rw [← ht, List.take_left' rfl]
    exact hs x hx
  have hsl : s.length ≤ minLen m r := by rw [hwl]; exact (hs w hw).length_le
  have hsp := cpLoop_spec m (m :: r) (minLen m r) (hmin m (List.mem_cons_self ..)) hmin (minLen m r)
    s.length hsl (by omega) h0
  rw [← hi] at hsp
  obtain ⟨h1, h2, h3, h4⟩ := hsp
  have hm := hmin m (List.mem_cons_self ..)
  refine ⟨h1, by omega, h3, ?_⟩
  intro q hq
  refine prefix_take (hq m (List.mem_cons_self ..)) i ?_
  rcases h4 with h4 | ⟨x, hx, hne⟩
  · rw [h4, hwl]; exact (hq w hw).length_le
  · apply Classical.byContradiction
    intro hgt
    apply hne
    obtain ⟨t, ht⟩ := hq x hx
    obtain ⟨u, hu⟩ := hq m (List.mem_cons_self ..)
    rw [← ht, ← hu]
    simp only [List.getD_eq_getElem?_getD]
    rw [List.getElem?_append_left (by omega), List.getElem?_append_left (by omega)]

/-- The names a word can be completed to: those it begins, but itself. -/
def Extends (names : List Line) (s m : Line) : Prop := m ∈ names ∧ s <+: m ∧ m ≠ s

theorem commonPrefix_some {names : List Line} {s p : Line} (h : commonPrefix names s = some p) :
    (∃ m, Extends names s m) ∧ (∀ m, Extends names s m → p <+: m) ∧
      (∀ q : Line, (∀ m, Extends names s m → q <+: m) → q <+: p) ∧ s <+: p ∧ p ≠ s := by
  simp only [commonPrefix] at h
  split at h
  · exact absurd h nofun
  · next m heq =>
    have hm : ∀ x, Extends names s x ↔ x = m := by
      intro x; rw [Extends, ← mem_matches, heq]; simp
    have : m = p := by simpa using h
    subst this
    have hx := (hm m).2 rfl
    exact ⟨⟨m, hx⟩, fun x hx => by rw [(hm x).1 hx]; exact List.prefix_refl _, fun q hq => hq m hx, hx.2.1, hx.2.2⟩
  · next m r _ heq =>
    have hm : ∀ x, Extends names s x ↔ x ∈ m :: r := by
      intro x; rw [Extends, ← mem_matches, heq]
    have hl := loop_longest m r s (fun x hx => ((hm x).2 hx).2.1) _ rfl
    split at h
    · exact absurd h nofun
    · next hne =>
      have hp : m.take (cpLoop m (m :: r) (minLen m r) (minLen m r) s.length) = p := by simpa using h
      rw [hp] at hl
      have hne : cpLoop m (m :: r) (minLen m r) (minLen m r) s.length ≠ s.length := by simpa using hne
      refine ⟨⟨m, (hm m).2 (List.mem_cons_self ..)⟩, fun x hx => hl.2.2.1 x ((hm x).1 hx),
        fun q hq => hl.2.2.2 q (fun x hx => hq x ((hm x).2 hx)),
        hl.2.2.2 s (fun x hx => ((hm x).2 hx).2.1), ?_⟩
      intro he
      have := congrArg List.length hp
      rw [he, List.length_take] at this
      omega

theorem commonPrefix_none {names : List Line} {s : Line} (h : commonPrefix names s = none) :
    (¬ ∃ m, Extends names s m) ∨
      (∃ m, Extends names s m) ∧ ∀ q : Line, (∀ m, Extends names s m → q <+: m) → q <+: s := by
  simp only [commonPrefix] at h
  split at h
  · next heq =>
    left
    rintro ⟨m, hm⟩
    rw [Extends, ← mem_matches, heq] at hm
    simp at hm
  · exact absurd h nofun
  · next m r _ heq =>
    have hm : ∀ x, Extends names s x ↔ x ∈ m :: r := by
      intro x; rw [Extends, ← mem_matches, heq]
    have hl := loop_longest m r s (fun x hx => ((hm x).2 hx).2.1) _ rfl
    split at h
    · next he =>
      right
      refine ⟨⟨m, (hm m).2 (List.mem_cons_self ..)⟩, fun q hq => ?_⟩
      have he : cpLoop m (m :: r) (minLen m r) (minLen m r) s.length = s.length := by simpa using he
      have := hl.2.2.2 q (fun x hx => hq x ((hm x).2 hx))
      rw [he] at this
      have hs : s = m.take s.length := by
        obtain ⟨t, ht⟩ := ((hm m).2 (List.mem_cons_self ..)).2.1
        rw [← ht, List.take_left' rfl]
      rwa [← hs] at this
    · exact absurd h nofun

theorem prefix_antisymm {p q : Line} (h1 : p <+: q) (h2 : q <+: p) : p = q :=
  h1.eq_of_length (Nat.le_antisymm h1.length_le h2.length_le)

/-- The completion depends on which names there are only. -/
theorem commonPrefix_congr {n1 n2 : List Line} (s : Line) (h : ∀ m, m ∈ n1 ↔ m ∈ n2) :
    commonPrefix n1 s = commonPrefix n2 s := by
  have he : ∀ m, Extends n1 s m ↔ Extends n2 s m := by intro m; simp [Extends, h]
  cases h1 : commonPrefix n1 s with
  | none =>
    cases h2 : commonPrefix n2 s with
    | none => rfl
    | some p =>
      exfalso
      obtain ⟨⟨m, hm⟩, hc, _, hsp, hne⟩ := commonPrefix_some h2
      rcases commonPrefix_none h1 with hn | ⟨_, hn⟩
      · exact hn ⟨m, (he m).2 hm⟩
      · exact hne (prefix_antisymm (hn p (fun x hx => hc x ((he x).1 hx))) hsp)
  | some p =>
    obtain ⟨⟨m, hm⟩, hc, hlong, hsp, hne⟩ := commonPrefix_some h1
    cases h2 : commonPrefix n2 s with
    | none =>
      exfalso
      rcases commonPrefix_none h2 with hn | ⟨_, hn⟩
      · exact hn ⟨m, (he m).1 hm⟩
      · exact hne (prefix_antisymm (hn p (fun x hx => hc x ((he x).2 hx))) hsp)
    | some q =>
      obtain ⟨_, hc2, hlong2, _, _⟩ := commonPrefix_some h2
      congr 1
      exact prefix_antisymm (hlong2 p (fun x hx => hc x ((he x).2 hx)))
        (hlong q (fun x hx => hc2 x ((he x).1 hx)))

/-! ### The word before the cursor -/

theorem lastWordRev_prefix : ∀ l : Line, ∃ r, l = lastWordRev l ++ r ∧
    (r = [] ∨ ∃ c t, r = c :: t ∧ c ∈ breakChars) ∧ ∀ c ∈ lastWordRev l, c ∉ breakChars
  | [] => ⟨[], by simp [lastWordRev]⟩
  | c :: l => by
    by_cases h : c ∈ breakChars
    · exact ⟨c :: l, by simp [lastWordRev, h]⟩
    · obtain ⟨r, h1, h2, h3⟩ := lastWordRev_prefix l
      refine ⟨r, ?_, h2, ?_⟩
      · simp only [lastWordRev, List.contains_iff_mem, h, if_false, List.cons_append]; rw [← h1]
      · simp only [lastWordRev, List.contains_iff_mem, h, if_false]
        intro d hd
        rcases List.mem_cons.1 hd with h4 | h4
        · subst h4; exact h
        · exact h3 d h4

/-- The word is the end of what is before the cursor. -/
theorem identAt_suffix {env : Env} {x y w : Line} (h : identAt env (x ++ y) x.length = some w) :
    (∃ p, x = p ++ w ∧ (p = [] ∨ ∃ q c, p = q ++ [c] ∧ c ∈ breakChars)) ∧ w ≠ [] ∧ env.ident w = true ∧
      (∀ c ∈ w, c ∉ breakChars) := by
  simp only [identAt, List.take_left' rfl] at h
  split at h
  · exact absurd h nofun
  · split at h
    · exact absurd h nofun
    · next hw =>
      split at h
      · exact absurd h nofun
      · split at h
        · next hid =>
          have h : (lastWordRev x.reverse).reverse = w := by simpa using h
          obtain ⟨r, h1, h2, h3⟩ := lastWordRev_prefix x.reverse
          refine ⟨⟨r.reverse, ?_, ?_⟩, ?_, h ▸ hid, ?_⟩
          · have := congrArg List.reverse h1
            rw [List.reverse_reverse, List.reverse_append, h] at this
            exact this
          · rcases h2 with h2 | ⟨c, t, h2, h4⟩
            · left; simp [h2]
            · right; exact ⟨t.reverse, c, by simp [h2], h4⟩
          · intro he
            rw [he] at h
            apply hw
            have : lastWordRev x.reverse = [] := by simpa using h
            simp [this]
          · intro c hc
            rw [← h] at hc
            exact h3 c (by simpa using hc)
        · exact absurd h nofun

end Verif.Editor
