import Verif.Extensions.Model

/-!
# Hooks of library extensions: properties
-/

namespace Verif.Extensions

/-! ## C382, C383: what holds whatever the hooks do -/

/-- Waiting hooks and called ones are those added; called ones had all they require, waiting ones wait for what is not
loaded. -/
structure Inv (s : St) : Prop where
  all : (s.hooks.map (fun h => (h.id, h.all)) ++ s.calls).Perm s.added
  called : ∀ c ∈ s.calls, ∀ x ∈ c.2, x ∈ s.loaded
  waiting : ∀ h ∈ s.hooks, ∀ x ∈ h.all, x ∈ s.loaded ∨ x ∈ h.requirements

/-- Extensions stay loaded. -/
def More (s s' : St) : Prop := ∀ x ∈ s.loaded, x ∈ s'.loaded

theorem More.refl (s : St) : More s s := fun _ h => h

theorem More.trans {a b c : St} (h : More a b) (h' : More b c) : More a c := fun x hx => h' x (h x hx)

/-- What calling of a hook has to do: the call is recorded, whatever follows keeps the rest right. -/
def Fair (call : St → Nat × List Nat → St) : Prop :=
  ∀ s h, Inv { s with calls := s.calls ++ [h] } → Inv (call s h) ∧ More s (call s h)

theorem map_set_same (l : List Hook) (n : Nat) (h : Hook) (r : List Nat) (hn : l[n]? = some h) :
    (l.set n { h with requirements := r }).map (fun h => (h.id, h.all)) = l.map (fun h => (h.id, h.all)) := by
  apply List.ext_getElem?
  intro i
  rw [List.getElem?_map, List.getElem?_map, List.getElem?_set]
  split
  · rename_i he
    subst he
    rw [hn]
    split
    · rfl
    · rename_i hlt
      rw [List.getElem?_eq_none (by omega)] at hn
      cases hn
  · rfl

theorem erase_perm (l : List Hook) (n : Nat) (h : Hook) (hn : l[n]? = some h) : (h :: l.eraseIdx n).Perm l := by
  induction l generalizing n with
  | nil => simp at hn
  | cons a l ih =>
    cases n with
    | zero => simp at hn; subst hn; simp
    | succ n =>
      simp only [List.getElem?_cons_succ] at hn
      simp only [List.eraseIdx_cons_succ]
      exact (List.Perm.swap a h _).trans ((ih n hn).cons a)

theorem loop_inv (call : St → Nat × List Nat → St) (hc : Fair call) (name : Nat) :
    ∀ n s, Inv s → name ∈ s.loaded → Inv (loop call name n s).1 ∧ More s (loop call name n s).1
  | 0, s, h, _ => ⟨h, More.refl s⟩
  | n + 1, s, h, hn => by
    rw [loop]
    rcases Option.eq_none_or_eq_some s.hooks[n]? with hk | ⟨k, hk⟩
    · rw [hk]; exact ⟨h, More.refl s⟩
    · rw [hk]
      dsimp only
      have hmem : k ∈ s.hooks := List.mem_of_getElem? hk
      have hkw : ∀ x ∈ k.all, x ∈ s.loaded ∨ x ∈ k.requirements.filter (· ≠ name) := by
        intro x hx
        rcases h.waiting k hmem x hx with h1 | h1
        · exact Or.inl h1
        · by_cases hxn : x = name
          · rw [hxn]; exact Or.inl hn
          · exact Or.inr (List.mem_filter.2 ⟨h1, by simpa using hxn⟩)
      split
      · have hi : Inv { s with hooks := s.hooks.set n { k with requirements := k.requirements.filter (· ≠ name) } } := by
          refine ⟨?_, h.called, ?_⟩
          · show (List.map _ _ ++ s.calls).Perm s.added
            rw [map_set_same _ _ _ _ hk]; exact h.all
          · intro g hg x hx
            rcases List.mem_or_eq_of_mem_set hg with h1 | h1
            · exact h.waiting g h1 x hx
            · subst h1; exact hkw x hx
        exact loop_inv call hc name n _ hi hn
      · rename_i hr
        have hr0 : k.requirements.filter (· ≠ name) = [] := by simpa using hr
        have hi : Inv { s with hooks := s.hooks.eraseIdx n, calls := s.calls ++ [(k.id, k.all)] } := by
          refine ⟨?_, ?_, ?_⟩
          · show (List.map _ (s.hooks.eraseIdx n) ++ (s.calls ++ [(k.id, k.all)])).Perm s.added
            refine List.Perm.trans ?_ h.all
            have := ((erase_perm _ _ _ hk).map (fun h => (h.id, h.all))).append_right s.calls
            refine List.Perm.trans ?_ this
            rw [← List.append_assoc]
            exact List.perm_append_singleton _ _
          · intro c hcm x hx
            rcases List.mem_append.1 hcm with h1 | h1
            · exact h.called c h1 x hx
            · simp only [List.mem_singleton] at h1
              subst h1
              rcases hkw x hx with h2 | h2
              · exact h2
              · rw [hr0] at h2; cases h2
          · intro g hg x hx
            exact h.waiting g (List.mem_of_mem_eraseIdx hg) x hx
        obtain ⟨h1, h2⟩ := hc { s with hooks := s.hooks.eraseIdx n } (k.id, k.all) hi
        obtain ⟨h3, h4⟩ := loop_inv call hc name n _ h1 (h2 name hn)
        exact ⟨h3, More.trans h2 h4⟩

theorem exec_inv (call : St → Nat × List Nat → St) (hc : Fair call) (s : St) (op : Op) (h : Inv s) :
    Inv (exec call s op).1 ∧ More s (exec call s op).1 := by
  cases op with
  | register name =>
    rw [exec]
    split
    · exact ⟨⟨h.all, h.called, h.waiting⟩, fun _ h => h⟩
    · have hi : Inv { s with loaded := s.loaded ++ [name] } :=
        ⟨h.all, fun c hcm x hx => List.mem_append_left _ (h.called c hcm x hx), fun k hk x hx =>
          (h.waiting k hk x hx).imp (List.mem_append_left _) id⟩
      obtain ⟨h1, h2⟩ := loop_inv call hc name s.hooks.length _ hi (by simp)
      exact ⟨h1, fun x hx => h2 x (List.mem_append_left _ hx)⟩
  | add id requirements =>
    rw [exec]
    dsimp only
    split
    · refine ⟨⟨?_, h.called, ?_⟩, fun _ h => h⟩
      · show (List.map _ (s.hooks ++ [_]) ++ s.calls).Perm (s.added ++ [_])
        rw [List.map_append, List.append_assoc]
        refine List.Perm.trans ?_ (h.all.append_right _)
        rw [List.append_assoc]
        exact (List.perm_append_comm).append_left _
      · intro k hk x hx
        rcases List.mem_append.1 hk with h1 | h1
        · exact h.waiting k h1 x hx
        · simp only [List.mem_singleton] at h1
          subst h1
          by_cases hl : x ∈ s.loaded
          · exact Or.inl hl
          · exact Or.inr (List.mem_filter.2 ⟨hx, by simpa using hl⟩)
    · rename_i hr
      have hr0 : requirements.filter (· ∉ s.loaded) = [] := by simpa using hr
      have := hc { s with added := s.added ++ [(id, requirements)] } (id, requirements) ⟨?_, ?_, h.waiting⟩
      · exact this
      · show (List.map _ s.hooks ++ (s.calls ++ [_])).Perm (s.added ++ [_])
        rw [← List.append_assoc]
        exact h.all.append_right _
      · intro c hcm x hx
        rcases List.mem_append.1 hcm with h1 | h1
        · exact h.called c h1 x hx
        · simp only [List.mem_singleton] at h1
          subst h1
          by_cases hl : x ∈ s.loaded
          · exact hl
          · have : x ∈ requirements.filter (· ∉ s.loaded) := List.mem_filter.2 ⟨hx, by simpa using hl⟩
            rw [hr0] at this; cases this
  | raise => exact ⟨h, More.refl s⟩

theorem script_inv (call : St → Nat × List Nat → St) (hc : Fair call) :
    ∀ ops s, Inv s → Inv (script call ops s).1 ∧ More s (script call ops s).1
  | [], s, h => ⟨h, More.refl s⟩
  | op :: ops, s, h => by
    rw [script]
    obtain ⟨h1, h2⟩ := exec_inv call hc s op h
    generalize exec call s op = e at h1 h2
    obtain ⟨s', b⟩ := e
    cases b with
    | true => exact ⟨h1, h2⟩
    | false =>
      obtain ⟨h3, h4⟩ := script_inv call hc ops s' h1
      exact ⟨h3, More.trans h2 h4⟩

theorem call_fair (does : Nat → List Op) : ∀ n, Fair (call does n)
  | 0 => fun s h hi => ⟨hi, fun _ hx => hx⟩
  | n + 1 => fun s h hi => by
    rw [call]
    obtain ⟨h1, h2⟩ := script_inv (call does n) (call_fair does n) (does h.1) _ hi
    generalize script (call does n) (does h.1) { s with calls := s.calls ++ [h] } = e at h1 h2
    obtain ⟨s', b⟩ := e
    cases b with
    | true => exact ⟨⟨h1.all, h1.called, h1.waiting⟩, fun x hx => h2 x hx⟩
    | false => exact ⟨h1, fun x hx => h2 x hx⟩

theorem run_inv (does : Nat → List Op) (fuel : Nat) : ∀ ops s, Inv s → Inv (run does fuel s ops)
  | [], _, h => h
  | op :: ops, s, h => run_inv does fuel ops _ (exec_inv _ (call_fair does fuel) s op h).1

theorem start_inv : Inv {} := ⟨List.Perm.refl _, by simp, by simp⟩

/-- C382: Whatever hooks do, none is called more times than it was added. -/
theorem C382_once (does : Nat → List Op) (fuel : Nat) (ops : List Op) (h : Nat × List Nat) :
    (run does fuel {} ops).calls.count h ≤ (run does fuel {} ops).added.count h := by
  have := (run_inv does fuel ops {} start_inv).all.count_eq h
  rw [List.count_append] at this
  omega

/-- C382: Those which were not called still wait. -/
theorem C382_kept (does : Nat → List Op) (fuel : Nat) (ops : List Op) (h : Nat × List Nat)
    (hl : (run does fuel {} ops).calls.count h < (run does fuel {} ops).added.count h) :
    ∃ k ∈ (run does fuel {} ops).hooks, (k.id, k.all) = h := by
  have := (run_inv does fuel ops {} start_inv).all.count_eq h
  rw [List.count_append] at this
  have hpos : 0 < ((run does fuel {} ops).hooks.map (fun h => (h.id, h.all))).count h := by omega
  obtain ⟨k, hk, he⟩ := List.mem_map.1 (List.count_pos_iff.1 hpos)
  exact ⟨k, hk, he⟩

/-- C383: Whatever hooks do, a hook is called only if all extensions it requires are loaded. -/
theorem C383_satisfied (does : Nat → List Op) (fuel : Nat) (ops : List Op) (id : Nat) (requirements : List Nat)
    (h : (id, requirements) ∈ (run does fuel {} ops).calls) :
    ∀ x ∈ requirements, x ∈ (run does fuel {} ops).loaded :=
  (run_inv does fuel ops {} start_inv).called _ h

/-! ## C384: hooks are called as soon as they can be -/

/-- Hooks which neither load extensions nor add hooks. -/
def Plain (does : Nat → List Op) : Prop := ∀ id, ∀ op ∈ does id, op = .raise

/-- Waiting hooks lack something, and that is what they wait for. -/
def Lacking (s : St) : Prop := ∀ h ∈ s.hooks, h.requirements ≠ [] ∧ ∀ x ∈ h.requirements, x ∈ h.all ∧ x ∉ s.loaded

/-- Calling of a plain hook changes nothing but what is recorded of it. -/
theorem plain_call (does : Nat → List Op) (hp : Plain does) (n : Nat) (s : St) (h : Nat × List Nat) :
    (call does n s h).hooks = s.hooks ∧ (call does n s h).loaded = s.loaded := by
  cases n with
  | zero => exact ⟨rfl, rfl⟩
  | succ n =>
    rw [call]
    cases hd : does h.1 with
    | nil => exact ⟨rfl, rfl⟩
    | cons op ops =>
      have := hp h.1 op (by rw [hd]; simp)
      subst this
      exact ⟨rfl, rfl⟩

/-- In the loop: the hooks at the indexes passed lack something, those before may wait for the new extension only. -/
theorem plain_loop (does : Nat → List Op) (hp : Plain does) (fuel name : Nat) :
    ∀ n s, n ≤ s.hooks.length →
      (∀ i h, s.hooks[i]? = some h → (n ≤ i → h.requirements ≠ [] ∧ name ∉ h.requirements) ∧
        ∀ x ∈ h.requirements, x ∈ h.all ∧ (x ∈ s.loaded → x = name)) →
      Lacking (loop (call does fuel) name n s).1 ∧ (loop (call does fuel) name n s).2 = false
  | 0, s, _, h => by
    refine ⟨?_, rfl⟩
    intro k hk
    obtain ⟨i, hi⟩ := List.getElem?_of_mem hk
    obtain ⟨h1, h2⟩ := h i k hi
    refine ⟨(h1 (Nat.zero_le _)).1, fun x hx => ⟨(h2 x hx).1, fun hl => ?_⟩⟩
    have := (h2 x hx).2 hl
    subst this
    exact (h1 (Nat.zero_le _)).2 hx
  | n + 1, s, hn, h => by
    rw [loop]
    have hk : s.hooks[n]? = some s.hooks[n] := List.getElem?_eq_getElem (by omega)
    generalize s.hooks[n] = k at hk
    rw [hk]
    dsimp only
    obtain ⟨_, hk2⟩ := h n k hk
    split
    · rename_i hr
      refine plain_loop does hp fuel name n _ (by simp only [List.length_set]; omega) ?_
      intro i g hg
      simp only [List.getElem?_set] at hg
      split at hg
      · rename_i hni
        subst hni
        rw [if_pos (by omega)] at hg
        cases hg
        exact ⟨fun _ => ⟨hr, by simp⟩, fun x hx => hk2 x (List.mem_filter.1 hx).1⟩
      · rename_i hni
        obtain ⟨g1, g2⟩ := h i g hg
        exact ⟨fun hi => g1 (by omega), g2⟩
    · obtain ⟨c1, c2⟩ := plain_call does hp fuel { s with hooks := s.hooks.eraseIdx n } (k.id, k.all)
      refine plain_loop does hp fuel name n _ ?_ ?_
      · rw [c1, List.length_eraseIdx]
        split <;> omega
      · intro i g hg
        rw [c1] at hg
        rw [c2]
        simp only [List.getElem?_eraseIdx] at hg
        split at hg
        · rename_i hi
          obtain ⟨g1, g2⟩ := h i g hg
          exact ⟨fun hi' => absurd hi' (by omega), g2⟩
        · rename_i hi
          obtain ⟨g1, g2⟩ := h (i + 1) g hg
          exact ⟨fun _ => g1 (by omega), g2⟩

theorem plain_exec (does : Nat → List Op) (hp : Plain does) (fuel : Nat) (s : St) (op : Op) (h : Lacking s) :
    Lacking (exec (call does fuel) s op).1 ∧ ((exec (call does fuel) s op).2 = true → op = .raise) := by
  cases op with
  | register name =>
    rw [exec]
    split
    · exact ⟨h, fun hb => by cases hb⟩
    · rename_i hl
      obtain ⟨h1, h2⟩ := plain_loop does hp fuel name s.hooks.length { s with loaded := s.loaded ++ [name] }
        (Nat.le_refl _) (by
          intro i k hk
          have hm := h k (List.mem_of_getElem? hk)
          refine ⟨fun hi => ?_, fun x hx => ⟨(hm.2 x hx).1, fun hxl => ?_⟩⟩
          · rw [List.getElem?_eq_none hi] at hk; cases hk
          · rcases List.mem_append.1 hxl with h1 | h1
            · exact absurd h1 (hm.2 x hx).2
            · simpa using h1)
      exact ⟨h1, fun hb => by rw [h2] at hb; cases hb⟩
  | add id requirements =>
    rw [exec]
    dsimp only
    split
    · rename_i hr
      refine ⟨?_, fun hb => by cases hb⟩
      intro k hk
      rcases List.mem_append.1 hk with h1 | h1
      · exact h k h1
      · simp only [List.mem_singleton] at h1
        subst h1
        exact ⟨hr, fun x hx => ⟨(List.mem_filter.1 hx).1, by simpa using (List.mem_filter.1 hx).2⟩⟩
    · refine ⟨?_, fun hb => by cases hb⟩
      obtain ⟨c1, c2⟩ := plain_call does hp fuel { s with added := s.added ++ [(id, requirements)] } (id, requirements)
      intro k hk
      rw [c1] at hk
      rw [c2]
      exact h k hk
  | raise => exact ⟨h, fun _ => rfl⟩

theorem plain_run (does : Nat → List Op) (hp : Plain does) (fuel : Nat) : ∀ ops s, Lacking s → Lacking (run does fuel s ops)
  | [], _, h => h
  | op :: ops, s, h => plain_run does hp fuel ops _ (plain_exec does hp fuel s op h).1

/-- C384: Hooks which neither load extensions nor add hooks are called exactly as many times as they were added, as soon as
all they require is loaded, and not before; loading raises nothing. Missing: hooks which load extensions. -/
theorem C384_called_partial (does : Nat → List Op) (hp : Plain does) (fuel : Nat) (ops : List Op) (id : Nat)
    (requirements : List Nat) :
    ((run does fuel {} ops).calls.count (id, requirements) =
      if ∀ x ∈ requirements, x ∈ (run does fuel {} ops).loaded then (run does fuel {} ops).added.count (id, requirements)
      else 0) := by
  have hinv := run_inv does fuel ops {} start_inv
  have hl := plain_run does hp fuel ops {} (by intro k hk; cases hk)
  have hc := hinv.all.count_eq (id, requirements)
  rw [List.count_append] at hc
  split
  · rename_i hr
    have h0 : ((run does fuel {} ops).hooks.map (fun h => (h.id, h.all))).count (id, requirements) = 0 := by
      rw [List.count_eq_zero]
      intro hm
      obtain ⟨k, hk, he⟩ := List.mem_map.1 hm
      obtain ⟨h1, h2⟩ := hl k hk
      obtain ⟨x, xs, hx⟩ : ∃ x xs, k.requirements = x :: xs := by
        cases hkr : k.requirements with
        | nil => exact absurd hkr h1
        | cons x xs => exact ⟨x, xs, rfl⟩
      obtain ⟨h3, h4⟩ := h2 x (by rw [hx]; simp)
      have : k.all = requirements := congrArg Prod.snd he
      rw [this] at h3
      exact h4 (hr x h3)
    omega
  · rename_i hr
    rw [List.count_eq_zero]
    intro hm
    exact hr (hinv.called _ hm)

/-- C384: Nothing raises an IndexError then. -/
theorem C384_silent_partial (does : Nat → List Op) (hp : Plain does) (fuel : Nat) (before : List Op) (op : Op) (ho : op ≠ .raise) :
    (exec (call does fuel) (run does fuel {} before) op).2 = false := by
  have hl := plain_run does hp fuel before {} (by intro k hk; cases hk)
  have := (plain_exec does hp fuel _ op hl).2
  cases hb : (exec (call does fuel) (run does fuel {} before) op).2 with
  | false => rfl
  | true => exact absurd (this hb) ho

/-- The hook 2 loads the extension 8, the others do nothing. -/
def loads (id : Nat) : List Op := if id = 2 then [.register 8] else []

/-- C384: If a hook loads an extension for which an earlier hook waits, the indexes of the loop around are too big: loading
raises an IndexError and a hook which requires nothing more is never called. -/
theorem C384_nested_violated :
    let s := run loads 3 {} [.add 0 [8], .add 1 [9], .add 2 [9], .register 9]
    s.calls = [(2, [9]), (0, [8])] ∧ s.hooks = [⟨1, [9], [9]⟩] ∧ s.loaded = [9, 8] ∧
      (exec (call loads 3) (run loads 3 {} [.add 0 [8], .add 1 [9], .add 2 [9]]) (.register 9)).2 = true := by
  decide

example : (run (fun _ => []) 1 {} [.add 0 [8, 9], .register 9, .add 1 [9], .register 8]).calls =
    [(1, [9]), (0, [8, 9])] := by decide

end Verif.Extensions
