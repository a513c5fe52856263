import Verif.Files.Model

/-!
# Infos of files, sessions of the line cache, alike exceptions: properties
-/

namespace Verif.Files

/-! ## C414: sessions keep infos -/

/-- A session is entered and has memorised the info of a file. -/
def Kept (s : St) (k n id : Nat) : Prop := k ∈ s.active ∧ id ∈ s.memo k ∧ s.cache n = some id

theorem kept_put (s : St) (k n id m i : Nat) (h : Kept s k n id) (hm : m = n → i = id) : Kept (s.put m i) k n id := by
  obtain ⟨h1, h2, h3⟩ := h
  refine ⟨h1, ?_, ?_⟩
  · simp only [St.put, if_pos h1]; exact List.mem_cons_of_mem _ h2
  · simp only [St.put]
    by_cases he : n = m
    · rw [if_pos he, hm he.symm]
    · rw [if_neg he]; exact h3

theorem kept_get (s : St) (k n id m : Nat) (h : Kept s k n id) : Kept (s.get m).1 k n id := by
  unfold St.get
  split
  · rename_i i hi
    refine kept_put s k n id m i h ?_
    rintro rfl
    rw [h.2.2] at hi
    exact (Option.some.inj hi).symm
  · rename_i hi
    refine kept_put _ k n id m _ ⟨h.1, h.2.1, h.2.2⟩ ?_
    rintro rfl
    rw [h.2.2] at hi
    cases hi

theorem kept_step (s : St) (k n id : Nat) (o : Op) (h : Kept s k n id) (ho : o ≠ .exit k) : Kept (s.step o).1 k n id := by
  obtain ⟨h1, h2, h3⟩ := h
  cases o with
  | write m c => exact ⟨h1, h2, h3⟩
  | get m => exact kept_get s k n id m ⟨h1, h2, h3⟩
  | hold i => exact ⟨h1, h2, h3⟩
  | release i => exact ⟨h1, h2, h3⟩
  | collect =>
    refine ⟨h1, h2, ?_⟩
    have : s.holds id = true := by
      simp only [St.holds, Bool.or_eq_true, List.any_eq_true, List.contains_iff_mem]
      exact .inr ⟨k, h1, h2⟩
    simp only [St.step, h3, this, if_true]
  | enter j =>
    refine ⟨?_, h2, h3⟩
    simp only [St.step]
    split
    · exact h1
    · exact List.mem_cons_of_mem _ h1
  | exit j =>
    simp only [St.step]
    split
    · refine ⟨?_, h2, h3⟩
      simp only [List.mem_filter, ne_eq, decide_not, Bool.not_eq_eq_eq_not, Bool.not_true, decide_eq_false_iff_not]
      exact ⟨h1, fun he => ho (by rw [he])⟩
    · exact ⟨h1, h2, h3⟩

theorem get_kept (s : St) (k n : Nat) (hk : k ∈ s.active) : Kept (s.get n).1 k n (s.get n).2 := by
  unfold St.get
  split
  · exact ⟨hk, by simp [St.put, hk], by simp [St.put]⟩
  · exact ⟨hk, by simp [St.put, hk], by simp [St.put]⟩

theorem get_cached (s : St) (n id : Nat) (h : s.cache n = some id) : (s.get n).2 = id := by
  unfold St.get
  rw [h]

/-- C414: While a session is entered, every lookup of a file gives the same info as the first one in it, whatever else is
entered, exited, collected or written. -/
theorem C414_same (s : St) (k n : Nat) (hk : k ∈ s.active) (ops : List Op) (hops : ∀ o ∈ ops, o ≠ .exit k) :
    (((s.get n).1.run ops).get n).2 = (s.get n).2 := by
  have key : ∀ (ops : List Op) (t : St), (∀ o ∈ ops, o ≠ .exit k) → Kept t k n (s.get n).2 →
      Kept (t.run ops) k n (s.get n).2 := by
    intro ops
    induction ops with
    | nil => exact fun t _ h => h
    | cons o ops ih =>
      intro t ho h
      exact ih _ (fun x hx => ho x (List.mem_cons_of_mem _ hx)) (kept_step t k n _ o h (ho o (List.mem_cons_self ..)))
  exact get_cached _ n _ (key ops _ hops (get_kept s k n hk)).2.2

example : ((St.run {} [.enter 1, .get 5, .write 5 (some 3), .collect]).get 5).2 = 0 := by decide

/-- C414: Without a session and a holder the info is collected and the next lookup makes a new one. -/
theorem C414_collected (s : St) (n id : Nat) (hc : s.cache n = some id) (hh : s.held.contains id = false)
    (ha : ∀ k ∈ s.active, id ∉ s.memo k) : ((s.step .collect).1.get n).2 = s.next := by
  have : s.holds id = false := by
    simp only [St.holds, hh, Bool.false_or]
    rw [List.any_eq_false]
    intro k hk
    simpa [List.contains_iff_mem] using ha k hk
  unfold St.get
  simp only [St.step, hc, this, Bool.false_eq_true, if_false]

/-! ## C415: contents -/

/-- Every info has a content which its file had once. -/
structure Past (s : St) (had : Nat → Option Nat → Prop) : Prop where
  now : ∀ n, had n (s.files n)
  cached : ∀ n id, s.cache n = some id → id < s.next ∧ had n (s.content id)

theorem past_get (s : St) (had : Nat → Option Nat → Prop) (h : Past s had) (n : Nat) :
    Past (s.get n).1 had ∧ had n ((s.get n).1.content (s.get n).2) := by
  unfold St.get
  split
  · rename_i id hid
    refine ⟨⟨h.now, ?_⟩, (h.cached n id hid).2⟩
    intro m i hi
    simp only [St.put] at hi
    split at hi
    · rename_i he; cases hi; rw [he]; exact h.cached n id hid
    · exact h.cached m i hi
  · rename_i hid
    refine ⟨⟨h.now, ?_⟩, ?_⟩
    · intro m i hi
      simp only [St.put] at hi ⊢
      split at hi
      · rename_i he
        cases hi
        rw [if_pos rfl, he]
        exact ⟨Nat.lt_succ_self _, h.now n⟩
      · obtain ⟨h1, h2⟩ := h.cached m i hi
        rw [if_neg (by omega)]
        exact ⟨by omega, h2⟩
    · simp only [St.put, if_pos]
      exact h.now n

theorem past_step (s : St) (had : Nat → Option Nat → Prop) (o : Op) (h : Past s had)
    (hn : ∀ n, had n ((s.step o).1.files n)) : Past (s.step o).1 had := by
  cases o with
  | write m c => exact ⟨hn, h.cached⟩
  | get m => exact (past_get s had h m).1
  | hold i => exact ⟨h.now, h.cached⟩
  | release i => exact ⟨h.now, h.cached⟩
  | collect =>
    refine ⟨h.now, ?_⟩
    intro n id hi
    simp only [St.step] at hi
    split at hi
    · rename_i i hc
      split at hi
      · cases hi; exact h.cached n _ hc
      · cases hi
    · cases hi
  | enter j => exact ⟨h.now, h.cached⟩
  | exit j =>
    simp only [St.step]
    split
    · exact ⟨h.now, h.cached⟩
    · exact h

theorem run_append (s : St) (a b : List Op) : s.run (a ++ b) = (s.run a).run b := List.foldl_append

theorem past_run (had : Nat → Option Nat → Prop) : ∀ (ops : List Op) (s : St), Past s had →
    (∀ m n, had n ((s.run (ops.take m)).files n)) → Past (s.run ops) had
  | [], _, h, _ => h
  | o :: ops, s, h, hn => by
    refine past_run had ops _ (past_step s had o h fun n => hn 1 n) fun m n => ?_
    exact hn (m + 1) n

/-- C415: A lookup gives a content which this file had at some time. Missing: that it is the present one. -/
theorem C415_once_partial (ops : List Op) (n : Nat) : ∃ m, m ≤ ops.length ∧
    (((St.run {} ops).get n).1.content ((St.run {} ops).get n).2) = (St.run {} (ops.take m)).files n := by
  have h := past_run (fun n c => ∃ m, m ≤ ops.length ∧ c = (St.run {} (ops.take m)).files n) ops {}
    ⟨fun n => ⟨0, Nat.zero_le _, rfl⟩, fun n id h => by cases h⟩ (fun m n => by
      refine ⟨min m ops.length, Nat.min_le_right _ _, ?_⟩
      rw [Nat.min_def]
      split
      · rfl
      · rw [List.take_of_length_le (by omega), List.take_of_length_le (Nat.le_refl _)])
  exact (past_get _ _ h n).2

/-- C415: If no info of the file is there, the content is the present one. -/
theorem C415_fresh_partial (s : St) (n : Nat) (hc : s.cache n = none) : (s.get n).1.content (s.get n).2 = s.files n := by
  unfold St.get
  rw [hc]
  simp [St.put]

/-- C415: As long as anything holds the info, a file which was written meanwhile is shown as it was; one which did not exist
is not found. -/
theorem C415_old_violated (c d : Option Nat) (n : Nat) :
    let s := St.run {} [.write n c, .get n, .hold 0, .write n d, .collect]
    s.files n = d ∧ (s.get n).1.content (s.get n).2 = c := by
  simp [St.run, St.step, St.get, St.put, St.holds]

/-! ## C416: sessions -/

theorem active_step (s : St) (o : Op) (k : Nat) (h1 : o ≠ .enter k) (h2 : o ≠ .exit k) :
    k ∈ (s.step o).1.active ↔ k ∈ s.active := by
  cases o with
  | write m c => exact Iff.rfl
  | get m =>
    show k ∈ (s.get m).1.active ↔ _
    unfold St.get
    split <;> exact Iff.rfl
  | hold i => exact Iff.rfl
  | release i => exact Iff.rfl
  | collect => exact Iff.rfl
  | enter j =>
    simp only [St.step]
    split
    · exact Iff.rfl
    · rw [List.mem_cons]
      exact ⟨fun h => h.resolve_left fun he => h1 (by rw [he]), .inr⟩
  | exit j =>
    simp only [St.step]
    split
    · simp only [List.mem_filter, ne_eq, decide_not, Bool.not_eq_eq_eq_not, Bool.not_true, decide_eq_false_iff_not]
      exact ⟨fun h => h.1, fun h => ⟨h, fun he => h2 (by rw [he])⟩⟩
    · exact Iff.rfl

/-- C416: A session which is entered once can be exited whatever happened between, also with other sessions, and is not
entered then. Missing: sessions entered again. -/
theorem C416_exit_partial (s : St) (k : Nat) (ops : List Op) (h : ∀ o ∈ ops, o ≠ .enter k ∧ o ≠ .exit k) :
    let t := (s.step (.enter k)).1.run ops
    (t.step (.exit k)).2 = false ∧ k ∉ (t.step (.exit k)).1.active := by
  have key : ∀ (ops : List Op) (t : St), (∀ o ∈ ops, o ≠ .enter k ∧ o ≠ .exit k) → k ∈ t.active → k ∈ (t.run ops).active := by
    intro ops
    induction ops with
    | nil => exact fun t _ h => h
    | cons o ops ih =>
      intro t ho hk
      have h' := ho o (List.mem_cons_self ..)
      exact ih _ (fun x hx => ho x (List.mem_cons_of_mem _ hx)) ((active_step t o k h'.1 h'.2).2 hk)
  have hk : k ∈ (s.step (.enter k)).1.active := by
    simp only [St.step]
    split
    · assumption
    · exact List.mem_cons_self ..
  have hm := key ops _ h hk
  dsimp only
  generalize (s.step (.enter k)).1.run ops = t at hm
  simp only [St.step, if_pos hm]
  simp

/-- C416: Entered again while it is entered, it is exited by the inner exit already: what is looked up after it is not kept,
and the outer exit raises. -/
theorem C416_again_violated (s : St) (k : Nat) :
    let t := s.run [.enter k, .enter k, .exit k]
    k ∉ t.active ∧ (t.step (.exit k)).2 = true := by
  have h : k ∉ (s.run [.enter k, .enter k, .exit k]).active := by
    simp only [St.run, List.foldl_cons, List.foldl_nil, St.step]
    by_cases hk : k ∈ s.active <;> simp [hk]
  refine ⟨h, ?_⟩
  simp only [St.step, if_neg h]

/-! ## C417: alike exceptions -/

theorem zip_eq {α : Type} (p : α → α → Bool) : ∀ a b : List α, a.length = b.length →
    (zipAll p a b = true ↔ ∀ (k : Nat) (x y : α), a[k]? = some x → b[k]? = some y → p x y = true)
  | [], [], _ => by simp [zipAll]
  | a :: as, b :: bs, h => by
    rw [zipAll]
    have ih := zip_eq p as bs (by simpa using h)
    constructor
    · intro hz k x y hx hy
      split at hz
      · rename_i hp
        cases k with
        | zero => simp at hx hy; subst hx hy; exact hp
        | succ k => exact ih.1 hz k x y (by simpa using hx) (by simpa using hy)
      · cases hz
    · intro hall
      rw [if_pos (hall 0 a b rfl rfl)]
      exact ih.2 fun k x y hx hy => hall (k + 1) x y (by simpa using hx) (by simpa using hy)

theorem len_all (g : Group) : g.all.length = g.len := by
  rw [Group.all, Group.len, List.length_flatten, List.map_replicate, List.sum_replicate_nat, Nat.mul_comm]

theorem group_alike (a b : Group) : a.alike b = true ↔ a.all = b.all := by
  rw [Group.alike]
  split
  · rename_i h
    simp only [Bool.false_eq_true, false_iff]
    intro he
    exact h (by rw [← len_all, ← len_all, he])
  · rename_i h
    have hl : a.all.length = b.all.length := by rw [len_all, len_all]; omega
    rw [zip_eq _ _ _ hl]
    constructor
    · intro hz
      apply List.ext_getElem hl
      intro k h1 h2
      simpa using hz k _ _ (List.getElem?_eq_getElem h1) (List.getElem?_eq_getElem h2)
    · intro he k x y hx hy
      rw [he, hy] at hx
      cases hx
      simp

theorem total_pos : ∀ l : List Group, (∀ g ∈ l, 0 < g.len) → total l = 0 → l = []
  | [], _, _ => rfl
  | g :: l, h, ht => by
    have := h g (List.mem_cons_self ..)
    simp only [total, List.map_cons, List.sum_cons] at ht
    omega

theorem zip_groups : ∀ a b : List Group, (∀ g ∈ a, 0 < g.len) → (∀ g ∈ b, 0 < g.len) → total a = total b →
    (zipAll Group.alike a b = true ↔ a.map Group.all = b.map Group.all)
  | [], b, _, hb, ht => by
    have := total_pos b hb (by rw [← ht]; rfl)
    subst this
    simp [zipAll]
  | a :: as, [], ha, _, ht => by
    have := total_pos _ ha (by rw [ht]; rfl)
    cases this
  | a :: as, b :: bs, ha, hb, ht => by
    rw [zipAll, List.map_cons, List.map_cons, List.cons.injEq]
    by_cases hab : a.alike b = true
    · rw [if_pos hab]
      have he := (group_alike a b).1 hab
      have hl : a.len = b.len := by rw [← len_all, ← len_all, he]
      have ht' : total as = total bs := by
        simp only [total, List.map_cons, List.sum_cons] at ht ⊢
        omega
      rw [zip_groups as bs (fun g hg => ha g (List.mem_cons_of_mem _ hg)) (fun g hg => hb g (List.mem_cons_of_mem _ hg)) ht']
      exact ⟨fun h => ⟨he, h⟩, fun h => h.2⟩
    · rw [if_neg hab]
      simp only [Bool.false_eq_true, false_iff, not_and]
      exact fun he => absurd ((group_alike a b).2 he) hab

theorem sum_total : ∀ l : List Group, ((l.map Group.all).map List.length).sum = total l
  | [] => rfl
  | g :: l => by
    have := sum_total l
    simp only [total, List.map_cons, List.sum_cons, len_all] at this ⊢
    omega

/-- C417: Exceptions without empty groups are alike exactly if they are represented the same and their groups, written out
with their repeats, are the same frames. -/
theorem C417_alike (a b : Nat × List Group) (ha : ∀ g ∈ a.2, 0 < g.len) (hb : ∀ g ∈ b.2, 0 < g.len) :
    alike a b = true ↔ a.1 = b.1 ∧
      a.2.map (fun g => (List.replicate g.count g.frames).flatten) = b.2.map fun g => (List.replicate g.count g.frames).flatten := by
  show _ ↔ a.1 = b.1 ∧ a.2.map Group.all = b.2.map Group.all
  rw [alike]
  split
  · rename_i h; simp [h]
  · rename_i h
    split
    · rename_i ht
      simp only [Bool.false_eq_true, false_iff, not_and]
      intro _ he
      exact ht (by rw [← sum_total, ← sum_total, he])
    · rename_i ht
      rw [zip_groups a.2 b.2 ha hb (by omega)]
      exact ⟨fun hz => ⟨by omega, hz⟩, fun hz => hz.2⟩

example : alike (0, [⟨[1, 2], 2⟩]) (0, [⟨[1, 2, 1, 2], 1⟩]) = true ∧ alike (0, [⟨[1], 1⟩, ⟨[1], 1⟩]) (0, [⟨[1, 1], 1⟩]) = false := by
  decide

end Verif.Files
