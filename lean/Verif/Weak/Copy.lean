import Verif.Weak.Settled

/-!
# Copies of the containers keyed by weak references
-/

namespace Verif.Weak

variable {V : Type}

/--
The copy: new references with the callback of the **new** container, one for each living key. `weak_set.py`:685-696,
`weak_map.py`:324-350, `weak_key_dictionary.py`:416-442. (What it does to the old container is the operation `sweep`.)
-/
def Table.copy (cls : Nat → Nat) (t : Table V) : Table V :=
  t.view.foldl (fun new i => new.put cls i.1 i.2) { fresh := t.fresh, dead := t.dead }

/-- No two keys are equal. -/
def Apart (cls : Nat → Nat) (items : List (Nat × V)) : Prop := items.Pairwise fun a b => cls a.1 ≠ cls b.1

theorem plain_store_keys (cls : Nat → Nat) (o : Nat) (v : V) : ∀ (items : List (Nat × V)) (i : Nat × V),
    i ∈ Plain.store cls o v items → cls i.1 = cls o ∨ i ∈ items
  | [], i, h => by
    rw [Plain.store, List.mem_singleton] at h
    exact Or.inl (by rw [h])
  | (k, w) :: rest, i, h => by
    rw [Plain.store] at h
    split at h
    · next hk =>
      rcases List.mem_cons.1 h with h | h
      · exact Or.inl (by rw [h]; exact hk)
      · exact Or.inr (List.mem_cons_of_mem _ h)
    · rcases List.mem_cons.1 h with h | h
      · exact Or.inr (by rw [h]; simp)
      · rcases plain_store_keys cls o v rest i h with h | h
        · exact Or.inl h
        · exact Or.inr (List.mem_cons_of_mem _ h)

theorem plain_store_apart {cls : Nat → Nat} {o : Nat} {v : V} : ∀ {items : List (Nat × V)}, Apart cls items →
    Apart cls (Plain.store cls o v items)
  | [], _ => by simp [Plain.store, Apart]
  | (k, w) :: rest, h => by
    have h' := List.pairwise_cons.1 h
    rw [Plain.store]
    split
    · exact List.pairwise_cons.2 h'
    · next hk =>
      refine List.pairwise_cons.2 ⟨fun i hi => ?_, plain_store_apart h'.2⟩
      rcases plain_store_keys cls o v rest i hi with hi | hi
      · show cls k ≠ cls i.1
        rw [hi]; exact hk
      · exact h'.1 i hi

theorem allows_apart {cls : Nat → Nat} {kind : Kind} {p p' : Plain V} {op : Op V} {out : Out V}
    (h : Plain.Allows cls kind p op p' out) (ha : Apart cls p.items) : Apart cls p'.items := by
  cases op with
  | put o v =>
    rw [Plain.Allows] at h
    split at h
    · rw [h.1]; exact ha
    · rw [h.1]; exact plain_store_apart ha
  | setdefault o v =>
    rw [Plain.Allows] at h
    split at h
    · rw [h.1]; exact ha
    · split at h
      · rw [h.1]; exact ha
      · next hg =>
        rw [h.1]
        show Apart cls (p.items ++ [(o, v)])
        rw [← store_none p.items hg]
        exact plain_store_apart ha
  | remove o =>
    rw [Plain.Allows] at h
    split at h
    · rw [h.1]; exact ha
    · rw [h.1]; exact List.Pairwise.sublist List.eraseP_sublist ha
  | look o =>
    rw [Plain.Allows] at h
    split at h
    · rw [h.1]; exact ha
    · rw [h.1]; exact ha
  | pop c =>
    rw [Plain.Allows] at h
    split at h
    · rw [h.1]; exact ha
    · rcases h with h | ⟨b, i, a, h1, h2, _⟩
      · rw [h.2.1]; exact ha
      · rw [h2]
        rw [h1] at ha
        exact List.Pairwise.sublist (List.Sublist.append (List.Sublist.refl b) (List.sublist_cons_self i a)) ha
  | clear => rw [Plain.Allows] at h; rw [h.1]; exact List.Pairwise.nil
  | enter => rw [Plain.Allows] at h; rw [h.1]; exact ha
  | leave o => rw [Plain.Allows] at h; rw [h.1]; exact ha
  | die o =>
    rw [Plain.Allows] at h
    split at h
    · rw [h.1]; exact ha
    · rw [h.1]; exact List.Pairwise.sublist List.filter_sublist ha
  | sweep o => rw [Plain.Allows] at h; rw [h.1]; exact ha
  | foreign o => rw [Plain.Allows] at h; rw [h.1]; exact ha

theorem runs_apart {cls : Nat → Nat} {kind : Kind} {p p' : Plain V} {ops : List (Op V)} {outs : List (Out V)}
    (h : Plain.Runs cls kind p ops p' outs) (ha : Apart cls p.items) : Apart cls p'.items := by
  induction h with
  | nil => exact ha
  | cons h _ ih => exact ih (allows_apart h ha)

theorem store_new {cls : Nat → Nat} {o : Nat} {v : V} {items : List (Nat × V)}
    (h : ∀ i ∈ items, cls i.1 ≠ cls o) : Plain.store cls o v items = items ++ [(o, v)] := by
  refine store_none items ?_
  unfold Plain.get
  rw [List.find?_eq_none]
  intro i hi
  simpa using h i hi

theorem copy_loop {cls : Nat → Nat} : ∀ (items : List (Nat × V)) (t : Table V), Inv t → Settled t → t.iterating = 0 →
    Apart cls (t.view ++ items) → (∀ i ∈ items, t.live i.1 = true) →
    Inv (items.foldl (fun new i => new.put cls i.1 i.2) t) ∧ Settled (items.foldl (fun new i => new.put cls i.1 i.2) t) ∧
    (items.foldl (fun new i => new.put cls i.1 i.2) t).plain = { items := t.view ++ items, dead := t.dead } ∧
    (items.foldl (fun new i => new.put cls i.1 i.2) t).iterating = 0
  | [], t, hI, hS, h0, _, _ => ⟨hI, hS, by simp [Table.plain], h0⟩
  | i :: items, t, hI, hS, h0, ha, hl => by
    have hli := hl i (by simp)
    have hs : t.step cls .keys (.put i.1 i.2) = (t.put cls i.1 i.2, .unit) := by
      simp only [Table.step]
      rw [if_pos hli]
    obtain ⟨h1, a1⟩ := step_good cls .keys hI (.put i.1 i.2)
    rw [hs] at h1 a1
    have hd : i.1 ∉ t.plain.dead := (live_iff t i.1).1 hli
    rw [Plain.Allows, if_neg hd] at a1
    have hview : (t.put cls i.1 i.2).view = t.view ++ [i] := by
      have h2 : (t.put cls i.1 i.2).plain.items = Plain.store cls i.1 i.2 t.view := by rw [a1.1]; rfl
      refine Eq.trans h2 (store_new fun j hj => ?_)
      exact (List.pairwise_append.1 ha).2.2 j hj i (by simp)
    have hdead : (t.put cls i.1 i.2).dead = t.dead := by
      have h2 : (t.put cls i.1 i.2).plain.dead = t.plain.dead := by rw [a1.1]
      exact h2
    have hit : (t.put cls i.1 i.2).iterating = 0 := by
      rw [put_eq]; exact h0
    obtain ⟨b1, b2, b3, b4⟩ := copy_loop items (t.put cls i.1 i.2) h1 (hS.put i.2 hli) hit (by
      rw [hview, List.append_assoc]; exact ha) (fun j hj => by
        have : (t.put cls i.1 i.2).live j.1 = t.live j.1 := by unfold Table.live; rw [hdead]
        rw [this]
        exact hl j (List.mem_cons_of_mem _ hj))
    refine ⟨b1, b2, b3.trans ?_, b4⟩
    rw [hview, hdead, List.append_assoc]
    rfl

theorem table_view_live {t : Table V} {i : Nat × V} (hi : i ∈ t.view) : t.live i.1 = true := by
  unfold Table.view at hi
  obtain ⟨e, _, he⟩ := List.mem_filterMap.1 hi
  split at he
  · next h =>
    have : (e.1.target, e.2) = i := by simpa using he
    rw [← this]; exact h
  · cases he

theorem copy_good {cls : Nat → Nat} {t : Table V} (ha : Apart cls t.view) :
    Inv (t.copy cls) ∧ Settled (t.copy cls) ∧ (t.copy cls).plain = t.plain ∧ (t.copy cls).iterating = 0 := by
  have := copy_loop (cls := cls) t.view ({ fresh := t.fresh, dead := t.dead } : Table V)
    ⟨by simp, by simp, by simp, by simp, by simp⟩ ⟨by simp, by simp, by simp⟩ rfl (by exact ha)
    (fun i hi => by have h := table_view_live (t := t) hi; exact h)
  obtain ⟨a, b, c, d⟩ := this
  refine ⟨a, b, c.trans ?_, d⟩
  rfl

end Verif.Weak
