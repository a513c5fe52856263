import Verif.Recent.Model

/-!
# Inputs of the console which are kept: properties
-/

namespace Verif.Recent

/-- Size of all. -/
def total : List Input → Nat
  | [] => 0
  | e :: l => e.size + total l

/-- No name twice. -/
def Distinct (l : List Input) : Prop := (l.map (·.name)).Nodup

theorem total_append (a b : List Input) : total (a ++ b) = total a + total b := by
  induction a with
  | nil => simp [total]
  | cons e a ih => simp only [List.cons_append, total, ih]; omega

theorem total_reverse (a : List Input) : total a.reverse = total a := by
  induction a with
  | nil => rfl
  | cons e a ih => rw [List.reverse_cons, total_append, ih]; simp only [total]; omega

theorem put_names (e : Input) (l : List Input) :
    (put e l).map (·.name) = if e.name ∈ l.map (·.name) then l.map (·.name) else l.map (·.name) ++ [e.name] := by
  induction l with
  | nil => simp [put]
  | cons x l ih =>
    rw [put]
    by_cases h : x.name = e.name
    · rw [if_pos h, List.map_cons, List.map_cons, if_pos (by simp [h]), h]
    · rw [if_neg h, List.map_cons, List.map_cons, ih]
      by_cases hm : e.name ∈ l.map (·.name)
      · rw [if_pos hm, if_pos (List.mem_cons_of_mem _ hm)]
      · rw [if_neg hm, if_neg (by simp only [List.mem_cons, not_or]; exact ⟨Ne.symm h, hm⟩), List.cons_append]

theorem put_distinct (e : Input) (l : List Input) (h : Distinct l) : Distinct (put e l) := by
  rw [Distinct, put_names]
  split
  · exact h
  · rename_i hm
    refine List.nodup_append.2 ⟨h, by simp, ?_⟩
    intro a ha b hb
    simp only [List.mem_singleton] at hb
    subst hb
    exact fun he => hm (he ▸ ha)

theorem dels_eq (ns : List Nat) (l : List Input) : ns.foldl (fun l n => del n l) l = l.filter fun e => e.name ∉ ns := by
  induction ns generalizing l with
  | nil => rw [List.foldl_nil, List.filter_eq_self.2 (by simp)]
  | cons n ns ih =>
    rw [List.foldl_cons, ih, del, List.filter_filter]
    congr 1
    funext e
    simp only [List.mem_cons, not_or, ne_eq, decide_not, Bool.decide_and]
    rw [Bool.and_comm]

theorem filter_distinct (l : List Input) (p : Input → Bool) (h : Distinct l) : Distinct (l.filter p) :=
  h.sublist (List.Sublist.map _ List.filter_sublist)

/-- All after the first one to delete are to delete. -/
theorem delete_all (max : Nat) : ∀ t l, max ≤ t → toDelete max t l = l.map (·.name)
  | _, [], _ => rfl
  | t, e :: l, h => by
    rw [toDelete, if_neg (by omega), delete_all max _ l (by omega), List.map_cons]

/-- The inputs from the last one are split where the limit is reached. -/
theorem delete_split (max : Nat) : ∀ t l, t < max → ∃ kept rest, l = kept ++ rest ∧ t + total kept < max ∧
    toDelete max t l = rest.map (·.name) ∧ ∀ e r, rest = e :: r → max ≤ t + total kept + e.size
  | t, [], h => ⟨[], [], rfl, by simpa [total] using h, rfl, by simp⟩
  | t, e :: l, h => by
    rw [toDelete]
    split
    · rename_i hs
      obtain ⟨kept, rest, h1, h2, h3, h4⟩ := delete_split max (t + e.size) l hs
      refine ⟨e :: kept, rest, by rw [h1]; rfl, by simp only [total]; omega, h3, fun x r hr => ?_⟩
      have := h4 x r hr
      simp only [total]
      omega
    · rename_i hs
      refine ⟨[], e :: l, rfl, by simpa [total] using h, ?_, fun x r hr => ?_⟩
      · rw [delete_all max _ l (by omega), List.map_cons]
      · cases hr; simp only [total]; omega

/-- C394: The check keeps the newest inputs as long as they have less characters than the limit together, and no older ones. -/
theorem C394_newest (max : Nat) (hm : 0 < max) (l : List Input) (hd : Distinct l) :
    ∃ old, l = old ++ check max l ∧ total (check max l) < max ∧
      ∀ o e, old = o ++ [e] → max ≤ e.size + total (check max l) := by
  obtain ⟨kept, rest, h1, h2, h3, h4⟩ := delete_split max 0 l.reverse hm
  have hl : l = rest.reverse ++ kept.reverse := by
    rw [← List.reverse_append, ← h1, List.reverse_reverse]
  have hc : check max l = kept.reverse := by
    rw [check, dels_eq, h3, hl, List.filter_append]
    rw [Distinct, hl, List.map_append] at hd
    have hdis := (List.nodup_append.1 hd).2.2
    rw [List.filter_eq_nil_iff.2, List.nil_append, List.filter_eq_self.2]
    · intro e he
      simp only [decide_eq_true_eq]
      intro hr
      have h5 : e.name ∈ rest.reverse.map (·.name) := by
        obtain ⟨x, hx, hxe⟩ := List.mem_map.1 hr
        exact List.mem_map.2 ⟨x, List.mem_reverse.2 hx, hxe⟩
      exact hdis _ h5 _ (List.mem_map.2 ⟨e, he, rfl⟩) rfl
    · intro e he
      simp only [decide_eq_true_eq, Classical.not_not]
      exact List.mem_map.2 ⟨e, List.mem_reverse.1 he, rfl⟩
  refine ⟨rest.reverse, by rw [hc]; exact hl, by rw [hc, total_reverse]; omega, ?_⟩
  intro o e he
  have : rest = e :: o.reverse := by
    have := congrArg List.reverse he
    simpa using this
  have := h4 e _ this
  rw [hc, total_reverse]
  omega

theorem use_distinct (l : List Input) (e : Input) (h : Distinct l) : Distinct (use l e) := by
  rw [use]
  split
  · rename_i x hx
    have hn : x.name = e.name := by simpa using List.find?_some hx
    rw [Distinct, List.map_append]
    refine List.nodup_append.2 ⟨filter_distinct _ _ h, by simp, ?_⟩
    intro a ha b hb
    simp only [List.map_cons, List.map_nil, List.mem_singleton] at hb
    subst hb
    obtain ⟨y, hy, hya⟩ := List.mem_map.1 ha
    have := (List.mem_filter.1 hy).2
    simp only [ne_eq, decide_not, Bool.not_eq_true', decide_eq_false_iff_not] at this
    rw [← hya, hn]
    exact this
  · exact put_distinct e l h

theorem check_distinct (max : Nat) (l : List Input) (h : Distinct l) : Distinct (check max l) := by
  rw [check, dels_eq]
  exact filter_distinct _ _ h

theorem run_distinct (max period : Nat) (ops : List Op) (l : List Input) (h : Distinct l) :
    Distinct (run max period l ops) := by
  induction ops generalizing l with
  | nil => exact h
  | cons op ops ih =>
    rw [run, List.foldl_cons]
    apply ih
    cases op with
    | add e =>
      rw [step, add]
      split
      · exact check_distinct _ _ (put_distinct e l h)
      · exact put_distinct e l h
    | use e => exact use_distinct l e h

/-- C394: So does it in every history; no name is kept twice. -/
theorem C394_history (max period : Nat) (hm : 0 < max) (ops : List Op) :
    Distinct (run max period [] ops) ∧ ∃ old, run max period [] ops = old ++ check max (run max period [] ops) ∧
      total (check max (run max period [] ops)) < max := by
  have hd := run_distinct max period ops [] (by simp [Distinct])
  obtain ⟨old, h1, h2, -⟩ := C394_newest max hm _ hd
  exact ⟨hd, old, h1, h2⟩

theorem put_new (e : Input) (l : List Input) (h : e.name ∉ l.map (·.name)) : put e l = l ++ [e] := by
  induction l with
  | nil => rfl
  | cons x l ih =>
    simp only [List.map_cons, List.mem_cons, not_or] at h
    rw [put, if_neg (Ne.symm h.1), ih h.2, List.cons_append]

/-- C395: An input with a new name, smaller than the limit, is kept right after it was added, as the newest. Missing: names
which are there already and big inputs. -/
theorem C395_kept_partial (max period : Nat) (ops : List Op) (e : Input) (hn : e.name ∉ (run max period [] ops).map (·.name))
    (hs : e.size < max) : ∃ older, run max period [] (ops ++ [.add e]) = older ++ [e] := by
  have hd := run_distinct max period ops [] (by simp [Distinct])
  have hr : run max period [] (ops ++ [.add e]) = add max period (run max period [] ops) e := by
    simp [run, step]
  rw [hr]
  generalize run max period [] ops = l at hn hd
  rw [add, put_new e l hn]
  split
  · have hd' : Distinct (l ++ [e]) := put_new e l hn ▸ put_distinct e l hd
    obtain ⟨old, h1, h2, h3⟩ := C394_newest max (by omega) _ hd'
    generalize check max (l ++ [e]) = c at h1 h2 h3
    rcases List.eq_nil_or_concat c with hc | ⟨c', x, hc⟩
    · subst hc
      rw [List.append_nil] at h1
      have := h3 l e h1.symm
      simp only [total] at this
      omega
    · rw [List.concat_eq_append] at hc
      subst hc
      rw [← List.append_assoc] at h1
      have := List.append_inj_right' h1 rfl
      simp only [List.cons.injEq, and_true] at this
      subst this
      exact ⟨c', rfl⟩
  · exact ⟨l, rfl⟩

/-- C395: An input added again under its name keeps the position of the old one and may be deleted at once, although it is
the newest. -/
theorem C395_again_violated :
    run 10 3 [] [.add ⟨0, 1, 0⟩, .add ⟨1, 5, 1⟩, .add ⟨2, 3, 2⟩, .add ⟨0, 5, 3⟩] = [⟨1, 5, 1⟩, ⟨2, 3, 2⟩] := by decide

/-- C395: A big input is deleted at once when the check comes, with everything before. -/
theorem C395_big_violated (max : Nat) (e : Input) (h : max ≤ e.size) (l : List Input) : check max (l ++ [e]) = [] := by
  rw [check, dels_eq, List.filter_eq_nil_iff]
  intro x hx
  rw [List.reverse_append, List.reverse_cons, List.reverse_nil, List.nil_append, List.cons_append, List.nil_append,
    toDelete, if_neg (by omega), delete_all max _ _ (by omega)]
  simp only [decide_eq_true_eq, Classical.not_not]
  rcases List.mem_append.1 hx with h1 | h1
  · exact List.mem_cons_of_mem _ (List.mem_map.2 ⟨x, List.mem_reverse.2 h1, rfl⟩)
  · simp only [List.mem_singleton] at h1
    subst h1
    exact List.mem_cons_self ..

/-- C396: If the number of inputs got to a multiple of the period by adding, those kept have less characters than the limit.
Missing: every other time. -/
theorem C396_bounded_partial (max period : Nat) (hm : 0 < max) (ops : List Op) (e : Input)
    (hp : (put e (run max period [] ops)).length % period = 0) : total (run max period [] (ops ++ [.add e])) < max := by
  have hr : run max period [] (ops ++ [.add e]) = add max period (run max period [] ops) e := by
    simp [run, step]
  rw [hr, add]
  rw [if_pos hp]
  obtain ⟨_, _, h, _⟩ := C394_newest max hm _ (put_distinct e _ (run_distinct max period ops [] (by simp [Distinct])))
  exact h

/-- C396: With any limit and any period over one, what is kept between checks may be as big as wanted. -/
theorem C396_big_violated (max period size : Nat) (hp : 1 < period) :
    total (run max period [] [.add ⟨0, size, 0⟩]) = size := by
  have : (1 : Nat) % period ≠ 0 := by rw [Nat.mod_eq_of_lt hp]; omega
  simp [run, step, add, put, this, total]

example : run 10 3 [] [.add ⟨0, 5, 0⟩, .add ⟨1, 6, 1⟩, .add ⟨2, 3, 2⟩] = [⟨1, 6, 1⟩, ⟨2, 3, 2⟩] := by decide

end Verif.Recent
