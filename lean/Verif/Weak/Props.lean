import Verif.Weak.Iterate
import Mathlib.Data.List.Perm.Subperm

/-!
# `WeakSet`, `WeakMap`, `WeakKeyDictionary`

`cls` says which objects are equal. All the theorems hold for every `cls`, so also for objects which are equal
although they are different.
-/

namespace Verif.Weak

variable {V : Type}

def keepOrder : Order := ⟨id, fun _ => .refl _⟩

/-! ## C126 -/

/--
Whatever is done, in whatever order objects die, and whether or not somebody iterates: everything the container gives
back is what a plain dictionary gives which loses an entry the moment its key dies.
-/
theorem C126_weak_containers_are_dictionaries (cls : Nat → Nat) (kind : Kind) (ops : List (Op V)) :
    Plain.Runs cls kind {} ops (({} : Table V).run cls kind ops).1.plain (({} : Table V).run cls kind ops).2 :=
  (run_good cls kind ops Inv.init).2

/-- A living key is found again, with the value which was stored last, until it is removed. -/
theorem C126_a_stored_value_is_found (cls : Nat → Nat) (kind : Kind) (ops : List (Op V)) (o o' : Nat) (v : V)
    (hc : cls o' = cls o) (ho : (({} : Table V).run cls kind ops).1.live o = true)
    (ho' : (({} : Table V).run cls kind ops).1.live o' = true) :
    ∃ k, (((({} : Table V).run cls kind ops).1.step cls kind (.put o v)).1.step cls kind (.look o')).2 =
      .item (some (k, v)) ∧ cls k = cls o := by
  obtain ⟨hI, _⟩ := run_good cls kind ops (Inv.init (V := V))
  generalize (({} : Table V).run cls kind ops).1 = t at *
  obtain ⟨h1, a1⟩ := step_good cls kind hI (.put o v)
  obtain ⟨h2, a2⟩ := step_good cls kind h1 (.look o')
  have hd : o ∉ t.plain.dead := (live_iff t o).1 ho
  have hd' : o' ∉ t.plain.dead := (live_iff t o').1 ho'
  rw [Plain.Allows, if_neg hd] at a1
  have hd2 : o' ∉ (t.step cls kind (.put o v)).1.plain.dead := by rw [a1.1]; exact hd'
  rw [Plain.Allows, if_neg hd2] at a2
  rw [a2.2, a1.1]
  dsimp only
  have : ∀ items : List (Nat × V), ∃ k, Plain.get cls o' (Plain.store cls o v items) = some (k, v) ∧ cls k = cls o := by
    intro items
    induction items with
    | nil => exact ⟨o, by simp [Plain.get, Plain.store, hc], rfl⟩
    | cons i items ih =>
      obtain ⟨k, w⟩ := i
      by_cases hk : cls k = cls o
      · exact ⟨k, by simp [Plain.get, Plain.store, hc, hk], hk⟩
      · obtain ⟨k', h1, h2⟩ := ih
        refine ⟨k', ?_, h2⟩
        rw [Plain.store, if_neg hk]
        unfold Plain.get at h1 ⊢
        rw [List.find?_cons_of_neg (by simpa [hc] using hk)]
        exact h1
  obtain ⟨k, h1, h2⟩ := this t.plain.items
  exact ⟨k, by rw [h1], h2⟩

-- Objects `0` and `10` are equal. The second one is stored, the first one (which is the key) dies while somebody iterates.
example : (({} : Table String).run (· % 10) .keys
    [.put 0 "a", .put 10 "b", .look 10, .enter, .die 0, .look 10, .put 10 "c", .look 10, .leave keepOrder, .look 10]).2 =
    [.unit, .unit, .item (some (0, "b")), .unit, .unit, .item none, .unit, .item (some (10, "c")), .unit,
      .item (some (10, "c"))] := by decide +kernel

/-! ## C127 -/

/-- `len` is the number of living items as long as nothing is popped while somebody iterates. -/
theorem C127_length_partial (cls : Nat → Nat) (kind : Kind) (ops : List (Op V)) (hq : AllQuiet cls kind ({} : Table V) ops) :
    (({} : Table V).run cls kind ops).1.len = (({} : Table V).run cls kind ops).1.view.length :=
  Settled.len (run_good cls kind ops Inv.init).1 (run_settled cls ops Inv.init Settled.init hq)

/-- A weak map has no `popitem` and no set operations, its `len` is always right. -/
theorem C127_length_of_a_map (cls : Nat → Nat) (ops : List (Op V)) :
    (({} : Table V).run cls .map ops).1.len = (({} : Table V).run cls .map ops).1.view.length :=
  C127_length_partial cls .map ops (map_allQuiet cls ops _)

/-- Two keys, one dies while somebody iterates, the other one is popped: `len` is `-1`, so `len(d)` raises. -/
theorem C127_length_violated :
    ∃ ops : List (Op Nat), (({} : Table Nat).run id .keys ops).1.len = -1 ∧
      (({} : Table Nat).run id .keys ops).1.view = [] :=
  ⟨[.put 0 0, .put 1 1, .enter, .die 1, .pop id], by decide +kernel⟩

/-- The same with a set. -/
theorem C127_length_of_a_set_violated :
    ∃ ops : List (Op Unit), (({} : Table Unit).run id .set ops).1.len = -1 ∧
      (({} : Table Unit).run id .set ops).1.view = [] :=
  ⟨[.put 0 (), .put 1 (), .enter, .die 1, .pop (· - 1)], by decide +kernel⟩

/--
A symmetric difference in place with a set which holds `n` dead references makes the length of an empty set `-n`,
and nobody iterates over it.
-/
theorem C127_foreign_references_violated (cls : Nat → Nat) (n : Nat) :
    (({} : Table Unit).run cls .set (.die 0 :: List.replicate n (.foreign 0))).1.len = -(n : Int) ∧
      (({} : Table Unit).run cls .set (.die 0 :: List.replicate n (.foreign 0))).1.view = [] := by
  have key : ∀ (n : Nat) (t : Table Unit), t.entries = [] → t.live 0 = false →
      (t.run cls .set (List.replicate n (.foreign 0))).1.len = t.len - n ∧
      (t.run cls .set (List.replicate n (.foreign 0))).1.view = [] := by
    intro n
    induction n with
    | zero =>
      intro t ht _
      refine ⟨by simp [Table.run], ?_⟩
      show t.view = []
      unfold Table.view
      rw [ht]; rfl
    | succ n ih =>
      intro t ht hl
      have hs : (t.step cls .set (.foreign 0)).1 =
          { t with pending := t.pending ++ [⟨t.fresh, 0⟩], fresh := t.fresh + 1 } := by
        simp only [Table.step]
        rw [if_neg (by simp [hl])]
      obtain ⟨a, b⟩ := ih (t.step cls .set (.foreign 0)).1 (by rw [hs]; exact ht) (by rw [hs]; exact hl)
      rw [List.replicate_succ]
      refine ⟨a.trans ?_, b⟩
      rw [hs]
      simp only [Table.len, List.length_append, List.length_cons, List.length_nil]
      omega
  obtain ⟨a, b⟩ := key n (({} : Table Unit).step cls .set (.die 0)).1 rfl rfl
  refine ⟨a.trans ?_, b⟩
  show (0 : Int) - n = _
  omega

example : (({} : Table Nat).run id .keys [.put 0 0, .put 1 1, .put 2 2, .enter, .die 1]).1.len = 2 := by decide +kernel

/-! ## C128 -/

/-- Without an iterator a set or a map holds no dead reference. -/
theorem C128_the_dead_are_gone (cls : Nat → Nat) (kind : Kind) (hk : kind ≠ .keys) (ops : List (Op V))
    (h0 : (({} : Table V).run cls kind ops).1.iterating = 0) :
    ∀ e ∈ (({} : Table V).run cls kind ops).1.entries, (({} : Table V).run cls kind ops).1.live e.1.target = true :=
  fun e he => (run_noted cls hk ops Inv.init Settled.init.toNoted).clean h0 e.1 (List.mem_map_of_mem he)

/-- A weak key dictionary neither, as long as nothing is popped while somebody iterates. -/
theorem C128_the_dead_are_gone_from_keys_partial (cls : Nat → Nat) (kind : Kind) (ops : List (Op V))
    (hq : AllQuiet cls kind ({} : Table V) ops) (h0 : (({} : Table V).run cls kind ops).1.iterating = 0) :
    (∀ e ∈ (({} : Table V).run cls kind ops).1.entries, (({} : Table V).run cls kind ops).1.live e.1.target = true) ∧
      (({} : Table V).run cls kind ops).1.pending = [] := by
  have h := run_settled cls ops Inv.init Settled.init hq
  exact ⟨fun e he => h.clean h0 e.1 (List.mem_map_of_mem he), h.none h0⟩

/-- The loop which removes the dead ends at the first one which was already popped: the other one is never removed. -/
theorem C128_the_dead_are_gone_violated :
    ∃ ops : List (Op Nat), (({} : Table Nat).run id .keys ops).1.iterating = 0 ∧
      (({} : Table Nat).run id .keys ops).1.pending = [] ∧
      (({} : Table Nat).run id .keys ops).1.len = 2 ∧ (({} : Table Nat).run id .keys ops).1.view = [(0, 0)] :=
  ⟨[.put 0 0, .put 1 1, .put 2 2, .put 3 3, .enter, .die 3, .die 1, .pop id, .leave keepOrder], by decide +kernel⟩

example : (({} : Table Nat).run id .set
    [.put 0 0, .put 1 1, .enter, .enter, .die 0, .leave keepOrder, .die 1, .leave keepOrder]).1.entries = [] := by
  decide +kernel

/-! ## C129 -/

/--
A loop over the container while objects die between its steps. The built in container is not changed under the
iterator, and the objects given are exactly those which are alive at the moment the iterator comes to them.
-/
theorem C129_iteration (cls : Nat → Nat) (kind : Kind) (deaths : Nat → List Nat) (t : Table V) :
    (t.iterate cls kind deaths).1.entries = t.entries ∧
      ∀ o, o ∈ (t.iterate cls kind deaths).2 ↔
        ∃ i, (t.entries[i]?).map (fun e => e.1.target) = some o ∧ o ∉ t.dead ∧ ∀ j ≤ i, o ∉ deaths j := by
  obtain ⟨a, b⟩ := iterate_exact cls kind deaths t
  refine ⟨a, fun o => ?_⟩
  rw [b, List.mem_map]
  have hs : ∀ i x, survives deaths i x = true ↔ ∀ j ≤ i, x ∉ deaths j := by
    intro i x
    unfold survives
    rw [List.all_eq_true]
    constructor
    · intro h j hj
      simpa using h j (List.mem_range.2 (by omega))
    · intro h j hj
      have := h j (by have := List.mem_range.1 hj; omega)
      simpa using this
  constructor
  · rintro ⟨⟨e, i⟩, he, rfl⟩
    obtain ⟨h1, h2⟩ := List.mem_filter.1 he
    rw [Bool.and_eq_true] at h2
    have hi := List.mem_zipIdx_iff_getElem?.1 h1
    exact ⟨i, by rw [hi]; rfl, (live_iff t _).1 h2.1, (hs _ _).1 h2.2⟩
  · rintro ⟨i, h1, h2, h3⟩
    cases hi : t.entries[i]? with
    | none => rw [hi] at h1; cases h1
    | some e =>
      rw [hi] at h1
      have he : e.1.target = o := by simpa using h1
      refine ⟨(e, i), List.mem_filter.2 ⟨List.mem_zipIdx_iff_getElem?.2 hi, ?_⟩, he⟩
      dsimp only
      rw [he, (live_iff t o).2 h2, (hs i o).2 h3]
      rfl

/-- They come in the order of the container, each at most as often as it would without any death. -/
theorem C129_iteration_order (cls : Nat → Nat) (kind : Kind) (deaths : Nat → List Nat) (t : Table V) :
    (t.iterate cls kind deaths).2.Sublist (t.view.map Prod.fst) := iterate_sublist cls kind deaths t

/-- Who never dies is always met. -/
theorem C129_the_living_are_met (cls : Nat → Nat) (kind : Kind) (deaths : Nat → List Nat) (t : Table V) (o : Nat)
    (ho : o ∈ t.view.map Prod.fst) (hl : ∀ j, o ∉ deaths j) : o ∈ (t.iterate cls kind deaths).2 := by
  rw [view_targets, List.mem_map] at ho
  obtain ⟨e, he, rfl⟩ := ho
  obtain ⟨h1, h2⟩ := List.mem_filter.1 he
  obtain ⟨i, hi, rfl⟩ := List.mem_iff_getElem.1 h1
  refine ((C129_iteration cls kind deaths t).2 _).2 ⟨i, ?_, (live_iff t _).1 h2, fun j _ => hl j⟩
  rw [List.getElem?_eq_getElem hi]
  rfl

-- Before the second step the second and the third object die, before the last step the first one.
example : ((({} : Table Nat).run id .map [.put 0 0, .put 1 1, .put 2 2, .put 3 3]).1.iterate id .map
    (fun | 1 => [1, 2] | 3 => [0] | _ => [])).2 = [0, 3] := by decide +kernel

/-! ## C130 -/

/-- The members of the new set are those of both. -/
theorem C130_intersection (cls : Nat → Nat) (live : Nat → Bool) (s other : List Ref)
    (hd : ∀ r ∈ other, ∀ x ∈ s, r.id ≠ x.id) (c : Nat) :
    (∃ o ∈ setAnd cls live s other, cls o = c) ↔ Has cls live s c ∧ Has cls live other c := by
  have hfold : setAnd cls live s other =
      ((other.filter (fun r => holds cls live s r && live r.target)).map Ref.target).foldl (addObject cls) [] := by
    unfold setAnd
    rw [List.foldl_map]
  rw [hfold, mem_addObjects]
  simp only [List.not_mem_nil, false_and, exists_false, false_or]
  constructor
  · rintro ⟨o, ho, rfl⟩
    obtain ⟨r, hr, rfl⟩ := List.mem_map.1 ho
    obtain ⟨h1, h2⟩ := List.mem_filter.1 hr
    rw [Bool.and_eq_true] at h2
    exact ⟨(holds_live h2.2 (fun x hx _ => hd r h1 x hx)).1 h2.1, r, h1, h2.2, rfl⟩
  · rintro ⟨hs, r, hr, hl, rfl⟩
    refine ⟨r.target, List.mem_map.2 ⟨r, List.mem_filter.2 ⟨hr, ?_⟩, rfl⟩, rfl⟩
    rw [hl, (holds_live hl (fun x hx _ => hd r hr x hx)).2 hs]
    rfl

/-- Those of either. -/
theorem C130_union (cls : Nat → Nat) (live : Nat → Bool) (s other : List Ref) (c : Nat) :
    (∃ o ∈ setOr cls live s other, cls o = c) ↔ Has cls live s c ∨ Has cls live other c := by
  unfold setOr
  rw [mem_addObjects, mem_addObjects, mem_objects, mem_objects]
  simp

/-- Those of the first but not of the second. -/
theorem C130_difference (cls : Nat → Nat) (live : Nat → Bool) (s other : List Ref) (c : Nat) :
    (∃ o ∈ setSub cls live s other, cls o = c) ↔ Has cls live s c ∧ ¬Has cls live other c := by
  unfold setSub
  rw [mem_addObjects]
  simp only [List.not_mem_nil, false_and, exists_false, false_or]
  rw [← mem_objects (s := s)]
  constructor
  · rintro ⟨o, ho, rfl⟩
    obtain ⟨h1, h2⟩ := List.mem_filter.1 ho
    refine ⟨⟨o, h1, rfl⟩, fun h => ?_⟩
    rw [inObjects_iff.2 h] at h2
    cases h2
  · rintro ⟨⟨o, ho, rfl⟩, hn⟩
    refine ⟨o, List.mem_filter.2 ⟨ho, ?_⟩, rfl⟩
    cases hb : inObjects cls (objects live other) o with
    | false => rfl
    | true => exact absurd (inObjects_iff.1 hb) hn

/-- Those of exactly one. -/
theorem C130_symmetric_difference (cls : Nat → Nat) (live : Nat → Bool) (s other : List Ref) (c : Nat) :
    (∃ o ∈ setXor cls live s other, cls o = c) ↔
      (Has cls live s c ∧ ¬Has cls live other c) ∨ (¬Has cls live s c ∧ Has cls live other c) := by
  have h1 := C130_difference cls live s other c
  have h2 := C130_difference cls live other s c
  unfold setSub at h1 h2
  rw [mem_addObjects] at h1 h2
  simp only [List.not_mem_nil, false_and, exists_false, false_or] at h1 h2
  unfold setXor
  rw [mem_addObjects]
  simp only [List.not_mem_nil, false_and, exists_false, false_or, List.mem_append, or_and_right, exists_or]
  rw [h1, h2]
  constructor
  · rintro (h | h)
    · exact Or.inl h
    · exact Or.inr ⟨h.2, h.1⟩
  · rintro (h | h)
    · exact Or.inl h
    · exact Or.inr ⟨h.2, h.1⟩

/-- In place: `-=`, `&=` and `^=` with another set. -/
theorem C130_in_place (cls : Nat → Nat) (live : Nat → Bool) (fresh : Nat) (s other : List Ref)
    (hs : IsSet cls live fresh s) (ho : IsSet cls live fresh other) (hd : ∀ r ∈ other, ∀ x ∈ s, r.id ≠ x.id) (c : Nat) :
    (Has cls live (setISub cls live s other) c ↔ Has cls live s c ∧ ¬Has cls live other c) ∧
    (Has cls live (setIAnd cls live fresh s other) c ↔ Has cls live s c ∧ Has cls live other c) ∧
    (Has cls live (setIXor cls live fresh s other) c ↔
      (Has cls live s c ∧ ¬Has cls live other c) ∨ (¬Has cls live s c ∧ Has cls live other c)) := by
  refine ⟨has_isub other s hs hd c, ?_, has_xor_loop other s fresh hs (fun r hr => ⟨ho.bound r hr, hd r hr⟩) ho.apart c⟩
  unfold setIAnd
  rw [has_iand_loop _ s hs (fun o ho => by
    have := (List.mem_filter.1 ho).1
    exact (List.mem_filter.1 this).2)]
  constructor
  · rintro ⟨h1, h2⟩
    refine ⟨h1, ?_⟩
    obtain ⟨o, ho, rfl⟩ := mem_objects.2 h1
    cases hb : inObjects cls (objects live other) o with
    | true => exact inObjects_iff.1 hb
    | false => exact absurd rfl (h2 o (List.mem_filter.2 ⟨ho, by rw [hb]; rfl⟩))
  · rintro ⟨h1, h2⟩
    refine ⟨h1, fun o ho e => ?_⟩
    obtain ⟨_, h4⟩ := List.mem_filter.1 ho
    rw [inObjects_iff.2 (e ▸ h2)] at h4
    cases h4

/-- Comparison with another set is right when neither holds a dead reference. -/
theorem C130_comparison_partial (cls : Nat → Nat) (live : Nat → Bool) (fresh : Nat) (s other : List Ref)
    (hs : IsSet cls live fresh s) (ho : IsSet cls live fresh other)
    (ha : ∀ r ∈ s, live r.target = true) (hb : ∀ r ∈ other, live r.target = true) :
    (setEq cls live s other = true ↔ ∀ c, Has cls live s c ↔ Has cls live other c) ∧
    (setLe cls live s other = true ↔ ∀ c, Has cls live s c → Has cls live other c) := by
  have hn := classes_nodup hs ha
  have hn' := classes_nodup ho hb
  have hlen : (∀ c, Has cls live s c → Has cls live other c) → s.length ≤ other.length := by
    intro h
    have hsub : (s.map fun r => cls r.target) ⊆ (other.map fun r => cls r.target) := by
      intro c hc
      exact (mem_classes hb c).2 (h c ((mem_classes ha c).1 hc))
    have := (List.subperm_of_subset hn hsub).length_le
    simpa using this
  constructor
  · unfold setEq
    rw [Bool.and_eq_true, has_iff_class ha hb]
    constructor
    · rintro ⟨h1, h2⟩ c
      refine ⟨h2 c, fun h => ?_⟩
      have hsub : (s.map fun r => cls r.target) ⊆ (other.map fun r => cls r.target) := by
        intro c hc
        exact (mem_classes hb c).2 (h2 c ((mem_classes ha c).1 hc))
      have hp := (List.subperm_of_subset hn hsub).perm_of_length_le (by
        have h3 : s.length = other.length := by simpa using h1
        rw [List.length_map, List.length_map]; omega)
      exact (mem_classes ha c).1 (hp.mem_iff.2 ((mem_classes hb c).2 h))
    · intro h
      refine ⟨?_, fun c => (h c).1⟩
      have hp : (s.map fun r => cls r.target).Perm (other.map fun r => cls r.target) := by
        rw [List.perm_ext_iff_of_nodup hn hn']
        intro c
        rw [mem_classes ha, mem_classes hb]
        exact h c
      have := hp.length_eq
      rw [List.length_map, List.length_map] at this
      simpa using this
  · unfold setLe
    rw [Bool.and_eq_true, has_iff_class ha hb]
    constructor
    · exact fun h => h.2
    · exact fun h => ⟨by simpa using hlen h, h⟩

/-- Two sets with the same only living member are not equal while one of them still holds a dead reference. -/
theorem C130_comparison_violated :
    ∃ (live : Nat → Bool) (s other : List Ref), IsSet id live 3 s ∧ IsSet id live 3 other ∧
      (∀ c, Has id live s c ↔ Has id live other c) ∧ setEq id live s other = false ∧ setLe id live s other = false := by
  refine ⟨(· != 7), [⟨0, 5⟩, ⟨1, 7⟩], [⟨2, 5⟩], ⟨by decide, by decide, by decide⟩, ⟨by decide, by decide, by decide⟩, ?_,
    by decide, by decide⟩
  intro c
  simp [Has]

/-- `s -= s` raises for every set which is not empty, with one element gone. -/
theorem C130_difference_with_itself_violated (cls : Nat → Nat) (live : Nat → Bool) (s : List Ref) (hs : s ≠ []) :
    (setISubSelf cls live s).2 = true ∧ (setISubSelf cls live s).1.length + 1 = s.length := by
  cases s with
  | nil => exact absurd rfl hs
  | cons r s =>
    rw [isub_self]
    exact ⟨rfl, discard_length (by simp)⟩

/-- `s ^= s` raises for every set with a living member. -/
theorem C130_symmetric_difference_with_itself_violated (cls : Nat → Nat) (live : Nat → Bool) (fresh : Nat)
    (s : List Ref) (hs : ∃ r ∈ s, live r.target = true) :
    (setIXorSelf cls live fresh s).2 = true ∧ (setIXorSelf cls live fresh s).1.length + 1 = s.length := by
  have key : ∀ s : List Ref, (∃ r ∈ s, live r.target = true) →
      ∃ before r after, s = before ++ r :: after ∧ (∀ x ∈ before, live x.target = false) ∧ live r.target = true := by
    intro s
    induction s with
    | nil => rintro ⟨r, hr, _⟩; cases hr
    | cons a s ih =>
      intro h
      by_cases ha : live a.target = true
      · exact ⟨[], a, s, rfl, by simp, ha⟩
      · obtain ⟨r, hr, hl⟩ := h
        rcases List.mem_cons.1 hr with h | h
        · subst h; exact absurd hl ha
        · obtain ⟨before, x, after, e, h1, h2⟩ := ih ⟨r, h, hl⟩
          refine ⟨a :: before, x, after, by rw [e]; rfl, ?_, h2⟩
          intro y hy
          rcases List.mem_cons.1 hy with hy | hy
          · rw [hy]; simpa using ha
          · exact h1 y hy
  obtain ⟨before, r, after, rfl, h1, h2⟩ := key s hs
  rw [ixor_self h1 h2]
  exact ⟨rfl, discard_length (by simp)⟩

-- Objects `1` and `11` are equal, `3` is dead.
example : setAnd (· % 10) (· != 3) [⟨0, 1⟩, ⟨1, 2⟩, ⟨2, 3⟩] [⟨3, 11⟩, ⟨4, 4⟩, ⟨5, 3⟩] = [11] := by decide
example : setOr (· % 10) (· != 3) [⟨0, 1⟩, ⟨1, 2⟩, ⟨2, 3⟩] [⟨3, 11⟩, ⟨4, 4⟩, ⟨5, 3⟩] = [1, 2, 4] := by decide
example : setXor (· % 10) (· != 3) [⟨0, 1⟩, ⟨1, 2⟩, ⟨2, 3⟩] [⟨3, 11⟩, ⟨4, 4⟩, ⟨5, 3⟩] = [2, 4] := by decide
example : setIXor (· % 10) (· != 3) 6 [⟨0, 1⟩, ⟨1, 2⟩, ⟨2, 3⟩] [⟨3, 11⟩, ⟨4, 4⟩, ⟨5, 3⟩] =
    [⟨1, 2⟩, ⟨2, 3⟩, ⟨6, 4⟩] := by decide
example : setISubSelf id (fun _ => true) [⟨0, 1⟩, ⟨1, 2⟩] = ([⟨1, 2⟩], true) := by decide
example : IsSet (· % 10) (· != 3) 6 [⟨0, 1⟩, ⟨1, 2⟩, ⟨2, 3⟩] := ⟨by decide, by decide, by decide⟩

end Verif.Weak
