import Verif.Weak.ValueLemmas

/-!
# `WeakValueDictionary`, `HybridValueDictionary`

`weakable` says which objects can be referenced weakly.
-/

namespace Verif.Weak

variable {K : Type} [DecidableEq K]

def keepPOrder : POrder K := ⟨id, fun _ => .refl _⟩

/-! ## C131 -/

/--
Whatever is done: everything a lookup, an assignment or a pass over the items gives is what a plain dictionary gives
which loses an item the moment its value dies. (Excepted is what C132 and C135 are about.)
-/
theorem C131_value_dictionaries_are_dictionaries (weakable : Nat → Bool) (kind : VKind) (ops : List (VOp K)) :
    VPlain.Runs weakable kind {} ops (({} : VDict K).run weakable kind ops).1.plain
      (({} : VDict K).run weakable kind ops).2 :=
  (vrun_good weakable kind ops (VInv.init weakable)).2

/-- A lookup never gives an object which is dead. -/
theorem C131_never_a_dead_object (weakable : Nat → Bool) (kind : VKind) (ops : List (VOp K)) (k : K) (v : Nat)
    (h : ((({} : VDict K).run weakable kind ops).1.step weakable kind (.look k)).2 = .value (some v))
    (hw : weakable v = true) : v ∉ (({} : VDict K).run weakable kind ops).1.dead := by
  obtain ⟨hI, _⟩ := vrun_good weakable kind ops (VInv.init (K := K) weakable)
  generalize (({} : VDict K).run weakable kind ops).1 = d at *
  obtain ⟨_, a⟩ := vstep_good weakable kind hI (.look k)
  rw [VPlain.Allows, h] at a
  have hv : (d.slot k).bind d.read = some v := by
    have := a.2
    injection this with this
    exact this.symm
  cases hs : d.slot k with
  | none => rw [hs] at hv; cases hv
  | some s =>
    rw [hs] at hv
    have hr : d.read s = some v := hv
    cases s with
    | weak r =>
      by_cases hl : d.live r.target = true
      · have : r.target = v := by simpa [VDict.read, hl] using hr
        rw [this] at hl
        simpa [VDict.live] using hl
      · simp [VDict.read, hl] at hr
    | strong o =>
      have ho : o = v := by simpa [VDict.read] using hr
      unfold VDict.slot at hs
      cases hf : d.entries.find? (fun e => e.1 == k) with
      | none => rw [hf] at hs; cases hs
      | some e =>
        rw [hf] at hs
        have := hI.strong e (List.mem_of_find?_eq_some hf) o (by simpa using hs)
        rw [ho, hw] at this
        cases this

-- Numbers below `100` can be referenced weakly.
example : (({} : VDict String).run (· < 100) .hybrid
    [.put "a" 1, .put "b" 200, .look "a", .enter, .die 1, .look "a", .put "a" 2, .leave keepPOrder, .look "a", .look "b"]).2 =
    [.unit, .unit, .value (some 1), .unit, .unit, .value none, .unit, .unit, .value (some 2), .value (some 200)] := by
  decide +kernel

/-! ## C132 -/

/-- As long as nothing dies while somebody iterates, `len` is right and there are no dead values. -/
theorem C132_length_partial (weakable : Nat → Bool) (kind : VKind) (ops : List (VOp K))
    (hq : VAllQuiet weakable kind ({} : VDict K) ops) :
    (({} : VDict K).run weakable kind ops).1.len = (({} : VDict K).run weakable kind ops).1.view.length ∧
      ∀ e ∈ (({} : VDict K).run weakable kind ops).1.entries,
        ((({} : VDict K).run weakable kind ops).1.read e.2).isSome = true := by
  have h := vrun_clean weakable kind ops (VInv.init weakable) VClean.init hq
  exact ⟨h.len, h.alive⟩

/--
What dies while somebody iterates is never removed: after every execution the end of an iteration takes nothing out
of the built in dictionary.
-/
theorem C132_the_end_of_an_iteration_removes_nothing_violated (weakable : Nat → Bool) (kind : VKind)
    (ops : List (VOp K)) (order : POrder K) :
    ((({} : VDict K).run weakable kind ops).1.step weakable kind (.leave order)).1.entries =
      (({} : VDict K).run weakable kind ops).1.entries := by
  obtain ⟨hI, _⟩ := vrun_good weakable kind ops (VInv.init (K := K) weakable)
  generalize (({} : VDict K).run weakable kind ops).1 = d at *
  simp only [VDict.step]
  split
  · dsimp only
    have hI' : VInv weakable { d with iterating := d.iterating - 1 } := ⟨hI.nodup, hI.strong, hI.hashers⟩
    rw [vcommit_eq hI' order]
    split <;> rfl
  · rfl

/-- So `len` stays wrong after the iteration, and `del` of the key which is not there is not noticed. -/
theorem C132_length_violated (kind : VKind) :
    ∃ ops : List (VOp Nat), (({} : VDict Nat).run (fun _ => true) kind ops).1.iterating = 0 ∧
      (({} : VDict Nat).run (fun _ => true) kind ops).1.len = 1 ∧
      (({} : VDict Nat).run (fun _ => true) kind ops).1.view = [] ∧
      ((({} : VDict Nat).run (fun _ => true) kind ops).1.step (fun _ => true) kind (.del 0)).2 = .unit :=
  ⟨[.put 0 1, .enter, .die 1, .leave keepPOrder], by cases kind <;> decide +kernel⟩

/--
Each further death makes one more: after a pass during which `n` values die the length is still `n`, and the dictionary
is empty.
-/
theorem C132_any_number_violated (kind : VKind) (n : Nat) :
    ∃ ops : List (VOp Nat), (({} : VDict Nat).run (fun _ => true) kind ops).1.iterating = 0 ∧
      (({} : VDict Nat).run (fun _ => true) kind ops).1.len = n ∧
      ∀ k, ((({} : VDict Nat).run (fun _ => true) kind ops).1.step (fun _ => true) kind (.look k)).2 = .value none := by
  -- `n` times: `d[n] = o`, iterate, `o` dies, the iteration ends
  have key : ∀ n : Nat, ∃ ops : List (VOp Nat), ∃ d : VDict Nat,
      (({} : VDict Nat).run (fun _ => true) kind ops).1 = d ∧ d.iterating = 0 ∧ d.pending = [] ∧ d.entries.length = n ∧
      (∀ e ∈ d.entries, e.1 < n ∧ ∃ r, e.2 = .weak r ∧ r.target < n) ∧ (∀ o, o ∈ d.dead ↔ o < n) := by
    intro n
    induction n with
    | zero => exact ⟨[], _, rfl, rfl, rfl, rfl, by simp [VDict.run], by simp [VDict.run]⟩
    | succ n ih =>
      obtain ⟨ops, d, hd, h1, h2, h3, h4, h5⟩ := ih
      have hrun : ∀ (a b : List (VOp Nat)) (d : VDict Nat),
          (d.run (fun _ => true) kind (a ++ b)).1 = ((d.run (fun _ => true) kind a).1.run (fun _ => true) kind b).1 := by
        intro a
        induction a with
        | nil => intro b d; rfl
        | cons x a ih => intro b d; exact ih b _
      refine ⟨ops ++ [.put n n, .enter, .die n, .leave keepPOrder],
        { entries := d.entries ++ [(n, .weak ⟨d.fresh, n⟩)], pending := [], iterating := 0, fresh := d.fresh + 1,
          dead := n :: d.dead }, ?_, rfl, rfl, by simp [h3], ?_, ?_⟩
      · rw [hrun, hd]
        have hlive : d.live n = true := by
          have : n ∉ d.dead := fun h => absurd ((h5 n).1 h) (by omega)
          simp [VDict.live, this]
        have hany : d.entries.any (fun e => e.1 == n) = false := by
          rw [List.any_eq_false]
          intro e he
          have := (h4 e he).1
          simp; omega
        have hput : d.step (fun _ => true) kind (.put n n) =
            ({ d with entries := d.entries ++ [(n, .weak ⟨d.fresh, n⟩)], fresh := d.fresh + 1 }, .unit) := by
          simp only [VDict.step, VDict.put, VDict.store, if_pos hlive, hany]
          rfl
        have hrefs : ∀ (p : List (Pend Nat)) (i f : Nat) (dd : List Nat),
            (VDict.mk (d.entries ++ [(n, Slot.weak ⟨d.fresh, n⟩)]) p i f dd).refsTo n = [((⟨d.fresh, n⟩ : Ref), n)] := by
          intro p i f dd
          unfold VDict.refsTo
          rw [List.filterMap_append, List.filterMap_eq_nil_iff.2]
          · simp
          · intro e he
            obtain ⟨_, r, hr, hlt⟩ := h4 e he
            rw [hr]
            dsimp only
            rw [if_neg (by omega)]
        have hslot : ∀ (p : List (Pend Nat)) (i f : Nat) (dd : List Nat),
            (VDict.mk (d.entries ++ [(n, Slot.weak ⟨d.fresh, n⟩)]) p i f dd).slot n = some (.weak ⟨d.fresh, n⟩) := by
          intro p i f dd
          have hfind : d.entries.find? (fun e => e.1 == n) = none := by
            rw [List.find?_eq_none]
            intro e he
            have := (h4 e he).1
            simp; omega
          simp [VDict.slot, hfind]
        simp only [VDict.run, hput]
        have henter : ∀ d : VDict Nat, d.step (fun _ => true) kind .enter =
            ({ d with iterating := d.iterating + 1 }, .unit) := fun _ => rfl
        rw [henter]
        have hl2 : ∀ (p : List (Pend Nat)) (i f : Nat),
            (VDict.mk (d.entries ++ [(n, Slot.weak ⟨d.fresh, n⟩)]) p i f d.dead).live n = true := fun _ _ _ => hlive
        have hdie : (VDict.mk (d.entries ++ [(n, Slot.weak ⟨d.fresh, n⟩)]) d.pending (d.iterating + 1) (d.fresh + 1)
            d.dead).step (fun _ => true) kind (.die n) =
            (VDict.mk (d.entries ++ [(n, Slot.weak ⟨d.fresh, n⟩)]) [.hasher ⟨d.fresh, n⟩ n] (d.iterating + 1)
              (d.fresh + 1) (n :: d.dead), .unit) := by
          simp only [VDict.step, hl2, Bool.and_self, if_true, VDict.die, hrefs, List.foldl_cons,
            List.foldl_nil, VDict.callback, VDict.addPending, h2, Nat.succ_pos, gt_iff_lt]
          rfl
        dsimp only
        rw [hdie]
        dsimp only
        simp only [VDict.step, Nat.succ_pos, gt_iff_lt, if_true, VDict.commit, h1, Nat.zero_add, Nat.sub_self,
          Nat.lt_irrefl, if_false]
        show (List.foldl VDict.commitOne _ [Pend.hasher ⟨d.fresh, n⟩ n]) = _
        simp only [List.foldl_cons, List.foldl_nil, VDict.commitOne, Pend.key, hslot, Pend.is]
        rfl
      · intro e he
        rcases List.mem_append.1 he with he | he
        · obtain ⟨a, r, b, c⟩ := h4 e he
          exact ⟨by omega, r, b, by omega⟩
        · rw [List.mem_singleton.1 he]
          exact ⟨by simp, ⟨d.fresh, n⟩, rfl, by simp⟩
      · intro o
        rw [List.mem_cons, h5 o]
        omega
  obtain ⟨ops, d, hd, h1, h2, h3, h4, h5⟩ := key n
  refine ⟨ops, by rw [hd]; exact h1, by rw [hd, VDict.len, h2, h3]; simp, fun k => ?_⟩
  obtain ⟨hI, _⟩ := vrun_good (fun _ => true) kind ops (VInv.init (K := Nat) (fun _ => true))
  obtain ⟨_, a⟩ := vstep_good (fun _ => true) kind hI (.look k)
  rw [VPlain.Allows] at a
  rw [a.2, hd]
  congr 1
  show (d.slot k).bind d.read = none
  cases hs : d.slot k with
  | none => rfl
  | some s =>
    unfold VDict.slot at hs
    cases hf : d.entries.find? (fun e => e.1 == k) with
    | none => rw [hf] at hs; cases hs
    | some e =>
      rw [hf] at hs
      obtain ⟨_, r, hr, hlt⟩ := h4 e (List.mem_of_find?_eq_some hf)
      have hsr : s = .weak r := by
        have : e.2 = s := by simpa using hs
        rw [← this, hr]
      rw [hsr]
      have : d.live r.target = false := by simp [VDict.live, (h5 r.target).2 hlt]
      simp [VDict.read, this]

example : (({} : VDict Nat).run (fun _ => true) .weak
    [.put 0 1, .put 2 3, .enter, .leave keepPOrder, .die 1]).1.len = 1 := by decide +kernel

/-! ## C135 -/

/-- `pop(key, default)` of a weak value dictionary gives the default if nothing is stored under the key. -/
theorem C135_pop_with_default (weakable : Nat → Bool) (ops : List (VOp K)) (k : K)
    (h : (({} : VDict K).run weakable .weak ops).1.plain.at' k = none) :
    ((({} : VDict K).run weakable .weak ops).1.step weakable .weak (.pop k true)).2 = .value none := by
  obtain ⟨hI, _⟩ := vrun_good weakable .weak ops (VInv.init (K := K) weakable)
  obtain ⟨_, a⟩ := vstep_good weakable .weak hI (.pop k true)
  rw [VPlain.Allows, h] at a
  rcases a.2 with a | a
  · exact a
  · exact absurd a.1 (by simp)

/-- Of a hybrid value dictionary it raises a `TypeError`, for every dictionary and every key which is not in it. -/
theorem C135_pop_with_default_violated (weakable : Nat → Bool) (d : VDict K) (k : K) (h : d.slot k = none) :
    (d.step weakable .hybrid (.pop k true)).2 = .typeError := by
  simp only [VDict.step, h]
  rfl

/-- Only if the key is there, and its value is dead or alive, it gives what it should. -/
theorem C135_pop_with_default_partial (weakable : Nat → Bool) (ops : List (VOp K)) (k : K) (v : Nat)
    (h : (({} : VDict K).run weakable .hybrid ops).1.plain.at' k = some v) (hasDefault : Bool) :
    ((({} : VDict K).run weakable .hybrid ops).1.step weakable .hybrid (.pop k hasDefault)).2 = .value (some v) ∧
      ((({} : VDict K).run weakable .hybrid ops).1.step weakable .hybrid (.pop k hasDefault)).1.plain.at' k = none := by
  obtain ⟨hI, _⟩ := vrun_good weakable .hybrid ops (VInv.init (K := K) weakable)
  obtain ⟨_, a⟩ := vstep_good weakable .hybrid hI (.pop k hasDefault)
  rw [VPlain.Allows, h] at a
  refine ⟨a.2, ?_⟩
  rw [a.1]
  simp [VPlain.set]

example : (({} : VDict Nat).run (fun _ => true) .weak [.put 0 1, .die 1, .pop 0 true, .pop 5 true, .pop 5 false]).2 =
    [.unit, .unit, .value none, .value none, .keyError] := by decide +kernel
example : (({} : VDict Nat).run (fun _ => true) .hybrid [.put 0 1, .pop 0 true, .pop 0 true]).2 =
    [.unit, .value (some 1), .typeError] := by decide +kernel

end Verif.Weak
