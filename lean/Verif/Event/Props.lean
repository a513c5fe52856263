import Verif.Event.Model

/-! C22: who is woken by an `Event`, and when. -/
namespace Verif.Event

/-! ### specification -/

/-- The event is set after a history iff its last `set` or `clear` was a `set`. -/
def isSet (ops : List Op) : Bool :=
  ops.foldl (fun b op => match op with | .set => true | .clear => false | _ => b) false

/-! ### invariant -/

structure Inv (s : State) : Prop where
  fresh : ∀ p ∈ s.waiters, p.1 < s.next
  freshR : ∀ p ∈ s.ready, p.1 < s.next
  /-- while the event is set nobody waits -/
  none : s.value = true → s.waiters = []

theorem inv_init : Inv {} := ⟨by simp, by simp, by simp⟩

theorem step_inv (s : State) (h : Inv s) (op : Op) : Inv (s.step op).1 := by
  obtain ⟨a, b, c⟩ := h
  cases op with
  | set =>
    simp only [State.step]
    split
    · exact ⟨a, b, c⟩
    · refine ⟨by simp, ?_, by simp⟩
      intro p hp
      rcases List.mem_append.mp hp with hp | hp
      · exact b p hp
      · obtain ⟨q, hq, rfl⟩ := List.mem_map.mp hp
        exact a q (List.mem_filter.mp hq).1
  | clear => exact ⟨a, b, by simp [State.step]⟩
  | wait =>
    simp only [State.step]
    split
    · exact ⟨fun p hp => Nat.lt_succ_of_lt (a p hp), fun p hp => Nat.lt_succ_of_lt (b p hp), c⟩
    · rename_i hv
      refine ⟨?_, fun p hp => Nat.lt_succ_of_lt (b p hp), fun h => absurd h hv⟩
      intro p hp
      rcases List.mem_append.mp hp with hp | hp
      · exact Nat.lt_succ_of_lt (a p hp)
      · simp at hp; rw [hp]; exact Nat.lt_succ_self _
  | cancel id =>
    simp only [State.step]
    split
    · rename_i hm
      refine ⟨?_, ?_, fun h => ?_⟩
      · intro p hp
        obtain ⟨q, hq, rfl⟩ := List.mem_map.mp hp
        have := a q hq
        split <;> exact this
      · intro p hp
        rcases List.mem_append.mp hp with hp | hp
        · exact b p hp
        · simp at hp; rw [hp]; exact a _ hm
      · rw [c h] at hm; simp at hm
    · refine ⟨a, ?_, c⟩
      intro p hp
      obtain ⟨q, hq, rfl⟩ := List.mem_map.mp hp
      have := b q hq
      split <;> exact this
  | run =>
    simp only [State.step]
    split
    · exact ⟨a, b, c⟩
    · rename_i hr
      exact ⟨a, fun p hp => b p (by rw [hr]; exact List.mem_cons_of_mem _ hp), c⟩
    · rename_i hr
      exact ⟨a, fun p hp => b p (by rw [hr]; exact List.mem_cons_of_mem _ hp), c⟩

theorem runAll_inv (ops : List Op) : ∀ s : State, Inv s → Inv (s.runAll ops) := by
  induction ops with
  | nil => intro s h; exact h
  | cons op ops ih => intro s h; exact ih _ (step_inv s h op)

theorem runAll_value (ops : List Op) : ∀ s : State, (s.runAll ops).value =
    ops.foldl (fun b op => match op with | .set => true | .clear => false | _ => b) s.value := by
  induction ops with
  | nil => intro s; rfl
  | cons op ops ih =>
    intro s
    have e : (s.step op).1.value = (match op with | .set => true | .clear => false | _ => s.value) := by
      cases op with
      | set => simp only [State.step]; split <;> simp_all
      | clear => rfl
      | wait => simp only [State.step]; split <;> rfl
      | cancel id => simp only [State.step]; split <;> rfl
      | run => simp only [State.step]; split <;> rfl
    simp only [List.foldl_cons, ← e]
    exact ih _

/-! ### C22 -/

/-- C22. Waiting returns at once iff the event is set, and suspends otherwise; in particular after `clear` it blocks again. -/
theorem C22_waits_iff_not_set (ops : List Op) :
    ((({} : State).runAll ops).step .wait).2 =
      if isSet ops then .returned (({} : State).runAll ops).next else .suspended (({} : State).runAll ops).next := by
  have h : (({} : State).runAll ops).value = isSet ops := runAll_value ops {}
  rw [← h]
  simp only [State.step]
  cases (({} : State).runAll ops).value <;> simp

/-- C22. `set` resumes every call that waits (its task not being cancelled), in the order in which they began to wait, and
leaves nobody waiting. -/
theorem C22_set_wakes_all (ops : List Op) :
    (((({} : State).runAll ops).step .set).1.ready =
      (({} : State).runAll ops).ready ++ ((({} : State).runAll ops).waiters.filter fun p => !p.2).map fun p => (p.1, true)) ∧
    (((({} : State).runAll ops).step .set).1.waiters = []) := by
  have h := (runAll_inv ops _ inv_init).none
  simp only [State.step]
  split
  · rename_i hv
    simp [h hv]
  · exact ⟨rfl, rfl⟩

/-- Where a waiting call can be. -/
def Pending (s : State) (id : Nat) : Prop := (id, false) ∈ s.waiters ∨ (id, true) ∈ s.ready

theorem pending_step (s : State) (id : Nat) (hp : Pending s id) (op : Op) (hop : op ≠ .cancel id) :
    Pending (s.step op).1 id ∨ (op = .run ∧ (s.step op).2 = .returned id) := by
  cases op with
  | set =>
    left
    simp only [State.step]
    split
    · exact hp
    · right
      rcases hp with hp | hp
      · exact List.mem_append_right _ (List.mem_map.mpr ⟨_, List.mem_filter.mpr ⟨hp, rfl⟩, rfl⟩)
      · exact List.mem_append_left _ hp
  | clear => exact Or.inl hp
  | wait =>
    left
    simp only [State.step]
    split
    · exact hp
    · rcases hp with hp | hp
      · exact Or.inl (List.mem_append_left _ hp)
      · exact Or.inr hp
  | cancel j =>
    left
    have hj : id ≠ j := fun e => hop (by rw [e])
    simp only [State.step]
    split
    · rcases hp with hp | hp
      · exact Or.inl (List.mem_map.mpr ⟨_, hp, by simp [hj]⟩)
      · exact Or.inr (List.mem_append_left _ hp)
    · rcases hp with hp | hp
      · exact Or.inl hp
      · exact Or.inr (List.mem_map.mpr ⟨_, hp, by simp [hj]⟩)
  | run =>
    simp only [State.step]
    split
    · exact Or.inl hp
    · rename_i i ready hr
      rcases hp with hp | hp
      · exact Or.inl (Or.inl hp)
      · rw [hr] at hp
        rcases List.mem_cons.mp hp with hp | hp
        · right; simp at hp; simp [hp]
        · exact Or.inl (Or.inr hp)
    · rename_i i ready hr
      rcases hp with hp | hp
      · exact Or.inl (Or.inl hp)
      · rw [hr] at hp
        rcases List.mem_cons.mp hp with hp | hp
        · simp at hp
        · exact Or.inl (Or.inr hp)

/-- C22. A call that began to wait, and whose task is not cancelled, returns if the event is set afterwards and the resumed
calls are run: when a history that sets the event ends with nothing left to run, the call has returned — also if the event was
cleared again in between. -/
theorem C22_woken_if_set (before mid after : List Op) (id : Nat)
    (hw : ((({} : State).runAll before).step .wait).2 = .suspended id)
    (hc : .cancel id ∉ mid ++ .set :: after)
    (hr : (({} : State).runAll (before ++ .wait :: (mid ++ .set :: after))).ready = []) :
    (.run, .returned id) ∈ trace (({} : State).runAll (before ++ [.wait])) (mid ++ .set :: after) := by
  -- a pending call stays pending until it returns
  have keep : ∀ (ops : List Op) (s : State), Inv s → Pending s id → .cancel id ∉ ops →
      Pending (s.runAll ops) id ∨ (.run, .returned id) ∈ trace s ops := by
    intro ops
    induction ops with
    | nil => intro s _ hp _; exact Or.inl hp
    | cons op ops ih =>
      intro s h hp hc
      rcases pending_step s id hp op (fun e => hc (by rw [e]; simp)) with h1 | ⟨h1, h2⟩
      · rcases ih _ (step_inv s h op) h1 (fun hm => hc (List.mem_cons_of_mem _ hm)) with h3 | h3
        · exact Or.inl h3
        · exact Or.inr (List.mem_cons_of_mem _ h3)
      · right
        simp only [trace, List.mem_cons]
        left
        rw [h2, h1]
  -- and is not waiting any more once the event was set
  have gone : ∀ (ops : List Op) (s : State), Inv s → (∀ b, (id, b) ∉ s.waiters) → id < s.next → ∀ b, (id, b) ∉ (s.runAll ops).waiters := by
    intro ops
    induction ops with
    | nil => intro s _ h _; exact h
    | cons op ops ih =>
      intro s hi hn hlt
      refine ih _ (step_inv s hi op) ?_ ?_
      · intro b hb
        cases op with
        | set =>
          simp only [State.step] at hb
          split at hb
          · exact hn b hb
          · simp at hb
        | clear => exact hn b hb
        | wait =>
          simp only [State.step] at hb
          split at hb
          · exact hn b hb
          · rcases List.mem_append.mp hb with hb | hb
            · exact hn b hb
            · simp at hb; omega
        | cancel j =>
          simp only [State.step] at hb
          split at hb
          · obtain ⟨q, hq, e⟩ := List.mem_map.mp hb
            obtain ⟨q1, q2⟩ := q
            split at e
            · simp only [Prod.mk.injEq] at e
              exact hn q2 (by rw [← e.1]; exact hq)
            · simp only [Prod.mk.injEq] at e
              exact hn q2 (by rw [← e.1]; exact hq)
          · exact hn b hb
        | run =>
          simp only [State.step] at hb
          split at hb <;> exact hn b hb
      · cases op with
        | set => simp only [State.step]; split <;> exact hlt
        | clear => exact hlt
        | wait => simp only [State.step]; split <;> exact Nat.lt_succ_of_lt hlt
        | cancel j => simp only [State.step]; split <;> exact hlt
        | run => simp only [State.step]; split <;> exact hlt
  have hi0 := runAll_inv before _ inv_init
  have e0 : ({} : State).runAll (before ++ [.wait]) = ((({} : State).runAll before).step .wait).1 := by
    simp [State.runAll, List.foldl_append]
  have e1 : ({} : State).runAll (before ++ .wait :: (mid ++ .set :: after)) =
      (((({} : State).runAll before).step .wait).1).runAll (mid ++ .set :: after) := by
    simp [State.runAll, List.foldl_append]
  rw [e0]
  rw [e1] at hr
  have hp1 : Pending ((({} : State).runAll before).step .wait).1 id ∧ id < ((({} : State).runAll before).step .wait).1.next := by
    revert hw
    simp only [State.step]
    split
    · simp
    · intro hw
      simp only [Out.suspended.injEq] at hw
      rw [← hw]
      exact ⟨Or.inl (by simp), Nat.lt_succ_self _⟩
  have hi1 : Inv ((({} : State).runAll before).step .wait).1 := step_inv _ hi0 _
  generalize ((({} : State).runAll before).step .wait).1 = s at *
  rcases keep _ s hi1 hp1.1 hc with h | h
  · exfalso
    rcases h with h | h
    · have hnx : ∀ (ops : List Op) (s : State), s.next ≤ (s.runAll ops).next := by
        intro ops
        induction ops with
        | nil => intro s; exact Nat.le_refl _
        | cons op ops ih =>
          intro s
          refine Nat.le_trans ?_ (ih (s.step op).1)
          cases op with
          | set => simp only [State.step]; split <;> exact Nat.le_refl _
          | clear => exact Nat.le_refl _
          | wait => simp only [State.step]; split <;> exact Nat.le_succ _
          | cancel j => simp only [State.step]; split <;> exact Nat.le_refl _
          | run => simp only [State.step]; split <;> exact Nat.le_refl _
      have hset : ∀ b, (id, b) ∉ (((s.runAll mid).step .set).1).waiters := by
        intro b hb
        simp only [State.step] at hb
        split at hb
        · rename_i hv
          rw [(runAll_inv mid s hi1).none hv] at hb; simp at hb
        · simp at hb
      have hnx2 : id < (((s.runAll mid).step .set).1).next := by
        have := hnx mid s
        simp only [State.step]
        split <;> (simp only; omega)
      have := gone after _ (step_inv _ (runAll_inv mid s hi1) .set) hset hnx2 false
      apply this
      have e2 : s.runAll (mid ++ .set :: after) = (((s.runAll mid).step .set).1).runAll after := by
        simp [State.runAll, List.foldl_append]
      rw [← e2]; exact h
    · rw [hr] at h; simp at h
  · exact h

/-- C22. A call that began to wait returns only if the event is set afterwards. -/
theorem C22_returns_only_if_set (before ops : List Op) (id : Nat)
    (hw : ((({} : State).runAll before).step .wait).2 = .suspended id) (hn : .set ∉ ops) :
    (.run, .returned id) ∉ trace (({} : State).runAll (before ++ [.wait])) ops := by
  have gen : ∀ (ops : List Op) (s : State), (id, true) ∉ s.ready → .set ∉ ops → (.run, .returned id) ∉ trace s ops := by
    intro ops
    induction ops with
    | nil => intro s _ _; simp [trace]
    | cons op ops ih =>
      intro s h hns hm
      have hns' : .set ∉ ops := fun h => hns (List.mem_cons_of_mem _ h)
      simp only [trace, List.mem_cons] at hm
      rcases hm with hm | hm
      · simp only [Prod.mk.injEq] at hm
        obtain ⟨e1, e2⟩ := hm
        rw [← e1] at e2
        simp only [State.step] at e2
        split at e2
        · cases e2
        · rename_i hr
          simp only [Out.returned.injEq] at e2
          rw [e2] at h
          exact h (by rw [hr]; simp)
        · cases e2
      · refine ih _ ?_ hns' hm
        cases op with
        | set => exact absurd (by simp) hns
        | clear => exact h
        | wait => simp only [State.step]; split <;> exact h
        | cancel j =>
          simp only [State.step]
          split
          · intro hb
            rcases List.mem_append.mp hb with hb | hb
            · exact h hb
            · simp at hb
          · intro hb
            obtain ⟨q, hq, e⟩ := List.mem_map.mp hb
            split at e
            · simp at e
            · exact h (by rw [← e]; exact hq)
        | run =>
          simp only [State.step]
          split
          · exact h
          · rename_i hr
            exact fun hb => h (by rw [hr]; exact List.mem_cons_of_mem _ hb)
          · rename_i hr
            exact fun hb => h (by rw [hr]; exact List.mem_cons_of_mem _ hb)
  refine gen ops _ ?_ hn
  have hi := (runAll_inv before _ inv_init).freshR
  have e0 : ({} : State).runAll (before ++ [.wait]) = ((({} : State).runAll before).step .wait).1 := by
    simp [State.runAll, List.foldl_append]
  rw [e0]
  revert hw
  simp only [State.step]
  split
  · simp
  · intro hw hb
    simp only [Out.suspended.injEq] at hw
    have := hi _ hb
    simp only at this
    omega

/-- Instance: two wait, one is cancelled, the event is set and cleared at once; the other one returns, a third one waits. -/
example : trace {} [.wait, .wait, .cancel 0, .set, .clear, .wait, .run, .run] =
    [(.wait, .suspended 0), (.wait, .suspended 1), (.cancel 0, .unit), (.set, .unit), (.clear, .unit), (.wait, .suspended 2),
     (.run, .cancelledError 0), (.run, .returned 1)] := by decide

end Verif.Event
