import Verif.SyncQueue.Model

/-! C30: the queue between threads. -/
namespace Verif.SyncQueue

/-! ### specification -/

/-- The elements put, in order. -/
def put (tr : List (Op × Out)) : List Nat := tr.filterMap fun e => match e.1 with | .put x => some x | _ => none

/-- The elements obtained, in order, each as often as a thread obtained it. -/
def obtained (tr : List (Op × Out)) : List Nat := tr.flatMap fun e => e.2.got.map fun g => g.2

/-- No thread asks for an element while another one is blocked. -/
def OneConsumer (repr : Nat → Nat) (s : State) : List Op → Prop
  | [] => True
  | op :: ops => (∀ t, op = .get t → s.waiting = []) ∧ OneConsumer repr (s.step repr op).1 ops

variable (repr : Nat → Nat)

def putOf : Op → List Nat
  | .put x => [x]
  | _ => []

theorem gen (ops : List Op) : ∀ s : State, s.waiting.length ≤ 1 → (s.waiting ≠ [] → s.results = []) → OneConsumer repr s ops →
    .repr ∉ ops → obtained (trace repr s ops) ++ (s.runAll repr ops).results = s.results ++ put (trace repr s ops) := by
  induction ops with
  | nil => intro s _ _ _ _; simp [obtained, put, trace, State.runAll]
  | cons op ops ih =>
    intro s hw hr hc hn
    have hn' : .repr ∉ ops := fun h => hn (List.mem_cons_of_mem _ h)
    have hrun : s.runAll repr (op :: ops) = (s.step repr op).1.runAll repr ops := rfl
    suffices h : ((s.step repr op).1.waiting.length ≤ 1 ∧ ((s.step repr op).1.waiting ≠ [] → (s.step repr op).1.results = [])) ∧
        (s.step repr op).2.got.map (fun g => g.2) ++ (s.step repr op).1.results =
          s.results ++ putOf op by
      have := ih _ h.1.1 h.1.2 hc.2 hn'
      rw [hrun]
      have e1 : obtained (trace repr s (op :: ops)) = (s.step repr op).2.got.map (fun g => g.2) ++ obtained (trace repr (s.step repr op).1 ops) := by
        simp [obtained, trace]
      have e2 : put (trace repr s (op :: ops)) = putOf op ++ put (trace repr (s.step repr op).1 ops) := by
        cases op <;> simp [put, putOf, trace]
      rw [e1, e2, List.append_assoc, this, ← List.append_assoc, ← List.append_assoc, h.2]
    cases op with
    | put x =>
      simp only [State.step, putOf]
      split
      · rename_i e; simp [e]
      · rename_i e
        have hr := hr e
        obtain ⟨t, et⟩ : ∃ t, s.waiting = [t] := by
          match h : s.waiting with
          | [] => exact absurd h e
          | [t] => exact ⟨t, rfl⟩
          | _ :: _ :: _ => rw [h] at hw; simp at hw
        simp [hr, et]
    | get t =>
      have e := hc.1 t rfl
      simp only [State.step, putOf, e]
      rw [if_neg (by simp)]
      split
      · rename_i x rs er; simp [er]
      · rename_i er
        split
        · simp [er, e]
        · simp [er]
    | getNoWait t =>
      simp only [State.step, putOf]
      split
      · exact ⟨⟨hw, hr⟩, by simp⟩
      · split
        · rename_i x rs er
          refine ⟨⟨hw, fun h => ?_⟩, by simp [er]⟩
          have := hr h; rw [er] at this; simp at this
        · split <;> exact ⟨⟨hw, hr⟩, by simp⟩
    | cancel =>
      simp only [State.step, putOf]
      split
      · exact ⟨⟨hw, hr⟩, by simp⟩
      · split <;> exact ⟨⟨hw, hr⟩, by simp⟩
    | repr => simp at hn

/-- C30, for one blocked consumer at a time and a queue that is not formatted: what was obtained, followed by what is queued, is what was
put. So each element is obtained at most once, in order, and none is lost. -/
theorem C30_fifo_partial (ops : List Op) (hc : OneConsumer repr {} ops) (hn : .repr ∉ ops) :
    obtained (trace repr {} ops) ++ (({} : State).runAll repr ops).results = put (trace repr {} ops) := by
  have := gen repr ops {} (by simp) (by simp) hc hn
  simpa using this

/-- Instance. -/
example : OneConsumer id {} [.get 1, .put 5, .put 6, .put 7, .get 1, .getNoWait 2] ∧
    obtained (trace id {} [.get 1, .put 5, .put 6, .put 7, .get 1, .getNoWait 2]) = [5, 6, 7] := by
  refine ⟨?_, by decide +kernel⟩
  simp [OneConsumer, State.step]

/-- C30. Whatever was done: no thread is blocked while an element is queued. -/
theorem C30_not_blocked (ops : List Op) (h : (({} : State).runAll repr ops).waiting ≠ []) :
    (({} : State).runAll repr ops).results = [] := by
  have gen : ∀ (ops : List Op) (s : State), (s.waiting ≠ [] → s.results = []) →
      (s.runAll repr ops).waiting ≠ [] → (s.runAll repr ops).results = [] := by
    intro ops
    induction ops with
    | nil => intro s h; exact h
    | cons op ops ih =>
      intro s h
      refine ih _ ?_
      cases op with
      | put x => simp only [State.step]; split <;> simp_all
      | get t =>
        simp only [State.step]
        split
        · exact h
        · split
          · rename_i er; intro hw; have := h hw; rw [er] at this; simp at this
          · split <;> simp_all
      | getNoWait t =>
        simp only [State.step]
        split
        · exact h
        · split
          · rename_i er; intro hw; have := h hw; rw [er] at this; simp at this
          · split <;> exact h
      | cancel => simp only [State.step]; split; · exact h
                  split <;> exact h
      | repr => intro hw; simp only [State.step] at hw ⊢; simp [h hw]
  exact gen ops {} (by simp) h

/-- C30, for a cancelled queue nobody is blocked on: a thread asking for an element gets one or `CancelledError`; it does not block. -/
theorem C30_cancelled_partial (s : State) (t : Nat) (hc : s.cancelled = true) (hw : s.waiting = []) :
    (s.step repr (.get t)).1.waiting = [] ∧
    ((s.step repr (.get t)).2.got = (s.results.head?.map fun x => (t, x)).toList) ∧
    ((s.step repr (.get t)).2.exc = if s.results = [] then some .cancelled else none) := by
  simp only [State.step, hw, hc]
  cases s.results <;> simp [hw]

/-! ### violations -/

/-- C30 does not hold: two threads blocked at once obtain the same element. -/
theorem C30_twice_violated (a b x : Nat) (h : a ≠ b) :
    ((({} : State).runAll repr [.get a, .get b]).step repr (.put x)).2.got = [(a, x), (b, x)] := by
  simp [State.runAll, State.step, Ne.symm h]

/-- C30 does not hold: cancelling raises `AttributeError` instead of waking the blocked thread, which stays blocked whatever is done
next, until something is put. -/
theorem C30_not_woken_violated (a : Nat) (ops : List Op) (hp : ∀ x, Op.put x ∉ ops) :
    ((({} : State).runAll repr [.get a]).step repr .cancel).2.exc = some .attribute ∧
    a ∈ (({} : State).runAll repr (.get a :: .cancel :: ops)).waiting := by
  refine ⟨by simp [State.runAll, State.step], ?_⟩
  have gen : ∀ (ops : List Op) (s : State), (∀ x, Op.put x ∉ ops) → a ∈ s.waiting → a ∈ (s.runAll repr ops).waiting := by
    intro ops
    induction ops with
    | nil => intro s _ h; exact h
    | cons op ops ih =>
      intro s hp h
      refine ih _ (fun x hx => hp x (List.mem_cons_of_mem _ hx)) ?_
      cases op with
      | put x => exact absurd (by simp) (hp x)
      | get t =>
        simp only [State.step]
        split
        · exact h
        · split
          · exact h
          · split
            · exact h
            · simp [h]
      | getNoWait t =>
        simp only [State.step]
        split
        · exact h
        · split
          · exact h
          · split <;> exact h
      | cancel => simp only [State.step]; split; · exact h
                  split <;> exact h
      | repr => exact h
  exact gen ops _ hp (by simp [State.step])

/-- C30 does not hold: formatting a queue that is not empty adds to it. -/
theorem C30_repr_violated (s : State) (h : s.results ≠ []) : (s.step repr .repr).1.results ≠ s.results := by
  intro e
  have := congrArg List.length e
  simp [State.step] at this
  exact h this

end Verif.SyncQueue
