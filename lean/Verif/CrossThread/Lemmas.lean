import Verif.CrossThread.Model
/-! Facts for all schedules: done stays done, a timed out wait leaves no callback. -/
namespace Verif.CrossThread

theorem upd_same {α : Type} (f : Nat → α) (i : Nat) (x : α) : upd f i x i = x := by simp [upd]
theorem upd_ne {α : Type} (f : Nat → α) {i k : Nat} (x : α) (h : k ≠ i) : upd f i x k = f k := by simp [upd, h]

theorem run_append (calls : Nat → Call) (s : State) (xs ys : List Op) : s.run calls (xs ++ ys) = (s.run calls xs).run calls ys := by
  induction xs generalizing s with
  | nil => rfl
  | cons x xs ih => exact ih _

/-- Positions at which `i` may be. -/
def Below (l : List Nat) (i k : Nat) : Prop := ∀ p, l[p]? = some i → p < k

theorem Below.append {l : List Nat} {i k x : Nat} (h : Below l i k) (hx : x ≠ i) : Below (l ++ [x]) i k := by
  intro p hp
  by_cases hl : p < l.length
  · rw [List.getElem?_append_left hl] at hp; exact h p hp
  · rw [List.getElem?_append_right (by omega)] at hp
    obtain ⟨hlt, he⟩ := List.getElem?_eq_some_iff.1 hp
    have : p - l.length = 0 := by simp only [List.length_singleton] at hlt; omega
    simp only [this, List.getElem_cons_zero] at he
    exact absurd he hx

theorem Below.dropLast {l : List Nat} {i k : Nat} (h : Below l i k) : Below l.dropLast i k := by
  intro p hp
  rw [List.getElem?_dropLast] at hp
  split at hp
  · exact h p hp
  · cases hp

theorem Below.eraseIdx {l : List Nat} {i k m : Nat} (h : Below l i k) : Below (l.eraseIdx m) i k := by
  intro p hp
  rw [List.getElem?_eraseIdx] at hp
  split at hp
  · exact h p hp
  · have := h _ hp; omega

/-- The scan of `remove_done_callback` has not passed the waiter's callback. -/
structure Scan (s : State) : Prop where
  /-- before it is added there is none -/
  fresh : ∀ i, (s.waiter i = .start ∨ s.waiter i = .addCheck ∨ s.waiter i = .append) → i ∉ s.callbacks
  remove : ∀ i k, s.waiter i = .remove k → Below s.callbacks i k
  delete : ∀ i k, s.waiter i = .delete k → Below s.callbacks i (k + 1)
  timedOut : ∀ i, s.waiter i = .finished .timeoutError → i ∉ s.callbacks

/-- The waiter `i` does not change, the callbacks only lose elements or get others. -/
theorem Scan.keep {s t : State} (h : Scan s) (hw : t.waiter = s.waiter)
    (hc : ∀ i k, Below s.callbacks i k → Below t.callbacks i k) (hm : ∀ i, i ∉ s.callbacks → i ∉ t.callbacks) : Scan t where
  fresh := fun i hi => hm i (h.fresh i (by rw [hw] at hi; exact hi))
  remove := fun i k hi => hc i k (h.remove i k (by rw [hw] at hi; exact hi))
  delete := fun i k hi => hc i (k + 1) (h.delete i k (by rw [hw] at hi; exact hi))
  timedOut := fun i hi => hm i (h.timedOut i (by rw [hw] at hi; exact hi))

/-- The waiter `i` goes to `pc`, the callbacks stay. -/
theorem Scan.goto {s : State} (h : Scan s) (i : Nat) (pc : WPc)
    (h1 : (pc = .start ∨ pc = .addCheck ∨ pc = .append) → i ∉ s.callbacks)
    (h2 : ∀ k, pc = .remove k → Below s.callbacks i k) (h3 : ∀ k, pc = .delete k → Below s.callbacks i (k + 1))
    (h4 : pc = .finished .timeoutError → i ∉ s.callbacks) : Scan (s.goto i pc) where
  fresh := fun k hk => by
    by_cases he : k = i
    · subst he; simp only [State.goto, upd_same] at hk; exact h1 hk
    · simp only [State.goto, upd_ne _ _ he] at hk; exact h.fresh k hk
  remove := fun k m hk => by
    by_cases he : k = i
    · subst he; simp only [State.goto, upd_same] at hk; exact h2 m hk
    · simp only [State.goto, upd_ne _ _ he] at hk; exact h.remove k m hk
  delete := fun k m hk => by
    by_cases he : k = i
    · subst he; simp only [State.goto, upd_same] at hk; exact h3 m hk
    · simp only [State.goto, upd_ne _ _ he] at hk; exact h.delete k m hk
  timedOut := fun k hk => by
    by_cases he : k = i
    · subst he; simp only [State.goto, upd_same] at hk; exact h4 hk
    · simp only [State.goto, upd_ne _ _ he] at hk; exact h.timedOut k hk

theorem below_zero {l : List Nat} {i : Nat} (h : Below l i 0) : i ∉ l := by
  intro hm
  obtain ⟨p, hp⟩ := List.mem_iff_getElem?.1 hm
  exact absurd (h p hp) (Nat.not_lt_zero _)

theorem below_length (l : List Nat) (i : Nat) : Below l i l.length :=
  fun _ hp => (List.getElem?_eq_some_iff.1 hp).1

theorem step_scan {calls : Nat → Call} {s : State} (h : Scan s) (op : Op) : Scan (s.step calls op) := by
  cases op with
  | waiter i =>
    simp only [State.step]
    cases hpc : s.waiter i with
    | start =>
      have := h.fresh i (Or.inl hpc)
      simp only [State.stepWaiter]
      split
      · exact h.goto i _ nofun nofun nofun nofun
      · exact h.goto i _ (fun _ => this) nofun nofun nofun
    | getResult =>
      refine h.goto i _ nofun nofun nofun ?_
      intro he
      unfold State.getResult at he
      split at he
      · cases he
      · split at he
        · cases he
        · split at he <;> cases he
    | addCheck =>
      have := h.fresh i (Or.inr (Or.inl hpc))
      simp only [State.stepWaiter]
      split
      · exact h.goto i _ nofun nofun nofun nofun
      · exact h.goto i _ (fun _ => this) nofun nofun nofun
    | append =>
      have h0 : ∀ k, k ≠ i → k ∉ s.callbacks → k ∉ s.callbacks ++ [i] := by
        intro k hk hm hmm
        rcases List.mem_append.1 hmm with hmm | hmm
        · exact hm hmm
        · exact hk (List.mem_singleton.1 hmm)
      have hpc' : ∀ k, k ≠ i → (({ s with callbacks := s.callbacks ++ [i] } : State).goto i .wake).waiter k = s.waiter k := by
        intro k hk; simp only [State.goto, upd_ne _ _ hk]
      have hpi : (({ s with callbacks := s.callbacks ++ [i] } : State).goto i .wake).waiter i = .wake := by simp only [State.goto, upd_same]
      constructor
      · intro k hk
        have he : k ≠ i := by intro he; rw [he] at hk; simp only [State.stepWaiter] at hk; rw [hpi] at hk; rcases hk with hk | hk | hk <;> cases hk
        simp only [State.stepWaiter] at hk
        rw [hpc' k he] at hk
        exact h0 k he (h.fresh k hk)
      · intro k m hk
        have he : k ≠ i := by intro he; rw [he] at hk; simp only [State.stepWaiter] at hk; rw [hpi] at hk; cases hk
        simp only [State.stepWaiter] at hk
        rw [hpc' k he] at hk
        exact (h.remove k m hk).append he.symm
      · intro k m hk
        have he : k ≠ i := by intro he; rw [he] at hk; simp only [State.stepWaiter] at hk; rw [hpi] at hk; cases hk
        simp only [State.stepWaiter] at hk
        rw [hpc' k he] at hk
        exact (h.delete k m hk).append he.symm
      · intro k hk
        have he : k ≠ i := by intro he; rw [he] at hk; simp only [State.stepWaiter] at hk; rw [hpi] at hk; cases hk
        simp only [State.stepWaiter] at hk
        rw [hpc' k he] at hk
        exact h0 k he (h.timedOut k hk)
    | pushReady => exact (h.keep (t := { s with ready := s.ready ++ [i] }) rfl (fun _ _ a => a) (fun _ a => a)).goto i _ nofun nofun nofun nofun
    | wake => exact (h.keep (t := { s with pending := true }) rfl (fun _ _ a => a) (fun _ a => a)).goto i _ nofun nofun nofun nofun
    | blocked =>
      simp only [State.stepWaiter]
      split
      · exact h.goto i _ nofun nofun nofun nofun
      · exact h
    | removeLen =>
      refine h.goto i _ nofun (fun k hk => ?_) nofun nofun
      cases hk
      exact below_length _ _
    | remove k =>
      have hb := h.remove i k hpc
      cases k with
      | zero => exact h.goto i _ nofun nofun nofun (fun _ => below_zero hb)
      | succ k =>
        simp only [State.stepWaiter]
        split
        · exact h.goto i _ nofun nofun nofun nofun
        · rename_i c hc
          split
          · refine h.goto i _ nofun nofun (fun m hm => ?_) nofun
            cases hm; exact hb
          · rename_i hne
            refine h.goto i _ nofun (fun m hm => ?_) nofun nofun
            cases hm
            intro p hp
            have := hb p hp
            have : p ≠ k := by intro he; rw [he, hc] at hp; exact hne (Option.some.inj hp)
            omega
    | delete k =>
      have hb := h.delete i k hpc
      simp only [State.stepWaiter]
      split
      · have hk : Scan { s with callbacks := s.callbacks.eraseIdx k } :=
          h.keep rfl (fun _ _ a => a.eraseIdx) (fun _ a b => a (List.mem_of_mem_eraseIdx b))
        refine hk.goto i _ nofun (fun m hm => ?_) nofun nofun
        cases hm
        intro p hp
        dsimp only at hp
        rw [List.getElem?_eraseIdx] at hp
        split at hp
        · assumption
        · have := hb _ hp; omega
      · exact h.goto i _ nofun nofun nofun nofun
    | finished r =>
      exact h
  | timeout i =>
    simp only [State.step]
    split
    · split
      · exact h
      · exact h.goto i _ nofun nofun nofun nofun
    · exact h
  | setter j =>
    simp only [State.step]
    cases s.setter j with
    | start =>
      simp only [State.stepSetter]
      split
      · exact h.keep rfl (fun _ _ a => a) (fun _ a => a)
      · split <;> exact h.keep rfl (fun _ _ a => a) (fun _ a => a)
    | sched a => simp only [State.stepSetter]; split <;> exact h.keep rfl (fun _ _ a => a) (fun _ a => a)
    | pop a =>
      simp only [State.stepSetter]
      split
      · exact h.keep rfl (fun _ _ a => a) (fun _ a => a)
      · exact h.keep rfl (fun _ _ a => a.dropLast) (fun _ a b => a ((List.dropLast_sublist _).subset b))
    | store w => exact h.keep rfl (fun _ _ a => a) (fun _ a => a)
    | mark w => exact h.keep rfl (fun _ _ a => a) (fun _ a => a)
    | push a i => exact h.keep rfl (fun _ _ a => a) (fun _ a => a)
    | cancelMark w => exact h.keep rfl (fun _ _ a => a) (fun _ a => a)
    | wake => exact h.keep rfl (fun _ _ a => a) (fun _ a => a)
    | finished => exact h
    | refused => exact h
    | indexError => exact h
  | loop =>
    simp only [State.step, State.stepLoop]
    split
    · split
      · exact h.keep rfl (fun _ _ a => a) (fun _ a => a)
      · exact h
    · split <;> exact h.keep rfl (fun _ _ a => a) (fun _ a => a)

theorem scan_init : Scan {} := ⟨nofun, nofun, nofun, nofun⟩

theorem run_scan {calls : Nat → Call} (ops : List Op) : ∀ {s : State}, Scan s → Scan (s.run calls ops) := by
  induction ops with
  | nil => intro s h; exact h
  | cons op ops ih => intro s h; exact ih (step_scan h op)

end Verif.CrossThread
