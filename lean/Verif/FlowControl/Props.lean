import Verif.FlowControl.Model

/-! C59: draining; C60: pausing of reading. -/
namespace Verif.FlowControl

/-! ### specification -/

/-- Conditions of the partial theorem of C59: nothing pauses reading, no reader waits for data while writing is paused, one task drains
at a time, and none after the connection is lost. -/
def Separate (s : State) : List Op → Prop
  | [] => True
  | op :: ops => (match op with
    | .dataReceived n => s.size + n ≤ maxSize
    | .waitForData => s.full = false
    | .drain _ => s.blocked = [] ∧ s.lost = false
    | _ => True) ∧ Separate (s.step op).1 ops

/-! ### draining -/

structure Inv (s : State) : Prop where
  same : s.paused = s.full
  waiting : ∀ t ∈ s.blocked, s.waiter = some t
  full : s.blocked ≠ [] → s.full = true ∧ s.lost = false

theorem step_inv (s : State) (h : Inv s) (op : Op) (ho : Separate s [op]) : Inv (s.step op).1 := by
  have ho := ho.1
  have hf : s.blocked.filter (fun t => some t ≠ s.waiter) = [] := by
    rw [List.filter_eq_nil_iff]
    intro t ht
    simp [h.waiting t ht]
  cases op with
  | dataReceived n =>
    simp only [State.step]
    split
    · exact h
    · split
      · rename_i hs
        simp only at ho hs
        simp only [Bool.and_eq_true, decide_eq_true_eq] at hs
        omega
      · exact ⟨h.same, h.waiting, h.full⟩
  | consume n => exact ⟨h.same, h.waiting, h.full⟩
  | waitForData =>
    simp only [State.step]
    split
    · rename_i hp
      simp only at ho
      rw [h.same, ho] at hp
      simp at hp
    · exact h
  | pauseWriting =>
    simp only [State.step]
    split
    · exact h
    · rename_i hl
      simp only [Bool.or_eq_true, not_or, Bool.not_eq_true] at hl
      exact ⟨rfl, h.waiting, fun _ => ⟨rfl, hl.2⟩⟩
  | resumeWriting =>
    simp only [State.step]
    split
    · exact h
    · refine ⟨rfl, ?_, ?_⟩ <;> simp only <;> rw [hf] <;> simp
  | drain t =>
    simp only [State.step]
    simp only at ho
    split
    · exact h
    · split
      · exact h
      · split
        · exact h
        · rename_i hp
          refine ⟨h.same, by simp [ho.1], fun _ => ⟨?_, ho.2⟩⟩
          simp only
          rw [← h.same]
          simpa using hp
  | cancelDrain t =>
    refine ⟨h.same, fun u hu => h.waiting u (List.mem_filter.mp hu).1, fun hb => h.full ?_⟩
    intro e
    simp [State.step, e] at hb
  | connectionLost e =>
    simp only [State.step]
    split
    · exact h
    · split
      · rename_i hp
        have hp : s.paused = false := by simpa using hp
        refine ⟨h.same, h.waiting, fun hb => ?_⟩
        have := (h.full hb).1
        rw [← h.same, hp] at this
        simp at this
      · refine ⟨h.same, ?_, ?_⟩ <;> simp only <;> rw [hf] <;> simp

theorem runAll_inv (ops : List Op) : ∀ s : State, Inv s → Separate s ops → Inv (s.runAll ops) := by
  induction ops with
  | nil => intro s h _; exact h
  | cons op ops ih => intro s h ho; exact ih _ (step_inv s h op ⟨ho.1, trivial⟩) ho.2

theorem inv_init : Inv {} := ⟨rfl, by simp, by simp⟩

/-- C59, under the conditions of `Separate`: a task is blocked in `drain` only while the transport's writing is paused and the connection
is there - so it is woken when writing resumes and when the connection is lost - and `drain` blocks whenever writing is paused. -/
theorem C59_drain_partial (ops : List Op) (ho : Separate {} ops) :
    ((({} : State).runAll ops).blocked ≠ [] → (({} : State).runAll ops).full = true ∧ (({} : State).runAll ops).lost = false) ∧
    ∀ t, (({} : State).runAll ops).lost = false → (({} : State).runAll ops).exc = false → t ∉ (({} : State).runAll ops).blocked →
      ((({} : State).runAll ops).step (.drain t)).2 = if (({} : State).runAll ops).full then .blocks else .returned := by
  have h := runAll_inv ops {} inv_init ho
  refine ⟨h.full, fun t hl he ht => ?_⟩
  simp only [State.step, ht, if_false, he, h.same]
  cases (({} : State).runAll ops).full <;> simp

/-- Instance. -/
example : Separate {} [.dataReceived 10, .pauseWriting, .drain 1, .resumeWriting, .waitForData, .pauseWriting, .drain 1] ∧
    (({} : State).runAll [.dataReceived 10, .pauseWriting, .drain 1, .resumeWriting, .waitForData, .pauseWriting, .drain 1]).blocked = [1] := by
  refine ⟨?_, by decide +kernel⟩
  simp [Separate, State.step, maxSize]

/-- Tasks that are blocked while writing is not paused stay blocked, if their future is the one of the protocol, until writing is paused
and resumed again, the connection is lost, or they are cancelled. -/
def stays (t : Nat) : List Op → Prop
  | [] => True
  | op :: ops => op ≠ .cancelDrain t ∧ op ≠ .resumeWriting ∧ (∀ e, op ≠ .connectionLost e) ∧ stays t ops

/-- C59 does not hold: reading is paused because too much was received; `drain` then blocks, although nothing has to be written, and
goes on so - also after the data was processed and reading goes on. -/
theorem C59_blocked_by_reading_violated (t : Nat) (ops : List Op) (h : stays t ops) :
    let s := ({} : State).runAll [.dataReceived (maxSize + 1), .drain t]
    s.full = false ∧ t ∈ s.blocked ∧ t ∈ (s.runAll ops).blocked := by
  have h0 : t ∈ (({} : State).runAll [.dataReceived (maxSize + 1), .drain t]).blocked := by
    simp [State.runAll, State.step]
  refine ⟨by simp [State.runAll, State.step], h0, ?_⟩
  have gen : ∀ (ops : List Op) (s : State), stays t ops → t ∈ s.blocked → t ∈ (s.runAll ops).blocked := by
    intro ops
    induction ops with
    | nil => intro s _ h; exact h
    | cons op ops ih =>
      intro s h ht
      refine ih _ h.2.2.2 ?_
      cases op with
      | dataReceived n =>
        simp only [State.step]
        split
        · exact ht
        · split <;> exact ht
      | consume n => exact ht
      | waitForData => simp only [State.step]; split <;> exact ht
      | pauseWriting => simp only [State.step]; split <;> exact ht
      | resumeWriting => exact absurd rfl h.2.1
      | drain u =>
        simp only [State.step]
        split
        · exact ht
        · split
          · exact ht
          · split
            · exact ht
            · simp [ht]
      | cancelDrain u =>
        have : t ≠ u := by rintro rfl; exact h.1 rfl
        simp [State.step, ht, this]
      | connectionLost e => exact absurd rfl (h.2.2.1 e)
  exact gen ops _ h h0

/-- C59 does not hold: of two tasks blocked in `drain` only the last is woken. -/
theorem C59_two_tasks_violated (t u : Nat) (h : t ≠ u) :
    (({} : State).runAll [.pauseWriting, .drain t, .drain u, .resumeWriting]).blocked = [t] := by
  simp [State.runAll, State.step, h, Ne.symm h]

/-- C59 does not hold: a reader waiting for data while writing is paused takes the pause back; `drain` returns although the buffer is
above its high mark. -/
theorem C59_not_blocked_violated (t : Nat) :
    let s := ({} : State).runAll [.pauseWriting, .waitForData]
    s.full = true ∧ (s.step (.drain t)).2 = .returned := by
  simp [State.runAll, State.step]

/-- In the same situation a task that is already blocked is not woken by the loss of the connection. -/
theorem C59_lost_not_woken_violated (t : Nat) (e : Bool) :
    (({} : State).runAll [.pauseWriting, .drain t, .waitForData, .connectionLost e]).blocked = [t] := by
  simp [State.runAll, State.step]

/-- C59 does not hold: `drain` after the connection was closed without an exception while writing was paused blocks. -/
theorem C59_after_lost_violated (t : Nat) :
    let s := ({} : State).runAll [.pauseWriting, .connectionLost false]
    (s.step (.drain t)).2 = .blocks := by
  simp [State.runAll, State.step]

/-! ### reading -/

/-- C60, when the transport never pauses writing: reading is paused whenever more than the limit is buffered after receiving, and goes on
once a reader waits for more data. -/
theorem C60_reading_partial (ops : List Op) (ho : .pauseWriting ∉ ops) :
    (∀ n, (({} : State).runAll ops).lost = false → (({} : State).runAll (ops ++ [.dataReceived n])).reading = true →
      (({} : State).runAll (ops ++ [.dataReceived n])).size ≤ maxSize) ∧
    (({} : State).runAll (ops ++ [.waitForData])).reading = true := by
  have gen : ∀ (ops : List Op) (s : State), .pauseWriting ∉ ops → s.paused = !s.reading → s.full = false →
      (s.runAll ops).paused = !(s.runAll ops).reading ∧ (s.runAll ops).full = false := by
    intro ops
    induction ops with
    | nil => intro s _ h1 h2; exact ⟨h1, h2⟩
    | cons op ops ih =>
      intro s ho h1 h2
      have key : (s.step op).1.paused = (!(s.step op).1.reading) ∧ (s.step op).1.full = false := by
        cases op with
        | dataReceived n =>
          simp only [State.step]
          split
          · exact ⟨h1, h2⟩
          · split
            · exact ⟨rfl, h2⟩
            · exact ⟨h1, h2⟩
        | consume n => exact ⟨h1, h2⟩
        | waitForData =>
          simp only [State.step]
          split
          · exact ⟨rfl, h2⟩
          · exact ⟨h1, h2⟩
        | pauseWriting => exact absurd (by simp) ho
        | resumeWriting => simp [State.step, h1, h2]
        | drain t =>
          simp only [State.step]
          split
          · exact ⟨h1, h2⟩
          · split
            · exact ⟨h1, h2⟩
            · split <;> exact ⟨h1, h2⟩
        | cancelDrain t => exact ⟨h1, h2⟩
        | connectionLost e =>
          simp only [State.step]
          split
          · exact ⟨h1, h2⟩
          · split <;> exact ⟨h1, h2⟩
      exact ih _ (fun h => ho (List.mem_cons_of_mem _ h)) key.1 key.2
  obtain ⟨h1, h2⟩ := gen ops {} ho rfl rfl
  have er : ∀ op, ({} : State).runAll (ops ++ [op]) = ((({} : State).runAll ops).step op).1 := by intro op; simp [State.runAll]
  rw [er]
  refine ⟨fun n hl hr => ?_, ?_⟩
  · rw [er] at hr ⊢
    generalize ({} : State).runAll ops = s at *
    simp only [State.step, hl, Bool.or_false] at hr ⊢
    cases hs : s.reading with
    | false => simp [hs] at hr
    | true =>
      rw [hs] at h1
      simp only [hs, h1] at hr ⊢
      by_cases hsz : s.size + n > maxSize
      · simp [hsz] at hr
      · simp [hsz]; omega
  · generalize ({} : State).runAll ops = s at *
    simp only [State.step]
    split
    · rfl
    · rename_i hp
      rw [h1] at hp
      simpa using hp

/-- Instance. -/
example : (({} : State).runAll [.dataReceived 131073]).reading = false ∧ (({} : State).runAll [.dataReceived 131073, .consume 131073, .waitForData]).reading = true := by
  decide +kernel

/-- C60 does not hold: reading is paused; then the transport pauses and resumes writing; from then on reading is paused for ever, whatever is
done with the data and however long readers wait, unless writing is paused again. -/
theorem C60_never_resumed_violated (ops : List Op) (h : .pauseWriting ∉ ops) :
    (({} : State).runAll ([.dataReceived (maxSize + 1), .pauseWriting, .resumeWriting] ++ ops)).reading = false := by
  have gen : ∀ (ops : List Op) (s : State), .pauseWriting ∉ ops → s.reading = false → s.paused = false →
      (s.runAll ops).reading = false := by
    intro ops
    induction ops with
    | nil => intro s _ h1 _; exact h1
    | cons op ops ih =>
      intro s h h1 h3
      have key : (s.step op).1.reading = false ∧ (s.step op).1.paused = false := by
        cases op with
        | dataReceived n => simp [State.step, h1, h3]
        | consume n => exact ⟨h1, h3⟩
        | waitForData => simp [State.step, h1, h3]
        | pauseWriting => exact absurd (by simp) h
        | resumeWriting => simp only [State.step]; split <;> exact ⟨h1, by first | exact h3 | rfl⟩
        | drain t =>
          simp only [State.step]
          split
          · exact ⟨h1, h3⟩
          · split
            · exact ⟨h1, h3⟩
            · simp [h3, h1]
        | cancelDrain t => exact ⟨h1, h3⟩
        | connectionLost e => simp only [State.step]; split; · exact ⟨h1, h3⟩
                              split <;> exact ⟨h1, h3⟩
      exact ih _ (fun h' => h (List.mem_cons_of_mem _ h')) key.1 key.2
  have e : ({} : State).runAll ([.dataReceived (maxSize + 1), .pauseWriting, .resumeWriting] ++ ops) =
      (({} : State).runAll [.dataReceived (maxSize + 1), .pauseWriting, .resumeWriting]).runAll ops := by
    simp [State.runAll]
  rw [e]
  exact gen ops _ h (by simp [State.runAll, State.step]) (by simp [State.runAll, State.step])

/-- C60 does not hold: while writing is paused, reading is not paused however much is received. -/
theorem C60_not_paused_violated (n : Nat) : (({} : State).runAll [.pauseWriting, .dataReceived n]).reading = true ∧
    (({} : State).runAll [.pauseWriting, .dataReceived n]).size = n := by
  simp [State.runAll, State.step]

end Verif.FlowControl
