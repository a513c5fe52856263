import Verif.Cycler.Model

/-! C29: timers, cancellation and call order of a cycler. -/
namespace Verif.Cycler

/-! ### specification -/

/-- The functions called, in order. -/
def calls (os : List Out) : List Nat := os.filterMap fun | .called f => some f | _ => none

/-- Cancelling, calling and rescheduling are done from outside, not by cycle functions. -/
def Outside (s : State) : List Op → Prop
  | [] => True
  | op :: ops => (s.runs = [] ∨ op ∉ [Op.cancel, .callNow, .reschedule]) ∧ Outside (s.step op).1 ops

/-! ### timers -/

/-- While no cycle is running, the handle is the armed timer; while one is running, no timer is armed. -/
structure Inv (s : State) : Prop where
  armed : s.armed = match s.handle, s.runs with
    | .timer t, [] => [t]
    | _, _ => []
  depth : s.runs.length ≤ 1
  starting : s.starting = false
  handle : s.handle ≠ .starter

theorem inv_init (funcs : List (Nat × Int)) : Inv (.init funcs) := by
  constructor <;> simp [State.init, State.arm]

theorem cancelHandle_inv (s : State) (h : Inv s) (hr : s.runs = []) :
    s.cancelHandle.armed = [] ∧ s.cancelHandle.runs = [] ∧ s.cancelHandle.starting = false ∧ s.cancelHandle.handle ≠ .starter := by
  have ha := h.armed
  unfold State.cancelHandle
  split
  · rename_i e; rw [e, hr] at ha; exact ⟨ha, hr, h.starting, h.handle⟩
  · rename_i t e; rw [e, hr] at ha; simp [ha, hr, h.starting, h.handle]
  · rename_i e; exact absurd e h.handle

theorem step_inv (s : State) (h : Inv s) (op : Op) (ho : s.runs = [] ∨ op ∉ [Op.cancel, .callNow, .reschedule]) :
    Inv (s.step op).1 := by
  have hrun : op ∈ [Op.cancel, .callNow, .reschedule] → s.runs = [] := by
    intro hm
    rcases ho with ho | ho
    · exact ho
    · exact absurd hm ho
  cases op with
  | fire t =>
    simp only [State.step]
    split
    · rename_i hf
      have ha := h.armed
      refine ⟨?_, by simp, h.starting, h.handle⟩
      cases hh : s.handle with
      | none => rw [hh] at ha; simp only at ha; rw [ha] at hf; simp at hf
      | starter => exact absurd hh h.handle
      | timer u =>
        rw [hh, hf.1] at ha
        simp only at ha ⊢
        rw [ha] at hf ⊢
        simp only [List.mem_singleton] at hf
        simp [hf.2]
    · exact h
  | start =>
    simp only [State.step]
    split
    · rename_i hs; rw [h.starting] at hs; simp at hs
    · exact h
  | next =>
    simp only [State.step]
    split
    · exact h
    · rename_i i runs hr
      have hd := h.depth
      rw [hr] at hd
      have hr' : runs = [] := by simpa using hd
      subst hr'
      have ha := h.armed
      rw [hr] at ha
      have ha : s.armed = [] := by rw [ha]; cases s.handle <;> rfl
      split
      · refine ⟨?_, by simp, h.starting, h.handle⟩
        simp only
        rw [ha]; cases s.handle <;> rfl
      · refine ⟨?_, by simp [State.arm], h.starting, by simp [State.arm]⟩
        simp [State.arm, ha]
  | cancel =>
    simp only [State.step]
    split
    · exact h
    · obtain ⟨h1, h2, h3, h4⟩ := cancelHandle_inv s h (hrun (by simp))
      exact ⟨by simp [h1], by simp [h2], h3, by simp⟩
  | callNow =>
    simp only [State.step]
    obtain ⟨h1, h2, h3, h4⟩ := cancelHandle_inv s h (hrun (by simp))
    refine ⟨?_, by simp [hrun], h3, h4⟩
    simp only
    rw [h1]
    cases s.cancelHandle.handle <;> rfl
  | reschedule =>
    simp only [State.step]
    obtain ⟨h1, h2, h3, h4⟩ := cancelHandle_inv s h (hrun (by simp))
    refine ⟨?_, by simp [State.arm, h2], h3, by simp [State.arm]⟩
    simp [State.arm, h1, h2]
  | append f p => exact ⟨h.armed, h.depth, h.starting, h.handle⟩
  | remove f => exact ⟨h.armed, h.depth, h.starting, h.handle⟩

theorem runAll_inv (ops : List Op) : ∀ s : State, Inv s → Outside s ops → Inv (s.runAll ops) := by
  induction ops with
  | nil => intro s h _; exact h
  | cons op ops ih => intro s h ho; exact ih _ (step_inv s h op ho.1) ho.2

/-- C29, for a cycler created by the loop's thread and operated from outside its cycle functions: at most one timer is armed. -/
theorem C29_one_timer_partial (funcs : List (Nat × Int)) (ops : List Op) (ho : Outside (.init funcs) ops) :
    ((State.init funcs).runAll ops).armed.length ≤ 1 := by
  have h := (runAll_inv ops _ (inv_init funcs) ho).armed
  rw [h]
  split <;> simp

theorem outs_append (s : State) (a b : List Op) : outs s (a ++ b) = outs s a ++ outs (s.runAll a) b := by
  induction a generalizing s with
  | nil => rfl
  | cons op a ih => simp [outs, State.runAll, ih]

theorem outside_append (s : State) (a b : List Op) : Outside s (a ++ b) ↔ Outside s a ∧ Outside (s.runAll a) b := by
  induction a generalizing s with
  | nil => simp [Outside, State.runAll]
  | cons op a ih =>
    simp only [List.cons_append, Outside, ih, State.runAll, List.foldl_cons, and_assoc]

/-- C29, under the same condition: after `cancel` no cycle function is called, until the cycler is started again. -/
theorem C29_silent_after_cancel_partial (funcs : List (Nat × Int)) (ops₁ ops₂ : List Op)
    (ho : Outside (.init funcs) (ops₁ ++ .cancel :: ops₂)) (hno : .callNow ∉ ops₂ ∧ .reschedule ∉ ops₂) :
    calls (outs ((State.init funcs).runAll (ops₁ ++ [.cancel])) ops₂) = [] := by
  rw [outside_append] at ho
  have h := runAll_inv ops₁ _ (inv_init funcs) ho.1
  have hr : ((State.init funcs).runAll ops₁).runs = [] := by
    rcases ho.2.1 with h | h
    · exact h
    · simp at h
  have hs : ((State.init funcs).runAll (ops₁ ++ [.cancel])) = (((State.init funcs).runAll ops₁).step .cancel).1 := by
    simp [State.runAll]
  rw [hs]
  have h' := step_inv _ h .cancel (Or.inl hr)
  have hh : (((State.init funcs).runAll ops₁).step .cancel).1.handle = .none := by
    simp only [State.step]
    split
    · assumption
    · rfl
  have hr' : (((State.init funcs).runAll ops₁).step .cancel).1.runs = [] := by
    simp only [State.step]
    split
    · exact hr
    · exact (cancelHandle_inv _ h hr).2.1
  generalize (((State.init funcs).runAll ops₁).step .cancel).1 = s at *
  clear ho h hs hr
  revert s
  induction ops₂ with
  | nil => intro s _ _ _; rfl
  | cons op ops ih =>
    intro s h' hh hr'
    have hno' : .callNow ∉ ops ∧ .reschedule ∉ ops :=
      ⟨fun h => hno.1 (List.mem_cons_of_mem _ h), fun h => hno.2 (List.mem_cons_of_mem _ h)⟩
    have ha := h'.armed
    rw [hh] at ha
    simp only at ha
    have key : (s.step op).2 = .none ∧ Inv (s.step op).1 ∧ (s.step op).1.handle = .none ∧ (s.step op).1.runs = [] := by
      cases op with
      | fire t => simp [State.step, ha, h', hh, hr']
      | start => simp [State.step, h'.starting, h', hh, hr']
      | next => simp [State.step, hr', h', hh]
      | cancel => simp [State.step, hh, h', hr']
      | callNow => exact absurd (by simp) hno.1
      | reschedule => exact absurd (by simp) hno.2
      | append f p => exact ⟨rfl, step_inv s h' _ (Or.inl hr'), hh, hr'⟩
      | remove f => exact ⟨rfl, step_inv s h' _ (Or.inl hr'), hh, hr'⟩
    have := ih hno' _ key.2.1 key.2.2.1 key.2.2.2
    simp only [outs]
    rw [key.1]
    simpa [calls] using this

/-! ### order -/

theorem mem_insert {a c : Nat × Int} (l : List (Nat × Int)) : c ∈ insert a l ↔ c = a ∨ c ∈ l := by
  induction l with
  | nil => simp [insert]
  | cons b l ih =>
    unfold insert
    split
    · simp
    · simp [ih, or_left_comm]

theorem insert_sorted (a : Nat × Int) (l : List (Nat × Int)) (h : l.Pairwise fun a b => a.2 ≤ b.2) :
    (insert a l).Pairwise fun a b => a.2 ≤ b.2 := by
  induction l with
  | nil => simp [insert]
  | cons b l ih =>
    rw [List.pairwise_cons] at h
    unfold insert
    split
    · rw [List.pairwise_cons]
      refine ⟨fun c hc => ?_, List.pairwise_cons.mpr h⟩
      rcases List.mem_cons.mp hc with rfl | hc
      · omega
      · have := h.1 c hc; omega
    · rw [List.pairwise_cons]
      refine ⟨fun c hc => ?_, ih h.2⟩
      rcases (mem_insert l).mp hc with rfl | hc
      · omega
      · exact h.1 c hc

theorem sort_sorted (l : List (Nat × Int)) : (sort l).Pairwise fun a b => a.2 ≤ b.2 := by
  have gen : ∀ (l acc : List (Nat × Int)), (acc.Pairwise fun a b => a.2 ≤ b.2) →
      (l.foldl (fun acc a => insert a acc) acc).Pairwise fun a b => a.2 ≤ b.2 := by
    intro l
    induction l with
    | nil => intro acc h; exact h
    | cons a l ih => intro acc h; exact ih _ (insert_sorted a acc h)
  exact gen l [] List.Pairwise.nil

theorem insert_perm (a : Nat × Int) (l : List (Nat × Int)) : (insert a l).Perm (a :: l) := by
  induction l with
  | nil => exact List.Perm.refl _
  | cons b l ih =>
    unfold insert
    split
    · exact List.Perm.refl _
    · exact (List.Perm.cons b ih).trans (List.Perm.swap a b l)

theorem sort_perm (l : List (Nat × Int)) : (sort l).Perm l := by
  have gen : ∀ (l acc : List (Nat × Int)), (l.foldl (fun acc a => insert a acc) acc).Perm (acc ++ l) := by
    intro l
    induction l with
    | nil => intro acc; simp
    | cons a l ih =>
      intro acc
      refine (ih _).trans ?_
      have := (insert_perm a acc).append_right l
      refine this.trans ?_
      simpa using (List.perm_middle (a := a) (l₁ := acc) (l₂ := l)).symm
  simpa [sort] using gen l []

/-- C29. Sorting loses nothing: adding a function holds it beside the others, with any number of registrations of each. -/
theorem C29_append (s : State) (f : Nat) (p : Int) : (s.step (.append f p)).1.funcs.Perm ((f, p) :: s.funcs) := by
  refine (sort_perm _).trans ?_
  exact List.perm_append_comm

theorem step_sorted (s : State) (h : s.funcs.Pairwise fun a b => a.2 ≤ b.2) (op : Op) :
    (s.step op).1.funcs.Pairwise fun a b => a.2 ≤ b.2 := by
  have hc : s.cancelHandle.funcs = s.funcs := by unfold State.cancelHandle; split <;> rfl
  cases op with
  | fire t => simp only [State.step]; split <;> exact h
  | start => simp only [State.step]; split <;> exact h
  | next =>
    simp only [State.step]
    split
    · exact h
    · split <;> exact h
  | cancel =>
    simp only [State.step]; split
    · exact h
    · simp only; rw [hc]; exact h
  | callNow => simp only [State.step]; rw [hc]; exact h
  | reschedule => simp only [State.step, State.arm]; rw [hc]; exact h
  | append f p => exact sort_sorted _
  | remove f => exact h.sublist List.eraseP_sublist

/-- C29. At any time, whatever was done, the functions are held in ascending order of priority. -/
theorem C29_sorted (funcs : List (Nat × Int)) (ops : List Op) :
    ((State.init funcs).runAll ops).funcs.Pairwise fun a b => a.2 ≤ b.2 := by
  have gen : ∀ (ops : List Op) (s : State), (s.funcs.Pairwise fun a b => a.2 ≤ b.2) → (s.runAll ops).funcs.Pairwise fun a b => a.2 ≤ b.2 := by
    intro ops
    induction ops with
    | nil => intro s h; exact h
    | cons op ops ih => intro s h; exact ih _ (step_sorted s h op)
  exact gen ops _ (sort_sorted funcs)

/-- C29, for cycle functions that do not operate on the cycler: a cycle calls every function once, in the order they are held; then
the cycler is armed again, by one new timer. -/
theorem C29_cycle_partial (s : State) (i : Nat) (hr : s.runs = [i]) :
    calls (outs s (List.replicate (s.funcs.length - i + 1) .next)) = (s.funcs.drop i).map (·.1) ∧
    (s.runAll (List.replicate (s.funcs.length - i + 1) .next)).runs = [] ∧
    (s.runAll (List.replicate (s.funcs.length - i + 1) .next)).armed = s.armed ++ [s.next] := by
  have gen : ∀ (n i : Nat) (s : State), s.funcs.length - i = n → s.runs = [i] →
      calls (outs s (List.replicate (n + 1) .next)) = (s.funcs.drop i).map (·.1) ∧
      (s.runAll (List.replicate (n + 1) .next)).runs = [] ∧ (s.runAll (List.replicate (n + 1) .next)).armed = s.armed ++ [s.next] := by
    intro n
    induction n with
    | zero =>
      intro i s hn hr
      have h1 : s.funcs[i]? = none := List.getElem?_eq_none (by omega)
      have h2 : s.funcs.drop i = [] := List.drop_of_length_le (by omega)
      simp [outs, State.runAll, State.step, hr, h1, h2, calls, State.arm]
    | succ n ih =>
      intro i s hn hr
      have hi : i < s.funcs.length := by omega
      have h1 : s.funcs[i]? = some s.funcs[i] := List.getElem?_eq_getElem hi
      have hstep : s.step .next = ({ s with runs := [i + 1] }, .called s.funcs[i].1) := by
        simp only [State.step, hr, h1]
      have hd : s.funcs.drop i = s.funcs[i] :: s.funcs.drop (i + 1) := List.drop_eq_getElem_cons hi
      obtain ⟨a, b, c⟩ := ih (i + 1) { s with runs := [i + 1] } (by simp only; omega) rfl
      rw [List.replicate_succ]
      refine ⟨?_, ?_, ?_⟩
      · simp only [outs, hstep]
        rw [hd, List.map_cons]
        simp only at a
        rw [← a]
        rfl
      · show ((s.step .next).1.runAll _).runs = []
        rw [hstep]; exact b
      · show ((s.step .next).1.runAll _).armed = _
        rw [hstep]; exact c
  exact gen _ i s rfl hr

/-- Instance: two cycles, with a removal and an addition between. -/
example : calls (outs (.init [(7, 2), (8, 1)]) [.fire 0, .next, .next, .next, .remove 8, .append 9 0, .fire 1, .next, .next, .next]) = [8, 7, 9, 7] := by
  decide +kernel

/-! ### violations -/

/-- C29 does not hold: a cycle function cancels the cycler; it is armed again, and the next cycle runs. -/
theorem C29_cancel_inside_violated :
    let ops : List Op := [.fire 0, .next, .cancel, .next, .fire 1, .next]
    calls (outs (.init [(7, 0)]) ops) = [7, 7] := by decide +kernel

/-- C29 does not hold: a cycle function reschedules the cycler; two timers are armed. -/
theorem C29_two_timers_violated :
    ((State.init [(7, 0)]).runAll [.fire 0, .next, .reschedule, .next]).armed = [1, 2] := by decide +kernel

/-- The same with `call_now`. -/
theorem C29_call_now_inside_violated :
    ((State.init [(7, 0)]).runAll [.fire 0, .next, .callNow, .next, .next, .next]).armed = [1, 2] := by decide +kernel

/-- C29 does not hold for a cycler created by another thread: its handle is not the timer's, and cancelling has no effect before the
first cycle. -/
theorem C29_created_by_thread_violated :
    let ops : List Op := [.start, .cancel, .fire 0, .next]
    calls (outs (.initThread [(7, 0)]) ops) = [7] := by decide +kernel

/-- C29 does not hold: a cycle function adds two functions of lower priority value; the calls of the cycle are not ascending. -/
theorem C29_order_violated :
    let ops : List Op := [.fire 0, .next, .append 1 1, .append 2 2, .next]
    calls (outs (.init [(5, 5)]) ops) = [5, 2] := by decide +kernel

/-- A cycle function that removes itself makes the cycle skip the next one. -/
theorem C29_skipped_violated :
    let ops : List Op := [.fire 0, .next, .remove 7, .next]
    calls (outs (.init [(7, 0), (8, 0)]) ops) = [7] ∧ ((State.init [(7, 0), (8, 0)]).runAll ops).runs = [] := by decide +kernel

end Verif.Cycler
