import Verif.CrossThread.Orderly
/-! Theorems about waiting for a future from other threads. -/
namespace Verif.CrossThread

/-! ## Specification -/

/-- Nothing happens any more: the loop sleeps, no setting thread is under way, and a waiting thread is finished, has not begun, or is blocked with its event not set. -/
structure Quiescent (s : State) : Prop where
  loop : s.asleep = true ∧ s.pending = false
  setters : ∀ j, s.setter j = .start ∨ s.setter j = .finished ∨ s.setter j = .refused ∨ s.setter j = .indexError
  waiters : ∀ i, s.waiter i = .start ∨ (∃ r, s.waiter i = .finished r) ∨ (s.waiter i = .blocked ∧ s.event i = false)

/-! ## Threads which do not run -/

theorem stepWaiter_frame (s : State) (i : Nat) (pc : WPc) : (s.stepWaiter i pc).setter = s.setter ∧
    ∀ k, k ≠ i → (s.stepWaiter i pc).waiter k = s.waiter k := by
  have hg : ∀ (t : State) (p : WPc), t.setter = s.setter → t.waiter = s.waiter → (t.goto i p).setter = s.setter ∧ ∀ k, k ≠ i → (t.goto i p).waiter k = s.waiter k := by
    intro t p h1 h2
    refine ⟨h1, fun k hk => ?_⟩
    simp only [State.goto, upd_ne _ _ hk, h2]
  have h0 : s.setter = s.setter ∧ ∀ k, k ≠ i → s.waiter k = s.waiter k := ⟨rfl, fun _ _ => rfl⟩
  cases pc with
  | remove k =>
    cases k with
    | zero => exact hg _ _ rfl rfl
    | succ k => simp only [State.stepWaiter]; split <;> exact hg _ _ rfl rfl
  | delete k => simp only [State.stepWaiter]; split <;> exact hg _ _ rfl rfl
  | blocked =>
    simp only [State.stepWaiter]
    split
    · exact hg _ _ rfl rfl
    · exact h0
  | finished r => exact h0
  | start => exact hg _ _ rfl rfl
  | getResult => exact hg _ _ rfl rfl
  | addCheck => exact hg _ _ rfl rfl
  | append => exact hg _ _ rfl rfl
  | pushReady => exact hg _ _ rfl rfl
  | wake => exact hg _ _ rfl rfl
  | removeLen => exact hg _ _ rfl rfl

theorem stepSetter_frame (call : Call) (s : State) (j : Nat) (pc : SPc) : (s.stepSetter call j pc).waiter = s.waiter ∧
    (s.stepSetter call j pc).event = s.event ∧
    ∀ k, k ≠ j → (s.stepSetter call j pc).setter k = s.setter k := by
  have hg : ∀ (t : State) (p : SPc), t.waiter = s.waiter → t.event = s.event → t.setter = s.setter → (t.sgoto j p).waiter = s.waiter ∧ (t.sgoto j p).event = s.event ∧
      ∀ k, k ≠ j → (t.sgoto j p).setter k = s.setter k := by
    intro t p h1 h2 h3
    refine ⟨h1, h2, fun k hk => ?_⟩
    simp only [State.sgoto, upd_ne _ _ hk, h3]
  have h0 : s.waiter = s.waiter ∧ s.event = s.event ∧ ∀ k, k ≠ j → s.setter k = s.setter k := ⟨rfl, rfl, fun _ _ => rfl⟩
  cases pc with
  | start =>
    simp only [State.stepSetter]
    split
    · exact hg _ _ rfl rfl rfl
    · split <;> exact hg _ _ rfl rfl rfl
  | store w => exact hg _ _ rfl rfl rfl
  | mark w => exact hg _ _ rfl rfl rfl
  | sched a => simp only [State.stepSetter]; split <;> exact hg _ _ rfl rfl rfl
  | pop a => simp only [State.stepSetter]; split <;> exact hg _ _ rfl rfl rfl
  | push a i => exact hg _ _ rfl rfl rfl
  | cancelMark w => exact hg _ _ rfl rfl rfl
  | wake => exact hg _ _ rfl rfl rfl
  | finished => exact h0
  | refused => exact h0
  | indexError => exact h0

theorem step_frame (calls : Nat → Call) (s : State) (op : Op) (i : Nat) :
    (op ≠ .waiter i → op ≠ .timeout i → (s.step calls op).waiter i = s.waiter i) ∧
    (op ≠ .setter i → (s.step calls op).setter i = s.setter i) := by
  cases op with
  | waiter k =>
    have := stepWaiter_frame s k (s.waiter k)
    exact ⟨fun h _ => this.2 i (fun he => h (by rw [he])), fun _ => by simp only [State.step]; rw [this.1]⟩
  | timeout k =>
    refine ⟨fun _ h => ?_, fun _ => ?_⟩
    · have hik : i ≠ k := fun he => h (by rw [he])
      simp only [State.step]
      split
      · split
        · rfl
        · simp only [State.goto, upd_ne _ _ hik]
      · rfl
    · simp only [State.step]
      split
      · split <;> rfl
      · rfl
  | setter k =>
    have := stepSetter_frame (calls k) s k (s.setter k)
    refine ⟨fun _ _ => ?_, fun h => this.2.2 i (fun he => h (by rw [he]))⟩
    simp only [State.step]
    rw [this.1]
  | loop =>
    simp only [State.step, State.stepLoop]
    split
    · split <;> exact ⟨fun _ _ => rfl, fun _ => rfl⟩
    · split <;> exact ⟨fun _ _ => rfl, fun _ => rfl⟩

/-- Threads which never run are at their start. -/
theorem idle (calls : Nat → Call) (ops : List Op) (i : Nat) : ∀ s : State,
    ((∀ op ∈ ops, op ≠ .waiter i ∧ op ≠ .timeout i) → (s.run calls ops).waiter i = s.waiter i) ∧
    ((∀ op ∈ ops, op ≠ .setter i) → (s.run calls ops).setter i = s.setter i) := by
  induction ops with
  | nil => intro s; exact ⟨fun _ => rfl, fun _ => rfl⟩
  | cons op ops ih =>
    intro s
    constructor
    · intro h
      rw [State.run, (ih _).1 (fun o ho => h o (List.mem_cons_of_mem _ ho))]
      exact (step_frame calls s op i).1 (h op (List.mem_cons_self ..)).1 (h op (List.mem_cons_self ..)).2
    · intro h
      rw [State.run, (ih _).2 (fun o ho => h o (List.mem_cons_of_mem _ ho))]
      exact (step_frame calls s op i).2 (h op (List.mem_cons_self ..))

/-- Only threads below `n` occur. -/
def Op.below (n : Nat) : Op → Bool
  | .waiter i => i < n
  | .timeout i => i < n
  | .setter j => j < n
  | .loop => true

theorem idle_beyond (calls : Nat → Call) (ops : List Op) (n : Nat) (h : ops.all (Op.below n) = true) (i : Nat) (hi : n ≤ i) :
    ((({} : State).run calls ops).waiter i = .start) ∧ ((({} : State).run calls ops).setter i = .start) := by
  have hm : ∀ op ∈ ops, Op.below n op = true := List.all_eq_true.1 h
  constructor
  · refine (idle calls ops i {}).1 (fun op ho => ⟨?_, ?_⟩)
    · intro he; have := hm op ho; rw [he] at this; simp [Op.below] at this; omega
    · intro he; have := hm op ho; rw [he] at this; simp [Op.below] at this; omega
  · refine (idle calls ops i {}).2 (fun op ho => ?_)
    intro he; have := hm op ho; rw [he] at this; simp [Op.below] at this; omega

/-- `Quiescent`, looking at the threads below `n` only. -/
def settled (n : Nat) (s : State) : Bool :=
  s.asleep && !s.pending &&
    (List.range n).all (fun j => s.setter j = .start || s.setter j = .finished || s.setter j = .refused || s.setter j = .indexError) &&
    (List.range n).all (fun i => s.waiter i = .start || (match s.waiter i with | .finished _ => true | _ => false) || (s.waiter i = .blocked && !s.event i))

theorem quiescent_of (calls : Nat → Call) (ops : List Op) (n : Nat) (h : ops.all (Op.below n) = true)
    (hs : settled n (({} : State).run calls ops) = true) : Quiescent (({} : State).run calls ops) := by
  have hid := idle_beyond calls ops n h
  generalize ({} : State).run calls ops = s at hs hid
  simp only [settled, Bool.and_eq_true, List.all_eq_true, List.mem_range, Bool.or_eq_true, decide_eq_true_eq, Bool.not_eq_true'] at hs
  refine ⟨hs.1.1, fun j => ?_, fun i => ?_⟩
  · by_cases hj : j < n
    · rcases hs.1.2 j hj with ((h1 | h1) | h1) | h1
      · exact Or.inl h1
      · exact Or.inr (Or.inl h1)
      · exact Or.inr (Or.inr (Or.inl h1))
      · exact Or.inr (Or.inr (Or.inr h1))
    · exact Or.inl (hid j (by omega)).2
  · by_cases hi : i < n
    · rcases hs.2 i hi with (h1 | h1) | h1
      · exact Or.inl h1
      · split at h1
        · rename_i r hr; exact Or.inr (Or.inl ⟨r, hr⟩)
        · cases h1
      · exact Or.inr (Or.inr h1)
    · exact Or.inl (hid i (by omega)).1

/-- `Orderly`, looking at the threads below `n` only. -/
def orderly (n : Nat) (calls : Nat → Call) (s : State) : List Op → Bool
  | [] => true
  | op :: ops =>
    (List.range n).all (fun i => (!(s.waiter i).critical || op = .waiter i) && (!(s.setter i).critical || op = .setter i)) &&
      orderly n calls (s.step calls op) ops

theorem orderly_of (n : Nat) (calls : Nat → Call) (ops : List Op) : ∀ s : State, ops.all (Op.below n) = true →
    (∀ i, n ≤ i → s.waiter i = .start ∧ s.setter i = .start) → orderly n calls s ops = true → Orderly calls s ops := by
  induction ops with
  | nil => intro s _ _ _; exact True.intro
  | cons op ops ih =>
    intro s hb hi ho
    simp only [List.all_cons, Bool.and_eq_true] at hb
    simp only [orderly, Bool.and_eq_true, List.all_eq_true, List.mem_range, Bool.or_eq_true, Bool.not_eq_true', decide_eq_true_eq] at ho
    refine ⟨fun i hc => ?_, fun i hc => ?_, ih _ hb.2 (fun i hn => ?_) ho.2⟩
    · by_cases hn : i < n
      · rcases (ho.1 i hn).1 with h | h
        · rw [h] at hc; cases hc
        · exact h
      · rw [(hi i (by omega)).1] at hc; cases hc
    · by_cases hn : i < n
      · rcases (ho.1 i hn).2 with h | h
        · rw [h] at hc; cases hc
        · exact h
      · rw [(hi i (by omega)).2] at hc; cases hc
    · have hf := step_frame calls s op i
      have hne : op ≠ .waiter i ∧ op ≠ .timeout i ∧ op ≠ .setter i := by
        refine ⟨?_, ?_, ?_⟩ <;> (intro he; have := hb.1; rw [he] at this; simp [Op.below] at this; omega)
      rw [hf.1 hne.1 hne.2.1, hf.2 hne.2.2]
      exact hi i hn

/-! ## C149: the outcome -/

/-- In orderly runs a wait reports the outcome of the thread which was the first to begin, unless it times out. -/
theorem C149_outcome_partial (calls : Nat → Call) (ops : List Op) (ho : Orderly calls {} ops) (i : Nat) (r : Report)
    (h : (({} : State).run calls ops).waiter i = .finished r) (ht : r ≠ .timeoutError) :
    ∃ j, firstSetter ops = some j ∧ r = (calls j).outcome := by
  rcases (run_good ops (good_init calls) ho).reports i r h with hr | ⟨j, hj, _, hr⟩
  · exact absurd hr ht
  · exact ⟨j, hj, hr⟩

/-- A thread waits, another sets 7, a third wants to cancel then; the wait reports 7. -/
def exampleRun : List Op :=
  [.waiter 0, .waiter 0, .waiter 0, .waiter 0, .setter 0, .setter 0, .setter 0, .setter 1, .setter 0, .setter 0, .waiter 1, .setter 0, .setter 0, .setter 0, .loop,
    .loop, .loop, .waiter 0, .waiter 0, .waiter 1]
def exampleCalls (j : Nat) : Call := if j = 0 then .setResult 7 else .cancel

example : (({} : State).run exampleCalls exampleRun).waiter 0 = .finished (.value 7) := by decide +kernel
example : (({} : State).run exampleCalls exampleRun).setter 1 = .refused := by decide +kernel
example : Orderly exampleCalls {} exampleRun := orderly_of 2 _ _ _ (by decide) (fun _ _ => ⟨rfl, rfl⟩) (by decide +kernel)
example : Quiescent (({} : State).run exampleCalls exampleRun) := quiescent_of _ _ 2 (by decide) (by decide +kernel)

/-- Violated: `cancel` schedules the callbacks before it writes the state. If the loop runs the callback in between, the wait ends with `InvalidStateError`
(and the future is pending still). One waiting and one cancelling thread are enough. -/
theorem C149_invalid_state_violated :
    let s := ({} : State).run (fun _ => .cancel)
      [.waiter 0, .waiter 0, .waiter 0, .waiter 0, .setter 0, .setter 0, .setter 0, .setter 0, .loop, .loop, .waiter 0, .waiter 0]
    s.waiter 0 = .finished .invalidStateError ∧ s.word = {} := by decide

/-- Violated: two threads set different results; both pass the check, and two waits report different results. -/
theorem C149_two_outcomes_violated (v w : Nat) :
    let calls := fun j => if j = 0 then Call.setResult v else .setResult w
    let s := ({} : State).run calls
      [.setter 0, .setter 1, .setter 0, .setter 0, .waiter 0, .waiter 0, .setter 1, .setter 1, .waiter 1, .waiter 1,
        .setter 0, .setter 0, .setter 1, .setter 1]
    s.waiter 0 = .finished (.value v) ∧ s.waiter 1 = .finished (.value w) ∧ s.setter 0 = .finished ∧ s.setter 1 = .finished :=
  ⟨rfl, rfl, rfl, rfl⟩

/-- Violated: `set_result` and `set_exception` at the same time; the exception is returned as if it were the result. -/
theorem C149_confused_violated (v e : Nat) :
    let calls := fun j => if j = 0 then Call.setResult v else .setException e
    let s := ({} : State).run calls [.setter 0, .setter 1, .setter 0, .setter 1, .setter 0, .waiter 0, .waiter 0]
    s.waiter 0 = .finished (.value e) := rfl

/-- Only `set_result` and `set_exception` come to writing the state before the callbacks are scheduled. -/
def Sorted (calls : Nat → Call) (s : State) : Prop := ∀ j w, s.setter j = .store w ∨ s.setter j = .mark w → calls j ≠ .cancel

theorem step_sorted {calls : Nat → Call} {s : State} (h : Sorted calls s) (op : Op) : Sorted calls (s.step calls op) := by
  intro j w hj
  by_cases ho : op = .setter j
  · subst ho
    have hj' : ((s.stepSetter (calls j) j (s.setter j)).setter j = .store w ∨ (s.stepSetter (calls j) j (s.setter j)).setter j = .mark w) := hj
    cases hpc : s.setter j with
    | start =>
      rw [hpc] at hj'
      simp only [State.stepSetter] at hj'
      intro hc
      rw [hc] at hj'
      split at hj' <;> (simp only [State.sgoto, upd_same] at hj'; rcases hj' with hj' | hj' <;> cases hj')
    | store w' => exact h j w' (Or.inl hpc)
    | mark w' => exact h j w' (Or.inr hpc)
    | sched a =>
      rw [hpc] at hj'
      simp only [State.stepSetter] at hj'
      split at hj'
      · simp only [State.sgoto, upd_same] at hj'; cases a <;> rcases hj' with hj' | hj' <;> cases hj'
      · simp only [State.sgoto, upd_same] at hj'; rcases hj' with hj' | hj' <;> cases hj'
    | pop a =>
      rw [hpc] at hj'
      simp only [State.stepSetter] at hj'
      split at hj' <;> (simp only [State.sgoto, upd_same] at hj'; rcases hj' with hj' | hj' <;> cases hj')
    | push a i => rw [hpc] at hj'; simp only [State.stepSetter, State.sgoto, upd_same] at hj'; rcases hj' with hj' | hj' <;> cases hj'
    | cancelMark a => rw [hpc] at hj'; simp only [State.stepSetter, State.sgoto, upd_same] at hj'; rcases hj' with hj' | hj' <;> cases hj'
    | wake => rw [hpc] at hj'; simp only [State.stepSetter, State.sgoto, upd_same] at hj'; rcases hj' with hj' | hj' <;> cases hj'
    | finished => rw [hpc] at hj'; simp only [State.stepSetter] at hj'; rw [hpc] at hj'; rcases hj' with hj' | hj' <;> cases hj'
    | refused => rw [hpc] at hj'; simp only [State.stepSetter] at hj'; rw [hpc] at hj'; rcases hj' with hj' | hj' <;> cases hj'
    | indexError => rw [hpc] at hj'; simp only [State.stepSetter] at hj'; rw [hpc] at hj'; rcases hj' with hj' | hj' <;> cases hj'
  · rw [(step_frame calls s op j).2 ho] at hj
    exact h j w hj

theorem step_done {calls : Nat → Call} {s : State} (h : Sorted calls s) (hd : s.word.done = true) (op : Op) : (s.step calls op).word.done = true := by
  cases op with
  | waiter i =>
    simp only [State.step]
    cases s.waiter i with
    | blocked => simp only [State.stepWaiter]; split <;> exact hd
    | remove k =>
      cases k with
      | zero => exact hd
      | succ k => simp only [State.stepWaiter]; split <;> exact hd
    | delete k => simp only [State.stepWaiter]; split <;> exact hd
    | _ => exact hd
  | timeout i =>
    simp only [State.step]
    split
    · split <;> exact hd
    · exact hd
  | setter j =>
    simp only [State.step]
    cases hpc : s.setter j with
    | start => simp only [State.stepSetter]; rw [if_pos hd]; exact hd
    | store w => exact hd
    | mark w =>
      have := h j w (Or.inr hpc)
      cases hc : calls j with
      | cancel => exact absurd hc this
      | setResult v => simp [State.stepSetter, State.sgoto, Word.done]
      | setException v => simp [State.stepSetter, State.sgoto, Word.done]
    | sched a => simp only [State.stepSetter]; split <;> exact hd
    | pop a => simp only [State.stepSetter]; split <;> exact hd
    | cancelMark w => simp [State.stepSetter, State.sgoto, Word.done]
    | _ => exact hd
  | loop =>
    simp only [State.step, State.stepLoop]
    split
    · split <;> exact hd
    · split <;> exact hd

/-- In all runs: a future which is done stays so. -/
theorem C149_done_stays (calls : Nat → Call) (ops later : List Op) (h : (({} : State).run calls ops).word.done = true) :
    (({} : State).run calls (ops ++ later)).word.done = true := by
  have hs : Sorted calls (({} : State).run calls ops) := by
    have : ∀ (ops : List Op) (s : State), Sorted calls s → Sorted calls (s.run calls ops) := by
      intro ops
      induction ops with
      | nil => intro s h; exact h
      | cons op ops ih => intro s h; exact ih _ (step_sorted h op)
    exact this ops {} (by intro j w hj; rcases hj with hj | hj <;> cases hj)
  rw [run_append]
  generalize ({} : State).run calls ops = s at h hs
  induction later generalizing s with
  | nil => exact h
  | cons op later ih => exact ih _ (step_done hs h op) (step_sorted hs op)

/-! ## C150: no wake up is lost -/

/-- In orderly runs, when nothing happens any more and the future is done, no thread is blocked. -/
theorem C150_no_lost_wakeup_partial (calls : Nat → Call) (ops : List Op) (ho : Orderly calls {} ops)
    (hq : Quiescent (({} : State).run calls ops)) (hd : (({} : State).run calls ops).word.done = true) (i : Nat) :
    (({} : State).run calls ops).waiter i ≠ .blocked := by
  have hg := run_good ops (good_init calls) ho
  generalize ({} : State).run calls ops = s at hq hd hg
  intro hb
  have he : s.event i = false := by
    rcases hq.waiters i with h | ⟨r, h⟩ | h
    · rw [hb] at h; cases h
    · rw [hb] at h; cases h
    · exact h.2
  have hsp : ∀ j, (s.setter j).waking = false ∧ ∀ a x, s.setter j ≠ .push a x := by
    intro j
    rcases hq.setters j with h | h | h | h <;> (rw [h]; exact ⟨rfl, nofun⟩)
  rcases hg.kept i (Or.inr hb) he with hm | hm | ⟨j, a, hm⟩
  · obtain ⟨j, _, hj⟩ := hg.drained hd (List.ne_nil_of_mem hm)
    have := (hsp j).1
    rcases hj with hj | hj | ⟨x, hj⟩ <;> (rw [hj] at this; cases this)
  · rcases hg.woken (List.ne_nil_of_mem hm) with hw | hw | ⟨j, hw⟩ | ⟨k, hw⟩
    · rw [hq.loop.1] at hw; cases hw
    · rw [hq.loop.2] at hw; cases hw
    · rw [(hsp j).1] at hw; cases hw
    · rcases hq.waiters k with h | ⟨r, h⟩ | h
      · rw [hw] at h; cases h
      · rw [hw] at h; cases h
      · rw [hw] at h; cases h.1
  · exact (hsp j).2 a i hm

/-- Violated: the future is completed between the check and the `append` of `add_done_callback`. Everything is finished, but the thread waits for ever. -/
theorem C150_add_violated :
    let s := ({} : State).run (fun _ => .setResult 7)
      [.waiter 0, .waiter 0, .setter 0, .setter 0, .setter 0, .setter 0, .setter 0, .waiter 0, .waiter 0, .loop, .loop, .loop, .loop]
    Quiescent s ∧ s.word.done = true ∧ s.waiter 0 = .blocked := by
  exact ⟨quiescent_of _ _ 1 (by decide) (by decide +kernel), by decide +kernel⟩

/-- Violated, even if `add_done_callback` is not interrupted: `cancel` has scheduled the callbacks but not yet written the state. -/
theorem C150_cancel_violated :
    let s := ({} : State).run (fun _ => .cancel)
      [.setter 0, .setter 0, .waiter 0, .waiter 0, .waiter 0, .setter 0, .setter 0, .waiter 0, .loop, .loop, .loop, .loop]
    Quiescent s ∧ s.word.done = true ∧ s.waiter 0 = .blocked := by
  exact ⟨quiescent_of _ _ 1 (by decide) (by decide +kernel), by decide +kernel⟩

/-- Violated: two waits time out at the same time; between comparing and deleting the positions change, and the callback of a third thread is deleted, which then waits
for ever. Nobody sets or cancels meanwhile. -/
theorem C150_remove_violated :
    let ops : List Op := [.waiter 0, .waiter 0, .waiter 0, .waiter 0, .waiter 1, .waiter 1, .waiter 1, .waiter 1, .waiter 2, .waiter 2, .waiter 2, .waiter 2,
      .timeout 1, .waiter 1, .waiter 1, .waiter 1,
      .timeout 0, .waiter 0, .waiter 0, .waiter 0, .waiter 0, .waiter 0, .waiter 0,
      .waiter 1, .waiter 1, .waiter 1, .waiter 1,
      .setter 0, .setter 0, .setter 0, .setter 0, .setter 0, .loop, .loop, .loop, .loop]
    let s := ({} : State).run (fun _ => .setResult 7) ops
    Quiescent s ∧ s.word.done = true ∧ s.waiter 0 = .finished .timeoutError ∧ s.waiter 1 = .finished .timeoutError ∧ s.waiter 2 = .blocked := by
  exact ⟨quiescent_of _ _ 3 (by decide) (by decide +kernel), by decide +kernel⟩

/-! ## C151: timeouts -/

/-- In all runs: a wait which has timed out leaves no callback behind. -/
theorem C151_no_callback_left (calls : Nat → Call) (ops : List Op) (i : Nat)
    (h : (({} : State).run calls ops).waiter i = .finished .timeoutError) : i ∉ (({} : State).run calls ops).callbacks :=
  (run_scan ops scan_init).timedOut i h

/-- It is within `remove_done_callback`. -/
def WPc.leaving : WPc → Bool
  | .removeLen => true
  | .remove _ => true
  | .delete _ => true
  | .finished .timeoutError => true
  | .finished .indexError => true
  | _ => false

theorem step_leaving (calls : Nat → Call) (s : State) (op : Op) (i : Nat) (h : ((s.step calls op).waiter i).leaving = true) :
    (s.waiter i).leaving = true ∨ (op = .timeout i ∧ s.waiter i = .blocked ∧ s.event i = false) := by
  by_cases h1 : op = .waiter i
  · subst h1
    left
    simp only [State.step] at h
    cases hpc : s.waiter i with
    | removeLen => rfl
    | remove k => rfl
    | delete k => rfl
    | finished r => rw [hpc] at h; simp only [State.stepWaiter] at h; rw [hpc] at h; exact h
    | blocked =>
      rw [hpc] at h
      simp only [State.stepWaiter] at h
      split at h
      · simp only [State.goto, upd_same] at h; cases h
      · rw [hpc] at h; exact h
    | start => rw [hpc] at h; simp only [State.stepWaiter, State.goto, upd_same] at h; split at h <;> cases h
    | addCheck => rw [hpc] at h; simp only [State.stepWaiter, State.goto, upd_same] at h; split at h <;> cases h
    | getResult =>
      rw [hpc] at h; simp only [State.stepWaiter, State.goto, upd_same, State.getResult] at h
      split at h
      · cases h
      · split at h
        · cases h
        · split at h <;> cases h
    | append => rw [hpc] at h; simp only [State.stepWaiter, State.goto, upd_same] at h; cases h
    | pushReady => rw [hpc] at h; simp only [State.stepWaiter, State.goto, upd_same] at h; cases h
    | wake => rw [hpc] at h; simp only [State.stepWaiter, State.goto, upd_same] at h; cases h
  · by_cases h2 : op = .timeout i
    · subst h2
      simp only [State.step] at h
      split at h
      · rename_i hpc
        split at h
        · exact Or.inl h
        · rename_i he
          exact Or.inr ⟨rfl, hpc, by simpa using he⟩
      · exact Or.inl h
    · left
      rw [(step_frame calls s op i).1 h1 h2] at h
      exact h

/-- In all runs: `TimeoutError` is raised only by a thread whose timeout was over while it was blocked and the loop had not run its callback. -/
theorem C151_timed_out_partial (calls : Nat → Call) (ops : List Op) (i : Nat)
    (h : (({} : State).run calls ops).waiter i = .finished .timeoutError) :
    ∃ pre post, ops = pre ++ .timeout i :: post ∧ (({} : State).run calls pre).waiter i = .blocked ∧ (({} : State).run calls pre).event i = false := by
  have key : ∀ (ops : List Op) (s : State), ((s.run calls ops).waiter i).leaving = true → (s.waiter i).leaving = false →
      ∃ pre post, ops = pre ++ .timeout i :: post ∧ (s.run calls pre).waiter i = .blocked ∧ (s.run calls pre).event i = false := by
    intro ops
    induction ops with
    | nil => intro s h1 h2; simp only [State.run] at h1; rw [h1] at h2; cases h2
    | cons op ops ih =>
      intro s h1 h2
      cases hl : ((s.step calls op).waiter i).leaving with
      | true =>
        rcases step_leaving calls s op i hl with h3 | ⟨h3, h4, h5⟩
        · rw [h3] at h2; cases h2
        · exact ⟨[], ops, by rw [h3]; rfl, h4, h5⟩
      | false =>
        obtain ⟨pre, post, he, hb, hev⟩ := ih _ h1 hl
        exact ⟨op :: pre, post, by rw [he]; rfl, hb, hev⟩
  exact key ops {} (by rw [h]; rfl) rfl

example : (({} : State).run (fun _ => .cancel) [.waiter 0, .waiter 0, .waiter 0, .waiter 0, .timeout 0, .waiter 0, .waiter 0, .waiter 0, .waiter 0]).waiter 0 =
    .finished .timeoutError := by decide

/-- Violated: `TimeoutError` although the future was done before the timeout was over, because the loop has not run the callback yet. The result is not looked for. -/
theorem C151_violated :
    let before := [.waiter 0, .waiter 0, .waiter 0, .waiter 0, .setter 0, .setter 0, .setter 0, .setter 0, .setter 0, .setter 0, .setter 0, .setter 0]
    let after := [.timeout 0, .waiter 0, .waiter 0, .waiter 0]
    let s := ({} : State).run (fun _ => .setResult 7) before
    s.word.done = true ∧ s.setter 0 = .finished ∧ (s.run (fun _ => .setResult 7) after).waiter 0 = .finished .timeoutError := by decide +kernel

/-! ## C152: no IndexError -/

/-- In orderly runs neither a wait nor a setting thread fails with `IndexError`. -/
theorem C152_no_index_error_partial (calls : Nat → Call) (ops : List Op) (ho : Orderly calls {} ops) (i : Nat) :
    (({} : State).run calls ops).waiter i ≠ .finished .indexError ∧ (({} : State).run calls ops).setter i ≠ .indexError := by
  have hg := run_good ops (good_init calls) ho
  generalize ({} : State).run calls ops = s at hg
  constructor
  · intro h
    rcases hg.reports i _ h with hr | ⟨j, _, _, hr⟩
    · cases hr
    · cases hc : calls j <;> (rw [hc] at hr; cases hr)
  · intro h
    by_cases hc : (none : Option Nat).or (firstSetter ops) = some i
    · have := hg.phase i hc
      rw [h] at this
      exact this
    · rcases hg.others i hc with ho | ho
      · rw [h] at ho; cases ho
      · rw [h] at ho; cases ho.1

/-- Violated: a wait times out while the future is completed: it raises `IndexError` instead of `TimeoutError`. -/
theorem C152_wait_violated (v : Nat) :
    (({} : State).run (fun _ => .setResult v)
      [.waiter 0, .waiter 0, .waiter 0, .waiter 0, .setter 0, .setter 0, .setter 0, .setter 0, .timeout 0, .waiter 0, .setter 0, .waiter 0]).waiter 0 =
      .finished .indexError := rfl

/-- Violated: the same the other way round: `set_result` raises `IndexError`, before it has scheduled the rest and woken the loop. -/
theorem C152_set_violated (v : Nat) :
    (({} : State).run (fun _ => .setResult v)
      [.waiter 0, .waiter 0, .waiter 0, .waiter 0, .setter 0, .setter 0, .setter 0, .setter 0, .timeout 0, .waiter 0, .waiter 0, .waiter 0, .setter 0]).setter 0 =
      .indexError := rfl

end Verif.CrossThread
