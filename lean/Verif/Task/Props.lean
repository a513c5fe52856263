import Verif.Task.Model
/-! Property theorems C13 (and C11 for tasks). -/
namespace Verif.Task
open Verif.Future (Flags ExcArg)
variable {α ε : Type}

/-! ## Vocabulary -/

/-- The coroutine meets a cancellation: `CancelledError` is thrown in, or raised by its `await`. -/
def Seen.isCancellation : Seen α ε → Bool
  | .thrown => true
  | .awaited .cancelled => true
  | _ => false

/-- A task after some history. -/
def After (ops : List (Op α ε)) : Task α ε := (({} : Task α ε).run ops).1

/-- The coroutine is suspended in `await future.wait_for_completion()` of a pending future. -/
def AwaitsCompletion (t : Task α ε) : Prop := t.waited = some (.completion, none)

/-- The future the task waits on is done already, but the task did not run yet. -/
def AwaitedDone (t : Task α ε) : Prop := ∃ m o, t.waited = some (m, some o)

def Op.isRun : Op α ε → Bool
  | .run _ _ => true
  | _ => false

/-! ## Invariant -/

def Inv (t : Task α ε) : Prop :=
  t.state.destroyed = false ∧
  (t.state.ret = true → ∃ v, t.result = .value v) ∧
  (t.state.ret = false → t.state.raise_ = true → ∃ e, t.result = .exception e) ∧
  (t.state.done = false → ∀ v, t.result ≠ .value v) ∧
  (t.state.done = true → t.queue = [] ∧ t.waited = none) ∧
  (t.state.done = false →
    (t.waited = none ∧ t.queue = [.step]) ∨ (∃ m, t.waited = some (m, none) ∧ t.queue = []) ∨
    (∃ m o, t.waited = some (m, some o) ∧ t.queue = [.wakeUp]))

/-- The state in which the coroutine runs. -/
def Running (t : Task α ε) : Prop :=
  t.state.done = false ∧ t.waited = none ∧ t.queue = [] ∧ ∀ v, t.result ≠ .value v

theorem call_running (t : Task α ε) (h : Running t) (c : Call ε) : Running (t.call c).1 := by
  obtain ⟨h1, h2, h3, h4⟩ := h
  obtain ⟨st, result, waited, queue⟩ := t
  simp only at h1 h2 h3 h4
  subst h2; subst h3
  cases c with
  | cancel => simpa [Task.call, Running, Task.cancelWaited, h1] using ⟨by simpa [Flags.done] using h1, h4⟩
  | cancelWith e =>
    cases e
    · simpa [Task.call, Running, Task.cancelWaited, h1] using by simpa [Flags.done] using h1
    · simpa [Task.call, Running, Task.cancelWaited, h1] using h4

theorem calls_running (cs : List (Call ε)) : ∀ t : Task α ε, Running t → Running (cs.foldl (fun t c => (t.call c).1) t) := by
  induction cs with
  | nil => intro t h; exact h
  | cons c cs ih => intro t h; exact ih _ (call_running t h c)

theorem finish_inv (t : Task α ε) (h : Running t) (fin : Finish α ε) : Inv (t.finish fin) := by
  obtain ⟨⟨r, ra, rr, cs, ca, de, si⟩, result, waited, queue⟩ := t
  obtain ⟨h1, h2, h3, h4⟩ := h
  simp only [Flags.done, Bool.or_eq_false_iff] at h1 h2 h3 h4
  obtain ⟨⟨⟨rfl, rfl⟩, rfl⟩, rfl⟩ := h1
  subst h2; subst h3
  cases fin with
  | returns v => cases cs <;> cases result <;> simp_all [Task.finish, Inv, Flags.done, Stored.isNone]
  | raises e => cases e <;> cases result <;> simp_all [Task.finish, Inv, Flags.done, Stored.isNone]
  | awaits m o => cases cs <;> cases o <;> simp_all [Task.finish, Inv, Flags.done, Task.cancelWaited]
  | yields => simp_all [Task.finish, Inv, Flags.done]

theorem call_inv (t : Task α ε) (h : Inv t) (c : Call ε) : Inv (t.call c).1 := by
  obtain ⟨⟨r, ra, rr, cs, ca, de, si⟩, result, waited, queue⟩ := t
  obtain ⟨h0, h1, h2, h3, h4, h5⟩ := h
  simp only [Flags.done] at h0 h1 h2 h3 h4 h5
  subst h0
  cases hd : (Flags.mk r ra rr cs ca false si).done with
  | true =>
    simp only [Flags.done] at hd
    cases c with
    | cancel => simp [Task.call, Inv, Flags.done, hd]; simp_all
    | cancelWith e => simp [Task.call, Inv, Flags.done, hd]; simp_all
  | false =>
    simp only [Flags.done, Bool.or_eq_false_iff] at hd
    obtain ⟨⟨⟨rfl, rfl⟩, rfl⟩, _⟩ := hd
    rcases h5 rfl with ⟨rfl, rfl⟩ | ⟨m, rfl, rfl⟩ | ⟨m, o, rfl, rfl⟩ <;> cases c
    all_goals try (rename_i e; cases e)
    all_goals simp_all [Task.call, Inv, Flags.done, Task.cancelWaited]

theorem step_inv (t : Task α ε) (h : Inv t) (op : Op α ε) : Inv (t.step op).1 := by
  cases op with
  | call c => exact call_inv t h c
  | completeAwaited o =>
    obtain ⟨h0, h1, h2, h3, h4, h5⟩ := h
    simp only [Task.step]
    split
    case h_2 => exact ⟨h0, h1, h2, h3, h4, h5⟩
    case h_1 m heq =>
      refine ⟨h0, h1, h2, h3, ?_, ?_⟩
      · intro hd; have := (h4 hd).2; rw [heq] at this; simp at this
      · intro hd
        rcases h5 hd with ⟨a, b⟩ | ⟨m', a, b⟩ | ⟨m', o', a, b⟩
        · rw [heq] at a; simp at a
        · simp [b]
        · rw [heq] at a; simp at a
  | run calls fin =>
    obtain ⟨h0, h1, h2, h3, h4, h5⟩ := h
    simp only [Task.step]
    split
    case h_1 => exact ⟨h0, h1, h2, h3, h4, h5⟩
    case h_2 hd queue heq =>
      have hnd : t.state.done = false := by
        cases hdn : t.state.done with
        | false => rfl
        | true => have := (h4 hdn).1; rw [heq] at this; simp at this
      have hq : queue = [] := by
        rcases h5 hnd with ⟨a, b⟩ | ⟨m', a, b⟩ | ⟨m', o', a, b⟩ <;> rw [heq] at b <;> simp_all
      unfold Task.stepBody
      have hw : hd = .step → t.waited = none := by
        intro hh
        rcases h5 hnd with ⟨a, b⟩ | ⟨m', a, b⟩ | ⟨m', o', a, b⟩ <;> rw [heq] at b <;> simp_all
      cases hd
      · simp only [hnd, Bool.false_eq_true, if_false]
        refine finish_inv _ (calls_running _ _ ?_) fin
        refine ⟨by simpa [Flags.done] using hnd, hw rfl, hq, h3 hnd⟩
      · simp only [hnd, Bool.false_eq_true, if_false]
        refine finish_inv _ (calls_running _ _ ?_) fin
        refine ⟨by simpa [Flags.done] using hnd, rfl, hq, h3 hnd⟩
  | getResult =>
    obtain ⟨h0, h1, h2, h3, h4, h5⟩ := h
    simp only [Task.step]
    repeat' split
    all_goals exact ⟨h0, h1, h2, h3, h4, h5⟩
  | isDone => exact h
  | isCancelled => exact h

theorem run_inv (ops : List (Op α ε)) : ∀ t : Task α ε, Inv t → Inv (t.run ops).1 := by
  induction ops with
  | nil => intro t h; exact h
  | cons op ops ih => intro t h; exact ih _ (step_inv t h op)

theorem after_inv (ops : List (Op α ε)) : Inv (After ops) :=
  run_inv ops _ ⟨rfl, by simp, by simp, by simp, by simp [Flags.done], by simp⟩

/-! ## C13 -/

/-- The next step meets a cancellation. -/
def Doomed (t : Task α ε) : Prop :=
  (t.state.cancellingSelf = true ∧ t.queue ≠ []) ∨ t.waited = some (.result, some .cancelled)

theorem doomed_keeps (t : Task α ε) (hi : Inv t) (hnd : t.state.done = false) (h : Doomed t) (op : Op α ε)
    (hop : op.isRun = false) : Doomed (t.step op).1 ∧ (t.step op).1.state.done = false := by
  obtain ⟨h0, h1, h2, h3, h4, h5⟩ := hi
  obtain ⟨⟨r, ra, rr, cs, ca, de, si⟩, result, waited, queue⟩ := t
  simp only [Flags.done, Bool.or_eq_false_iff] at hnd h5
  obtain ⟨⟨⟨rfl, rfl⟩, rfl⟩, rfl⟩ := hnd
  unfold Doomed at h
  rcases h5 (by simp) with ⟨a, b⟩ | ⟨m', a, b⟩ | ⟨m', o', a, b⟩
  all_goals
    subst a; subst b
    cases op
    case run => simp [Op.isRun] at hop
    case call c =>
      cases c
      all_goals try (rename_i e; cases e)
      all_goals simp_all [Task.step, Doomed, Flags.done, Task.call, Task.cancelWaited]
    all_goals simp_all [Task.step, Doomed, Flags.done]

theorem doomed_run (t : Task α ε) (hi : Inv t) (hnd : t.state.done = false) (h : Doomed t) (calls : List (Call ε))
    (fin : Finish α ε) : ∃ s, (t.step (.run calls fin)).2 = .seen s ∧ s.isCancellation = true := by
  obtain ⟨h0, h1, h2, h3, h4, h5⟩ := hi
  unfold Doomed at h
  have hnd' := hnd
  simp only [Flags.done] at hnd'
  rcases h5 hnd with ⟨a, b⟩ | ⟨m', a, b⟩ | ⟨m', o', a, b⟩
  · have : t.state.cancellingSelf = true := by rcases h with h | h <;> simp_all
    refine ⟨.thrown, ?_, rfl⟩
    simp [Task.step, b, Task.stepBody, Task.resume, this, hnd]
  · rcases h with h | h <;> simp_all
  · rcases h with h | h
    · refine ⟨.thrown, ?_, rfl⟩
      simp [Task.step, b, Task.stepBody, Task.resume, h.1, hnd]
    · by_cases hc : t.state.cancellingSelf = true
      · refine ⟨.thrown, ?_, rfl⟩
        simp [Task.step, b, Task.stepBody, Task.resume, hc, hnd]
      · refine ⟨.awaited .cancelled, ?_, rfl⟩
        simp [Task.step, b, Task.stepBody, Task.resume, hc, hnd, h]

theorem doomed_delivered (t : Task α ε) (hi : Inv t) (hnd : t.state.done = false) (h : Doomed t) (between : List (Op α ε))
    (hb : ∀ op ∈ between, op.isRun = false) (calls : List (Call ε)) (fin : Finish α ε) :
    ∃ s, ((t.run between).1.step (.run calls fin)).2 = .seen s ∧ s.isCancellation = true := by
  induction between generalizing t with
  | nil => exact doomed_run t hi hnd h calls fin
  | cons op ops ih =>
    obtain ⟨a, b⟩ := doomed_keeps t hi hnd h op (hb op (by simp))
    exact ih _ (step_inv t hi op) b a (fun o ho => hb o (by simp [ho]))

theorem cancel_dooms (t : Task α ε) (hi : Inv t) (hans : (t.call .cancel).2 = .int 1)
    (hw : ¬ AwaitsCompletion t) : (t.call .cancel).1.state.done = false ∧ Doomed (t.call .cancel).1 := by
  obtain ⟨h0, h1, h2, h3, h4, h5⟩ := hi
  obtain ⟨⟨r, ra, rr, cs, ca, de, si⟩, result, waited, queue⟩ := t
  unfold AwaitsCompletion at hw
  cases hnd : (Flags.mk r ra rr cs ca de si).done with
  | true => simp [Task.call, hnd] at hans
  | false =>
    have hnd' := hnd
    simp only [Flags.done] at hnd'
    rcases h5 hnd with ⟨a, b⟩ | ⟨m', a, b⟩ | ⟨m', o', a, b⟩ <;> simp only at a b <;> subst a <;> subst b
    · simp_all [Task.call, Doomed, Task.cancelWaited, Flags.done]
    · cases m' <;> simp_all [Task.call, Doomed, Task.cancelWaited, Flags.done]
    · simp_all [Task.call, Doomed, Task.cancelWaited, Flags.done]

theorem cancelWith_dooms (t : Task α ε) (hi : Inv t) (e : ExcArg (Exc ε)) (hans : (t.call (.cancelWith e)).2 = .int 1)
    (hw : ¬ AwaitedDone t) : (t.call (.cancelWith e)).1.state.done = false ∧ Doomed (t.call (.cancelWith e)).1 := by
  obtain ⟨h0, h1, h2, h3, h4, h5⟩ := hi
  obtain ⟨⟨r, ra, rr, cs, ca, de, si⟩, result, waited, queue⟩ := t
  unfold AwaitedDone at hw
  cases e with
  | stopIteration =>
    cases hnd : (Flags.mk r ra rr cs ca de si).done <;> simp [Task.call, hnd] at hans
  | exc e =>
    cases hnd : (Flags.mk r ra rr cs ca de si).done with
    | true => simp [Task.call, hnd] at hans
    | false =>
      have hnd' := hnd
      simp only [Flags.done] at hnd'
      rcases h5 hnd with ⟨a, b⟩ | ⟨m', a, b⟩ | ⟨m', o', a, b⟩ <;> simp only at a b <;> subst a <;> subst b
      · simp_all [Task.call, Doomed, Task.cancelWaited, Flags.done]
      · simp_all [Task.call, Doomed, Task.cancelWaited, Flags.done]
      · exact absurd ⟨m', o', rfl⟩ hw

/-- C13, for `cancel`. After every history: if `cancel()` reports success, then the next step of the coroutine (whatever else
happens before it) meets a `CancelledError`. Missing: `await future.wait_for_completion()`, see
`C13_wait_for_completion_violated`. -/
theorem C13_cancel_delivered_partial (ops between : List (Op α ε)) (hw : ¬ AwaitsCompletion (After ops))
    (hans : ((After ops).step (.call .cancel)).2 = .int 1) (hb : ∀ op ∈ between, op.isRun = false)
    (calls : List (Call ε)) (fin : Finish α ε) :
    ∃ s, ((((After ops).step (.call .cancel)).1.run between).1.step (.run calls fin)).2 = .seen s ∧
      s.isCancellation = true := by
  obtain ⟨a, b⟩ := cancel_dooms (After ops) (after_inv ops) hans hw
  exact doomed_delivered _ (step_inv _ (after_inv ops) (.call .cancel)) a b between hb calls fin

/-- C13, for `cancel_with`. Missing: the future the task waits on is done already, see `C13_cancel_with_violated`. -/
theorem C13_cancel_with_delivered_partial (ops between : List (Op α ε)) (e : ExcArg (Exc ε)) (hw : ¬ AwaitedDone (After ops))
    (hans : ((After ops).step (.call (.cancelWith e))).2 = .int 1) (hb : ∀ op ∈ between, op.isRun = false)
    (calls : List (Call ε)) (fin : Finish α ε) :
    ∃ s, ((((After ops).step (.call (.cancelWith e))).1.run between).1.step (.run calls fin)).2 = .seen s ∧
      s.isCancellation = true := by
  obtain ⟨a, b⟩ := cancelWith_dooms (After ops) (after_inv ops) e hans hw
  exact doomed_delivered _ (step_inv _ (after_inv ops) (.call (.cancelWith e))) a b between hb calls fin

/-- Instance: cancel after the awaited future completed but before the task ran. -/
example : (({} : Task Nat Nat).run [.run [] (.awaits .result none), .completeAwaited (.value 3), .call .cancel,
    .run [] (.returns 4)]).2 = [.seen .resumed, .unit, .int 1, .seen .thrown] := by decide

/-- A pending task always has a way to go on: its step is queued exactly once, or the future it waits on is pending and
unanswered (then `cancel` answers it); and a done task is not stepped any more, so `_step` never raises
`InvalidStateError`. -/
theorem C13_step_valid (ops : List (Op α ε)) (calls : List (Call ε)) (fin : Finish α ε) :
    ((After ops).step (.run calls fin)).2 ≠ .invalidState ∧
    ((After ops).state.done = false → ((After ops).step (.run calls fin)).2 = .unit → ∃ m, (After ops).waited = some (m, none)) ∧
    (∀ s, ((After ops).step (.run calls fin)).2 = .seen s → s ≠ .awaitedPending) := by
  obtain ⟨h0, h1, h2, h3, h4, h5⟩ := after_inv ops
  generalize After ops = t at *
  cases hnd : t.state.done with
  | true => obtain ⟨a, b⟩ := h4 hnd; simp [Task.step, a]
  | false =>
    have hnd' := hnd
    simp only [Flags.done] at hnd'
    rcases h5 hnd with ⟨a, b⟩ | ⟨m', a, b⟩ | ⟨m', o', a, b⟩
    · cases hc : t.state.cancellingSelf <;> simp [Task.step, b, Task.stepBody, Task.resume, hnd, hc]
    · simp [Task.step, b, a]
    · cases hc : t.state.cancellingSelf <;> cases m' <;> simp [Task.step, b, Task.stepBody, Task.resume, hnd, hc, a]

/-- C13. If the coroutine lets the cancellation through, the task is done and cancelled, and its result raises: the exception
of the last successful `cancel_with` if there was one, `CancelledError` otherwise. -/
theorem C13_cancelled_outcome (t : Task α ε) (ops : List (Op α ε)) (ht : t = After ops) (s : Seen α ε)
    (hs : (t.step (.run [] (.raises .cancelled))).2 = .seen s) :
    ((t.step (.run [] (.raises .cancelled))).1.step .isDone).2 = .bool true ∧
    ((t.step (.run [] (.raises .cancelled))).1.step .isCancelled).2 = .bool true ∧
    ((t.step (.run [] (.raises .cancelled))).1.step .getResult).2 =
      .raised (match t.result with | .exception e => e | _ => .cancelled) := by
  obtain ⟨h0, h1, h2, h3, h4, h5⟩ := ht ▸ after_inv ops
  obtain ⟨⟨r, ra, rr, cs, ca, de, si⟩, result, waited, queue⟩ := t
  cases hnd : (Flags.mk r ra rr cs ca de si).done with
  | true => obtain ⟨a, b⟩ := h4 hnd; simp only at a; subst a; simp [Task.step] at hs
  | false =>
    have hnd' := hnd
    have h3' := h3 hnd
    simp only [Flags.done, Bool.or_eq_false_iff] at hnd'
    obtain ⟨⟨⟨rfl, rfl⟩, rfl⟩, rfl⟩ := hnd'
    rcases h5 hnd with ⟨a, b⟩ | ⟨m', a, b⟩ | ⟨m', o', a, b⟩ <;> simp only at a b <;> subst a <;> subst b
    · cases result <;> simp_all [Task.step, Task.stepBody, Task.finish, Flags.done, Stored.isNone]
    · simp [Task.step] at hs
    · cases result <;> simp_all [Task.step, Task.stepBody, Task.finish, Flags.done, Stored.isNone]

/-- `cancel_with` decides what the cancelled task raises: right after it reports success the stored exception is the given one
(and `cancel` does not change what is stored). -/
theorem C13_cancel_with_exception (t : Task α ε) (e : Exc ε) (hans : (t.step (.call (.cancelWith (.exc e)))).2 = .int 1) :
    (t.step (.call (.cancelWith (.exc e)))).1.result = .exception e := by
  simp only [Task.step, Task.call] at hans ⊢
  split
  · rename_i h; simp [h] at hans
  · split <;> rfl

/-- A further `cancel_with`. -/
def Op.isCancelWith : Op α ε → Bool
  | .call (.cancelWith _) => true
  | _ => false

theorem result_kept (t : Task α ε) (op : Op α ε) (h1 : op.isRun = false) (h2 : op.isCancelWith = false) :
    (t.step op).1.result = t.result := by
  cases op with
  | call c =>
    cases c with
    | cancel =>
      obtain ⟨st, result, waited, queue⟩ := t
      rcases waited with _ | ⟨m, _ | o⟩ <;> cases hd : st.done <;> simp [Task.step, Task.call, Task.cancelWaited, hd]
    | cancelWith e => simp [Op.isCancelWith] at h2
  | completeAwaited o => simp only [Task.step]; split <;> rfl
  | run calls fin => simp [Op.isRun] at h1
  | getResult => simp only [Task.step]; repeat' split
                 all_goals rfl
  | isDone => rfl
  | isCancelled => rfl

/-- C13, end to end: after `cancel_with(e)` reported success, whatever happens before the next step (but another
`cancel_with`), a coroutine that lets the cancellation through leaves a task whose `get_result` raises `e`. Missing: the
awaited future is done already (then the coroutine does not meet a cancellation at all). -/
theorem C13_cancel_with_raises_partial (ops between : List (Op α ε)) (e : Exc ε) (hw : ¬ AwaitedDone (After ops))
    (hans : ((After ops).step (.call (.cancelWith (.exc e)))).2 = .int 1)
    (hb : ∀ op ∈ between, op.isRun = false ∧ op.isCancelWith = false) :
    (((((After ops).step (.call (.cancelWith (.exc e)))).1.run between).1.step (.run [] (.raises .cancelled))).1.step
      .getResult).2 = .raised e := by
  obtain ⟨s, hs, _⟩ := C13_cancel_with_delivered_partial ops between (.exc e) hw hans (fun o ho => (hb o ho).1) []
    (.raises .cancelled)
  have hr : ∀ (between : List (Op α ε)) (t : Task α ε), (∀ op ∈ between, op.isRun = false ∧ op.isCancelWith = false) →
      (t.run between).1.result = t.result := by
    intro between
    induction between with
    | nil => intro t _; rfl
    | cons op ops ih =>
      intro t hb
      have := hb op (by simp)
      exact (ih _ (fun o ho => hb o (by simp [ho]))).trans (result_kept t op this.1 this.2)
  have happ : ∀ (a b : List (Op α ε)) (t : Task α ε), ((t.run a).1.run b).1 = (t.run (a ++ b)).1 := by
    intro a
    induction a with
    | nil => intro b t; rfl
    | cons op a ih => intro b t; exact ih b _
  have heq : (((After ops).step (.call (.cancelWith (.exc e)))).1.run between).1 =
      After (ops ++ .call (.cancelWith (.exc e)) :: between) := by
    unfold After
    rw [← happ ops]
    rfl
  have h := (C13_cancelled_outcome _ _ heq s hs).2.2
  rw [h, hr between _ hb, C13_cancel_with_exception _ e hans]

/-- Instance: cancelled while waiting; the outer future gets exception 9. -/
example : (({} : Task Nat Nat).run [.run [] (.awaits .result none), .call (.cancelWith (.exc (.other 9))), .call .cancel,
    .run [] (.raises .cancelled), .getResult, .isCancelled]).2 =
    [.seen .resumed, .int 1, .int 1, .seen .thrown, .raised (.other 9), .bool true] := by decide

/-- C13, for a coroutine that cancels its own task while it runs: if it then returns, the task ends cancelled; if it goes on
waiting for a result, its next step meets the cancellation. -/
theorem C13_self_cancel (ops between : List (Op α ε)) (calls : List (Call ε)) (fin : Finish α ε) (s : Seen α ε)
    (hs : ((After ops).step (.run (calls ++ [.cancel]) fin)).2 = .seen s) (hb : ∀ op ∈ between, op.isRun = false) :
    (∀ v, fin = .returns v → (((After ops).step (.run (calls ++ [.cancel]) fin)).1.step .isCancelled).2 = .bool true) ∧
    (fin = .yields ∨ (∃ o, fin = .awaits .result o) → ∀ calls' fin',
      ∃ s, ((((After ops).step (.run (calls ++ [.cancel]) fin)).1.run between).1.step (.run calls' fin')).2 = .seen s ∧
        s.isCancellation = true) := by
  have hinv := after_inv ops
  have hinv' := step_inv _ hinv (.run (calls ++ [.cancel]) fin)
  obtain ⟨h0, h1, h2, h3, h4, h5⟩ := hinv
  generalize After ops = t at *
  have hnd : t.state.done = false := by
    cases hnd : t.state.done with
    | true => obtain ⟨a, b⟩ := h4 hnd; simp [Task.step, a] at hs
    | false => rfl
  obtain ⟨hh, hq⟩ : ∃ hh, t.queue = [hh] := by
    rcases h5 hnd with ⟨a, b⟩ | ⟨m', a, b⟩ | ⟨m', o', a, b⟩
    · exact ⟨_, b⟩
    · simp [Task.step, b] at hs
    · exact ⟨_, b⟩
  -- the state in which the coroutine ends the step
  obtain ⟨t1, hr, he⟩ : ∃ t1 : Task α ε, Running t1 ∧
      (t.step (.run (calls ++ [.cancel]) fin)).1 = (t1.call .cancel).1.finish fin := by
    let t0 : Task α ε := { t with queue := [], waited := none, state := { t.state with cancellingSelf := false } }
    have hr0 : Running t0 := ⟨by simpa [Flags.done, t0] using hnd, rfl, rfl, h3 hnd⟩
    refine ⟨calls.foldl (fun t c => (t.call c).1) t0, calls_running calls t0 hr0, ?_⟩
    cases hh
    · have hw : t.waited = none := by
        rcases h5 hnd with ⟨a, b⟩ | ⟨m', a, b⟩ | ⟨m', o', a, b⟩ <;> simp_all
      simp only [Task.step, hq, Task.stepBody, hnd, List.foldl_append, List.foldl_cons, List.foldl_nil]
      simp only [Bool.false_eq_true, if_false, t0, hw]
    · simp only [Task.step, hq, Task.stepBody, hnd, List.foldl_append, List.foldl_cons, List.foldl_nil]
      simp only [Bool.false_eq_true, if_false, t0]
  rw [he] at hinv' ⊢
  obtain ⟨r1, r2, r3, r4⟩ := hr
  have hc : (t1.call .cancel).1 = { t1 with state := { t1.state with cancellingSelf := true } } := by
    simp [Task.call, r1, r2, Task.cancelWaited]
  rw [hc] at hinv' ⊢
  refine ⟨?_, ?_⟩
  · rintro v rfl
    cases t1.result <;> simp [Task.finish, Task.step, Stored.isNone]
  · intro hf calls' fin'
    refine doomed_delivered _ hinv' ?_ ?_ between hb calls' fin'
    · rcases hf with rfl | ⟨o, rfl⟩
      · simpa [Task.finish, Flags.done] using r1
      · cases o <;> simpa [Task.finish, Flags.done, Task.cancelWaited] using r1
    · rcases hf with rfl | ⟨o, rfl⟩
      · left; simp [Task.finish]
      · cases o with
        | none => right; simp [Task.finish, Task.cancelWaited]
        | some o => left; simp [Task.finish, Task.cancelWaited]

/-- C13 fails for `cancel_with` (task.py 150 lacks a `not`): the awaited future is done, `cancel_with` reports success, and the
coroutine goes on with the value as if nothing happened; the task ends with its result. -/
theorem C13_cancel_with_violated : ∃ ops : List (Op Nat Nat),
    ((After ops).step (.call (.cancelWith (.exc (.other 9))))).2 = .int 1 ∧
    (((After ops).step (.call (.cancelWith (.exc (.other 9))))).1.step (.run [] (.returns 4))).2 =
      .seen (.awaited (.value 3)) ∧
    ((((After ops).step (.call (.cancelWith (.exc (.other 9))))).1.step (.run [] (.returns 4))).1.step .getResult).2 =
      .returned 4 :=
  ⟨[.run [] (.awaits .result none), .completeAwaited (.value 3)], by decide⟩

/-- C13 fails for `cancel` when the coroutine awaits `future.wait_for_completion()` (future.py 524-536): the future is
cancelled instead, and the coroutine goes on as if it had completed. -/
theorem C13_wait_for_completion_violated : ∃ ops : List (Op Nat Nat),
    ((After ops).step (.call .cancel)).2 = .int 1 ∧
    (((After ops).step (.call .cancel)).1.step (.run [] (.returns 4))).2 = .seen .resumed ∧
    ((((After ops).step (.call .cancel)).1.step (.run [] (.returns 4))).1.step .getResult).2 = .returned 4 :=
  ⟨[.run [] (.awaits .completion none)], by decide⟩

/-! ## C11 for tasks -/

theorem done_step (t : Task α ε) (hi : Inv t) (hd : t.state.done = true) (op : Op α ε) :
    (t.step op).1.state.done = true ∧ ((t.step op).1.step .getResult).2 = (t.step .getResult).2 ∧
    ((t.step op).1.step .isCancelled).2 = (t.step .isCancelled).2 := by
  obtain ⟨⟨r, ra, rr, cs, ca, de, si⟩, result, waited, queue⟩ := t
  obtain ⟨h0, h1, h2, h3, h4, h5⟩ := hi
  obtain ⟨a, b⟩ := h4 hd
  simp only at a b
  subst a; subst b
  clear h0 h1 h2 h3 h4 h5
  cases op
  case call c =>
    cases r <;> cases ra <;> cases ca <;> cases de <;> cases c <;> cases result <;>
      simp_all [Task.step, Task.call, Flags.done]
  case getResult =>
    cases r <;> cases ra <;> cases ca <;> cases de <;> cases result <;> simp_all [Task.step, Flags.done]
  all_goals exact ⟨hd, rfl, rfl⟩

/-- C11, for tasks: once a task is done its outcome never changes. -/
theorem C11_task_outcome_stable (ops more : List (Op α ε)) (hd : ((After ops).step .isDone).2 = .bool true) :
    (((After ops).run more).1.step .isDone).2 = .bool true ∧
    (((After ops).run more).1.step .getResult).2 = ((After ops).step .getResult).2 ∧
    (((After ops).run more).1.step .isCancelled).2 = ((After ops).step .isCancelled).2 := by
  have gen : ∀ (more : List (Op α ε)) (t : Task α ε), Inv t → t.state.done = true →
      (t.run more).1.state.done = true ∧ ((t.run more).1.step .getResult).2 = (t.step .getResult).2 ∧
      ((t.run more).1.step .isCancelled).2 = (t.step .isCancelled).2 := by
    intro more
    induction more with
    | nil => intro t _ h; exact ⟨h, rfl, rfl⟩
    | cons op more ih =>
      intro t hi h
      obtain ⟨a, b, c⟩ := done_step t hi h op
      obtain ⟨a', b', c'⟩ := ih _ (step_inv t hi op) a
      exact ⟨a', b'.trans b, c'.trans c⟩
  have := gen more (After ops) (after_inv ops) (by simpa [Task.step] using hd)
  simpa [Task.step] using this

/-- C11, for tasks: the result is readable exactly when the task is done. -/
theorem C11_task_result_iff_done (ops : List (Op α ε)) :
    ((After ops).step .getResult).2 ≠ .malformed ∧
    (((After ops).step .getResult).2 = .invalidState ↔ ((After ops).step .isDone).2 = .bool false) := by
  obtain ⟨h0, h1, h2, h3, h4, h5⟩ := after_inv ops
  generalize After ops = t at *
  obtain ⟨⟨r, ra, rr, cs, ca, de, si⟩, result, waited, queue⟩ := t
  simp only at h0 h1 h2
  subst h0
  cases r
  · cases ra
    · cases ca <;> simp [Task.step, Flags.done]
    · obtain ⟨e, he⟩ := h2 rfl rfl
      subst he
      simp [Task.step, Flags.done]
  · obtain ⟨v, hv⟩ := h1 rfl
    subst hv
    simp [Task.step, Flags.done]

end Verif.Task
