import Verif.Future.Spec
/-! Property theorems C11 and C12. -/
namespace Verif.Future
variable {α ε : Type}

/-! ## C11 -/

/-- The future's fields describe the outcome `o`. -/
def Rel (f : Fut α ε) (o : Option (Outcome α ε)) : Prop :=
  f.state.destroyed = false ∧
  match o with
  | none => f.state.ret = false ∧ f.state.raise_ = false ∧ f.state.cancelled = false
  | some (.result v) => f.state.ret = true ∧ f.state.cancelled = false ∧ f.result = .value v
  | some (.exception e) => f.state.ret = false ∧ f.state.raise_ = true ∧ f.state.cancelled = false ∧ f.result = .exception e
  | some .cancelled => f.state.ret = false ∧ f.state.raise_ = false ∧ f.state.cancelled = true ∧ f.result = .none
  | some (.cancelledWith e) => f.state.ret = false ∧ f.state.raise_ = true ∧ f.state.cancelled = true ∧ f.result = .exception e

/-- While pending nothing is stored. -/
def Fresh (f : Fut α ε) : Prop := f.state.done = false → f.result = .none

theorem step_refines (f : Fut α ε) (o : Option (Outcome α ε)) (h : Rel f o) (hf : Fresh f) (op : Op α ε) :
    Rel (f.step op).1 (cellStep o op).1 ∧ Fresh (f.step op).1 ∧
    (op.isRemove = false → (f.step op).2 = (cellStep o op).2) := by
  obtain ⟨⟨r, ra, rr, cs, ca, de, si⟩, result, cbs, run, ready⟩ := f
  unfold Rel at h
  unfold Fresh at hf
  simp only [Flags.done] at hf
  rcases o with _ | (v | e | _ | e)
  all_goals
    simp only at h
    cases op
    case cancelWith a => cases a <;> cases run <;> simp_all [Fut.step, cellStep, Rel, Fresh, Flags.done, Fut.schedule]
    case setException a => cases a <;> cases run <;> simp_all [Fut.step, cellStep, Rel, Fresh, Flags.done, Fut.schedule]
    case setExceptionIfPending a =>
      cases a <;> cases run <;> simp_all [Fut.step, cellStep, Rel, Fresh, Flags.done, Fut.schedule]
    all_goals cases run <;> simp_all [Fut.step, cellStep, Rel, Fresh, Flags.done, Fut.schedule, Op.isRemove]

theorem run_refines (ops : List (Op α ε)) : ∀ (f : Fut α ε) (o : Option (Outcome α ε)), Rel f o → Fresh f →
    Rel (f.run ops).1 (cellRun o ops).1 ∧ Fresh (f.run ops).1 ∧ (f.run ops).2.length = ops.length ∧
    ∀ (i : Nat) (op : Op α ε), ops[i]? = some op → op.isRemove = false → (f.run ops).2[i]? = (cellRun o ops).2[i]? := by
  induction ops with
  | nil => intro f o h hf; exact ⟨h, hf, rfl, by simp⟩
  | cons op ops ih =>
    intro f o h hf
    obtain ⟨a, b, c⟩ := step_refines f o h hf op
    obtain ⟨i1, i2, i3, i4⟩ := ih _ _ a b
    refine ⟨i1, i2, by simpa [Fut.run] using i3, ?_⟩
    intro i op' hi hr
    cases i with
    | zero => simp at hi; subst hi; simp [Fut.run, cellRun, c hr]
    | succ i => simp at hi; simpa [Fut.run, cellRun] using i4 i op' hi hr

theorem rel_init : Rel ({} : Fut α ε) none ∧ Fresh ({} : Fut α ε) := ⟨⟨rfl, rfl, rfl, rfl⟩, fun _ => rfl⟩

/-- C11. In every history a future answers exactly like a cell written once: the first completion that takes effect fixes the
outcome, later attempts raise `InvalidStateError` or report `0`, and reads give that outcome. (`remove_done_callback` is the
only call whose answer is not about the outcome; for it see C12.) -/
theorem C11_future_is_write_once_cell (ops : List (Op α ε)) (i : Nat) (op : Op α ε) (hi : ops[i]? = some op)
    (hr : op.isRemove = false) : (({} : Fut α ε).run ops).2[i]? = (cellRun none ops).2[i]? :=
  (run_refines ops {} none rel_init.1 rel_init.2).2.2.2 i op hi hr

theorem cellRun_some (ops : List (Op α ε)) : ∀ o, (cellRun (some o) ops).1 = some o := by
  induction ops with
  | nil => intro o; rfl
  | cons op ops ih =>
    intro o
    have : (cellStep (some o) op).1 = some o := by cases op <;> simp [cellStep]
    simp only [cellRun, this]
    exact ih o

theorem run_append (ops more : List (Op α ε)) : ∀ f : Fut α ε, (f.run (ops ++ more)).1 = ((f.run ops).1.run more).1 := by
  induction ops with
  | nil => intro f; rfl
  | cons op ops ih => intro f; simp only [List.cons_append, Fut.run]; exact ih _

theorem cellRun_append (ops more : List (Op α ε)) : ∀ o, (cellRun o (ops ++ more)).1 = (cellRun (cellRun o ops).1 more).1 := by
  induction ops with
  | nil => intro f; rfl
  | cons op ops ih => intro f; simp only [List.cons_append, cellRun]; exact ih _

/-- C11. Once `get_result` gives anything but `InvalidStateError`, it gives the same after every further history. -/
theorem C11_outcome_stable (ops more : List (Op α ε))
    (h : ((({} : Fut α ε).run ops).1.step .getResult).2 ≠ .invalidState) :
    ((({} : Fut α ε).run (ops ++ more)).1.step .getResult).2 = ((({} : Fut α ε).run ops).1.step .getResult).2 := by
  obtain ⟨a1, a2, _⟩ := run_refines ops {} none rel_init.1 rel_init.2
  obtain ⟨b1, b2, _⟩ := run_refines (ops ++ more) {} none rel_init.1 rel_init.2
  rw [(step_refines _ _ a1 a2 .getResult).2.2 rfl] at h ⊢
  rw [(step_refines _ _ b1 b2 .getResult).2.2 rfl]
  rw [cellRun_append]
  match ho : (cellRun none ops).1 with
  | none => rw [ho] at h; simp [cellStep] at h
  | some o => rw [cellRun_some]

/-- C11. At most one completion attempt of a history reports success. -/
theorem C11_single_completion (ops more : List (Op α ε)) (op op' : Op α ε)
    (hop : op ∈ [.cancel] ∨ (∃ e, op = .cancelWith (.exc e)) ∨ (∃ v, op = .setResult v) ∨ (∃ v, op = .setResultIfPending v) ∨
      (∃ e, op = .setException (.exc e)) ∨ (∃ e, op = .setExceptionIfPending (.exc e)))
    (hop' : op' ∈ [.cancel] ∨ (∃ e, op' = .cancelWith e) ∨ (∃ v, op' = .setResult v) ∨ (∃ v, op' = .setResultIfPending v) ∨
      (∃ e, op' = .setException e) ∨ (∃ e, op' = .setExceptionIfPending e)) :
    ((({} : Fut α ε).run (ops ++ op :: more)).1.step op').2 ∈ [.int 0, .invalidState] := by
  obtain ⟨b1, b2, _⟩ := run_refines (ops ++ op :: more) {} none rel_init.1 rel_init.2
  have hr : op'.isRemove = false := by
    rcases hop' with h | ⟨_, h⟩ | ⟨_, h⟩ | ⟨_, h⟩ | ⟨_, h⟩ | ⟨_, h⟩
    · simp at h; rw [h]; rfl
    all_goals rw [h]; rfl
  rw [(step_refines _ _ b1 b2 op').2.2 hr]
  have hsome : ∃ o, (cellRun (none : Option (Outcome α ε)) (ops ++ op :: more)).1 = some o := by
    rw [cellRun_append]
    generalize (cellRun none ops).1 = o
    have : ∃ o', (cellStep o op).1 = some o' := by
      rcases hop with h | ⟨_, h⟩ | ⟨_, h⟩ | ⟨_, h⟩ | ⟨_, h⟩ | ⟨_, h⟩
      · simp at h; rw [h]; cases o <;> simp [cellStep]
      all_goals rw [h]; cases o <;> simp [cellStep]
    obtain ⟨o', ho'⟩ := this
    simp only [cellRun, ho']
    exact ⟨o', cellRun_some _ _⟩
  obtain ⟨o, ho⟩ := hsome
  rw [ho]
  rcases hop' with h | ⟨_, h⟩ | ⟨_, h⟩ | ⟨_, h⟩ | ⟨_, h⟩ | ⟨_, h⟩
  · simp at h; rw [h]; simp [cellStep]
  all_goals rw [h]; simp [cellStep]

/-- Instance: an exception set first wins over result, cancel. -/
example : (({} : Fut Nat Nat).run [.getResult, .setException .stopIteration, .setExceptionIfPending (.exc 7), .setResult 3,
    .cancel, .setResultIfPending 4, .getResult, .getException, .isCancelled]).2 =
    [.invalidState, .typeError, .int 1, .invalidState, .int 0, .int 0, .raised 7, .exception 7, .bool false] := by decide

/-! ## C12 -/

/-- The loop is never stopped in the history. -/
def LoopRuns (ops : List (Op α ε)) : Prop := .setRunning false ∉ ops

theorem count_filter_ne (l : List Nat) (c d : Nat) :
    (l.filter (· ≠ c)).count d + (if c = d then (l.filter (· = c)).length else 0) = l.count d := by
  induction l with
  | nil => simp
  | cons x l ih =>
    by_cases h1 : x = c
    · subst h1
      by_cases h2 : x = d
      · subst h2
        simp at ih ⊢; omega
      · simp [h2] at ih ⊢; exact ih
    · by_cases h2 : c = d
      · subst h2; simp [h1] at ih ⊢; exact ih
      · simp [h1, h2, List.count_cons] at ih ⊢; omega

/-- Conserved: handed over + still registered + removed = added. -/
theorem step_count (f : Fut α ε) (hrun : f.running = true) (hd : f.state.done = true → f.callbacks = [])
    (hp : f.state.done = false → f.ready = []) (c : Nat) (op : Op α ε)
    (hop : op ≠ .setRunning false) :
    (f.step op).1.running = true ∧
    ((f.step op).1.state.done = true → (f.step op).1.callbacks = []) ∧
    ((f.step op).1.state.done = false → (f.step op).1.ready = []) ∧
    (f.step op).1.ready.count c + (f.step op).1.callbacks.count c + reportedRemoved c [op] [(f.step op).2] =
      f.ready.count c + f.callbacks.count c + added c [op] := by
  obtain ⟨⟨r, ra, rr, cs, ca, de, si⟩, result, cbs, run, ready⟩ := f
  simp only at hrun hd hp
  subst hrun
  cases op
  case setRunning b => cases b <;> simp_all [Fut.step, reportedRemoved, added]
  case removeDoneCallback c' =>
    have := count_filter_ne cbs c' c
    simp only [Fut.step, reportedRemoved, added, Nat.add_zero]
    refine ⟨trivial, fun h => by simp [hd h], hp, ?_⟩
    omega
  case addDoneCallback c' =>
    cases r <;> cases ra <;> cases ca <;> cases de <;>
      simp_all [Fut.step, reportedRemoved, added, Flags.done, List.count_cons]
  all_goals cases r <;> cases ra <;> cases ca <;> cases de
  all_goals try (rename_i a; cases a)
  all_goals simp_all [Fut.step, reportedRemoved, added, Fut.schedule, Flags.done]
  all_goals split <;> simp_all

theorem reportedRemoved_cons (c : Nat) (op : Op α ε) (ops : List (Op α ε)) (o : Out α ε) (os : List (Out α ε)) :
    reportedRemoved c (op :: ops) (o :: os) = reportedRemoved c [op] [o] + reportedRemoved c ops os := by
  cases op <;> cases o <;> simp [reportedRemoved]

theorem added_cons (c : Nat) (op : Op α ε) (ops : List (Op α ε)) :
    added c (op :: ops) = added c [op] + added c ops := by
  cases op <;> simp [added]

theorem run_count (ops : List (Op α ε)) (c : Nat) : ∀ f : Fut α ε, f.running = true →
    (f.state.done = true → f.callbacks = []) → (f.state.done = false → f.ready = []) → LoopRuns ops →
    ((f.run ops).1.state.done = true → (f.run ops).1.callbacks = []) ∧
    ((f.run ops).1.state.done = false → (f.run ops).1.ready = []) ∧
    (f.run ops).1.ready.count c + (f.run ops).1.callbacks.count c + reportedRemoved c ops (f.run ops).2 =
      f.ready.count c + f.callbacks.count c + added c ops := by
  induction ops with
  | nil => intro f _ h2 h3 _; exact ⟨h2, h3, by simp [Fut.run, reportedRemoved, added]⟩
  | cons op ops ih =>
    intro f h1 h2 h3 hl
    have hop : op ≠ .setRunning false := fun h => hl (by simp [h])
    obtain ⟨a1, a2, a3, a4⟩ := step_count f h1 h2 h3 c op hop
    obtain ⟨b1, b2, b3⟩ := ih (f.step op).1 a1 a2 a3 (fun h => hl (by simp [h]))
    refine ⟨b1, b2, ?_⟩
    simp only [Fut.run]
    rw [reportedRemoved_cons, added_cons]
    omega

/-- C12. While the loop runs, in every history every registration of a callback is accounted for exactly once: it was handed to
the loop, or it was removed (and `remove_done_callback` said so), or it is still waiting. Missing: a loop that was stopped, see
`C12_stopped_loop_violated`. -/
theorem C12_every_registration_once_partial (ops : List (Op α ε)) (hl : LoopRuns ops) (c : Nat) :
    (({} : Fut α ε).run ops).1.ready.count c + (({} : Fut α ε).run ops).1.callbacks.count c +
      reportedRemoved c ops (({} : Fut α ε).run ops).2 = added c ops := by
  have := (run_count ops c ({} : Fut α ε) rfl (fun _ => rfl) (fun _ => rfl) hl).2.2
  simpa using this

/-- C12. If the future is done, nothing waits any more, so every registration that was not removed was handed to the loop
exactly once, also those made after completion. Missing: a loop that was stopped. -/
theorem C12_done_runs_all_partial (ops : List (Op α ε)) (hl : LoopRuns ops) (c : Nat)
    (hd : ((({} : Fut α ε).run ops).1.step .isDone).2 = .bool true) :
    (({} : Fut α ε).run ops).1.ready.count c + reportedRemoved c ops (({} : Fut α ε).run ops).2 = added c ops := by
  obtain ⟨a, _, b⟩ := run_count ops c ({} : Fut α ε) rfl (fun _ => rfl) (fun _ => rfl) hl
  have := a (by simpa [Fut.step] using hd)
  rw [this] at b
  simpa using b

theorem step_pending_ready (f : Fut α ε) (hp : f.state.done = false → f.ready = []) (op : Op α ε) :
    (f.step op).1.state.done = false → (f.step op).1.ready = [] := by
  obtain ⟨⟨r, ra, rr, cs, ca, de, si⟩, result, cbs, run, ready⟩ := f
  simp only [Flags.done] at hp
  cases r <;> cases ra <;> cases ca <;> cases de <;> cases run <;> cases op
  all_goals try (rename_i a; cases a)
  all_goals simp_all [Fut.step, Fut.schedule, Flags.done]
  all_goals split <;> simp_all

/-- C12. No callback is handed over while the future is pending (whether or not the loop runs). -/
theorem C12_pending_runs_none (ops : List (Op α ε))
    (hd : ((({} : Fut α ε).run ops).1.step .isDone).2 = .bool false) : (({} : Fut α ε).run ops).1.ready = [] := by
  have gen : ∀ (ops : List (Op α ε)) (f : Fut α ε), (f.state.done = false → f.ready = []) →
      (f.run ops).1.state.done = false → (f.run ops).1.ready = [] := by
    intro ops
    induction ops with
    | nil => intro f h; exact h
    | cons op ops ih => intro f h; exact ih _ (step_pending_ready f h op)
  exact gen ops {} (fun _ => rfl) (by simpa [Fut.step] using hd)

/-- C12. What was handed over is never taken back or reordered by later calls. -/
theorem C12_ready_only_grows (ops : List (Op α ε)) : ∀ f : Fut α ε, f.ready <+: (f.run ops).1.ready := by
  induction ops with
  | nil => intro f; exact List.prefix_refl _
  | cons op ops ih =>
    intro f
    refine List.IsPrefix.trans ?_ (ih (f.step op).1)
    obtain ⟨st, result, cbs, run, ready⟩ := f
    cases hd : st.done <;> cases run <;> cases op
    all_goals try (rename_i a; cases a)
    all_goals simp only [Fut.step, Fut.schedule, hd]
    all_goals (repeat' split) <;> simp

theorem step_absent (f : Fut α ε) (c : Nat) (h : c ∉ f.callbacks) (op : Op α ε) (hop : op ≠ .addDoneCallback c) :
    c ∉ (f.step op).1.callbacks ∧ (f.step op).1.ready.count c = f.ready.count c := by
  obtain ⟨st, result, cbs, run, ready⟩ := f
  simp only at h
  have h0 : cbs.count c = 0 := List.count_eq_zero.mpr h
  cases hd : st.done <;> cases run <;> cases op
  all_goals first | (rename_i a; cases a) | skip
  all_goals simp only [Fut.step, Fut.schedule, hd]
  all_goals (repeat' split) <;> simp_all
  all_goals exact fun h => hop h.symm

/-- C12. A removed callback is not handed over by any later history that does not register it again. -/
theorem C12_removed_not_run (ops more : List (Op α ε)) (c : Nat) (hm : .addDoneCallback c ∉ more) :
    (({} : Fut α ε).run (ops ++ .removeDoneCallback c :: more)).1.ready.count c =
      (({} : Fut α ε).run ops).1.ready.count c := by
  have gen : ∀ (more : List (Op α ε)) (f : Fut α ε), .addDoneCallback c ∉ more → c ∉ f.callbacks →
      (f.run more).1.ready.count c = f.ready.count c := by
    intro more
    induction more with
    | nil => intro f _ _; rfl
    | cons op more ih =>
      intro f hm hc
      obtain ⟨a, b⟩ := step_absent f c hc op (fun h => hm (by simp [h]))
      simp only [Fut.run]
      rw [ih _ (fun h => hm (by simp [h])) a, b]
  rw [run_append]
  simp only [Fut.run]
  rw [gen more _ hm (by simp [Fut.step])]
  simp [Fut.step]

/-- Instance: callback 1 registered twice and once late, 2 removed. -/
example : (({} : Fut Nat Nat).run [.addDoneCallback 1, .addDoneCallback 2, .addDoneCallback 1, .removeDoneCallback 2,
    .setResult 5, .addDoneCallback 1]).1.ready = [1, 1, 1] := by decide

/-- C12 fails when the loop neither runs nor can be started: the callbacks of a completed future are dropped (event_loop.py
484-486), so the full claim (without the hypothesis on the loop) is false. -/
theorem C12_stopped_loop_violated : ∃ ops : List (Op Nat Nat),
    ((({} : Fut Nat Nat).run ops).1.step .isDone).2 = .bool true ∧ added 1 ops = 1 ∧
    (({} : Fut Nat Nat).run ops).1.ready.count 1 = 0 ∧ (({} : Fut Nat Nat).run ops).1.callbacks = [] ∧
    reportedRemoved 1 ops (({} : Fut Nat Nat).run ops).2 = 0 :=
  ⟨[.addDoneCallback 1, .setRunning false, .setResult 5], by decide⟩

end Verif.Future
