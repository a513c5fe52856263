import Verif.EnterExecutor.Model
/-! Properties C153 to C156 of `enter_executor`. -/
namespace Verif.EnterExecutor

theorem run_append (s : State) (xs ys : List Op) : s.run (xs ++ ys) = (s.run xs).run ys := by
  induction xs generalizing s with
  | nil => rfl
  | cons x xs ih => exact ih _

theorem trace_append (s : State) (xs ys : List Op) : s.trace (xs ++ ys) = s.trace xs ++ (s.run xs).trace ys := by
  induction xs generalizing s with
  | nil => rfl
  | cons x xs ih => simp only [List.cons_append, State.trace, State.run, ih, List.append_assoc]

/-! ## All runs -/

/-- The possible phases: before the executor starts, in the executor, and otherwise. -/
structure Before (s : State) : Prop where
  exec : s.exec = .idle
  pos : s.pos = .enter
  done : s.done = none
  inner : s.innerCb = false
  waited : s.waited = .enter
  sched : s.scheduled = false
  ready : (s.ready = [.enterExecutor] ∧ s.enter = .pending ∧ s.enterCb = true ∧ s.cancelling = false) ∨
    (s.ready = [.enterExecutor, .wakeUp] ∧ s.enter = .cancelled ∧ s.enterCb = false)

structure Queued (s : State) : Prop where
  exec : s.exec = .queued
  pos : s.pos = .enter
  done : s.done = none
  inner : s.innerCb = false
  waited : s.waited = .enter
  sched : s.scheduled = false
  ready : s.ready = []
  enter : s.enter = .pending
  cb : s.enterCb = false
  canc : s.cancelling = false

structure Inside (s : State) : Prop where
  exec : s.exec = .top ∨ s.exec = .running ∨ s.exec = .prepare ∨ s.exec = .wait ∨ s.exec = .exiting
  pos : (s.exec = .top ∧ (s.pos = .enter ∨ s.pos = .body ∨ s.pos = .after)) ∨
    ((s.exec = .running ∨ s.exec = .prepare ∨ s.exec = .wait) ∧ (s.pos = .body ∨ s.pos = .after)) ∨
    (s.exec = .exiting ∧ s.pos = .exit)
  done : s.done = none
  inner : s.innerCb = false
  sched : s.scheduled = false
  ready : s.ready = []
  enter : s.enter = .finished
  cb : s.enterCb = false
  waiting : s.exec = .prepare ∨ s.exec = .wait → s.waited = .inner ∧ s.awaiting = true

structure Outside (s : State) : Prop where
  exec : s.exec = .queued ∨ s.exec = .stopped ∨ s.exec = .died
  pos : s.pos ≠ .body
  enter : s.enter ≠ .pending
  start : s.pos = .enter → s.enter = .cancelled
  cb : s.enterCb = false
  ready : Handle.enterExecutor ∉ s.ready

def Good (s : State) : Prop := Before s ∨ Queued s ∨ Inside s ∨ Outside s

theorem settle_outside {s : State} (h : Outside s) (f : Fut) : Outside (s.settle f) := by
  unfold State.settle
  split
  · exact ⟨h.exec, h.pos, h.enter, h.start, h.cb, by simp [h.ready]⟩
  · exact ⟨h.exec, h.pos, h.enter, h.start, h.cb, h.ready⟩

theorem cancel_good {s : State} (h : Good s) : Good s.cancel := by
  unfold State.cancel
  rcases h with h | h | h | h
  · rw [if_neg (by rw [h.done]; simp)]
    left
    split <;> rename_i hw <;> rw [h.waited] at hw <;> try cases hw
    rcases h.ready with ⟨hr, he, hc, hn⟩ | ⟨hr, he, hc⟩
    · rw [if_pos he, if_pos hc]
      exact ⟨h.exec, h.pos, h.done, h.inner, h.waited, h.sched, Or.inr ⟨by rw [hr]; rfl, rfl, rfl⟩⟩
    · rw [if_neg (by rw [he]; simp)]
      exact ⟨h.exec, h.pos, h.done, h.inner, h.waited, h.sched, Or.inr ⟨hr, he, hc⟩⟩
  · rw [if_neg (by rw [h.done]; simp)]
    split <;> rename_i hw <;> rw [h.waited] at hw <;> try cases hw
    rw [if_pos h.enter, if_neg (by rw [h.cb]; simp)]
    right; right; right
    exact ⟨Or.inl h.exec, by simp [h.pos], by simp, fun _ => rfl, h.cb, by simp [h.ready]⟩
  · rw [if_neg (by rw [h.done]; simp)]
    right; right; left
    split
    · exact ⟨h.exec, h.pos, h.done, h.inner, h.sched, h.ready, h.enter, h.cb, h.waiting⟩
    · rw [if_neg (by rw [h.enter]; simp)]; exact ⟨h.exec, h.pos, h.done, h.inner, h.sched, h.ready, h.enter, h.cb, h.waiting⟩
    · split
      · exact ⟨h.exec, h.pos, h.done, h.inner, h.sched, h.ready, h.enter, h.cb, h.waiting⟩
      · exact ⟨h.exec, h.pos, h.done, h.inner, h.sched, h.ready, h.enter, h.cb, h.waiting⟩
    · split
      · rw [State.settle, if_neg (by rw [h.inner]; simp)]
        exact ⟨h.exec, h.pos, h.done, h.inner, h.sched, h.ready, h.enter, h.cb, h.waiting⟩
      · exact ⟨h.exec, h.pos, h.done, h.inner, h.sched, h.ready, h.enter, h.cb, h.waiting⟩
  · right; right; right
    split
    · exact h
    · split
      · exact ⟨h.exec, h.pos, h.enter, h.start, h.cb, h.ready⟩
      · rw [if_neg h.enter]; exact ⟨h.exec, h.pos, h.enter, h.start, h.cb, h.ready⟩
      · split <;> exact ⟨h.exec, h.pos, h.enter, h.start, h.cb, h.ready⟩
      · split
        · exact settle_outside h _
        · exact ⟨h.exec, h.pos, h.enter, h.start, h.cb, h.ready⟩

theorem complete_good {s : State} (h : Good s) : Good (s.step .complete).1 := by
  show Good (if s.inner = .pending then s.settle .finished else s)
  split
  · rcases h with h | h | h | h
    · left
      rw [State.settle, if_neg (by rw [h.inner]; simp)]
      exact ⟨h.exec, h.pos, h.done, h.inner, h.waited, h.sched, h.ready⟩
    · right; left
      rw [State.settle, if_neg (by rw [h.inner]; simp)]
      exact ⟨h.exec, h.pos, h.done, h.inner, h.waited, h.sched, h.ready, h.enter, h.cb, h.canc⟩
    · right; right; left
      rw [State.settle, if_neg (by rw [h.inner]; simp)]
      exact ⟨h.exec, h.pos, h.done, h.inner, h.sched, h.ready, h.enter, h.cb, h.waiting⟩
    · right; right; right
      exact settle_outside h _
  · exact h

/-- On the loop the coroutine is resumed behind the block. -/
theorem resume_outside {s : State} (h : Outside s) (b : Bool) :
    Outside (s.resume .loop b).1 ∧ ((s.resume .loop b).1.pos = .after ∨ (s.resume .loop b).1.pos = .finished) ∧ ∀ e ∈ (s.resume .loop b).2, e.pos = .after ∧ e.thread = .loop := by
  unfold State.resume
  cases hp : s.pos with
  | enter =>
    have := h.start hp
    cases b with
    | true => exact ⟨⟨h.exec, by simp, h.enter, by simp, h.cb, h.ready⟩, Or.inl rfl, by simp⟩
    | false => simp only [this]; exact ⟨⟨h.exec, by simp, by simp, by simp, h.cb, h.ready⟩, Or.inl rfl, by simp⟩
  | exit =>
    cases b with
    | true => exact ⟨⟨h.exec, by simp, h.enter, by simp, h.cb, h.ready⟩, Or.inl rfl, by simp⟩
    | false => exact ⟨⟨h.exec, by simp, h.enter, by simp, h.cb, h.ready⟩, Or.inl rfl, by simp⟩
  | body => exact absurd hp h.pos
  | after => exact ⟨⟨h.exec, by simp, h.enter, by simp, h.cb, h.ready⟩, Or.inl rfl, by simp⟩
  | finished => exact ⟨h, Or.inr hp, by simp⟩

theorem actLoop_outside {s : State} (h : Outside s) (a : Act) : Outside (s.actLoop a) := by
  unfold State.actLoop
  split
  · split
    · exact ⟨h.exec, h.pos, h.enter, h.start, h.cb, by simp [h.ready]⟩
    · exact ⟨h.exec, h.pos, h.enter, h.start, h.cb, h.ready⟩
  · exact ⟨h.exec, h.pos, h.enter, h.start, h.cb, by simp [h.ready]⟩
  · exact ⟨h.exec, by simp, h.enter, by simp, h.cb, h.ready⟩
  · exact ⟨h.exec, by simp, h.enter, by simp, h.cb, h.ready⟩

theorem stepTask_outside {s : State} (h : Outside s) (a : Act) : Outside (s.stepTask a).1 ∧ ∀ e ∈ (s.stepTask a).2, e.pos = .after ∧ e.thread = .loop := by
  unfold State.stepTask
  split
  · exact ⟨h, by simp⟩
  · have h' : Outside { s with cancelling := false } := ⟨h.exec, h.pos, h.enter, h.start, h.cb, h.ready⟩
    have := resume_outside h' s.cancelling
    exact ⟨actLoop_outside this.1 a, this.2.2⟩

theorem loop_good {s : State} (h : Good s) (a : Act) : Good (s.stepLoop a).1 ∧ ∀ e ∈ (s.stepLoop a).2, e.pos = .after ∧ e.thread = .loop := by
  unfold State.stepLoop
  rcases h with h | h | h | h
  · rcases h.ready with ⟨hr, he, hc, hn⟩ | ⟨hr, he, hc⟩
    · rw [hr]
      exact ⟨Or.inr (Or.inl ⟨rfl, h.pos, h.done, h.inner, h.waited, h.sched, rfl, he, rfl, hn⟩), by simp⟩
    · rw [hr]
      exact ⟨Or.inr (Or.inr (Or.inr ⟨Or.inl rfl, by simp [h.pos], by simp [he], fun _ => he, rfl, by simp⟩)), by simp⟩
  · rw [h.ready]; exact ⟨Or.inr (Or.inl h), by simp⟩
  · rw [h.ready]; exact ⟨Or.inr (Or.inr (Or.inl h)), by simp⟩
  · cases hr : s.ready with
    | nil => exact ⟨Or.inr (Or.inr (Or.inr h)), by simp⟩
    | cons x r =>
      have hn := h.ready
      rw [hr] at hn
      cases x with
      | enterExecutor => simp at hn
      | wakeUp =>
        have h' : Outside { s with ready := r, waited := .nothing } := ⟨h.exec, h.pos, h.enter, h.start, h.cb, by simpa using hn⟩
        exact ⟨Or.inr (Or.inr (Or.inr (stepTask_outside h' a).1)), (stepTask_outside h' a).2⟩
      | step =>
        have h' : Outside { s with ready := r } := ⟨h.exec, h.pos, h.enter, h.start, h.cb, by simpa using hn⟩
        exact ⟨Or.inr (Or.inr (Or.inr (stepTask_outside h' a).1)), (stepTask_outside h' a).2⟩

theorem resume_inside {s : State} (h : Inside s) (ht : s.exec = .top) (b : Bool) :
    Inside { (s.resume .executor b).1 with exec := .running } ∧ ∀ e ∈ (s.resume .executor b).2, e.thread = .executor := by
  unfold State.resume
  have hp : s.pos = .enter ∨ s.pos = .body ∨ s.pos = .after := by
    rcases h.pos with h | h | h
    · exact h.2
    · rw [ht] at h; simp at h
    · rw [ht] at h; simp at h
  rcases hp with hp | hp | hp
  · rw [hp]
    cases b with
    | true => exact ⟨⟨by simp, by simp, h.done, h.inner, h.sched, h.ready, h.enter, h.cb, by simp⟩, by simp⟩
    | false => simp only [h.enter]; exact ⟨⟨by simp, by simp, h.done, h.inner, h.sched, h.ready, by simp, h.cb, by simp⟩, by simp⟩
  · rw [hp]; exact ⟨⟨by simp, by simp, h.done, h.inner, h.sched, h.ready, h.enter, h.cb, by simp⟩, by simp⟩
  · rw [hp]; exact ⟨⟨by simp, by simp, h.done, h.inner, h.sched, h.ready, h.enter, h.cb, by simp⟩, by simp⟩

theorem exec_good {s : State} (h : Good s) : Good s.stepExec.1 ∧ ∀ e ∈ s.stepExec.2, e.thread = .executor := by
  rcases h with h | h | h | h
  · unfold State.stepExec
    rw [h.exec]; exact ⟨Or.inl h, by simp⟩
  · unfold State.stepExec
    rw [h.exec]
    simp only [h.enter, if_true]
    exact ⟨Or.inr (Or.inr (Or.inl ⟨by simp, Or.inl ⟨rfl, Or.inl h.pos⟩, h.done, h.inner, h.sched, h.ready, rfl, h.cb, by simp⟩)), by simp⟩
  · unfold State.stepExec
    rcases h.exec with he | he | he | he | he <;> rw [he] <;> simp only
    · rw [if_neg (by rw [h.done]; simp)]
      have := resume_inside h he s.cancelling
      exact ⟨Or.inr (Or.inr (Or.inl this.1)), this.2⟩
    · exact ⟨Or.inr (Or.inr (Or.inl h)), by simp⟩
    · have hp : s.pos = .body ∨ s.pos = .after := by
        rcases h.pos with h | h | h
        · rw [he] at h; simp at h
        · exact h.2
        · rw [he] at h; simp at h
      have hw := h.waiting (Or.inl he)
      split
      · exact ⟨Or.inr (Or.inr (Or.inl ⟨by simp, Or.inr (Or.inl ⟨by simp, hp⟩), h.done, h.inner, h.sched, h.ready, h.enter, h.cb, fun _ => hw⟩)), by simp⟩
      · exact ⟨Or.inr (Or.inr (Or.inl ⟨by simp, Or.inr (Or.inl ⟨by simp, hp⟩), h.done, h.inner, h.sched, h.ready, h.enter, h.cb, fun _ => hw⟩)), by simp⟩
    · split
      · exact ⟨Or.inr (Or.inr (Or.inl h)), by simp⟩
      · have hp : s.pos = .body ∨ s.pos = .after := by
          rcases h.pos with h | h | h
          · rw [he] at h; simp at h
          · exact h.2
          · rw [he] at h; simp at h
        exact ⟨Or.inr (Or.inr (Or.inl ⟨by simp, Or.inl ⟨rfl, Or.inr hp⟩, h.done, h.inner, h.sched, h.ready, h.enter, h.cb, by simp⟩)), by simp⟩
    · have hp : s.pos = .exit := by
        rcases h.pos with h | h | h
        · rw [he] at h; simp at h
        · rw [he] at h; simp at h
        · exact h.2
      split
      · exact ⟨Or.inr (Or.inr (Or.inr ⟨by simp, by simp [hp], by simp [h.enter], by simp [hp], h.cb, by simp [h.ready]⟩)), by simp⟩
      · exact ⟨Or.inr (Or.inr (Or.inr ⟨by simp, by simp [hp], by simp [h.enter], by simp [hp], h.cb, by simp [h.ready]⟩)), by simp⟩
  · unfold State.stepExec
    rcases h.exec with he | he | he <;> rw [he] <;> simp only
    · rw [if_neg h.enter]
      exact ⟨Or.inr (Or.inr (Or.inr ⟨by simp, h.pos, h.enter, h.start, h.cb, h.ready⟩)), by simp⟩
    · exact ⟨Or.inr (Or.inr (Or.inr h)), by simp⟩
    · exact ⟨Or.inr (Or.inr (Or.inr h)), by simp⟩

theorem act_good {s : State} (h : Good s) (hr : s.exec = .running) (a : Act) : Good (s.actExec a).1 ∧ ∀ e ∈ (s.actExec a).2, e.thread = .executor := by
  have h : Inside s := by
    rcases h with h | h | h | h
    · rw [h.exec] at hr; cases hr
    · rw [h.exec] at hr; cases hr
    · exact h
    · have := h.exec; rw [hr] at this; simp at this
  have hp : s.pos = .body ∨ s.pos = .after := by
    rcases h.pos with h | h | h
    · rw [hr] at h; simp at h
    · exact h.2
    · rw [hr] at h; simp at h
  unfold State.actExec
  split
  · split
    · exact ⟨Or.inr (Or.inr (Or.inl ⟨by simp, Or.inr (Or.inl ⟨by simp, hp⟩), h.done, h.inner, h.sched, h.ready, h.enter, h.cb, by simp⟩)), by simp⟩
    · exact ⟨Or.inr (Or.inr (Or.inl ⟨by simp, Or.inr (Or.inl ⟨by simp, hp⟩), h.done, h.inner, h.sched, h.ready, h.enter, h.cb, by simp⟩)), by simp⟩
  · exact ⟨Or.inr (Or.inr (Or.inl ⟨by simp, Or.inl ⟨rfl, Or.inr hp⟩, h.done, h.inner, h.sched, h.ready, h.enter, h.cb, by simp⟩)), by simp⟩
  · split
    · split
      · exact ⟨Or.inr (Or.inr (Or.inl ⟨by simp, by simp, h.done, h.inner, h.sched, h.ready, h.enter, h.cb, by simp⟩)), by simp⟩
      · exact ⟨Or.inr (Or.inr (Or.inl ⟨by simp, by simp, h.done, h.inner, h.sched, h.ready, h.enter, h.cb, by simp⟩)), by simp⟩
    · exact ⟨Or.inr (Or.inr (Or.inl ⟨h.exec, by simp [hr], h.done, h.inner, h.sched, h.ready, h.enter, h.cb, by simp [hr]⟩)), by simp⟩
  · split
    · split
      · exact ⟨Or.inr (Or.inr (Or.inr ⟨by simp, by simp, by simp [h.enter], by simp, h.cb, by simp [h.ready]⟩)), by simp⟩
      · exact ⟨Or.inr (Or.inr (Or.inr ⟨by simp, by simp, by simp [h.enter], by simp, h.cb, by simp [h.ready]⟩)), by simp⟩
    · exact ⟨Or.inr (Or.inr (Or.inr ⟨by simp, by simp, by simp [h.enter], by simp, h.cb, by simp [h.ready]⟩)), by simp⟩

theorem step_good {s : State} (h : Good s) (op : Op) : Good (s.step op).1 ∧ ∀ e ∈ (s.step op).2, e.pos = .body → e.thread = .executor := by
  cases op with
  | cancel => exact ⟨cancel_good h, nofun⟩
  | complete => exact ⟨complete_good h, nofun⟩
  | loop a => exact ⟨(loop_good h a).1, fun e he hb => by rw [((loop_good h a).2 e he).1] at hb; cases hb⟩
  | exec => exact ⟨(exec_good h).1, fun e he _ => (exec_good h).2 e he⟩
  | act a =>
    simp only [State.step]
    by_cases hr : s.exec = .running
    · rw [if_pos hr]; exact ⟨(act_good h hr a).1, fun e he _ => (act_good h hr a).2 e he⟩
    · rw [if_neg hr]; exact ⟨h, nofun⟩

theorem init_good : Good ({} : State) := Or.inl ⟨rfl, rfl, rfl, rfl, rfl, rfl, Or.inl ⟨rfl, rfl, rfl, rfl⟩⟩

theorem run_good {s : State} (h : Good s) (ops : List Op) : Good (s.run ops) := by
  induction ops generalizing s with
  | nil => exact h
  | cons op ops ih => exact ih (step_good h op).1

/-! ## Cancellation at harmless moments -/

/-- The task is cancelled while the block waits for a pending future, or when the executor thread gave the task back. -/
def CalmAt (s : State) : Prop := ((s.exec = .prepare ∨ s.exec = .wait) ∧ s.inner = .pending) ∨ s.exec = .stopped

/-- All cancellations of the run are so. -/
def Calm (s : State) : List Op → Prop
  | [] => True
  | op :: ops => (op = .cancel → CalmAt s) ∧ Calm (s.step op).1 ops

structure Back (s : State) : Prop where
  out : Outside s
  exec : s.exec = .stopped
  live : (s.done.isSome = true ∧ s.scheduled = true ∧ s.ready = [] ∧ s.innerCb = false) ∨
    (s.done = none ∧ (s.pos = .exit ∨ s.pos = .after) ∧ ((s.ready = [.step] ∧ s.innerCb = false) ∨ (s.ready = [.wakeUp] ∧ s.innerCb = false) ∨ (s.ready = [] ∧ s.innerCb = true ∧ s.inner = .pending)))

def Fine (s : State) : Prop :=
  (Before s ∧ s.enter = .pending) ∨ Queued s ∨ (Inside s ∧ s.cancelling = false ∧ s.exit = some .pending ∧ s.pos ≠ .after) ∨ Back s

theorem Fine.good {s : State} (h : Fine s) : Good s := by
  rcases h with h | h | h | h
  · exact Or.inl h.1
  · exact Or.inr (Or.inl h)
  · exact Or.inr (Or.inr (Or.inl h.1))
  · exact Or.inr (Or.inr (Or.inr h.out))

theorem Inside.ne_stopped {s : State} (h : Inside s) : s.exec ≠ .stopped := by
  intro hs
  have := h.exec
  rw [hs] at this
  simp at this

theorem cancel_fine {s : State} (h : Fine s) (hc : CalmAt s) : Fine s.cancel := by
  rcases h with h | h | h | h
  · unfold CalmAt at hc; rw [h.1.exec] at hc; simp at hc
  · unfold CalmAt at hc; rw [h.exec] at hc; simp at hc
  · right; right; left
    obtain ⟨h, h1, h2, h3⟩ := h
    rcases hc with ⟨hw, hp⟩ | hc
    · obtain ⟨hwi, _⟩ := h.waiting hw
      unfold State.cancel
      rw [if_neg (by rw [h.done]; simp)]
      split <;> rename_i hw' <;> rw [hwi] at hw' <;> try cases hw'
      rw [if_pos hp, State.settle, if_neg (by rw [h.inner]; simp)]
      exact ⟨⟨h.exec, h.pos, h.done, h.inner, h.sched, h.ready, h.enter, h.cb, h.waiting⟩, h1, h2, h3⟩
    · exact absurd hc h.ne_stopped
  · right; right; right
    have hout : Outside s.cancel := by
      rcases cancel_good (Or.inr (Or.inr (Or.inr h.out))) with h' | h' | h' | h'
      · have he : s.cancel.exec = s.exec := by
          unfold State.cancel State.settle
          repeat' split
          all_goals rfl
        rw [h'.exec, h.exec] at he; cases he
      · have he : s.cancel.exec = s.exec := by
          unfold State.cancel State.settle
          repeat' split
          all_goals rfl
        rw [h'.exec, h.exec] at he; cases he
      · have he : s.cancel.exec = s.exec := by
          unfold State.cancel State.settle
          repeat' split
          all_goals rfl
        rw [h.exec] at he; exact absurd he h'.ne_stopped
      · exact h'
    refine ⟨hout, ?_, ?_⟩
    · unfold State.cancel State.settle
      repeat' split
      all_goals exact h.exec
    · rcases h.live with ⟨h1, h2⟩ | ⟨h1, h2, h3⟩
      · left; unfold State.cancel; rw [if_pos h1]; exact ⟨h1, h2⟩
      · right
        unfold State.cancel
        rw [if_neg (by rw [h1]; simp)]
        split
        · exact ⟨h1, h2, h3⟩
        · rw [if_neg h.out.enter]; exact ⟨h1, h2, h3⟩
        · split <;> exact ⟨h1, h2, h3⟩
        · split
          · unfold State.settle
            rcases h3 with h3 | h3 | h3
            · rw [if_neg (by rw [h3.2]; simp)]; exact ⟨h1, h2, Or.inl h3⟩
            · rw [if_neg (by rw [h3.2]; simp)]; exact ⟨h1, h2, Or.inr (Or.inl h3)⟩
            · rw [if_pos h3.2.1]; exact ⟨h1, h2, Or.inr (Or.inl ⟨by simp [h3.1], rfl⟩)⟩
          · exact ⟨h1, h2, h3⟩

theorem complete_fine {s : State} (h : Fine s) : Fine (s.step .complete).1 := by
  show Fine (if s.inner = .pending then s.settle .finished else s)
  split
  · rename_i hp
    rcases h with ⟨h, h1⟩ | h | ⟨h, h1, h2, h3⟩ | h
    · left
      rw [State.settle, if_neg (by rw [h.inner]; simp)]
      exact ⟨⟨h.exec, h.pos, h.done, h.inner, h.waited, h.sched, h.ready⟩, h1⟩
    · right; left
      rw [State.settle, if_neg (by rw [h.inner]; simp)]
      exact ⟨h.exec, h.pos, h.done, h.inner, h.waited, h.sched, h.ready, h.enter, h.cb, h.canc⟩
    · right; right; left
      rw [State.settle, if_neg (by rw [h.inner]; simp)]
      exact ⟨⟨h.exec, h.pos, h.done, h.inner, h.sched, h.ready, h.enter, h.cb, h.waiting⟩, h1, h2, h3⟩
    · right; right; right
      refine ⟨settle_outside h.out _, ?_, ?_⟩
      · unfold State.settle; split <;> exact h.exec
      · unfold State.settle
        rcases h.live with h1 | ⟨h1, h2, h3⟩
        · rw [if_neg (by rw [h1.2.2.2]; simp)]; exact Or.inl h1
        · right
          rcases h3 with h3 | h3 | h3
          · rw [if_neg (by rw [h3.2]; simp)]; exact ⟨h1, h2, Or.inl h3⟩
          · rw [if_neg (by rw [h3.2]; simp)]; exact ⟨h1, h2, Or.inr (Or.inl h3)⟩
          · rw [if_pos h3.2.1]; exact ⟨h1, h2, Or.inr (Or.inl ⟨by simp [h3.1], rfl⟩)⟩
  · exact h

/-- Resumption on the loop leaves everything but the position. -/
theorem resume_after (s : State) (t : Thread) (b : Bool) (hp : s.pos = .exit ∨ s.pos = .after) :
    (s.resume t b).1 = { s with pos := .after, awaiting := false } := by
  unfold State.resume
  rcases hp with hp | hp <;> rw [hp]
  cases b <;> rfl

theorem stepTask_fine {s : State} (h : Outside s) (he : s.exec = .stopped) (hd : s.done = none) (hp : s.pos = .exit ∨ s.pos = .after) (hr : s.ready = [])
    (hi : s.innerCb = false) (a : Act) : Fine (s.stepTask a).1 := by
  right; right; right
  have hs : (s.stepTask a).1 = ({ s with cancelling := false, pos := .after, awaiting := false } : State).actLoop a := by
    unfold State.stepTask
    rw [if_neg (by rw [hd]; simp)]
    show (({ s with cancelling := false } : State).resume .loop s.cancelling).1.actLoop a = _
    rw [resume_after _ _ _ (by exact hp)]
  refine ⟨(stepTask_outside h a).1, ?_, ?_⟩
  · rw [hs]
    cases a <;> exact he
  · rw [hs]
    cases a with
    | awaits => right; exact ⟨hd, Or.inr rfl, Or.inr (Or.inr ⟨hr, rfl, rfl⟩)⟩
    | yields => right; exact ⟨hd, Or.inr rfl, Or.inl ⟨by simp [State.actLoop, Act.fit, hr], hi⟩⟩
    | leaves => right; exact ⟨hd, Or.inr rfl, Or.inl ⟨by simp [State.actLoop, Act.fit, hr], hi⟩⟩
    | ends o => left; exact ⟨rfl, rfl, hr, hi⟩

theorem loop_fine {s : State} (h : Fine s) (a : Act) : Fine (s.stepLoop a).1 := by
  rcases h with ⟨h, h1⟩ | h | ⟨h, h1, h2, h3⟩ | h
  · unfold State.stepLoop
    rcases h.ready with ⟨hr, he, hc, hn⟩ | ⟨hr, he, hc⟩
    · rw [hr]
      exact Or.inr (Or.inl ⟨rfl, h.pos, h.done, h.inner, h.waited, h.sched, rfl, he, rfl, hn⟩)
    · rw [he] at h1; cases h1
  · unfold State.stepLoop
    rw [h.ready]; exact Or.inr (Or.inl h)
  · unfold State.stepLoop
    rw [h.ready]; exact Or.inr (Or.inr (Or.inl ⟨h, h1, h2, h3⟩))
  · rcases h.live with h1 | ⟨h1, h2, h3⟩
    · unfold State.stepLoop
      rw [h1.2.2.1]; exact Or.inr (Or.inr (Or.inr h))
    · rcases h3 with h3 | h3 | h3
      · unfold State.stepLoop
        rw [h3.1]
        exact stepTask_fine (s := { s with ready := [] }) ⟨h.out.exec, h.out.pos, h.out.enter, h.out.start, h.out.cb, nofun⟩ h.exec h1 h2 rfl h3.2 a
      · unfold State.stepLoop
        rw [h3.1]
        exact stepTask_fine (s := { s with ready := [], waited := .nothing }) ⟨h.out.exec, h.out.pos, h.out.enter, h.out.start, h.out.cb, nofun⟩ h.exec h1 h2 rfl h3.2 a
      · unfold State.stepLoop
        rw [h3.1]; exact Or.inr (Or.inr (Or.inr h))

theorem exec_fine {s : State} (h : Fine s) : Fine s.stepExec.1 ∧ ∀ e ∈ s.stepExec.2, e.pos ≠ .after := by
  have hg := exec_good h.good
  rcases h with ⟨h, h1⟩ | h | ⟨h, h1, h2, h3⟩ | h
  · unfold State.stepExec
    rw [h.exec]; exact ⟨Or.inl ⟨h, h1⟩, by simp⟩
  · unfold State.stepExec at hg ⊢
    rw [h.exec] at hg ⊢
    simp only [h.enter, if_true] at hg ⊢
    exact ⟨Or.inr (Or.inr (Or.inl ⟨⟨by simp, Or.inl ⟨rfl, Or.inl h.pos⟩, h.done, h.inner, h.sched, h.ready, rfl, h.cb, by simp⟩, h.canc, rfl, by simp [h.pos]⟩)), by simp⟩
  · rcases h.exec with he | he | he | he | he
    · unfold State.stepExec
      rw [he]
      simp only
      rw [if_neg (by rw [h.done]; simp)]
      have hi := resume_inside h he s.cancelling
      have hp : s.pos = .enter ∨ s.pos = .body := by
        rcases h.pos with h | h | h
        · rcases h.2 with h | h | h
          · exact Or.inl h
          · exact Or.inr h
          · exact absurd h h3
        · rw [he] at h; simp at h
        · rw [he] at h; simp at h
      have hx : (s.resume .executor s.cancelling).1 = { s with pos := .body, awaiting := false } ∧ ∀ e ∈ (s.resume .executor s.cancelling).2, e.pos = .body := by
        unfold State.resume
        rcases hp with hp | hp <;> rw [hp, h1]
        · simp [h.enter]
        · simp
      refine ⟨Or.inr (Or.inr (Or.inl ⟨hi.1, ?_, ?_, ?_⟩)), ?_⟩
      · show (s.resume .executor s.cancelling).1.cancelling = false
        rw [hx.1]; exact h1
      · show (s.resume .executor s.cancelling).1.exit = _
        rw [hx.1]; exact h2
      · show (s.resume .executor s.cancelling).1.pos ≠ _
        rw [hx.1]; simp
      · intro e hm
        rw [hx.2 e hm]; simp
    · unfold State.stepExec
      rw [he]; exact ⟨Or.inr (Or.inr (Or.inl ⟨h, h1, h2, h3⟩)), by simp⟩
    · have hs : s.stepExec = ({ s with exec := .wait }, []) := by
        unfold State.stepExec
        rw [he]
        simp [h1, h.done]
      rw [hs] at hg ⊢
      refine ⟨Or.inr (Or.inr (Or.inl ⟨?_, h1, h2, h3⟩)), by simp⟩
      have hp : s.pos = .body ∨ s.pos = .after := by
        rcases h.pos with h | h | h
        · rw [he] at h; simp at h
        · exact h.2
        · rw [he] at h; simp at h
      exact ⟨by simp, Or.inr (Or.inl ⟨by simp, hp⟩), h.done, h.inner, h.sched, h.ready, h.enter, h.cb, fun _ => h.waiting (Or.inl he)⟩
    · unfold State.stepExec
      rw [he]
      simp only
      split
      · exact ⟨Or.inr (Or.inr (Or.inl ⟨h, h1, h2, h3⟩)), by simp⟩
      · have hp : s.pos = .body ∨ s.pos = .after := by
          rcases h.pos with h | h | h
          · rw [he] at h; simp at h
          · exact h.2
          · rw [he] at h; simp at h
        exact ⟨Or.inr (Or.inr (Or.inl ⟨⟨by simp, Or.inl ⟨rfl, Or.inr hp⟩, h.done, h.inner, h.sched, h.ready, h.enter, h.cb, by simp⟩, h1, h2, h3⟩)), by simp⟩
    · have hp : s.pos = .exit := by
        rcases h.pos with h | h | h
        · rw [he] at h; simp at h
        · rw [he] at h; simp at h
        · exact h.2
      unfold State.stepExec
      rw [he]
      simp only
      rw [if_pos h2]
      exact ⟨Or.inr (Or.inr (Or.inr ⟨⟨by simp, by simp [hp], by simp [h.enter], by simp [hp], h.cb, by simp [h.ready]⟩, rfl, Or.inr ⟨h.done, Or.inl hp, Or.inl ⟨by simp [h.ready], h.inner⟩⟩⟩)), by simp⟩
  · unfold State.stepExec
    rw [h.exec]; exact ⟨Or.inr (Or.inr (Or.inr h)), by simp⟩

theorem act_fine {s : State} (h : Fine s) (hr : s.exec = .running) (a : Act) : Fine (s.actExec a).1 ∧ (s.actExec a).2 = [] := by
  rcases h with ⟨h, h1⟩ | h | ⟨h, h1, h2, h3⟩ | h
  · rw [h.exec] at hr; cases hr
  · rw [h.exec] at hr; cases hr
  · have hp : s.pos = .body := by
      rcases h.pos with h | h | h
      · rw [hr] at h; simp at h
      · rcases h.2 with h | h
        · exact h
        · exact absurd h h3
      · rw [hr] at h; simp at h
    have key : Fine ({ s with pos := .exit, waited := .exit, exec := .exiting } : State) :=
      Or.inr (Or.inr (Or.inl ⟨⟨by simp, by simp, h.done, h.inner, h.sched, h.ready, h.enter, h.cb, by simp⟩, h1, h2, by simp⟩))
    have hl : s.actExec .leaves = ({ s with pos := .exit, waited := .exit, exec := .exiting }, []) := by
      unfold State.actExec
      have : Act.fit s.pos .leaves = .leaves := by rw [hp]; rfl
      rw [this]
      simp only
      rw [if_pos h2, if_neg (by rw [h1]; simp)]
    cases a with
    | awaits =>
      have hs : s.actExec .awaits = ({ s with inner := .pending, awaiting := true, waited := .inner, exec := .prepare }, []) := by
        unfold State.actExec
        have : Act.fit s.pos .awaits = .awaits := by rw [hp]; rfl
        rw [this]
        simp only
        rw [if_neg (by rw [h1]; simp)]
      rw [hs]
      exact ⟨Or.inr (Or.inr (Or.inl ⟨⟨by simp, Or.inr (Or.inl ⟨by simp, Or.inl hp⟩), h.done, h.inner, h.sched, h.ready, h.enter, h.cb, by simp⟩, h1, h2, h3⟩)), rfl⟩
    | yields =>
      have hs : s.actExec .yields = ({ s with exec := .top }, []) := by
        unfold State.actExec
        have : Act.fit s.pos .yields = .yields := by rw [hp]; rfl
        rw [this]
      rw [hs]
      exact ⟨Or.inr (Or.inr (Or.inl ⟨⟨by simp, Or.inl ⟨rfl, Or.inr (Or.inl hp)⟩, h.done, h.inner, h.sched, h.ready, h.enter, h.cb, by simp⟩, h1, h2, h3⟩)), rfl⟩
    | leaves => rw [hl]; exact ⟨key, rfl⟩
    | ends o =>
      have hs : s.actExec (.ends o) = s.actExec .leaves := by
        unfold State.actExec
        have h1 : Act.fit s.pos (.ends o) = .leaves := by rw [hp]; rfl
        have h2 : Act.fit s.pos .leaves = .leaves := by rw [hp]; rfl
        rw [h1, h2]
      rw [hs, hl]
      exact ⟨key, rfl⟩
  · rw [h.exec] at hr; cases hr

theorem step_fine {s : State} (h : Fine s) (op : Op) (hc : op = .cancel → CalmAt s) :
    Fine (s.step op).1 ∧ ∀ e ∈ (s.step op).2, e.pos = .after → e.thread = .loop := by
  cases op with
  | cancel => exact ⟨cancel_fine h (hc rfl), nofun⟩
  | complete => exact ⟨complete_fine h, nofun⟩
  | loop a => exact ⟨loop_fine h a, fun e he _ => ((loop_good h.good a).2 e he).2⟩
  | exec => exact ⟨(exec_fine h).1, fun e he ha => absurd ha ((exec_fine h).2 e he)⟩
  | act a =>
    simp only [State.step]
    by_cases hr : s.exec = .running
    · rw [if_pos hr, (act_fine h hr a).2]; exact ⟨(act_fine h hr a).1, nofun⟩
    · rw [if_neg hr]; exact ⟨h, nofun⟩

theorem init_fine : Fine ({} : State) := Or.inl ⟨⟨rfl, rfl, rfl, rfl, rfl, rfl, Or.inl ⟨rfl, rfl, rfl, rfl⟩⟩, rfl⟩

theorem run_fine {s : State} (h : Fine s) (ops : List Op) (hc : Calm s ops) : Fine (s.run ops) := by
  induction ops generalizing s with
  | nil => exact h
  | cons op ops ih => exact ih (step_fine h op hc.1).1 hc.2

/-! ## Dead ends -/

/-- Nothing will ever resume the coroutine: no handle, no callback, and the executor thread is gone. -/
def Stuck (s : State) : Prop := (s.exec = .died ∨ s.exec = .stopped) ∧ s.ready = [] ∧ s.innerCb = false ∧ s.enterCb = false

theorem step_stuck {s : State} (h : Stuck s) (op : Op) :
    Stuck (s.step op).1 ∧ (s.step op).1.done = s.done ∧ (s.step op).1.scheduled = s.scheduled ∧ (s.step op).1.pos = s.pos ∧ (s.step op).2 = [] := by
  obtain ⟨h1, h2, h3, h4⟩ := h
  cases op with
  | cancel =>
    show Stuck s.cancel ∧ s.cancel.done = s.done ∧ s.cancel.scheduled = s.scheduled ∧ s.cancel.pos = s.pos ∧ ([] : List Entry) = []
    unfold State.cancel
    split
    · exact ⟨⟨h1, h2, h3, h4⟩, rfl, rfl, rfl, rfl⟩
    · split
      · exact ⟨⟨h1, h2, h3, h4⟩, rfl, rfl, rfl, rfl⟩
      · rw [if_neg (show ¬ s.enterCb = true by rw [h4]; simp)]
        split
        · exact ⟨⟨h1, h2, h3, h4⟩, rfl, rfl, rfl, rfl⟩
        · exact ⟨⟨h1, h2, h3, h4⟩, rfl, rfl, rfl, rfl⟩
      · split <;> exact ⟨⟨h1, h2, h3, h4⟩, rfl, rfl, rfl, rfl⟩
      · rw [State.settle, if_neg (show ¬ s.innerCb = true by rw [h3]; simp)]
        split
        · exact ⟨⟨h1, h2, h3, h4⟩, rfl, rfl, rfl, rfl⟩
        · exact ⟨⟨h1, h2, h3, h4⟩, rfl, rfl, rfl, rfl⟩
  | complete =>
    simp only [State.step, State.settle]
    rw [if_neg (show ¬ s.innerCb = true by rw [h3]; simp)]
    split
    · exact ⟨⟨h1, h2, h3, h4⟩, rfl, rfl, rfl, trivial⟩
    · exact ⟨⟨h1, h2, h3, h4⟩, rfl, rfl, rfl, trivial⟩
  | loop a =>
    simp only [State.step, State.stepLoop]
    rw [h2]
    exact ⟨⟨h1, h2, h3, h4⟩, rfl, rfl, rfl, rfl⟩
  | exec =>
    simp only [State.step, State.stepExec]
    rcases h1 with h1 | h1 <;> rw [h1]
    · exact ⟨⟨Or.inl h1, h2, h3, h4⟩, rfl, rfl, rfl, rfl⟩
    · exact ⟨⟨Or.inr h1, h2, h3, h4⟩, rfl, rfl, rfl, rfl⟩
  | act a =>
    simp only [State.step]
    rw [if_neg (by rcases h1 with h1 | h1 <;> rw [h1] <;> simp)]
    exact ⟨⟨h1, h2, h3, h4⟩, rfl, rfl, rfl, rfl⟩

theorem run_stuck {s : State} (h : Stuck s) (ops : List Op) :
    (s.run ops).done = s.done ∧ (s.run ops).scheduled = s.scheduled ∧ (s.run ops).pos = s.pos ∧ s.trace ops = [] := by
  induction ops generalizing s with
  | nil => exact ⟨rfl, rfl, rfl, rfl⟩
  | cons op ops ih =>
    obtain ⟨h1, h2, h3, h4, h5⟩ := step_stuck h op
    obtain ⟨i1, i2, i3, i4⟩ := ih h1
    exact ⟨i1.trans h2, i2.trans h3, i3.trans h4, by simp only [State.trace]; rw [h5, i4]; rfl⟩

/-! ## C153: the task is not lost -/

/-- Whatever happens afterwards, the task is never done. -/
def Lost (s : State) : Prop := ∀ ops : List Op, (s.run ops).done = none

/-- If the task is cancelled only while the block waits for a future, or after the executor thread gave it back, the task is done or can
be continued: the loop holds a handle for it, or it waits for a pending future which will wake it up, or the executor thread is at work. -/
theorem C153_not_lost_partial (ops : List Op) (h : Calm {} ops) :
    let s := ({} : State).run ops
    s.done.isSome = true ∨ s.ready ≠ [] ∨ (s.inner = .pending ∧ s.innerCb = true) ∨ (s.exec ≠ .idle ∧ s.exec ≠ .stopped ∧ s.exec ≠ .died) := by
  show (({} : State).run ops).done.isSome = true ∨ _
  rcases run_fine init_fine ops h with ⟨h, h1⟩ | h | ⟨h, h1, h2, h3⟩ | h
  · right; left
    rcases h.ready with ⟨hr, _⟩ | ⟨hr, _⟩ <;> rw [hr] <;> simp
  · right; right; right; rw [h.exec]; simp
  · right; right; right
    rcases h.exec with he | he | he | he | he <;> rw [he] <;> simp
  · rcases h.live with h1 | ⟨_, _, h3 | h3 | h3⟩
    · exact Or.inl h1.1
    · right; left; rw [h3.1]; simp
    · right; left; rw [h3.1]; simp
    · right; right; left; exact ⟨h3.2.2, h3.2.1⟩

theorem lost_of_stuck {s : State} (h : Stuck s) (hd : s.done = none) : Lost s := fun ops => (run_stuck h ops).1.trans hd

/-- Cancelled after `_enter_executor`, before the executor thread starts: the callback was removed from the enter future, and `set_result`
raises. The task never ends. -/
theorem C153_entering_violated : Lost (({} : State).run [.loop .yields, .cancel, .exec]) :=
  lost_of_stuck ⟨Or.inl (by decide), by decide, by decide, by decide⟩ (by decide)

/-- Cancelled after the last `await` of the block: leaving it cancels the end future, and `set_result` raises. The task never ends. -/
theorem C153_last_section_violated :
    Lost (({} : State).run [.loop .yields, .exec, .exec, .act .awaits, .exec, .complete, .exec, .exec, .cancel, .act .leaves, .exec]) :=
  lost_of_stuck ⟨Or.inl (by decide), by decide, by decide, by decide⟩ (by decide)

/-- Cancelled while leaving. -/
theorem C153_leaving_violated : Lost (({} : State).run [.loop .yields, .exec, .exec, .act .leaves, .cancel, .exec]) :=
  lost_of_stuck ⟨Or.inl (by decide), by decide, by decide, by decide⟩ (by decide)

/-- The coroutine returned, in the executor thread: the state of the task is not written. -/
theorem C153_returned_violated :
    Lost (({} : State).run [.loop .yields, .exec, .exec, .cancel, .act .leaves, .act .awaits, .exec, .complete, .exec, .exec, .cancel, .act (.ends .returned)]) :=
  lost_of_stuck ⟨Or.inl (by decide), by decide, by decide, by decide⟩ (by decide)

example : Calm {} [.loop .yields, .exec, .exec, .act .awaits, .exec, .cancel, .exec, .exec, .act .leaves, .exec, .loop .awaits, .cancel, .loop (.ends .cancelled)] ∧
    (({} : State).run [.loop .yields, .exec, .exec, .act .awaits, .exec, .cancel, .exec, .exec, .act .leaves, .exec, .loop .awaits, .cancel, .loop (.ends .cancelled)]).done = some .cancelled := by
  simp only [Calm]
  refine ⟨?_, by decide⟩
  simp (config := { decide := true }) [CalmAt]

/-! ## C154: the block runs in the executor, the rest on the loop -/

/-- In all runs: the code of the block runs in the executor thread. -/
theorem C154_body_in_executor (ops : List Op) (e : Entry) (h : e ∈ ({} : State).trace ops) (hb : e.pos = .body) : e.thread = .executor := by
  have : ∀ (ops : List Op) (s : State), Good s → ∀ e ∈ s.trace ops, e.pos = .body → e.thread = .executor := by
    intro ops
    induction ops with
    | nil => intro s _ e he; cases he
    | cons op ops ih =>
      intro s hs e he hb
      rcases List.mem_append.1 he with he | he
      · exact (step_good hs op).2 e he hb
      · exact ih _ (step_good hs op).1 e he hb
  exact this ops {} init_good e h hb

/-- If the task is cancelled only at harmless moments the code behind the block runs on the loop. -/
theorem C154_after_on_loop_partial (ops : List Op) (h : Calm {} ops) (e : Entry) (he : e ∈ ({} : State).trace ops) (ha : e.pos = .after) : e.thread = .loop := by
  have : ∀ (ops : List Op) (s : State), Fine s → Calm s ops → ∀ e ∈ s.trace ops, e.pos = .after → e.thread = .loop := by
    intro ops
    induction ops with
    | nil => intro s _ _ e he; cases he
    | cons op ops ih =>
      intro s hs hc e he hb
      rcases List.mem_append.1 he with he | he
      · exact (step_fine hs op hc.1).2 e he hb
      · exact ih _ (step_fine hs op hc.1).1 hc.2 e he hb
  exact this ops {} init_fine h e he ha

/-- Cancelled before the first `await` of the block: the code behind the block runs in the executor thread. -/
theorem C154_violated : ⟨.executor, .after, .cancelledError⟩ ∈ ({} : State).trace [.loop .yields, .exec, .exec, .cancel, .act .leaves] := by
  decide

example : ({} : State).trace [.loop .yields, .exec, .exec, .act .awaits, .exec, .complete, .exec, .exec, .act .leaves, .exec, .loop .yields] =
    [⟨.executor, .body, .normal⟩, ⟨.executor, .body, .normal⟩, ⟨.loop, .after, .normal⟩] := by decide

/-! ## C155: cancellation reaches the block at its next `await` -/

/-- The next thing the coroutine meets is a `CancelledError`, in the executor thread. -/
def Next (s : State) : Prop := ∀ (ops : List Op) (e : Entry), (s.trace ops).head? = some e → e.seen = .cancelledError ∧ e.thread = .executor

/-- The awaited future is cancelled and the executor thread is about to notice. -/
def Told (s : State) : Prop :=
  Inside s ∧ (s.pos = .body ∨ s.pos = .after) ∧ (s.exec = .prepare ∨ s.exec = .wait ∨ s.exec = .top) ∧ ((s.inner = .cancelled ∧ s.awaiting = true) ∨ (s.cancelling = true ∧ s.exec = .top))

theorem Inside.loop {s : State} (h : Inside s) (a : Act) : s.stepLoop a = (s, []) := by unfold State.stepLoop; rw [h.ready]

theorem step_told {s : State} (h : Told s) (op : Op) :
    ((s.step op).2 = [] ∧ Told (s.step op).1) ∨ ∃ e, (s.step op).2 = [e] ∧ e.seen = .cancelledError ∧ e.thread = .executor := by
  obtain ⟨hi, hp, he, hk⟩ := h
  cases op with
  | cancel =>
    left
    refine ⟨rfl, ?_⟩
    show Told s.cancel
    unfold State.cancel
    rw [if_neg (by rw [hi.done]; simp)]
    have mk : ∀ s' : State, s'.exec = s.exec → s'.pos = s.pos → s'.done = s.done → s'.innerCb = s.innerCb → s'.scheduled = s.scheduled → s'.ready = s.ready →
        s'.enter = s.enter → s'.enterCb = s.enterCb → s'.waited = s.waited → s'.awaiting = s.awaiting → (s'.inner = s.inner ∨ s'.inner = .cancelled) → (s'.cancelling = s.cancelling ∨ s'.cancelling = true) → Told s' := by
      intro s' e1 e2 e3 e4 e5 e6 e7 e8 e9 e10 e11 e12
      refine ⟨⟨by rw [e1]; exact hi.exec, by rw [e1, e2]; exact hi.pos, by rw [e3]; exact hi.done, by rw [e4]; exact hi.inner, by rw [e5]; exact hi.sched, by rw [e6]; exact hi.ready, by rw [e7]; exact hi.enter, by rw [e8]; exact hi.cb, by rw [e1, e9, e10]; exact hi.waiting⟩, by rw [e2]; exact hp, by rw [e1]; exact he, ?_⟩
      rcases hk with ⟨k1, k2⟩ | ⟨k1, k2⟩
      · left; rw [e10]; refine ⟨?_, k2⟩; rcases e11 with e | e
        · rw [e]; exact k1
        · exact e
      · right; rw [e1]; refine ⟨?_, k2⟩; rcases e12 with e | e
        · rw [e]; exact k1
        · exact e
    split
    · exact mk _ rfl rfl rfl rfl rfl rfl rfl rfl rfl rfl (Or.inl rfl) (Or.inr rfl)
    · rw [if_neg (by rw [hi.enter]; simp)]; exact mk _ rfl rfl rfl rfl rfl rfl rfl rfl rfl rfl (Or.inl rfl) (Or.inr rfl)
    · split
      · exact mk _ rfl rfl rfl rfl rfl rfl rfl rfl rfl rfl (Or.inl rfl) (Or.inl rfl)
      · exact mk _ rfl rfl rfl rfl rfl rfl rfl rfl rfl rfl (Or.inl rfl) (Or.inr rfl)
    · split
      · rw [State.settle, if_neg (by rw [hi.inner]; simp)]; exact mk _ rfl rfl rfl rfl rfl rfl rfl rfl rfl rfl (Or.inr rfl) (Or.inl rfl)
      · exact mk _ rfl rfl rfl rfl rfl rfl rfl rfl rfl rfl (Or.inl rfl) (Or.inr rfl)
  | complete =>
    left
    refine ⟨rfl, ?_⟩
    show Told (if s.inner = .pending then s.settle .finished else s)
    split
    · rename_i hpend
      rcases hk with ⟨k1, _⟩ | hk
      · rw [hpend] at k1; cases k1
      · rw [State.settle, if_neg (by rw [hi.inner]; simp)]
        exact ⟨⟨hi.exec, hi.pos, hi.done, hi.inner, hi.sched, hi.ready, hi.enter, hi.cb, hi.waiting⟩, hp, he, Or.inr hk⟩
    · exact ⟨hi, hp, he, hk⟩
  | loop a =>
    left
    simp only [State.step]
    rw [hi.loop a]
    exact ⟨rfl, hi, hp, he, hk⟩
  | exec =>
    simp only [State.step]
    rcases he with he | he | he
    · left
      have hk' : s.inner = .cancelled ∧ s.awaiting = true := by
        rcases hk with hk | ⟨_, hk⟩
        · exact hk
        · rw [he] at hk; cases hk
      have hs : s.stepExec = ({ s with exec := .wait }, []) := by
        unfold State.stepExec
        rw [he]
        simp [hk'.1]
      rw [hs]
      refine ⟨rfl, ⟨by simp, Or.inr (Or.inl ⟨by simp, hp⟩), hi.done, hi.inner, hi.sched, hi.ready, hi.enter, hi.cb, fun _ => hi.waiting (Or.inl he)⟩, hp, by simp, Or.inl hk'⟩
    · left
      have hk' : s.inner = .cancelled ∧ s.awaiting = true := by
        rcases hk with hk | ⟨_, hk⟩
        · exact hk
        · rw [he] at hk; cases hk
      have hs : s.stepExec = ({ s with exec := .top }, []) := by
        unfold State.stepExec
        rw [he]
        simp [hk'.1]
      rw [hs]
      exact ⟨rfl, ⟨by simp, Or.inl ⟨rfl, Or.inr hp⟩, hi.done, hi.inner, hi.sched, hi.ready, hi.enter, hi.cb, by simp⟩, hp, by simp, Or.inl hk'⟩
    · right
      unfold State.stepExec
      rw [he]
      simp only
      rw [if_neg (by rw [hi.done]; simp)]
      refine ⟨⟨.executor, s.pos, .cancelledError⟩, ?_, rfl, rfl⟩
      show (s.resume .executor s.cancelling).2 = _
      unfold State.resume
      rcases hp with hp | hp <;> rw [hp]
      · rcases hk with ⟨k1, k2⟩ | ⟨k1, _⟩
        · cases hc : s.cancelling <;> simp [k1, k2, Fut.seen]
        · simp [k1]
      · rcases hk with ⟨k1, k2⟩ | ⟨k1, _⟩
        · cases hc : s.cancelling <;> simp [k1, k2, Fut.seen]
        · simp [k1]
  | act a =>
    left
    simp only [State.step]
    rw [if_neg (by rcases he with he | he | he <;> rw [he] <;> simp)]
    exact ⟨rfl, hi, hp, he, hk⟩

theorem next_of_told {s : State} (h : Told s) : Next s := by
  intro ops
  induction ops generalizing s with
  | nil => intro e he; cases he
  | cons op ops ih =>
    intro e he
    rcases step_told h op with ⟨h1, h2⟩ | ⟨e', h1, h2⟩
    · simp only [State.trace] at he
      rw [h1] at he
      exact ih h2 e he
    · simp only [State.trace] at he
      rw [h1] at he
      simp only [List.cons_append, List.head?_cons, Option.some.injEq] at he
      subst he
      exact h2

/-- Cancelled while the block waits for a pending future: the next thing it meets is a `CancelledError`. -/
theorem C155_waiting_partial (ops : List Op) (he : (({} : State).run ops).exec = .prepare ∨ (({} : State).run ops).exec = .wait)
    (hp : (({} : State).run ops).inner = .pending) : Next (({} : State).run (ops ++ [.cancel])) := by
  rw [run_append]
  have hg := run_good init_good ops
  generalize ({} : State).run ops = s at he hp hg
  have hi : Inside s := by
    rcases hg with h | h | h | h
    · rw [h.exec] at he; simp at he
    · rw [h.exec] at he; simp at he
    · exact h
    · rcases h.exec with h | h | h <;> rw [h] at he <;> simp at he
  obtain ⟨hw, hwa⟩ := hi.waiting he
  have hpos : s.pos = .body ∨ s.pos = .after := by
    rcases hi.pos with h | h | h
    · rw [h.1] at he; simp at he
    · exact h.2
    · rw [h.1] at he; simp at he
  apply next_of_told
  show Told s.cancel
  unfold State.cancel
  rw [if_neg (by rw [hi.done]; simp)]
  split <;> rename_i hw' <;> rw [hw] at hw' <;> try cases hw'
  rw [if_pos hp, State.settle, if_neg (by rw [hi.inner]; simp)]
  refine ⟨⟨hi.exec, hi.pos, hi.done, hi.inner, hi.sched, hi.ready, hi.enter, hi.cb, hi.waiting⟩, hpos, ?_, Or.inl ⟨rfl, hwa⟩⟩
  rcases he with he | he
  · exact Or.inl he
  · exact Or.inr (Or.inl he)

/-- Cancelled while the block computes, after an earlier `await` of the block: a `CancelledError` comes with its next `await` (or bare `yield`). -/
theorem C155_computing_partial (ops : List Op) (he : (({} : State).run ops).exec = .running) (hw : (({} : State).run ops).waited = .inner)
    (hp : (({} : State).run ops).inner ≠ .pending) (a : Act) (ha : a = .awaits ∨ a = .yields) :
    Next (({} : State).run (ops ++ [.cancel, .act a])) := by
  rw [run_append]
  have hg := run_good init_good ops
  generalize ({} : State).run ops = s at he hp hg hw
  have hi : Inside s := by
    rcases hg with h | h | h | h
    · rw [h.exec] at he; simp at he
    · rw [h.exec] at he; simp at he
    · exact h
    · rcases h.exec with h | h | h <;> rw [h] at he <;> simp at he
  have hpos : s.pos = .body ∨ s.pos = .after := by
    rcases hi.pos with h | h | h
    · rw [h.1] at he; simp at he
    · exact h.2
    · rw [h.1] at he; simp at he
  have hc : s.cancel = { s with cancelling := true } := by
    unfold State.cancel
    rw [if_neg (by rw [hi.done]; simp)]
    split <;> rename_i hw' <;> rw [hw] at hw' <;> try cases hw'
    rw [if_neg hp]
  apply next_of_told
  show Told (s.cancel.step (.act a)).1
  rw [hc]
  simp only [State.step]
  rw [if_pos (by exact he)]
  unfold State.actExec
  rcases ha with rfl | rfl
  · have : Act.fit s.pos .awaits = .awaits := by rcases hpos with h | h <;> rw [h] <;> rfl
    simp only [this, if_true]
    exact ⟨⟨by simp, Or.inr (Or.inl ⟨by simp, hpos⟩), hi.done, hi.inner, hi.sched, hi.ready, hi.enter, hi.cb, by simp⟩, hpos, by simp, Or.inl ⟨rfl, rfl⟩⟩
  · have : Act.fit s.pos .yields = .yields := by rcases hpos with h | h <;> rw [h] <;> rfl
    simp only [this]
    exact ⟨⟨by simp, Or.inl ⟨rfl, Or.inr hpos⟩, hi.done, hi.inner, hi.sched, hi.ready, hi.enter, hi.cb, by simp⟩, hpos, by simp, Or.inr ⟨rfl, rfl⟩⟩

/-- Cancelled before the first `await` of the block: all its `await`s go through as if nothing had happened, any number of times. -/
theorem C155_first_section_violated (n : Nat) :
    ({} : State).trace ([.loop .yields, .exec, .exec, .cancel] ++ (List.replicate n [.act .awaits, .exec, .complete, .exec, .exec]).flatten) =
      List.replicate (n + 1) ⟨.executor, .body, .normal⟩ := by
  have key : ∀ (n : Nat) (s : State), s.exec = .running → s.pos = .body → s.cancelling = false → s.done = none → s.innerCb = false →
      s.trace (List.replicate n [.act .awaits, .exec, .complete, .exec, .exec]).flatten = List.replicate n ⟨.executor, .body, .normal⟩ := by
    intro n
    induction n with
    | zero => intros; rfl
    | succ n ih =>
      intro s h1 h2 h3 h4 h5
      rw [List.replicate_succ, List.flatten_cons, trace_append, List.replicate_succ]
      have hr : s.run [.act .awaits, .exec, .complete, .exec, .exec] =
          { s with inner := .finished, awaiting := false, waited := .inner, exec := .running } ∧
          s.trace [.act .awaits, .exec, .complete, .exec, .exec] = [⟨.executor, .body, .normal⟩] := by
        obtain ⟨a1, a2, a3, a4, a5, a6, a7, a8, a9, a10, a11, a12, a13⟩ := s
        simp only at h1 h2 h3 h4 h5
        subst h1 h2 h3 h4 h5
        exact ⟨rfl, rfl⟩
      rw [hr.1, hr.2, ih { s with inner := .finished, awaiting := false, waited := .inner, exec := .running } rfl h2 h3 h4 h5]
      rfl
  rw [trace_append, key n (({} : State).run [.loop .yields, .exec, .exec, .cancel]) (by decide) (by decide) (by decide) (by decide) (by decide)]
  rfl

/-- One cancellation, many `CancelledError`s: the flag is not taken back before it is thrown. -/
theorem C155_repeated_violated (n : Nat) :
    (({} : State).run [.loop .yields, .exec, .exec, .act .awaits, .exec, .complete, .exec, .exec, .cancel]).trace (List.replicate n [.act .yields, .exec]).flatten =
      List.replicate n ⟨.executor, .body, .cancelledError⟩ := by
  have key : ∀ (n : Nat) (s : State), s.exec = .running → s.pos = .body → s.cancelling = true → s.done = none →
      s.trace (List.replicate n [.act .yields, .exec]).flatten = List.replicate n ⟨.executor, .body, .cancelledError⟩ := by
    intro n
    induction n with
    | zero => intros; rfl
    | succ n ih =>
      intro s h1 h2 h3 h4
      rw [List.replicate_succ, List.flatten_cons, trace_append, List.replicate_succ]
      have hr : s.run [.act .yields, .exec] = { s with awaiting := false, exec := .running } ∧ s.trace [.act .yields, .exec] = [⟨.executor, .body, .cancelledError⟩] := by
        obtain ⟨a1, a2, a3, a4, a5, a6, a7, a8, a9, a10, a11, a12, a13⟩ := s
        simp only at h1 h2 h3 h4
        subst h1 h2 h3 h4
        exact ⟨rfl, rfl⟩
      rw [hr.1, hr.2, ih { s with awaiting := false, exec := .running } rfl h2 h3 h4]
      rfl
  exact key n _ (by decide) (by decide) (by decide) (by decide)

/-! ## C156: who waits for the task is told -/

/-- If the task is cancelled only at harmless moments, its callbacks are scheduled when it is done. -/
theorem C156_told_partial (ops : List Op) (h : Calm {} ops) (hd : (({} : State).run ops).done.isSome = true) : (({} : State).run ops).scheduled = true := by
  rcases run_fine init_fine ops h with ⟨h, _⟩ | h | ⟨h, _⟩ | h
  · rw [h.done] at hd; cases hd
  · rw [h.done] at hd; cases hd
  · rw [h.done] at hd; cases hd
  · rcases h.live with h1 | ⟨h1, _⟩
    · exact h1.2.1
    · rw [h1] at hd; cases hd

/-- Whenever the coroutine ends in the executor thread, the callbacks of the task are never scheduled. -/
theorem C156_violated (ops : List Op) (he : (({} : State).run ops).exec = .running) (hp : (({} : State).run ops).pos = .after) (o : Outcome) (later : List Op) :
    (({} : State).run (ops ++ .act (.ends o) :: later)).scheduled = false := by
  rw [run_append]
  have hg := run_good init_good ops
  generalize ({} : State).run ops = s at he hp hg
  have hi : Inside s := by
    rcases hg with h | h | h | h
    · rw [h.exec] at he; simp at he
    · rw [h.exec] at he; simp at he
    · exact h
    · rcases h.exec with h | h | h <;> rw [h] at he <;> simp at he
  show ((s.step (.act (.ends o))).1.run later).scheduled = false
  have hs : Stuck (s.step (.act (.ends o))).1 ∧ (s.step (.act (.ends o))).1.scheduled = false := by
    simp only [State.step]
    rw [if_pos he]
    unfold State.actExec
    rw [hp]
    cases o with
    | returned =>
      simp only [Act.fit]
      split
      · exact ⟨⟨Or.inl rfl, hi.ready, hi.inner, hi.cb⟩, hi.sched⟩
      · exact ⟨⟨Or.inl rfl, hi.ready, hi.inner, hi.cb⟩, hi.sched⟩
    | cancelled => exact ⟨⟨Or.inl rfl, hi.ready, hi.inner, hi.cb⟩, hi.sched⟩
    | raised => exact ⟨⟨Or.inl rfl, hi.ready, hi.inner, hi.cb⟩, hi.sched⟩
  exact (run_stuck hs.1 later).2.1.trans hs.2

/-- It happens when the task is cancelled before the first `await` of the block. -/
example : let s := ({} : State).run [.loop .yields, .exec, .exec, .cancel, .act .leaves]
    s.exec = .running ∧ s.pos = .after ∧ (s.run [.act (.ends .cancelled)]).done = some .cancelled := by decide

end Verif.EnterExecutor
