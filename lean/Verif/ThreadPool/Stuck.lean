import Verif.ThreadPool.Fixed

/-! A thread which runs a function starts nothing else before the function ends. -/

namespace Verif.ThreadPool

theorem running_step {s : State} (hg : Good s) {t n : Nat} (h : (s.thread t).pc = .running n) (op : Op)
    (hop : ∀ raw, op ≠ .finish t raw) : ((s.step op).1.thread t).pc = .running n := by
  have := step_change hg op t
  generalize (s.step op).1.thread t = th at this
  cases this with
  | same => exact h
  | put m _ => unfold Thread.put; simp only [h]
  | stop _ => unfold Thread.put; simp only [h]
  | fetch h' => rw [h] at h'; cases h'
  | start m h' => rw [h] at h'; cases h'
  | skip m h' _ => rw [h] at h'; cases h'
  | finish m _ raw e => exact absurd e (hop raw)
  | drop _ => unfold Thread.put; simp only [h]

theorem step_ran_taken {s : State} {op : Op} {t n : Nat} (h : Event.ran t n ∈ (s.step op).2) : (s.thread t).pc = .taken n := by
  cases op with
  | start u =>
    have h : Event.ran t n ∈ (s.stepStart u).2 := h
    unfold State.stepStart at h
    split at h
    · rename_i m hm
      split at h
      · simp at h; rw [h.1, h.2]; exact hm
      · simp at h
    · simp at h
  | run => exact absurd (show Event.ran t n ∈ [Event.submitted s.getFree.2 s.getFree.1.calls] from h) (by simp)
  | execute i =>
    have h : Event.ran t n ∈ (s.stepExecute i).2 := h
    unfold State.stepExecute at h
    split at h <;> simp at h
  | release i =>
    have h : Event.ran t n ∈ (s.stepRelease i).2 := h
    unfold State.stepRelease at h
    split at h
    · split at h <;> simp at h
    · simp at h
  | finish u raw =>
    have h : Event.ran t n ∈ (s.stepFinish u raw).2 := h
    unfold State.stepFinish at h
    split at h <;> simp at h
  | loop => simp only [State.step] at h; split at h <;> simp at h
  | cancel m => simp only [State.step] at h; split at h <;> simp at h
  | cancelAll => simp only [State.step] at h; split at h <;> simp at h
  | timer =>
    simp only [State.step] at h
    split at h
    · simp at h
    · split at h <;> simp at h
  | claim => exact absurd (show Event.ran t n ∈ ([] : List Event) from h) (by simp)
  | fetch u => exact absurd (show Event.ran t n ∈ ([] : List Event) from h) (by simp)
  | releaseAll => exact absurd (show Event.ran t n ∈ ([] : List Event) from h) (by simp)
  | wait d => exact absurd (show Event.ran t n ∈ ([] : List Event) from h) (by simp)

theorem running_run {s : State} (hg : Good s) {t n : Nat} (h : (s.thread t).pc = .running n) (ops : List Op)
    (hop : ∀ raw, Op.finish t raw ∉ ops) (m : Nat) : Event.ran t m ∉ (s.runOps ops).2 := by
  induction ops generalizing s with
  | nil => simp [State.runOps]
  | cons op ops ih =>
    rw [State.runOps]
    intro hm
    rcases List.mem_append.1 hm with e | e
    · have := step_ran_taken e; rw [h] at this; cases this
    · refine ih (hg.step op) (running_step hg h op fun raw e => hop raw ?_) (fun raw hr => hop raw (List.mem_cons_of_mem _ hr)) e
      rw [e]; exact List.mem_cons_self ..

end Verif.ThreadPool
