import Verif.ThreadPool.Hope

/-! The steps of the threads and of the event loop come to an end. -/

namespace Verif.ThreadPool

def Thread.work (th : Thread) : Nat :=
  6 * th.queue.length +
    match th.pc with | .idle => 1 | .blocked => 0 | .ended => 0 | .running _ => 5 | .taken _ => 6

def Cb.work : Cb → Nat
  | .settle .. => 3
  | .cancel _ => 3
  | .doneCb _ => 2
  | .ended _ => 1

def sumTo (f : Nat → Nat) : Nat → Nat
  | 0 => 0
  | k + 1 => sumTo f k + f k

def State.work (s : State) : Nat := sumTo (fun t => (s.thread t).work) s.count + (s.ready.map Cb.work).sum

theorem sumTo_congr {f g : Nat → Nat} {k : Nat} (h : ∀ t, t < k → f t = g t) : sumTo f k = sumTo g k := by
  induction k with
  | zero => rfl
  | succ k ih => rw [sumTo, sumTo, ih (fun t ht => h t (by omega)), h k (by omega)]

theorem sumTo_upd (f : Nat → Thread) (t : Nat) (th : Thread) (k : Nat) (h : t < k) :
    sumTo (fun u => (upd f t th u).work) k + (f t).work = sumTo (fun u => (f u).work) k + th.work := by
  induction k with
  | zero => omega
  | succ k ih =>
    rw [sumTo, sumTo]
    by_cases hk : t = k
    · subst hk
      rw [upd_same, sumTo_congr (g := fun u => (f u).work) (fun u hu => by rw [upd_ne _ _ (by omega)])]
      omega
    · have := ih (by omega)
      rw [upd_ne _ _ (Ne.symm hk)]
      omega

theorem work_upd (s : State) (t : Nat) (th : Thread) (r : List Cb) (h : t < s.count) :
    ({ s with thread := upd s.thread t th, ready := r } : State).work + (s.thread t).work + (s.ready.map Cb.work).sum =
      s.work + th.work + (r.map Cb.work).sum := by
  have := sumTo_upd s.thread t th s.count h
  simp only [State.work]
  omega

/-- The step can be made by a thread of the pool or by the event loop. -/
def Enabled (s : State) : Op → Prop
  | .fetch t => t < s.count ∧ (s.thread t).pc = .idle
  | .start t => t < s.count ∧ ∃ n, (s.thread t).pc = .taken n
  | .finish t _ => t < s.count ∧ ∃ n, (s.thread t).pc = .running n
  | .loop => s.ready ≠ []
  | _ => False

theorem work_fetch {th : Thread} (h : th.pc = .idle) : th.fetch.work < th.work := by
  have : th.work = 6 * th.queue.length + 1 := by simp [Thread.work, h]
  rw [this]
  unfold Thread.fetch
  split
  · simp [Thread.work]
  · split
    · rename_i hq; simp [Thread.work, hq]
    · rename_i q hq; simp [Thread.work, hq]; omega
    · rename_i q hq; simp [Thread.work, hq]; omega

theorem work_settle (s : State) (n : Nat) (st : Stat) : (s.settle n st).work ≤ s.work + 2 := by
  unfold State.settle
  split
  · simp only [State.work, List.map_append, List.sum_append]
    cases s.home n with
    | none => simp
    | some t => simp [Cb.work]; omega
  · omega

theorem syncKeep_work (s : State) (t : Nat) : (s.syncKeep t).work = s.work := by
  obtain ⟨f1, f2, -, -, -, -, -, -, -, f10⟩ := syncKeep_frame s t
  simp only [State.work, f1, f2, f10]

theorem work_decreases {s : State} {op : Op} (h : Enabled s op) : (s.step op).1.work < s.work := by
  cases op with
  | fetch t =>
    have h : t < s.count ∧ (s.thread t).pc = .idle := h
    show (s.stepFetch t).work < _
    unfold State.stepFetch
    rw [if_pos h]
    have h1 := work_upd s t (s.thread t).fetch s.ready h.1
    have h2 := work_fetch h.2
    omega
  | start t =>
    obtain ⟨ht, n, hn⟩ := h
    show (s.stepStart t).1.work < _
    unfold State.stepStart
    simp only [hn]
    have h0 : (s.thread t).work = 6 * (s.thread t).queue.length + 6 := by simp [Thread.work, hn]
    split
    · have h1 := work_upd s t { s.thread t with pc := .running n } s.ready ht
      have h2 : ({ s.thread t with pc := .running n } : Thread).work = 6 * (s.thread t).queue.length + 5 := rfl
      rw [h2] at h1
      dsimp only at h1 ⊢
      omega
    · have h1 := work_upd s t { s.thread t with pc := .idle } s.ready ht
      have h2 : ({ s.thread t with pc := .idle } : Thread).work = 6 * (s.thread t).queue.length + 1 := rfl
      rw [h2] at h1
      dsimp only at h1 ⊢
      omega
  | finish t raw =>
    obtain ⟨ht, n, hn⟩ := h
    show (s.stepFinish t raw).1.work < _
    unfold State.stepFinish
    simp only [hn]
    have h0 : (s.thread t).work = 6 * (s.thread t).queue.length + 5 := by simp [Thread.work, hn]
    have h1 := work_upd s t { s.thread t with pc := .idle } (s.ready ++ [.settle n (deliver raw)]) ht
    have h2 : ({ s.thread t with pc := .idle } : Thread).work = 6 * (s.thread t).queue.length + 1 := rfl
    rw [h2] at h1
    simp only [List.map_append, List.sum_append, List.map_cons, List.map_nil, List.sum_cons, List.sum_nil, Cb.work] at h1
    omega
  | loop =>
    simp only [State.step]
    split
    · rename_i hr; exact absurd hr h
    · rename_i cb ready hr
      have h0 : s.work = ({ s with ready := ready } : State).work + cb.work := by
        simp only [State.work, hr, List.map_cons, List.sum_cons]; omega
      cases cb with
      | settle n o =>
        have := work_settle { s with ready := ready } n (.done o)
        rw [h0, State.runCb, Cb.work]; dsimp only; omega
      | cancel n =>
        have := work_settle { s with ready := ready } n .cancelled
        rw [h0, State.runCb, Cb.work]; dsimp only; omega
      | doneCb t =>
        rw [h0, State.runCb, Cb.work]
        simp only [State.work, List.map_append, List.sum_append, List.map_cons, List.map_nil, List.sum_cons, List.sum_nil,
          Cb.work]
        omega
      | ended t =>
        rw [h0, State.runCb, Cb.work]
        split
        · rw [syncKeep_work]; simp only [State.work]; omega
        · dsimp only; omega
  | _ => exact h.elim

/-- Each of the steps can be made when it is its turn. -/
def AllEnabled : State → List Op → Prop
  | _, [] => True
  | s, op :: ops => Enabled s op ∧ AllEnabled (s.step op).1 ops

theorem enabled_length {s : State} {ops : List Op} (h : AllEnabled s ops) : ops.length + (s.runOps ops).1.work ≤ s.work := by
  induction ops generalizing s with
  | nil => simp [State.runOps]
  | cons op ops ih =>
    have h1 := work_decreases h.1
    have h2 := ih h.2
    rw [State.runOps, List.length_cons]
    dsimp only
    omega

theorem quiet_or_enabled {s : State} : Quiet s ∨ ∃ op, Enabled s op := by
  by_cases hr : s.ready = []
  · by_cases ht : ∀ t, t < s.count → (s.thread t).pc = .blocked ∨ (s.thread t).pc = .ended
    · exact .inl ⟨ht, hr⟩
    · refine .inr ?_
      simp only [Classical.not_forall, not_or] at ht
      obtain ⟨t, hlt, h1, h2⟩ := ht
      cases hp : (s.thread t).pc with
      | idle => exact ⟨.fetch t, hlt, hp⟩
      | blocked => exact absurd hp h1
      | taken n => exact ⟨.start t, hlt, n, hp⟩
      | running n => exact ⟨.finish t (.value 0), hlt, n, hp⟩
      | ended => exact absurd hp h2
  · exact .inr ⟨.loop, hr⟩

/-- These steps execute nothing on a claimed executor. -/
theorem enabled_claimed {s : State} {ops : List Op} (h : AllEnabled s ops) : UsesClaimed s ops := by
  induction ops generalizing s with
  | nil => trivial
  | cons op ops ih =>
    refine ⟨?_, ih h.2⟩
    intro i t hop
    subst hop
    exact h.1.elim

end Verif.ThreadPool
