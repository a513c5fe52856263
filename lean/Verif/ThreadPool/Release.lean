import Verif.ThreadPool.Trace

/-! The timer which lets the free threads go. -/

namespace Verif.ThreadPool

/-- While there are free threads there is a timer. -/
def Armed (s : State) : Prop := s.free ≠ [] → s.timer ≠ none

theorem Armed.keep {s s' : State} (h : Armed s) (hf : s.free = [] → s'.free = []) (ht : s'.timer = s.timer) : Armed s' := by
  intro hne; rw [ht]; exact h fun e => hne (hf e)

theorem syncKeep_timer (s : State) (t : Nat) : (s.syncKeep t).timer ≠ none := by
  unfold State.syncKeep
  dsimp only
  split <;> simp_all

theorem settle_timer (s : State) (n : Nat) (st : Stat) : (s.settle n st).timer = s.timer := by
  unfold State.settle; split <;> rfl

theorem releaseStep_armed (s : State) (a b : Nat) : Armed (s.releaseStep a b) := by
  intro hf
  unfold State.releaseStep at hf ⊢
  dsimp only at hf ⊢
  by_cases h1 : s.lastSchedule > a
  · rw [if_pos h1]; simp
  · rw [if_neg h1] at hf ⊢
    cases h2 : s.free with
    | nil => simp only [h2] at hf; exact absurd rfl hf
    | cons t free =>
      dsimp only
      split
      · simp
      · split <;> simp

theorem getFree_timer (s : State) : s.getFree.1.timer = s.timer := by
  rcases getFree_cases s with ⟨t, free, hf, he⟩ | ⟨hf, he⟩ <;> rw [he]

theorem getFree_nil {s : State} (h : s.free = []) : s.getFree.1.free = [] := by
  rcases getFree_cases s with ⟨t, free, hf, he⟩ | ⟨hf, he⟩
  · rw [h] at hf; cases hf
  · rw [he]; exact h

theorem Armed.step {s : State} (hg : Good s) (h : Armed s) (op : Op) : Armed (s.step op).1 := by
  cases op with
  | run => exact h.keep (fun e => getFree_nil e) (getFree_timer s)
  | claim => exact h.keep (fun e => getFree_nil e) (getFree_timer s)
  | execute i =>
    show Armed (s.stepExecute i).1
    unfold State.stepExecute
    split
    · exact h.keep id rfl
    · exact h
    · exact h
  | release i =>
    show Armed (s.stepRelease i).1
    unfold State.stepRelease
    split
    · split
      · dsimp only
        split
        · exact fun _ => syncKeep_timer _ _
        · exact h.keep id rfl
      · exact h
    · exact h
  | fetch t =>
    show Armed (s.stepFetch t)
    unfold State.stepFetch
    split
    · exact h.keep id rfl
    · exact h
  | start t =>
    show Armed (s.stepStart t).1
    unfold State.stepStart
    split
    · split
      · exact h.keep id rfl
      · exact h.keep id rfl
    · exact h
  | finish t raw =>
    show Armed (s.stepFinish t raw).1
    unfold State.stepFinish
    split
    · exact h.keep id rfl
    · exact h
  | loop =>
    simp only [State.step]
    split
    · exact h
    · rename_i cb ready hr
      have key : ∀ n st, Armed (({ s with ready := ready } : State).settle n st) := fun n st =>
        h.keep (fun e => by rw [(settle_frame ..).2.2.1]; exact e) (settle_timer ..)
      cases cb with
      | settle n o => exact key n _
      | cancel n => exact key n _
      | doneCb t => exact h.keep id rfl
      | ended t =>
        rw [State.runCb]
        split
        · exact fun _ => syncKeep_timer _ _
        · exact h.keep id rfl
  | cancel n =>
    simp only [State.step]
    split
    · exact h.keep (fun e => by rw [(settle_frame ..).2.2.1]; exact e) (settle_timer ..)
    · exact h
  | cancelAll =>
    show Armed s.cancelAll.1
    rw [cancelAll_open hg.pool]
    exact fun hf => absurd rfl hf
  | releaseAll => exact fun hf => absurd rfl hf
  | wait d => exact h.keep id rfl
  | timer =>
    simp only [State.step]
    split
    · exact h
    · split
      · exact releaseStep_armed _ _ _
      · exact h

theorem armed_run {s : State} (hg : Good s) (h : Armed s) (ops : List Op) : Armed (s.runOps ops).1 := by
  induction ops generalizing s with
  | nil => exact h
  | cons op ops ih => exact ih (hg.step op) (h.step hg op)

/-! ## Firing -/

/-- The loop does nothing until the timer is due and `late` longer, and then fires it. -/
def State.fire (s : State) (late : Nat) : State :=
  match s.timer with
  | none => s
  | some tm => ((s.step (.wait (tm.due - s.now + late))).1.step .timer).1

def State.fires : State → List Nat → State
  | s, [] => s
  | s, late :: lates => (s.fire late).fires lates

theorem fire_eq {s : State} {tm : Timer} (h : s.timer = some tm) (late : Nat) :
    s.fire late = ({ s with now := s.now + (tm.due - s.now + late) } : State).releaseStep tm.scheduleTime tm.interval := by
  unfold State.fire
  simp only [h, State.step]
  rw [if_pos (by omega)]

/-- Firing is a run like any other. -/
theorem fires_run (s : State) (lates : List Nat) : ∃ ops, s.fires lates = (s.runOps ops).1 := by
  induction lates generalizing s with
  | nil => exact ⟨[], rfl⟩
  | cons late lates ih =>
    obtain ⟨ops, he⟩ := ih (s.fire late)
    rw [State.fires, he]
    unfold State.fire
    split
    · exact ⟨ops, rfl⟩
    · rename_i tm _
      exact ⟨.wait (tm.due - s.now + late) :: .timer :: ops, rfl⟩

/-- The first free thread is released in the next firing, and not in the one after it. -/
def State.todo (s : State) : Nat :=
  match s.timer with
  | none => 0
  | some tm => 2 * s.free.length + 1 + if s.lastSchedule > tm.scheduleTime then 1 else 0

/-- Nothing holds the firing back. -/
def Unheld (s : State) : Prop := s.running = [] ∨ s.kept = 0

theorem fire_frame (s : State) (late : Nat) :
    (s.fire late).running = s.running ∧ (s.fire late).claimed = s.claimed ∧ (s.fire late).count = s.count := by
  cases hm : s.timer with
  | none => unfold State.fire; simp only [hm]; exact ⟨trivial, trivial, trivial⟩
  | some tm =>
    rw [fire_eq hm]
    rcases releaseStep_cases { s with now := s.now + (tm.due - s.now + late) } tm.scheduleTime tm.interval with
      ⟨k, l, x, he⟩ | ⟨t, free, k, l, x, hf, he⟩
    · rw [he]; exact ⟨rfl, rfl, rfl⟩
    · rw [he]; exact ⟨rfl, rfl, rfl⟩

theorem fire_unheld {s : State} (h : Unheld s) (late : Nat) : Unheld (s.fire late) := by
  rcases h with h | h
  · exact .inl ((fire_frame s late).1.trans h)
  · refine .inr ?_
    cases hm : s.timer with
    | none => unfold State.fire; simp only [hm]; exact h
    | some tm =>
      rw [fire_eq hm]
      unfold State.releaseStep
      dsimp only
      split
      · exact h
      · split
        · exact h
        · simp [h, State.put]

theorem releaseStep_later {s : State} {a : Nat} (h : s.lastSchedule > a) (b : Nat) :
    s.releaseStep a b = { s with timer := some ⟨s.now + (b + interval), s.lastSchedule, b + interval⟩ } := by
  unfold State.releaseStep; dsimp only; rw [if_pos h]

theorem releaseStep_none {s : State} {a : Nat} (h : ¬ s.lastSchedule > a) (hf : s.free = []) (b : Nat) :
    s.releaseStep a b = { s with timer := none } := by
  unfold State.releaseStep; dsimp only; rw [if_neg h]; simp only [hf]

theorem releaseStep_held {s : State} {a : Nat} (h : ¬ s.lastSchedule > a) {t : Nat} {free : List Nat} (hf : s.free = t :: free)
    (hh : s.kept > 0 ∧ s.running.length + 1 > s.kept) (b : Nat) :
    s.releaseStep a b =
      { s with lastSchedule := s.now, timer := some ⟨s.now + (b + interval), s.lastSchedule, b + interval⟩ } := by
  unfold State.releaseStep; dsimp only; rw [if_neg h]; simp only [hf]; rw [if_pos hh]

theorem releaseStep_go {s : State} {a : Nat} (h : ¬ s.lastSchedule > a) {t : Nat} {free : List Nat} (hf : s.free = t :: free)
    (hu : Unheld s) (b : Nat) : ∃ k i, s.releaseStep a b =
      { s with
        free := free, thread := upd s.thread t ((s.thread t).put none), kept := k, lastSchedule := s.now,
        timer := some ⟨s.now + i, s.lastSchedule, i⟩ } := by
  have hno : ¬ (s.kept > 0 ∧ s.running.length + 1 > s.kept) := by
    rcases hu with h | h
    · rw [h]; simp only [List.length_nil]; omega
    · omega
  unfold State.releaseStep
  dsimp only
  rw [if_neg h]
  simp only [hf]
  rw [if_neg hno]
  split
  · exact ⟨_, _, rfl⟩
  · exact ⟨_, _, rfl⟩

theorem fire_todo {s : State} (hu : Unheld s) (late : Nat) : (s.fire late).todo ≤ s.todo - 1 := by
  cases hm : s.timer with
  | none => unfold State.fire; simp [hm, State.todo]
  | some tm =>
    rw [fire_eq hm]
    have h0 : s.todo = 2 * s.free.length + 1 + if s.lastSchedule > tm.scheduleTime then 1 else 0 := by
      simp only [State.todo, hm]
    rw [h0]
    by_cases h1 : s.lastSchedule > tm.scheduleTime
    · rw [if_pos h1, releaseStep_later (s := { s with now := s.now + (tm.due - s.now + late) }) h1]
      simp [State.todo]
    · rw [if_neg h1]
      have hc : s.free = [] ∨ ∃ t free, s.free = t :: free := by cases s.free <;> simp
      rcases hc with hf | ⟨t, free, hf⟩
      · rw [releaseStep_none (s := { s with now := s.now + (tm.due - s.now + late) }) h1 hf]
        simp [State.todo]
      · obtain ⟨k, i, he⟩ := releaseStep_go (s := { s with now := s.now + (tm.due - s.now + late) }) h1 hf hu tm.interval
        rw [he]
        simp only [State.todo, hf, List.length_cons]
        split <;> omega

theorem fires_todo {s : State} (hu : Unheld s) (lates : List Nat) : (s.fires lates).todo ≤ s.todo - lates.length := by
  induction lates generalizing s with
  | nil => simp [State.fires]
  | cons late lates ih =>
    have h1 := fire_todo hu late
    have h2 := ih (fire_unheld hu late)
    rw [State.fires, List.length_cons]
    omega

theorem fires_frame (s : State) (lates : List Nat) :
    (s.fires lates).running = s.running ∧ (s.fires lates).claimed = s.claimed ∧ (s.fires lates).count = s.count := by
  induction lates generalizing s with
  | nil => exact ⟨rfl, rfl, rfl⟩
  | cons late lates ih =>
    obtain ⟨a, b, c⟩ := ih (s.fire late)
    obtain ⟨a', b', c'⟩ := fire_frame s late
    exact ⟨a.trans a', b.trans b', c.trans c'⟩

theorem todo_le (s : State) : s.todo ≤ 2 * s.free.length + 2 := by
  unfold State.todo
  split
  · omega
  · split <;> omega

theorem todo_zero {s : State} (h : s.todo = 0) : s.timer = none := by
  unfold State.todo at h
  split at h
  · assumption
  · omega

end Verif.ThreadPool
