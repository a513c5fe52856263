/-
Properties C191 - C193: the semaphores of the asyncio extension.
-/
import Verif.Asyncio.Semaphore

namespace Verif.Asyncio.Sem

/-! ### C191: a semaphore counts -/

/-- How often a semaphore was released. -/
def releases (l : List Op) : Nat := l.count .release

theorem wake_frame (s : S) :
    s.wakeUpNext.value = s.value ∧ s.wakeUpNext.bound = s.bound ∧ s.wakeUpNext.got = s.got ∧
    s.wakeUpNext.next = s.next ∧ s.wakeUpNext.failed = s.failed := ⟨rfl, rfl, rfl, rfl, rfl⟩

theorem enter_sum (s : S) (i : Nat) :
    (s.enter i).value + (s.enter i).got.length = s.value + s.got.length ∧ (s.enter i).bound = s.bound := by
  unfold S.enter
  split
  · exact ⟨rfl, rfl⟩
  · refine ⟨?_, rfl⟩
    simp only [List.length_append, List.length_singleton]
    omega

theorem resume_sum (s : S) :
    s.resume.value + s.resume.got.length = s.value + s.got.length ∧ s.resume.bound = s.bound := by
  unfold S.resume
  split
  · exact ⟨rfl, rfl⟩
  · exact enter_sum _ _
  · exact ⟨rfl, rfl⟩
  · simp only
    split <;> exact ⟨rfl, rfl⟩

theorem cancel_frame (s : S) (i : Nat) :
    (s.cancel i).value = s.value ∧ (s.cancel i).got = s.got ∧ (s.cancel i).bound = s.bound := by
  unfold S.cancel
  split <;> exact ⟨rfl, rfl, rfl⟩

/-- A semaphore which is not bounded: the calls which returned and the value together are
what it began with and the releases. So the calls which returned are never more. -/
theorem C191_counts (v : Nat) (l : List Op) :
    (run (S.new v false) l).got.length + (run (S.new v false) l).value = v + releases l := by
  have key : ∀ (l : List Op) (s : S), s.bound = none →
      (run s l).got.length + (run s l).value = s.value + s.got.length + releases l := by
    intro l
    induction l with
    | nil => intro s _; simp [run, releases]; omega
    | cons o l ih =>
      intro s hb
      have e : run s (o :: l) = run (step s o) l := rfl
      rw [e]
      cases o with
      | acquire =>
        have := enter_sum { s with next := s.next + 1 } s.next
        rw [ih (step s .acquire) (this.2.trans hb)]
        simp only [step, releases, List.count_cons]
        have := this.1
        simp at this ⊢
        omega
      | release =>
        have hs : step s .release = S.wakeUpNext { s with value := s.value + 1 } := by
          simp only [step, S.release]; split
          · rfl
          · next b hx => exact absurd (hb.symm.trans hx) nofun
        rw [hs, ih (S.wakeUpNext { s with value := s.value + 1 }) hb]
        simp only [S.wakeUpNext, releases, List.count_cons]
        simp
        omega
      | cancel i =>
        have hf := cancel_frame s i
        rw [show step s (.cancel i) = s.cancel i from rfl, ih _ (hf.2.2.trans hb)]
        rw [hf.1, hf.2.1]
        simp only [releases, List.count_cons]
        simp
      | run =>
        have hf := resume_sum s
        rw [show step s .run = s.resume from rfl, ih _ (hf.2.trans hb)]
        have := hf.1
        simp only [releases, List.count_cons]
        simp
        omega
  have := key l (S.new v false) rfl
  simpa [S.new] using this

/-- The value of a bounded semaphore is never above what it began with, and the calls which
returned are never more than that and the releases. -/
theorem C191_bounded (v : Nat) (l : List Op) :
    (run (S.new v true) l).value ≤ v ∧ (run (S.new v true) l).got.length ≤ v + releases l := by
  have key : ∀ (l : List Op) (s : S), s.bound = some v → s.value ≤ v →
      (run s l).value ≤ v ∧ (run s l).got.length + (run s l).value ≤ s.value + s.got.length + releases l := by
    intro l
    induction l with
    | nil => intro s _ h; simp [run, releases]; omega
    | cons o l ih =>
      intro s hb hv
      have e : run s (o :: l) = run (step s o) l := rfl
      rw [e]
      cases o with
      | acquire =>
        have h1 := enter_sum { s with next := s.next + 1 } s.next
        have hle : (step s .acquire).value ≤ v := by
          simp only [step, S.enter]; split
          · exact hv
          · simp only; omega
        have := ih (step s .acquire) (h1.2.trans hb) hle
        refine ⟨this.1, Nat.le_trans this.2 ?_⟩
        have h2 := h1.1
        simp only [step, releases, List.count_cons] at h2 ⊢
        simp
        omega
      | release =>
        by_cases hx : s.value ≥ v
        · have hs : step s .release = s := by simp [step, S.release, hb, hx]
          rw [hs]
          have := ih s hb hv
          refine ⟨this.1, Nat.le_trans this.2 ?_⟩
          simp [releases]
        · have hs : step s .release = S.wakeUpNext { s with value := s.value + 1 } := by
            simp [step, S.release, hb, hx]
          rw [hs]
          have := ih (S.wakeUpNext { s with value := s.value + 1 }) hb (by simp only [wake_frame]; omega)
          refine ⟨this.1, Nat.le_trans this.2 ?_⟩
          simp only [wake_frame, releases, List.count_cons]
          simp
          omega
      | cancel i =>
        have hf := cancel_frame s i
        have := ih (s.cancel i) (hf.2.2.trans hb) (by rw [hf.1]; exact hv)
        refine ⟨this.1, Nat.le_trans this.2 ?_⟩
        rw [hf.1, hf.2.1]
        simp [releases]
      | run =>
        have hf := resume_sum s
        have hle : s.resume.value ≤ v := by
          unfold S.resume
          split
          · exact hv
          · simp only [S.enter]; split
            · exact hv
            · simp only; omega
          · exact hv
          · simp only; split <;> exact hv
        have := ih s.resume (hf.2.trans hb) hle
        refine ⟨this.1, Nat.le_trans this.2 ?_⟩
        have h2 := hf.1
        simp [releases]
        omega
  have := key l (S.new v true) rfl (Nat.le_refl _)
  simp only [S.new, List.length_nil, Nat.add_zero] at this
  refine ⟨this.1, ?_⟩
  have h2 := this.2
  simp only [S.new] at h2 ⊢
  omega

/-! ### C192: nobody waits for what is free -/

/-- The calls which wait. -/
def S.waiting (s : S) : List Nat := (s.waiters.filter (fun w => !w.2)).map (·.1)

/-- The resumed calls of which the future has a result. -/
def S.woken (s : S) : Nat := (s.ready.filter (fun w => w.2 != .cancelled)).length

theorem popNext_waiting (l : List (Nat × Bool)) :
    (popNext l).2.filter (fun w => !w.2) = (l.filter (fun w => !w.2)).tail ∧
    (popNext l).1 = ((l.filter (fun w => !w.2)).map (·.1)).head? := by
  induction l with
  | nil => exact ⟨rfl, rfl⟩
  | cons w l ih =>
    obtain ⟨i, c⟩ := w
    cases c with
    | true => simpa [popNext] using ih
    | false => simp [popNext]

theorem wake_woken (s : S) (hv : s.value ≤ s.woken + 1 ∨ s.waiting = []) :
    s.wakeUpNext.value ≤ s.wakeUpNext.woken ∨ s.wakeUpNext.waiting = [] := by
  have h := popNext_waiting s.waiters
  cases hp : (popNext s.waiters).1 with
  | none =>
    refine .inr ?_
    have : (s.waiters.filter (fun w => !w.2)).map (·.1) = [] := by
      rw [hp] at h; exact List.head?_eq_none_iff.1 h.2.symm
    have h0 : s.waiters.filter (fun w => !w.2) = [] := List.map_eq_nil_iff.1 this
    simp only [S.waiting, S.wakeUpNext, h.1, h0, List.tail_nil, List.map_nil]
  | some i =>
    rcases hv with hv | hv
    · refine .inl ?_
      have e : s.wakeUpNext.woken = s.woken + 1 := by
        simp [S.woken, S.wakeUpNext, hp, List.filter_append]
      rw [e]; exact hv
    · have : ((s.waiters.filter (fun w => !w.2)).map (·.1)).head? = some i := h.2.symm.trans hp
      rw [show (s.waiters.filter (fun w => !w.2)).map (·.1) = [] from hv] at this
      exact absurd this nofun

theorem enter_woken (s : S) (i : Nat) (hv : s.value ≤ s.woken + 1 ∨ s.waiting = []) :
    (s.enter i).value ≤ (s.enter i).woken ∨ (s.enter i).waiting = [] := by
  unfold S.enter
  split
  · next h => exact .inl (by simp only; omega)
  · rcases hv with hv | hv
    · refine .inl ?_
      show s.value - 1 ≤ s.woken
      omega
    · exact .inr hv

/-- The value is not more than the calls which are about to go on, or nobody waits. -/
theorem step_woken (s : S) (o : Op) (h : s.value ≤ s.woken ∨ s.waiting = []) :
    (step s o).value ≤ (step s o).woken ∨ (step s o).waiting = [] := by
  cases o with
  | acquire =>
    exact enter_woken { s with next := s.next + 1 } _ (h.imp (fun h => Nat.le_trans h (Nat.le_succ _)) id)
  | release =>
    have key : (S.wakeUpNext { s with value := s.value + 1 }).value ≤ (S.wakeUpNext { s with value := s.value + 1 }).woken ∨
        (S.wakeUpNext { s with value := s.value + 1 }).waiting = [] :=
      wake_woken { s with value := s.value + 1 } (h.imp (fun h => Nat.add_le_add_right h 1) id)
    simp only [step, S.release]
    split
    · exact key
    · split
      · exact h
      · exact key
  | cancel i =>
    simp only [step, S.cancel]
    split
    · have e1 : ∀ ws : List (Nat × Bool), ws.filter (fun w => !w.2) = [] →
          (ws.map (fun w => if w = (i, false) then (i, true) else w)).filter (fun w => !w.2) = [] := by
        intro ws hws
        rw [List.filter_eq_nil_iff] at hws ⊢
        intro w hw
        obtain ⟨x, hx, e⟩ := List.mem_map.1 hw
        have := hws x hx
        subst e
        split
        · simp
        · exact this
      rcases h with h | h
      · refine .inl ?_
        simp only [S.woken, List.filter_append] at h ⊢
        simpa using h
      · refine .inr ?_
        simp only [S.waiting, List.map_eq_nil_iff] at h ⊢
        exact e1 _ h
    · have e2 : ∀ rs : List (Nat × Go),
          ((rs.map (fun w => if w = (i, .ok) then (i, .late) else w)).filter (fun w => w.2 != .cancelled)).length
            = (rs.filter (fun w => w.2 != .cancelled)).length := by
        intro rs
        induction rs with
        | nil => rfl
        | cons r rs ih =>
          simp only [List.map_cons, List.filter_cons]
          by_cases hr : r = (i, Go.ok)
          · subst hr; simp [ih]
          · simp only [if_neg hr]; split <;> simp [ih]
      rcases h with h | h
      · refine .inl ?_
        simp only [S.woken, e2] at h ⊢
        exact h
      · exact .inr h
  | run =>
    simp only [step, S.resume]
    split
    · exact h
    · next i l hr =>
      refine enter_woken { s with ready := l } i (h.imp (fun h => ?_) id)
      have e : s.woken = S.woken { s with ready := l } + 1 := by simp [S.woken, hr]
      rw [e] at h; exact h
    · next i l hr =>
      have e : s.woken = S.woken { s with ready := l, failed := s.failed ++ [i] } := by simp [S.woken, hr]
      exact h.imp (fun h => by rw [e] at h; exact h) id
    · next i l hr =>
      have e : s.woken = S.woken { s with ready := l, failed := s.failed ++ [i] } + 1 := by simp [S.woken, hr]
      split
      · refine wake_woken { s with ready := l, failed := s.failed ++ [i] } (h.imp (fun h => ?_) id)
        rw [e] at h; exact h
      · next hv => exact .inl (by simp only; omega)

/-- When the loop has nothing to resume and the value is not zero nobody waits. -/
theorem C192_nobody_waits (v : Nat) (b : Bool) (l : List Op) (hr : (run (S.new v b) l).ready = [])
    (hv : 0 < (run (S.new v b) l).value) : (run (S.new v b) l).waiting = [] := by
  have key : ∀ (l : List Op) (s : S), (s.value ≤ s.woken ∨ s.waiting = []) →
      ((run s l).value ≤ (run s l).woken ∨ (run s l).waiting = []) := by
    intro l
    induction l with
    | nil => intro s h; exact h
    | cons o l ih => intro s h; exact ih _ (step_woken s o h)
  rcases key l (S.new v b) (.inr rfl) with h | h
  · simp only [S.woken, hr] at h
    simp at h
    omega
  · exact h

/-- What there is to do for the loop. -/
def S.todo (s : S) : Nat := (s.ready.map (fun w => match w.2 with | .late => 2 | _ => 1)).sum

theorem run_todo (s : S) : s.resume.todo ≤ s.todo - 1 := by
  unfold S.resume
  split
  · next h => simp [S.todo, h]
  · next i l h =>
    have e : s.todo = 1 + S.todo { s with ready := l } := by simp [S.todo, h]
    have : (S.enter { s with ready := l } i).todo = S.todo { s with ready := l } := by
      unfold S.enter; split <;> rfl
    omega
  · next i l h =>
    have e : s.todo = 1 + S.todo { s with ready := l, failed := s.failed ++ [i] } := by simp [S.todo, h]
    omega
  · next i l h =>
    have e : s.todo = 2 + S.todo { s with ready := l, failed := s.failed ++ [i] } := by simp [S.todo, h]
    simp only
    split
    · have : (S.wakeUpNext { s with ready := l, failed := s.failed ++ [i] }).todo
          ≤ S.todo { s with ready := l, failed := s.failed ++ [i] } + 1 := by
        simp only [S.todo, S.wakeUpNext, List.map_append, List.sum_append]
        split <;> simp
      omega
    · omega

theorem todo_ready {s : S} (h : s.todo = 0) : s.ready = [] := by
  cases hr : s.ready with
  | nil => rfl
  | cons w l =>
    obtain ⟨i, g⟩ := w
    simp only [S.todo, hr, List.map_cons, List.sum_cons] at h
    cases g <;> simp at h <;> omega

/-- After the loop resumed everything, either the value is zero or nobody waits: nobody who
could go on is left waiting. -/
theorem C192_served (v : Nat) (b : Bool) (l : List Op) :
    ∃ n, (run (S.new v b) (l ++ List.replicate n .run)).ready = [] ∧
      ((run (S.new v b) (l ++ List.replicate n .run)).value = 0 ∨
        (run (S.new v b) (l ++ List.replicate n .run)).waiting = []) := by
  have drain : ∀ (n : Nat) (s : S), s.todo ≤ n → (run s (List.replicate n .run)).ready = [] := by
    intro n
    induction n with
    | zero => intro s h; exact todo_ready (Nat.le_zero.1 h)
    | succ n ih =>
      intro s h
      have e : run s (List.replicate (n + 1) .run) = run s.resume (List.replicate n .run) := rfl
      rw [e]
      exact ih _ (by have := run_todo s; omega)
  refine ⟨(run (S.new v b) l).todo, ?_⟩
  have e : run (S.new v b) (l ++ List.replicate (run (S.new v b) l).todo .run)
      = run (run (S.new v b) l) (List.replicate (run (S.new v b) l).todo .run) := by simp [run]
  have hr : (run (S.new v b) (l ++ List.replicate (run (S.new v b) l).todo .run)).ready = [] := by
    rw [e]; exact drain _ _ (Nat.le_refl _)
  refine ⟨hr, ?_⟩
  cases hv : (run (S.new v b) (l ++ List.replicate (run (S.new v b) l).todo .run)).value with
  | zero => exact .inl rfl
  | succ k => exact .inr (C192_nobody_waits v b _ hr (by omega))

/-! ### C193: who waits is served in order -/

/-- The calls returned in the order in which they were made. -/
def inOrder (l : List Nat) : Prop := l.Pairwise (· < ·)

/-- A call which comes before the woken one was resumed gets what that one was woken for. -/
theorem C193_overtaken_violated :
    (run (S.new 1 false) [.acquire, .acquire, .release, .acquire, .run, .release, .run]).got = [0, 2, 1] ∧
      ¬ inOrder (run (S.new 1 false) [.acquire, .acquire, .release, .acquire, .run, .release, .run]).got := by
  refine ⟨by decide, ?_⟩
  rw [show (run (S.new 1 false) [.acquire, .acquire, .release, .acquire, .run, .release, .run]).got = [0, 2, 1] by decide]
  unfold inOrder
  decide

/-- A call can be overtaken without end: after any number of rounds it still waits. -/
theorem C193_starved_violated (n : Nat) :
    (0 : Nat) < (run (S.new 1 false) ([.acquire, .acquire] ++ (List.replicate n [.release, .acquire, .run]).flatten)).got.length ∧
    1 ∉ (run (S.new 1 false) ([.acquire, .acquire] ++ (List.replicate n [.release, .acquire, .run]).flatten)).got := by
  have key : ∀ (n : Nat) (s : S), s.value = 0 → s.bound = none → s.waiters = [(1, false)] → s.ready = [] →
      1 < s.next → s.got ≠ [] → 1 ∉ s.got →
      0 < (run s (List.replicate n [Op.release, .acquire, .run]).flatten).got.length ∧
      1 ∉ (run s (List.replicate n [Op.release, .acquire, .run]).flatten).got := by
    intro n
    induction n with
    | zero => intro s _ _ _ _ _ h6 h7; exact ⟨List.length_pos_iff.2 h6, h7⟩
    | succ n ih =>
      intro s h1 h2 h3 h4 h5 h6 h7
      obtain ⟨v, b, nx, ws, rd, gt, fl⟩ := s
      simp only at h1 h2 h3 h4 h5 h6 h7
      subst h1 h2 h3 h4
      have e : run ⟨0, none, nx, [(1, false)], [], gt, fl⟩ (List.replicate (n + 1) [Op.release, .acquire, .run]).flatten
          = run ⟨0, none, nx + 1, [(1, false)], [], gt ++ [nx], fl⟩ (List.replicate n [Op.release, .acquire, .run]).flatten := by
        rw [List.replicate_succ, List.flatten_cons]
        rfl
      rw [e]
      refine ih _ rfl rfl rfl rfl (by simp only; omega) (by simp) ?_
      simp only [List.mem_append, List.mem_singleton, not_or]
      exact ⟨h7, by omega⟩
  have e : run (S.new 1 false) ([.acquire, .acquire] ++ (List.replicate n [Op.release, .acquire, .run]).flatten)
      = run ⟨0, none, 2, [(1, false)], [], [0], []⟩ (List.replicate n [Op.release, .acquire, .run]).flatten := by
    simp only [run, List.foldl_append]; rfl
  rw [e]
  exact key n _ rfl rfl rfl rfl (by decide) (by simp) (by decide)

/-- Calls come only when the loop has nothing to resume. -/
def orderly : S → List Op → Prop
  | _, [] => True
  | s, o :: l => (o = .acquire → s.ready = []) ∧ orderly (step s o) l

/-- The resumed calls which go on. -/
def S.going (s : S) : List Nat := (s.ready.filter (fun w => w.2 == .ok)).map (·.1)

/-- What holds in such runs: those who got it, those who are about to and those who wait are in
order, and there is enough for all who are about to. -/
structure Tidy (s : S) : Prop where
  ord : inOrder (s.got ++ s.going ++ s.waiting)
  low : ∀ i ∈ s.got ++ s.going ++ s.waiting, i < s.next
  enough : s.woken ≤ s.value
  free : s.value ≤ s.woken ∨ s.waiting = []

theorem wake_tidy {s : S} (h1 : inOrder (s.got ++ s.going ++ s.waiting))
    (h2 : ∀ i ∈ s.got ++ s.going ++ s.waiting, i < s.next) (h3 : s.woken + 1 ≤ s.value)
    (h4 : s.value ≤ s.woken + 1 ∨ s.waiting = []) : Tidy s.wakeUpNext := by
  have h := popNext_waiting s.waiters
  have hw : s.wakeUpNext.waiting = s.waiting.tail := by
    simp only [S.waiting, S.wakeUpNext, h.1, List.map_tail]
  have e : s.wakeUpNext.got ++ s.wakeUpNext.going ++ s.wakeUpNext.waiting = s.got ++ s.going ++ s.waiting := by
    rw [hw]
    cases hws : s.waiting with
    | nil =>
      have hp : (popNext s.waiters).1 = none := by
        rw [h.2]; unfold S.waiting at hws; rw [hws]; rfl
      simp [S.wakeUpNext, S.going, hp]
    | cons i l =>
      have hp : (popNext s.waiters).1 = some i := by
        rw [h.2]; unfold S.waiting at hws; rw [hws]; rfl
      simp [S.wakeUpNext, S.going, hp, List.filter_append]
  refine ⟨by rw [e]; exact h1, by rw [e]; exact h2, ?_, wake_woken s h4⟩
  have : s.wakeUpNext.woken ≤ s.woken + 1 := by
    simp only [S.woken, S.wakeUpNext, List.filter_append, List.length_append]
    split <;> simp
  exact Nat.le_trans this h3

theorem step_tidy {s : S} (o : Op) (h : Tidy s) (ho : o = .acquire → s.ready = []) : Tidy (step s o) := by
  cases o with
  | acquire =>
    have hr := ho rfl
    have hg : s.going = [] := by simp [S.going, hr]
    have hk : s.woken = 0 := by simp [S.woken, hr]
    have hwn := h.free
    simp only [step, S.enter]
    split
    · next hv =>
      have e : (S.waiting { s with next := s.next + 1, waiters := s.waiters ++ [(s.next, false)] }) = s.waiting ++ [s.next] := by
        simp [S.waiting, List.filter_append]
      refine ⟨?_, ?_, by show s.woken ≤ s.value; exact h.enough, .inl (by simp only at hv ⊢; omega)⟩
      · show inOrder (s.got ++ s.going ++ S.waiting _)
        rw [e, ← List.append_assoc]
        refine List.pairwise_append.2 ⟨h.ord, by simp, ?_⟩
        intro a ha b hb
        simp at hb; subst hb
        exact h.low a ha
      · show ∀ i ∈ s.got ++ s.going ++ S.waiting _, i < s.next + 1
        rw [e, ← List.append_assoc]
        intro i hi
        rcases List.mem_append.1 hi with hi | hi
        · exact Nat.lt_succ_of_lt (h.low i hi)
        · simp at hi; omega
    · next hv =>
      have hw : s.waiting = [] := by
        rcases hwn with hx | hx
        · omega
        · exact hx
      refine ⟨?_, ?_, ?_, .inr hw⟩
      · show inOrder ((s.got ++ [s.next]) ++ s.going ++ s.waiting)
        rw [hg, hw]
        have ho := h.ord
        have hl := h.low
        rw [hg, hw] at ho hl
        simp only [List.append_nil] at ho hl ⊢
        refine List.pairwise_append.2 ⟨ho, by simp, ?_⟩
        intro a ha b hb
        simp at hb; subst hb
        exact hl a ha
      · show ∀ i ∈ (s.got ++ [s.next]) ++ s.going ++ s.waiting, i < s.next + 1
        rw [hg, hw]
        have hl := h.low
        rw [hg, hw] at hl
        simp only [List.append_nil] at hl ⊢
        intro i hi
        rcases List.mem_append.1 hi with hi | hi
        · exact Nat.lt_succ_of_lt (hl i hi)
        · simp at hi; omega
      · show s.woken ≤ s.value - 1
        omega
  | release =>
    have key : Tidy (S.wakeUpNext { s with value := s.value + 1 }) :=
      wake_tidy (s := { s with value := s.value + 1 }) h.ord h.low (Nat.succ_le_succ h.enough)
        (h.free.imp (fun h => Nat.add_le_add_right h 1) id)
    simp only [step, S.release]
    split
    · exact key
    · split
      · exact h
      · exact key
  | cancel i =>
    have hfree := step_woken s (.cancel i) h.free
    simp only [step] at hfree ⊢
    unfold S.cancel at hfree ⊢
    split at hfree
    · next hm =>
      rw [if_pos hm]
      have hsub : ∀ ws : List (Nat × Bool),
          (((ws.map (fun w => if w = (i, false) then (i, true) else w)).filter (fun w => !w.2)).map (·.1)).Sublist
            ((ws.filter (fun w => !w.2)).map (·.1)) := by
        intro ws
        induction ws with
        | nil => exact List.Sublist.refl _
        | cons w ws ih =>
          obtain ⟨j, c⟩ := w
          by_cases hw : (j, c) = (i, false)
          · obtain ⟨rfl, rfl⟩ := Prod.mk.inj hw
            simp only [List.map_cons, if_true, List.filter_cons, Bool.not_true, Bool.not_false,
              Bool.false_eq_true, if_false, List.map_cons]
            exact List.Sublist.cons _ ih
          · simp only [List.map_cons, if_neg hw, List.filter_cons]
            cases c with
            | true => simpa using ih
            | false => simpa using List.Sublist.cons_cons j ih
      have hgo : S.going { s with waiters := s.waiters.map (fun w => if w = (i, false) then (i, true) else w),
                                  ready := s.ready ++ [(i, .cancelled)] } = s.going := by
        simp [S.going, List.filter_append]
      have hs2 : (s.got ++ s.going ++ ((s.waiters.map (fun w => if w = (i, false) then (i, true) else w)).filter (fun w => !w.2)).map (·.1)).Sublist
          (s.got ++ s.going ++ s.waiting) := List.Sublist.append (List.Sublist.refl _) (hsub s.waiters)
      refine ⟨?_, ?_, ?_, hfree⟩
      · show inOrder (s.got ++ S.going _ ++ _)
        rw [hgo]
        exact h.ord.sublist hs2
      · show ∀ j ∈ s.got ++ S.going _ ++ _, j < s.next
        rw [hgo]
        intro j hj
        exact h.low j (hs2.subset hj)
      · have := h.enough
        simp only [S.woken, List.filter_append] at this ⊢
        simpa using this
    · next hm =>
      rw [if_neg hm]
      have hsub : ∀ rs : List (Nat × Go),
          (((rs.map (fun w => if w = (i, .ok) then (i, .late) else w)).filter (fun w => w.2 == .ok)).map (·.1)).Sublist
            ((rs.filter (fun w => w.2 == .ok)).map (·.1)) ∧
          ((rs.map (fun w => if w = (i, .ok) then (i, .late) else w)).filter (fun w => w.2 != .cancelled)).length
            = (rs.filter (fun w => w.2 != .cancelled)).length := by
        intro rs
        induction rs with
        | nil => exact ⟨List.Sublist.refl _, rfl⟩
        | cons r rs ih =>
          obtain ⟨j, g⟩ := r
          by_cases hw : (j, g) = (i, Go.ok)
          · obtain ⟨rfl, rfl⟩ := Prod.mk.inj hw
            refine ⟨?_, ?_⟩
            · simpa using List.Sublist.cons _ ih.1
            · simpa using ih.2
          · simp only [List.map_cons, if_neg hw, List.filter_cons]
            cases g with
            | ok => exact ⟨by simpa using List.Sublist.cons_cons j ih.1, by simpa using ih.2⟩
            | cancelled => exact ⟨by simpa using ih.1, by simpa using ih.2⟩
            | late => exact ⟨by simpa using ih.1, by simpa using ih.2⟩
      have hs2 : (s.got ++ ((s.ready.map (fun w => if w = (i, .ok) then (i, .late) else w)).filter (fun w => w.2 == .ok)).map (·.1) ++ s.waiting).Sublist
          (s.got ++ s.going ++ s.waiting) :=
        List.Sublist.append (List.Sublist.append (List.Sublist.refl _) (hsub s.ready).1) (List.Sublist.refl _)
      refine ⟨h.ord.sublist hs2, fun j hj => h.low j (hs2.subset hj), ?_, hfree⟩
      have := h.enough
      simp only [S.woken, (hsub s.ready).2] at this ⊢
      exact this
  | run =>
    have hfree := step_woken s .run h.free
    simp only [step] at hfree ⊢
    cases hr : s.ready with
    | nil =>
      have : s.resume = s := by unfold S.resume; rw [hr]
      rw [this]; exact h
    | cons w l =>
      obtain ⟨i, g⟩ := w
      cases g with
      | ok =>
        have hk : s.woken = S.woken { s with ready := l } + 1 := by simp [S.woken, hr]
        have hpos : ¬ s.value ≤ 0 := by have := h.enough; omega
        have e : s.resume = { s with ready := l, value := s.value - 1, got := s.got ++ [i] } := by
          unfold S.resume; rw [hr]; simp only [S.enter]; rw [if_neg hpos]
        have hg : s.going = i :: S.going { s with ready := l } := by simp [S.going, hr]
        rw [e] at hfree ⊢
        have heq : (s.got ++ [i]) ++ S.going { s with ready := l } ++ s.waiting = s.got ++ s.going ++ s.waiting := by
          rw [hg]; simp
        refine ⟨?_, ?_, ?_, hfree⟩
        · show inOrder ((s.got ++ [i]) ++ S.going { s with ready := l } ++ s.waiting)
          rw [heq]; exact h.ord
        · show ∀ j ∈ (s.got ++ [i]) ++ S.going { s with ready := l } ++ s.waiting, j < s.next
          rw [heq]; exact h.low
        · show S.woken { s with ready := l } ≤ s.value - 1
          have := h.enough; omega
      | cancelled =>
        have hk : s.woken = S.woken { s with ready := l } := by simp [S.woken, hr]
        have hg : s.going = S.going { s with ready := l } := by simp [S.going, hr]
        have e : s.resume = { s with ready := l, failed := s.failed ++ [i] } := by
          unfold S.resume; rw [hr]
        rw [e] at hfree ⊢
        refine ⟨?_, ?_, ?_, hfree⟩
        · show inOrder (s.got ++ S.going { s with ready := l } ++ s.waiting)
          rw [← hg]; exact h.ord
        · show ∀ j ∈ s.got ++ S.going { s with ready := l } ++ s.waiting, j < s.next
          rw [← hg]; exact h.low
        · show S.woken { s with ready := l } ≤ s.value
          rw [← hk]; exact h.enough
      | late =>
        have hk : s.woken = S.woken { s with ready := l } + 1 := by simp [S.woken, hr]
        have hg : s.going = S.going { s with ready := l } := by simp [S.going, hr]
        have hpos : s.value > 0 := by have := h.enough; omega
        have e : s.resume = S.wakeUpNext { s with ready := l, failed := s.failed ++ [i] } := by
          unfold S.resume; rw [hr]; simp only; rw [if_pos hpos]
        rw [e]
        refine wake_tidy (s := { s with ready := l, failed := s.failed ++ [i] }) ?_ ?_ ?_ ?_
        · show inOrder (s.got ++ S.going { s with ready := l } ++ s.waiting)
          rw [← hg]; exact h.ord
        · show ∀ j ∈ s.got ++ S.going { s with ready := l } ++ s.waiting, j < s.next
          rw [← hg]; exact h.low
        · show S.woken { s with ready := l } + 1 ≤ s.value
          rw [← hk]; exact h.enough
        · refine h.free.imp (fun hx => ?_) id
          rw [hk] at hx; exact hx

/-- If calls come only when the loop has nothing to resume, they return in the order in which
they were made. -/
theorem C193_in_order_partial (v : Nat) (b : Bool) (l : List Op) (ho : orderly (S.new v b) l) :
    inOrder (run (S.new v b) l).got := by
  have key : ∀ (l : List Op) (s : S), Tidy s → orderly s l → Tidy (run s l) := by
    intro l
    induction l with
    | nil => intro s h _; exact h
    | cons o l ih => intro s h ho; exact ih _ (step_tidy o h ho.1) ho.2
  have h := (key l (S.new v b) ⟨List.Pairwise.nil, nofun, Nat.zero_le _, .inr rfl⟩ ho).ord
  rw [List.append_assoc] at h
  exact (List.pairwise_append.1 h).1

/-! ### Examples -/

-- C191
example : (run (S.new 2 false) [.acquire, .acquire, .acquire, .release, .run]).got = [0, 1, 2] := by decide
example : (run (S.new 1 true) [.acquire, .release, .release, .release]).value = 1 := by decide

-- C192: the woken one is cancelled before it goes on; the next is woken instead
example : (run (S.new 0 false) [.acquire, .acquire, .release, .cancel 0, .run, .run]).got = [1] := by decide

-- C193
example : orderly (S.new 1 false) [.acquire, .acquire, .acquire, .release, .cancel 1, .run, .run, .acquire] := by
  simp [orderly, S.new, step, S.enter, S.release, S.wakeUpNext, popNext, S.cancel, S.resume]

example : (run (S.new 1 false) [.acquire, .acquire, .acquire, .release, .cancel 1, .run, .run, .acquire, .release, .run]).got
    = [0, 2, 3] := by decide

end Verif.Asyncio.Sem
