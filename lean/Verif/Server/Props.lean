/-
Properties C204 to C208: servers.
-/
import Verif.Server.Model

namespace Verif.Server

/-! ### What an operation does to the parts -/

theorem wakeUp_fields (s : S) : s.wakeUp.active = s.active ∧ s.wakeUp.isOpen = s.isOpen ∧ s.wakeUp.serving = s.serving ∧
    s.wakeUp.reader = s.reader ∧ s.wakeUp.retries = s.retries ∧ s.wakeUp.tasks = s.tasks ∧ s.wakeUp.transports = s.transports ∧
    s.wakeUp.next = s.next ∧ s.wakeUp.backlog = s.backlog ∧ s.wakeUp.waiters = none := by
  unfold S.wakeUp
  split
  · next h => exact ⟨rfl, rfl, rfl, rfl, rfl, rfl, rfl, rfl, rfl, h⟩
  · exact ⟨rfl, rfl, rfl, rfl, rfl, rfl, rfl, rfl, rfl, rfl⟩

theorem detach_fields (s : S) : s.detach.active = s.active - 1 ∧ s.detach.isOpen = s.isOpen ∧ s.detach.serving = s.serving ∧
    s.detach.reader = s.reader ∧ s.detach.retries = s.retries ∧ s.detach.tasks = s.tasks ∧ s.detach.transports = s.transports ∧
    s.detach.next = s.next ∧ s.detach.backlog = s.backlog := by
  unfold S.detach
  simp only
  split
  · exact ⟨rfl, rfl, rfl, rfl, rfl, rfl, rfl, rfl, rfl⟩
  · split
    · exact ⟨rfl, rfl, rfl, rfl, rfl, rfl, rfl, rfl, rfl⟩
    · obtain ⟨h1, h2, h3, h4, h5, h6, h7, h8, h9, _⟩ := wakeUp_fields { s with active := s.active - 1 }
      exact ⟨h1, h2, h3, h4, h5, h6, h7, h8, h9⟩

theorem accept_fields (n : Nat) : ∀ (l : List Accept) (s : S), (S.acceptLoop n l s).active = s.active ∧ (S.acceptLoop n l s).isOpen = s.isOpen ∧
    (S.acceptLoop n l s).serving = s.serving ∧ (S.acceptLoop n l s).transports = s.transports ∧ (S.acceptLoop n l s).next = s.next ∧
    (S.acceptLoop n l s).waiters = s.waiters ∧ (S.acceptLoop n l s).returned = s.returned ∧ (S.acceptLoop n l s).backlog = s.backlog := by
  induction n with
  | zero => intro l s; exact ⟨rfl, rfl, rfl, rfl, rfl, rfl, rfl, rfl⟩
  | succ n ih =>
    intro l s
    match l with
    | [] => exact ⟨rfl, rfl, rfl, rfl, rfl, rfl, rfl, rfl⟩
    | .connection c :: l => exact ih l _
    | .empty :: _ => exact ⟨rfl, rfl, rfl, rfl, rfl, rfl, rfl, rfl⟩
    | .noResources :: l => exact ih l _
    | .failed :: _ => exact ⟨rfl, rfl, rfl, rfl, rfl, rfl, rfl, rfl⟩

/-! ### C205: the count of the connections -/

theorem count_step (s : S) (o : Op) (h : s.active = s.transports.length) : (step s o).active = (step s o).transports.length := by
  cases o with
  | start =>
    simp only [step, S.start]
    split
    · exact h
    · split <;> exact h
  | close =>
    show s.close.active = s.close.transports.length
    unfold S.close
    simp only
    split
    · exact h
    · split
      · obtain ⟨h1, _, _, _, _, _, h7, _⟩ := wakeUp_fields { s with isOpen := false, reader := false, serving := false }
        rw [h1, h7]; exact h
      · exact h
  | waitClosed =>
    simp only [step, S.waitClosed]
    split
    · exact h
    · split <;> exact h
  | cancel i => exact h
  | readable l =>
    simp only [step]
    split
    · obtain ⟨h1, _, _, h4, _⟩ := accept_fields s.backlog l s
      rw [h1, h4]; exact h
    · exact h
  | task =>
    simp only [step]
    split
    · exact h
    · next c l _ =>
      show s.active + 1 = ((s.transports ++ [c]).length : Int)
      rw [h]; simp
  | lost c =>
    simp only [step]
    split
    · next hc =>
      obtain ⟨h1, _, _, _, _, _, h7, _⟩ := detach_fields { s with transports := s.transports.erase c }
      rw [h1, h7]
      show s.active - 1 = ((s.transports.erase c).length : Int)
      have := List.length_erase_of_mem hc
      have hp : 0 < s.transports.length := List.length_pos_of_mem hc
      rw [h]
      omega
    · exact h
  | retry =>
    simp only [step]
    split
    · exact h
    · split <;> exact h

/-- The count of a server is the number of its transports: those which were made and did not lose their connection. -/
theorem C205_count (backlog : Nat) (l : List Op) : (run (S.new backlog) l).active = (run (S.new backlog) l).transports.length := by
  have key : ∀ (l : List Op) (s : S), s.active = s.transports.length → (run s l).active = (run s l).transports.length := by
    intro l
    induction l with
    | nil => intro s h; exact h
    | cons o l ih => intro s h; exact ih (step s o) (count_step s o h)
  exact key l _ rfl

/-! ### C204: waiting for a server to close -/

/-- Who waits after `close` is told at once, though a connection is there. -/
theorem C204_early_violated :
    let s := run (S.new 1) [.start, .readable [.connection 7], .task, .close, .waitClosed]
    s.returned = [0] ∧ s.transports = [7] := by decide

/-- If one who waits is cancelled, those who wait behind them are never told. -/
theorem C204_cancelled_violated (l : List Op) : 1 ∉ (run (S.new 1) ([.start, .waitClosed, .waitClosed, .cancel 0, .close] ++ l)).returned := by
  have key : ∀ (l : List Op) (s : S), s.isOpen = false → s.waiters = none → 1 ∉ s.returned → 2 ≤ s.next → 1 ∉ (run s l).returned := by
    intro l
    induction l with
    | nil => intro s _ _ h _; exact h
    | cons o l ih =>
      intro s ho hw hr hn
      have wk : ∀ t : S, t.waiters = none → t.wakeUp = t := by
        intro t ht; unfold S.wakeUp; rw [ht]
      have frame : ∀ t : S, step s o = t → t.isOpen = false → t.waiters = none → t.returned = s.returned → t.next = s.next →
          1 ∉ (run s (o :: l)).returned := by
        intro t e h1 h2 h3 h4
        show 1 ∉ (run (step s o) l).returned
        rw [e]
        exact ih t h1 h2 (by rw [h3]; exact hr) (by rw [h4]; exact hn)
      cases o with
      | start =>
        refine frame _ rfl ?_ ?_ ?_ ?_
        all_goals
          simp only [step, S.start]
          split
          · first | exact ho | exact hw | rfl
          · split <;> first | exact ho | exact hw | rfl
      | close => exact frame s (by simp only [step, S.close, if_pos ho]) ho hw rfl rfl
      | waitClosed =>
        have e : step s .waitClosed = { s with next := s.next + 1, returned := s.returned ++ [s.next] } := by
          simp only [step, S.waitClosed]
          rw [if_pos ho]
        show 1 ∉ (run (step s .waitClosed) l).returned
        rw [e]
        refine ih _ ho hw ?_ (by show 2 ≤ s.next + 1; omega)
        intro hx
        rcases List.mem_append.1 hx with hx | hx
        · exact hr hx
        · simp at hx; omega
      | cancel i =>
        refine frame _ rfl ho ?_ rfl rfl
        simp only [step, hw]; rfl
      | readable m =>
        obtain ⟨_, h2, _, _, h5, h6, h7, _⟩ := accept_fields s.backlog m s
        by_cases hrd : s.reader = true
        · have e : step s (.readable m) = S.acceptLoop s.backlog m s := by simp only [step, if_pos hrd]
          exact frame _ e (h2.trans ho) (h6.trans hw) h7 h5
        · have e : step s (.readable m) = s := by simp only [step, if_neg hrd]
          exact frame _ e ho hw rfl rfl
      | task =>
        refine frame _ rfl ?_ ?_ ?_ ?_
        all_goals
          simp only [step]
          split
          · first | exact ho | exact hw | rfl
          · first | exact ho | exact hw | rfl
      | lost c =>
        by_cases hc : c ∈ s.transports
        · have e : step s (.lost c) = { s with transports := s.transports.erase c, active := s.active - 1 } := by
            simp only [step, if_pos hc, S.detach]
            split
            · rfl
            · rw [if_neg (by rw [ho]; exact nofun)]
              exact wk _ hw
          exact frame _ e ho hw rfl rfl
        · have e : step s (.lost c) = s := by simp only [step, if_neg hc]
          exact frame _ e ho hw rfl rfl
      | retry =>
        refine frame _ rfl ?_ ?_ ?_ ?_
        all_goals
          simp only [step]
          split
          · first | exact ho | exact hw | rfl
          · split <;> first | exact ho | exact hw | rfl
  have e : run (S.new 1) ([.start, .waitClosed, .waitClosed, .cancel 0, .close] ++ l) =
      run (run (S.new 1) [.start, .waitClosed, .waitClosed, .cancel 0, .close]) l := by
    simp [run]
  rw [e]
  exact key l _ (by decide) (by decide) (by decide) (by decide)

/-- A connection which was accepted before `close` is made afterwards, when those who wait were told. -/
theorem C204_in_flight_violated :
    let s := run (S.new 1) [.start, .waitClosed, .readable [.connection 7], .close, .task]
    s.returned = [0] ∧ s.transports = [7] := by decide

/-- Those who still wait. -/
def S.waiting (s : S) : List Nat := (s.waiters.getD []).map (·.1)

/-- The calls of `wait_closed` which were made while the server was open. -/
structure Calm (s : S) : Prop where
  clean : ∀ w ∈ s.waiters.getD [], w.2 = false
  all : (s.returned ++ s.waiting).Perm (List.range s.next)
  some : s.isOpen = true → s.waiters.isSome ∧ s.returned = []
  none : s.isOpen = false → s.active = 0 → s.waiters = none
  cnt : s.active = s.transports.length

theorem wakeLoop_clean {l : List (Nat × Bool)} (h : ∀ w ∈ l, w.2 = false) : wakeLoop l = (l.map (·.1), false) := by
  induction l with
  | nil => rfl
  | cons w l ih =>
    obtain ⟨i, b⟩ := w
    have : b = false := h (i, b) (by simp)
    subst this
    rw [wakeLoop, ih (fun w hw => h w (by simp [hw]))]
    rfl

theorem wakeUp_calm {s : S} (clean : ∀ w ∈ s.waiters.getD [], w.2 = false) (all : (s.returned ++ s.waiting).Perm (List.range s.next))
    (ho : s.isOpen = false) (cnt : s.active = s.transports.length) : Calm s.wakeUp ∧ s.wakeUp.returned = s.returned ++ s.waiting := by
  obtain ⟨h1, h2, _, _, _, _, h7, h8, _, h10⟩ := wakeUp_fields s
  have e : s.wakeUp.returned = s.returned ++ s.waiting := by
    unfold S.wakeUp S.waiting
    split
    · next hw => rw [hw]; simp
    · next l hw =>
      rw [hw] at clean ⊢
      show s.returned ++ (wakeLoop l).1 = _
      rw [wakeLoop_clean (l := l) clean]; rfl
  refine ⟨⟨?_, ?_, ?_, fun _ _ => h10, by rw [h1, h7]; exact cnt⟩, e⟩
  · rw [h10]; exact nofun
  · have ew : s.wakeUp.waiting = [] := by rw [S.waiting, h10]; rfl
    rw [e, ew, h8, List.append_nil]; exact all
  · rw [h2, ho]; exact nofun

theorem Calm.step {s : S} (h : Calm s) (o : Op) (ho : ∀ i, o ≠ .cancel i) : Calm (step s o) := by
  have hcnt := count_step s o h.cnt
  have same : ∀ t : S, t.waiters = s.waiters → t.returned = s.returned → t.next = s.next → t.isOpen = s.isOpen →
      (t.active = 0 → s.active = 0 ∨ s.waiters = Option.none ∨ s.isOpen = true) → t.active = t.transports.length → Calm t := by
    intro t e1 e2 e3 e4 e5 e6
    refine ⟨by rw [e1]; exact h.clean, ?_, by rw [e4, e1, e2]; exact h.some, ?_, e6⟩
    · rw [e2, S.waiting, e1, e3]; exact h.all
    · rw [e4, e1]
      intro ho ha
      rcases e5 ha with hx | hx | hx
      · exact h.none ho hx
      · exact hx
      · rw [ho] at hx; exact absurd hx nofun
  cases o with
  | start =>
    simp only [Server.step, S.start] at hcnt ⊢
    split
    · exact h
    · split <;> exact same _ rfl rfl rfl rfl (fun h => .inl h) h.cnt
  | close =>
    simp only [Server.step, S.close]
    split
    · exact h
    · split
      · exact (wakeUp_calm (s := { s with isOpen := false, reader := false, serving := false }) h.clean h.all rfl h.cnt).1
      · next hop ha => exact ⟨h.clean, h.all, nofun, fun _ hx => absurd hx ha, h.cnt⟩
  | waitClosed =>
    simp only [Server.step, S.waitClosed]
    split
    · next hop =>
      refine ⟨h.clean, ?_, fun hx => ?_, h.none, h.cnt⟩
      · show ((s.returned ++ [s.next]) ++ s.waiting).Perm (List.range (s.next + 1))
        rw [List.range_succ, List.append_assoc]
        refine (List.Perm.append_left _ List.perm_append_comm).trans ?_
        rw [← List.append_assoc]
        exact h.all.append_right _
      · have hx : s.isOpen = true := hx
        rw [hop] at hx; exact absurd hx nofun
    · next hop =>
      have hop : s.isOpen = true := by simpa using hop
      split
      · next hw =>
        have := (h.some hop).1
        rw [hw] at this
        exact absurd this nofun
      · next l hw =>
        refine ⟨?_, ?_, fun _ => ⟨rfl, (h.some hop).2⟩, ?_, h.cnt⟩
        · show ∀ w ∈ l ++ [(s.next, false)], w.2 = false
          intro w hx
          rcases List.mem_append.1 hx with hx | hx
          · exact h.clean w (by rw [hw]; exact hx)
          · simp only [List.mem_singleton] at hx
            subst hx; rfl
        · show (s.returned ++ (l ++ [(s.next, false)]).map (·.1)).Perm (List.range (s.next + 1))
          have := h.all
          rw [S.waiting, hw] at this
          rw [List.range_succ, List.map_append, ← List.append_assoc]
          exact this.append_right _
        · intro hx
          have hx : s.isOpen = false := hx
          rw [hop] at hx; exact absurd hx nofun
  | cancel i => exact absurd rfl (ho i)
  | readable m =>
    simp only [Server.step] at hcnt ⊢
    split
    · next hr =>
      rw [if_pos hr] at hcnt
      obtain ⟨h1, h2, _, _, h5, h6, h7, _⟩ := accept_fields s.backlog m s
      exact same _ h6 h7 h5 h2 (fun hx => .inl (h1 ▸ hx)) hcnt
    · exact h
  | task =>
    by_cases ht : s.tasks = []
    · have e : Server.step s .task = s := by simp only [Server.step, ht]
      rw [e]; exact h
    · obtain ⟨c, l, e⟩ := List.exists_cons_of_ne_nil ht
      have es : Server.step s .task = S.attach { s with tasks := l, transports := s.transports ++ [c] } := by
        simp only [Server.step, e]
      rw [es] at hcnt ⊢
      refine same _ rfl rfl rfl rfl (fun hx => ?_) hcnt
      have hx : s.active + 1 = 0 := hx
      have := h.cnt
      omega
  | lost c =>
    by_cases hc : c ∈ s.transports
    · have es : Server.step s (.lost c) = S.detach { s with transports := s.transports.erase c } := by simp only [Server.step, if_pos hc]
      rw [es] at hcnt ⊢
      unfold S.detach at hcnt ⊢
      simp only at hcnt ⊢
      split
      · next ha =>
        rw [if_pos ha] at hcnt
        exact same _ rfl rfl rfl rfl (fun hx => absurd hx ha) hcnt
      · next ha =>
        rw [if_neg ha] at hcnt
        split
        · next hop =>
          rw [if_pos hop] at hcnt
          exact same _ rfl rfl rfl rfl (fun _ => .inr (.inr hop)) hcnt
        · next hop =>
          refine (wakeUp_calm (s := { s with transports := s.transports.erase c, active := s.active - 1 }) h.clean h.all (by simpa using hop) ?_).1
          show s.active - 1 = ((s.transports.erase c).length : Int)
          have := List.length_erase_of_mem hc
          have hp : 0 < s.transports.length := List.length_pos_of_mem hc
          rw [h.cnt]
          omega
    · have es : Server.step s (.lost c) = s := by simp only [Server.step, if_neg hc]
      rw [es]; exact h
  | retry =>
    simp only [Server.step]
    split
    · exact h
    · split <;> exact same _ rfl rfl rfl rfl (fun h => .inl h) h.cnt

/-- If nobody who waits is cancelled: while the server is open nobody is told; when it is closed and the last
connection is gone everybody was told, once; and who is not told at once is told only in that moment. -/
theorem C204_told_partial (backlog : Nat) (l : List Op) (hl : ∀ i, .cancel i ∉ l) :
    let s := run (S.new backlog) l
    s.returned.Nodup ∧ (s.isOpen = true → s.returned = []) ∧
    (s.isOpen = false → s.transports = [] → s.returned.Perm (List.range s.next)) ∧
    ∀ o, (∀ i, o ≠ .cancel i) → o ≠ .waitClosed → (step s o).returned ≠ s.returned →
      (step s o).isOpen = false ∧ (step s o).transports = [] := by
  have key : ∀ (l : List Op) (s : S), (∀ i, .cancel i ∉ l) → Calm s → Calm (run s l) := by
    intro l
    induction l with
    | nil => intro s _ h; exact h
    | cons o l ih =>
      intro s hl h
      exact ih _ (fun i hx => hl i (by simp [hx])) (h.step o (fun i e => hl i (by simp [e])))
  have h := key l (S.new backlog) hl ⟨nofun, List.Perm.refl _, fun _ => ⟨rfl, rfl⟩, nofun, rfl⟩
  generalize run (S.new backlog) l = s at h
  refine ⟨?_, fun ho => (h.some ho).2, ?_, ?_⟩
  · have := h.all.nodup_iff.2 List.nodup_range
    exact (List.nodup_append.1 this).1
  · intro ho ht
    have hw := h.none ho (by rw [h.cnt, ht]; rfl)
    have := h.all
    rw [S.waiting, hw] at this
    simpa using this
  · intro o ho hw hne
    have hcnt := count_step s o h.cnt
    have hz : ∀ t : S, t.active = t.transports.length → t.active = 0 → t.transports = [] := by
      intro t h1 h2
      exact List.length_eq_zero_iff.1 (by omega)
    cases o with
    | start =>
      refine absurd ?_ hne
      simp only [Server.step, S.start]
      split
      · rfl
      · split <;> rfl
    | close =>
      by_cases hop : s.isOpen = false
      · exact absurd (by simp only [Server.step, S.close, if_pos hop]) hne
      · by_cases ha : s.active = 0
        · have es : Server.step s .close = S.wakeUp { s with isOpen := false, reader := false, serving := false } := by
            simp only [Server.step, S.close, if_neg hop, if_pos ha]
          obtain ⟨h1, h2, _, _, _, _, h7, _⟩ := wakeUp_fields { s with isOpen := false, reader := false, serving := false }
          rw [es]
          exact ⟨h2, by rw [h7]; exact hz s h.cnt ha⟩
        · exact absurd (by simp only [Server.step, S.close, if_neg hop, if_neg ha]) hne
    | waitClosed => exact absurd rfl hw
    | cancel i => exact absurd rfl (ho i)
    | readable m =>
      refine absurd ?_ hne
      simp only [Server.step]
      split
      · exact (accept_fields s.backlog m s).2.2.2.2.2.2.1
      · rfl
    | task =>
      refine absurd ?_ hne
      simp only [Server.step]
      split <;> rfl
    | lost c =>
      by_cases hc : c ∈ s.transports
      · have es : Server.step s (.lost c) = S.detach { s with transports := s.transports.erase c } := by
          simp only [Server.step, if_pos hc]
        rw [es] at hcnt hne ⊢
        obtain ⟨h1, h2, _, _, _, _, h7, _⟩ := detach_fields { s with transports := s.transports.erase c }
        by_cases ha : s.active - 1 = 0
        · by_cases hop : s.isOpen = true
          · refine absurd ?_ hne
            simp only [S.detach, ha, if_pos hop]
            rfl
          · refine ⟨h2.trans (by simpa using hop), hz _ hcnt (h1.trans ha)⟩
        · refine absurd ?_ hne
          simp only [S.detach]
          rw [if_pos ha]
      · exact absurd (by simp only [Server.step, if_neg hc]) hne
    | retry =>
      refine absurd ?_ hne
      simp only [Server.step]
      split
      · rfl
      · split <;> rfl

/-! ### C206: a server accepts until it is closed -/

/-- The connections which the system gave. -/
def taken : Nat → List Accept → List Nat
  | 0, _ => []
  | _ + 1, [] => []
  | n + 1, .connection c :: l => c :: taken n l
  | _ + 1, .empty :: _ => []
  | n + 1, .noResources :: l => taken n l
  | _ + 1, .failed :: _ => []

theorem accept_more (n : Nat) : ∀ (l : List Accept) (s : S), (S.acceptLoop n l s).tasks = s.tasks ++ taken n l ∧
    (s.reader = true ∨ 0 < s.retries → (S.acceptLoop n l s).reader = true ∨ 0 < (S.acceptLoop n l s).retries) ∧
    (S.acceptLoop n l s).retries ≤ s.retries + n := by
  induction n with
  | zero => intro l s; exact ⟨by simp [S.acceptLoop, taken], fun h => h, Nat.le_refl _⟩
  | succ n ih =>
    intro l s
    match l with
    | [] => exact ⟨by simp [S.acceptLoop, taken], fun h => h, by simp [S.acceptLoop]⟩
    | .connection c :: l =>
      obtain ⟨h1, h2, h3⟩ := ih l { s with tasks := s.tasks ++ [c] }
      refine ⟨?_, h2, Nat.le_trans h3 (by simp)⟩
      rw [S.acceptLoop, h1, taken]; simp
    | .empty :: _ => exact ⟨by simp [S.acceptLoop, taken], fun h => h, by simp [S.acceptLoop]⟩
    | .noResources :: l =>
      obtain ⟨h1, h2, h3⟩ := ih l { s with reader := false, retries := s.retries + 1 }
      refine ⟨h1, fun _ => h2 (.inr (Nat.succ_pos _)), Nat.le_trans h3 ?_⟩
      show s.retries + 1 + n ≤ s.retries + (n + 1)
      omega
    | .failed :: _ => exact ⟨by simp [S.acceptLoop, taken], fun h => h, by simp [S.acceptLoop]⟩

structure Live (s : S) : Prop where
  live : s.serving = true → s.isOpen = true → s.reader = true ∨ 0 < s.retries
  dead : s.isOpen = false → s.reader = false

theorem Live.step {s : S} (h : Live s) (o : Op) : Live (step s o) := by
  have same : ∀ t : S, t.serving = s.serving → t.isOpen = s.isOpen → t.reader = s.reader → t.retries = s.retries → Live t := by
    intro t e1 e2 e3 e4
    exact ⟨by rw [e1, e2, e3, e4]; exact h.live, by rw [e2, e3]; exact h.dead⟩
  cases o with
  | start =>
    simp only [Server.step, S.start]
    split
    · exact h
    · split
      · next hop => exact ⟨fun _ _ => .inl rfl, fun hx => absurd (hop.symm.trans hx) nofun⟩
      · next hop => exact ⟨fun _ hx => absurd hx hop, h.dead⟩
  | close =>
    simp only [Server.step, S.close]
    split
    · exact h
    · split
      · obtain ⟨_, h2, h3, h4, _⟩ := wakeUp_fields { s with isOpen := false, reader := false, serving := false }
        refine ⟨?_, fun _ => h4⟩
        rw [h3]; exact nofun
      · exact ⟨nofun, fun _ => rfl⟩
  | waitClosed =>
    simp only [Server.step, S.waitClosed]
    split
    · exact same _ rfl rfl rfl rfl
    · split <;> exact same _ rfl rfl rfl rfl
  | cancel i => exact same _ rfl rfl rfl rfl
  | readable m =>
    simp only [Server.step]
    split
    · next hr =>
      obtain ⟨_, h2, h3, _⟩ := accept_fields s.backlog m s
      obtain ⟨_, g2, _⟩ := accept_more s.backlog m s
      refine ⟨fun _ _ => g2 (.inl hr), fun hx => ?_⟩
      rw [h2] at hx
      rw [h.dead hx] at hr
      exact absurd hr nofun
    · exact h
  | task =>
    simp only [Server.step]
    split
    · exact h
    · exact same _ rfl rfl rfl rfl
  | lost c =>
    simp only [Server.step]
    split
    · obtain ⟨_, h2, h3, h4, h5, _⟩ := detach_fields { s with transports := s.transports.erase c }
      exact same _ h3 h2 h4 h5
    · exact h
  | retry =>
    simp only [Server.step]
    split
    · exact h
    · split
      · next hop => exact ⟨fun _ _ => .inl rfl, fun hx => absurd (hop.symm.trans hx) nofun⟩
      · next hop => exact ⟨fun _ hx => absurd hx hop, h.dead⟩

/-- A server which serves and is not closed watches its socket, or will watch it again; a closed one does not. -/
theorem C206_watched (backlog : Nat) (l : List Op) :
    let s := run (S.new backlog) l
    (s.serving = true → s.isOpen = true → s.reader = true ∨ 0 < s.retries ∧ (step s .retry).reader = true) ∧
    (s.isOpen = false → s.reader = false ∧ (step s .retry).reader = false) := by
  have key : ∀ (l : List Op) (s : S), Live s → Live (run s l) := by
    intro l
    induction l with
    | nil => intro s h; exact h
    | cons o l ih => intro s h; exact ih _ (h.step o)
  have h := key l (S.new backlog) ⟨nofun, nofun⟩
  generalize run (S.new backlog) l = s at h
  refine ⟨fun h1 h2 => ?_, fun hx => ⟨h.dead hx, ?_⟩⟩
  · rcases h.live h1 h2 with hr | hr
    · exact .inl hr
    · right
      refine ⟨hr, ?_⟩
      simp only [step]
      rw [if_neg (by omega), if_pos h2]
  · have hd := (h.step .retry).dead
    refine hd ?_
    simp only [step]
    split
    · exact hx
    · split <;> exact hx

/-- The connections which the system gave so far to a server which watches its socket. -/
def givenBy : S → List Op → List Nat
  | _, [] => []
  | s, .readable m :: l => (if s.reader then taken s.backlog m else []) ++ givenBy (step s (.readable m)) l
  | s, o :: l => givenBy (step s o) l

/-- The transports which were made, in order. -/
def madeBy : S → List Op → List Nat
  | _, [] => []
  | s, .task :: l => s.tasks.take 1 ++ madeBy (step s .task) l
  | s, o :: l => madeBy (step s o) l

/-- Every connection which the system gives, and no other, becomes a transport, in order and once: the transports
which were made and the connections of which the task waits are those which were given. -/
theorem C206_accepted (backlog : Nat) (l : List Op) :
    madeBy (S.new backlog) l ++ (run (S.new backlog) l).tasks = givenBy (S.new backlog) l := by
  have key : ∀ (l : List Op) (s : S), madeBy s l ++ (run s l).tasks = s.tasks ++ givenBy s l := by
    intro l
    induction l with
    | nil => intro s; simp [madeBy, givenBy, run]
    | cons o l ih =>
      intro s
      have frame : (∀ m, o ≠ .readable m) → o ≠ .task → (step s o).tasks = s.tasks →
          madeBy s (o :: l) ++ (run s (o :: l)).tasks = s.tasks ++ givenBy s (o :: l) := by
        intro h1 h2 h3
        have e1 : madeBy s (o :: l) = madeBy (step s o) l := by
          cases o <;> first | rfl | exact absurd rfl h2
        have e2 : givenBy s (o :: l) = givenBy (step s o) l := by
          cases o <;> first | rfl | exact absurd rfl (h1 _)
        rw [e1, e2, ← h3]
        exact ih (step s o)
      cases o with
      | readable m =>
        show madeBy (step s (.readable m)) l ++ (run (step s (.readable m)) l).tasks = _
        rw [ih]
        by_cases hr : s.reader = true
        · have e : step s (.readable m) = S.acceptLoop s.backlog m s := by simp only [step, if_pos hr]
          simp only [givenBy, if_pos hr]
          rw [e, (accept_more s.backlog m s).1, List.append_assoc]
        · have e : step s (.readable m) = s := by simp only [step, if_neg hr]
          simp only [givenBy, if_neg hr]
          rw [e]; rfl
      | task =>
        show s.tasks.take 1 ++ madeBy (step s .task) l ++ (run (step s .task) l).tasks = s.tasks ++ givenBy (step s .task) l
        rw [List.append_assoc, ih]
        by_cases ht : s.tasks = []
        · have e : step s .task = s := by simp only [step, ht]
          rw [e, ht]; rfl
        · obtain ⟨c, l', e⟩ := List.exists_cons_of_ne_nil ht
          have es : (step s .task).tasks = l' := by simp only [step, e]; rfl
          rw [es, e]; rfl
      | start =>
        refine frame nofun nofun ?_
        simp only [step, S.start]
        split
        · rfl
        · split <;> rfl
      | close =>
        refine frame nofun nofun ?_
        simp only [step, S.close]
        split
        · rfl
        · split
          · exact (wakeUp_fields _).2.2.2.2.2.1
          · rfl
      | waitClosed =>
        refine frame nofun nofun ?_
        simp only [step, S.waitClosed]
        split
        · rfl
        · split <;> rfl
      | cancel i => exact frame nofun nofun rfl
      | lost c =>
        refine frame nofun nofun ?_
        simp only [step]
        split
        · exact (detach_fields _).2.2.2.2.2.1
        · rfl
      | retry =>
        refine frame nofun nofun ?_
        simp only [step]
        split
        · rfl
        · split <;> rfl
  have := key l (S.new backlog)
  simpa [S.new] using this

/-! ### C207: when the system has no resources -/

/-- One tick schedules as many retries as the backlog allows. -/
theorem C207_one_retry_violated (n : Nat) :
    (run (S.new n) [.start, .readable (List.replicate n .noResources)]).retries = n := by
  have key : ∀ (n : Nat) (s : S), (S.acceptLoop n (List.replicate n .noResources) s).retries = s.retries + n := by
    intro n
    induction n with
    | zero => intro s; rfl
    | succ n ih =>
      intro s
      rw [List.replicate_succ, S.acceptLoop, ih]
      show s.retries + 1 + n = _
      omega
  have := key n (run (S.new n) [.start])
  show (step (run (S.new n) [.start]) (.readable (List.replicate n .noResources))).retries = n
  simp only [step]
  rw [if_pos (by rfl)]
  refine this.trans ?_
  show 0 + n = n
  omega

/-- If the system has no resources the server stops watching and will try again, at most as often as the backlog allows;
if it has, nothing is scheduled. -/
theorem C207_retry_partial (s : S) (m : List Accept) (hr : s.reader = true) :
    (step s (.readable m)).retries ≤ s.retries + s.backlog ∧
    (.noResources ∉ m → (step s (.readable m)).retries = s.retries ∧ (step s (.readable m)).reader = true) ∧
    (0 < s.backlog → m.head? = some .noResources → (step s (.readable m)).reader = false ∧ s.retries < (step s (.readable m)).retries) := by
  have e : step s (.readable m) = S.acceptLoop s.backlog m s := by simp only [step, if_pos hr]
  rw [e]
  refine ⟨(accept_more s.backlog m s).2.2, ?_, ?_⟩
  · have key : ∀ (n : Nat) (m : List Accept) (s : S), s.reader = true → .noResources ∉ m →
        (S.acceptLoop n m s).retries = s.retries ∧ (S.acceptLoop n m s).reader = true := by
      intro n
      induction n with
      | zero => intro m s h _; exact ⟨rfl, h⟩
      | succ n ih =>
        intro m s h hm
        match m with
        | [] => exact ⟨rfl, h⟩
        | .connection c :: m => exact ih m { s with tasks := s.tasks ++ [c] } h (fun hx => hm (by simp [hx]))
        | .empty :: _ => exact ⟨rfl, h⟩
        | .noResources :: m => exact absurd (by simp) hm
        | .failed :: _ => exact ⟨rfl, h⟩
    exact key s.backlog m s hr
  · intro hb hm
    have keep : ∀ (n : Nat) (m : List Accept) (s : S), s.reader = false →
        (S.acceptLoop n m s).reader = false ∧ s.retries ≤ (S.acceptLoop n m s).retries := by
      intro n
      induction n with
      | zero => intro m s h; exact ⟨h, Nat.le_refl _⟩
      | succ n ih =>
        intro m s h
        match m with
        | [] => exact ⟨h, Nat.le_refl _⟩
        | .connection c :: m => exact ih m { s with tasks := s.tasks ++ [c] } h
        | .empty :: _ => exact ⟨h, Nat.le_refl _⟩
        | .noResources :: m =>
          obtain ⟨h1, h2⟩ := ih m { s with reader := false, retries := s.retries + 1 } rfl
          exact ⟨h1, Nat.le_trans (Nat.le_succ _) h2⟩
        | .failed :: _ => exact ⟨h, Nat.le_refl _⟩
    obtain ⟨k, hk⟩ : ∃ k, s.backlog = k + 1 := ⟨s.backlog - 1, by omega⟩
    match m with
    | .noResources :: m =>
      rw [hk, S.acceptLoop]
      obtain ⟨h1, h2⟩ := keep k m { s with reader := false, retries := s.retries + 1 } rfl
      exact ⟨h1, h2⟩

/-! ### C208: a closed server does not serve -/

/-- Starting a closed server raises, but it says that it serves from then on. -/
theorem C208_serving_violated : (run (S.new 1) [.start, .close, .start]).serving = true ∧
    (run (S.new 1) [.start, .close, .start]).isOpen = false ∧ (run (S.new 1) [.start, .close, .start]).raised = 1 := by decide

/-- If nothing is started after it was closed, a server says that it serves only while it is open. -/
theorem C208_serving_partial (backlog : Nat) (l m : List Op) (hl : .close ∉ l) (hm : .start ∉ m) :
    (run (S.new backlog) (l ++ m)).serving = true → (run (S.new backlog) (l ++ m)).isOpen = true := by
  have open_step : ∀ (s : S) (o : Op), o ≠ .close → (step s o).isOpen = s.isOpen := by
    intro s o ho
    cases o with
    | start =>
      simp only [step, S.start]
      split
      · rfl
      · split <;> rfl
    | close => exact absurd rfl ho
    | waitClosed =>
      simp only [step, S.waitClosed]
      split
      · rfl
      · split <;> rfl
    | cancel i => rfl
    | readable m => simp only [step]; first | (split; exact (accept_fields s.backlog m s).2.1; rfl)
    | task => simp only [step]; split <;> rfl
    | lost c => simp only [step]; first | (split; exact (detach_fields _).2.1; rfl)
    | retry =>
      simp only [step]
      split
      · rfl
      · split <;> rfl
  have serving_step : ∀ (s : S) (o : Op), o ≠ .start → o ≠ .close → (step s o).serving = s.serving := by
    intro s o ho hc
    cases o with
    | start => exact absurd rfl ho
    | close => exact absurd rfl hc
    | waitClosed =>
      simp only [step, S.waitClosed]
      split
      · rfl
      · split <;> rfl
    | cancel i => rfl
    | readable m => simp only [step]; first | (split; exact (accept_fields s.backlog m s).2.2.1; rfl)
    | task => simp only [step]; split <;> rfl
    | lost c => simp only [step]; first | (split; exact (detach_fields _).2.2.1; rfl)
    | retry =>
      simp only [step]
      split
      · rfl
      · split <;> rfl
  have first : ∀ (l : List Op) (s : S), .close ∉ l → s.isOpen = true → (run s l).isOpen = true := by
    intro l
    induction l with
    | nil => intro s _ h; exact h
    | cons o l ih =>
      intro s hl h
      refine ih _ (fun hx => hl (by simp [hx])) ?_
      rw [open_step s o (fun e => hl (by simp [e]))]; exact h
  have second : ∀ (m : List Op) (s : S), .start ∉ m → (s.serving = true → s.isOpen = true) →
      (run s m).serving = true → (run s m).isOpen = true := by
    intro m
    induction m with
    | nil => intro s _ h; exact h
    | cons o m ih =>
      intro s hm h
      refine ih _ (fun hx => hm (by simp [hx])) ?_
      by_cases hc : o = .close
      · subst hc
        simp only [step, S.close]
        split
        · exact h
        · split
          · obtain ⟨_, _, h3, _⟩ := wakeUp_fields { s with isOpen := false, reader := false, serving := false }
            rw [h3]; exact nofun
          · exact nofun
      · rw [serving_step s o (fun e => hm (by simp [e])) hc, open_step s o hc]; exact h
  have e : run (S.new backlog) (l ++ m) = run (run (S.new backlog) l) m := by simp [run, List.foldl_append]
  rw [e]
  exact second m _ hm (fun _ => first l _ hl rfl)

/-! ### Examples -/

-- C204: two wait; a connection is there when the server is closed
example : (run (S.new 4) [.start, .waitClosed, .waitClosed, .readable [.connection 7], .task, .close]).returned = [] := by decide
example : (run (S.new 4) [.start, .waitClosed, .waitClosed, .readable [.connection 7], .task, .close, .lost 7]).returned = [0, 1] := by decide

-- C205
example : (run (S.new 4) [.start, .readable [.connection 7, .connection 8, .empty], .task, .task, .lost 7]).active = 1 := by decide

-- C206: two are accepted, the third one only at the next tick
example : givenBy (S.new 2) [.start, .readable [.connection 7, .connection 8, .connection 9], .task, .readable [.connection 9]] = [7, 8, 9] := by
  decide

-- C207
example : (step (run (S.new 2) [.start]) (.readable [.noResources, .connection 5])).retries = 1 := by decide

end Verif.Server
