import Verif.ThreadPool.Calm

/-! Threads in use are on their way back. -/

namespace Verif.ThreadPool

/-- A thread in use has a call which is not done, or a handle in the loop gives it back. -/
def Returning (s : State) : Prop :=
  ∀ t ∈ s.running, (∃ n, n < s.calls ∧ s.home n = some t ∧ s.fut n = .pending) ∨ 0 < s.back t

theorem Returning.keep {s s' : State} (h : Returning s) (hr : ∀ t ∈ s'.running, t ∈ s.running)
    (hn : ∀ n, n < s.calls → n < s'.calls ∧ s'.home n = s.home n ∧ s'.fut n = s.fut n) (hb : ∀ t, s.back t ≤ s'.back t) :
    Returning s' := by
  intro t ht
  rcases h t (hr t ht) with ⟨n, h1, h2, h3⟩ | h1
  · obtain ⟨a, b, c⟩ := hn n h1
    exact .inl ⟨n, a, b.trans h2, c.trans h3⟩
  · exact .inr (Nat.lt_of_lt_of_le h1 (hb t))

theorem Returning.same {s s' : State} (h : Returning s) (hr : s'.running = s.running) (hc : s'.calls = s.calls)
    (hh : s'.home = s.home) (hf : s'.fut = s.fut) (hb : s'.ready = s.ready) : Returning s' :=
  h.keep (fun t ht => hr ▸ ht) (fun n hn => ⟨hc ▸ hn, by rw [hh], by rw [hf]⟩) (fun t => by simp only [State.back, hb]; exact Nat.le_refl _)

theorem Returning.settle {s : State} (h : Returning s) (n : Nat) (st : Stat) : Returning (s.settle n st) := by
  obtain ⟨f1, f2, f3, f4, f5, f6, f7, f8⟩ := settle_frame s n st
  by_cases hp : s.fut n = .pending
  · have e : s.settle n st = { s with fut := upd s.fut n st, ready := s.ready ++ (s.home n).toList.map .doneCb } := by
      unfold State.settle; rw [if_pos hp]
    intro t ht
    rw [f4] at ht
    rcases h t ht with ⟨m, h1, h2, h3⟩ | h1
    · by_cases hm : m = n
      · subst hm
        right
        rw [e, h2]
        simp [State.back, List.countP_append, Cb.about]
      · left
        refine ⟨m, by rw [f7]; exact h1, by rw [f8]; exact h2, ?_⟩
        rw [e]
        simpa only [upd_ne _ _ hm] using h3
    · right
      rw [e]
      simp only [State.back, List.countP_append] at h1 ⊢
      omega
  · have e : s.settle n st = s := by unfold State.settle; rw [if_neg hp]
    rw [e]; exact h

theorem Returning.submit {s : State} (h : Returning s) (t : Nat) (home : Option Nat) : Returning (s.submit t home) := by
  refine h.keep (fun _ => id) (fun n hn => ⟨?_, ?_, ?_⟩) (fun _ => Nat.le_refl _)
  · show n < s.calls + 1; omega
  · show upd s.home s.calls home n = _; rw [upd_ne _ _ (by omega)]
  · show upd s.fut s.calls .pending n = _; rw [upd_ne _ _ (by omega)]

theorem Returning.step {s : State} (hg : Good s) (h : Returning s) (op : Op) : Returning (s.step op).1 := by
  cases op with
  | run =>
    obtain ⟨f1, f2, f3, f4, f5, f6, f7⟩ := getFree_frame s
    have h0 : Returning s.getFree.1 := h.same f6 f2 f5 f3 f4
    have h1 := h0.submit s.getFree.2 (some s.getFree.2)
    intro t ht
    have ht' : t ∈ s.getFree.2 :: s.getFree.1.running := ht
    rcases List.mem_cons.1 ht' with e | e
    · subst e
      refine .inl ⟨s.getFree.1.calls, ?_, ?_, ?_⟩
      · show _ < s.getFree.1.calls + 1; omega
      · exact upd_same ..
      · exact upd_same ..
    · exact h1 t e
  | claim =>
    obtain ⟨f1, f2, f3, f4, f5, f6, f7⟩ := getFree_frame s
    exact h.same f6 f2 f5 f3 f4
  | execute i =>
    show Returning (s.stepExecute i).1
    unfold State.stepExecute
    split
    · exact h.submit _ _
    · exact h
    · exact h
  | release i =>
    obtain ⟨f1, f2, f3, f4, f5, f6, f7, -⟩ := stepRelease_frame s i
    exact h.same f7 f2 f5 f3 f4
  | fetch t =>
    show Returning (s.stepFetch t)
    unfold State.stepFetch
    split
    · exact h.same rfl rfl rfl rfl rfl
    · exact h
  | start t =>
    show Returning (s.stepStart t).1
    unfold State.stepStart
    split
    · split
      · exact h.same rfl rfl rfl rfl rfl
      · exact h.same rfl rfl rfl rfl rfl
    · exact h
  | finish t raw =>
    show Returning (s.stepFinish t raw).1
    unfold State.stepFinish
    split
    · refine h.keep (fun _ => id) (fun n hn => ⟨hn, rfl, rfl⟩) (fun u => ?_)
      dsimp only
      rw [back_append]
      omega
    · exact h
  | loop =>
    simp only [State.step]
    split
    · exact h
    · rename_i cb ready hr
      have hpop : (∀ u, cb.about u = false) → Returning { s with ready := ready } := by
        intro ha
        refine h.keep (fun _ => id) (fun n hn => ⟨hn, rfl, rfl⟩) (fun u => ?_)
        rw [back_ready hr u, ha u]
        simp
      cases cb with
      | settle n o => exact (hpop fun _ => rfl).settle n _
      | cancel n => exact (hpop fun _ => rfl).settle n _
      | doneCb t =>
        refine h.keep (fun _ => id) (fun n hn => ⟨hn, rfl, rfl⟩) (fun u => ?_)
        rw [back_ready hr u]
        show _ ≤ ({ s with ready := ready ++ [.ended t] } : State).back u
        by_cases e : t = u <;> simp [State.back, List.countP_append, Cb.about, e]
      | ended t =>
        have hrest : ∀ u ∈ s.running, u ≠ t →
            (∃ n, n < s.calls ∧ s.home n = some u ∧ s.fut n = .pending) ∨ 0 < ({ s with ready := ready } : State).back u := by
          intro u hu hne
          rcases h u hu with e | e
          · exact .inl e
          · right
            rw [back_ready hr u] at e
            simpa [Cb.about, Ne.symm hne] using e
        rw [State.runCb]
        split
        · obtain ⟨g1, g2, g3, g4, g5, g6, g7, g8, g9, g10⟩ :=
            syncKeep_frame { s with ready := ready, running := s.running.erase t } t
          intro u hu
          rw [g4] at hu
          have hne : u ≠ t := by
            rintro rfl
            have := hg.pool.nodup
            simp only [State.all, List.nodup_append] at this
            exact (List.Nodup.not_mem_erase this.2.1.1) hu
          rcases hrest u (List.mem_of_mem_erase hu) hne with e | e
          · left; rw [g7, g8, g9]; exact e
          · right
            simp only [State.back, g10]
            exact e
        · rename_i ht
          intro u hu
          exact hrest u hu (by rintro rfl; exact ht hu)
  | cancel n =>
    simp only [State.step]
    split
    · exact h.settle n _
    · exact h
  | cancelAll =>
    show Returning s.cancelAll.1
    rw [cancelAll_open hg.pool]
    intro t ht
    simp at ht
  | releaseAll => intro t ht; exact absurd ht (by show t ∉ s.releaseAll.running; simp [State.releaseAll])
  | wait d => exact h.same rfl rfl rfl rfl rfl
  | timer =>
    simp only [State.step]
    split
    · exact h
    · split
      · rename_i tm _ _
        rcases releaseStep_cases s tm.scheduleTime tm.interval with ⟨k, l, x, he⟩ | ⟨t, free, k, l, x, hf, he⟩
        · rw [he]; exact h.same rfl rfl rfl rfl rfl
        · rw [he]; exact h.same rfl rfl rfl rfl rfl
      · exact h

theorem returning_run {s : State} (hg : Good s) (h : Returning s) (ops : List Op) : Returning (s.runOps ops).1 := by
  induction ops generalizing s with
  | nil => exact h
  | cons op ops ih => exact ih (hg.step op) (h.step hg op)

end Verif.ThreadPool
