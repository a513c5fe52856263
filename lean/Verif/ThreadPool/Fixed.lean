import Verif.ThreadPool.Hope

/-! A future that is done stays as it is; a call starts only while its future is not done; calls that are dropped. -/

namespace Verif.ThreadPool

theorem step_fut {es : List Event} {s : State} (h : Inv es s) (op : Op) {n : Nat} (hn : s.fut n ≠ .pending) :
    (s.step op).1.fut n = s.fut n := by
  have hlt : n < s.calls := by
    rcases Nat.lt_or_ge n s.calls with e | e
    · exact e
    · exact absurd (h.later n e) hn
  have hsub : ∀ s' : State, s'.calls = s.calls → s'.fut = s.fut → ∀ t home, (s'.submit t home).fut n = s.fut n := by
    intro s' h1 h2 t home
    show upd s'.fut s'.calls .pending n = _
    rw [h1, h2, upd_ne _ _ (by omega)]
  have hset : ∀ (s' : State) m st, s'.fut = s.fut → (s'.settle m st).fut n = s.fut n := by
    intro s' m st h2
    unfold State.settle
    split
    · rename_i hp
      have : n ≠ m := by rintro rfl; rw [h2] at hp; exact hn hp
      simp only [upd_ne _ _ this, h2]
    · rw [h2]
  cases op with
  | run =>
    refine hsub { s.getFree.1 with running := s.getFree.2 :: s.getFree.1.running } ?_ ?_ _ _
    · exact (getFree_frame s).2.1
    · exact (getFree_frame s).2.2.1
  | claim => show s.getFree.1.fut n = _; rw [(getFree_frame s).2.2.1]
  | execute i =>
    show (s.stepExecute i).1.fut n = _
    unfold State.stepExecute
    split
    · exact hsub s rfl rfl _ _
    · rfl
    · rfl
  | release i =>
    show (s.stepRelease i).1.fut n = _
    unfold State.stepRelease
    split
    · split
      · dsimp only
        split
        · rw [(syncKeep_frame ..).2.2.2.2.2.2.2.2.1]
        · rfl
      · rfl
    · rfl
  | fetch t => show (s.stepFetch t).fut n = _; unfold State.stepFetch; split <;> rfl
  | start t =>
    show (s.stepStart t).1.fut n = _
    unfold State.stepStart
    split
    · split <;> rfl
    · rfl
  | finish t raw => show (s.stepFinish t raw).1.fut n = _; unfold State.stepFinish; split <;> rfl
  | loop =>
    simp only [State.step]
    split
    · rfl
    · rename_i cb ready hr
      cases cb with
      | settle m o => exact hset { s with ready := ready } m _ rfl
      | cancel m => exact hset { s with ready := ready } m _ rfl
      | doneCb t => rfl
      | ended t =>
        rw [State.runCb]
        split
        · rw [(syncKeep_frame ..).2.2.2.2.2.2.2.2.1]
        · rfl
  | cancel m =>
    simp only [State.step]
    split
    · exact hset s m _ rfl
    · rfl
  | cancelAll => show s.cancelAll.1.fut n = _; rw [cancelAll_open h.good.pool]
  | releaseAll => show s.releaseAll.fut n = _; rw [(releaseAll_frame s).2.1]
  | wait d => rfl
  | timer =>
    simp only [State.step]
    split
    · rfl
    · split
      · rename_i tm _ _
        rcases releaseStep_cases s tm.scheduleTime tm.interval with ⟨k, l, x, he⟩ | ⟨t, free, k, l, x, hf, he⟩
        · rw [he]
        · rw [he]; rfl
      · rfl

theorem run_fut {es : List Event} {s : State} (h : Inv es s) (ops : List Op) {n : Nat} (hn : s.fut n ≠ .pending) :
    (s.runOps ops).1.fut n = s.fut n := by
  induction ops generalizing s es with
  | nil => rfl
  | cons op ops ih =>
    have h1 := step_fut h op hn
    rw [State.runOps]
    exact (ih (h.step op) (by rw [h1]; exact hn)).trans h1

theorem step_ran {s : State} {op : Op} {t n : Nat} (h : Event.ran t n ∈ (s.step op).2) : s.fut n = .pending := by
  cases op with
  | start u =>
    have h : Event.ran t n ∈ (s.stepStart u).2 := h
    unfold State.stepStart at h
    split at h
    · split at h
      · rename_i hp; simp at h; rw [h.2]; exact hp
      · simp at h
    · simp at h
  | run => exact absurd (show Event.ran t n ∈ [Event.submitted s.getFree.2 s.getFree.1.calls] from h) (by simp)
  | execute i =>
    have h : Event.ran t n ∈ (s.stepExecute i).2 := h
    unfold State.stepExecute at h
    split at h <;> simp at h
  | release i =>
    have h : Event.ran t n ∈ (s.stepRelease i).2 := h
    unfold State.stepRelease at h
    split at h
    · split at h <;> simp at h
    · simp at h
  | finish u raw =>
    have h : Event.ran t n ∈ (s.stepFinish u raw).2 := h
    unfold State.stepFinish at h
    split at h <;> simp at h
  | loop => simp only [State.step] at h; split at h <;> simp at h
  | cancel m => simp only [State.step] at h; split at h <;> simp at h
  | cancelAll => simp only [State.step] at h; split at h <;> simp at h
  | timer =>
    simp only [State.step] at h
    split at h
    · simp at h
    · split at h <;> simp at h
  | claim => exact absurd (show Event.ran t n ∈ ([] : List Event) from h) (by simp)
  | fetch u => exact absurd (show Event.ran t n ∈ ([] : List Event) from h) (by simp)
  | releaseAll => exact absurd (show Event.ran t n ∈ ([] : List Event) from h) (by simp)
  | wait d => exact absurd (show Event.ran t n ∈ ([] : List Event) from h) (by simp)

/-- A call whose future is done does not start any more. -/
theorem run_ran {es : List Event} {s : State} (h : Inv es s) (ops : List Op) {n : Nat} (hn : s.fut n ≠ .pending) (t : Nat) :
    Event.ran t n ∉ (s.runOps ops).2 := by
  induction ops generalizing s es with
  | nil => simp [State.runOps]
  | cons op ops ih =>
    rw [State.runOps]
    intro hm
    rcases List.mem_append.1 hm with e | e
    · exact hn (step_ran e)
    · exact ih (h.step op) (by rw [step_fut h op hn]; exact hn) e

/-! ## Dropped calls -/

theorem settle_ready_mono (s : State) (n : Nat) (st : Stat) {cb : Cb} (h : cb ∈ s.ready) : cb ∈ (s.settle n st).ready := by
  unfold State.settle
  split
  · exact List.mem_append.2 (.inl h)
  · exact h

theorem step_ready {s : State} (hg : Good s) {op : Op} (hop : op ≠ .loop) {cb : Cb} (h : cb ∈ s.ready) :
    cb ∈ (s.step op).1.ready := by
  cases op with
  | loop => exact absurd rfl hop
  | run => show cb ∈ s.getFree.1.ready; rw [(getFree_frame s).2.2.2.1]; exact h
  | claim => show cb ∈ s.getFree.1.ready; rw [(getFree_frame s).2.2.2.1]; exact h
  | execute i => show cb ∈ (s.stepExecute i).1.ready; unfold State.stepExecute; split <;> exact h
  | release i =>
    show cb ∈ (s.stepRelease i).1.ready
    unfold State.stepRelease
    split
    · split
      · dsimp only
        split
        · rw [(syncKeep_frame ..).2.2.2.2.2.2.2.2.2]; exact h
        · exact h
      · exact h
    · exact h
  | fetch t => show cb ∈ (s.stepFetch t).ready; unfold State.stepFetch; split <;> exact h
  | start t =>
    show cb ∈ (s.stepStart t).1.ready
    unfold State.stepStart
    split
    · split <;> exact h
    · exact h
  | finish t raw =>
    show cb ∈ (s.stepFinish t raw).1.ready
    unfold State.stepFinish
    split
    · exact List.mem_append.2 (.inl h)
    · exact h
  | cancel m =>
    simp only [State.step]
    split
    · exact settle_ready_mono _ _ _ h
    · exact h
  | cancelAll => show cb ∈ s.cancelAll.1.ready; rw [cancelAll_open hg.pool]; exact List.mem_append.2 (.inl h)
  | releaseAll => show cb ∈ s.releaseAll.ready; rw [(releaseAll_frame s).2.2.1]; exact h
  | wait d => exact h
  | timer =>
    simp only [State.step]
    split
    · exact h
    · split
      · rename_i tm _ _
        rcases releaseStep_cases s tm.scheduleTime tm.interval with ⟨k, l, x, he⟩ | ⟨t, free, k, l, x, hf, he⟩ <;>
          (rw [he]; exact h)
      · exact h

/-- The future of a dropped call is cancelled, or will be. -/
def DroppedOk (es : List Event) (s : State) : Prop :=
  ∀ n, Event.dropped n ∈ es → s.fut n = .cancelled ∨ Cb.cancel n ∈ s.ready

theorem Inv.not_done {es : List Event} {s : State} (h : Inv es s) {n : Nat} (hd : Event.dropped n ∈ es) (o : Outcome) :
    s.fut n ≠ .done o := by
  intro hf
  obtain ⟨t, raw, h1, -⟩ := h.done n o hf
  refine (h.drop n hd t).1 ?_
  rw [h.act t]
  exact List.mem_append.2 (.inl (mem_returnedBy.2 ⟨raw, h1⟩))

theorem step_dropped {s : State} {op : Op} {n : Nat} (h : Event.dropped n ∈ (s.step op).2) : op = .cancelAll ∧ n ∈ s.queued := by
  cases op with
  | cancelAll =>
    have h : Event.dropped n ∈ s.queued.map Event.dropped ++ if s.cancelAll.2 then [.attributeError] else [] := h
    refine ⟨rfl, ?_⟩
    rcases List.mem_append.1 h with e | e
    · simpa using e
    · split at e <;> simp at e
  | start u =>
    have h : Event.dropped n ∈ (s.stepStart u).2 := h
    unfold State.stepStart at h
    split at h
    · split at h <;> simp at h
    · simp at h
  | run => exact absurd (show Event.dropped n ∈ [Event.submitted s.getFree.2 s.getFree.1.calls] from h) (by simp)
  | execute i =>
    have h : Event.dropped n ∈ (s.stepExecute i).2 := h
    unfold State.stepExecute at h
    split at h <;> simp at h
  | release i =>
    have h : Event.dropped n ∈ (s.stepRelease i).2 := h
    unfold State.stepRelease at h
    split at h
    · split at h <;> simp at h
    · simp at h
  | finish u raw =>
    have h : Event.dropped n ∈ (s.stepFinish u raw).2 := h
    unfold State.stepFinish at h
    split at h <;> simp at h
  | loop => simp only [State.step] at h; split at h <;> simp at h
  | cancel m => simp only [State.step] at h; split at h <;> simp at h
  | timer =>
    simp only [State.step] at h
    split at h
    · simp at h
    · split at h <;> simp at h
  | claim => exact absurd (show Event.dropped n ∈ ([] : List Event) from h) (by simp)
  | fetch u => exact absurd (show Event.dropped n ∈ ([] : List Event) from h) (by simp)
  | releaseAll => exact absurd (show Event.dropped n ∈ ([] : List Event) from h) (by simp)
  | wait d => exact absurd (show Event.dropped n ∈ ([] : List Event) from h) (by simp)

theorem DroppedOk.step {es : List Event} {s : State} (hi : Inv es s) (h : DroppedOk es s) (op : Op) :
    DroppedOk (es ++ (s.step op).2) (s.step op).1 := by
  intro n hn
  rcases List.mem_append.1 hn with hn1 | hn1
  · rcases h n hn1 with e | e
    · exact .inl (by rw [step_fut hi op (by rw [e]; simp)]; exact e)
    · by_cases hop : op = .loop
      · subst hop
        have hnd := (hi.step .loop).not_done (n := n) (List.mem_append.2 (.inl hn1))
        simp only [State.step] at hnd ⊢
        split at hnd
        · rename_i hr; rw [hr] at e; simp at e
        · rename_i cb ready hr
          rw [hr] at e
          rcases List.mem_cons.1 e with e1 | e1
          · subst e1
            left
            simp only [State.runCb] at hnd ⊢
            by_cases hp : s.fut n = .pending
            · unfold State.settle; rw [if_pos (show ({ s with ready := ready } : State).fut n = _ from hp)]; simp
            · have he : ({ s with ready := ready } : State).settle n .cancelled = { s with ready := ready } := by
                unfold State.settle; rw [if_neg (show ¬ ({ s with ready := ready } : State).fut n = _ from hp)]
              rw [he] at hnd ⊢
              dsimp only at hnd ⊢
              cases hf : s.fut n with
              | pending => exact absurd hf hp
              | cancelled => rfl
              | done o => exact absurd hf (hnd o)
          · right
            cases cb with
            | settle m o => exact settle_ready_mono _ _ _ e1
            | cancel m => exact settle_ready_mono _ _ _ e1
            | doneCb t => exact List.mem_append.2 (.inl e1)
            | ended t =>
              rw [State.runCb]
              split
              · rw [(syncKeep_frame ..).2.2.2.2.2.2.2.2.2]; exact e1
              · exact e1
      · exact .inr (step_ready hi.good hop e)
  · obtain ⟨e, hq⟩ := step_dropped hn1
    subst e
    right
    show Cb.cancel n ∈ s.cancelAll.1.ready
    rw [cancelAll_open hi.good.pool]
    rw [queued_eq hi.good.pool] at hq
    exact List.mem_append.2 (.inr (List.mem_map.2 ⟨n, hq, rfl⟩))

theorem dropped_run {es : List Event} {s : State} (hi : Inv es s) (h : DroppedOk es s) (ops : List Op) :
    DroppedOk (es ++ (s.runOps ops).2) (s.runOps ops).1 := by
  induction ops generalizing s es with
  | nil => rw [State.runOps, List.append_nil]; exact h
  | cons op ops ih =>
    rw [State.runOps]
    have := ih (hi.step op) (h.step hi op)
    rwa [List.append_assoc] at this

theorem runOps_append (s : State) (a b : List Op) :
    s.runOps (a ++ b) = (((s.runOps a).1.runOps b).1, (s.runOps a).2 ++ ((s.runOps a).1.runOps b).2) := by
  induction a generalizing s with
  | nil => simp [State.runOps]
  | cons op a ih => rw [List.cons_append, State.runOps, ih, State.runOps]; simp [List.append_assoc]

end Verif.ThreadPool
