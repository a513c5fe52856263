import Verif.ThreadPool.Trace

/-! Where the calls are which are not settled; calls which are never settled. -/

namespace Verif.ThreadPool

/-! ## The threads of the claimed executors -/

structure Owned (s : State) : Prop where
  nodup : (s.handles.filterMap id).Nodup
  apart : ∀ t, some t ∈ s.handles → t ∉ s.free ∧ t ∉ s.running

theorem Owned.init : Owned {} := ⟨by simp, by simp⟩

theorem Owned.frame {s s' : State} (h : Owned s) (h1 : s'.handles = s.handles) (h2 : ∀ t, t ∈ s'.free → t ∈ s.free ∨ t ∈ s.running)
    (h3 : ∀ t, t ∈ s'.running → t ∈ s.free ∨ t ∈ s.running) : Owned s' where
  nodup := by rw [h1]; exact h.nodup
  apart t ht := by
    rw [h1] at ht
    have := h.apart t ht
    exact ⟨fun hm => (h2 t hm).elim this.1 this.2, fun hm => (h3 t hm).elim this.1 this.2⟩

theorem mem_filterMap_id {l : List (Option Nat)} {t : Nat} : t ∈ l.filterMap id ↔ some t ∈ l := by simp

theorem set_none_filterMap {l : List (Option Nat)} {i t : Nat} (h : l[i]? = some (some t)) (hn : (l.filterMap id).Nodup) :
    ((l.set i none).filterMap id).Nodup ∧ some t ∉ l.set i none := by
  induction l generalizing i with
  | nil => simp at h
  | cons x l ih =>
    cases i with
    | zero =>
      simp only [List.getElem?_cons_zero, Option.some.injEq] at h
      subst h
      simp only [List.filterMap_cons, id, List.nodup_cons] at hn
      simp only [List.set_cons_zero]
      refine ⟨by simpa using hn.2, ?_⟩
      intro hm
      rcases List.mem_cons.1 hm with hm | hm
      · cases hm
      · exact hn.1 (by simpa using hm)
    | succ i =>
      simp only [List.getElem?_cons_succ] at h
      simp only [List.set_cons_succ]
      cases x with
      | none =>
        simp only [List.filterMap_cons, id] at hn ⊢
        have := ih h hn
        exact ⟨this.1, by simpa using this.2⟩
      | some u =>
        simp only [List.filterMap_cons, id, List.nodup_cons] at hn ⊢
        have := ih h hn.2
        have hu : u ≠ t := by
          rintro rfl
          exact hn.1 (by simpa using List.mem_of_getElem? h)
        refine ⟨⟨?_, this.1⟩, ?_⟩
        · intro hm
          have hm : some u ∈ l.set i none := by simpa using hm
          rcases List.mem_or_eq_of_mem_set hm with hm | hm
          · exact hn.1 (by simpa using hm)
          · cases hm
        · intro hm
          rcases List.mem_cons.1 hm with hm | hm
          · cases hm; exact hu rfl
          · exact this.2 hm

theorem Owned.step {s : State} (hg : Good s) (h : Owned s) (op : Op) : Owned (s.step op).1 := by
  cases op with
  | run =>
    rcases getFree_cases s with ⟨t, free, hf, he⟩ | ⟨hf, he⟩
    · refine h.frame ?_ ?_ ?_
      · show s.getFree.1.handles = _; rw [he]
      · intro u hu
        have hu' : u ∈ s.getFree.1.free := hu
        rw [he] at hu'
        exact .inl (by rw [hf]; exact List.mem_cons_of_mem _ hu')
      · intro u hu
        have hu' : u ∈ s.getFree.2 :: s.getFree.1.running := hu
        rw [he] at hu'
        rcases List.mem_cons.1 hu' with e | e
        · exact .inl (by rw [hf, e]; exact List.mem_cons_self ..)
        · exact .inr e
    · constructor
      · have : (s.step .run).1.handles = s.handles := by show s.getFree.1.handles = _; rw [he]
        rw [this]; exact h.nodup
      · intro t ht
        have ht' : some t ∈ s.getFree.1.handles := ht
        rw [he] at ht'
        have := h.apart t ht'
        have hlt := hg.handles t ht'
        constructor
        · show t ∉ s.getFree.1.free; rw [he]; exact this.1
        · show t ∉ s.getFree.2 :: s.getFree.1.running
          rw [he]
          intro hm
          rcases List.mem_cons.1 hm with e | e
          · exact absurd (show t = s.count from e) (by omega)
          · exact this.2 e
  | claim =>
    have key : (s.step .claim).1.handles = s.handles ++ [some s.getFree.2] := by
      show s.getFree.1.handles ++ [some s.getFree.2] = _
      rcases getFree_cases s with ⟨t, free, hf, he⟩ | ⟨hf, he⟩ <;> rw [he]
    have hnew : some s.getFree.2 ∉ s.handles := by
      rcases getFree_cases s with ⟨t, free, hf, he⟩ | ⟨hf, he⟩
      · rw [he]; intro hm; exact (h.apart t hm).1 (by rw [hf]; exact List.mem_cons_self ..)
      · rw [he]; intro hm; exact absurd (hg.handles _ hm) (Nat.lt_irrefl _)
    constructor
    · rw [key, List.filterMap_append, List.nodup_append]
      refine ⟨h.nodup, by simp, ?_⟩
      intro a ha b hb e
      simp at hb
      subst hb e
      exact hnew (mem_filterMap_id.1 ha)
    · intro t ht
      rw [key] at ht
      have hfree : ∀ u, u ∈ s.getFree.1.free → u ∈ s.free := by
        intro u hu
        rcases getFree_cases s with ⟨v, free, hf, he⟩ | ⟨hf, he⟩
        · rw [he] at hu; rw [hf]; exact List.mem_cons_of_mem _ hu
        · rw [he] at hu; exact hu
      have hnall := (getFree_good hg.pool).2.2.2.1
      simp only [State.all, List.mem_append, not_or] at hnall
      have hrun := (getFree_frame s).2.2.2.2.2.1
      rcases List.mem_append.1 ht with ht | ht
      · have := h.apart t ht
        refine ⟨fun hm => this.1 (hfree t hm), ?_⟩
        show t ∉ s.getFree.1.running
        rw [hrun]; exact this.2
      · simp at ht
        subst ht
        exact ⟨hnall.1, hnall.2.1⟩
  | execute i =>
    show Owned (s.stepExecute i).1
    unfold State.stepExecute
    split
    · exact h.frame rfl (fun _ => .inl) (fun _ => .inr)
    · exact h
    · exact h
  | release i =>
    show Owned (s.stepRelease i).1
    unfold State.stepRelease
    split
    · rename_i t hi
      split
      · dsimp only
        have hs := set_none_filterMap hi h.nodup
        split
        · obtain ⟨f1, f2, f3, f4, f5, f6, -⟩ := syncKeep_frame { s with claimed := s.claimed.erase t } t
          constructor
          · exact hs.1
          · intro u hu
            have hu' : some u ∈ s.handles := by
              have := List.mem_or_eq_of_mem_set hu
              simpa using this
            have := h.apart u hu'
            constructor
            · dsimp only
              rw [f3]
              intro hm
              rcases List.mem_cons.1 hm with e | e
              · subst e; exact hs.2 hu
              · exact this.1 e
            · dsimp only; rw [f4]; exact this.2
        · constructor
          · exact hs.1
          · intro u hu
            have hu' : some u ∈ s.handles := by
              have := List.mem_or_eq_of_mem_set hu
              simpa using this
            exact h.apart u hu'
      · exact h
    · exact h
  | fetch t =>
    show Owned (s.stepFetch t)
    unfold State.stepFetch
    split
    · exact h.frame rfl (fun _ => .inl) (fun _ => .inr)
    · exact h
  | start t =>
    show Owned (s.stepStart t).1
    unfold State.stepStart
    split
    · split
      · exact h.frame rfl (fun _ => .inl) (fun _ => .inr)
      · exact h.frame rfl (fun _ => .inl) (fun _ => .inr)
    · exact h
  | finish t raw =>
    show Owned (s.stepFinish t raw).1
    unfold State.stepFinish
    split
    · exact h.frame rfl (fun _ => .inl) (fun _ => .inr)
    · exact h
  | loop =>
    simp only [State.step]
    split
    · exact h
    · rename_i cb ready hr
      have settleCase : ∀ n st, Owned (({ s with ready := ready } : State).settle n st) := by
        intro n st
        obtain ⟨f1, f2, f3, f4, f5, f6, -⟩ := settle_frame { s with ready := ready } n st
        exact h.frame f6 (fun t ht => by rw [f3] at ht; exact .inl ht) (fun t ht => by rw [f4] at ht; exact .inr ht)
      cases cb with
      | settle n o => exact settleCase n _
      | cancel n => exact settleCase n _
      | doneCb t => exact h.frame rfl (fun _ => .inl) (fun _ => .inr)
      | ended t =>
        rw [State.runCb]
        split
        · rename_i ht
          obtain ⟨f1, f2, f3, f4, f5, f6, -⟩ := syncKeep_frame { s with ready := ready, running := s.running.erase t } t
          refine h.frame f6 ?_ ?_
          · intro u hu
            rw [f3] at hu
            rcases List.mem_cons.1 hu with e | e
            · subst e; exact .inr ht
            · exact .inl e
          · intro u hu
            rw [f4] at hu
            exact .inr (List.mem_of_mem_erase hu)
        · exact h.frame rfl (fun _ => .inl) (fun _ => .inr)
  | cancel n =>
    simp only [State.step]
    split
    · obtain ⟨f1, f2, f3, f4, f5, f6, -⟩ := settle_frame s n .cancelled
      exact h.frame f6 (fun t ht => by rw [f3] at ht; exact .inl ht) (fun t ht => by rw [f4] at ht; exact .inr ht)
    · exact h
  | cancelAll =>
    show Owned s.cancelAll.1
    rw [cancelAll_open hg.pool]
    exact h.frame rfl (fun _ hm => absurd hm (by simp)) (fun _ hm => absurd hm (by simp))
  | releaseAll =>
    show Owned s.releaseAll
    exact h.frame (releaseAll_frame s).2.2.2.2.2 (fun _ hm => absurd hm (by simp [State.releaseAll]))
      (fun _ hm => absurd hm (by simp [State.releaseAll]))
  | wait d => exact h.frame rfl (fun _ => .inl) (fun _ => .inr)
  | timer =>
    simp only [State.step]
    split
    · exact h
    · split
      · rename_i tm _ _
        rcases releaseStep_cases s tm.scheduleTime tm.interval with ⟨k, l, x, he⟩ | ⟨t, free, k, l, x, hf, he⟩
        · rw [he]; exact h.frame rfl (fun _ => .inl) (fun _ => .inr)
        · rw [he]
          exact h.frame rfl (fun u hu => .inl (by rw [hf]; exact List.mem_cons_of_mem _ hu)) (fun _ => .inr)
      · exact h

theorem owned_run {s : State} (hg : Good s) (h : Owned s) (ops : List Op) : Owned (s.runOps ops).1 := by
  induction ops generalizing s with
  | nil => exact h
  | cons op ops ih => exact ih (hg.step op) (h.step hg op)

/-- The thread of a claimed executor which is not claimed any more was told to stop. -/
theorem Owned.closed {s : State} (hg : Good s) (h : Owned s) {t : Nat} (ht : some t ∈ s.handles) (hc : t ∉ s.claimed) :
    (s.thread t).isOpen = false := by
  have h1 := h.apart t ht
  have h2 := hg.handles t ht
  rw [← Bool.not_eq_true]
  intro ho
  have := (hg.pool.mem t).2 ⟨h2, ho⟩
  simp only [State.all, List.mem_append] at this
  rcases this with e | e | e
  · exact h1.1 e
  · exact h1.2 e
  · exact hc e

/-! ## Changes of one thread -/

/-- What a step may do to a thread -/
inductive Change (s : State) (op : Op) (t : Nat) : Thread → Prop where
  | same : Change s op t (s.thread t)
  | put (n : Nat) (h : (s.thread t).isOpen = true ∨ ∃ i, op = .execute i ∧ s.handles[i]? = some (some t)) :
    Change s op t ((s.thread t).put (some n))
  | stop (h : (s.thread t).isOpen = true) : Change s op t ((s.thread t).put none)
  | fetch (h : (s.thread t).pc = .idle) : Change s op t (s.thread t).fetch
  | start (n : Nat) (h : (s.thread t).pc = .taken n) : Change s op t { s.thread t with pc := .running n }
  | skip (n : Nat) (h : (s.thread t).pc = .taken n) (hf : s.fut n ≠ .pending) : Change s op t { s.thread t with pc := .idle }
  | finish (n : Nat) (h : (s.thread t).pc = .running n) (raw : Raw) (hop : op = .finish t raw) :
    Change s op t { s.thread t with pc := .idle }
  | drop (h : (s.thread t).isOpen = true) :
    Change s op t (({ s.thread t with queue := [], stopped := true } : Thread).put none)

theorem Change.of_eq {s : State} {op : Op} {t : Nat} {th : Thread} (h : th = s.thread t) : Change s op t th := h ▸ .same

theorem step_change {s : State} (hg : Good s) (op : Op) (t : Nat) : Change s op t ((s.step op).1.thread t) := by
  cases op with
  | run =>
    have e : (s.step .run).1.thread = upd s.thread s.getFree.2 ((s.thread s.getFree.2).put (some s.calls)) := by
      show upd s.getFree.1.thread s.getFree.2 ((s.getFree.1.thread s.getFree.2).put (some s.getFree.1.calls)) = _
      rw [(getFree_frame s).1, (getFree_frame s).2.1]
    rw [e]
    by_cases ht : t = s.getFree.2
    · rw [ht, upd_same]
      refine .put _ (.inl ?_)
      have := (getFree_good hg.pool).2.2.2.2.1
      have hm : (s.getFree.1.thread s.getFree.2).isOpen = true := ((this.mem s.getFree.2).1 (by simp [State.all])).2
      rwa [(getFree_frame s).1] at hm
    · rw [upd_ne _ _ ht]; exact .same
  | claim => exact .of_eq (by show s.getFree.1.thread t = _; rw [(getFree_frame s).1])
  | execute i =>
    show Change s _ t ((s.stepExecute i).1.thread t)
    unfold State.stepExecute
    split
    · rename_i u hi
      dsimp only
      rw [(submit_frame ..).2.1]
      by_cases ht : t = u
      · subst ht; rw [upd_same]; exact .put _ (.inr ⟨i, rfl, hi⟩)
      · rw [upd_ne _ _ ht]; exact .same
    · exact .same
    · exact .same
  | release i => exact .of_eq (by show (s.stepRelease i).1.thread t = _; rw [(stepRelease_frame s i).1])
  | fetch u =>
    show Change s _ t ((s.stepFetch u).thread t)
    unfold State.stepFetch
    split
    · rename_i hu
      dsimp only
      by_cases ht : t = u
      · subst ht; rw [upd_same]; exact .fetch hu.2
      · rw [upd_ne _ _ ht]; exact .same
    · exact .same
  | start u =>
    show Change s _ t ((s.stepStart u).1.thread t)
    unfold State.stepStart
    split
    · rename_i n hn
      split
      · dsimp only
        by_cases ht : t = u
        · subst ht; rw [upd_same]; exact .start n hn
        · rw [upd_ne _ _ ht]; exact .same
      · rename_i hf
        dsimp only
        by_cases ht : t = u
        · subst ht; rw [upd_same]; exact .skip n hn hf
        · rw [upd_ne _ _ ht]; exact .same
    · exact .same
  | finish u raw =>
    show Change s _ t ((s.stepFinish u raw).1.thread t)
    unfold State.stepFinish
    split
    · rename_i n hn
      dsimp only
      by_cases ht : t = u
      · subst ht; rw [upd_same]; exact .finish n hn raw rfl
      · rw [upd_ne _ _ ht]; exact .same
    · exact .same
  | loop =>
    simp only [State.step]
    split
    · exact .same
    · rename_i cb ready hr
      cases cb with
      | settle n o => exact .of_eq (by rw [State.runCb, (settle_frame ..).2.1])
      | cancel n => exact .of_eq (by rw [State.runCb, (settle_frame ..).2.1])
      | doneCb u => exact .same
      | ended u =>
        rw [State.runCb]
        split
        · exact .of_eq (by rw [(syncKeep_frame ..).2.1])
        · exact .same
  | cancel n =>
    simp only [State.step]
    split
    · exact .of_eq (by rw [(settle_frame ..).2.1])
    · exact .same
  | cancelAll =>
    show Change s _ t (s.cancelAll.1.thread t)
    rw [cancelAll_open hg.pool]
    dsimp only
    have hall : ∀ u, u ∈ s.free ∨ u ∈ s.running ∨ u ∈ s.claimed → (s.thread u).isOpen = true := by
      intro u hu
      refine ((hg.pool.mem u).1 ?_).2
      simpa [State.all] using hu
    split
    · rename_i hm; exact .stop (hall t (.inl hm))
    · split
      · rename_i hm; exact .drop (hall t (.inr hm))
      · exact .same
  | releaseAll =>
    show Change s _ t (s.releaseAll.thread t)
    rw [releaseAll_thread hg.pool]
    split
    · rename_i hm; exact .stop ((hg.pool.mem t).1 hm).2
    · exact .same
  | wait d => exact .same
  | timer =>
    simp only [State.step]
    split
    · exact .same
    · split
      · rename_i tm _ _
        rcases releaseStep_cases s tm.scheduleTime tm.interval with ⟨k, l, x, he⟩ | ⟨u, free, k, l, x, hf, he⟩
        · rw [he]; exact .same
        · rw [he]
          dsimp only
          rw [put_thread]
          dsimp only
          split
          · rename_i hu
            subst hu
            exact .stop ((hg.pool.mem t).1 (by simp [State.all, hf])).2
          · exact .same
      · exact .same

/-! ## Calls behind the end of a thread -/

/-- The call is behind a `None`, or in the queue of a thread which was stopped or ended. -/
def Lost (th : Thread) (n : Nat) : Prop :=
  some n ∈ th.queue.dropWhile (· != none) ∨ (th.stopped = true ∨ th.pc = .ended) ∧ some n ∈ th.queue

theorem dropWhile_mem {q : List (Option Nat)} {x : Option Nat} (h : x ∈ q.dropWhile (· != none)) : x ∈ q :=
  (List.dropWhile_sublist _).subset h

theorem dropWhile_none {q : List (Option Nat)} {n : Nat} (h : some n ∈ q.dropWhile (· != none)) : none ∈ q := by
  induction q with
  | nil => simp at h
  | cons x q ih =>
    cases x with
    | none => exact List.mem_cons_self ..
    | some m =>
      rw [List.dropWhile_cons_of_pos (by simp)] at h
      exact List.mem_cons_of_mem _ (ih h)

theorem dropWhile_append_mem {q : List (Option Nat)} {x y : Option Nat} (h : x ∈ q.dropWhile (· != none)) :
    x ∈ (q ++ [y]).dropWhile (· != none) := by
  induction q with
  | nil => simp at h
  | cons z q ih =>
    cases z with
    | none =>
      rw [List.dropWhile_cons_of_neg (by simp)] at h
      rw [List.cons_append, List.dropWhile_cons_of_neg (by simp)]
      exact List.mem_append.2 (.inl h)
    | some m =>
      rw [List.dropWhile_cons_of_pos (by simp)] at h
      rw [List.cons_append, List.dropWhile_cons_of_pos (by simp)]
      exact ih h

theorem dropWhile_append_last {q : List (Option Nat)} {y : Option Nat} (h : none ∈ q) :
    y ∈ (q ++ [y]).dropWhile (· != none) := by
  induction q with
  | nil => simp at h
  | cons z q ih =>
    cases z with
    | none => rw [List.cons_append, List.dropWhile_cons_of_neg (by simp)]; simp
    | some m =>
      rw [List.cons_append, List.dropWhile_cons_of_pos (by simp)]
      exact ih (by simpa using h)

theorem Lost.closed {th : Thread} {n : Nat} (h : Lost th n) : th.isOpen = false := by
  rw [← Bool.not_eq_true, isOpen_iff]
  rintro ⟨h1, h2, h3⟩
  rcases h with h | ⟨h | h, _⟩
  · exact h1 (dropWhile_none h)
  · rw [h2] at h; cases h
  · exact h3 h

theorem Lost.mem {th : Thread} {n : Nat} (h : Lost th n) : n ∈ th.pend := by
  refine List.mem_append.2 (.inr (mem_filterMap_id.2 ?_))
  rcases h with h | ⟨_, h⟩
  · exact dropWhile_mem h
  · exact h

theorem closed_pc {th : Thread} (hb : Blk th) (h : th.isOpen = false) : th.pc ≠ .blocked := by
  intro hp
  rw [← Bool.not_eq_true, isOpen_iff] at h
  have := hb hp
  exact h ⟨by simp [this.1], this.2, by rw [hp]; simp⟩

theorem put_of_ne {th : Thread} (h : th.pc ≠ .blocked) (x : Option Nat) : th.put x = { th with queue := th.queue ++ [x] } := by
  cases x with
  | none => cases hp : th.pc <;> simp_all [Thread.put]
  | some n => cases hp : th.pc <;> simp_all [Thread.put]

/-- A call which is given to a thread that was told to stop is lost. -/
theorem lost_put {th : Thread} (hb : Blk th) (h : th.isOpen = false) (n : Nat) : Lost (th.put (some n)) n := by
  rw [put_of_ne (closed_pc hb h)]
  rw [← Bool.not_eq_true, isOpen_iff] at h
  by_cases h1 : none ∈ th.queue
  · exact .inl (dropWhile_append_last h1)
  · by_cases h2 : th.stopped = true
    · exact .inr ⟨.inl h2, by simp⟩
    · by_cases h3 : th.pc = .ended
      · exact .inr ⟨.inr h3, by simp⟩
      · exact absurd ⟨h1, by simpa using h2, h3⟩ h

theorem Lost.change {s : State} {op : Op} {t n : Nat} {th : Thread} (hb : Blk (s.thread t)) (h : Lost (s.thread t) n)
    (hc : Change s op t th) : Lost th n := by
  have hcl := h.closed
  cases hc with
  | same => exact h
  | put m _ =>
    rw [put_of_ne (closed_pc hb hcl)]
    rcases h with h | ⟨h1, h2⟩
    · exact .inl (dropWhile_append_mem h)
    · exact .inr ⟨h1, List.mem_append.2 (.inl h2)⟩
  | stop ho => rw [hcl] at ho; cases ho
  | drop ho => rw [hcl] at ho; cases ho
  | fetch hi =>
    unfold Thread.fetch
    split
    · exact .inr ⟨.inr rfl, mem_filterMap_id.1 (by have := h.mem; simpa [Thread.pend, Thread.held, hi] using this)⟩
    · rename_i hs
      have h' : some n ∈ (s.thread t).queue.dropWhile (· != none) := by
        rcases h with h | ⟨h1 | h1, _⟩
        · exact h
        · exact absurd h1 hs
        · rw [hi] at h1; cases h1
      split
      · rename_i hq; rw [hq] at h'; simp at h'
      · rename_i q hq
        rw [hq, List.dropWhile_cons_of_neg (by simp)] at h'
        exact .inr ⟨.inr rfl, by simpa using h'⟩
      · rename_i m q hq
        rw [hq, List.dropWhile_cons_of_pos (by simp)] at h'
        exact .inl h'
  | start m hm =>
    rcases h with h | ⟨h1 | h1, h2⟩
    · exact .inl h
    · exact .inr ⟨.inl h1, h2⟩
    · rw [hm] at h1; cases h1
  | skip m hm _ =>
    rcases h with h | ⟨h1 | h1, h2⟩
    · exact .inl h
    · exact .inr ⟨.inl h1, h2⟩
    · rw [hm] at h1; cases h1
  | finish m hm =>
    rcases h with h | ⟨h1 | h1, h2⟩
    · exact .inl h
    · exact .inr ⟨.inl h1, h2⟩
    · rw [hm] at h1; cases h1

theorem lost_run {es : List Event} {s : State} (h : Inv es s) {t n : Nat} (hl : Lost (s.thread t) n) (ops : List Op) :
    Lost ((s.runOps ops).1.thread t) n := by
  induction ops generalizing s es with
  | nil => exact hl
  | cons op ops ih => exact ih (h.step op) (hl.change (h.blk t) (step_change h.good op t))

/-- A call which is in a queue, and which nobody cancelled, is not settled. -/
theorem Inv.pending {es : List Event} {s : State} (h : Inv es s) {t n : Nat} (hp : n ∈ (s.thread t).pend)
    (hc : Event.userCancel n ∉ es) : s.fut n = .pending ∧ ∀ u, Event.ran u n ∉ es := by
  have hran : ∀ u, n ∉ ranBy u es := by
    intro u hu
    have hs := (h.fifo t).subset (List.mem_append.2 (.inr hp))
    have he : u = t := submitted_unique h.nodup ((h.fifo u).subset (List.mem_append.2 (.inl hu))) hs
    subst he
    have := h.nodup_to u
    rw [List.nodup_append] at this
    exact this.2.2 n hu n hp rfl
  refine ⟨?_, fun u hu => hran u (mem_ranBy.2 hu)⟩
  cases hf : s.fut n with
  | pending => rfl
  | cancelled =>
    rcases h.canc n hf with e | e
    · exact absurd e hc
    · exact absurd hp (h.drop n e t).2
  | done o =>
    obtain ⟨u, raw, h1, -⟩ := h.done n o hf
    refine absurd ?_ (hran u)
    rw [h.act u]
    exact List.mem_append.2 (.inl (mem_returnedBy.2 ⟨raw, h1⟩))

/-! ## Calls which are not settled are somewhere -/

def CleanQ : List (Option Nat) → Prop
  | [] => True
  | some _ :: q => CleanQ q
  | none :: q => ∀ n, some n ∉ q

structure Clean (th : Thread) : Prop where
  queue : CleanQ th.queue
  off : th.stopped = true ∨ th.pc = .ended → ∀ n, some n ∉ th.queue

theorem CleanQ.append_none {q : List (Option Nat)} (h : CleanQ q) : CleanQ (q ++ [none]) := by
  induction q with
  | nil => intro n; simp
  | cons x q ih =>
    cases x with
    | none => intro n hm; simp at hm; exact h n hm
    | some m => exact ih h

theorem CleanQ.append_some {q : List (Option Nat)} (h : none ∉ q) (n : Nat) : CleanQ (q ++ [some n]) := by
  induction q with
  | nil => trivial
  | cons x q ih =>
    rw [List.mem_cons, not_or] at h
    cases x with
    | none => exact absurd rfl h.1
    | some m => exact ih h.2

theorem Clean.change {s : State} {op : Op} {t : Nat} {th : Thread} (hb : Blk (s.thread t)) (h : Clean (s.thread t))
    (hc : Change s op t th)
    (hput : ∀ i, op = .execute i → s.handles[i]? = some (some t) → (s.thread t).isOpen = true) : Clean th := by
  have stop : ∀ x : Thread, Blk x → Clean x → Clean (x.put none) := by
    intro x hbx hx
    by_cases hp : x.pc = .blocked
    · have e : x.put none = { x with pc := .ended } := by simp [Thread.put, hp]
      rw [e]
      exact ⟨hx.queue, fun _ n hm => by simp [(hbx hp).1] at hm⟩
    · rw [put_of_ne hp]
      exact ⟨hx.queue.append_none, fun ho n hm => by simp at hm; exact hx.off ho n hm⟩
  cases hc with
  | same => exact h
  | put n hn =>
    have ho : (s.thread t).isOpen = true := by
      rcases hn with ho | ⟨i, h1, h2⟩
      · exact ho
      · exact hput i h1 h2
    rw [isOpen_iff] at ho
    by_cases hp : (s.thread t).pc = .blocked
    · have e : (s.thread t).put (some n) = { s.thread t with pc := .taken n } := by simp [Thread.put, hp]
      rw [e]
      exact ⟨h.queue, fun _ m hm => by simp [(hb hp).1] at hm⟩
    · rw [put_of_ne hp]
      refine ⟨CleanQ.append_some ho.1 n, fun hoff => ?_⟩
      rcases hoff with e | e
      · rw [ho.2.1] at e; cases e
      · exact absurd e ho.2.2
  | stop ho => exact stop _ hb h
  | drop ho =>
    by_cases hp : (s.thread t).pc = .blocked
    · have e : ({ s.thread t with queue := [], stopped := true } : Thread).put none =
          { s.thread t with queue := [], stopped := true, pc := .ended } := by simp [Thread.put, hp]
      rw [e]
      exact ⟨trivial, fun _ n hm => by simp at hm⟩
    · rw [put_of_ne (by exact hp)]
      exact ⟨by intro n; simp, fun _ n hm => by simp at hm⟩
  | fetch hi =>
    unfold Thread.fetch
    split
    · rename_i hs; exact ⟨h.queue, fun _ => h.off (.inl hs)⟩
    · rename_i hs
      split
      · rename_i hq; exact ⟨h.queue, fun _ n hm => by simp [hq] at hm⟩
      · rename_i q hq
        have := h.queue
        rw [hq] at this
        refine ⟨?_, fun _ => this⟩
        show CleanQ q
        cases q with
        | nil => trivial
        | cons x q =>
          cases x with
          | none => intro n hm; exact this n (List.mem_cons_of_mem _ hm)
          | some m => exact absurd (List.mem_cons_self ..) (this m)
      · rename_i m q hq
        have := h.queue
        rw [hq] at this
        refine ⟨this, fun ho => ?_⟩
        rcases ho with ho | ho
        · exact absurd ho hs
        · cases ho
  | start n hn =>
    refine ⟨h.queue, fun ho => ?_⟩
    rcases ho with ho | ho
    · exact h.off (.inl ho)
    · cases ho
  | skip n hn _ =>
    refine ⟨h.queue, fun ho => ?_⟩
    rcases ho with ho | ho
    · exact h.off (.inl ho)
    · cases ho
  | finish n hn =>
    refine ⟨h.queue, fun ho => ?_⟩
    rcases ho with ho | ho
    · exact h.off (.inl ho)
    · cases ho

/-- The calls which are not settled -/
def Located (s : State) : Prop :=
  ∀ n, n < s.calls → s.fut n = .pending →
    (∃ t, n ∈ (s.thread t).pend ∨ n ∈ (s.thread t).act) ∨ (∃ o, Cb.settle n o ∈ s.ready) ∨ Cb.cancel n ∈ s.ready

theorem Located.keep {s s' : State} (h : Located s) (hc : s'.calls = s.calls) (hf : ∀ n, s'.fut n = .pending → s.fut n = .pending)
    (ht : ∀ n t, s'.fut n = .pending → n ∈ (s.thread t).pend ∨ n ∈ (s.thread t).act →
      n ∈ (s'.thread t).pend ∨ n ∈ (s'.thread t).act ∨ (∃ o, Cb.settle n o ∈ s'.ready) ∨ Cb.cancel n ∈ s'.ready)
    (hr : ∀ n o, s'.fut n = .pending → Cb.settle n o ∈ s.ready → Cb.settle n o ∈ s'.ready)
    (hr' : ∀ n, s'.fut n = .pending → Cb.cancel n ∈ s.ready → Cb.cancel n ∈ s'.ready) : Located s' := by
  intro n hn hp
  rw [hc] at hn
  rcases h n hn (hf n hp) with ⟨t, h'⟩ | ⟨o, h'⟩ | h'
  · rcases ht n t hp h' with h' | h' | h' | h'
    · exact .inl ⟨t, .inl h'⟩
    · exact .inl ⟨t, .inr h'⟩
    · exact .inr (.inl h')
    · exact .inr (.inr h')
  · exact .inr (.inl ⟨o, hr n o hp h'⟩)
  · exact .inr (.inr (hr' n hp h'))

theorem Located.submit {s s' : State} (h : Located s) {t : Nat} (hb : Blk (s.thread t))
    (hth : s'.thread = upd s.thread t ((s.thread t).put (some s.calls))) (hcalls : s'.calls = s.calls + 1)
    (hfut : s'.fut = upd s.fut s.calls .pending) (hready : s'.ready = s.ready) : Located s' := by
  intro n hn hp
  by_cases e : n = s.calls
  · subst e
    refine .inl ⟨t, .inl ?_⟩
    rw [hth, upd_same, pend_put_some hb]; simp
  · rw [hfut, upd_ne _ _ e] at hp
    rcases h n (by omega) hp with ⟨u, h'⟩ | ⟨o, h'⟩ | h'
    · refine .inl ⟨u, ?_⟩
      rw [hth]
      by_cases hu : u = t
      · subst hu
        rw [upd_same, pend_put_some hb, act_put]
        exact h'.imp (fun x => List.mem_append.2 (.inl x)) id
      · rw [upd_ne _ _ hu]; exact h'
    · exact .inr (.inl ⟨o, by rw [hready]; exact h'⟩)
    · exact .inr (.inr (by rw [hready]; exact h'))

theorem pend_stop_act (th : Thread) (n : Nat) (h : n ∈ th.pend ∨ n ∈ th.act) :
    n ∈ (th.put none).pend ∨ n ∈ (th.put none).act := by
  rw [pend_put_none, act_put]; exact h

theorem Located.step {es : List Event} {s : State} (hi : Inv es s) (h : Located s) (op : Op) : Located (s.step op).1 := by
  cases op with
  | run =>
    obtain ⟨f1, f2, f3, f4, -⟩ := getFree_frame s
    refine h.submit (hi.blk s.getFree.2) ?_ ?_ ?_ ?_
    · show upd s.getFree.1.thread s.getFree.2 ((s.getFree.1.thread s.getFree.2).put (some s.getFree.1.calls)) = _
      rw [f1, f2]
    · show s.getFree.1.calls + 1 = _; rw [f2]
    · show upd s.getFree.1.fut s.getFree.1.calls _ = _; rw [f2, f3]
    · show s.getFree.1.ready = _; rw [f4]
  | claim =>
    obtain ⟨f1, f2, f3, f4, -⟩ := getFree_frame s
    have e1 : (s.step .claim).1.thread = s.thread := f1
    have e2 : (s.step .claim).1.fut = s.fut := f3
    have e3 : (s.step .claim).1.ready = s.ready := f4
    refine h.keep f2 (fun n hn => by rw [e2] at hn; exact hn) ?_ (fun n o _ hn => by rw [e3]; exact hn)
      (fun n _ hn => by rw [e3]; exact hn)
    intro n t _ hn; rw [e1]; exact hn.imp id .inl
  | execute i =>
    show Located (s.stepExecute i).1
    unfold State.stepExecute
    split
    · rename_i t ht; exact h.submit (hi.blk t) rfl rfl rfl rfl
    · exact h
    · exact h
  | release i =>
    obtain ⟨f1, f2, f3, f4, -⟩ := stepRelease_frame s i
    have e1 : (s.step (.release i)).1.thread = s.thread := f1
    have e2 : (s.step (.release i)).1.fut = s.fut := f3
    have e3 : (s.step (.release i)).1.ready = s.ready := f4
    refine h.keep f2 (fun n hn => by rw [e2] at hn; exact hn) ?_ (fun n o _ hn => by rw [e3]; exact hn)
      (fun n _ hn => by rw [e3]; exact hn)
    intro n t _ hn; rw [e1]; exact hn.imp id .inl
  | fetch t =>
    show Located (s.stepFetch t)
    unfold State.stepFetch
    split
    · rename_i ht
      refine h.keep rfl (fun _ => id) ?_ (fun _ _ _ => id) (fun _ _ => id)
      intro n u _ hn
      dsimp only
      by_cases hu : u = t
      · subst hu; rw [upd_same, pend_fetch_eq ht.2, act_fetch ht.2]; exact hn.imp id .inl
      · rw [upd_ne _ _ hu]; exact hn.imp id .inl
    · exact h
  | start t =>
    show Located (s.stepStart t).1
    unfold State.stepStart
    split
    · rename_i m hm
      split
      · refine h.keep rfl (fun _ => id) ?_ (fun _ _ _ => id) (fun _ _ => id)
        intro n u _ hn
        dsimp only
        by_cases hu : u = t
        · subst hu
          rw [upd_same]
          rcases hn with hn | hn
          · simp only [Thread.pend, Thread.held, hm, List.cons_append, List.nil_append, List.mem_cons] at hn
            rcases hn with hn | hn
            · exact .inr (.inl (by simp [Thread.act, hn]))
            · exact .inl (by simpa [Thread.pend, Thread.held] using hn)
          · simp [Thread.act, hm] at hn
        · rw [upd_ne _ _ hu]; exact hn.imp id .inl
      · rename_i hf
        refine h.keep rfl (fun _ => id) ?_ (fun _ _ _ => id) (fun _ _ => id)
        intro n u hp hn
        dsimp only at hp ⊢
        by_cases hu : u = t
        · subst hu
          rw [upd_same]
          rcases hn with hn | hn
          · simp only [Thread.pend, Thread.held, hm, List.cons_append, List.nil_append, List.mem_cons] at hn
            rcases hn with hn | hn
            · subst hn; exact absurd hp hf
            · exact .inl (by simpa [Thread.pend, Thread.held] using hn)
          · simp [Thread.act, hm] at hn
        · rw [upd_ne _ _ hu]; exact hn.imp id .inl
    · exact h
  | finish t raw =>
    show Located (s.stepFinish t raw).1
    unfold State.stepFinish
    split
    · rename_i m hm
      refine h.keep rfl (fun _ => id) ?_ (fun _ _ _ hn => List.mem_append.2 (.inl hn)) (fun _ _ hn => List.mem_append.2 (.inl hn))
      intro n u hp hn
      dsimp only
      by_cases hu : u = t
      · subst hu
        rw [upd_same]
        rcases hn with hn | hn
        · exact .inl (by simpa [Thread.pend, Thread.held, hm] using hn)
        · simp [Thread.act, hm] at hn
          subst hn
          exact .inr (.inr (.inl ⟨deliver raw, by simp⟩))
      · rw [upd_ne _ _ hu]; exact hn.imp id .inl
    · exact h
  | loop =>
    simp only [State.step]
    split
    · exact h
    · rename_i cb ready hr
      have settleCase : ∀ n st, st ≠ .pending → ((∃ o, cb = .settle n o) ∨ cb = .cancel n) →
          Located (({ s with ready := ready } : State).settle n st) := by
        intro n st hst hcb
        obtain ⟨f1, f2, f3, f4, f5, f6, f7, f8⟩ := settle_frame { s with ready := ready } n st
        have hne : ∀ m, (({ s with ready := ready } : State).settle n st).fut m = .pending → m ≠ n ∧ s.fut m = .pending := by
          intro m hm
          rcases settle_fut { s with ready := ready } n st m with e | ⟨e1, _, e2⟩
          · rw [e] at hm
            refine ⟨?_, hm⟩
            rintro rfl
            have : ({ s with ready := ready } : State).fut m = .pending := hm
            unfold State.settle at e
            rw [if_pos this] at e
            simp at e
            exact hst (e.trans hm)
          · rw [e2] at hm; exact absurd hm hst
        have hsub : ∀ c, c ∈ ready → c ∈ (({ s with ready := ready } : State).settle n st).ready := by
          intro c hc
          unfold State.settle
          split
          · exact List.mem_append.2 (.inl hc)
          · exact hc
        refine h.keep f7 (fun m hm => (hne m hm).2) ?_ ?_ ?_
        · intro m t _ hm; rw [f2]; exact hm.imp id .inl
        · intro m o hm hin
          rw [hr] at hin
          rcases List.mem_cons.1 hin with e | e
          · rcases hcb with ⟨o', hcb⟩ | hcb
            · rw [hcb] at e; cases e; exact absurd rfl (hne _ hm).1
            · rw [hcb] at e; cases e
          · exact hsub _ e
        · intro m hm hin
          rw [hr] at hin
          rcases List.mem_cons.1 hin with e | e
          · rcases hcb with ⟨o', hcb⟩ | hcb
            · rw [hcb] at e; cases e
            · rw [hcb] at e; cases e; exact absurd rfl (hne _ hm).1
          · exact hsub _ e
      cases cb with
      | settle n o => exact settleCase n _ (by simp) (.inl ⟨o, rfl⟩)
      | cancel n => exact settleCase n _ (by simp) (.inr rfl)
      | doneCb t =>
        refine h.keep rfl (fun _ => id) (fun n u _ hn => hn.imp id .inl) ?_ ?_
        · intro n o _ hin
          rw [hr] at hin
          exact List.mem_append.2 (.inl (by simpa using hin))
        · intro n _ hin
          rw [hr] at hin
          exact List.mem_append.2 (.inl (by simpa using hin))
      | ended t =>
        rw [State.runCb]
        split
        · obtain ⟨f1, f2, f3, f4, f5, f6, f7, f8, f9, f10⟩ :=
            syncKeep_frame { s with ready := ready, running := s.running.erase t } t
          refine h.keep f7 (fun n hn => by rw [f9] at hn; exact hn) (fun n u _ hn => by rw [f2]; exact hn.imp id .inl) ?_ ?_
          · intro n o _ hin
            rw [hr] at hin
            rw [f10]; simpa using hin
          · intro n _ hin
            rw [hr] at hin
            rw [f10]; simpa using hin
        · refine h.keep rfl (fun _ => id) (fun n u _ hn => hn.imp id .inl) ?_ ?_
          · intro n o _ hin
            rw [hr] at hin
            simpa using hin
          · intro n _ hin
            rw [hr] at hin
            simpa using hin
  | cancel n =>
    simp only [State.step]
    split
    · obtain ⟨f1, f2, f3, f4, f5, f6, f7, f8⟩ := settle_frame s n .cancelled
      have hsub : ∀ c, c ∈ s.ready → c ∈ (s.settle n .cancelled).ready := by
        intro c hc
        unfold State.settle
        split
        · exact List.mem_append.2 (.inl hc)
        · exact hc
      refine h.keep f7 ?_ (fun m u _ hm => by rw [f2]; exact hm.imp id .inl) (fun m o _ hm => hsub _ hm) (fun m _ hm => hsub _ hm)
      intro m hm
      rcases settle_fut s n .cancelled m with e | ⟨e1, _, e2⟩
      · rw [e] at hm; exact hm
      · rw [e2] at hm; cases hm
    · exact h
  | cancelAll =>
    show Located s.cancelAll.1
    rw [cancelAll_open hi.good.pool]
    refine h.keep rfl (fun _ => id) ?_ (fun _ _ _ hn => List.mem_append.2 (.inl hn)) (fun _ _ hn => List.mem_append.2 (.inl hn))
    intro n u _ hn
    dsimp only
    split
    · exact (pend_stop_act _ _ hn).imp id .inl
    · split
      · rename_i hu
        rw [pend_drop, act_drop]
        rcases hn with hn | hn
        · rcases List.mem_append.1 hn with hn | hn
          · exact .inl hn
          · refine .inr (.inr (.inr (List.mem_append.2 (.inr (List.mem_map.2 ⟨n, ?_, rfl⟩)))))
            exact List.mem_flatMap.2 ⟨u, List.mem_append.2 hu, hn⟩
        · exact .inr (.inl hn)
      · exact hn.imp id .inl
  | releaseAll =>
    obtain ⟨f1, f2, f3, -⟩ := releaseAll_frame s
    show Located s.releaseAll
    refine h.keep f1 (fun n hn => by rw [f2] at hn; exact hn) ?_ (fun n o _ hn => by rw [f3]; exact hn)
      (fun n _ hn => by rw [f3]; exact hn)
    intro n u _ hn
    rw [releaseAll_thread hi.good.pool]
    split
    · exact (pend_stop_act _ _ hn).imp id .inl
    · exact hn.imp id .inl
  | wait d => exact h.keep rfl (fun _ => id) (fun n u _ hn => hn.imp id .inl) (fun _ _ _ => id) (fun _ _ => id)
  | timer =>
    simp only [State.step]
    split
    · exact h
    · split
      · rename_i tm _ _
        rcases releaseStep_cases s tm.scheduleTime tm.interval with ⟨k, l, x, he⟩ | ⟨t, free, k, l, x, hf, he⟩
        · rw [he]
          exact h.keep rfl (fun _ => id) (fun n u _ hn => hn.imp id .inl) (fun _ _ _ => id) (fun _ _ => id)
        · rw [he]
          refine h.keep rfl (fun _ => id) ?_ (fun _ _ _ => id) (fun _ _ => id)
          intro n u _ hn
          dsimp only
          rw [put_thread]
          split
          · rename_i hu
            subst hu
            exact (pend_stop_act _ _ hn).imp id .inl
          · exact hn.imp id .inl
      · exact h

/-- Nobody gives a call to a claimed executor whose thread the pool gave up. -/
def UsesClaimed : State → List Op → Prop
  | _, [] => True
  | s, op :: ops =>
    (∀ h t, op = .execute h → s.handles[h]? = some (some t) → t ∈ s.claimed) ∧ UsesClaimed (s.step op).1 ops

structure Alive (es : List Event) (s : State) : Prop where
  inv : Inv es s
  located : Located s
  clean : ∀ t, Clean (s.thread t)

theorem Alive.init : Alive [] {} where
  inv := Inv.init
  located n hn := by simp at hn
  clean t := ⟨trivial, by simp⟩

theorem Alive.step {es : List Event} {s : State} (h : Alive es s) (op : Op)
    (hop : ∀ i t, op = .execute i → s.handles[i]? = some (some t) → t ∈ s.claimed) :
    Alive (es ++ (s.step op).2) (s.step op).1 where
  inv := h.inv.step op
  located := h.located.step h.inv op
  clean t := by
    refine (h.clean t).change (h.inv.blk t) (step_change h.inv.good op t) ?_
    intro i h1 h2
    exact ((h.inv.good.pool.mem t).1 (by simp [State.all, hop i t h1 h2])).2

theorem Alive.run {es : List Event} {s : State} (h : Alive es s) (ops : List Op) (hu : UsesClaimed s ops) :
    Alive (es ++ (s.runOps ops).2) (s.runOps ops).1 := by
  induction ops generalizing s es with
  | nil => rw [State.runOps, List.append_nil]; exact h
  | cons op ops ih =>
    rw [State.runOps]
    have := ih (h.step op hu.1) hu.2
    rwa [List.append_assoc] at this

/-- The threads wait or ended, and the event loop has nothing to do. -/
structure Quiet (s : State) : Prop where
  threads : ∀ t, t < s.count → (s.thread t).pc = .blocked ∨ (s.thread t).pc = .ended
  ready : s.ready = []

theorem Alive.settled {es : List Event} {s : State} (h : Alive es s) (hq : Quiet s) {n : Nat} (hn : n < s.calls) :
    s.fut n ≠ .pending := by
  intro hp
  rcases h.located n hn hp with ⟨t, ht⟩ | ⟨o, ho⟩ | ho
  · rcases Nat.lt_or_ge t s.count with hlt | hge
    · rcases hq.threads t hlt with hpc | hpc
      · have := (h.inv.blk t hpc).1
        simp [Thread.pend, Thread.held, Thread.act, hpc, this] at ht
      · have := (h.clean t).off (.inr hpc)
        simp only [Thread.pend, Thread.held, Thread.act, hpc, List.nil_append, List.not_mem_nil, or_false] at ht
        exact this n (mem_filterMap_id.1 ht)
    · rw [h.inv.good.pool.fresh t hge] at ht
      simp [Thread.pend, Thread.held, Thread.act] at ht
  · rw [hq.ready] at ho; simp at ho
  · rw [hq.ready] at ho; simp at ho

end Verif.ThreadPool
