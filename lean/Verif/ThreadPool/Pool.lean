import Verif.ThreadPool.Model

/-! Every thread which was not told to stop is in exactly one of the three sets. -/

namespace Verif.ThreadPool

@[simp] theorem upd_same {α : Type} (f : Nat → α) (i : Nat) (a : α) : upd f i a i = a := by simp [upd]

theorem upd_ne {α : Type} (f : Nat → α) {i j : Nat} (a : α) (h : j ≠ i) : upd f i a j = f j := by simp [upd, h]

/-- Nobody told the thread to stop. -/
def Thread.isOpen (th : Thread) : Bool := !th.queue.contains none && !th.stopped && th.pc != .ended

theorem isOpen_iff (th : Thread) : th.isOpen = true ↔ none ∉ th.queue ∧ th.stopped = false ∧ th.pc ≠ .ended := by
  simp [Thread.isOpen, and_assoc]

theorem isOpen_put_some (th : Thread) (n : Nat) : (th.put (some n)).isOpen = th.isOpen := by
  rw [Bool.eq_iff_iff, isOpen_iff, isOpen_iff]
  unfold Thread.put
  split <;> simp_all

theorem isOpen_put_none (th : Thread) : (th.put none).isOpen = false := by
  rw [← Bool.not_eq_true, isOpen_iff]
  unfold Thread.put
  split <;> simp_all

theorem isOpen_fetch (th : Thread) (h : th.pc = .idle) : th.fetch.isOpen = th.isOpen := by
  rw [Bool.eq_iff_iff, isOpen_iff, isOpen_iff]
  unfold Thread.fetch
  split
  · simp_all
  · split <;> simp_all

theorem isOpen_pc (th : Thread) (pc : Pc) (h : th.pc ≠ .ended) (h' : pc ≠ .ended) :
    ({ th with pc := pc } : Thread).isOpen = th.isOpen := by
  rw [Bool.eq_iff_iff, isOpen_iff, isOpen_iff]
  simp_all

def State.all (s : State) : List Nat := s.free ++ (s.running ++ s.claimed)

structure Pool (s : State) : Prop where
  nodup : s.all.Nodup
  mem : ∀ t, t ∈ s.all ↔ t < s.count ∧ (s.thread t).isOpen = true
  fresh : ∀ t, s.count ≤ t → s.thread t = {}

theorem Pool.init : Pool {} where
  nodup := by simp [State.all]
  mem := by simp [State.all]
  fresh := by simp

/-- Only the sets, the count and the threads matter. -/
theorem Pool.of_eq {s s' : State} (h : Pool s) (hp : s'.all.Perm s.all) (hc : s'.count = s.count)
    (ht : ∀ t, t < s.count → (s'.thread t).isOpen = (s.thread t).isOpen) (hf : ∀ t, s.count ≤ t → s'.thread t = s.thread t) :
    Pool s' where
  nodup := hp.nodup_iff.2 h.nodup
  mem t := by
    rw [hp.mem_iff, h.mem, hc]
    constructor
    · intro ⟨h1, h2⟩; exact ⟨h1, by rw [ht t h1]; exact h2⟩
    · intro ⟨h1, h2⟩; exact ⟨h1, by rw [ht t h1] at h2; exact h2⟩
  fresh t hle := by rw [hc] at hle; rw [hf t hle]; exact h.fresh t hle

/-- One thread is told to stop and leaves the sets. -/
theorem Pool.close {s s' : State} (h : Pool s) {t : Nat} (hp : s.all.Perm (t :: s'.all)) (hc : s'.count = s.count)
    (ho : (s'.thread t).isOpen = false) (ht : ∀ u, u ≠ t → s'.thread u = s.thread u) : Pool s' where
  nodup := (List.nodup_cons.1 (hp.nodup_iff.1 h.nodup)).2
  mem u := by
    have hn := (List.nodup_cons.1 (hp.nodup_iff.1 h.nodup)).1
    have hm := hp.mem_iff (a := u)
    rw [h.mem, List.mem_cons] at hm
    rw [hc]
    by_cases hu : u = t
    · subst hu
      constructor
      · intro h'; exact absurd h' hn
      · intro h'; rw [ho] at h'; exact absurd h'.2 (by simp)
    · rw [ht u hu, hm]; simp [hu]
  fresh u hle := by
    rw [hc] at hle
    have htm : t ∈ s.all := hp.mem_iff.2 (List.mem_cons_self ..)
    have := ((h.mem t).1 htm).1
    rw [ht u (by omega)]; exact h.fresh u hle

theorem Pool.lt {s : State} (h : Pool s) {t : Nat} (ht : t ∈ s.all) : t < s.count := ((h.mem t).1 ht).1

theorem put_thread (s : State) (t : Nat) (x : Option Nat) (u : Nat) :
    (s.put t x).thread u = if u = t then (s.thread t).put x else s.thread u := rfl

theorem settle_frame (s : State) (n : Nat) (st : Stat) :
    (s.settle n st).count = s.count ∧ (s.settle n st).thread = s.thread ∧ (s.settle n st).free = s.free ∧
    (s.settle n st).running = s.running ∧ (s.settle n st).claimed = s.claimed ∧ (s.settle n st).handles = s.handles ∧
    (s.settle n st).calls = s.calls ∧ (s.settle n st).home = s.home := by
  unfold State.settle; split <;> simp

theorem syncKeep_frame (s : State) (t : Nat) :
    (s.syncKeep t).count = s.count ∧ (s.syncKeep t).thread = s.thread ∧ (s.syncKeep t).free = t :: s.free ∧
    (s.syncKeep t).running = s.running ∧ (s.syncKeep t).claimed = s.claimed ∧ (s.syncKeep t).handles = s.handles ∧
    (s.syncKeep t).calls = s.calls ∧ (s.syncKeep t).home = s.home ∧ (s.syncKeep t).fut = s.fut ∧
    (s.syncKeep t).ready = s.ready := by
  unfold State.syncKeep; dsimp only; split <;> simp

/-- What remains the same in `_release_executor_step` -/
theorem releaseStep_cases (s : State) (a b : Nat) :
    (∃ k l tm, s.releaseStep a b = { s with kept := k, lastSchedule := l, timer := tm }) ∨
    ∃ t free k l tm, s.free = t :: free ∧
      s.releaseStep a b = { ({ s with free := free } : State).put t none with kept := k, lastSchedule := l, timer := tm } := by
  unfold State.releaseStep
  dsimp only
  split
  · exact .inl ⟨_, _, _, rfl⟩
  · split
    · exact .inl ⟨_, _, _, rfl⟩
    · rename_i t free hf
      split
      · exact .inl ⟨_, _, _, rfl⟩
      · split
        · exact .inr ⟨t, free, _, _, _, hf, rfl⟩
        · exact .inr ⟨t, free, _, _, _, hf, rfl⟩

theorem Pool.releaseStep {s : State} (h : Pool s) (a b : Nat) : Pool (s.releaseStep a b) := by
  rcases releaseStep_cases s a b with ⟨k, l, tm, he⟩ | ⟨t, free, k, l, tm, hf, he⟩
  · rw [he]
    exact h.of_eq (.refl _) rfl (fun _ _ => rfl) (fun _ _ => rfl)
  · rw [he]
    refine h.close (t := t) ?_ rfl ?_ ?_
    · simp only [State.all, State.put, hf]; exact .refl _
    · simp only [put_thread, if_true]; exact isOpen_put_none _
    · intro u hu; simp only [put_thread, if_neg hu]

theorem Pool.sub {s s' : State} (h : Pool s) (hp : s'.all.Perm s.all) (hc : s'.count = s.count) (ht : s'.thread = s.thread) :
    Pool s' := h.of_eq hp hc (fun _ _ => by rw [ht]) (fun _ _ => by rw [ht])

theorem Pool.settle {s : State} (h : Pool s) (n : Nat) (st : Stat) : Pool (s.settle n st) := by
  obtain ⟨h1, h2, h3, h4, h5, -⟩ := settle_frame s n st
  exact h.sub (by simp only [State.all, h3, h4, h5]; exact .refl _) h1 h2

/-- `getFree`: the thread which it gives is open, and is in none of the sets. -/
theorem getFree_thread (s : State) : s.getFree.1.thread = s.thread := by
  unfold State.getFree; split <;> rfl

theorem getFree_cases (s : State) :
    (∃ t free, s.free = t :: free ∧ s.getFree = ({ s with free := free }, t)) ∨
    (s.free = [] ∧ s.getFree = ({ s with count := s.count + 1 }, s.count)) := by
  unfold State.getFree
  split
  · rename_i t free hf; exact .inl ⟨t, free, hf, rfl⟩
  · rename_i hf; exact .inr ⟨hf, rfl⟩

theorem Pool.grow {s s' : State} (h : Pool s) (hp : s'.all.Perm (s.count :: s.all)) (hc : s'.count = s.count + 1)
    (ht : s'.thread = s.thread) : Pool s' where
  nodup := by
    refine hp.nodup_iff.2 (List.nodup_cons.2 ⟨fun hm => ?_, h.nodup⟩)
    exact absurd (h.lt hm) (Nat.lt_irrefl _)
  mem u := by
    rw [hp.mem_iff, List.mem_cons, h.mem, hc, ht]
    by_cases hu : u = s.count
    · subst hu
      rw [h.fresh _ (Nat.le_refl _)]
      simp; decide
    · constructor
      · rintro (h' | ⟨h1, h2⟩)
        · exact absurd h' hu
        · exact ⟨by omega, h2⟩
      · rintro ⟨h1, h2⟩; exact .inr ⟨by omega, h2⟩
  fresh u hle := by rw [ht]; exact h.fresh u (by omega)

theorem submit_frame (s : State) (t : Nat) (home : Option Nat) :
    (s.submit t home).count = s.count ∧ (s.submit t home).thread = upd s.thread t ((s.thread t).put (some s.calls)) ∧
    (s.submit t home).free = s.free ∧ (s.submit t home).running = s.running ∧ (s.submit t home).claimed = s.claimed ∧
    (s.submit t home).handles = s.handles ∧ (s.submit t home).calls = s.calls + 1 ∧
    (s.submit t home).ready = s.ready := ⟨rfl, rfl, rfl, rfl, rfl, rfl, rfl, rfl⟩

theorem Pool.submit {s : State} (h : Pool s) {t : Nat} (ht : t < s.count) (home : Option Nat) : Pool (s.submit t home) := by
  refine h.of_eq (.refl _) rfl ?_ ?_
  · intro u _
    by_cases hu : u = t
    · subst hu
      rw [(submit_frame ..).2.1, upd_same]; exact isOpen_put_some _ _
    · rw [(submit_frame ..).2.1, upd_ne _ _ hu]
  · intro u hle
    rw [(submit_frame ..).2.1, upd_ne _ _ (by omega)]

/-- The threads and nothing else that matters: told to stop one after the other -/
theorem releaseList_frame (ts : List Nat) (s : State) :
    (releaseList ts s).count = s.count ∧ (releaseList ts s).free = s.free ∧ (releaseList ts s).running = s.running ∧
    (releaseList ts s).claimed = s.claimed ∧ (releaseList ts s).handles = s.handles ∧
    (releaseList ts s).calls = s.calls ∧ (releaseList ts s).fut = s.fut ∧ (releaseList ts s).home = s.home ∧
    (releaseList ts s).ready = s.ready ∧ (releaseList ts s).now = s.now ∧ (releaseList ts s).timer = s.timer ∧
    (releaseList ts s).kept = s.kept := by
  induction ts generalizing s with
  | nil => simp [releaseList]
  | cons t ts ih => rw [releaseList]; simpa [State.put] using ih (s.put t none)

theorem releaseList_thread (ts : List Nat) (s : State) (hn : ts.Nodup) (u : Nat) :
    (releaseList ts s).thread u = if u ∈ ts then (s.thread u).put none else s.thread u := by
  induction ts generalizing s with
  | nil => simp [releaseList]
  | cons t ts ih =>
    rw [List.nodup_cons] at hn
    rw [releaseList, ih _ hn.2, put_thread]
    by_cases hu : u = t
    · subst hu; simp [hn.1]
    · simp [hu]

/-- Some threads are told to stop and leave the sets. -/
theorem Pool.closeMany {s s' : State} (h : Pool s) (ts : List Nat) (hp : s.all.Perm (ts ++ s'.all)) (hc : s'.count = s.count)
    (ho : ∀ t ∈ ts, (s'.thread t).isOpen = false) (ht : ∀ u, u ∉ ts → s'.thread u = s.thread u) : Pool s' where
  nodup := (List.nodup_append.1 (hp.nodup_iff.1 h.nodup)).2.1
  mem u := by
    have hn := (List.nodup_append.1 (hp.nodup_iff.1 h.nodup)).2.2
    have hm := hp.mem_iff (a := u)
    rw [h.mem, List.mem_append] at hm
    rw [hc]
    by_cases hu : u ∈ ts
    · constructor
      · intro h'; exact absurd rfl (hn u hu u h')
      · intro h'; rw [ho u hu] at h'; exact absurd h'.2 (by simp)
    · rw [ht u hu, hm]; simp [hu]
  fresh u hle := by
    rw [hc] at hle
    rw [ht u (fun hm => ?_)]
    · exact h.fresh u hle
    · have := h.lt (hp.mem_iff.2 (List.mem_append.2 (.inl hm))); omega

theorem Pool.resetKept {s : State} (h : Pool s) : Pool s.resetKept := h.sub (.refl _) rfl rfl

theorem Pool.releaseAll {s : State} (h : Pool s) : Pool s.releaseAll := by
  have hn := h.nodup
  simp only [State.all, List.nodup_append] at hn
  obtain ⟨hf, ⟨hr, hcl, h1⟩, h2⟩ := hn
  have key : ∀ u, s.releaseAll.thread u = if u ∈ s.all then (s.thread u).put none else s.thread u := by
    intro u
    show (releaseList s.claimed (releaseList s.running (releaseList s.free s.resetKept))).thread u = _
    rw [releaseList_thread _ _ hcl, releaseList_thread _ _ hr, releaseList_thread _ _ hf]
    have e : s.resetKept.thread = s.thread := rfl
    rw [e]
    simp only [State.all, List.mem_append]
    by_cases a : u ∈ s.free
    · have b : u ∉ s.running := fun hm => h2 u a u (List.mem_append.2 (.inl hm)) rfl
      have c : u ∉ s.claimed := fun hm => h2 u a u (List.mem_append.2 (.inr hm)) rfl
      simp [a, b, c]
    · by_cases b : u ∈ s.running
      · have c : u ∉ s.claimed := fun hm => h1 u b u hm rfl
        simp [a, b, c]
      · simp [a, b]
  refine h.closeMany s.all (by simp [State.all, State.releaseAll]) ?_ ?_ ?_
  · show (releaseList s.claimed (releaseList s.running (releaseList s.free s.resetKept))).count = _
    rw [(releaseList_frame ..).1, (releaseList_frame ..).1, (releaseList_frame ..).1]; rfl
  · intro t ht; rw [key, if_pos ht]; exact isOpen_put_none _
  · intro u hu; rw [key, if_neg hu]

theorem drain_none {q : List (Option Nat)} (h : none ∉ q) : drain q = (q.filterMap id, none) := by
  induction q with
  | nil => rfl
  | cons x q ih =>
    rw [List.mem_cons, not_or] at h
    cases x with
    | none => exact absurd rfl h.1
    | some n => simp [drain, ih h.2]

/-- An open thread is cancelled without an exception. -/
theorem cancelThread_open (s : State) (t : Nat) (h : (s.thread t).isOpen = true) :
    s.cancelThread t =
      ({ s with
        thread := upd s.thread t (({ s.thread t with queue := [], stopped := true } : Thread).put none)
        ready := s.ready ++ ((s.thread t).queue.filterMap id).map .cancel }, false) := by
  have h' := drain_none ((isOpen_iff _).1 h).1
  unfold State.cancelThread
  simp only [h']

/-- What cancelling some open threads does -/
theorem cancelList_open (ts : List Nat) (s : State) (hn : ts.Nodup) (ho : ∀ t ∈ ts, (s.thread t).isOpen = true) :
    cancelList ts s =
      ({ s with
        thread := fun u =>
          if u ∈ ts then ({ s.thread u with queue := [], stopped := true } : Thread).put none else s.thread u
        ready := s.ready ++ (ts.flatMap fun t => (s.thread t).queue.filterMap id).map .cancel }, [], false) := by
  induction ts generalizing s with
  | nil => simp [cancelList]
  | cons t ts ih =>
    rw [List.nodup_cons] at hn
    have h1 := cancelThread_open s t (ho t (List.mem_cons_self ..))
    rw [cancelList, h1]
    dsimp only
    rw [if_neg (by simp), ih _ hn.2]
    · congr 2
      · funext u
        by_cases hu : u = t
        · subst hu; simp [hn.1]
        · simp [hu, upd_ne _ _ hu]
      · rw [List.flatMap_cons, List.map_append, List.append_assoc]
        congr 2
        congr 1
        rw [List.flatMap_def, List.flatMap_def]
        congr 1
        apply List.map_congr_left
        intro u hu
        have hut : u ≠ t := fun e => hn.1 (e ▸ hu)
        simp only [upd_ne _ _ hut]
    · intro u hu
      have hut : u ≠ t := fun e => hn.1 (e ▸ hu)
      simp only [upd_ne _ _ hut]
      exact ho u (List.mem_cons_of_mem _ hu)

/-- All that `cancel_executors` does -/
theorem cancelAll_open {s : State} (h : Pool s) :
    s.cancelAll =
      ({ s with
        thread := fun u =>
          if u ∈ s.free then (s.thread u).put none
          else if u ∈ s.running ∨ u ∈ s.claimed then
            ({ s.thread u with queue := [], stopped := true } : Thread).put none
          else s.thread u
        ready := s.ready ++ ((s.running ++ s.claimed).flatMap fun t => (s.thread t).queue.filterMap id).map .cancel
        free := [], running := [], claimed := [], kept := 0, timer := none }, false) := by
  have hn := h.nodup
  have hopen : ∀ t ∈ s.all, (s.thread t).isOpen = true := fun t ht => ((h.mem t).1 ht).2
  simp only [State.all, List.nodup_append] at hn
  obtain ⟨hf, ⟨hr, hcl, h1⟩, h2⟩ := hn
  have ht1 : ∀ u, (releaseList s.free s.resetKept).thread u = if u ∈ s.free then (s.thread u).put none else s.thread u :=
    fun u => releaseList_thread _ _ hf u
  have hnf : ∀ u, u ∈ s.running ∨ u ∈ s.claimed → u ∉ s.free :=
    fun u hu hm => h2 u hm u (List.mem_append.2 hu) rfl
  obtain ⟨f1, f2, f3, f4, f5, f6, f7, f8, f9, f10, f11, f12⟩ := releaseList_frame s.free s.resetKept
  have e0 : releaseList s.free s.resetKept =
      { s with
        kept := 0, timer := none,
        thread := fun u => if u ∈ s.free then (s.thread u).put none else s.thread u,
        lastSchedule := (releaseList s.free s.resetKept).lastSchedule } := by
    cases hh : releaseList s.free s.resetKept
    rw [hh] at f1 f2 f3 f4 f5 f6 f7 f8 f9 f10 f11 f12
    have ht1' := funext ht1
    rw [hh] at ht1'
    simp only at *
    subst f1 f2 f3 f4 f5 f6 f7 f8 f9 f10 f11 f12 ht1'
    simp [State.resetKept]
  have e1 : (releaseList s.free s.resetKept).lastSchedule = s.lastSchedule := by
    have : ∀ (ts : List Nat) (x : State), (releaseList ts x).lastSchedule = x.lastSchedule := by
      intro ts; induction ts with
      | nil => intro x; rfl
      | cons t ts ih => intro x; rw [releaseList, ih]; rfl
    rw [this]; rfl
  rw [e1] at e0
  unfold State.cancelAll
  dsimp only
  rw [e0]
  dsimp only
  rw [cancelList_open s.running _ hr ?_]
  · dsimp only
    rw [if_neg (by simp), cancelList_open s.claimed _ hcl ?_]
    · dsimp only
      congr 2
      · funext u
        by_cases c : u ∈ s.claimed
        · have b : u ∉ s.running := fun hm => h1 u hm u c rfl
          have a := hnf u (.inr c)
          simp [a, b, c]
        · by_cases b : u ∈ s.running
          · have a := hnf u (.inl b)
            simp [a, b, c]
          · simp [b, c]
      · rw [List.flatMap_append, List.map_append, List.append_assoc]
        congr 1
        congr 1
        · rw [List.flatMap_def, List.flatMap_def]
          congr 2
          apply List.map_congr_left
          intro u hu
          simp [hnf u (.inl hu)]
        · rw [List.flatMap_def, List.flatMap_def]
          congr 2
          apply List.map_congr_left
          intro u hu
          have b : u ∉ s.running := fun hm => h1 u hm u hu rfl
          simp [hnf u (.inr hu), b]
    · intro u hu
      have b : u ∉ s.running := fun hm => h1 u hm u hu rfl
      simp only [if_neg b, if_neg (hnf u (.inr hu))]
      exact hopen u (by simp [State.all, hu])
  · intro u hu
    simp only [if_neg (hnf u (.inl hu))]
    exact hopen u (by simp [State.all, hu])

theorem isOpen_cancelled (th : Thread) : (({ th with queue := [], stopped := true } : Thread).put none).isOpen = false :=
  isOpen_put_none _

theorem Pool.cancelAll {s : State} (h : Pool s) : Pool s.cancelAll.1 := by
  rw [cancelAll_open h]
  refine h.closeMany s.all (by simp [State.all]) rfl ?_ ?_
  · intro t ht
    dsimp only
    split
    · exact isOpen_put_none _
    · rw [if_pos ?_]
      · exact isOpen_put_none _
      · simpa [State.all, *] using ht
  · intro u hu
    simp only [State.all, List.mem_append, not_or] at hu
    simp [hu]

theorem perm_erase_right (l : List Nat) {t : Nat} {r : List Nat} (ht : t ∈ r) :
    (t :: l ++ r.erase t).Perm (l ++ r) := by
  refine List.Perm.trans ?_ ((List.perm_cons_erase ht).symm.append_left l)
  exact List.perm_middle.symm

theorem Pool.runCb {s : State} (h : Pool s) (cb : Cb) : Pool (s.runCb cb) := by
  cases cb with
  | settle n o => exact h.settle n _
  | cancel n => exact h.settle n _
  | doneCb t => exact h.sub (.refl _) rfl rfl
  | ended t =>
    rw [State.runCb]
    split
    · rename_i ht
      obtain ⟨h1, h2, h3, h4, h5, -⟩ := syncKeep_frame { s with running := s.running.erase t } t
      refine h.sub ?_ h1 h2
      simp only [State.all, h3, h4, h5]
      rw [← List.append_assoc, ← List.append_assoc]
      exact (perm_erase_right s.free ht).append_right _
    · exact h

theorem Pool.stepRelease {s : State} (h : Pool s) (i : Nat) : Pool (s.stepRelease i).1 := by
  unfold State.stepRelease
  split
  · rename_i t hh
    split
    · dsimp only
      split
      · rename_i ht
        obtain ⟨h1, h2, h3, h4, h5, -⟩ := syncKeep_frame { s with claimed := s.claimed.erase t } t
        refine h.sub ?_ h1 h2
        simp only [State.all, h3, h4, h5]
        rw [← List.append_assoc, ← List.append_assoc]
        exact perm_erase_right (s.free ++ s.running) ht
      · exact h.sub (.refl _) rfl rfl
    · exact h
  · exact h

theorem Pool.setPc {s : State} (h : Pool s) (t : Nat) (pc : Pc) (ready : List Cb) (h1 : (s.thread t).pc ≠ .ended)
    (h2 : pc ≠ .ended) (h3 : t < s.count) :
    Pool { s with thread := upd s.thread t { s.thread t with pc := pc }, ready := ready } := by
  refine h.of_eq (.refl _) rfl ?_ ?_
  · intro u _
    by_cases hu : u = t
    · subst hu; simp only [upd_same]; exact isOpen_pc _ _ h1 h2
    · simp only [upd_ne _ _ hu]
  · intro u hle; simp only [upd_ne _ _ (show u ≠ t by omega)]

theorem Pool.pc_lt {s : State} (h : Pool s) {t : Nat} (hp : (s.thread t).pc ≠ .idle) : t < s.count := by
  rcases Nat.lt_or_ge t s.count with h' | h'
  · exact h'
  · rw [h.fresh t h'] at hp; exact absurd rfl hp

/-- The handles belong to threads which exist. -/
def Handles (s : State) : Prop := ∀ t, some t ∈ s.handles → t < s.count

structure Good (s : State) : Prop where
  pool : Pool s
  handles : Handles s

theorem Good.init : Good {} := ⟨Pool.init, by intro t ht; simp at ht⟩

theorem getFree_good {s : State} (h : Pool s) :
    s.getFree.2 < s.getFree.1.count ∧ s.count ≤ s.getFree.1.count ∧ s.getFree.1.handles = s.handles ∧
    s.getFree.2 ∉ s.getFree.1.all ∧ Pool { s.getFree.1 with running := s.getFree.2 :: s.getFree.1.running } ∧
    (∀ hs, Pool { s.getFree.1 with claimed := s.getFree.2 :: s.getFree.1.claimed, handles := hs }) := by
  rcases getFree_cases s with ⟨t, free, hf, he⟩ | ⟨hf, he⟩
  · rw [he]
    have htm : t ∈ s.all := by simp [State.all, hf]
    refine ⟨h.lt htm, Nat.le_refl _, rfl, ?_, ?_, fun hs => ?_⟩
    · have := h.nodup
      simp only [State.all, hf, List.cons_append, List.nodup_cons] at this
      exact this.1
    · refine h.sub ?_ rfl rfl
      simp only [State.all, hf, List.cons_append]
      exact List.perm_middle
    · refine h.sub ?_ rfl rfl
      simp only [State.all, hf, List.cons_append]
      rw [← List.append_assoc, ← List.append_assoc]
      exact List.perm_middle
  · rw [he]
    refine ⟨Nat.lt_succ_self _, Nat.le_succ _, rfl, ?_, ?_, fun hs => ?_⟩
    · intro hm; exact absurd (h.lt hm) (Nat.lt_irrefl _)
    · refine h.grow ?_ rfl rfl
      simp only [State.all, List.cons_append]
      exact List.perm_middle
    · refine h.grow ?_ rfl rfl
      simp only [State.all]
      rw [← List.append_assoc, ← List.append_assoc]
      exact List.perm_middle

theorem Good.step {s : State} (h : Good s) (op : Op) : Good (s.step op).1 := by
  obtain ⟨hp, hh⟩ := h
  cases op with
  | run =>
    obtain ⟨h1, h2, h3, _, h4, _⟩ := getFree_good hp
    refine ⟨h4.submit h1 _, ?_⟩
    intro t ht
    have ht' : some t ∈ s.getFree.1.handles := ht
    rw [h3] at ht'
    exact Nat.lt_of_lt_of_le (hh t ht') h2
  | claim =>
    obtain ⟨h1, h2, h3, _, _, h4⟩ := getFree_good hp
    refine ⟨h4 _, ?_⟩
    intro t ht
    have ht' : some t ∈ s.getFree.1.handles ++ [some s.getFree.2] := ht
    rw [h3, List.mem_append] at ht'
    rcases ht' with ht' | ht'
    · exact Nat.lt_of_lt_of_le (hh t ht') h2
    · simp at ht'; subst ht'; exact h1
  | execute i =>
    show Good (s.stepExecute i).1
    unfold State.stepExecute
    split
    · rename_i t hi
      exact ⟨hp.submit (hh t (List.mem_of_getElem? hi)) _, hh⟩
    · exact ⟨hp, hh⟩
    · exact ⟨hp, hh⟩
  | release i =>
    refine ⟨hp.stepRelease i, ?_⟩
    show Handles (s.stepRelease i).1
    unfold State.stepRelease
    split
    · rename_i t hi
      split
      · intro u hu
        have hu' : some u ∈ s.handles := by
          have := List.mem_or_eq_of_mem_set (show some u ∈ s.handles.set i none from hu)
          simpa using this
        dsimp only
        split
        · rw [(syncKeep_frame ..).1]; exact hh u hu'
        · exact hh u hu'
      · exact hh
    · exact hh
  | fetch t =>
    show Good (s.stepFetch t)
    unfold State.stepFetch
    split
    · rename_i ht
      refine ⟨hp.of_eq (.refl _) rfl ?_ ?_, hh⟩
      · intro u _
        by_cases hu : u = t
        · subst hu; simp only [upd_same]; exact isOpen_fetch _ ht.2
        · simp only [upd_ne _ _ hu]
      · intro u hle; simp only [upd_ne _ _ (show u ≠ t by omega)]
    · exact ⟨hp, hh⟩
  | start t =>
    show Good (s.stepStart t).1
    unfold State.stepStart
    split
    · rename_i n hn
      have hlt : t < s.count := hp.pc_lt (by rw [hn]; simp)
      split
      · exact ⟨hp.setPc t _ _ (by rw [hn]; simp) (by simp) hlt, hh⟩
      · exact ⟨hp.setPc t _ _ (by rw [hn]; simp) (by simp) hlt, hh⟩
    · exact ⟨hp, hh⟩
  | finish t raw =>
    show Good (s.stepFinish t raw).1
    unfold State.stepFinish
    split
    · rename_i n hn
      have hlt : t < s.count := hp.pc_lt (by rw [hn]; simp)
      exact ⟨hp.setPc t _ _ (by rw [hn]; simp) (by simp) hlt, hh⟩
    · exact ⟨hp, hh⟩
  | loop =>
    simp only [State.step]
    split
    · exact ⟨hp, hh⟩
    · rename_i cb ready hr
      have hp' : Pool { s with ready := ready } := hp.sub (.refl _) rfl rfl
      refine ⟨hp'.runCb cb, ?_⟩
      cases cb with
      | settle n o =>
        intro t ht
        rw [State.runCb] at ht ⊢
        rw [(settle_frame ..).2.2.2.2.2.1] at ht
        rw [(settle_frame ..).1]; exact hh t ht
      | cancel n =>
        intro t ht
        rw [State.runCb] at ht ⊢
        rw [(settle_frame ..).2.2.2.2.2.1] at ht
        rw [(settle_frame ..).1]; exact hh t ht
      | doneCb t => exact hh
      | ended t =>
        intro u hu
        rw [State.runCb] at hu ⊢
        split
        · rename_i hm
          rw [if_pos hm, (syncKeep_frame ..).2.2.2.2.2.1] at hu
          rw [(syncKeep_frame ..).1]; exact hh u hu
        · rename_i hm
          rw [if_neg hm] at hu
          exact hh u hu
  | cancel n =>
    simp only [State.step]
    split
    · refine ⟨hp.settle n _, ?_⟩
      intro t ht
      rw [(settle_frame ..).2.2.2.2.2.1] at ht
      rw [(settle_frame ..).1]; exact hh t ht
    · exact ⟨hp, hh⟩
  | cancelAll =>
    refine ⟨hp.cancelAll, ?_⟩
    show Handles s.cancelAll.1
    rw [cancelAll_open hp]
    exact hh
  | releaseAll =>
    refine ⟨hp.releaseAll, ?_⟩
    intro t ht
    have ht' : some t ∈ (releaseList s.claimed (releaseList s.running (releaseList s.free s.resetKept))).handles := ht
    show t < (releaseList s.claimed (releaseList s.running (releaseList s.free s.resetKept))).count
    rw [(releaseList_frame ..).2.2.2.2.1, (releaseList_frame ..).2.2.2.2.1, (releaseList_frame ..).2.2.2.2.1] at ht'
    rw [(releaseList_frame ..).1, (releaseList_frame ..).1, (releaseList_frame ..).1]
    exact hh t ht'
  | wait d => exact ⟨hp.sub (.refl _) rfl rfl, hh⟩
  | timer =>
    simp only [State.step]
    split
    · exact ⟨hp, hh⟩
    · split
      · rename_i tm _ _
        refine ⟨hp.releaseStep _ _, ?_⟩
        rcases releaseStep_cases s tm.scheduleTime tm.interval with ⟨k, l, x, he⟩ | ⟨t, free, k, l, x, hf, he⟩
        · rw [he]; exact hh
        · rw [he]; exact hh
      · exact ⟨hp, hh⟩

theorem Good.run {s : State} (h : Good s) (ops : List Op) : Good (s.runOps ops).1 := by
  induction ops generalizing s with
  | nil => exact h
  | cons op ops ih => exact ih (h.step op)

end Verif.ThreadPool
