import Verif.ThreadPool.Busy
import Verif.ThreadPool.Progress
import Verif.ThreadPool.Release
import Verif.ThreadPool.Stuck

/-!
# Properties of `Executor`

Everything is about the states which are reached from a new pool by any sequence of steps, `State.runOps {} ops`, and about
the history of that run, `(State.runOps {} ops).2`.
-/

namespace Verif.ThreadPool

/-- The state and the history after some steps -/
abbrev reach (ops : List Op) : State := (State.runOps {} ops).1
abbrev hist (ops : List Op) : List Event := (State.runOps {} ops).2

theorem inv_reach (ops : List Op) : Inv (hist ops) (reach ops) := by
  have := Inv.init.run ops
  simpa using this

theorem owned_reach (ops : List Op) : Owned (reach ops) := owned_run Good.init Owned.init ops

/-- A few calls: two at once, the first ends, its thread is used again; a claimed executor with two calls -/
def busy : List Op :=
  [.run, .run, .fetch 0, .start 0, .fetch 1, .start 1, .finish 0 (.value 5), .loop, .loop, .loop, .run, .fetch 0, .start 0,
    .claim, .execute 0, .execute 0, .fetch 2, .start 2, .finish 1 .stopIteration, .loop]

example : hist busy =
    [.submitted 0 0, .submitted 1 1, .ran 0 0, .ran 1 1, .returned 0 0 (.value 5), .submitted 0 2, .ran 0 2, .submitted 2 3,
      .submitted 2 4, .ran 2 3, .returned 1 1 .stopIteration] := by decide

/-! ## C136: functions are started once, and in order -/

/-- The threads which started the function of call `n` -/
def starters (n : Nat) (es : List Event) : List Nat :=
  es.filterMap fun | .ran t m => if m = n then some t else none | _ => none

theorem count_ranBy (t n : Nat) (es : List Event) : (ranBy t es).count n = (starters n es).count t := by
  induction es with
  | nil => rfl
  | cons e es ih =>
    unfold ranBy starters at ih ⊢
    rw [List.filterMap_cons, List.filterMap_cons]
    cases e with
    | ran u m =>
      simp only [ranIn]
      by_cases h1 : u = t <;> by_cases h2 : m = n <;> simp [h1, h2, ih]
    | _ => simpa [ranIn] using ih

/--
C136: every thread starts the functions in the order in which they were given to it, one at a time: all which it started
have ended, but the last one; and a function is started at most once, by the thread it was given to.
-/
theorem C136_once_in_order (ops : List Op) :
    (∀ t, (ranBy t (hist ops)).Sublist (submittedTo t (hist ops))) ∧
    (∀ n, (starters n (hist ops)).length ≤ 1) ∧
    (∀ t n, t ∈ starters n (hist ops) → Event.submitted t n ∈ hist ops) ∧
    (∀ t, ∃ l, l.length ≤ 1 ∧ ranBy t (hist ops) = returnedBy t (hist ops) ++ l) ∧
    submitted (hist ops) = List.range (reach ops).calls := by
  have h := inv_reach ops
  have hst : ∀ t n, t ∈ starters n (hist ops) → n ∈ ranBy t (hist ops) := by
    intro t n ht
    have : 0 < (starters n (hist ops)).count t := List.count_pos_iff.2 ht
    rw [← count_ranBy] at this
    exact List.count_pos_iff.1 this
  have hsub : ∀ t, (ranBy t (hist ops)).Sublist (submittedTo t (hist ops)) :=
    fun t => (List.sublist_append_left _ _).trans (h.fifo t)
  refine ⟨hsub, ?_, fun t n ht => mem_submittedTo.1 ((hsub t).subset (hst t n ht)), ?_, h.all⟩
  · intro n
    have key : ∀ l : List Nat, (∀ t u, t ∈ l → u ∈ l → t = u) → (∀ t, l.count t ≤ 1) → l.length ≤ 1 := by
      intro l h1 h2
      match l with
      | [] => simp
      | [_] => simp
      | a :: b :: l =>
        have e := h1 a b (by simp) (by simp)
        subst e
        have := h2 a
        simp at this
    refine key _ ?_ ?_
    · intro t u ht hu
      exact submitted_unique h.nodup ((hsub t).subset (hst t n ht)) ((hsub u).subset (hst u n hu))
    · intro t
      rw [← count_ranBy]
      exact List.nodup_iff_count.1 ((List.nodup_append.1 (h.nodup_to t)).1) n
  · intro t
    refine ⟨_, ?_, h.act t⟩
    unfold Thread.act
    split <;> simp

example : ranBy 0 (hist busy) = [0, 2] ∧ submittedTo 2 (hist busy) = [3, 4] ∧ ranBy 2 (hist busy) = [3] ∧
    starters 2 (hist busy) = [0] := by decide

/-! ## C137: a future is given what its own function returned -/

/-- What a future is given for what a function does -/
inductive Gives : Raw → Outcome → Prop where
  | value (v : Nat) : Gives (.value v) (.value v)
  | error (e : Nat) : Gives (.error e) (.error e)
  | stopIteration : Gives .stopIteration .runtime

theorem gives_deliver (raw : Raw) : Gives raw (deliver raw) := by cases raw <;> constructor

/--
C137: the result of a future is what the function of the same call returned or raised; a cancelled future was cancelled by
somebody, or `cancel_executors` took its call out of a queue. A future which is done does not change any more, and its
function is not started any more.
-/
theorem C137_own_outcome (ops : List Op) (n : Nat) :
    (∀ o, (reach ops).fut n = .done o → ∃ t raw, Event.returned t n raw ∈ hist ops ∧ Gives raw o) ∧
    ((reach ops).fut n = .cancelled → Event.userCancel n ∈ hist ops ∨ Event.dropped n ∈ hist ops) ∧
    ((reach ops).fut n ≠ .pending → ∀ ops',
      (reach (ops ++ ops')).fut n = (reach ops).fut n ∧
      ∀ t, Event.ran t n ∈ hist (ops ++ ops') → Event.ran t n ∈ hist ops) := by
  have h := inv_reach ops
  refine ⟨?_, h.canc n, ?_⟩
  · intro o ho
    obtain ⟨t, raw, h1, h2⟩ := h.done n o ho
    exact ⟨t, raw, h1, h2 ▸ gives_deliver raw⟩
  · intro hn ops'
    refine ⟨?_, ?_⟩
    · show (State.runOps {} (ops ++ ops')).1.fut n = _
      rw [runOps_append]
      exact run_fut h ops' hn
    · intro t ht
      have ht : Event.ran t n ∈ (State.runOps {} (ops ++ ops')).2 := ht
      rw [runOps_append] at ht
      rcases List.mem_append.1 ht with e | e
      · exact e
      · exact absurd e (run_ran h ops' hn t)

example : (reach busy).fut 0 = .done (.value 5) ∧ (reach busy).fut 1 = .done .runtime ∧ (reach busy).fut 4 = .pending := by
  decide

/-- Cancelled before its thread looks at it: the function does not run. -/
example : hist [.run, .fetch 0, .cancel 0, .start 0, .fetch 0] = [.submitted 0 0, .userCancel 0] ∧
    ((reach [.run, .fetch 0, .cancel 0, .start 0, .fetch 0]).thread 0).pc = .blocked := by decide

/-! ## C138: no thread is forgotten -/

/-- The thread ended, or will end when it comes to it. -/
def ToldToStop (th : Thread) : Prop := none ∈ th.queue ∨ th.stopped = true ∨ th.pc = .ended

theorem toldToStop_iff (th : Thread) : ToldToStop th ↔ th.isOpen = false := by
  rw [← Bool.not_eq_true, isOpen_iff]
  unfold ToldToStop
  cases th.stopped <;> by_cases h : none ∈ th.queue <;> by_cases h' : th.pc = .ended <;> simp [h, h']

/--
C138: at all times the free, the running and the claimed threads together are the threads which were not told to stop, each
of them once. `cancel_executors` and `release_executors` tell all threads to stop, and do not raise.
-/
theorem C138_no_thread_forgotten (ops : List Op) :
    ((reach ops).free ++ ((reach ops).running ++ (reach ops).claimed)).Nodup ∧
    (∀ t, t < (reach ops).count →
      (¬ ToldToStop ((reach ops).thread t) ↔ t ∈ (reach ops).free ∨ t ∈ (reach ops).running ∨ t ∈ (reach ops).claimed)) ∧
    (∀ t, t ∈ (reach ops).free ∨ t ∈ (reach ops).running ∨ t ∈ (reach ops).claimed → t < (reach ops).count) ∧
    (∀ op, op = .cancelAll ∨ op = .releaseAll →
      Event.attributeError ∉ ((reach ops).step op).2 ∧
      ∀ t, t < (reach ops).count → ToldToStop (((reach ops).step op).1.thread t)) := by
  have h := (inv_reach ops).good.pool
  have hm : ∀ s : State, ∀ t, t ∈ s.all ↔ t ∈ s.free ∨ t ∈ s.running ∨ t ∈ s.claimed := by
    intro s t; simp [State.all]
  refine ⟨h.nodup, ?_, ?_, ?_⟩
  · intro t ht
    rw [← hm, h.mem, toldToStop_iff]
    simp [ht]
  · intro t ht; exact h.lt ((hm _ t).2 ht)
  · intro op hop
    refine ⟨?_, ?_⟩
    · rcases hop with rfl | rfl
      · show Event.attributeError ∉ (reach ops).queued.map Event.dropped ++ if (reach ops).cancelAll.2 then [.attributeError] else []
        rw [cancelAll_open h]
        simp
      · show Event.attributeError ∉ ([] : List Event); simp
    · intro t ht
      have hp := ((inv_reach ops).good.step op).pool
      have hc : ((reach ops).step op).1.count = (reach ops).count := by
        rcases hop with rfl | rfl
        · show (reach ops).cancelAll.1.count = _; rw [cancelAll_open h]
        · exact (releaseAll_frame _).2.2.2.2.1
      have hall : ((reach ops).step op).1.all = [] := by
        rcases hop with rfl | rfl
        · show (reach ops).cancelAll.1.all = _; rw [cancelAll_open h]; rfl
        · rfl
      rw [toldToStop_iff, ← Bool.not_eq_true]
      intro ho
      have := (hp.mem t).2 ⟨by rw [hc]; exact ht, ho⟩
      rw [hall] at this
      simp at this

example : (reach busy).free = [] ∧ (reach busy).running = [0, 1] ∧ (reach busy).claimed = [2] ∧ (reach busy).count = 3 := by
  decide

/--
C138, the way back: when the threads and the event loop have nothing left to do, and no call waits for a thread that the
pool gave up, then no thread is in use any more.
-/
theorem C138_given_back (ops : List Op) (hu : UsesClaimed {} ops) (hq : ∀ op, ¬ Enabled (reach ops) op) :
    (reach ops).running = [] := by
  have ha : Alive (hist ops) (reach ops) := by
    have := Alive.init.run ops hu
    simpa using this
  have hquiet : Quiet (reach ops) := by
    rcases quiet_or_enabled (s := reach ops) with h | ⟨op, h⟩
    · exact h
    · exact absurd h (hq op)
  have hr : Returning (reach ops) := returning_run Good.init (fun t ht => by simp at ht) ops
  rw [List.eq_nil_iff_forall_not_mem]
  intro t ht
  rcases hr t ht with ⟨n, h1, h2, h3⟩ | h1
  · exact ha.settled hquiet h1 h3
  · simp [State.back, hquiet.ready] at h1

/-- One call, until the thread waits again -/
def oneCall : List Op := [.run, .fetch 0, .start 0, .finish 0 (.value 1), .loop, .loop, .loop, .fetch 0]

example : UsesClaimed {} oneCall ∧ (∀ op, ¬ Enabled (reach oneCall) op) ∧ (reach (oneCall.take 6)).running = [0] := by
  refine ⟨⟨by simp, by simp, by simp, by simp, by simp, by simp, by simp, by simp, trivial⟩, ?_, by decide⟩
  have h0 : ∀ t, t < (reach oneCall).count → t = 0 := by
    intro t ht
    have : t < 1 := ht
    omega
  intro op
  cases op with
  | fetch t => rintro ⟨h1, h2⟩; cases h0 t h1; exact absurd h2 (by decide)
  | start t => rintro ⟨h1, n, h2⟩; cases h0 t h1; exact absurd (h2.symm.trans (show _ = Pc.blocked by decide)) (by simp)
  | finish t raw => rintro ⟨h1, n, h2⟩; cases h0 t h1; exact absurd (h2.symm.trans (show _ = Pc.blocked by decide)) (by simp)
  | loop => intro h; exact h (by decide)
  | _ => exact id

/-! ## C139: a free thread has nothing to do -/

/--
C139 (partial): as long as nobody cancels a call which runs, and nobody releases a claimed executor whose thread has taken
a call, a free thread runs no function, and holds only calls whose functions will not be started.
-/
theorem C139_free_is_idle_partial (ops : List Op) (ho : Orderly {} ops) (t : Nat) (ht : t ∈ (reach ops).free) :
    (∀ n, ((reach ops).thread t).pc ≠ .running n) ∧
    ∀ n, (((reach ops).thread t).pc = .taken n ∨ some n ∈ ((reach ops).thread t).queue) → (reach ops).fut n ≠ .pending := by
  have h := (calm_run Inv.init Owned.init Calm.init ops ho).free ht
  refine ⟨fun n hn => ?_, fun n hn => h.2 n ?_⟩
  · have : n ∈ ((reach ops).thread t).act := mem_act.2 hn
    rw [h.1] at this
    simp at this
  · unfold Thread.pend
    rcases hn with e | e
    · simp [Thread.held, e]
    · exact List.mem_append.2 (.inr (mem_filterMap_id.2 e))

/-- Two calls, one is cancelled before it runs; both threads are free in the end -/
def calmRun : List Op :=
  [.run, .run, .cancel 1, .fetch 0, .start 0, .loop, .loop, .finish 0 (.value 1), .loop, .loop, .loop]

example : Orderly {} calmRun := by
  refine ⟨by simp, by simp, by simp, by simp, ?_, by simp, by simp, by simp, by simp, by simp, by simp, by simp, by simp,
    by simp, by simp, by simp, by simp, by simp, by simp, by simp, by simp, by simp, trivial⟩
  intro n hn t
  cases hn
  by_cases h0 : t = 0
  · subst h0; decide
  · by_cases h1 : t = 1
    · subst h1; decide
    · have hfresh := (inv_reach [.run, .run]).good.pool.fresh t (by show 2 ≤ t; omega)
      show ((reach [.run, .run]).thread t).pc ≠ _
      rw [hfresh]; simp

example : (reach calmRun).free = [0, 1] ∧ (reach calmRun).fut 1 = .cancelled ∧
    ((reach calmRun).thread 1).queue = [some 1] := by decide

/--
C139, violated: a call which runs is cancelled. Its thread is given back while it still runs the function, so the next call
is given to this thread, and waits for the function of the cancelled call: for ever, if that does not end. The same happens
if a claimed executor is released whose thread runs a function.
-/
theorem C139_free_is_idle_violated :
    ((reach [.run, .fetch 0, .start 0, .cancel 0, .loop, .loop]).free = [0] ∧
      ((reach [.run, .fetch 0, .start 0, .cancel 0, .loop, .loop]).thread 0).pc = .running 0) ∧
    (∀ ops, (∀ raw, Op.finish 0 raw ∉ ops) → ∀ t,
      Event.ran t 1 ∉ hist ([.run, .fetch 0, .start 0, .cancel 0, .loop, .loop, .run] ++ ops)) ∧
    ((reach [.claim, .execute 0, .fetch 0, .start 0, .release 0]).free = [0] ∧
      ((reach [.claim, .execute 0, .fetch 0, .start 0, .release 0]).thread 0).pc = .running 0) ∧
    (∀ ops, (∀ raw, Op.finish 0 raw ∉ ops) → ∀ t,
      Event.ran t 1 ∉ hist ([.claim, .execute 0, .fetch 0, .start 0, .release 0, .run] ++ ops)) := by
  have key : ∀ pre, ((reach pre).thread 0).pc = .running 0 → Event.submitted 0 1 ∈ hist pre →
      (∀ t, Event.ran t 1 ∉ hist pre) → ∀ ops, (∀ raw, Op.finish 0 raw ∉ ops) → ∀ t, Event.ran t 1 ∉ hist (pre ++ ops) := by
    intro pre hpc hsub hpre ops hops t ht
    have ht' : Event.ran t 1 ∈ (State.runOps {} (pre ++ ops)).2 := ht
    have hinv := inv_reach (pre ++ ops)
    have h1 := (hinv.fifo t).subset (List.mem_append.2 (.inl (mem_ranBy.2 ht)))
    rw [runOps_append] at ht'
    rcases List.mem_append.1 ht' with e | e
    · exact hpre t e
    · have h2 : 1 ∈ submittedTo 0 (hist (pre ++ ops)) := by
        rw [mem_submittedTo]
        show _ ∈ (State.runOps {} (pre ++ ops)).2
        rw [runOps_append]
        exact List.mem_append.2 (.inl hsub)
      have := submitted_unique hinv.nodup h1 h2
      subst this
      exact running_run (inv_reach pre).good hpc ops hops 1 e
  have nor : ∀ es : List Event, (es.all fun | .ran _ 1 => false | _ => true) = true → ∀ t, Event.ran t 1 ∉ es := by
    intro es h t ht
    have := List.all_eq_true.1 h _ ht
    simp at this
  refine ⟨by decide, ?_, by decide, ?_⟩
  · exact key _ (by decide) (by decide) (nor _ (by decide))
  · exact key _ (by decide) (by decide) (nor _ (by decide))

/-! ## C140: a claimed executor is given back -/

/--
C140 (partial): releasing a claimed executor whose queue is empty gives its thread back, at once and once: it becomes a free
thread (unless it was told to stop), the claimed executor cannot be used any more, and releasing it again does nothing.
-/
theorem C140_given_back_partial (ops : List Op) (i t : Nat) (hi : (reach ops).handles[i]? = some (some t))
    (hq : ((reach ops).thread t).queue = []) :
    (t ∈ (reach ops).claimed →
      (reach (ops ++ [.release i])).free = t :: (reach ops).free ∧ t ∉ (reach (ops ++ [.release i])).claimed) ∧
    hist (ops ++ [.release i]) = hist ops ∧
    (reach (ops ++ [.release i])).handles[i]? = some none ∧
    (reach (ops ++ [.release i, .release i])).free = (reach (ops ++ [.release i])).free ∧
    hist (ops ++ [.release i, .execute i]) = hist ops ++ [.runtimeError] := by
  have hlen : i < (reach ops).handles.length := by
    rcases Nat.lt_or_ge i (reach ops).handles.length with e | e
    · exact e
    · rw [List.getElem?_eq_none e] at hi; cases hi
  have e1 : State.runOps {} (ops ++ [.release i]) = (((reach ops).stepRelease i).1, hist ops ++ ((reach ops).stepRelease i).2) := by
    rw [runOps_append]; simp [State.runOps, State.step]
  have hev : ((reach ops).stepRelease i).2 = [] := by
    unfold State.stepRelease; simp only [hi]; rw [if_pos hq]
  have hhand : ((reach ops).stepRelease i).1.handles = (reach ops).handles.set i none := by
    unfold State.stepRelease; simp only [hi]; rw [if_pos hq]
  have hnone : ((reach ops).stepRelease i).1.handles[i]? = some none := by
    rw [hhand, List.getElem?_set]; simp [hlen]
  refine ⟨?_, ?_, ?_, ?_, ?_⟩
  · intro ht
    show (State.runOps {} (ops ++ [.release i])).1.free = _ ∧ t ∉ (State.runOps {} (ops ++ [.release i])).1.claimed
    rw [e1]
    unfold State.stepRelease
    simp only [hi]
    rw [if_pos hq]
    dsimp only
    rw [if_pos ht]
    obtain ⟨-, -, f3, -, f5, -⟩ := syncKeep_frame { reach ops with claimed := (reach ops).claimed.erase t } t
    refine ⟨f3, ?_⟩
    rw [f5]
    have := (inv_reach ops).good.pool.nodup
    simp only [State.all, List.nodup_append] at this
    exact List.Nodup.not_mem_erase this.2.1.2.1
  · show (State.runOps {} (ops ++ [.release i])).2 = _
    rw [e1, hev]; simp
  · show (State.runOps {} (ops ++ [.release i])).1.handles[i]? = _
    rw [e1]; exact hnone
  · show (State.runOps {} (ops ++ [.release i, .release i])).1.free = (State.runOps {} (ops ++ [.release i])).1.free
    have : ops ++ [Op.release i, .release i] = (ops ++ [.release i]) ++ [.release i] := by simp
    rw [this, runOps_append _ (ops ++ [Op.release i]), e1]
    show ((((reach ops).stepRelease i).1).stepRelease i).1.free = _
    rw [State.stepRelease]
    simp only [hnone]
  · show (State.runOps {} (ops ++ [.release i, .execute i])).2 = _
    have : ops ++ [Op.release i, .execute i] = (ops ++ [.release i]) ++ [.execute i] := by simp
    rw [this, runOps_append _ (ops ++ [Op.release i]), e1]
    show (hist ops ++ ((reach ops).stepRelease i).2) ++ (((((reach ops).stepRelease i).1).stepExecute i).2 ++ []) = _
    rw [State.stepExecute]
    simp only [hnone, hev]
    simp

example : (reach [.claim, .claim, .execute 1, .fetch 1, .start 1, .finish 1 (.value 3), .loop, .release 1]).free = [1] ∧
    (reach [.claim, .claim, .execute 1, .fetch 1, .start 1, .finish 1 (.value 3), .loop, .release 1]).claimed = [0] := by decide

/--
C140, violated: releasing a claimed executor raises `AttributeError` whenever its thread has a call in its queue, and
nothing is released then; so the thread is not given back when the call is done either.
-/
theorem C140_given_back_violated :
    (∀ ops i t n q, (reach ops).handles[i]? = some (some t) → ((reach ops).thread t).queue = n :: q →
      hist (ops ++ [.release i]) = hist ops ++ [.attributeError] ∧ reach (ops ++ [.release i]) = reach ops) ∧
    ((reach [.claim, .execute 0, .release 0, .fetch 0, .start 0, .finish 0 (.value 1), .loop, .fetch 0]).claimed = [0] ∧
      (reach [.claim, .execute 0, .release 0, .fetch 0, .start 0, .finish 0 (.value 1), .loop, .fetch 0]).fut 0 =
        .done (.value 1) ∧
      (reach [.claim, .execute 0, .release 0, .fetch 0, .start 0, .finish 0 (.value 1), .loop, .fetch 0]).ready = []) := by
  refine ⟨?_, by decide⟩
  intro ops i t n q hi hq
  have e : (reach ops).stepRelease i = (reach ops, [.attributeError]) := by
    unfold State.stepRelease
    simp only [hi]
    rw [if_neg (by rw [hq]; simp)]
  have e1 : State.runOps {} (ops ++ [.release i]) = (((reach ops).stepRelease i).1, hist ops ++ ((reach ops).stepRelease i).2) := by
    rw [runOps_append]; simp [State.runOps, State.step]
  show (State.runOps {} (ops ++ [.release i])).2 = _ ∧ (State.runOps {} (ops ++ [.release i])).1 = _
  rw [e1, e]
  exact ⟨rfl, rfl⟩

/-! ## C141: every call comes to an end -/

/--
C141 (partial): as long as nobody gives a call to a claimed executor whose thread the pool gave up, every call comes to
an end once the functions do. From any such state the threads and the event loop can make only so many steps of their own;
when none is left, every future is done.
-/
theorem C141_every_call_settled_partial (ops : List Op) (hu : UsesClaimed {} ops) :
    ∃ bound, ∀ ops', AllEnabled (reach ops) ops' →
      ops'.length ≤ bound ∧
      ((∀ op, ¬ Enabled (reach (ops ++ ops')) op) → ∀ n, n < (reach ops).calls → (reach (ops ++ ops')).fut n ≠ .pending) := by
  refine ⟨(reach ops).work, fun ops' he => ⟨?_, ?_⟩⟩
  · have := enabled_length he; omega
  · intro hq n hn
    have ha : Alive (hist ops) (reach ops) := by
      have := Alive.init.run ops hu
      simpa using this
    have hb := ha.run ops' (enabled_claimed he)
    have er : reach (ops ++ ops') = ((reach ops).runOps ops').1 := by
      show (State.runOps {} (ops ++ ops')).1 = _; rw [runOps_append]
    rw [er] at hq ⊢
    have hquiet : Quiet ((reach ops).runOps ops').1 := by
      rcases quiet_or_enabled (s := ((reach ops).runOps ops').1) with h | ⟨op, h⟩
      · exact h
      · exact absurd h (hq op)
    refine hb.settled hquiet ?_
    have h1 := hb.inv.all
    have h2 := ha.inv.all
    have : List.range (reach ops).calls <+: List.range ((reach ops).runOps ops').1.calls := by
      rw [← h1, ← h2]
      unfold submitted
      rw [List.filterMap_append]
      exact List.prefix_append ..
    have := this.length_le
    simp at this
    omega

example : UsesClaimed {} busy := by
  refine ⟨by simp, by simp, by simp, by simp, by simp, by simp, by simp, by simp, by simp, by simp, by simp, by simp, by simp,
    by simp, ?_, ?_, by simp, by simp, by simp, by simp, trivial⟩
  · intro h t e he
    cases e
    have e2 : some t = some 2 := Option.some.inj (he.symm.trans (show _ = some (some 2) by decide))
    cases e2
    decide
  · intro h t e he
    cases e
    have e2 : some t = some 2 := Option.some.inj (he.symm.trans (show _ = some (some 2) by decide))
    cases e2
    decide

/--
C141, violated: a call which is given to a claimed executor whose thread the pool gave up never runs, and its future is never
done (unless somebody cancels it), whatever happens afterwards. This is so after `release_executors` or `cancel_executors`
for every claimed executor which was not released before.
-/
theorem C141_every_call_settled_violated :
    (∀ ops i t, (reach ops).handles[i]? = some (some t) → t ∉ (reach ops).claimed → ∀ ops',
      Event.userCancel (reach ops).calls ∉ hist (ops ++ .execute i :: ops') →
        (reach (ops ++ .execute i :: ops')).fut (reach ops).calls = .pending ∧
        Event.submitted t (reach ops).calls ∈ hist (ops ++ .execute i :: ops') ∧
        ∀ u, Event.ran u (reach ops).calls ∉ hist (ops ++ .execute i :: ops')) ∧
    (∀ (ops : List Op) (i t : Nat) (op : Op), op = .cancelAll ∨ op = .releaseAll → (reach ops).handles[i]? = some (some t) →
      (reach (ops ++ [op])).handles[i]? = some (some t) ∧ t ∉ (reach (ops ++ [op])).claimed) := by
  refine ⟨?_, ?_⟩
  · intro ops i t hi hc ops' hcan
    have h := inv_reach ops
    have hcl := (owned_reach ops).closed h.good (List.mem_of_getElem? hi) hc
    have hstep : (reach ops).step (.execute i) = ((reach ops).submit t none, [.submitted t (reach ops).calls]) := by
      show (reach ops).stepExecute i = _
      unfold State.stepExecute
      simp only [hi]
    have h1 : Inv (hist ops ++ [.submitted t (reach ops).calls]) ((reach ops).submit t none) := by
      have := h.step (.execute i)
      rwa [hstep] at this
    have hlost : Lost (((reach ops).submit t none).thread t) (reach ops).calls := by
      rw [(submit_frame ..).2.1, upd_same]
      exact lost_put (h.blk t) hcl _
    have hl2 := lost_run h1 hlost ops'
    have er : State.runOps {} (ops ++ .execute i :: ops') =
        ((((reach ops).submit t none).runOps ops').1,
          hist ops ++ ([.submitted t (reach ops).calls] ++ (((reach ops).submit t none).runOps ops').2)) := by
      rw [runOps_append, State.runOps]
      rw [show (State.runOps {} ops).1 = reach ops from rfl, hstep]
    have h2 := inv_reach (ops ++ .execute i :: ops')
    have hp : (reach ops).calls ∈ ((reach (ops ++ .execute i :: ops')).thread t).pend := by
      show _ ∈ ((State.runOps {} (ops ++ .execute i :: ops')).1.thread t).pend
      rw [er]; exact hl2.mem
    have := h2.pending hp hcan
    refine ⟨this.1, ?_, this.2⟩
    show _ ∈ (State.runOps {} (ops ++ .execute i :: ops')).2
    rw [er]; simp
  · intro ops i t op hop hi
    have er : reach (ops ++ [op]) = ((reach ops).step op).1 := by
      show (State.runOps {} (ops ++ [op])).1 = _
      rw [runOps_append]; rfl
    rw [er]
    rcases hop with rfl | rfl
    · show (reach ops).cancelAll.1.handles[i]? = _ ∧ t ∉ (reach ops).cancelAll.1.claimed
      rw [cancelAll_open (inv_reach ops).good.pool]
      exact ⟨hi, by simp⟩
    · show (reach ops).releaseAll.handles[i]? = _ ∧ t ∉ (reach ops).releaseAll.claimed
      rw [(releaseAll_frame _).2.2.2.2.2]
      exact ⟨hi, by simp [State.releaseAll]⟩

example : (reach [.claim, .releaseAll, .execute 0, .fetch 0]).fut 0 = .pending ∧
    ((reach [.claim, .releaseAll, .execute 0, .fetch 0]).thread 0).pc = .ended := by decide

/-! ## C142: `cancel_executors` -/

/--
C142 (partial): `cancel_executors` cancels exactly the calls which wait in the queues of the threads in use: their functions
never run, and their futures are cancelled as soon as the event loop has done what it has to do. Functions which were
started before are not touched.
-/
theorem C142_cancel_executors_partial (ops : List Op) :
    (∀ n, Event.dropped n ∈ ((reach ops).step .cancelAll).2 ↔
      ∃ t, (t ∈ (reach ops).running ∨ t ∈ (reach ops).claimed) ∧ some n ∈ ((reach ops).thread t).queue) ∧
    (∀ n, Event.dropped n ∈ hist ops →
      (∀ t, Event.ran t n ∉ hist ops) ∧ ((reach ops).ready = [] → (reach ops).fut n = .cancelled)) ∧
    (∀ t n, ((reach ops).thread t).pc = .running n → (((reach ops).step .cancelAll).1.thread t).pc = .running n) := by
  have h := inv_reach ops
  refine ⟨?_, ?_, ?_⟩
  · intro n
    constructor
    · intro hn
      have := (step_dropped hn).2
      rw [queued_eq h.good.pool] at this
      obtain ⟨t, ht, hn⟩ := List.mem_flatMap.1 this
      exact ⟨t, List.mem_append.1 ht, mem_filterMap_id.1 hn⟩
    · intro ⟨t, ht, hn⟩
      show Event.dropped n ∈ (reach ops).queued.map Event.dropped ++ _
      rw [queued_eq h.good.pool]
      refine List.mem_append.2 (.inl (List.mem_map.2 ⟨n, ?_, rfl⟩))
      exact List.mem_flatMap.2 ⟨t, List.mem_append.2 ht, mem_filterMap_id.2 hn⟩
  · intro n hn
    refine ⟨fun t ht => (h.drop n hn t).1 (mem_ranBy.2 ht), ?_⟩
    intro hr
    have hd : DroppedOk (hist ops) (reach ops) := by
      have := dropped_run Inv.init (es := []) (s := {}) (fun _ h => by simp at h) ops
      simpa using this
    rcases hd n hn with e | e
    · exact e
    · rw [hr] at e; simp at e
  · intro t n ht
    exact running_step h.good ht .cancelAll (by simp)

example : hist (busy ++ [.cancelAll]) = hist busy ++ [.dropped 4] ∧
    (reach (busy ++ [.cancelAll, .loop, .loop, .loop])).fut 4 = .cancelled ∧
    (reach (busy ++ [.cancelAll, .finish 2 (.value 9), .loop, .loop, .loop, .loop])).ready = [] ∧
    (reach (busy ++ [.cancelAll, .finish 2 (.value 9), .loop, .loop, .loop, .loop])).fut 3 = .done (.value 9) := by decide

/--
C142, violated: a call which a thread has taken out of its queue already, but whose function was not started yet, is not
cancelled; the function is started after `cancel_executors`.
-/
theorem C142_cancel_executors_violated :
    hist [.run, .fetch 0, .cancelAll] = [.submitted 0 0] ∧
    hist [.run, .fetch 0, .cancelAll, .start 0, .finish 0 (.value 1), .loop, .fetch 0] =
      [.submitted 0 0, .ran 0 0, .returned 0 0 (.value 1)] ∧
    (reach [.run, .fetch 0, .cancelAll, .start 0, .finish 0 (.value 1), .loop, .fetch 0]).fut 0 = .done (.value 1) := by
  decide

/-! ## C143: threads which are not used any more go away -/

/--
C143 (partial): as long as there are free threads there is a timer. If no call runs (or nothing is to be kept any more), and
the event loop does nothing but firing the timer, then after twice as many firings as there are free threads, and two, no
free thread and no timer is left, and the threads which were free are told to stop.
-/
theorem C143_idle_threads_go_partial (ops : List Op) :
    ((reach ops).free ≠ [] → (reach ops).timer ≠ none) ∧
    ((reach ops).running = [] ∨ (reach ops).kept = 0 → ∀ lates : List Nat, 2 * (reach ops).free.length + 2 ≤ lates.length →
      ((reach ops).fires lates).free = [] ∧ ((reach ops).fires lates).timer = none ∧
      ∀ t ∈ (reach ops).free, ToldToStop (((reach ops).fires lates).thread t)) := by
  have hg := (inv_reach ops).good
  have ha : Armed (reach ops) := armed_run Good.init (fun h => absurd rfl h) ops
  refine ⟨ha, ?_⟩
  intro hu lates hlen
  have h1 := fires_todo (s := reach ops) hu lates
  have h2 := todo_le (reach ops)
  have h3 := todo_zero (s := (reach ops).fires lates) (by omega)
  obtain ⟨ops', he⟩ := fires_run (reach ops) lates
  have hg' : Good ((reach ops).fires lates) := by rw [he]; exact hg.run ops'
  have ha' : Armed ((reach ops).fires lates) := by rw [he]; exact armed_run hg ha ops'
  have hf : ((reach ops).fires lates).free = [] := by
    by_cases hf : ((reach ops).fires lates).free = []
    · exact hf
    · exact absurd h3 (ha' hf)
  refine ⟨hf, h3, ?_⟩
  intro t ht
  obtain ⟨f1, f2, f3⟩ := fires_frame (reach ops) lates
  rw [toldToStop_iff, ← Bool.not_eq_true]
  intro ho
  have hlt : t < (reach ops).count := hg.pool.lt (by simp [State.all, ht])
  have hm := (hg'.pool.mem t).2 ⟨by rw [f3]; exact hlt, ho⟩
  have hn := hg.pool.nodup
  simp only [State.all, hf, f1, f2, List.nil_append] at hm
  simp only [State.all, List.nodup_append] at hn
  exact hn.2.2 t ht t hm rfl

/-- Two threads which are free, the timer due in 6 -/
def twoFree : List Op :=
  [.run, .run, .fetch 0, .start 0, .fetch 1, .start 1, .finish 0 (.value 1), .finish 1 (.value 2),
    .loop, .loop, .loop, .loop, .loop, .loop]

example : (reach twoFree).free = [1, 0] ∧ (reach twoFree).running = [] ∧ (reach twoFree).timer = some ⟨6, 0, 6⟩ := by decide

example : ((reach twoFree).fires [0, 0, 0, 0, 0]).timer = none ∧ ((reach twoFree).fires [0]).free = [0] ∧
    ((reach twoFree).fires [0, 0, 0]).free = [] := by decide

/-- While only the timer runs, and nothing is released -/
theorem held_fires {s : State} {t : Nat} {tm : Timer} (ht : s.timer = some tm) (hf : s.free = [t])
    (hk : s.kept > 0 ∧ s.running.length + 1 > s.kept) (lates : List Nat) : (s.fires lates).free = [t] := by
  induction lates generalizing s tm with
  | nil => exact hf
  | cons late lates ih =>
    rw [State.fires, fire_eq ht]
    by_cases h1 : s.lastSchedule > tm.scheduleTime
    · rw [releaseStep_later (s := { s with now := s.now + (tm.due - s.now + late) }) h1]
      exact ih rfl hf hk
    · rw [releaseStep_held (s := { s with now := s.now + (tm.due - s.now + late) }) h1 hf hk]
      exact ih rfl hf hk

/--
C143, violated twice. Two calls run, one after one other call; the second of them ends, the first does not: its thread is
never released, however often the timer fires. And after a firing which released a thread, the next one never releases
any, since it is given the time of the schedule before and takes this for something that should not happen.
-/
theorem C143_idle_threads_go_violated :
    (∀ lates, ((reach ([.run, .fetch 0, .start 0, .finish 0 (.value 1), .loop, .loop, .loop, .run, .run, .fetch 0, .start 0,
      .fetch 1, .start 1, .finish 1 (.value 1), .loop, .loop, .loop])).fires lates).free = [1]) ∧
    (∀ (s : State) (tm : Timer) (t u : Nat) (free : List Nat) (late late' : Nat), s.timer = some tm → s.lastSchedule ≤ tm.scheduleTime → s.lastSchedule < s.now + late →
      s.now ≤ tm.due → (s.running = [] ∨ s.kept = 0) → s.free = t :: u :: free →
      (s.fire late).free = u :: free ∧ ((s.fire late).fire late').free = u :: free) := by
  refine ⟨?_, ?_⟩
  · intro lates
    exact held_fires (tm := ⟨6, 0, 6⟩) (by decide) (by decide) (by decide) lates
  · intro s tm t u free late late' hm h1 h2 h3 hu hf
    obtain ⟨k, i, he⟩ := releaseStep_go (s := { s with now := s.now + (tm.due - s.now + late) }) (a := tm.scheduleTime)
      (by show ¬ s.lastSchedule > _; omega) hf hu tm.interval
    have e1 : s.fire late = { s with
        now := s.now + (tm.due - s.now + late), free := u :: free, thread := upd s.thread t ((s.thread t).put none), kept := k,
        lastSchedule := s.now + (tm.due - s.now + late),
        timer := some ⟨s.now + (tm.due - s.now + late) + i, s.lastSchedule, i⟩ } := by
      rw [fire_eq hm, he]
    refine ⟨by rw [e1], ?_⟩
    rw [e1]
    rw [fire_eq rfl]
    rw [releaseStep_later]
    show s.now + (tm.due - s.now + late) > s.lastSchedule
    omega

example : ((reach twoFree).fires [0, 0]).free = [0] ∧ ((reach twoFree).fires [0, 0]).now = 12 := by decide

end Verif.ThreadPool
