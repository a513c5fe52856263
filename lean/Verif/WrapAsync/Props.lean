import Verif.WrapAsync.Model

/-!
# C268–C272: waiting for a future of another loop
-/

namespace Verif.WrapAsync

/-- The facts kept by every step. -/
structure Inv (s : S) : Prop where
  result : ∀ i v, (s.w i).pc = .ended (.result v) → s.fut = some v
  valid : ∀ i, (s.w i).pc ≠ .ended .invalid
  ready : ∀ i, (s.w i).cb = .ready → s.fut ≠ none
  yes : ∀ i, (s.w i).waiter = some true → s.fut ≠ none
  early : ∀ i, ((s.w i).pc = .idle ∨ (s.w i).pc = .looked ∨ (s.w i).pc = .adding) →
    (s.w i).cb = .none ∧ (s.w i).waiter = none ∧ (s.w i).timer = false
  behind : ∀ i a, (s.w i).pc = .ended a → (s.w i).cb ≠ .listed
  told : ∀ i, (s.w i).waiter = some true → (s.w i).cb = .none
  notold : ∀ i, (s.w i).cb = .none → (s.w i).pc = .waiting → (s.w i).waiter ≠ none
  timed : ∀ i, (s.w i).timer = true → (s.w i).timed = true
  armed : ∀ i, (s.w i).pc = .waiting → (s.w i).timed = true → (s.w i).waiter = none →
    (s.w i).timer = true
  no : ∀ i, (s.w i).waiter = some false → (s.w i).timed = true ∧ (s.w i).timer = false
  over : ∀ i, ((s.w i).pc = .ended .timeout ∨ (s.w i).pc = .ended .interrupted) → (s.w i).timer = false
  tout : ∀ i, (s.w i).pc = .ended .timeout → (s.w i).waiter = some false

set_option maxHeartbeats 4000000 in
theorem inv_step (s : S) (op : Op) (h : Inv s) : Inv (step s op) := by
  have h0 := h
  obtain ⟨h1, h2, h3, h4, h5, h6, h7, h8, h9, h10, h11, h12, h13⟩ := h
  cases op <;> unfold step <;> dsimp only <;> (try unfold getResult) <;> (try unfold setPending) <;>
    (try unfold removed) <;> (repeat' split) <;>
    first
      | exact h0
      | (constructor <;> dsimp only [put] <;> grind)

theorem inv_start : Inv start := by
  constructor <;> simp [start]

theorem inv_run (ops : List Op) : ∀ s : S, Inv s → Inv (run s ops) := by
  induction ops with
  | nil => intro s h; exact h
  | cons op ops ih => intro s h; exact ih _ (inv_step s op h)

/-! ## C268 -/

/-- **C268.** A wait that returns gives what the future was completed with, so all give the same; no
wait asks a pending future for its result. -/
theorem C268_result_of_future (ops : List Op) (i : Nat) :
    (∀ v, ((run start ops).w i).pc = .ended (.result v) → (run start ops).fut = some v) ∧
      ((run start ops).w i).pc ≠ .ended .invalid :=
  ⟨fun v h => (inv_run ops start inv_start).result i v h, (inv_run ops start inv_start).valid i⟩

/-- **C268.** Two waits that return agree. -/
theorem C268_waits_agree (ops : List Op) (i j v u : Nat)
    (h : ((run start ops).w i).pc = .ended (.result v))
    (h' : ((run start ops).w j).pc = .ended (.result u)) : v = u := by
  have a := (C268_result_of_future ops i).1 v h
  have b := (C268_result_of_future ops j).1 u h'
  rw [a] at b
  exact Option.some.inj b

example :
    let s := run start [.begin 1 true, .addCheck 1, .append 1, .begin 2 false, .addCheck 2, .complete 7,
      .complete 8, .begin 3 false, .runCb 1, .resume 1, .append 2]
    (s.w 1).pc = .ended (.result 7) ∧ (s.w 3).pc = .ended (.result 7) ∧ (s.w 2).pc = .waiting := by decide

/-! ## C269 -/

/-- **C269, violated.** A wait times out although the future was completed before its timer was due:
the loop of the future did not run the callback yet. -/
theorem C269_times_out_on_completed_future_violated (i v : Nat) :
    let s := run start [.begin i true, .addCheck i, .append i, .complete v, .fire i, .resume i]
    s.fut = some v ∧ (s.w i).pc = .ended .timeout := by
  simp [run, step, start, put, setPending]

/-- What a wait told of the completion can become. -/
theorem told_step (s : S) (op : Op) (i : Nat) (h0 : Inv s)
    (h : ((s.w i).pc = .waiting ∧ (s.w i).waiter = some true) ∨ (s.w i).pc = .ended .interrupted ∨
      ∃ v, (s.w i).pc = .ended (.result v)) :
    (((step s op).w i).pc = .waiting ∧ ((step s op).w i).waiter = some true) ∨
      ((step s op).w i).pc = .ended .interrupted ∨
      ∃ v, ((step s op).w i).pc = .ended (.result v) := by
  have h4 := h0.yes i
  cases op <;> unfold step <;> dsimp only <;> (try unfold getResult) <;> (try unfold setPending) <;>
    (try unfold removed) <;> (repeat' split) <;> (try dsimp only [put]) <;> first | exact h | grind

/-- **C269, part.** When the callback of the future has run before the timer, the wait does not time
out, whatever happens later. -/
theorem C269_told_wait_does_not_time_out_partial (before ops : List Op) (i : Nat)
    (hp : ((run start before).w i).pc = .waiting) (hw : ((run start before).w i).waiter = some true) :
    ((run start (before ++ ops)).w i).pc ≠ .ended .timeout := by
  have key : ∀ (ops : List Op) (s : S), Inv s →
      (((s.w i).pc = .waiting ∧ (s.w i).waiter = some true) ∨ (s.w i).pc = .ended .interrupted ∨
        ∃ v, (s.w i).pc = .ended (.result v)) →
      ((run s ops).w i).pc ≠ .ended .timeout := by
    intro ops
    induction ops with
    | nil => intro s _ h; show (s.w i).pc ≠ _; grind
    | cons op ops ih => intro s h0 h; exact ih _ (inv_step s op h0) (told_step s op i h0 h)
  rw [run_append]
  exact key ops _ (inv_run before start inv_start) (Or.inl ⟨hp, hw⟩)

theorem timed_of_begin_step (s : S) (op : Op) (i : Nat) (hop : op ≠ .begin i true)
    (h : (s.w i).timed = false) : ((step s op).w i).timed = false := by
  cases op <;> unfold step <;> dsimp only <;> (repeat' split) <;> (try dsimp only [put]) <;>
    first | exact h | grind

/-- **C269, part.** A wait without a timeout never times out. -/
theorem C269_untimed_wait_does_not_time_out_partial (ops : List Op) (i : Nat)
    (hops : ∀ op ∈ ops, op ≠ .begin i true) : ((run start ops).w i).pc ≠ .ended .timeout := by
  have key : ∀ (ops : List Op) (s : S), (∀ op ∈ ops, op ≠ .begin i true) → (s.w i).timed = false →
      ((run s ops).w i).timed = false := by
    intro ops
    induction ops with
    | nil => intro s _ h; exact h
    | cons op ops ih =>
      intro s hc h
      exact ih _ (fun x hx => hc x (List.mem_cons_of_mem _ hx))
        (timed_of_begin_step s op i (hc op List.mem_cons_self) h)
  have ht := key ops start hops rfl
  intro hp
  have hi := inv_run ops start inv_start
  have := (hi.no i (hi.tout i hp)).1
  rw [ht] at this
  cases this

example :
    let s := run start [.begin 1 true, .addCheck 1, .append 1, .complete 5, .runCb 1, .fire 1, .resume 1]
    (s.w 1).pc = .ended (.result 5) := by decide

/-! ## C270 -/

theorem timer_step (s : S) (op : Op) (i v : Nat) (hop : op ≠ .fire i)
    (h : (s.w i).pc = .ended (.result v) ∧ (s.w i).timer = true) :
    ((step s op).w i).pc = .ended (.result v) ∧ ((step s op).w i).timer = true := by
  obtain ⟨h1, h2⟩ := h
  cases op <;> unfold step <;> dsimp only <;> (repeat' split) <;> (try dsimp only [put]) <;>
    first | exact ⟨h1, h2⟩ | grind

/-- **C270, violated.** A wait with a timeout that returned the result leaves its timer scheduled until
it is due. -/
theorem C270_timer_left_behind_violated (i v : Nat) (ops : List Op) (hops : ∀ op ∈ ops, op ≠ .fire i) :
    let s := run start ([.begin i true, .addCheck i, .append i, .complete v, .runCb i, .resume i] ++ ops)
    (s.w i).pc = .ended (.result v) ∧ (s.w i).timer = true := by
  have key : ∀ (ops : List Op) (s : S), (∀ op ∈ ops, op ≠ .fire i) →
      ((s.w i).pc = .ended (.result v) ∧ (s.w i).timer = true) →
      (((run s ops).w i).pc = .ended (.result v) ∧ ((run s ops).w i).timer = true) := by
    intro ops
    induction ops with
    | nil => intro s _ h; exact h
    | cons op ops ih =>
      intro s hc h
      exact ih _ (fun x hx => hc x (List.mem_cons_of_mem _ hx))
        (timer_step s op i v (hc op List.mem_cons_self) h)
  rw [run_append]
  exact key ops _ hops (by simp [run, step, start, put, setPending, getResult])

/-- **C270, part.** A wait that timed out or was interrupted leaves no timer, nor does one without a
timeout. -/
theorem C270_no_timer_partial (ops : List Op) (i : Nat)
    (h : ((run start ops).w i).pc = .ended .timeout ∨ ((run start ops).w i).pc = .ended .interrupted ∨
      ((run start ops).w i).timed = false) : ((run start ops).w i).timer = false := by
  have hi := inv_run ops start inv_start
  rcases h with h | h | h
  · exact hi.over i (Or.inl h)
  · exact hi.over i (Or.inr h)
  · cases ht : ((run start ops).w i).timer with
    | false => rfl
    | true => have := hi.timed i ht; rw [h] at this; cases this

example :
    let s := run start [.begin 1 true, .addCheck 1, .append 1, .interrupt 1, .begin 2 true, .addCheck 2,
      .append 2, .fire 2, .resume 2]
    (s.w 1).timer = false ∧ (s.w 2).timer = false ∧ (s.w 2).pc = .ended .timeout := by decide

/-! ## C271 -/

theorem stuck_step (s : S) (op : Op) (i : Nat) (hop : op ≠ .interrupt i)
    (h : (s.w i).pc = .waiting ∧ (s.w i).cb = .listed ∧ (s.w i).waiter = none ∧ (s.w i).timer = false ∧
      s.fut ≠ none) :
    ((step s op).w i).pc = .waiting ∧ ((step s op).w i).cb = .listed ∧ ((step s op).w i).waiter = none ∧
      ((step s op).w i).timer = false ∧ (step s op).fut ≠ none := by
  obtain ⟨h1, h2, h3, h4, h5⟩ := h
  cases op <;> unfold step <;> dsimp only <;> (repeat' split) <;> (try dsimp only [put]) <;>
    first | exact ⟨h1, h2, h3, h4, h5⟩ | grind

/-- **C271, violated.** The future is completed while a wait is about to add its callback: the callback
is never called, and without a timeout the wait never ends. -/
theorem C271_waits_for_ever_violated (i v : Nat) (ops : List Op)
    (hops : ∀ op ∈ ops, op ≠ .interrupt i) :
    let s := run start ([.begin i false, .addCheck i, .complete v, .append i] ++ ops)
    s.fut ≠ none ∧ (s.w i).pc = .waiting := by
  have key : ∀ (ops : List Op) (s : S), (∀ op ∈ ops, op ≠ .interrupt i) →
      ((s.w i).pc = .waiting ∧ (s.w i).cb = .listed ∧ (s.w i).waiter = none ∧ (s.w i).timer = false ∧
        s.fut ≠ none) →
      ((run s ops).fut ≠ none ∧ ((run s ops).w i).pc = .waiting) := by
    intro ops
    induction ops with
    | nil => intro s _ h; exact ⟨h.2.2.2.2, h.1⟩
    | cons op ops ih =>
      intro s hc h
      exact ih _ (fun x hx => hc x (List.mem_cons_of_mem _ hx))
        (stuck_step s op i (hc op List.mem_cons_self) h)
  rw [run_append]
  exact key ops _ hops (by simp [run, step, start, put])

/-- What can be said of a wait whose callback was in time. -/
theorem served_step (s : S) (op : Op) (i : Nat)
    (h : (∃ a, (s.w i).pc = .ended a) ∨ ((s.w i).pc = .waiting ∧ ((s.w i).cb = .listed → s.fut = none))) :
    (∃ a, ((step s op).w i).pc = .ended a) ∨
      (((step s op).w i).pc = .waiting ∧ (((step s op).w i).cb = .listed → (step s op).fut = none)) := by
  cases op <;> unfold step <;> dsimp only <;> (repeat' split) <;> (try dsimp only [put]) <;>
    first | exact h | grind

/-- **C271, part.** A wait that waits with its callback added to a future still pending goes on when
the future is completed: it has ended, or it has been told, or its callback is in the queue of the
future's loop, and when that is run it is told. -/
theorem C271_served_partial (before ops : List Op) (i : Nat)
    (hp : ((run start before).w i).pc = .waiting) (hf : (run start before).fut = none)
    (hd : (run start (before ++ ops)).fut ≠ none) :
    (∃ a, ((run start (before ++ ops)).w i).pc = .ended a) ∨
      ((run start (before ++ ops)).w i).waiter ≠ none ∨
      (((run start (before ++ ops)).w i).cb = .ready ∧
        ((step (run start (before ++ ops)) (.runCb i)).w i).waiter = some true) := by
  have key : ∀ (ops : List Op) (s : S), Inv s →
      ((∃ a, (s.w i).pc = .ended a) ∨ ((s.w i).pc = .waiting ∧ ((s.w i).cb = .listed → s.fut = none))) →
      ((∃ a, ((run s ops).w i).pc = .ended a) ∨
        (((run s ops).w i).pc = .waiting ∧ (((run s ops).w i).cb = .listed → (run s ops).fut = none))) := by
    intro ops
    induction ops with
    | nil => intro s _ h; exact h
    | cons op ops ih => intro s h0 h; exact ih _ (inv_step s op h0) (served_step s op i h)
  rw [run_append] at hd ⊢
  have hi := inv_run before start inv_start
  have hi' := inv_run ops _ hi
  rcases key ops _ hi (Or.inr ⟨hp, fun _ => hf⟩) with h | ⟨h1, h2⟩
  · exact Or.inl h
  · generalize run (run start before) ops = s at *
    cases hw : (s.w i).waiter with
    | some b => exact Or.inr (Or.inl (by simp))
    | none =>
      have hcb : (s.w i).cb = .ready := by
        cases hc : (s.w i).cb with
        | ready => rfl
        | none => exact absurd hw (hi'.notold i hc h1)
        | listed => exact absurd (h2 hc) hd
      refine Or.inr (Or.inr ⟨hcb, ?_⟩)
      unfold step
      dsimp only
      rw [hcb]
      dsimp only [put]
      rw [if_pos rfl, hw]
      rfl

/-- **C271, part.** A wait with a timeout that still waits has been told or has its timer scheduled. -/
theorem C271_timed_wait_ends_partial (ops : List Op) (i : Nat)
    (hp : ((run start ops).w i).pc = .waiting) (ht : ((run start ops).w i).timed = true) :
    ((run start ops).w i).waiter ≠ none ∨ ((run start ops).w i).timer = true := by
  cases hw : ((run start ops).w i).waiter with
  | some b => exact Or.inl (by simp)
  | none => exact Or.inr ((inv_run ops start inv_start).armed i hp ht hw)

/-- What a wait whose future is not completed while its callback is appended keeps. -/
def Reached (s : S) (i : Nat) : Prop :=
  (s.w i).pc = .waiting →
    (s.w i).waiter ≠ none ∨ (s.w i).cb = .ready ∨ ((s.w i).cb = .listed ∧ s.fut = none)

theorem reached_step (s : S) (op : Op) (i : Nat) (hn : ¬ ((s.w i).pc = .adding ∧ s.fut ≠ none))
    (h : Reached s i) : Reached (step s op) i := by
  unfold Reached at h ⊢
  cases op <;> unfold step <;> dsimp only <;> (try unfold setPending) <;>
    (try unfold removed) <;> (repeat' split) <;> (try dsimp only [put]) <;> first | exact h | grind

/-- **C271, part.** Only a completion in the middle of adding the callback is missed: if the future is
never found completed there, a wait for a completed future has been told, or its callback waits to be
run by the loop of the future. -/
theorem C271_served_unless_raced_partial (ops : List Op) (i : Nat)
    (hn : ∀ p, p <+: ops → ¬ (((run start p).w i).pc = .adding ∧ (run start p).fut ≠ none))
    (hp : ((run start ops).w i).pc = .waiting) (hf : (run start ops).fut ≠ none) :
    ((run start ops).w i).waiter ≠ none ∨ ((run start ops).w i).cb = .ready := by
  have key : ∀ (ops : List Op) (s : S),
      (∀ p, p <+: ops → ¬ (((run s p).w i).pc = .adding ∧ (run s p).fut ≠ none)) →
      Reached s i → Reached (run s ops) i := by
    intro ops
    induction ops with
    | nil => intro s _ h; exact h
    | cons op ops ih =>
      intro s hn h
      refine ih _ (fun p hp => hn (op :: p) ?_) (reached_step s op i (hn [] (List.nil_prefix)) h)
      exact (List.cons_prefix_cons).2 ⟨rfl, hp⟩
  rcases key ops start hn (by intro h; cases h) hp with h | h | h
  · exact Or.inl h
  · exact Or.inr h
  · exact absurd h.2 hf

example :
    let s := run start [.begin 1 false, .complete 4, .addCheck 1]
    (s.w 1).pc = .waiting ∧ (s.w 1).cb = .ready ∧ ((step (step s (.runCb 1)) (.resume 1)).w 1).pc = .ended (.result 4) := by
  decide

/-- **C271, part.** A wait that has been told ends when its task is continued. -/
theorem C271_told_wait_ends_partial (s : S) (i : Nat) (hp : (s.w i).pc = .waiting)
    (hw : (s.w i).waiter ≠ none) : ∃ a, ((step s (.resume i)).w i).pc = .ended a := by
  unfold step
  dsimp only
  rw [hp]
  cases h : (s.w i).waiter with
  | none => exact absurd h hw
  | some b => cases b <;> dsimp only [put] <;> rw [if_pos rfl] <;> exact ⟨_, rfl⟩

example :
    let s := run start [.begin 1 false, .addCheck 1, .append 1]
    (s.w 1).pc = .waiting ∧ s.fut = none ∧ ((run s [.complete 3]).w 1).cb = .ready := by decide

/-! ## C272 -/

/-- **C272.** A wait that has ended, however, has no callback in the list of the future. -/
theorem C272_no_callback_left (ops : List Op) (i : Nat) (a : Answer)
    (h : ((run start ops).w i).pc = .ended a) : ((run start ops).w i).cb ≠ .listed :=
  (inv_run ops start inv_start).behind i a h

theorem ended_step (s : S) (op : Op) (i : Nat) (a : Answer) (h : (s.w i).pc = .ended a) :
    ((step s op).w i).pc = .ended a := by
  cases op <;> unfold step <;> dsimp only <;> (repeat' split) <;> (try dsimp only [put]) <;>
    first | exact h | grind

/-- **C272.** Callbacks and timers that come late do not change how a wait ended. -/
theorem C272_answer_stays (before ops : List Op) (i : Nat) (a : Answer)
    (h : ((run start before).w i).pc = .ended a) : ((run start (before ++ ops)).w i).pc = .ended a := by
  rw [run_append]
  generalize run start before = s at h
  induction ops generalizing s with
  | nil => exact h
  | cons op ops ih => exact ih _ (ended_step s op i a h)

example :
    let s := run start [.begin 1 true, .addCheck 1, .append 1, .fire 1, .complete 4, .resume 1]
    (s.w 1).pc = .ended .timeout ∧ (s.w 1).cb = .ready ∧ ((run s [.runCb 1]).w 1).pc = .ended .timeout := by
  decide

end Verif.WrapAsync
