import Verif.Timeouts.Model
/-! Theorems about `repeat_timeout`, `sleep` and `apply_timeout`. -/
namespace Verif.Timeouts

/-! ## Specification -/

/-- Time passed in a run. -/
def passed : List Op → Nat
  | [] => 0
  | .tick d :: ops => d + passed ops
  | _ :: ops => passed ops

/-- The begin of the current iteration, when the clock is `t` and it began at `b` before. -/
def began (t b : Nat) : List Op → Nat
  | [] => b
  | .tick d :: ops => began (t + d) b ops
  | .next :: ops => began t t ops
  | _ :: ops => began t b ops

/-- When the current iteration began: the time of the last `__next__`, or else of the creation. -/
def iterationBegan (created : Nat) (ops : List Op) : Nat := began created created ops

/-- The loop runs the timer before time passes its deadline. -/
def Punctual (s : Rep) : List Op → Prop
  | [] => True
  | op :: ops => (∀ d, op = .tick d → ∀ due, s.handle = some due → s.now + d ≤ due) ∧ Punctual (s.step op).1 ops

/-! ## The invariant -/

theorem run_append (s : Rep) (xs ys : List Op) : s.run (xs ++ ys) = (s.run xs).run ys := by
  induction xs generalizing s with
  | nil => rfl
  | cons x xs ih => exact ih _

/-- The state together with its clock and the begin of the iteration. -/
structure Inv (s : Rep) (t b : Nat) : Prop where
  clock : s.now = t
  began : b ≤ t
  /-- the deadline of the timer is at most that of the iteration -/
  early : ∀ d, s.handle = some d → d ≤ b + s.timeout
  /-- an iteration begun since the timer was set is remembered -/
  set : s.inside = true → s.lastSet ≠ 0 → s.lastSet = b
  unset : s.inside = true → s.lastSet = 0 → ∀ d, s.handle = some d → d = b + s.timeout
  armed : s.inside = true → s.timedOut = false → s.running = true → s.handle ≠ none
  outside : s.inside = false → s.handle = none

theorem inv_new (now res timeout : Nat) : Inv (Rep.new now res timeout) now now where
  clock := rfl
  began := Nat.le_refl _
  early := by intro d h; simp only [Rep.new, Option.some.injEq] at h ⊢; omega
  set := by intro _ h; exact absurd rfl h
  unset := by intro _ _ d h; simp only [Rep.new, Option.some.injEq] at h ⊢; omega
  armed := by intro _ _ _ h; cases h
  outside := by intro h; cases h

theorem step_timeout (s : Rep) (op : Op) : (s.step op).1.timeout = s.timeout ∧ (s.step op).1.resolution = s.resolution := by
  cases op with
  | tick d => exact ⟨rfl, rfl⟩
  | next => simp only [Rep.step]; split <;> exact ⟨rfl, rfl⟩
  | fire =>
    simp only [Rep.step, Rep.call]
    split
    · exact ⟨rfl, rfl⟩
    · split
      · split <;> exact ⟨rfl, rfl⟩
      · exact ⟨rfl, rfl⟩
  | stop => exact ⟨rfl, rfl⟩
  | exit l => simp only [Rep.step]; split <;> exact ⟨rfl, rfl⟩

theorem run_timeout (ops : List Op) : ∀ s : Rep, (s.run ops).timeout = s.timeout ∧ (s.run ops).resolution = s.resolution := by
  induction ops with
  | nil => intro s; exact ⟨rfl, rfl⟩
  | cons op ops ih => intro s; rw [Rep.run, (ih _).1, (ih _).2]; exact step_timeout s op

theorem step_inv {s : Rep} {t b : Nat} (h : Inv s t b) (op : Op) :
    Inv (s.step op).1 (t + passed [op]) (began t b [op]) := by
  have hc := h.clock
  have hb := h.began
  cases op with
  | tick d =>
    exact ⟨by show s.now + d = t + (d + 0); omega, by show b ≤ t + (d + 0); omega, h.early, h.set, h.unset, h.armed, h.outside⟩
  | next =>
    simp only [Rep.step]
    show Inv _ t t
    by_cases hi : s.inside = true
    · rw [if_pos hi]
      refine ⟨hc, Nat.le_refl _, ?_, fun _ _ => hc, ?_, fun a b c => h.armed hi b c, fun a => h.outside a⟩
      · intro d hd
        have := h.early d hd
        show d ≤ t + s.timeout
        omega
      · intro _ hz d hd
        have hz : s.now = 0 := hz
        have := h.early d hd
        show d = t + s.timeout
        by_cases hl : s.lastSet = 0
        · have := h.unset hi hl d hd
          omega
        · have := h.set hi hl
          omega
    · have hi : s.inside = false := by cases hx : s.inside <;> simp_all
      rw [if_neg (by rw [hi]; decide)]
      have ho := h.outside hi
      exact ⟨hc, Nat.le_refl _, fun d hd => absurd hd (by rw [ho]; exact fun a => by cases a), fun a => absurd a (by rw [hi]; decide),
        fun a => absurd a (by rw [hi]; decide), h.armed, h.outside⟩
  | fire =>
    simp only [Rep.step]
    cases hh : s.handle with
    | none => exact ⟨hc, hb, h.early, h.set, h.unset, h.armed, h.outside⟩
    | some due =>
      have hi : s.inside = true := by
        cases hx : s.inside with
        | true => rfl
        | false => rw [h.outside hx] at hh; cases hh
      dsimp only
      split
      · unfold Rep.call
        split
        · rename_i hl
          have hs := h.set hi hl
          refine ⟨hc, hb, ?_, fun _ a => absurd rfl a, ?_, ?_, fun a => absurd hi (by rw [a]; decide)⟩
          · intro d hd
            dsimp only at hd ⊢
            split at hd
            · cases hd; show s.lastSet + s.timeout ≤ b + s.timeout; omega
            · cases hd
          · intro _ _ d hd
            dsimp only at hd ⊢
            split at hd
            · cases hd; show s.lastSet + s.timeout = b + s.timeout; omega
            · cases hd
          · intro _ _ hr
            dsimp only at hr ⊢
            rw [if_pos hr]
            exact fun hx => by cases hx
        · rename_i hl
          have hl : s.lastSet = 0 := Classical.not_not.1 hl
          exact ⟨hc, hb, fun d hd => by (dsimp only at hd; cases hd), fun _ a => absurd hl a, fun _ _ d hd => by (dsimp only at hd; cases hd),
            fun _ a => by (dsimp only at a; cases a), fun _ => rfl⟩
      · exact ⟨hc, hb, h.early, h.set, h.unset, h.armed, h.outside⟩
  | stop =>
    exact ⟨hc, hb, h.early, h.set, h.unset, fun _ _ a => by (simp only [Rep.step] at a; cases a), h.outside⟩
  | exit l =>
    simp only [Rep.step]
    split
    · exact ⟨hc, hb, fun d hd => by (dsimp only at hd; cases hd), fun a => by (dsimp only at a; cases a), fun a => by (dsimp only at a; cases a),
        fun a => by (dsimp only at a; cases a), fun _ => rfl⟩
    · exact ⟨hc, hb, h.early, h.set, h.unset, h.armed, h.outside⟩

theorem run_inv (ops : List Op) : ∀ {s : Rep} {t b : Nat}, Inv s t b → Inv (s.run ops) (t + passed ops) (began t b ops) := by
  induction ops with
  | nil => intro s t b h; exact h
  | cons op ops ih =>
    intro s t b h
    have := ih (step_inv h op)
    have hp : passed (op :: ops) = passed [op] + passed ops := by cases op <;> simp [passed]
    have hb : began t b (op :: ops) = began (t + passed [op]) (began t b [op]) ops := by cases op <;> rfl
    rw [hp, hb, ← Nat.add_assoc]
    exact this

/-! ## C144: never early -/

/-- Whatever happened before: the timer cancels the task only if the current iteration is at least as old as the timeout (less than the
resolution of the clock may be missing, as for every timer of the loop). -/
theorem C144_never_early (now res timeout : Nat) (ops : List Op) (op : Op)
    (h : (((Rep.new now res timeout).run ops).step op).2 = .cancels) :
    iterationBegan now ops + timeout < now + passed ops + res ∨ iterationBegan now ops + timeout ≤ now + passed ops := by
  have hi := run_inv ops (inv_new now res timeout)
  have ht := run_timeout ops (Rep.new now res timeout)
  generalize (Rep.new now res timeout).run ops = s at h hi ht
  have hres : s.resolution = res := ht.2
  have htim : s.timeout = timeout := ht.1
  have hin : s.handle ≠ none → s.inside = true := by
    intro hh
    cases hx : s.inside with
    | true => rfl
    | false => exact absurd (hi.outside hx) hh
  cases op with
  | tick d => cases h
  | next => simp only [Rep.step] at h; split at h <;> cases h
  | stop => cases h
  | exit l => simp only [Rep.step] at h; split at h <;> (try split at h) <;> cases h
  | fire =>
    simp only [Rep.step] at h
    cases hh : s.handle with
    | none => rw [hh] at h; cases h
    | some due =>
      rw [hh] at h
      dsimp only at h
      split at h
      · rename_i hd
        unfold Rep.call at h
        split at h
        · cases h
        · rename_i hl
          have hl : s.lastSet = 0 := Classical.not_not.1 hl
          have := hi.unset (hin (by rw [hh]; exact fun a => by cases a)) hl due hh
          have hn := hi.clock
          unfold iterationBegan
          omega
      · cases h

/-- Created at 7 with a timeout of 10 and a clock of resolution 1; an iteration begins at 12, the timer runs at 17 and is set again to 22, where it cancels. -/
example : (Rep.new 7 1 10).outs [.tick 5, .next, .tick 5, .fire, .tick 4, .fire, .tick 1, .fire] =
    [.unit, .unit, .unit, .unit, .unit, .disabled, .unit, .cancels] := by decide
example : iterationBegan 7 [.tick 5, .next, .tick 5, .fire, .tick 4, .fire, .tick 1] = 12 := by decide

/-! ## C145: in time -/

/-- As long as the block is not left, the timer has not struck and the loop runs, the timer is set, at the latest to the end of the current iteration's
time. -/
theorem C145_armed_partial (now res timeout : Nat) (ops : List Op) (hin : ((Rep.new now res timeout).run ops).inside = true)
    (ht : ((Rep.new now res timeout).run ops).timedOut = false) (hr : ((Rep.new now res timeout).run ops).running = true) :
    ∃ due, ((Rep.new now res timeout).run ops).handle = some due ∧ due ≤ iterationBegan now ops + timeout := by
  have hi := run_inv ops (inv_new now res timeout)
  have htt := (run_timeout ops (Rep.new now res timeout)).1
  cases hh : ((Rep.new now res timeout).run ops).handle with
  | none => exact absurd hh (hi.armed hin ht hr)
  | some due =>
    refine ⟨due, rfl, ?_⟩
    have := hi.early due hh
    rw [htt] at this
    exact this

theorem punctual_before (ops : List Op) : ∀ {s : Rep} {t b : Nat}, Inv s t b → Punctual s ops → (∀ d, s.handle = some d → s.now ≤ d) →
    ∀ d, (s.run ops).handle = some d → (s.run ops).now ≤ d := by
  induction ops with
  | nil => intro s t b _ _ h; exact h
  | cons op ops ih =>
    intro s t b hi hp h
    refine ih (step_inv hi op) hp.2 ?_
    cases op with
    | tick d => exact fun due hd => hp.1 d rfl due hd
    | next => simp only [Rep.step]; split <;> exact h
    | stop => exact h
    | exit l =>
      simp only [Rep.step]
      split
      · intro d hd; dsimp only at hd; cases hd
      · exact h
    | fire =>
      simp only [Rep.step]
      cases hh : s.handle with
      | none => dsimp only; exact h
      | some due =>
        have hin : s.inside = true := by
          cases hx : s.inside with
          | true => rfl
          | false => rw [hi.outside hx] at hh; cases hh
        dsimp only
        split
        · unfold Rep.call
          split
          · rename_i hl
            intro d hd
            dsimp only at hd
            split at hd
            · cases hd
              have h1 := h due hh
              have h2 := hi.early due hh
              have h3 := hi.set hin hl
              show s.now ≤ s.lastSet + s.timeout
              omega
            · cases hd
          · intro d hd; dsimp only at hd; cases hd
        · exact h

/-- On a loop which runs timers before their deadline is passed: an iteration which was not interrupted is not older than the timeout. -/
theorem C145_in_time_partial (now res timeout : Nat) (ops : List Op) (hp : Punctual (Rep.new now res timeout) ops)
    (hin : ((Rep.new now res timeout).run ops).inside = true)
    (ht : ((Rep.new now res timeout).run ops).timedOut = false) (hr : ((Rep.new now res timeout).run ops).running = true) :
    now + passed ops ≤ iterationBegan now ops + timeout := by
  have hn := punctual_before ops (inv_new now res timeout) hp (by intro d hd; simp only [Rep.new, Option.some.injEq] at hd ⊢; omega)
  obtain ⟨due, hh, hd⟩ := C145_armed_partial now res timeout ops hin ht hr
  have := hn due hh
  have hc := (run_inv ops (inv_new now res timeout)).clock
  omega

/-- Punctual: the timer is set to 15, an iteration begins at 8; at 15 the timer is set to 18, where it cancels. -/
example : Punctual (Rep.new 5 1 10) [.tick 3, .next, .tick 7, .fire, .tick 3] := by
  simp [Punctual, Rep.new, Rep.step, Rep.call]
example : (((Rep.new 5 1 10).run [.tick 3, .next, .tick 7, .fire, .tick 3]).step .fire).2 = .cancels := by decide

/-- Violated: the code of the block may catch the `CancelledError` (`except CancelledError: continue`, or `async with` which retries) and go on. The timer is not set again:
no later iteration is interrupted, however long it is, although it is still within the block. -/
theorem C145_violated (now res timeout wait : Nat) :
    let ops := [.tick timeout, .fire, .next, .tick wait, .fire]
    Punctual (Rep.new now res timeout) ops ∧ ((Rep.new now res timeout).run ops).inside = true ∧ ((Rep.new now res timeout).run ops).running = true ∧
      (Rep.new now res timeout).outs ops = [.unit, .cancels, .unit, .unit, .disabled] ∧ ((Rep.new now res timeout).run ops).handle = none ∧
      iterationBegan now ops + wait = now + passed ops := by
  simp [Punctual, Rep.new, Rep.step, Rep.call, Rep.run, Rep.outs, iterationBegan, began, passed, Nat.add_assoc]

/-! ## C146: leaving -/

/-- Whether the timer has cancelled the task in a run. -/
def struck (s : Rep) (ops : List Op) : Prop := Out.cancels ∈ s.outs ops

theorem timedOut_iff (ops : List Op) : ∀ s : Rep, (s.run ops).timedOut = true ↔ s.timedOut = true ∨ struck s ops := by
  induction ops with
  | nil => intro s; simp [Rep.run, struck, Rep.outs]
  | cons op ops ih =>
    intro s
    have h1 : (s.step op).1.timedOut = true ↔ s.timedOut = true ∨ (s.step op).2 = .cancels := by
      cases op with
      | tick d => simp [Rep.step]
      | next => simp only [Rep.step]; split <;> simp
      | stop => simp [Rep.step]
      | exit l => simp only [Rep.step]; split <;> (try split) <;> simp
      | fire =>
        simp only [Rep.step]
        split
        · simp
        · split
          · unfold Rep.call; split <;> simp
          · simp
    rw [Rep.run, ih, h1]
    simp only [struck, Rep.outs, List.mem_cons, or_assoc, eq_comm]

/-- `TimeoutError` is raised exactly if the block is left with a `CancelledError` and the timer has struck before. -/
theorem C146_exit_partial (now res timeout : Nat) (ops : List Op) (l : Leave) (hin : ((Rep.new now res timeout).run ops).inside = true) :
    (((Rep.new now res timeout).run ops).step (.exit l)).2 =
      (if (l = .cancelledByTimer ∨ l = .cancelledByOther) ∧ ((Rep.new now res timeout).run ops).timedOut = true then .timeoutError else .passes) ∧
    (((Rep.new now res timeout).run ops).timedOut = true ↔ struck (Rep.new now res timeout) ops) := by
  constructor
  · simp only [Rep.step]
    rw [if_pos hin]
    cases l <;> simp [Leave.isCancelledError]
  · rw [timedOut_iff]
    simp [Rep.new]

/-- So: left by the timer's cancellation, it raises `TimeoutError`; if the timer has not struck everything passes through unchanged; and what is
not a `CancelledError` always does. -/
theorem C146_outcomes_partial (now res timeout : Nat) (ops : List Op) (hin : ((Rep.new now res timeout).run ops).inside = true) :
    (struck (Rep.new now res timeout) ops → (((Rep.new now res timeout).run ops).step (.exit .cancelledByTimer)).2 = .timeoutError) ∧
    (¬ struck (Rep.new now res timeout) ops → ∀ l, (((Rep.new now res timeout).run ops).step (.exit l)).2 = .passes) ∧
    (((Rep.new now res timeout).run ops).step (.exit .normal)).2 = .passes ∧
    (((Rep.new now res timeout).run ops).step (.exit .other)).2 = .passes := by
  refine ⟨?_, ?_, ?_, ?_⟩
  · intro h
    have := C146_exit_partial now res timeout ops .cancelledByTimer hin
    rw [this.1, if_pos ⟨Or.inl rfl, this.2.2 h⟩]
  · intro h l
    have := C146_exit_partial now res timeout ops l hin
    rw [this.1, if_neg (fun a => h (this.2.1 a.2))]
  · rw [(C146_exit_partial now res timeout ops .normal hin).1, if_neg (by simp)]
  · rw [(C146_exit_partial now res timeout ops .other hin).1, if_neg (by simp)]

example : (((Rep.new 5 1 10).run [.tick 10, .fire]).step (.exit .cancelledByTimer)).2 = .timeoutError := by decide
example : (((Rep.new 5 1 10).run [.tick 8, .next, .tick 2, .fire]).step (.exit .cancelledByOther)).2 = .passes := by decide

/-- After the block is left the task is never cancelled by it, whatever happens. -/
theorem C146_silent_after (now res timeout : Nat) (ops after : List Op) (l : Leave) :
    Out.cancels ∉ (((Rep.new now res timeout).run (ops ++ [.exit l]))).outs after := by
  have hi : (((Rep.new now res timeout).run (ops ++ [.exit l]))).inside = false := by
    rw [run_append]
    simp only [Rep.run, Rep.step]
    split
    · rfl
    · rename_i h
      cases hx : ((Rep.new now res timeout).run ops).inside
      · rfl
      · exact absurd hx h
  have hh := (run_inv (ops ++ [.exit l]) (inv_new now res timeout)).outside hi
  generalize (Rep.new now res timeout).run (ops ++ [.exit l]) = s at hi hh
  induction after generalizing s with
  | nil => intro h; cases h
  | cons op after ih =>
    intro h
    simp only [Rep.outs, List.mem_cons] at h
    have hs : (s.step op).2 ≠ .cancels ∧ (s.step op).1.inside = false ∧ (s.step op).1.handle = none := by
      cases op with
      | tick d => exact ⟨nofun, hi, hh⟩
      | next => simp [Rep.step, hi, hh]
      | fire => simp [Rep.step, hi, hh]
      | stop => exact ⟨nofun, hi, hh⟩
      | exit l => simp [Rep.step, hi, hh]
    rcases h with h | h
    · exact hs.1 h.symm
    · exact ih _ hs.2.1 hs.2.2 h

example : (Rep.new 5 1 10).outs [.tick 10, .next, .exit .normal, .tick 30, .fire] = [.unit, .unit, .passes, .unit, .disabled] := by decide

/-- Violated: the block went on after the timer had struck; somebody else's cancellation, however much later, is turned into a `TimeoutError`. -/
theorem C146_violated (now res timeout wait : Nat) :
    (Rep.new now res timeout).outs [.tick timeout, .fire, .next, .tick wait, .exit .cancelledByOther] = [.unit, .cancels, .unit, .unit, .timeoutError] := by
  simp [Rep.new, Rep.outs, Rep.step, Rep.call, Leave.isCancelledError]

end Verif.Timeouts
