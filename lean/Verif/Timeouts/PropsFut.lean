import Verif.Timeouts.Model
/-! Theorems about `sleep` and `Future.apply_timeout`. -/
namespace Verif.Timeouts.Fut

/-! ## Specification -/

/-- Time passed in a run. -/
def passed : List FOp → Nat
  | [] => 0
  | .tick d :: ops => d + passed ops
  | _ :: ops => passed ops

/-- A timer for the time `due` may run at time `now`. -/
def MayRun (due now res : Nat) : Prop := due < now + res ∨ due ≤ now

theorem run_append (s : Fut) (xs ys : List FOp) : s.run (xs ++ ys) = (s.run xs).run ys := by
  induction xs generalizing s with
  | nil => rfl
  | cons x xs ih => exact ih _

theorem set_now (s : Fut) (r : Res) : (s.set r).1.now = s.now ∧ (s.set r).1.resolution = s.resolution ∧ (s.set r).1.timers = s.timers ∧
    (s.set r).1.cancellers = s.cancellers ∧ (s.set r).1.running = s.running := by
  unfold Fut.set; split <;> exact ⟨rfl, rfl, rfl, rfl, rfl⟩

theorem set_res (s : Fut) (r : Res) : (s.set r).1.res = some (s.res.getD r) := by
  unfold Fut.set
  cases h : s.res with
  | none => rfl
  | some x => exact h

theorem set_snd (s : Fut) (r : Res) : (s.set r).2 = s.res.isNone := by
  unfold Fut.set
  cases h : s.res <;> rfl

theorem step_now (s : Fut) (op : FOp) : (s.step op).1.now = s.now + passed [op] ∧ (s.step op).1.resolution = s.resolution := by
  cases op with
  | tick d => exact ⟨rfl, rfl⟩
  | complete n => exact ⟨(set_now _ _).1, (set_now _ _).2.1⟩
  | applyTimeout t =>
    simp only [Fut.step]
    split
    · exact ⟨(set_now _ _).1, (set_now _ _).2.1⟩
    · split
      · exact ⟨rfl, rfl⟩
      · split <;> exact ⟨rfl, rfl⟩
  | fire i =>
    simp only [Fut.step]
    split
    · exact ⟨rfl, rfl⟩
    · split
      · exact ⟨(set_now _ _).1, (set_now _ _).2.1⟩
      · exact ⟨rfl, rfl⟩
  | callback i => simp only [Fut.step]; split <;> exact ⟨rfl, rfl⟩
  | stop => exact ⟨rfl, rfl⟩

theorem run_now (ops : List FOp) : ∀ s : Fut, (s.run ops).now = s.now + passed ops ∧ (s.run ops).resolution = s.resolution := by
  induction ops with
  | nil => intro s; exact ⟨rfl, rfl⟩
  | cons op ops ih =>
    intro s
    have hp : passed (op :: ops) = passed [op] + passed ops := by cases op <;> simp [passed]
    rw [Fut.run, (ih _).1, (ih _).2, (step_now s op).1, (step_now s op).2, hp]
    exact ⟨by omega, rfl⟩

/-! ## Once done -/

theorem step_done {s : Fut} {r : Res} (h : s.res = some r) (op : FOp) : (s.step op).1.res = some r := by
  cases op with
  | tick d => exact h
  | complete n => show (s.set _).1.res = _; rw [set_res, h]; rfl
  | applyTimeout t =>
    simp only [Fut.step]
    split
    · rw [set_res, h]; rfl
    · split
      · exact h
      · split <;> exact h
  | fire i =>
    simp only [Fut.step]
    split
    · exact h
    · split
      · rw [set_res]; dsimp only; rw [h]; rfl
      · exact h
  | callback i => simp only [Fut.step]; split <;> exact h
  | stop => exact h

theorem run_done (ops : List FOp) : ∀ {s : Fut} {r : Res}, s.res = some r → (s.run ops).res = some r := by
  induction ops with
  | nil => intro s r h; exact h
  | cons op ops ih => intro s r h; exact ih (step_done h op)

/-! ## Timers and their cancellers -/

/-- Each living timer has its canceller. -/
def Covered (s : Fut) : Prop := ∀ t ∈ s.timers, t ∈ s.cancellers

theorem mem_eraseIdx_of_ne {α : Type} {l : List α} {i : Nat} {x y : α} (hy : l[i]? = some y) (hx : x ∈ l) (hne : x ≠ y) :
    x ∈ l.eraseIdx i := by
  obtain ⟨j, hj⟩ := List.mem_iff_getElem?.1 hx
  rw [List.mem_eraseIdx_iff_getElem?]
  refine ⟨j, ?_, hj⟩
  intro h
  subst h
  rw [hj] at hy
  exact hne (Option.some.inj hy)

theorem step_covered {s : Fut} (h : Covered s) (op : FOp) : Covered (s.step op).1 := by
  cases op with
  | tick d => exact h
  | complete n =>
    intro t ht
    have hs := set_now s (.given n)
    rw [show (s.step (.complete n)).1 = (s.set (.given n)).1 from rfl, hs.2.2.1] at ht
    rw [show (s.step (.complete n)).1 = (s.set (.given n)).1 from rfl, hs.2.2.2.1]
    exact h t ht
  | applyTimeout t =>
    simp only [Fut.step]
    split
    · intro u hu
      rw [(set_now _ _).2.2.1] at hu
      rw [(set_now _ _).2.2.2.1]
      exact h u hu
    · split
      · exact h
      · split
        · intro u hu
          rcases List.mem_append.1 hu with hu | hu
          · exact List.mem_append_left _ (h u hu)
          · exact List.mem_append_right _ hu
        · exact h
  | fire i =>
    simp only [Fut.step]
    split
    · exact h
    · split
      · intro u hu
        rw [(set_now _ _).2.2.1] at hu
        rw [(set_now _ _).2.2.2.1]
        exact h u (List.mem_of_mem_eraseIdx hu)
      · exact h
  | callback i =>
    simp only [Fut.step]
    split
    · rename_i r timer hr hc
      intro u hu
      have hu := List.mem_filter.1 hu
      exact mem_eraseIdx_of_ne hc (h u hu.1) (by simpa using hu.2)
    · exact h
  | stop => exact h

theorem run_covered (ops : List FOp) : ∀ {s : Fut}, Covered s → Covered (s.run ops) := by
  induction ops with
  | nil => intro s h; exact h
  | cons op ops ih => intro s h; exact ih (step_covered h op)

/-! ## A timer stays until the future is done -/

theorem step_kept {s : Fut} {t : Timer} (h : t ∈ s.timers) (op : FOp) (hp : (s.step op).1.res = none) : t ∈ (s.step op).1.timers := by
  have hs : s.res = none := by
    cases hr : s.res with
    | none => rfl
    | some r => rw [step_done hr op] at hp; cases hp
  cases op with
  | tick d => exact h
  | complete n =>
    rw [show (s.step (.complete n)).1 = (s.set (.given n)).1 from rfl, set_res] at hp
    cases hp
  | applyTimeout t =>
    simp only [Fut.step] at hp ⊢
    by_cases h0 : t ≤ 0
    · rw [if_pos h0, set_res] at hp; cases hp
    · rw [if_neg h0, hs]
      dsimp only
      split
      · exact List.mem_append_left _ h
      · exact h
  | fire i =>
    simp only [Fut.step] at hp ⊢
    cases ht : s.timers[i]? with
    | none => exact h
    | some u =>
      rw [ht] at hp
      dsimp only at hp ⊢
      split
      · rename_i hd
        rw [if_pos hd, set_res] at hp
        cases hp
      · exact h
  | callback i =>
    simp only [Fut.step]
    rw [hs]
    exact h
  | stop => exact h

theorem run_kept (ops : List FOp) : ∀ {s : Fut} {t : Timer}, t ∈ s.timers → (s.run ops).res = none → t ∈ (s.run ops).timers := by
  induction ops with
  | nil => intro s t h _; exact h
  | cons op ops ih =>
    intro s t h hp
    refine ih (step_kept h op ?_) hp
    cases hr : (s.step op).1.res with
    | none => rfl
    | some r => rw [Fut.run, run_done ops hr] at hp; cases hp

/-! ## Where a result comes from -/

/-- Everything in the timers and the result were announced: `S`: when the sleep ends, `T`: when a timeout ends. -/
structure From (s : Fut) (S T : Nat → Prop) : Prop where
  sleeping : ∀ t ∈ s.timers, t.kind = .sleep → S t.due
  timing : ∀ t ∈ s.timers, t.kind = .timeout → T t.due
  slept : s.res = some .none → ∃ due, S due ∧ MayRun due s.now s.resolution
  timed : s.res = some .timeout → ∃ due, T due ∧ MayRun due s.now s.resolution

theorem From.mono {s : Fut} {S T S' T' : Nat → Prop} (h : From s S T) (hS : ∀ d, S d → S' d) (hT : ∀ d, T d → T' d) : From s S' T' :=
  ⟨fun t ht hk => hS _ (h.sleeping t ht hk), fun t ht hk => hT _ (h.timing t ht hk),
    fun hr => (h.slept hr).imp fun _ hd => ⟨hS _ hd.1, hd.2⟩, fun hr => (h.timed hr).imp fun _ hd => ⟨hT _ hd.1, hd.2⟩⟩

/-- The deadline an operation announces at time `now`. -/
def announced (now : Nat) (op : FOp) (due : Nat) : Prop :=
  ∃ t, op = .applyTimeout t ∧ due = now + t.toNat

theorem getD_eq {α : Type} {o : Option α} {a b : α} (h : some (o.getD a) = some b) : o = some b ∨ o = none ∧ a = b := by
  cases o with
  | none => exact Or.inr ⟨rfl, Option.some.inj h⟩
  | some x => exact Or.inl (by rw [← h]; rfl)

theorem step_from {s : Fut} {S T : Nat → Prop} (h : From s S T) (op : FOp) :
    From (s.step op).1 S (fun d => T d ∨ announced s.now op d) := by
  have h' := h.mono (S' := S) (T' := fun d => T d ∨ announced s.now op d) (fun _ hd => hd) (fun _ hd => Or.inl hd)
  cases op with
  | tick d =>
    refine ⟨h'.sleeping, h'.timing, fun hr => ?_, fun hr => ?_⟩
    · obtain ⟨due, hd, hm⟩ := h'.slept hr
      exact ⟨due, hd, by unfold MayRun at hm ⊢; show due < s.now + d + s.resolution ∨ due ≤ s.now + d; omega⟩
    · obtain ⟨due, hd, hm⟩ := h'.timed hr
      exact ⟨due, hd, by unfold MayRun at hm ⊢; show due < s.now + d + s.resolution ∨ due ≤ s.now + d; omega⟩
  | complete n =>
    have hs := set_now s (.given n)
    rw [show (s.step (.complete n)).1 = (s.set (.given n)).1 from rfl]
    refine ⟨by rw [hs.2.2.1]; exact h'.sleeping, by rw [hs.2.2.1]; exact h'.timing, fun hr => ?_, fun hr => ?_⟩
    · rw [set_res] at hr
      rcases getD_eq hr with hr | ⟨_, hr⟩
      · rw [hs.1, hs.2.1]; exact h'.slept hr
      · cases hr
    · rw [set_res] at hr
      rcases getD_eq hr with hr | ⟨_, hr⟩
      · rw [hs.1, hs.2.1]; exact h'.timed hr
      · cases hr
  | applyTimeout t =>
    simp only [Fut.step]
    by_cases h0 : t ≤ 0
    · rw [if_pos h0]
      have hs := set_now s .timeout
      refine ⟨by rw [hs.2.2.1]; exact h'.sleeping, by rw [hs.2.2.1]; exact h'.timing, fun hr => ?_, fun hr => ?_⟩
      · rw [set_res] at hr
        rcases getD_eq hr with hr | ⟨_, hr⟩
        · rw [hs.1, hs.2.1]; exact h'.slept hr
        · cases hr
      · rw [set_res] at hr
        rcases getD_eq hr with hr | ⟨_, _⟩
        · rw [hs.1, hs.2.1]; exact h'.timed hr
        · refine ⟨s.now + t.toNat, Or.inr ⟨t, rfl, rfl⟩, ?_⟩
          rw [hs.1]
          have : t.toNat = 0 := by omega
          exact Or.inr (by omega)
    · rw [if_neg h0]
      split
      · exact h'
      · split
        · refine ⟨?_, ?_, h'.slept, h'.timed⟩
          · intro u hu hk
            rcases List.mem_append.1 hu with hu | hu
            · exact h'.sleeping u hu hk
            · rw [List.mem_singleton.1 hu] at hk; cases hk
          · intro u hu hk
            rcases List.mem_append.1 hu with hu | hu
            · exact h'.timing u hu hk
            · rw [List.mem_singleton.1 hu]; exact Or.inr ⟨t, rfl, rfl⟩
        · exact h'
  | fire i =>
    simp only [Fut.step]
    cases ht : s.timers[i]? with
    | none => exact h'
    | some u =>
      have hu : u ∈ s.timers := List.mem_of_getElem? ht
      dsimp only
      split
      · rename_i hd
        have hs := set_now ({ s with timers := s.timers.eraseIdx i } : Fut) u.kind.res
        refine ⟨?_, ?_, fun hr => ?_, fun hr => ?_⟩
        · rw [hs.2.2.1]
          exact fun v hv hk => h'.sleeping v (List.mem_of_mem_eraseIdx hv) hk
        · rw [hs.2.2.1]
          exact fun v hv hk => h'.timing v (List.mem_of_mem_eraseIdx hv) hk
        · rw [set_res] at hr
          rw [hs.1, hs.2.1]
          rcases getD_eq hr with hr | ⟨_, hr⟩
          · exact h'.slept hr
          · have hk : u.kind = .sleep := by cases hk : u.kind with | sleep => rfl | timeout => rw [hk] at hr; cases hr
            exact ⟨u.due, h'.sleeping u hu hk, hd⟩
        · rw [set_res] at hr
          rw [hs.1, hs.2.1]
          rcases getD_eq hr with hr | ⟨_, hr⟩
          · exact h'.timed hr
          · have hk : u.kind = .timeout := by cases hk : u.kind with | timeout => rfl | sleep => rw [hk] at hr; cases hr
            exact ⟨u.due, h'.timing u hu hk, hd⟩
      · exact h'
  | callback i =>
    simp only [Fut.step]
    split
    · exact ⟨fun v hv hk => h'.sleeping v (List.mem_filter.1 hv).1 hk, fun v hv hk => h'.timing v (List.mem_filter.1 hv).1 hk, h'.slept, h'.timed⟩
    · exact h'
  | stop => exact ⟨h'.sleeping, h'.timing, h'.slept, h'.timed⟩

theorem run_from (ops : List FOp) : ∀ {s : Fut} {S T : Nat → Prop}, From s S T →
    From (s.run ops) S (fun d => T d ∨ ∃ pre t post, ops = pre ++ .applyTimeout t :: post ∧ d = s.now + passed pre + t.toNat) := by
  induction ops with
  | nil => intro s S T h; exact h.mono (fun _ hd => hd) (fun _ hd => Or.inl hd)
  | cons op ops ih =>
    intro s S T h
    refine (ih (step_from h op)).mono (fun _ hd => hd) ?_
    intro d hd
    rcases hd with (hd | ⟨t, ho, hd⟩) | ⟨pre, t, post, ho, hd⟩
    · exact Or.inl hd
    · exact Or.inr ⟨[], t, ops, by rw [ho]; rfl, by simpa [passed] using hd⟩
    · refine Or.inr ⟨op :: pre, t, post, by rw [ho]; rfl, ?_⟩
      have hp : passed (op :: pre) = passed [op] + passed pre := by cases op <;> simp [passed]
      rw [hd, (step_now s op).1, hp]
      omega

/-! ## C147: sleep -/

theorem sleep_from (now res : Nat) (delay : Int) (h : 0 < delay) :
    From (sleep now res delay) (fun d => d = now + delay.toNat) (fun _ => False) := by
  unfold sleep
  rw [if_neg (by omega)]
  refine ⟨?_, ?_, nofun, nofun⟩
  · intro t ht _; rw [List.mem_singleton.1 ht]
  · intro t ht hk; rw [List.mem_singleton.1 ht] at hk; cases hk

/-- A sleep does not end by itself before its time: the future is `None` only when the delay has passed (up to the resolution of the clock). -/
theorem C147_not_early (now res : Nat) (delay : Int) (hd : 0 < delay) (ops : List FOp) (h : ((sleep now res delay).run ops).res = some .none) :
    MayRun (now + delay.toNat) (now + passed ops) res := by
  obtain ⟨due, hdue, hm⟩ := (run_from ops (sleep_from now res delay hd)).slept h
  have hn := run_now ops (sleep now res delay)
  have h0 : (sleep now res delay).now = now ∧ (sleep now res delay).resolution = res := by unfold sleep; split <;> exact ⟨rfl, rfl⟩
  rw [hn.1, hn.2, h0.1, h0.2, hdue] at hm
  exact hm

/-- As long as it is pending its timer is in the loop; running it when it is due completes the future. -/
theorem C147_ends (now res : Nat) (delay : Int) (hd : 0 < delay) (ops : List FOp) (h : ((sleep now res delay).run ops).res = none) :
    ∃ i, (((sleep now res delay).run ops).timers[i]?).map Timer.due = some (now + delay.toNat) ∧
      (MayRun (now + delay.toNat) (now + passed ops) res → (((sleep now res delay).run ops).step (.fire i)).1.res = some .none) := by
  have hmem : (⟨now + delay.toNat, .sleep, 0⟩ : Timer) ∈ ((sleep now res delay).run ops).timers := by
    refine run_kept ops ?_ h
    unfold sleep
    rw [if_neg (by omega)]
    exact List.mem_singleton.2 rfl
  obtain ⟨i, hi⟩ := List.mem_iff_getElem?.1 hmem
  refine ⟨i, by rw [hi]; rfl, ?_⟩
  intro hm
  have hn := run_now ops (sleep now res delay)
  have h0 : (sleep now res delay).now = now ∧ (sleep now res delay).resolution = res := by unfold sleep; split <;> exact ⟨rfl, rfl⟩
  simp only [Fut.step]
  rw [hi]
  dsimp only
  rw [if_pos (by rw [hn.1, hn.2, h0.1, h0.2]; exact hm), set_res]
  dsimp only
  rw [h]
  rfl

/-- Nothing to wait for: a delay which is not positive. -/
theorem C147_zero (now res : Nat) (delay : Int) (hd : delay ≤ 0) : (sleep now res delay).res = some .none ∧ (sleep now res delay).timers = [] := by
  unfold sleep; rw [if_pos hd]; exact ⟨rfl, rfl⟩

/-- Whoever completes the future first decides: neither the timer nor others change it afterwards. -/
theorem C147_first_wins (now res : Nat) (delay : Int) (ops later : List FOp) (r : Res) (h : ((sleep now res delay).run ops).res = some r) :
    ((sleep now res delay).run (ops ++ later)).res = some r := by
  rw [run_append]; exact run_done later h

/-- When the future is done and its callbacks have run, no timer is left in the loop. -/
theorem C147_no_timer_left (now res : Nat) (delay : Int) (ops : List FOp)
    (h : ((sleep now res delay).run ops).cancellers = []) : ((sleep now res delay).run ops).timers = [] := by
  have hc : Covered (sleep now res delay) := by
    unfold sleep
    split
    · intro t ht; cases ht
    · intro t ht; exact ht
  have := run_covered ops hc
  refine List.eq_nil_iff_forall_not_mem.2 fun t ht => ?_
  have := this t ht
  rw [h] at this
  cases this

example : ((sleep 3 1 5).run [.tick 4, .fire 0]).res = none := by decide
example : ((sleep 3 1 5).run [.tick 5, .fire 0]).res = some .none := by decide
example : ((sleep 3 1 5).run [.tick 2, .complete 7, .callback 0, .tick 9, .fire 0]) =
    { now := 14, resolution := 1, res := some (.given 7), timers := [], cancellers := [], fresh := 1 } := by decide

/-! ## C148: apply_timeout -/

/-- It tells whether the future was done already. -/
theorem C148_return (s : Fut) (t : Int) : (s.step (.applyTimeout t)).2 = .int (if s.res.isSome then 0 else 1) := by
  simp only [Fut.step]
  split
  · rw [set_snd]; cases s.res <;> rfl
  · cases hr : s.res with
    | some r => rfl
    | none => dsimp only; split <;> rfl

/-- A future is timed out only by a timeout which was applied before and is over (up to the resolution of the clock). -/
theorem C148_not_early (now res : Nat) (ops : List FOp) (h : ((Fut.new now res).run ops).res = some .timeout) :
    ∃ pre t post, ops = pre ++ .applyTimeout t :: post ∧ MayRun (now + passed pre + t.toNat) (now + passed ops) res := by
  have h0 : From (Fut.new now res) (fun _ => False) (fun _ => False) := ⟨nofun, nofun, nofun, nofun⟩
  obtain ⟨due, hdue, hm⟩ := (run_from ops h0).timed h
  have hn := run_now ops (Fut.new now res)
  rcases hdue with hf | ⟨pre, t, post, ho, hd⟩
  · exact hf.elim
  · refine ⟨pre, t, post, ho, ?_⟩
    rw [hn.1, hn.2, hd] at hm
    exact hm

/-- Applied to a pending future on a running loop: not positive, it is timed out at once; else, as long as the future is pending, the timer for the end of the
timeout is in the loop, and running it when it is due times the future out. -/
theorem C148_ends_partial (s : Fut) (t : Int) (hp : s.res = none) (hr : s.running = true) (later : List FOp) :
    (t ≤ 0 → (s.step (.applyTimeout t)).1.res = some .timeout) ∧
    (0 < t → ((s.step (.applyTimeout t)).1.run later).res = none →
      ∃ i, (((s.step (.applyTimeout t)).1.run later).timers[i]?).map Timer.due = some (s.now + t.toNat) ∧
        (MayRun (s.now + t.toNat) (s.now + passed later) s.resolution →
          (((s.step (.applyTimeout t)).1.run later).step (.fire i)).1.res = some .timeout)) := by
  constructor
  · intro h0
    simp only [Fut.step]
    rw [if_pos h0, set_res, hp]
    rfl
  · intro h0 hpend
    have hmem : (⟨s.now + t.toNat, .timeout, s.fresh⟩ : Timer) ∈ ((s.step (.applyTimeout t)).1.run later).timers := by
      refine run_kept later ?_ hpend
      simp only [Fut.step]
      rw [if_neg (by omega), hp]
      dsimp only
      rw [if_pos hr]
      exact List.mem_append_right _ (List.mem_singleton.2 rfl)
    obtain ⟨i, hi⟩ := List.mem_iff_getElem?.1 hmem
    refine ⟨i, by rw [hi]; rfl, ?_⟩
    intro hm
    have hn := run_now later (s.step (.applyTimeout t)).1
    have hn' := step_now s (.applyTimeout t)
    have hz : passed [FOp.applyTimeout t] = 0 := rfl
    have hm' : MayRun (s.now + t.toNat) ((s.step (.applyTimeout t)).1.run later).now ((s.step (.applyTimeout t)).1.run later).resolution := by
      rw [hn.1, hn.2, hn'.1, hn'.2, hz]
      exact hm
    generalize (s.step (.applyTimeout t)).1.run later = s' at hi hpend hm'
    simp only [Fut.step]
    rw [hi]
    dsimp only
    rw [if_pos (by exact hm'), set_res]
    dsimp only
    rw [hpend]
    rfl

/-- Once done nothing changes the future, and no timer outlives its callbacks, however many timeouts were applied. -/
theorem C148_first_wins (now res : Nat) (ops later : List FOp) (r : Res) (h : ((Fut.new now res).run ops).res = some r) :
    ((Fut.new now res).run (ops ++ later)).res = some r ∧
    (((Fut.new now res).run (ops ++ later)).cancellers = [] → ((Fut.new now res).run (ops ++ later)).timers = []) := by
  constructor
  · rw [run_append]; exact run_done later h
  · intro hc
    have := run_covered (ops ++ later) (s := Fut.new now res) (fun t ht => by cases ht)
    refine List.eq_nil_iff_forall_not_mem.2 fun t ht => ?_
    have := this t ht
    rw [hc] at this
    cases this

example : ((Fut.new 3 1).run [.applyTimeout 9, .tick 2, .applyTimeout 4, .tick 4, .fire 1]).res = some .timeout := by decide
example : ((Fut.new 3 1).run [.applyTimeout 9, .tick 2, .applyTimeout 4, .tick 4, .fire 0]).res = none := by decide
example : ((Fut.new 3 1).run [.applyTimeout 9, .complete 4, .applyTimeout 0, .callback 0, .tick 9, .fire 0]).res = some (.given 4) := by decide

/-- Violated: on a stopped loop it answers `1` ("timeout was applied") although no timer is set; the future stays pending for ever. -/
theorem C148_violated (now res : Nat) (t : Int) (h : 0 < t) (wait : Nat) (i : Nat) :
    (((Fut.new now res).run [.stop]).step (.applyTimeout t)).2 = .int 1 ∧
    ((Fut.new now res).run [.stop, .applyTimeout t, .tick wait, .fire i]).res = none ∧
    ((Fut.new now res).run [.stop, .applyTimeout t, .tick wait]).timers = [] := by
  have h0 : ¬ t ≤ 0 := by omega
  simp [Fut.new, Fut.run, Fut.step, h0]

end Verif.Timeouts.Fut
