import Verif.Life.StartInv

/-! C248: starting the thread of a loop. -/
namespace Verif.Life

/-- C248: whoever starts it, and however often, at most one thread of the system runs the loop. -/
theorem C248_one_runner (ops : List Op) (i j : Nat) (v w : Worker) (hi : (run {} ops).workers i = some v)
    (hj : (run {} ops).workers j = some w) (hv : Runs v) (hw : Runs w) : i = j :=
  (Inv.init.run ops).one i j v w hi hj hv hw

/-- C248: as long as no call raised, a call that returned from starting, or found it started, returned after the loop began to run. -/
theorem C248_returned_partial (ops : List Op) (t : Nat)
    (h : (run {} ops).pcs t = .got .done ∨ (run {} ops).pcs t = .got .already)
    (hr : ∀ u, (run {} ops).pcs u ≠ .got .raised) : ∃ k w, (run {} ops).workers k = some w ∧ Ran w := by
  have hi := Inv.init.run ops
  rcases hi.waiter (hi.told t h) with h | ⟨u, h⟩
  · exact h
  · exact absurd h (hr u)

example : (run {} [.maybe 0, .check 0, .start 0, .boot 0, .up 0, .get 0, .begin 0, .woke 0]).pcs 0 = .got .done := by decide
example : (run {} [.maybe 0, .check 0, .start 0, .boot 0, .up 0, .get 0, .begin 0, .woke 0]).workers 0 = some .looping := by decide

theorem run_append (s : State) (a b : List Op) : run s (a ++ b) = run (run s a) b := List.foldl_append

theorem put_same {α : Type} (f : Nat → α) (k : Nat) (v : α) : put f k v k = v := if_pos rfl

/-- The threads made go on until the waiter is set. -/
theorem rises {s : State} (h : Inv s) (hs : s.setStarted = true) (hn : ∀ u, s.pcs u ≠ .got .runner) :
    ∃ l, (run s l).waiter = true ∧ (run s l).pcs = s.pcs := by
  cases hw : s.waiter
  · cases hst : s.started
    · obtain ⟨k, w, hk, hb⟩ := h.set hs
      have : w = .begun := by rcases h.early hst k w hk with h | h; exact absurd h hb; exact h
      subst this
      have hr : s.running = false := by
        cases hr : s.running
        · rfl
        · obtain ⟨j, hj⟩ := h.up hr
          rcases h.early hst j _ hj with h | h <;> cases h
      refine ⟨[.get k, .begin k], ?_, ?_⟩ <;> simp [run, step, hk, hr, hst, put_same]
    · rcases h.started hst with ⟨k, w, hk, hw'⟩ | ⟨u, hu⟩
      · cases hw' with
        | runner =>
          refine ⟨[.begin k], ?_, ?_⟩ <;> (simp only [run, List.foldl, step, if_pos hk]; split <;> rfl)
        | looping => have := h.ran k _ hk .looping; rw [hw] at this; cases this
        | ended => have := h.ran k _ hk .ended; rw [hw] at this; cases this
      · exact absurd hu (hn u)
  · exact ⟨[], hw, rfl⟩

theorem ends_waiting {s : State} (h : Inv s) {t : Nat} (ht : s.pcs t = .waiting) (hn : ∀ u, s.pcs u ≠ .got .runner) :
    ∃ l g, (run s l).pcs t = .got g := by
  obtain ⟨l, h1, h2⟩ := rises h (h.waiting t ht) hn
  refine ⟨l ++ [.woke t], .done, ?_⟩
  rw [run_append]
  show (step (run s l) (.woke t)).pcs t = _
  unfold step; dsimp only
  rw [if_pos ⟨by rw [h2]; exact ht, h1⟩]
  exact put_same _ _ _

theorem ends_later {s : State} {t : Nat} (op : Op) (h : ∃ l g, (run (step s op) l).pcs t = .got g) : ∃ l g, (run s l).pcs t = .got g := by
  obtain ⟨l, g, h⟩ := h
  exact ⟨op :: l, g, h⟩

theorem ends_spawned {s : State} (h : Inv s) {t : Nat} (ht : s.pcs t = .spawned) (hn : ∀ u, s.pcs u ≠ .got .runner) :
    ∃ l g, (run s l).pcs t = .got g := by
  have up : ∀ s : State, Inv s → s.setStarted = true → s.pcs t = .spawned → (∀ u, s.pcs u ≠ .got .runner) → ∃ l g, (run s l).pcs t = .got g := by
    intro s h hs ht hn
    refine ends_later (.up t) (ends_waiting (h.step _) ?_ ?_)
    · unfold step; dsimp only; rw [if_pos ⟨ht, hs⟩]; exact put_same _ _ _
    · intro u; unfold step; dsimp only; rw [if_pos ⟨ht, hs⟩]; simp only [put]; split
      · intro hx; cases hx
      · exact hn u
  cases hs : s.setStarted
  · obtain ⟨w, hw⟩ := Option.ne_none_iff_exists'.1 (h.made 0 (h.spawned t ht))
    have : w = .born := by
      cases hb : decide (w = .born)
      · have := h.booted 0 w hw (of_decide_eq_false hb); rw [hs] at this; cases this
      · exact of_decide_eq_true hb
    subst this
    refine ends_later (.boot 0) (up _ (h.step _) ?_ ?_ ?_) <;> (unfold step; dsimp only; rw [if_pos hw])
    · exact ht
    · exact hn
  · exact up s h hs ht hn

theorem ends_starting {s : State} (h : Inv s) {t : Nat} (ht : s.pcs t = .starting) (hn : ∀ u, s.pcs u ≠ .got .runner) :
    ∃ l g, (run s l).pcs t = .got g := by
  cases hs : s.setStarted
  · refine ends_later (.start t) (ends_spawned (h.step _) ?_ ?_) <;>
      (unfold step; simp only [if_pos ht, hs, Bool.false_eq_true, if_false])
    · exact put_same _ _ _
    · intro u; simp only [put]; split
      · intro hx; cases hx
      · exact hn u
  · refine ⟨[.start t], .raised, ?_⟩
    show (step s (.start t)).pcs t = _
    unfold step; dsimp only
    simp only [if_pos ht, hs, if_true]
    exact put_same _ _ _

/-- C248: as long as `.run` gave `runner` to no other thread, every call can end: whatever happened, there are steps after which it did. -/
theorem C248_ends_partial (ops : List Op) (t : Nat) (ht : (run {} ops).pcs t ≠ .idle) (hn : ∀ u, (run {} ops).pcs u ≠ .got .runner) :
    ∃ more g, (run {} (ops ++ more)).pcs t = .got g := by
  simp only [run_append]
  have h := Inv.init.run ops
  generalize run {} ops = s at *
  cases hp : s.pcs t with
  | idle => exact absurd hp ht
  | got g => exact ⟨[], g, hp⟩
  | waiting => exact ends_waiting h hp hn
  | spawned => exact ends_spawned h hp hn
  | starting => exact ends_starting h hp hn
  | enter =>
    have hn' : ∀ u, (step s (.check t)).pcs u ≠ .got .runner := by
      intro u; unfold step; simp only [if_pos hp, put]; split
      · split <;> (intro hx; cases hx)
      · exact hn u
    have hc : (step s (.check t)).pcs t = if s.setStarted then .waiting else .starting := by
      unfold step; simp only [if_pos hp]; exact put_same _ _ _
    refine ends_later (.check t) ?_
    cases hs : s.setStarted
    · rw [hs] at hc; exact ends_starting (h.step _) hc hn'
    · rw [hs] at hc; exact ends_waiting (h.step _) hc hn'

/-- C248 does not hold as stated: of two threads that start it at a time one can be told that threads are started only once, and that sets the
waiter, so the other returns while the loop does not run yet. -/
theorem C248_raced_violated (t u : Nat) (h : t ≠ u) :
    let s := run {} [.maybe t, .maybe u, .check t, .check u, .start t, .boot 0, .start u, .up t, .woke t]
    s.pcs u = .got .raised ∧ s.pcs t = .got .done ∧ s.running = false ∧ s.workers 0 = some .begun := by
  have h' : u ≠ t := Ne.symm h
  simp [run, step, put, h, h']

/-- The loop's thread is dead, and its starter waits. -/
structure Dead (t : Nat) (s : State) : Prop where
  waiter : s.waiter = false
  set : s.setStarted = true
  started : s.started = true
  running : s.running = false
  died : ∀ k w, s.workers k = some w → w = .died
  starting : ∀ u, s.pcs u ≠ .starting
  waiting : s.pcs t = .waiting

theorem Dead.step {s : State} {t : Nat} (h : Dead t s) (op : Op) : Dead t (step s op) := by
  obtain ⟨h1, h2, h3, h4, h5, h6, h7⟩ := h
  cases op <;> unfold Life.step <;> dsimp only <;> (repeat' split) <;> constructor <;> (try dsimp only) <;>
    (try simp only [put]) <;> first | assumption | grind

theorem Dead.run {s : State} {t : Nat} (h : Dead t s) (ops : List Op) : Dead t (run s ops) := by
  induction ops generalizing s with
  | nil => exact h
  | cons op ops ih => exact ih (h.step op)

/-- C248: nor do all calls end: if another thread gets `.run` just when the new thread begins, it is given `runner`, and the new thread is
given `caller` and ends with an error. Whatever happens then, who started it waits forever, and the loop never runs. -/
theorem C248_stolen_violated (t u : Nat) (h : t ≠ u) (more : List Op) :
    let s := run {} ([.maybe t, .check t, .start t, .boot 0, .run u, .get 0, .up t] ++ more)
    s.pcs t = .waiting ∧ s.running = false := by
  have h' : u ≠ t := Ne.symm h
  have hd : Dead t (run {} [.maybe t, .check t, .start t, .boot 0, .run u, .get 0, .up t]) := by
    constructor
    case died => intro k w; simp [run, step, put, h, h']; grind
    case starting => intro v; simp [run, step, put, h, h']; grind
    all_goals simp [run, step, put, h, h']
  rw [run_append]
  exact ⟨(hd.run more).waiting, (hd.run more).running⟩

end Verif.Life
