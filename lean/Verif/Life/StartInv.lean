import Verif.Life.Start

/-! What holds while the thread of a loop is started. -/
namespace Verif.Life

/-- The worker runs the loop, or will, or did. -/
inductive Runs : Worker → Prop
  | runner : Runs .runner
  | looping : Runs .looping
  | ended : Runs .ended

/-- The worker came as far as to run the loop. -/
inductive Ran : Worker → Prop
  | looping : Ran .looping
  | ended : Ran .ended

theorem runs_iff (w : Worker) : Runs w ↔ w = .runner ∨ w = .looping ∨ w = .ended := by
  constructor
  · intro h; cases h <;> simp
  · rintro (rfl | rfl | rfl) <;> constructor

theorem ran_iff (w : Worker) : Ran w ↔ w = .looping ∨ w = .ended := by
  constructor
  · intro h; cases h <;> simp
  · rintro (rfl | rfl) <;> constructor

structure Inv (s : State) : Prop where
  fresh : ∀ k, s.made ≤ k → s.workers k = none
  early : s.started = false → ∀ k w, s.workers k = some w → w = .born ∨ w = .begun
  unstolen : s.started = false → ∀ t, s.pcs t ≠ .got .runner
  one : ∀ i j v w, s.workers i = some v → s.workers j = some w → Runs v → Runs w → i = j
  stolen : ∀ t, s.pcs t = .got .runner → ∀ k w, s.workers k = some w → ¬ Runs w
  thief : ∀ t u, s.pcs t = .got .runner → s.pcs u = .got .runner → t = u
  up : s.running = true → ∃ k, s.workers k = some .looping
  waiter : s.waiter = true → (∃ k w, s.workers k = some w ∧ Ran w) ∨ ∃ t, s.pcs t = .got .raised
  ran : ∀ k w, s.workers k = some w → Ran w → s.waiter = true
  set : s.setStarted = true → ∃ k w, s.workers k = some w ∧ w ≠ .born
  booted : ∀ k w, s.workers k = some w → w ≠ .born → s.setStarted = true
  waiting : ∀ t, s.pcs t = .waiting → s.setStarted = true
  told : ∀ t, s.pcs t = .got .done ∨ s.pcs t = .got .already → s.waiter = true
  spawned : ∀ t, s.pcs t = .spawned → 0 < s.made
  made : ∀ k, k < s.made → s.workers k ≠ none
  started : s.started = true → (∃ k w, s.workers k = some w ∧ Runs w) ∨ ∃ t, s.pcs t = .got .runner

set_option maxHeartbeats 2000000 in
theorem Inv.step {s : State} (h : Inv s) (op : Op) : Inv (step s op) := by
  obtain ⟨h1, h2, h3, h4, h5, h6, h7, h8, h9, h10, h11, h12, h16, h13, h15, h14⟩ := h
  simp only [runs_iff, ran_iff] at *
  cases op <;> unfold Life.step <;> dsimp only <;> (repeat' split) <;> constructor <;> (try dsimp only) <;>
    (try simp only [runs_iff, ran_iff, put]) <;> first | assumption | grind | exact fun _ => ⟨_, .begun, if_pos rfl, by decide⟩

theorem Inv.run {s : State} (h : Inv s) (ops : List Op) : Inv (run s ops) := by
  induction ops generalizing s with
  | nil => exact h
  | cons op ops ih => exact ih (h.step op)

theorem Inv.init : Inv {} := by
  constructor <;> simp

end Verif.Life
