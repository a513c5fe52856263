import Verif.Datagram.Model

/-!
# What always holds of a datagram transport
-/

namespace Verif.Datagram

/-- The facts kept by every operation. -/
structure Inv (s : T) : Prop where
  waits : s.buffer ≠ [] → s.writer = true ∧ s.lost = false ∧ s.alive = true
  rd : s.reader = true → s.closing = false
  dead : s.alive = false → s.closing = true
  lostC : s.lost = true → s.closing = true
  soonL : s.soon ≠ [] → s.lost = true
  pz : s.paused = true → s.lost = false → s.alive = true → s.writer = true

theorem size_nil : size [] = 0 := rfl

theorem inv_forceClose (s : T) (e : Option Nat) (h : Inv s) : Inv (forceClose s e) := by
  obtain ⟨h1, h2, h3, h4, h5, h6⟩ := h
  unfold forceClose
  split
  · exact ⟨h1, h2, h3, h4, h5, h6⟩
  · constructor <;> dsimp only <;> grind

theorem inv_errorReceived (s : T) (h : Inv s) : Inv (errorReceived s) := by
  obtain ⟨h1, h2, h3, h4, h5, h6⟩ := h
  exact ⟨h1, h2, h3, h4, h5, h6⟩

theorem inv_maybePause (s : T) (h : Inv s) : Inv (maybePause s) := by
  obtain ⟨h1, h2, h3, h4, h5, h6⟩ := h
  unfold maybePause
  split
  · exact ⟨h1, h2, h3, h4, h5, h6⟩
  · rename_i hs
    have hb : s.buffer ≠ [] := by intro hb; rw [hb, size_nil] at hs; omega
    split
    · exact ⟨h1, h2, h3, h4, h5, h6⟩
    · constructor <;> dsimp only <;> grind

theorem inv_maybeResume (s : T) (h : Inv s) : Inv (maybeResume s) := by
  obtain ⟨h1, h2, h3, h4, h5, h6⟩ := h
  unfold maybeResume
  split
  · exact ⟨h1, h2, h3, h4, h5, h6⟩
  · constructor <;> dsimp only <;> grind

theorem maybeResume_buffer (s : T) : (maybeResume s).buffer = s.buffer := by
  unfold maybeResume; split <;> rfl

theorem maybeResume_empty (s : T) (hb : s.buffer = []) : (maybeResume s).paused = false := by
  unfold maybeResume
  split
  · rename_i h
    rcases h with h | h
    · exact h
    · rw [hb, size_nil] at h; omega
  · rfl

theorem inv_readyEnd (s : T) (h : Inv s) : Inv (readyEnd s) := by
  have hr := inv_maybeResume s h
  have hb := maybeResume_buffer s
  have hp := maybeResume_empty s
  unfold readyEnd
  generalize maybeResume s = s1 at hr hb hp
  obtain ⟨h1, h2, h3, h4, h5, h6⟩ := hr
  dsimp only
  split
  · rename_i he
    have := hp (hb ▸ he)
    split
    · unfold callLost; constructor <;> dsimp only <;> grind
    · constructor <;> dsimp only <;> grind
  · exact ⟨h1, h2, h3, h4, h5, h6⟩

/-- The loop of `_send_to_ready` keeps the facts. -/
theorem inv_sendReady (buf : List (List Nat × Option Nat)) : ∀ (s : T) (outs : List Out),
    s.writer = true → Inv { s with buffer := buf } → Inv (sendReady s buf outs) := by
  induction buf with
  | nil => intro s outs _ h; unfold sendReady; exact inv_readyEnd _ h
  | cons x r ih =>
    intro s outs hw h
    obtain ⟨d, a⟩ := x
    have hr : ∀ l, Inv { s with buffer := r, log := l } := by
      intro l
      obtain ⟨h1, h2, h3, h4, h5, h6⟩ := h
      have h1' := h1 (by simp)
      exact ⟨fun _ => h1', h2, h3, h4, h5, h6⟩
    unfold sendReady
    split
    · exact ih _ _ hw (hr _)
    · exact inv_readyEnd _ h
    · exact inv_errorReceived _ (hr _)
    · exact inv_forceClose _ _ (hr _)

theorem inv_log (s : T) (l : List Ev) (h : Inv s) : Inv { s with log := l } := by
  obtain ⟨h1, h2, h3, h4, h5, h6⟩ := h
  exact ⟨h1, h2, h3, h4, h5, h6⟩

theorem inv_sendTaken (s : T) (d : List Nat) (a : Option Nat) (o : Out) (hl : s.lost = false)
    (h : Inv s) : Inv (sendTaken s d a o) := by
  unfold sendTaken
  split
  · rename_i hb
    have hal : ∀ x, sendto s a o = x → x = .other ∨ s.alive = true := by
      intro x hx
      cases ha : s.alive with
      | true => exact Or.inr rfl
      | false => unfold sendto at hx; rw [if_pos ha] at hx; exact Or.inl hx.symm
    split
    · exact inv_log _ _ h
    · rename_i hx
      have ha := (hal _ hx).resolve_left (by decide)
      apply inv_maybePause
      obtain ⟨h1, h2, h3, h4, h5, h6⟩ := h
      constructor <;> dsimp only <;> grind
    · exact inv_errorReceived _ (inv_log _ _ h)
    · exact inv_forceClose _ _ (inv_log _ _ h)
  · apply inv_maybePause
    obtain ⟨h1, h2, h3, h4, h5, h6⟩ := h
    constructor <;> dsimp only <;> grind

theorem inv_step (s : T) (op : Op) (h : Inv s) : Inv (step s op) := by
  cases op with
  | addReader =>
    unfold step; dsimp only
    split
    · exact h
    · obtain ⟨h1, h2, h3, h4, h5, h6⟩ := h
      constructor <;> dsimp only <;> grind
  | sendTo d a o =>
    show Inv (sendTo s d a o).1
    unfold sendTo
    split
    · exact h
    · split
      · exact h
      · split
        · exact h
        · rename_i hl
          exact inv_sendTaken _ _ _ _ (by simpa using hl) h
  | writable outs =>
    unfold step; dsimp only
    split
    · rename_i hw; exact inv_sendReady _ _ _ hw h
    · exact h
  | readable d a o =>
    unfold step; dsimp only
    split
    · unfold readReady
      split
      · exact h
      · generalize (if s.alive then o else Out.other) = out
        cases out
        · exact inv_log _ _ h
        · exact h
        · exact inv_errorReceived _ h
        · exact inv_forceClose _ _ h
    · exact h
  | close =>
    unfold step close; dsimp only
    obtain ⟨h1, h2, h3, h4, h5, h6⟩ := h
    split
    · exact ⟨h1, h2, h3, h4, h5, h6⟩
    · split <;> constructor <;> dsimp only <;> grind
  | abort e => exact inv_forceClose _ _ h
  | runSoon =>
    unfold step; dsimp only
    split
    · exact h
    · rename_i hs
      obtain ⟨h1, h2, h3, h4, h5, h6⟩ := h
      unfold callLost
      constructor <;> dsimp only <;> grind

theorem inv_init (address : Option Nat) : Inv (init address) := by
  constructor <;> simp [init]

theorem inv_run (ops : List Op) : ∀ s : T, Inv s → Inv (run s ops) := by
  induction ops with
  | nil => intro s h; exact h
  | cons op ops ih => intro s h; exact ih _ (inv_step s op h)

end Verif.Datagram
