import Verif.Datagram.Inv

/-!
# C254: sending without an address; C255: the protocol is told once that the connection is lost
-/

namespace Verif.Datagram

/-! ## C254 -/

/-- A datagram transport bound to no address, which works: it is open, nothing waits. -/
theorem C254_unaddressed_send_kills_transport_violated (s : T) (d : List Nat) (o : Out)
    (hs : s.address = none) (hl : s.lost = false) (hb : s.buffer = []) (hd : d ≠ []) :
    (sendTo s d none o).2 = .done ∧ (sendTo s d none o).1.lost = true ∧
      (sendTo s d none o).1.closing = true := by
  have ht : target s none = some none := by unfold target; rw [hs]
  have ho : sendto s none o = .other := by unfold sendto; split <;> simp
  unfold sendTo
  rw [if_neg hd, ht]
  simp only [hl, Bool.false_eq_true, if_false]
  unfold sendTaken fatal forceClose
  rw [if_pos hb, ho]
  simp [hl]

/-- **C254.** A datagram queued without an address takes the well addressed ones behind it with
it. -/
theorem C254_unaddressed_datagram_drops_others_violated :
    (run (init none) [.sendTo [1] (some 5) .blocked, .sendTo [2] none .ok, .sendTo [3] (some 6) .ok,
      .writable [.ok, .ok, .ok]]).log =
      [.sent [1] (some 5), .failed [2] none, .dropped [([3], some 6)]] := by decide

/-- Operations which name an address for every datagram and have no socket failing otherwise than by
an `OSError`, and no one closing. -/
inductive Calls : Op → Prop
  | addReader : Calls .addReader
  | sendTo d a o : o ≠ Out.other → Calls (.sendTo d (some a) o)
  | writable outs : (∀ o ∈ outs, o ≠ Out.other) → Calls (.writable outs)
  | readable d a o : o ≠ Out.other → Calls (.readable d a o)
  | runSoon : Calls .runSoon

/-- The transport works. -/
structure Works (s : T) : Prop where
  addr : ∀ x ∈ s.buffer, x.2 ≠ none
  alive : s.alive = true
  closing : s.closing = false
  lost : s.lost = false
  soon : s.soon = []

theorem works_maybePause (s : T) (h : Works s) : Works (maybePause s) := by
  obtain ⟨h1, h2, h3, h4, h5⟩ := h
  unfold maybePause
  split
  · exact ⟨h1, h2, h3, h4, h5⟩
  · split <;> exact ⟨h1, h2, h3, h4, h5⟩

theorem works_maybeResume (s : T) (h : Works s) : Works (maybeResume s) := by
  obtain ⟨h1, h2, h3, h4, h5⟩ := h
  unfold maybeResume
  split <;> exact ⟨h1, h2, h3, h4, h5⟩

theorem works_readyEnd (s : T) (h : Works s) : Works (readyEnd s) := by
  have hr := works_maybeResume s h
  unfold readyEnd
  generalize maybeResume s = s1 at hr
  obtain ⟨h1, h2, h3, h4, h5⟩ := hr
  dsimp only
  split
  · rw [if_neg (by rw [h3]; decide)]
    exact ⟨h1, h2, h3, h4, h5⟩
  · exact ⟨h1, h2, h3, h4, h5⟩

theorem sendto_alive (s : T) (a : Option Nat) (o : Out) (hal : s.alive = true) (ha : a ≠ none) :
    sendto s a o = o := by
  unfold sendto
  rw [if_neg (by rw [hal]; decide), if_neg ha]

theorem works_sendReady (buf : List (List Nat × Option Nat)) : ∀ (s : T) (outs : List Out),
    (∀ o ∈ outs, o ≠ Out.other) → Works { s with buffer := buf } → Works (sendReady s buf outs) := by
  induction buf with
  | nil => intro s outs _ h; unfold sendReady; exact works_readyEnd _ h
  | cons x r ih =>
    intro s outs ho h
    obtain ⟨d, a⟩ := x
    have ha : a ≠ none := h.addr (d, a) List.mem_cons_self
    have hr : ∀ l, Works { s with buffer := r, log := l } := by
      intro l
      obtain ⟨h1, h2, h3, h4, h5⟩ := h
      exact ⟨fun x hx => h1 x (List.mem_cons_of_mem _ hx), h2, h3, h4, h5⟩
    have hsend : sendto s a (outs.headD .blocked) = outs.headD .blocked :=
      sendto_alive s a _ h.alive ha
    have hne : outs.headD .blocked ≠ Out.other := by
      cases outs with
      | nil => simp
      | cons o os => exact ho o List.mem_cons_self
    unfold sendReady
    rw [hsend]
    split
    · exact ih _ _ (fun o hm => ho o (List.mem_of_mem_tail hm)) (hr _)
    · exact works_readyEnd _ h
    · obtain ⟨h1, h2, h3, h4, h5⟩ := hr (s.log ++ [Ev.failed d a])
      exact ⟨h1, h2, h3, h4, h5⟩
    · rename_i hx; exact absurd hx hne

theorem works_step (s : T) (op : Op) (hc : Calls op) (h : Works s) : Works (step s op) := by
  cases hc with
  | addReader =>
    unfold step; dsimp only
    obtain ⟨h1, h2, h3, h4, h5⟩ := h
    split <;> exact ⟨h1, h2, h3, h4, h5⟩
  | sendTo d a o ho =>
    show Works (sendTo s d (some a) o).1
    unfold sendTo
    split
    · exact h
    · split
      · exact h
      · rename_i a' ht
        have ha' : a' ≠ none := by
          unfold target at ht
          split at ht
          · cases ht; simp
          · split at ht
            · cases ht; simp
            · split at ht
              · cases ht; simp
              · cases ht
        split
        · exact h
        · unfold sendTaken
          split
          · rw [sendto_alive s a' o h.alive ha']
            obtain ⟨h1, h2, h3, h4, h5⟩ := h
            split
            · exact ⟨h1, h2, h3, h4, h5⟩
            · apply works_maybePause
              refine ⟨?_, h2, h3, h4, h5⟩
              intro x hx
              rw [List.mem_singleton] at hx
              rw [hx]; exact ha'
            · exact ⟨h1, h2, h3, h4, h5⟩
            · exact absurd rfl ho
          · apply works_maybePause
            obtain ⟨h1, h2, h3, h4, h5⟩ := h
            refine ⟨?_, h2, h3, h4, h5⟩
            intro x hx
            rw [List.mem_append, List.mem_singleton] at hx
            rcases hx with hx | hx
            · exact h1 x hx
            · rw [hx]; exact ha'
  | writable outs ho =>
    unfold step; dsimp only
    split
    · exact works_sendReady _ _ _ ho h
    · exact h
  | readable d a o ho =>
    unfold step; dsimp only
    split
    · unfold readReady
      rw [if_neg (by rw [h.lost]; decide), if_pos h.alive]
      obtain ⟨h1, h2, h3, h4, h5⟩ := h
      cases o
      · exact ⟨h1, h2, h3, h4, h5⟩
      · exact ⟨h1, h2, h3, h4, h5⟩
      · exact ⟨h1, h2, h3, h4, h5⟩
      · exact absurd rfl ho
    · exact h
  | runSoon =>
    unfold step; dsimp only
    rw [h.soon]
    exact h

/-- **C254, part.** As long as every datagram names an address and the socket fails by `OSError`
only, the transport stays open and nothing is dropped. -/
theorem C254_addressed_sends_keep_transport_partial (address : Option Nat) (ops : List Op)
    (h : ∀ op ∈ ops, Calls op) :
    (run (init address) ops).lost = false ∧ (run (init address) ops).closing = false ∧
      (run (init address) ops).alive = true := by
  have : ∀ (ops : List Op) (s : T), (∀ op ∈ ops, Calls op) → Works s → Works (run s ops) := by
    intro ops
    induction ops with
    | nil => intro s _ hs; exact hs
    | cons op ops ih =>
      intro s hc hs
      exact ih _ (fun x hx => hc x (List.mem_cons_of_mem _ hx))
        (works_step s op (hc op List.mem_cons_self) hs)
  have hw := this ops (init address) h ⟨(by intro x hx; cases hx), rfl, rfl, rfl, rfl⟩
  exact ⟨hw.lost, hw.closing, hw.alive⟩

example : (run (init none) [.addReader, .sendTo [1] (some 5) .os, .sendTo [2] (some 6) .blocked,
    .readable [7] 8 .os, .writable [.os], .writable []]).log =
    [.failed [1] (some 5), .errorReceived, .errorReceived, .failed [2] (some 6), .errorReceived] := by
  decide

/-! ## C255 -/

/-- The calls the protocol gets. -/
inductive Told : Ev → Prop
  | received d a : Told (.received d a)
  | error : Told .errorReceived
  | lost e : Told (.connectionLost e)
  | pause : Told .pauseWriting
  | resume : Told .resumeWriting

/-- Once the protocol was told that the connection is lost, it is not called any more. -/
def Quiet (log : List Ev) : Prop :=
  ∀ pre e post, log = pre ++ Ev.connectionLost e :: post → ∀ ev ∈ post, ¬ Told ev

/-- The invariant. -/
structure Good (s : T) : Prop where
  quiet : Quiet s.log
  fresh : s.alive = true → ∀ e, Ev.connectionLost e ∉ s.log

theorem quiet_push {log : List Ev} (hq : Quiet log) (ev : Ev)
    (h : Told ev → ∀ e, Ev.connectionLost e ∉ log) : Quiet (log ++ [ev]) := by
  intro pre e post heq x hx ht
  rcases List.eq_nil_or_concat post with hp | ⟨post', y, hp⟩
  · rw [hp] at hx; cases hx
  · rw [hp, List.concat_eq_append] at heq hx
    have heq' : log ++ [ev] = (pre ++ Ev.connectionLost e :: post') ++ [y] := by
      rw [heq]; simp
    have hl := List.append_inj' heq' rfl
    have hy : ev = y := by simpa using hl.2
    rcases List.mem_append.1 hx with hm | hm
    · exact hq pre e post' hl.1 x hm ht
    · rw [List.mem_singleton] at hm
      rw [hm, ← hy] at ht
      exact h ht e (by rw [hl.1]; simp)

theorem quiet_silent {log : List Ev} (hq : Quiet log) (ev : Ev) (h : ¬ Told ev) :
    Quiet (log ++ [ev]) := quiet_push hq ev (fun ht => absurd ht h)

theorem good_silent (s s' : T) (ev : Ev) (h : Good s) (hlog : s'.log = s.log ++ [ev])
    (hal : s'.alive = s.alive) (hev : ¬ Told ev) : Good s' := by
  constructor
  · rw [hlog]; exact quiet_silent h.quiet ev hev
  · intro ha e hm
    rw [hlog, List.mem_append, List.mem_singleton] at hm
    rcases hm with hm | hm
    · exact h.fresh (hal ▸ ha) e hm
    · rw [← hm] at hev; exact hev (Told.lost e)

theorem good_told (s s' : T) (ev : Ev) (h : Good s) (hlive : s.alive = true)
    (hlog : s'.log = s.log ++ [ev])
    (hev : s'.alive = true → ∀ e, ev ≠ Ev.connectionLost e) : Good s' := by
  constructor
  · rw [hlog]; exact quiet_push h.quiet ev (fun _ => h.fresh hlive)
  · intro ha e hm
    rw [hlog, List.mem_append, List.mem_singleton] at hm
    rcases hm with hm | hm
    · exact h.fresh hlive e hm
    · exact hev ha e hm.symm

theorem good_same (s s' : T) (h : Good s) (hlog : s'.log = s.log) (hal : s'.alive = s.alive) :
    Good s' := ⟨hlog ▸ h.quiet, fun ha e => hlog ▸ h.fresh (hal ▸ ha) e⟩

theorem good_callLost (s : T) (e : Option Nat) (h : Good s) : Good (callLost s e) := by
  cases ha : s.alive with
  | true =>
    exact good_told s _ (.connectionLost e) h ha (by unfold callLost; simp [ha])
      (by intro hx; cases hx)
  | false =>
    exact good_same s _ h (by unfold callLost; simp [ha]) (by unfold callLost; simp [ha])

theorem good_errorReceived (s : T) (h : Good s) : Good (errorReceived s) := by
  cases ha : s.alive with
  | true =>
    exact good_told s _ .errorReceived h ha (by unfold errorReceived; simp [ha]) (by simp)
  | false => exact good_same s _ h (by unfold errorReceived; simp [ha]) rfl

theorem good_maybePause (s : T) (h : Good s) : Good (maybePause s) := by
  unfold maybePause
  split
  · exact h
  · split
    · exact h
    · cases ha : s.alive with
      | true => exact good_told s _ .pauseWriting h ha (by simp) (by simp)
      | false => exact good_same s _ h (by simp) ha.symm

theorem good_maybeResume (s : T) (h : Good s) : Good (maybeResume s) := by
  unfold maybeResume
  split
  · exact h
  · cases ha : s.alive with
    | true => exact good_told s _ .resumeWriting h ha (by simp) (by simp)
    | false => exact good_same s _ h (by simp) ha.symm

theorem good_forceClose (s : T) (e : Option Nat) (h : Good s) : Good (forceClose s e) := by
  unfold forceClose
  split
  · exact h
  · exact good_silent s _ (.dropped s.buffer) h rfl rfl (by intro ht; cases ht)

theorem good_readyEnd (s : T) (h : Good s) : Good (readyEnd s) := by
  have hr := good_maybeResume s h
  unfold readyEnd
  generalize maybeResume s = s1 at hr
  dsimp only
  split
  · split
    · exact good_callLost _ _ (good_same _ _ hr rfl rfl)
    · exact good_same _ _ hr rfl rfl
  · exact hr

theorem good_sendReady (buf : List (List Nat × Option Nat)) : ∀ (s : T) (outs : List Out),
    Good s → Good (sendReady s buf outs) := by
  induction buf with
  | nil => intro s outs h; unfold sendReady; exact good_readyEnd _ (good_same _ _ h rfl rfl)
  | cons x r ih =>
    intro s outs h
    obtain ⟨d, a⟩ := x
    unfold sendReady
    split
    · exact ih _ _ (good_silent s _ _ h rfl rfl (by intro ht; cases ht))
    · exact good_readyEnd _ (good_same _ _ h rfl rfl)
    · exact good_errorReceived _ (good_silent s _ _ h rfl rfl (by intro ht; cases ht))
    · exact good_forceClose _ _ (good_silent s _ _ h rfl rfl (by intro ht; cases ht))

theorem good_step (s : T) (op : Op) (hi : Inv s) (h : Good s) : Good (step s op) := by
  cases op with
  | addReader =>
    unfold step; dsimp only
    split
    · exact h
    · exact good_same _ _ h rfl rfl
  | sendTo d a o =>
    show Good (sendTo s d a o).1
    unfold sendTo
    split
    · exact h
    · split
      · exact h
      · split
        · exact h
        · unfold sendTaken
          split
          · split
            · exact good_silent s _ _ h rfl rfl (by intro ht; cases ht)
            · exact good_maybePause _ (good_same _ _ h rfl rfl)
            · exact good_errorReceived _ (good_silent s _ _ h rfl rfl (by intro ht; cases ht))
            · exact good_forceClose _ _ (good_silent s _ _ h rfl rfl (by intro ht; cases ht))
          · exact good_maybePause _ (good_same _ _ h rfl rfl)
  | writable outs =>
    unfold step; dsimp only
    split
    · exact good_sendReady _ _ _ h
    · exact h
  | readable d a o =>
    unfold step; dsimp only
    split
    · rename_i hr
      have ha : s.alive = true := by
        cases hx : s.alive with
        | true => rfl
        | false => have := hi.dead hx; rw [hi.rd hr] at this; cases this
      unfold readReady
      split
      · exact h
      · cases o
        · exact good_told s _ (.received d a) h ha rfl (by simp)
        · exact h
        · exact good_errorReceived _ h
        · exact good_forceClose _ _ h
    · exact h
  | close =>
    unfold step close; dsimp only
    split
    · exact h
    · split
      · exact good_same _ _ h rfl rfl
      · exact good_same _ _ h rfl rfl
  | abort e => exact good_forceClose _ _ h
  | runSoon =>
    unfold step; dsimp only
    split
    · exact h
    · exact good_callLost _ _ (good_same _ _ h rfl rfl)

theorem good_run (ops : List Op) : ∀ s : T, Inv s → Good s → Good (run s ops) := by
  induction ops with
  | nil => intro s _ h; exact h
  | cons op ops ih => intro s hi h; exact ih _ (inv_step s op hi) (good_step s op hi h)

/-- **C255.** Whatever is done to a transport, after `connection_lost` the protocol is called no
more: no second `connection_lost`, no datagram, no error, no pausing or resuming. -/
theorem C255_nothing_after_connection_lost (address : Option Nat) (ops : List Op) (e : Option Nat)
    (pre post : List Ev) (h : (run (init address) ops).log = pre ++ .connectionLost e :: post) :
    ∀ ev ∈ post, ¬ Told ev :=
  (good_run ops (init address) (inv_init address)
    ⟨by intro pre e post h; simp [init] at h, by intro _ e h; cases h⟩).quiet pre e post h

example : (run (init none) [.sendTo [1] (some 2) .blocked, .close, .writable [.ok], .abort (some 4), .runSoon,
    .sendTo [3] (some 2) .ok]).log =
    [.sent [1] (some 2), .connectionLost none, .dropped []] := by decide

end Verif.Datagram
