import Verif.Datagram.PropsLost

/-!
# C256–C259: callbacks left behind, closing, aborting, pausing
-/

namespace Verif.Datagram

/-! ## C256 -/

/-- Nothing but the callback of a writable socket. -/
inductive NotWritable : Op → Prop
  | addReader : NotWritable .addReader
  | sendTo d a o : NotWritable (.sendTo d a o)
  | readable d a o : NotWritable (.readable d a o)
  | close : NotWritable .close
  | abort e : NotWritable (.abort e)
  | runSoon : NotWritable .runSoon

/-- The connection is gone but the writer is still registered. -/
structure Stuck (s : T) : Prop where
  lost : s.lost = true
  closing : s.closing = true
  alive : s.alive = false
  writer : s.writer = true
  reader : s.reader = false

theorem stuck_step (s : T) (op : Op) (hop : NotWritable op) (h : Stuck s) : Stuck (step s op) := by
  obtain ⟨h1, h2, h3, h4, h5⟩ := h
  cases hop with
  | addReader => unfold step; dsimp only; rw [if_pos h2]; exact ⟨h1, h2, h3, h4, h5⟩
  | sendTo d a o =>
    show Stuck (sendTo s d a o).1
    unfold sendTo
    split
    · exact ⟨h1, h2, h3, h4, h5⟩
    · split
      · exact ⟨h1, h2, h3, h4, h5⟩
      · exact ⟨h1, h2, h3, h4, h5⟩
  | readable d a o =>
    unfold step; dsimp only; rw [if_neg (by rw [h5]; decide)]; exact ⟨h1, h2, h3, h4, h5⟩
  | close => unfold step close; dsimp only; rw [if_pos h2]; exact ⟨h1, h2, h3, h4, h5⟩
  | abort e => unfold step forceClose; dsimp only; rw [if_pos h1]; exact ⟨h1, h2, h3, h4, h5⟩
  | runSoon =>
    unfold step; dsimp only
    split
    · exact ⟨h1, h2, h3, h4, h5⟩
    · exact ⟨h1, h2, rfl, h4, h5⟩

theorem stuck_run (ops : List Op) : ∀ s : T, (∀ op ∈ ops, NotWritable op) → Stuck s →
    Stuck (run s ops) := by
  induction ops with
  | nil => intro s _ h; exact h
  | cons op ops ih =>
    intro s hc h
    exact ih _ (fun x hx => hc x (List.mem_cons_of_mem _ hx))
      (stuck_step s op (hc op List.mem_cons_self) h)

/-- **C256, violated.** The last waiting datagram has no address: the failure closes the transport
with an empty buffer, the writer is not removed. The socket is closed with its writer registered,
and nothing but a further writability of the closed socket ever removes it. -/
theorem C256_writer_left_on_closed_socket_violated (ops : List Op)
    (h : ∀ op ∈ ops, NotWritable op) :
    let s := run (init none) ([.sendTo [1] (some 5) .blocked, .sendTo [2] none .ok, .writable [.ok],
      .runSoon] ++ ops)
    s.alive = false ∧ s.writer = true := by
  rw [run_append]
  have := stuck_run ops (run (init none) [.sendTo [1] (some 5) .blocked, .sendTo [2] none .ok,
    .writable [.ok], .runSoon]) h ⟨by decide, by decide, by decide, by decide, by decide⟩
  exact ⟨this.alive, this.writer⟩

/-- **C256, violated.** So does a refused datagram followed by an abort, on a transport bound to an
address. -/
theorem C256_writer_left_after_abort_violated (ops : List Op) (h : ∀ op ∈ ops, NotWritable op) :
    let s := run (init (some 9)) ([.sendTo [1] none .blocked, .writable [.os], .abort (some 7), .runSoon] ++ ops)
    s.alive = false ∧ s.writer = true := by
  rw [run_append]
  have := stuck_run ops (run (init (some 9)) [.sendTo [1] none .blocked, .writable [.os],
    .abort (some 7), .runSoon]) h ⟨by decide, by decide, by decide, by decide, by decide⟩
  exact ⟨this.alive, this.writer⟩

/-- **C256, part.** The reader is never registered on a closing transport, in particular never on a
closed socket. -/
theorem C256_reader_removed_partial (address : Option Nat) (ops : List Op)
    (h : (run (init address) ops).closing = true ∨ (run (init address) ops).alive = false) :
    (run (init address) ops).reader = false := by
  have hi := inv_run ops _ (inv_init address)
  have hc : (run (init address) ops).closing = true := h.elim id hi.dead
  cases hr : (run (init address) ops).reader with
  | false => rfl
  | true => rw [hi.rd hr] at hc; cases hc

/-- Operations in which no datagram that waited fails: all name an address, and the callback of a
writable socket sees no exception but the one of a full socket. Sending at once may fail in any
way. -/
inductive Calm : Op → Prop
  | addReader : Calm .addReader
  | sendTo d a o : Calm (.sendTo d (some a) o)
  | writable outs : (∀ o ∈ outs, o = Out.ok ∨ o = Out.blocked) → Calm (.writable outs)
  | readable d a o : Calm (.readable d a o)
  | close : Calm .close
  | abort e : Calm (.abort e)
  | runSoon : Calm .runSoon

/-- The writer is registered only while something waits, and what waits has an address. -/
structure Tidy (s : T) : Prop where
  need : s.writer = true → s.buffer ≠ []
  addr : ∀ x ∈ s.buffer, x.2 ≠ none
  alive : s.buffer ≠ [] → s.alive = true

theorem tidy_maybePause (s : T) (h : Tidy s) : Tidy (maybePause s) := by
  obtain ⟨h1, h2, h3⟩ := h
  unfold maybePause
  split
  · exact ⟨h1, h2, h3⟩
  · split <;> exact ⟨h1, h2, h3⟩

theorem tidy_forceClose (s : T) (e : Option Nat) (h : Tidy s) : Tidy (forceClose s e) := by
  unfold forceClose
  split
  · exact h
  · refine ⟨?_, (by intro x hx; cases hx), fun h => absurd rfl h⟩
    dsimp only
    intro hw
    split at hw
    · rename_i hb; exact absurd hb (h.need hw)
    · cases hw

theorem tidy_readyEnd (s : T) (ha : ∀ x ∈ s.buffer, x.2 ≠ none)
    (hal : s.buffer ≠ [] → s.alive = true) : Tidy (readyEnd s) := by
  have hb := maybeResume_buffer s
  have hl : (maybeResume s).alive = s.alive := by unfold maybeResume; split <;> rfl
  unfold readyEnd
  generalize maybeResume s = s1 at hb hl
  dsimp only
  split
  · rename_i he
    split
    · exact ⟨(by intro h; cases h), (by intro x hx; simp [callLost, he] at hx),
        (by intro h; exact absurd he h)⟩
    · exact ⟨(by intro h; cases h), (by intro x hx; simp [he] at hx), (by intro h; exact absurd he h)⟩
  · rename_i hne
    exact ⟨fun _ => hne, hb ▸ ha, fun h => hl ▸ hal (hb ▸ h)⟩

theorem tidy_sendReady (buf : List (List Nat × Option Nat)) : ∀ (s : T) (outs : List Out),
    (∀ o ∈ outs, o = Out.ok ∨ o = Out.blocked) → (∀ x ∈ buf, x.2 ≠ none) →
    (buf ≠ [] → s.alive = true) → Tidy (sendReady s buf outs) := by
  induction buf with
  | nil =>
    intro s outs _ _ _
    unfold sendReady
    exact tidy_readyEnd _ (by intro x hx; cases hx) (fun h => absurd rfl h)
  | cons x r ih =>
    intro s outs ho ha hal
    obtain ⟨d, a⟩ := x
    have hal' : s.alive = true := hal (by simp)
    have haa : a ≠ none := ha (d, a) List.mem_cons_self
    have hsend : sendto s a (outs.headD .blocked) = outs.headD .blocked := by
      unfold sendto
      rw [if_neg (by rw [hal']; decide), if_neg haa]
    have hcase : outs.headD .blocked = Out.ok ∨ outs.headD .blocked = Out.blocked := by
      cases outs with
      | nil => exact Or.inr rfl
      | cons o os => exact ho o List.mem_cons_self
    unfold sendReady
    rw [hsend]
    split
    · exact ih _ _ (fun o hm => ho o (List.mem_of_mem_tail hm))
        (fun x hx => ha x (List.mem_cons_of_mem _ hx)) (fun _ => hal')
    · exact tidy_readyEnd _ ha (fun _ => hal')
    · rename_i hx; rw [hx] at hcase; simp at hcase
    · rename_i hx; rw [hx] at hcase; simp at hcase

theorem tidy_step (s : T) (op : Op) (hop : Calm op) (hi : Inv s) (h : Tidy s) : Tidy (step s op) := by
  cases hop with
  | addReader =>
    unfold step; dsimp only
    obtain ⟨h1, h2, h3⟩ := h
    split <;> exact ⟨h1, h2, h3⟩
  | sendTo d a o =>
    show Tidy (sendTo s d (some a) o).1
    unfold sendTo
    split
    · exact h
    · split
      · exact h
      · rename_i a' ht
        have ha' : a' ≠ none := by
          unfold target at ht
          split at ht
          · cases ht; simp
          · split at ht
            · cases ht; simp
            · split at ht
              · cases ht; simp
              · cases ht
        split
        · exact h
        · rename_i hlost
          unfold sendTaken
          split
          · rename_i hb
            have hw : s.writer = false := by
              cases hx : s.writer with
              | false => rfl
              | true => exact absurd hb (h.need hx)
            have hlog : ∀ l, Tidy { s with log := l } := by
              intro l; obtain ⟨h1, h2, h3⟩ := h; exact ⟨h1, h2, h3⟩
            split
            · exact hlog _
            · rename_i hx
              apply tidy_maybePause
              refine ⟨by simp, ?_, ?_⟩
              · intro x hm
                rw [List.mem_singleton] at hm
                rw [hm]; exact ha'
              · intro _
                cases hal : s.alive with
                | true => rfl
                | false => unfold sendto at hx; rw [if_pos hal] at hx; cases hx
            · obtain ⟨h1, h2, h3⟩ := hlog (s.log ++ [Ev.failed d a'])
              exact ⟨h1, h2, h3⟩
            · exact tidy_forceClose _ _ (hlog _)
          · rename_i hb
            apply tidy_maybePause
            refine ⟨by simp, ?_, fun _ => h.alive hb⟩
            intro x hm
            rw [List.mem_append, List.mem_singleton] at hm
            rcases hm with hm | hm
            · exact h.addr x hm
            · rw [hm]; exact ha'
  | writable outs ho =>
    unfold step; dsimp only
    split
    · exact tidy_sendReady _ _ _ ho h.addr h.alive
    · exact h
  | readable d a o =>
    unfold step; dsimp only
    split
    · unfold readReady
      split
      · exact h
      · generalize (if s.alive then o else Out.other) = out
        have hlog : ∀ l, Tidy { s with log := l } := by
          intro l; obtain ⟨h1, h2, h3⟩ := h; exact ⟨h1, h2, h3⟩
        cases out
        · exact hlog _
        · exact h
        · exact hlog _
        · exact tidy_forceClose _ _ h
    · exact h
  | close =>
    unfold step close; dsimp only
    obtain ⟨h1, h2, h3⟩ := h
    split
    · exact ⟨h1, h2, h3⟩
    · split
      · exact ⟨(by intro hx; cases hx), h2, h3⟩
      · exact ⟨h1, h2, h3⟩
  | abort e => exact tidy_forceClose _ _ h
  | runSoon =>
    unfold step; dsimp only
    split
    · exact h
    · rename_i hs
      have hb : s.buffer = [] := by
        cases hx : s.buffer with
        | nil => rfl
        | cons y ys =>
          have h1 := (hi.waits (by rw [hx]; simp)).2.1
          have h2 := hi.soonL (by rw [hs]; simp)
          rw [h1] at h2; cases h2
      refine ⟨h.need, h.addr, fun hne => absurd hb hne⟩

theorem tidy_run (ops : List Op) : ∀ s : T, (∀ op ∈ ops, Calm op) → Inv s → Tidy s →
    Tidy (run s ops) := by
  induction ops with
  | nil => intro s _ _ h; exact h
  | cons op ops ih =>
    intro s hc hi h
    have hop := hc op List.mem_cons_self
    exact ih _ (fun x hx => hc x (List.mem_cons_of_mem _ hx)) (inv_step s op hi) (tidy_step s op hop hi h)

theorem tidy_init (address : Option Nat) : Tidy (init address) :=
  ⟨(by intro h; cases h), (by intro x hx; cases hx), fun h => absurd rfl h⟩

/-- **C256, part.** If no datagram that waited fails, then no callback is left registered on a closed
socket, however the transport was closed. -/
theorem C256_no_callback_left_partial (address : Option Nat) (ops : List Op)
    (hc : ∀ op ∈ ops, Calm op) (h : (run (init address) ops).alive = false) :
    (run (init address) ops).reader = false ∧ (run (init address) ops).writer = false := by
  refine ⟨C256_reader_removed_partial address ops (Or.inr h), ?_⟩
  have ht := tidy_run ops _ hc (inv_init address) (tidy_init address)
  cases hw : (run (init address) ops).writer with
  | false => rfl
  | true => have := ht.alive (ht.need hw); rw [h] at this; cases this

example :
    let s := run (init none) [.addReader, .sendTo [1] (some 5) .blocked, .sendTo [2] (some 6) .ok,
      .writable [.ok], .abort none, .runSoon]
    s.alive = false ∧ s.reader = false ∧ s.writer = false ∧
      s.log = [.sent [1] (some 5), .dropped [([2], some 6)], .connectionLost none] := by decide

/-! ## C257 -/

theorem sendReady_all (buf : List (List Nat × Option Nat)) : ∀ s : T, s.alive = true →
    (∀ x ∈ buf, x.2 ≠ none) →
    sendReady s buf (List.replicate buf.length .ok) =
      readyEnd { s with buffer := [], log := s.log ++ buf.map (fun x => Ev.sent x.1 x.2) } := by
  induction buf with
  | nil => intro s _ _; simp [sendReady]
  | cons x r ih =>
    intro s hal ha
    obtain ⟨d, a⟩ := x
    have haa : a ≠ none := ha (d, a) List.mem_cons_self
    have hsend : sendto s a ((List.replicate ((d, a) :: r).length Out.ok).headD .blocked) = .ok := by
      unfold sendto
      rw [if_neg (by rw [hal]; decide), if_neg haa]
      rfl
    unfold sendReady
    rw [hsend]
    have ht : (List.replicate ((d, a) :: r).length Out.ok).tail = List.replicate r.length Out.ok := by
      simp [List.replicate_succ]
    rw [ht]
    show sendReady { s with buffer := r, log := s.log ++ [Ev.sent d a] } r _ = _
    rw [ih { s with buffer := r, log := s.log ++ [Ev.sent d a] } hal
      (fun x hx => ha x (List.mem_cons_of_mem _ hx))]
    simp

/-- **C257.** Closing a transport while datagrams wait: once the socket takes them, all were sent in
order, the protocol is told `connection_lost(None)` last, and nothing stays registered. -/
theorem C257_close_sends_what_waits (s : T) (hi : Inv s) (hc : s.closing = false)
    (hb : s.buffer ≠ []) (ha : ∀ x ∈ s.buffer, x.2 ≠ none) :
    let t := run s [.close, .writable (List.replicate s.buffer.length .ok)]
    t.log = s.log ++ s.buffer.map (fun x => Ev.sent x.1 x.2) ++
        (if s.paused then [.resumeWriting] else []) ++ [.connectionLost none] ∧
      t.buffer = [] ∧ t.alive = false ∧ t.reader = false ∧ t.writer = false := by
  obtain ⟨hw, hl, hal⟩ := hi.waits hb
  have hclose : close s = { s with closing := true, reader := false } := by
    unfold close; rw [if_neg (by rw [hc]; decide), if_neg hb]
  have hrun : run s [.close, .writable (List.replicate s.buffer.length .ok)] =
      readyEnd
        { s with
          closing := true
          reader := false
          buffer := []
          log := s.log ++ s.buffer.map (fun x => Ev.sent x.1 x.2) } := by
    show step (close s) (.writable _) = _
    rw [hclose]
    unfold step
    dsimp only
    rw [if_pos hw]
    exact sendReady_all s.buffer { s with closing := true, reader := false } hal ha
  dsimp only
  rw [hrun]
  unfold readyEnd maybeResume callLost
  cases hp : s.paused <;> simp [hal, size]

/-- **C257.** Closing a transport with nothing waiting: the protocol is told by the next callback
of the loop. -/
theorem C257_close_when_nothing_waits (s : T) (hi : Inv s) (hc : s.closing = false)
    (hb : s.buffer = []) :
    let t := run s [.close, .runSoon]
    t.log = s.log ++ [.connectionLost none] ∧ t.alive = false ∧ t.reader = false ∧ t.writer = false := by
  have hl : s.lost = false := by
    cases hx : s.lost with
    | false => rfl
    | true => rw [hi.lostC hx] at hc; cases hc
  have hal : s.alive = true := by
    cases hx : s.alive with
    | true => rfl
    | false => rw [hi.dead hx] at hc; cases hc
  have hs : s.soon = [] := by
    cases hx : s.soon with
    | nil => rfl
    | cons y ys => rw [hi.soonL (by rw [hx]; simp)] at hl; cases hl
  have hclose : close s =
      { s with closing := true, reader := false, lost := true, writer := false, soon := [none] } := by
    unfold close; rw [if_neg (by rw [hc]; decide), if_pos hb, hs]; rfl
  show (step (close s) .runSoon).log = _ ∧ (step (close s) .runSoon).alive = _ ∧
    (step (close s) .runSoon).reader = _ ∧ (step (close s) .runSoon).writer = _
  rw [hclose]
  unfold step callLost
  simp [hal]

example :
    let s := run (init none) [.addReader, .sendTo [1] (some 5) .blocked, .sendTo [2] (some 6) .ok]
    (run s [.close, .writable [.ok, .ok]]).log =
      [.sent [1] (some 5), .sent [2] (some 6), .connectionLost none] := by decide

/-! ## C258 -/

/-- Only the reason `e` may still be told. -/
structure Aborted (e : Option Nat) (s : T) : Prop where
  lost : s.lost = true
  closing : s.closing = true
  writer : s.writer = false
  reader : s.reader = false
  soon : ∀ x ∈ s.soon, x = e
  told : ∀ x, Ev.connectionLost x ∈ s.log → x = e
  pending : s.alive = true → s.soon ≠ []
  gone : s.alive = false → Ev.connectionLost e ∈ s.log

theorem aborted_step (e : Option Nat) (s : T) (op : Op) (h : Aborted e s) : Aborted e (step s op) := by
  have h0 := h
  obtain ⟨h1, h2, h3, h4, h5, h6, h7, h8⟩ := h
  cases op with
  | addReader => unfold step; dsimp only; rw [if_pos h2]; exact h0
  | sendTo d a o =>
    show Aborted e (sendTo s d a o).1
    unfold sendTo
    split
    · exact h0
    · split
      · exact h0
      · exact h0
  | writable outs => unfold step; dsimp only; rw [if_neg (by rw [h3]; decide)]; exact h0
  | readable d a o => unfold step; dsimp only; rw [if_neg (by rw [h4]; decide)]; exact h0
  | close => unfold step close; dsimp only; rw [if_pos h2]; exact h0
  | abort x => unfold step forceClose; dsimp only; rw [if_pos h1]; exact h0
  | runSoon =>
    unfold step; dsimp only
    split
    · exact h0
    · rename_i x r hs
      have hx : x = e := h5 x (by rw [hs]; simp)
      unfold callLost
      refine ⟨h1, h2, h3, h4, ?_, ?_, (by intro h; cases h), ?_⟩
      · intro y hy; exact h5 y (by rw [hs]; exact List.mem_cons_of_mem _ hy)
      · intro y hy
        dsimp only at hy
        rw [List.mem_append] at hy
        rcases hy with hy | hy
        · exact h6 y hy
        · split at hy
          · rw [List.mem_singleton] at hy; injection hy with hy; rw [hy, hx]
          · cases hy
      · intro _
        dsimp only
        rw [List.mem_append]
        cases hal : s.alive with
        | true => exact Or.inr (by simp [hx])
        | false => exact Or.inl (h8 hal)

theorem aborted_run (e : Option Nat) (ops : List Op) : ∀ s : T, Aborted e s → Aborted e (run s ops) := by
  induction ops with
  | nil => intro s h; exact h
  | cons op ops ih => intro s h; exact ih _ (aborted_step e s op h)

theorem aborted_forceClose (e : Option Nat) (s : T) (hi : Inv s) (ht : Tidy s) (hl : s.lost = false)
    (hal : s.alive = true) (hf : ∀ x, Ev.connectionLost x ∉ s.log) : Aborted e (forceClose s e) := by
  have hs : s.soon = [] := by
    cases hx : s.soon with
    | nil => rfl
    | cons y ys => rw [hi.soonL (by rw [hx]; simp)] at hl; cases hl
  unfold forceClose
  rw [if_neg (by rw [hl]; decide)]
  refine ⟨rfl, rfl, ?_, ?_, ?_, ?_, ?_, ?_⟩
  · dsimp only
    split
    · rename_i hb
      cases hw : s.writer with
      | false => rfl
      | true => exact absurd hb (ht.need hw)
    · rfl
  · dsimp only
    split
    · rename_i hc
      cases hr : s.reader with
      | false => rfl
      | true => rw [hi.rd hr] at hc; cases hc
    · rfl
  · dsimp only; rw [hs]; simp
  · dsimp only
    intro x hx
    rw [List.mem_append, List.mem_singleton] at hx
    rcases hx with hx | hx
    · exact absurd hx (hf x)
    · cases hx
  · dsimp only; rw [hs]; simp
  · intro h; dsimp only at h; rw [hal] at h; cases h

/-- **C258, part.** If no waiting datagram failed before, a protocol that was not told yet is told
the reason given to `abort` and no other, whatever happens afterwards; and it is told as soon as the
loop ran the callback. -/
theorem C258_abort_tells_its_reason_partial (address e : Option Nat) (ops after : List Op)
    (hc : ∀ op ∈ ops, Calm op) (hl : (run (init address) ops).lost = false)
    (hal : (run (init address) ops).alive = true) :
    (∀ x, Ev.connectionLost x ∈ (run (init address) (ops ++ Op.abort e :: after)).log → x = e) ∧
      Ev.connectionLost e ∈ (run (init address) (ops ++ [Op.abort e, Op.runSoon])).log := by
  have hi := inv_run ops _ (inv_init address)
  have ht := tidy_run ops _ hc (inv_init address) (tidy_init address)
  have hf := (good_run ops (init address) (inv_init address)
    ⟨by intro pre e post h; simp [init] at h, by intro _ e h; cases h⟩).fresh hal
  have hA := aborted_forceClose e _ hi ht hl hal hf
  constructor
  · rw [run_append]
    exact (aborted_run e after _ hA).told
  · rw [run_append]
    have h2 : Aborted e (step (forceClose (run (init address) ops) e) .runSoon) :=
      aborted_step e _ .runSoon hA
    apply h2.gone
    have hne : (forceClose (run (init address) ops) e).soon ≠ [] := by
      unfold forceClose; rw [if_neg (by rw [hl]; decide)]; simp
    show (step (forceClose (run (init address) ops) e) .runSoon).alive = false
    generalize forceClose (run (init address) ops) e = u at hne
    unfold step
    dsimp only
    split
    · rename_i hs; exact absurd hs hne
    · rfl

/-- **C258, violated.** A refused datagram leaves the writer registered with nothing waiting; abort
with the exception 7, and the socket being writable before the scheduled call runs: the protocol is
told `None`, and never the exception. -/
theorem C258_abort_reason_lost_violated (after : List Op) :
    (∀ x, Ev.connectionLost x ∈ (run (init (some 9)) ([.sendTo [1] none .blocked, .writable [.os],
      .abort (some 7), .writable []] ++ after)).log → x = none) ∧
    Ev.connectionLost none ∈ (run (init (some 9)) [.sendTo [1] none .blocked, .writable [.os],
      .abort (some 7), .writable []]).log := by
  constructor
  · rw [run_append]
    have key : ∀ (ops : List Op) (s : T), s.lost = true → s.closing = true → s.alive = false →
        s.writer = false → s.reader = false → (∀ x, Ev.connectionLost x ∈ s.log → x = none) →
        ∀ x, Ev.connectionLost x ∈ (run s ops).log → x = none := by
      intro ops
      induction ops with
      | nil => intro s _ _ _ _ _ h; exact h
      | cons op ops ih =>
        intro s h1 h2 h3 h4 h5 h6
        show ∀ x, Ev.connectionLost x ∈ (run (step s op) ops).log → x = none
        have hs : (∃ r, step s op = { s with soon := r }) := by
          cases op with
          | addReader => exact ⟨s.soon, by unfold step; dsimp only; rw [if_pos h2]⟩
          | sendTo d a o =>
            refine ⟨s.soon, ?_⟩
            show (sendTo s d a o).1 = s
            unfold sendTo
            split
            · rfl
            · split <;> rfl
          | writable outs =>
            exact ⟨s.soon, by unfold step; dsimp only; rw [if_neg (by rw [h4]; decide)]⟩
          | readable d a o =>
            exact ⟨s.soon, by unfold step; dsimp only; rw [if_neg (by rw [h5]; decide)]⟩
          | close => exact ⟨s.soon, by unfold step close; dsimp only; rw [if_pos h2]⟩
          | abort e => exact ⟨s.soon, by unfold step forceClose; dsimp only; rw [if_pos h1]⟩
          | runSoon =>
            cases hsn : s.soon with
            | nil =>
              refine ⟨s.soon, ?_⟩
              unfold step
              dsimp only
              split
              · rfl
              · rename_i hc; rw [hsn] at hc; cases hc
            | cons y ys =>
              refine ⟨ys, ?_⟩
              unfold step callLost
              dsimp only
              rw [hsn]
              simp [h3]
        obtain ⟨r, hr⟩ := hs
        rw [hr]
        exact ih _ h1 h2 h3 h4 h5 h6
    apply key after _ (by decide) (by decide) (by decide) (by decide) (by decide)
    intro x hx
    have hlog : (run (init (some 9)) [.sendTo [1] none .blocked, .writable [.os],
      .abort (some 7), .writable []]).log = [.failed [1] (some 9), .errorReceived, .dropped [],
        .connectionLost none] := by decide
    rw [hlog] at hx
    simpa using hx
  · decide

/-! ## C259 -/

/-- **C259.** A protocol told to pause on a working transport waits for a writer that is
registered. -/
theorem C259_paused_has_writer (address : Option Nat) (ops : List Op)
    (hp : (run (init address) ops).paused = true) (hl : (run (init address) ops).lost = false)
    (hal : (run (init address) ops).alive = true) : (run (init address) ops).writer = true :=
  (inv_run ops _ (inv_init address)).pz hp hl hal

/-- **C259.** And it is resumed once the socket takes what waits. -/
theorem C259_resumed_when_sent (address : Option Nat) (ops : List Op)
    (hp : (run (init address) ops).paused = true) (hl : (run (init address) ops).lost = false)
    (hal : (run (init address) ops).alive = true)
    (ha : ∀ x ∈ (run (init address) ops).buffer, x.2 ≠ none) :
    let s := run (init address) ops
    let t := step s (.writable (List.replicate s.buffer.length .ok))
    t.paused = false ∧ Ev.resumeWriting ∈ t.log := by
  have hw := C259_paused_has_writer address ops hp hl hal
  dsimp only
  generalize run (init address) ops = s at *
  have : step s (.writable (List.replicate s.buffer.length .ok)) =
      readyEnd { s with buffer := [], log := s.log ++ s.buffer.map (fun x => Ev.sent x.1 x.2) } := by
    unfold step
    dsimp only
    rw [if_pos hw]
    exact sendReady_all s.buffer s hal ha
  rw [this]
  unfold readyEnd maybeResume callLost
  cases hc : s.closing <;> simp [hp, hal, size]

theorem pause_of_size (s : T) (hbig : size s.buffer > s.high) : (maybePause s).paused = true := by
  unfold maybePause
  rw [if_neg (by omega)]
  split
  · assumption
  · rfl

/-- The number of bytes waiting, computed from the datagrams. -/
def waiting (b : List (List Nat × Option Nat)) : Nat := (b.map (fun x => x.1.length)).sum

theorem size_eq (b : List (List Nat × Option Nat)) : size b = waiting b := by
  induction b with
  | nil => rfl
  | cons x r ih => obtain ⟨d, a⟩ := x; simp [size, waiting, ih]

/-- **C259.** A datagram that has to wait and makes more than the high limit wait pauses the
protocol. -/
theorem C259_paused_when_full (s : T) (d : List Nat) (a : Nat) (o : Out) (hl : s.lost = false)
    (hb : s.buffer ≠ []) (hd : d ≠ []) (ht : s.address = none ∨ s.address = some a)
    (hbig : waiting s.buffer + d.length > s.high) :
    (step s (.sendTo d (some a) o)).paused = true := by
  have htar : target s (some a) = some (some a) := by
    unfold target
    rcases ht with ht | ht <;> simp [ht]
  show (sendTo s d (some a) o).1.paused = true
  unfold sendTo
  rw [if_neg hd, htar]
  simp only [hl, Bool.false_eq_true, if_false]
  unfold sendTaken
  rw [if_neg hb]
  apply pause_of_size
  dsimp only
  rw [size_eq]
  simpa [waiting] using hbig

example :
    let s := run { init none with high := 3, low := 1 } [.sendTo [1, 2] (some 5) .blocked, .sendTo [3, 4] (some 5) .ok]
    s.paused = true ∧ s.log = [.pauseWriting] ∧
      (step s (.writable [.ok, .ok])).log =
        [.pauseWriting, .sent [1, 2] (some 5), .sent [3, 4] (some 5), .resumeWriting] := by decide

end Verif.Datagram
