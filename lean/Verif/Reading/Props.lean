import Verif.Reading.Model

/-!
# C273–C278: what a stream protocol is told, pausing, readers of closed sockets
-/

namespace Verif.Reading

theorem induct (P : S → Prop) (hstep : ∀ s op, P s → P (step s op)) (ops : List Op) :
    ∀ s, P s → P (run s ops) := by
  induction ops with
  | nil => intro s h; exact h
  | cons op ops ih => intro s h; exact ih _ (hstep s op h)

theorem induct_of (Q : Op → Prop) (P : S → Prop) (hstep : ∀ s op, Q op → P s → P (step s op))
    (ops : List Op) : ∀ s, (∀ op ∈ ops, Q op) → P s → P (run s ops) := by
  induction ops with
  | nil => intro s _ h; exact h
  | cons op ops ih =>
    intro s hq h
    exact ih _ (fun x hx => hq x (List.mem_cons_of_mem _ hx)) (hstep s op (hq op List.mem_cons_self) h)

/-- The facts kept by every step. -/
structure Inv (s : S) : Prop where
  fresh : s.stage = .fresh → s.log = [] ∧ s.reader = false ∧ s.lost = false ∧ s.alive = true ∧
    s.closing = false ∧ s.buf = false ∧ s.paused = false
  queue : s.lost = false → s.losts = []
  dead : s.alive = false → s.sock = false
  gone : s.sock = false → s.alive = false
  shut : s.lost = true → s.closing = true
  over : s.alive = false → s.closing = true
  buf : s.lost = true → s.buf = false
  one : s.losts.length ≤ 1

set_option maxHeartbeats 4000000 in
theorem inv_step (s : S) (op : Op) (h : Inv s) : Inv (step s op) := by
  have h0 := h
  obtain ⟨h1, h3, h4, h5, h6, h7, h8, h9⟩ := h
  unfold step
  split
  · split
    · constructor <;> dsimp only <;> grind
    · exact h0
  · cases op <;> unfold stepMade <;> dsimp only <;> (try unfold readReady) <;> (try unfold close) <;>
      (try unfold forceClose) <;> (try unfold callLost) <;> (try dsimp only) <;> (repeat' split) <;>
      first
        | exact h0
        | (constructor <;> dsimp only <;> grind)

theorem inv_start : Inv start := by
  constructor <;> simp [start]

theorem inv_run (ops : List Op) : Inv (run start ops) :=
  induct Inv inv_step ops start inv_start

/-! ## C273: readers of closed sockets -/

/-- **C273, violated.** A protocol closes its transport in `connection_made`: the reader is added
afterwards and, with the socket closed, stays registered for ever. -/
theorem C273_reader_stays_violated (ops : List Op) :
    let s := run start ([.turn, .close, .turn, .turn] ++ ops)
    s.sock = false ∧ s.reader = true := by
  have key := induct (fun s => s.stage = .reading ∧ s.sock = false ∧ s.reader = true ∧ s.lost = true ∧
    s.closing = true ∧ s.paused = false ∧ s.alive = false) (by
      intro s op ⟨h1, h2, h3, h4, h5, h6, h7⟩
      unfold step
      rw [h1]
      dsimp only
      cases op <;> unfold stepMade <;> dsimp only <;> (try unfold readReady) <;> (try unfold close) <;>
        (try unfold forceClose) <;> (try unfold callLost) <;> (try dsimp only) <;> (repeat' split) <;> grind)
    ops (run start [.turn, .close, .turn, .turn]) (by decide)
  rw [run_append]
  exact ⟨key.2.1, key.2.2.1⟩

/-- **C273, violated.** So it does when the transport is aborted there. -/
theorem C273_reader_stays_aborted_violated (e : Option Nat) (ops : List Op) :
    let s := run start ([.turn, .abort e, .turn, .turn] ++ ops)
    s.sock = false ∧ s.reader = true := by
  have key := induct (fun s => s.stage = .reading ∧ s.sock = false ∧ s.reader = true ∧ s.lost = true ∧
    s.closing = true ∧ s.paused = false ∧ s.alive = false) (by
      intro s op ⟨h1, h2, h3, h4, h5, h6, h7⟩
      unfold step
      rw [h1]
      dsimp only
      cases op <;> unfold stepMade <;> dsimp only <;> (try unfold readReady) <;> (try unfold close) <;>
        (try unfold forceClose) <;> (try unfold callLost) <;> (try dsimp only) <;> (repeat' split) <;> grind)
    ops (run start [.turn, .abort e, .turn, .turn]) (by
      simp [run, step, start, stepMade, forceClose, callLost])
  rw [run_append]
  exact ⟨key.2.1, key.2.2.1⟩

/-- While closing there is no reader. -/
theorem quiet_step (s : S) (op : Op) (h : s.stage = .reading ∧ (s.closing = true → s.reader = false)) :
    (step s op).stage = .reading ∧ ((step s op).closing = true → (step s op).reader = false) := by
  obtain ⟨h1, h2⟩ := h
  unfold step
  rw [h1]
  dsimp only
  cases op <;> unfold stepMade <;> dsimp only <;> (try unfold readReady) <;> (try unfold close) <;>
    (try unfold forceClose) <;> (try unfold callLost) <;> (try dsimp only) <;> (repeat' split) <;> grind

/-- **C273, part.** If the transport is not closed before its reader was added, a closing or closed
transport has no reader. -/
theorem C273_no_reader_partial (before ops : List Op) (hs : (run start before).stage = .reading)
    (hc : (run start before).closing = false) (h : (run start (before ++ ops)).closing = true) :
    (run start (before ++ ops)).reader = false := by
  rw [run_append] at h ⊢
  exact (induct (fun s => s.stage = .reading ∧ (s.closing = true → s.reader = false)) quiet_step ops _
    ⟨hs, fun hx => by rw [hc] at hx; cases hx⟩).2 h

example : (run start [.turn, .turn, .readable (.data 3), .readable (.error 4)]).reader = false ∧
    (run start [.turn, .turn, .readable (.data 3)]).reader = true := by decide

/-! ## C274: nothing is read after closing -/

/-- **C274, violated.** A protocol writes more than the socket takes and closes in `connection_made`:
afterwards it is told data. -/
theorem C274_data_after_close_violated (d : Nat) :
    (run start [.turn, .buffered, .close]).closing = true ∧
      (run start ([.turn, .buffered, .close] ++ [.turn, .readable (.data d)])).log = [.made, .data d] := by
  constructor
  · decide
  · simp [run, step, start, stepMade, close, readReady]

/-- What comes from the socket. -/
inductive FromPeer : Ev → Prop
  | data d : FromPeer (.data d)
  | eof : FromPeer .eof

theorem silent_step (s : S) (op : Op)
    (h : s.stage = .reading ∧ s.closing = true ∧ s.reader = false) :
    ((step s op).stage = .reading ∧ (step s op).closing = true ∧ (step s op).reader = false) ∧
      ∃ l, (step s op).log = s.log ++ l ∧ ∀ x ∈ l, ¬ FromPeer x := by
  obtain ⟨h1, h2, h3⟩ := h
  have hl : ∀ e, ¬ FromPeer (.lost e) := by intro e he; cases he
  unfold step
  rw [h1]
  dsimp only
  cases op <;> unfold stepMade <;> dsimp only <;> (try unfold readReady) <;> (try unfold close) <;>
    (try unfold forceClose) <;> (try unfold callLost) <;> (try dsimp only) <;> (repeat' split) <;>
    first
      | (exfalso; grind; done)
      | (refine ⟨?_, [], ?_, ?_⟩ <;> first | grind | simp; done)
      | (refine ⟨?_, [_], rfl, ?_⟩
         · grind
         · intro x hx; rw [List.mem_singleton] at hx; subst hx; exact hl _)

/-- **C274, part.** If the reader was added before, nothing from the peer is told after the transport
began to close. -/
theorem C274_nothing_after_close_partial (before middle ops : List Op)
    (hs : (run start before).stage = .reading) (hc : (run start before).closing = false)
    (h : (run start (before ++ middle)).closing = true) :
    ∃ l, (run start (before ++ middle ++ ops)).log = (run start (before ++ middle)).log ++ l ∧
      ∀ x ∈ l, ¬ FromPeer x := by
  have hq := induct (fun s => s.stage = .reading ∧ (s.closing = true → s.reader = false)) quiet_step
    middle (run start before) ⟨hs, fun hx => by rw [hc] at hx; cases hx⟩
  rw [run_append start before middle] at h
  rw [run_append start (before ++ middle), run_append start before middle]
  generalize run (run start before) middle = s at *
  have h0 : s.stage = .reading ∧ s.closing = true ∧ s.reader = false := ⟨hq.1, h, hq.2 h⟩
  clear hq h
  induction ops generalizing s with
  | nil => exact ⟨[], by simp [run], by simp⟩
  | cons op ops ih =>
    obtain ⟨ha, l, hl, hn⟩ := silent_step s op h0
    obtain ⟨l', hl', hn'⟩ := ih (step s op) ha
    refine ⟨l ++ l', ?_, ?_⟩
    · show (run (step s op) ops).log = _
      rw [hl', hl, List.append_assoc]
    · intro x hx
      rcases List.mem_append.1 hx with hx | hx
      · exact hn x hx
      · exact hn' x hx

example : (run start [.turn, .turn, .buffered, .close, .readable (.data 3), .drained]).log =
    [.made, .lost none] := by decide

/-! ## C275: pausing -/

/-- **C275, violated.** A protocol which pauses reading in `connection_made` is told data. -/
theorem C275_paused_protocol_is_told_violated (d : Nat) :
    let s := run start [.turn, .pause, .turn, .readable (.data d)]
    s.paused = true ∧ s.log = [.made, .data d] := by
  simp [run, step, start, stepMade, readReady]

theorem paused_step (s : S) (op : Op) (h : s.stage = .reading ∧ (s.paused = true → s.reader = false)) :
    (step s op).stage = .reading ∧ ((step s op).paused = true → (step s op).reader = false) := by
  obtain ⟨h1, h2⟩ := h
  unfold step
  rw [h1]
  dsimp only
  cases op <;> unfold stepMade <;> dsimp only <;> (try unfold readReady) <;> (try unfold close) <;>
    (try unfold forceClose) <;> (try unfold callLost) <;> (try dsimp only) <;> (repeat' split) <;> grind

/-- **C275, part.** Reading which is paused after the reader was added is paused: what the socket has
changes nothing. -/
theorem C275_paused_partial (before ops : List Op) (hs : (run start before).stage = .reading)
    (hp : (run start before).paused = false) (h : (run start (before ++ ops)).paused = true) (r : Recv) :
    run start (before ++ ops ++ [.readable r]) = run start (before ++ ops) := by
  have hq := induct (fun s => s.stage = .reading ∧ (s.paused = true → s.reader = false)) paused_step
    ops (run start before) ⟨hs, fun hx => by rw [hp] at hx; cases hx⟩
  rw [run_append start before ops] at h
  rw [run_append start (before ++ ops), run_append start before ops]
  generalize run (run start before) ops = s at *
  show step s (.readable r) = s
  unfold step
  rw [hq.1]
  unfold stepMade
  dsimp only
  rw [if_neg (by rw [hq.2 h]; decide)]

/-- **C275.** Resuming a paused transport that is not closing makes it read again. -/
theorem C275_resumed_reads_partial (s : S) (d : Nat) (hf : s.stage ≠ .fresh) (hp : s.paused = true)
    (hc : s.closing = false) (hl : s.lost = false) (hk : s.sock = true) :
    (run s [.resume, .readable (.data d)]).log = s.log ++ [.data d] := by
  have hst : s.stage = .made ∨ s.stage = .reading := by
    cases h : s.stage with
    | fresh => exact absurd h hf
    | made => exact Or.inl rfl
    | reading => exact Or.inr rfl
  rcases hst with h | h <;> simp [run, step, h, stepMade, hp, hc, readReady, hl, hk]

/-- **C275.** Pausing twice, and resuming what is not paused, changes nothing. -/
theorem C275_idempotent_partial (s : S) :
    step (step s .pause) .pause = step s .pause ∧ step (step s .resume) .resume = step s .resume := by
  constructor
  · unfold step
    cases h : s.stage <;> dsimp only <;> (try rw [h]) <;> (try rfl) <;> unfold stepMade <;> dsimp only <;>
      (repeat' split) <;> simp_all
  · unfold step
    cases h : s.stage <;> dsimp only <;> (try rw [h]) <;> (try rfl) <;> unfold stepMade <;> dsimp only <;>
      (repeat' split) <;> simp_all

example :
    let s := run start [.turn, .turn, .pause]
    s.paused = true ∧ (run s [.readable (.data 1), .resume, .readable (.data 2)]).log = [.made, .data 2] := by
  decide

/-! ## C276: the end of the stream -/

/-- **C276, violated.** A protocol which keeps the connection behind the end of the stream, pauses and
resumes, is told the end again. -/
theorem C276_eof_again_violated :
    (run start [.turn, .turn, .readable (.eof true), .pause, .resume, .readable (.eof true)]).log =
      [.made, .eof, .eof] := by decide

theorem deaf_step (s : S) (op : Op) (hop : op ≠ .resume)
    (h : s.stage = .reading ∧ s.reader = false) :
    ((step s op).stage = .reading ∧ (step s op).reader = false) ∧
      ∃ l, (step s op).log = s.log ++ l ∧ ∀ x ∈ l, ¬ FromPeer x := by
  obtain ⟨h1, h3⟩ := h
  have hl : ∀ e, ¬ FromPeer (.lost e) := by intro e he; cases he
  unfold step
  rw [h1]
  dsimp only
  cases op <;> unfold stepMade <;> dsimp only <;> (try unfold readReady) <;> (try unfold close) <;>
    (try unfold forceClose) <;> (try unfold callLost) <;> (try dsimp only) <;> (repeat' split) <;>
    first
      | exact absurd rfl hop
      | (exfalso; grind; done)
      | (refine ⟨?_, [], ?_, ?_⟩ <;> first | grind | simp; done)
      | (refine ⟨?_, [_], rfl, ?_⟩
         · grind
         · intro x hx; rw [List.mem_singleton] at hx; subst hx; exact hl _)

/-- **C276, part.** After the end of the stream was told, and unless reading is resumed, neither data
nor the end is told any more. -/
theorem C276_nothing_after_eof_partial (before ops : List Op) (keep : Bool)
    (hr : (run start before).reader = true) (hs : (run start before).stage = .reading)
    (hl : (run start before).lost = false) (hk : (run start before).sock = true)
    (hops : ∀ op ∈ ops, op ≠ .resume)
    (hc : keep = true ∨ (run start before).closing = false) :
    ∃ l, (run start (before ++ .readable (.eof keep) :: ops)).log =
      (run start before).log ++ [.eof] ++ l ∧ ∀ x ∈ l, ¬ FromPeer x := by
  rw [run_append]
  generalize run start before = s at *
  have h1 : (step s (.readable (.eof keep))).stage = .reading ∧
      (step s (.readable (.eof keep))).reader = false ∧
      (step s (.readable (.eof keep))).log = s.log ++ [.eof] := by
    unfold step stepMade
    rw [hs]
    dsimp only
    rw [if_pos hr]
    unfold readReady
    rw [if_neg (by rw [hl]; decide), if_pos hk]
    cases keep with
    | true => exact ⟨hs, rfl, rfl⟩
    | false =>
      dsimp only
      unfold close
      rcases hc with hc | hc
      · cases hc
      · dsimp only
        rw [if_neg (by rw [hc]; decide)]
        split
        · exact ⟨hs, rfl, rfl⟩
        · exact ⟨hs, rfl, rfl⟩
  show ∃ l, (run (step s (.readable (.eof keep))) ops).log = _ ∧ _
  rw [← h1.2.2]
  generalize step s (.readable (.eof keep)) = t at h1
  have h0 : t.stage = .reading ∧ t.reader = false := ⟨h1.1, h1.2.1⟩
  clear h1
  induction ops generalizing t with
  | nil => exact ⟨[], by simp [run], by simp⟩
  | cons op ops ih =>
    obtain ⟨ha, l, hl, hn⟩ := deaf_step t op (hops op List.mem_cons_self) h0
    obtain ⟨l', hl', hn'⟩ := ih (fun x hx => hops x (List.mem_cons_of_mem _ hx)) (step t op) ha
    refine ⟨l ++ l', ?_, ?_⟩
    · show (run (step t op) ops).log = _
      rw [hl', hl, List.append_assoc]
    · intro x hx
      rcases List.mem_append.1 hx with hx | hx
      · exact hn x hx
      · exact hn' x hx

example : (run start [.turn, .turn, .readable (.eof true), .readable (.eof true), .buffered, .drained,
    .close, .turn]).log = [.made, .eof, .lost none] := by decide

/-! ## C277: the order of what is told -/

/-- What a protocol may be told: it is connected, then things from the peer, at the end that the
connection is lost. -/
inductive Story : List Ev → Bool → Prop
  | nothing : Story [] true
  | made : Story [.made] true
  | more l x : Story l true → l ≠ [] → FromPeer x → Story (l ++ [x]) true
  | lost l e : Story l true → l ≠ [] → Story (l ++ [.lost e]) false

theorem story_step (s : S) (op : Op) (h0 : Inv s)
    (h : Story s.log s.alive ∧ (s.stage ≠ .fresh → s.log ≠ [])) :
    Story (step s op).log (step s op).alive ∧ ((step s op).stage ≠ .fresh → (step s op).log ≠ []) := by
  obtain ⟨h1, h2⟩ := h
  unfold step
  split
  · rename_i hf
    have := h0.fresh hf
    split
    · dsimp only
      rw [this.1, this.2.2.2.1]
      exact ⟨.made, fun _ => by simp⟩
    · exact ⟨h1, h2⟩
  · rename_i hf
    have hne := h2 hf
    have hg := h0.dead
    cases ha : s.alive with
    | false =>
      have hk := hg ha
      cases op <;> unfold stepMade <;> dsimp only <;> (try unfold readReady) <;> (try unfold close) <;>
        (try unfold forceClose) <;> (try unfold callLost) <;> (try dsimp only) <;> (repeat' split) <;>
        first
          | exact ⟨h1, h2⟩
          | exact ⟨h1, fun _ => hne⟩
          | (refine ⟨?_, fun _ => ?_⟩ <;> simp_all)
    | true =>
      rw [ha] at h1
      cases op <;> unfold stepMade <;> dsimp only <;> (try unfold readReady) <;> (try unfold close) <;>
        (try unfold forceClose) <;> (try unfold callLost) <;> (try dsimp only) <;> (repeat' split) <;>
        first
          | exact ⟨ha ▸ h1, h2⟩
          | exact ⟨ha ▸ h1, fun _ => hne⟩
          | exact ⟨ha ▸ Story.more _ _ h1 hne (.data _), fun _ => by simp⟩
          | exact ⟨ha ▸ Story.more _ _ h1 hne .eof, fun _ => by simp⟩
          | exact ⟨Story.lost _ _ h1 hne, fun _ => by simp⟩
          | simp_all

/-- **C277.** A protocol is told first that it is connected, then what comes from the peer, and the
loss of the connection once and last. -/
theorem C277_story (ops : List Op) : Story (run start ops).log (run start ops).alive := by
  have key := induct (fun s => Inv s ∧ Story s.log s.alive ∧ (s.stage ≠ .fresh → s.log ≠ []))
    (fun s op h => ⟨inv_step s op h.1, story_step s op h.1 h.2⟩) ops start
    ⟨inv_start, .nothing, fun h => absurd rfl h⟩
  exact key.2.1

example : (run start [.turn, .abort (some 2), .turn, .buffered, .readable (.data 1), .turn, .turn, .close,
    .abort none]).log = [.made, .lost (some 2)] := by decide

/-! ## C278: the reason of a failed read -/

/-- The loss is going to be told with this reason, or was. -/
theorem reason_step (s : S) (op : Op) (e : Option Nat)
    (h : s.stage = .reading ∧ s.lost = true ∧ s.closing = true ∧ s.buf = false ∧
      ((s.alive = true ∧ s.losts = [e] ∧ ∀ x, .lost x ∉ s.log) ∨
       (s.alive = false ∧ s.losts = [] ∧ .lost e ∈ s.log ∧ ∀ x, .lost x ∈ s.log → x = e))) :
    (step s op).stage = .reading ∧ (step s op).lost = true ∧ (step s op).closing = true ∧
      (step s op).buf = false ∧
      (((step s op).alive = true ∧ (step s op).losts = [e] ∧ ∀ x, .lost x ∉ (step s op).log) ∨
       ((step s op).alive = false ∧ (step s op).losts = [] ∧ .lost e ∈ (step s op).log ∧
        ∀ x, .lost x ∈ (step s op).log → x = e)) := by
  obtain ⟨h1, h2, h3, h4, h5⟩ := h
  unfold step
  rw [h1]
  dsimp only
  cases op <;> unfold stepMade <;> dsimp only <;> (try unfold readReady) <;> (try unfold close) <;>
    (try unfold forceClose) <;> (try unfold callLost) <;> (try dsimp only) <;> (repeat' split) <;> grind

theorem story_no_lost {l : List Ev} (h : Story l true) (x : Option Nat) : .lost x ∉ l := by
  generalize hb : true = b at h
  induction h with
  | nothing => simp
  | made => simp
  | more l y _ _ hy ih =>
    intro hm
    rcases List.mem_append.1 hm with hm | hm
    · exact ih rfl hm
    · simp at hm; subst hm; cases hy
  | lost l e _ _ _ => cases hb

/-- **C278.** When reading fails, the reason, and no other, is told to the
protocol by the next callback; the loss of the connection was not told yet. -/
theorem C278_reason_told (before ops : List Op) (e : Nat)
    (hr : (run start before).reader = true) (hl : (run start before).lost = false)
    (hs : (run start before).stage = .reading) (hk : (run start before).sock = true) :
    (Ev.lost (some e) ∈ (run start (before ++ [.readable (.error e), .turn])).log) ∧
      ∀ x, Ev.lost x ∈ (run start (before ++ .readable (.error e) :: ops)).log → x = some e := by
  have hi := inv_run before
  have hst := C277_story before
  rw [run_append, run_append]
  generalize run start before = s at *
  have ha : s.alive = true := by
    cases h : s.alive with
    | true => rfl
    | false => have := hi.dead h; rw [hk] at this; cases this
  rw [ha] at hst
  have hq := hi.queue hl
  have h0 : (step s (.readable (.error e))).stage = .reading ∧ (step s (.readable (.error e))).lost = true ∧
      (step s (.readable (.error e))).closing = true ∧ (step s (.readable (.error e))).buf = false ∧
      (((step s (.readable (.error e))).alive = true ∧ (step s (.readable (.error e))).losts = [some e] ∧
        ∀ x, .lost x ∉ (step s (.readable (.error e))).log) ∨
       ((step s (.readable (.error e))).alive = false ∧ (step s (.readable (.error e))).losts = [] ∧
        .lost (some e) ∈ (step s (.readable (.error e))).log ∧
        ∀ x, .lost x ∈ (step s (.readable (.error e))).log → x = some e)) := by
    have hn := fun x => story_no_lost hst x
    unfold step stepMade readReady forceClose
    rw [hs]
    dsimp only
    rw [if_pos hr, if_neg (by rw [hl]; decide), if_pos hk, if_neg (by rw [hl]; decide)]
    exact ⟨rfl, rfl, rfl, rfl, Or.inl ⟨ha, by rw [hq]; rfl, hn⟩⟩
  constructor
  · show Ev.lost (some e) ∈ (step (step s (.readable (.error e))) .turn).log
    rcases h0 with ⟨h1, h2, h3, h4, ⟨h5, h6, h7⟩ | ⟨h5, h6, h7, h8⟩⟩
    · generalize step s (.readable (.error e)) = t at *
      unfold step stepMade
      rw [h1]
      dsimp only
      rw [h6]
      dsimp only
      unfold callLost
      dsimp only
      rw [if_pos h5]
      simp
    · generalize step s (.readable (.error e)) = t at *
      unfold step stepMade
      rw [h1]
      dsimp only
      rw [h6]
      exact h7
  · intro x hx
    have key := induct _ (fun s op h => reason_step s op (some e) h) ops _ h0
    change Ev.lost x ∈ (run (step s (.readable (.error e))) ops).log at hx
    rcases key.2.2.2.2 with ⟨_, _, h7⟩ | ⟨_, _, _, h8⟩
    · exact absurd hx (h7 x)
    · exact h8 x hx

example :
    let s := run start [.turn, .turn, .buffered]
    s.reader = true ∧ s.lost = false ∧ s.sock = true ∧
      (run s [.readable (.error 9), .close, .drained, .turn]).log = [.made, .lost (some 9)] := by decide

end Verif.Reading
