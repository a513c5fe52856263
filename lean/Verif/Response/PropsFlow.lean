import Verif.Response.PropsWhole

/-! C243, C246, C247: what goes wrong; C244: which connections are kept. -/
namespace Verif.Response

/-- A body being received: so much of it arrived, so many bytes are still to come. -/
def mid (p : Nat) (f : Bool) (m : Msg) (got : Bytes) (r : Nat) : State :=
  { method := .other, performed := p, forceClose := f, message := some m, has := true, reader := some (.left r), set := true, chunks := got,
    watched := true }

theorem received_fresh (p : Nat) (f : Bool) (a : Bytes) : received (fresh .other p f) a = { fresh .other p f with buffer := a } := rfl

theorem started (p n : Nat) (f : Bool) (m : Msg) (a : Bytes) (hb : m.body = .exactly n) (hn : a.length < n) :
    run (fresh .other p f) [.receive a, .start m] = mid p f m a (n - a.length) := by
  show start (received (fresh .other p f) a) m = _
  rw [received_fresh]
  unfold start
  dsimp only [fresh]
  rw [hb]
  unfold setReader
  dsimp only
  rw [if_neg (show ¬ (false = true) by decide), if_neg (show ¬ n ≤ a.length by omega), if_neg (show ¬ (false = true) by decide)]
  rfl

theorem started_nil (p n : Nat) (f : Bool) (m : Msg) (hb : m.body = .exactly n) (hn : 0 < n) :
    step (fresh .other p f) (.start m) = mid p f m [] n := by
  have := started p n f m [] hb hn
  rw [← (by rfl : n - ([] : Bytes).length = n), ← this]
  rfl

theorem received_mid (p : Nat) (f : Bool) (m : Msg) (got bs : Bytes) (r : Nat) (h : bs.length < r) :
    received (mid p f m got r) bs = mid p f m (got ++ bs) (r - bs.length) := by
  unfold received mid
  dsimp only
  rw [if_pos h]

/-- The last of a body: the stream is finished while the protocol still holds it. -/
theorem received_last (p : Nat) (f : Bool) (m : Msg) (got bs : Bytes) (r : Nat) (h : r ≤ bs.length) (hu : m.upgraded = false) :
    received (mid p f m got r) bs =
      { method := .other, performed := p, forceClose := f, message := some m, has := true, chunks := got ++ bs.take r, buffer := bs.drop r,
        done := some .success, given := [.closed], conn := false, proto := false, released := true, closed := true,
        writer := .cancelled } := by
  unfold received mid
  dsimp only
  rw [if_neg (by omega)]
  unfold finish runCallbacks
  dsimp only
  rw [if_neg (by decide), if_pos rfl, if_neg (by decide), responseEof_eq rfl rfl rfl (by exact hu), decideGive_set rfl]
  rfl

theorem received_done {s : State} (h : s.reader = none) (ps : List Bytes) :
    run s (ps.map .receive) = { s with buffer := s.buffer ++ ps.flatten } := by
  induction ps generalizing s with
  | nil => simp [run]
  | cons b ps ih =>
    show run (received s b) (ps.map .receive) = _
    have : received s b = { s with buffer := s.buffer ++ b } := by unfold received; rw [h]
    rw [this, ih (s := { s with buffer := s.buffer ++ b }) h]
    simp

theorem pieces {p : Nat} {f : Bool} {m : Msg} (hu : m.upgraded = false) (ps : List Bytes) :
    ∀ (got : Bytes) (r : Nat), 0 < r → r ≤ ps.flatten.length →
      ∃ t : State, run (mid p f m got r) (ps.map .receive) = t ∧ t.given = [.closed] ∧ t.done = some .success ∧ t.has = true ∧
        t.reading = false ∧ t.outs = [] ∧ t.chunks = (got ++ ps.flatten).take (got.length + r) := by
  induction ps with
  | nil => intro got r hr h; simp at h; omega
  | cons b ps ih =>
    intro got r hr h
    show ∃ t, run (received (mid p f m got r) b) (ps.map .receive) = t ∧ _
    by_cases hb : b.length < r
    · rw [received_mid _ _ _ _ _ _ hb]
      obtain ⟨t, e1, e2, e3, e4, e5, e6, e7⟩ := ih (got ++ b) (r - b.length) (by omega) (by rw [List.flatten_cons, List.length_append] at h; omega)
      refine ⟨t, e1, e2, e3, e4, e5, e6, ?_⟩
      rw [e7]
      simp only [List.flatten_cons, List.append_assoc, List.length_append]
      congr 1
      omega
    · rw [received_last _ _ _ _ _ _ (by omega) hu, received_done rfl]
      refine ⟨_, rfl, rfl, rfl, rfl, rfl, rfl, ?_⟩
      show got ++ b.take r = _
      rw [List.flatten_cons, List.take_length_add_append, List.take_append_of_le_length (by omega)]

/-- C244 does not hold as stated. When anything of the body arrives after the head was read, the connection is closed at the end of the
response, although the message permits another request and nothing more was sent: `data_received` finishes the stream before it lets go of it,
and `should_close` finds it there. It is so for every body and every way it is cut in pieces. The whole body can be read. -/
theorem C244_reused_violated (performed n : Nat) (force : Bool) (m : Msg) (first : Bytes) (rest : List Bytes) (hb : m.body = .exactly n)
    (hu : m.upgraded = false) (hf : first.length < n) (hn : first.length + rest.flatten.length = n) :
    (run (fresh .other performed force) ([.receive first, .start m] ++ rest.map .receive)).given = [.closed] ∧
      (run (fresh .other performed force) ([.receive first, .start m] ++ rest.map .receive ++ [.read])).outs =
        [.bytes (first ++ rest.flatten)] := by
  obtain ⟨t, e1, e2, e3, e4, e5, e6, e7⟩ := pieces (p := performed) (f := force) hu rest first (n - first.length) (by omega) (by omega)
  have e0 : run (fresh .other performed force) ([.receive first, .start m] ++ rest.map .receive) = t := by
    rw [run_append, started _ _ _ _ _ hb hf, e1]
  rw [run_append _ _ [.read], e0]
  refine ⟨e2, ?_⟩
  show (read t).outs = _
  unfold read
  rw [if_neg (by rw [e5]; decide), if_pos e4, if_pos (by rw [e3]; rfl)]
  unfold readEnds
  rw [e3]
  show t.outs ++ [Out.bytes t.chunks] = _
  rw [e6, e7, List.take_of_length_le (by rw [List.length_append]; omega)]
  rfl

example : (run (fresh .other 0 false) [.receive [], .start { body := .exactly 2 }, .receive [1], .receive [2]]).given = [.closed] := by decide

theorem decideGive_clean {p : Nat} {f : Bool} {m : Msg} (s : State) (h1 : s.set = false) (h2 : s.failed = false)
    (h3 : s.atEof = true ∨ s.buffer = []) (h4 : s.message = some m) (h5 : s.performed = p) (h6 : s.forceClose = f)
    (hp : Permits (some m) p f) : decideGive s = .kept := by
  apply kept_of_permits
  · unfold shouldClose
    rw [h1, h2]
    rcases h3 with h3 | h3
    · rw [h3]; rfl
    · rw [h3]; cases s.atEof <;> rfl
  · rw [h4, h5, h6]; exact hp

/-- C244: a response whose whole body came with its head is kept when the message permits another request. -/
theorem C244_reused_partial (performed n : Nat) (force : Bool) (m : Msg) (body : Bytes) (hb : m.body = .exactly n) (hu : m.upgraded = false)
    (hn : body.length = n) (hp : Permits (some m) performed force) :
    (run (fresh .other performed force) [.receive body, .start m]).given = [.kept] := by
  show (start (received (fresh .other performed force) body) m).given = _
  rw [received_fresh]
  unfold start
  dsimp only [fresh]
  rw [hb]
  unfold setReader
  dsimp only
  rw [if_neg (show ¬ (false = true) by decide), if_pos (show n ≤ body.length by omega)]
  unfold watch
  rw [if_pos (show Option.isSome _ = true from rfl), responseEof_eq rfl rfl rfl (by exact hu)]
  show [] ++ [decideGive _] = _
  rw [decideGive_clean (m := m) (p := performed) (f := force) _ rfl rfl (.inr (by show body.drop n = []; rw [List.drop_eq_nil_iff]; omega))
    rfl rfl rfl hp]
  rfl

/-- C244: and so is one which has no body. -/
theorem C244_bodiless_partial (x : Method) (performed : Nat) (force : Bool) (m : Msg) (hx : x = .head ∨ x = .other ∧ m.body = .empty)
    (hu : m.upgraded = false) (hp : Permits (some m) performed force) : (run (fresh x performed force) [.start m]).given = [.kept] := by
  show (start (fresh x performed force) m).given = _
  have key : (responseEof { fresh x performed force with message := some m }).given = [.kept] := by
    rw [responseEof_eq rfl rfl rfl (by exact hu)]
    show [] ++ [decideGive _] = _
    rw [decideGive_clean (m := m) (p := performed) (f := force) _ rfl rfl (.inr rfl) rfl rfl rfl hp]
    rfl
  unfold start
  rcases hx with hx | ⟨hx, hb⟩
  · subst hx; exact key
  · subst hx
    dsimp only [fresh]
    rw [hb]
    exact key

example : (run (fresh .head 2 false) [.start { keep := some ⟨some 4⟩, body := .exactly 9 }]).given = [.kept] := by decide

/-- What is left when the peer ends a body, or a waiting read of it is cancelled: the connection is kept. -/
theorem aborted_mid {p : Nat} {f : Bool} {m : Msg} (hu : m.upgraded = false) (hp : Permits (some m) p f) (got : Bytes) (r : Nat) :
    (cancelRead (read (mid p f m got r))).given = [.kept] ∧ (cancelRead (read (mid p f m got r))).reader = none ∧
      (cancelRead (read (mid p f m got r))).set = false ∧ (cancelRead (read (mid p f m got r))).atEof = true ∧
      (cancelRead (read (mid p f m got r))).buffer = [] ∧ (cancelRead (read (mid p f m got r))).failed = false ∧
      (cancelRead (read (mid p f m got r))).body = none ∧ (cancelRead (read (mid p f m got r))).has = false ∧
      (cancelRead (read (mid p f m got r))).reading = false ∧ (cancelRead (read (mid p f m got r))).outs = [.cancelled] := by
  have h1 : read (mid p f m got r) = { mid p f m got r with reading := true } := rfl
  rw [h1]
  unfold cancelRead
  rw [if_pos rfl]
  unfold finish runCallbacks mid
  dsimp only
  rw [if_neg (by decide), if_pos rfl, if_pos rfl, responseEof_eq rfl rfl rfl (by exact hu)]
  rw [decideGive_clean (m := m) (p := p) (f := f) _ rfl rfl (.inl rfl) rfl rfl rfl hp]
  exact ⟨rfl, rfl, rfl, rfl, rfl, rfl, rfl, rfl, rfl, rfl⟩

/-- C243 does not hold as stated: when a task which waits for the body is cancelled, for example by a timeout, the connection is put among
those to be used again, with the rest of the body still to come. The cancelled stream tells the protocol that the peer ended the connection,
which also makes it let go of the stream, and `should_close` then finds nothing. It is so for every body, every part of it which arrived, and
every message which permits another request. -/
theorem C243_cancelled_violated (performed n : Nat) (force : Bool) (m : Msg) (part : Bytes) (hb : m.body = .exactly n)
    (hu : m.upgraded = false) (hp : Permits (some m) performed force) (hn : part.length < n) :
    (run (fresh .other performed force) [.receive part, .start m, .read, .cancelRead]).given = [.kept] := by
  have : run (fresh .other performed force) [.receive part, .start m, .read, .cancelRead] =
      cancelRead (read (run (fresh .other performed force) [.receive part, .start m])) := rfl
  rw [this, started _ _ _ _ _ hb hn]
  exact (aborted_mid hu hp _ _).1

example : (run (fresh .other 0 false) [.receive [1], .start { body := .exactly 5 }, .read, .cancelRead]).given = [.kept] := by decide

/-- C243: nor does it hold for what is sent. A response which comes before the request was written in whole puts the connection among those to
be used again, and stops the writer amid the body. -/
theorem C243_unwritten_violated (performed : Nat) (force : Bool) (m : Msg) (hb : m.body = .empty) (hu : m.upgraded = false)
    (hp : Permits (some m) performed force) :
    (fresh .other performed force).writer = .running ∧ (run (fresh .other performed force) [.start m]).given = [.kept] ∧
      (run (fresh .other performed force) [.start m]).writer = .cancelled := by
  refine ⟨rfl, C244_bodiless_partial .other performed force m (.inr ⟨rfl, hb⟩) hu hp, ?_⟩
  show (start (fresh .other performed force) m).writer = _
  unfold start
  dsimp only [fresh]
  rw [hb]
  dsimp only
  rw [responseEof_eq rfl rfl rfl (by exact hu)]
  rfl

/-- C246 does not hold as stated: after a waiting read was cancelled, the rest of the body, when it arrives, lies in the kept protocol as the
beginning of what the next response is read from, and the protocol is not one that must be closed: the pool hands it out. It is so for every
body and every part of it which arrived before. -/
theorem C246_late_violated (performed n : Nat) (force : Bool) (m : Msg) (part rest : Bytes) (hb : m.body = .exactly n)
    (hu : m.upgraded = false) (hp : Permits (some m) performed force) (hn : part.length < n) :
    (run (fresh .other performed force) [.receive part, .start m, .read, .cancelRead, .receive rest]).given = [.kept] ∧
      shouldClose (run (fresh .other performed force) [.receive part, .start m, .read, .cancelRead, .receive rest]) = false ∧
      (run (fresh .other performed force) [.receive part, .start m, .read, .cancelRead, .receive rest]).buffer = rest := by
  have : run (fresh .other performed force) [.receive part, .start m, .read, .cancelRead, .receive rest] =
      received (cancelRead (read (run (fresh .other performed force) [.receive part, .start m]))) rest := rfl
  rw [this, started _ _ _ _ _ hb hn]
  obtain ⟨h1, h2, h3, h4, h5, h6, _⟩ := aborted_mid hu hp part (n - part.length)
  generalize cancelRead (read (mid performed force m part (n - part.length))) = s at *
  unfold received
  rw [h2]
  refine ⟨h1, ?_, ?_⟩
  · unfold shouldClose
    dsimp only
    rw [h3, h6, h4]
    rfl
  · show s.buffer ++ rest = rest
    rw [h5]; rfl

example : (run (fresh .other 0 false)
    [.receive [1], .start { body := .exactly 5 }, .read, .cancelRead, .receive [2, 3, 4, 5]]).buffer = [2, 3, 4, 5] := by decide

/-- C247 does not hold as stated: a peer which ends the connection amid a body leaves it among the connections to be used again. `eof_received`
lets go of the reader and the stream and sets no exception, and `should_close` looks at nothing else. It is so for every body, every part of it
which arrived, and every message which permits another request. -/
theorem C247_ended_violated (performed n : Nat) (force : Bool) (m : Msg) (part : Bytes) (hb : m.body = .exactly n) (hu : m.upgraded = false)
    (hp : Permits (some m) performed force) (hn : part.length < n) :
    (run (fresh .other performed force) [.receive part, .start m, .eof]).given = [.kept] ∧
      (run (fresh .other performed force) [.receive part, .start m, .eof]).atEof = true ∧
      (run (fresh .other performed force) [.receive part, .start m, .eof, .read]).outs = [.error] := by
  have key : eofReceived (mid performed force m part (n - part.length)) =
      { method := .other, performed := performed, forceClose := force, message := some m, has := true, done := some .exception, atEof := true,
        given := [.kept], conn := false, proto := false, released := true, closed := true, writer := .cancelled } := by
    unfold eofReceived mid finish runCallbacks
    dsimp only
    rw [if_neg (by decide), if_pos rfl, if_neg (by decide), responseEof_eq rfl rfl rfl (by exact hu)]
    rw [decideGive_clean (m := m) (p := performed) (f := force) _ rfl rfl (.inl rfl) rfl rfl rfl hp]
    rfl
  have h1 : run (fresh .other performed force) [.receive part, .start m, .eof] =
      eofReceived (run (fresh .other performed force) [.receive part, .start m]) := rfl
  have h2 : run (fresh .other performed force) [.receive part, .start m, .eof, .read] =
      read (run (fresh .other performed force) [.receive part, .start m, .eof]) := rfl
  rw [h2, h1, started _ _ _ _ _ hb hn, key]
  exact ⟨rfl, rfl, rfl⟩

/-- C247: nor does it hold for a body that lasts until the peer ends the connection: it is read well, and the dead connection is kept. -/
theorem C247_until_violated (performed : Nat) (force : Bool) (m : Msg) (body : Bytes) (hb : m.body = .untilEof) (hu : m.upgraded = false)
    (hp : Permits (some m) performed force) :
    (run (fresh .other performed force) [.start m, .receive body, .eof]).given = [.kept] ∧
      (run (fresh .other performed force) [.start m, .receive body, .eof, .read]).outs = [.bytes body] := by
  have h0 : start (fresh .other performed force) m =
      { method := .other, performed := performed, forceClose := force, message := some m, has := true, reader := some .eof, set := true,
        watched := true } := by
    unfold start
    dsimp only [fresh]
    rw [hb]
    rfl
  have key : run (fresh .other performed force) [.start m, .receive body, .eof] =
      { method := .other, performed := performed, forceClose := force, message := some m, has := true, done := some .success, atEof := true,
        chunks := body, given := [.kept], conn := false, proto := false, released := true, closed := true, writer := .cancelled } := by
    show eofReceived (received (start (fresh .other performed force) m) body) = _
    rw [h0]
    unfold received eofReceived finish runCallbacks
    dsimp only
    rw [if_neg (by decide), if_pos rfl, if_neg (by decide), responseEof_eq rfl rfl rfl (by exact hu)]
    rw [decideGive_clean (m := m) (p := performed) (f := force) _ rfl rfl (.inl rfl) rfl rfl rfl hp]
    rfl
  have h2 : run (fresh .other performed force) [.start m, .receive body, .eof, .read] =
      read (run (fresh .other performed force) [.start m, .receive body, .eof]) := rfl
  rw [h2, key]
  exact ⟨rfl, rfl⟩

end Verif.Response
