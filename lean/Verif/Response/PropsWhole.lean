import Verif.Response.PropsKeep

/-! C243, second part: what is kept was wholly received; C246: what comes late is not read by another. -/
namespace Verif.Response

theorem decideGive_set {s : State} (h : s.set = true) : decideGive s = .closed := by
  unfold decideGive shouldClose; simp [h]

theorem decideGive_failed {s : State} (h : s.failed = true) : decideGive s = .closed := by
  unfold decideGive shouldClose; simp [h]

/-- What `_clean_up_writer` makes of the writer. -/
def stopped : Writer → Writer
  | .running => .cancelled
  | w => w

theorem cleanUp_eq (s : State) : cleanUp s = { s with writer := stopped s.writer } := by
  unfold cleanUp stopped
  cases hw : s.writer
  · rfl
  · obtain ⟨⟩ := s; cases hw; rfl
  · obtain ⟨⟩ := s; cases hw; rfl

theorem releaseConn_eq {s : State} (hc : s.conn = true) (hp : s.proto = true) :
    releaseConn s = { s with conn := false, proto := false, given := s.given ++ [decideGive s] } := by
  unfold releaseConn connRelease
  rw [if_pos hc, if_pos (show State.proto _ = true from hp)]
  rfl

theorem responseEof_eq {s : State} (h : s.closed = false) (hc : s.conn = true) (hp : s.proto = true) (hu : isUpgraded s = false) :
    responseEof s = { s with released := true, conn := false, proto := false, given := s.given ++ [decideGive s], closed := true,
                             writer := stopped s.writer } := by
  unfold responseEof
  rw [if_neg (by rw [h]; decide), if_pos hc, if_neg (by rw [hp, hu]; decide),
    releaseConn_eq (s := { s with released := true }) hc hp, cleanUp_eq]
  rfl

/-- `finish` of a stream which is waited for. -/
theorem finish_eq {s : State} (d : Done) (h : s.closed = false) (hc : s.conn = true) (hp : s.proto = true) (hu : isUpgraded s = false)
    (hd : s.done = none) (hw : s.watched = true) :
    ∃ t : State, finish s d = { t with released := true, conn := false, proto := false, given := s.given ++ [decideGive t], closed := true,
                                       writer := stopped s.writer } ∧
      t.message = s.message ∧ t.method = s.method ∧ t.failed = s.failed ∧ (d ≠ .aborted → t.set = s.set ∧ t.atEof = s.atEof) := by
  unfold finish runCallbacks
  rw [hd, if_neg (by simp), if_pos (show State.watched _ = true from hw)]
  by_cases hda : d = .aborted
  · subst hda
    rw [if_pos rfl, responseEof_eq (by exact h) (by exact hc) (by exact hp) (by exact hu)]
    exact ⟨_, rfl, rfl, rfl, rfl, fun hx => absurd rfl hx⟩
  · rw [if_neg (by simpa using hda), responseEof_eq (by exact h) (by exact hc) (by exact hp) (by exact hu)]
    exact ⟨_, rfl, rfl, rfl, rfl, fun _ => ⟨rfl, rfl⟩⟩

/-- The response was received in whole by these bytes after its head, and nothing more. -/
inductive Whole : Method → Msg → Bytes → Prop
  | head (m : Msg) : Whole .head m []
  | connect (m : Msg) : Whole .connect m []
  | empty (m : Msg) (h : m.body = .empty) : Whole .other m []
  | exactly (m : Msg) (n : Nat) (a : Bytes) (h : m.body = .exactly n) (ha : a.length = n) : Whole .other m a

/-- The states in which the connection is still held. -/
inductive Phase (s : State) (a : Bytes) : Prop
  /-- the head was not read yet -/
  | waiting (hm : s.message = none) (hr : s.reader = none) (hs : s.set = false) (hd : s.done = none) (hw : s.watched = false)
      (hh : s.has = false) (hb : s.buffer = a)
  /-- the answer to a `CONNECT` -/
  | tunnel (m : Msg) (hm : s.message = some m) (hx : s.method = .connect) (hr : s.reader = none) (hs : s.set = false) (hd : s.done = none)
      (hw : s.watched = false) (hh : s.has = false) (hb : s.buffer = a)
  /-- the body is being received -/
  | reading (m : Msg) (hm : s.message = some m) (hu : m.upgraded = false) (hr : s.reader.isSome = true) (hs : s.set = true)
      (hd : s.done = none) (hw : s.watched = true)

/-- What holds after each step: `a` is what was received after the head. -/
structure After (x : Method) (a : Bytes) (t : State) : Prop where
  method : t.method = x
  eof : t.atEof = false
  held : t.proto = true → Phase t a
  kept : .kept ∈ t.given → t.set = false ∧ t.reader = none ∧ ∃ m, t.message = some m

/-- Nothing is known of the bytes when the connection ends, or when a waiting reader is cancelled; upgraded connections are left to their
new owners. -/
inductive Calm : Op → Prop
  | receive (bs : Bytes) : Calm (.receive bs)
  | broken : Calm .broken
  | lost : Calm .lost
  | start (m : Msg) (h : m.upgraded = false) : Calm (.start m)
  | startFails : Calm .startFails
  | read : Calm .read
  | wake : Calm .wake
  | close : Calm .close
  | release : Calm .release
  | del : Calm .del
  | writerEnds : Calm .writerEnds
  | writerFails : Calm .writerFails
  | detach : Calm .detach

/-- The bytes received after the head. -/
def bytesOf : Op → Bytes
  | .receive bs => bs
  | _ => []

def arrived : List Op → Bytes
  | [] => []
  | op :: ops => bytesOf op ++ arrived ops

theorem arrived_append (a b : List Op) : arrived (a ++ b) = arrived a ++ arrived b := by
  induction a with
  | nil => rfl
  | cons op a ih => show bytesOf op ++ arrived (a ++ b) = bytesOf op ++ arrived a ++ arrived b; rw [ih, List.append_assoc]

/-- The state `t` is one in which the connection was closed, or in which it is kept and the exchange is over. -/
structure Gone (x : Method) (a : Bytes) (t : State) : Prop where
  method : t.method = x
  eof : t.atEof = false
  proto : t.proto = false
  kept : .kept ∈ t.given → t.set = false ∧ t.reader = none ∧ ∃ m, t.message = some m ∧ Whole x m a

/-- What one step makes of a held connection. -/
def Next (x : Method) (a : Bytes) (t : State) : Prop :=
  (t.method = x ∧ t.atEof = false ∧ t.proto = true ∧ t.given = [] ∧ t.conn = true ∧ t.closed = false ∧ Phase t a) ∨ Gone x a t

/-- What is known before the step. -/
structure Held (x : Method) (a : Bytes) (s : State) : Prop where
  method : s.method = x
  eof : s.atEof = false
  proto : s.proto = true
  given : s.given = []
  conn : s.conn = true
  closed : s.closed = false
  phase : Phase s a

theorem Held.next {x : Method} {a : Bytes} {s : State} (h : Held x a s) : Next x a s :=
  .inl ⟨h.method, h.eof, h.proto, h.given, h.conn, h.closed, h.phase⟩

theorem not_upgraded {s : State} {m : Msg} (hm : s.message = some m) (hu : m.upgraded = false) : isUpgraded s = false := by
  unfold isUpgraded; rw [hm]; exact hu

/-- A body which is being received is finished while the stream is still with the protocol, or the protocol failed. -/
theorem finish_closed {x : Method} {a : Bytes} {s : State} (d : Done) (hd : d ≠ .aborted) (hx : s.method = x) (he : s.atEof = false)
    (hp : s.proto = true) (hg : s.given = []) (hc : s.conn = true) (hcl : s.closed = false)
    {m : Msg} (hm : s.message = some m) (hu : m.upgraded = false) (hn : s.done = none) (hw : s.watched = true)
    (hs : s.set = true ∨ s.failed = true) : Gone x a (finish s d) ∧ (finish s d).closed = true ∧ .kept ∉ (finish s d).given := by
  obtain ⟨t, ht, h1, h2, h3, h4⟩ := finish_eq d hcl hc hp (not_upgraded hm hu) hn hw
  obtain ⟨h5, h6⟩ := h4 hd
  have hgive : decideGive t = .closed := by
    rcases hs with hs | hs
    · exact decideGive_set (h5.trans hs)
    · exact decideGive_failed (h3.trans hs)
  rw [ht, hg, hgive]
  have hk : Gave.kept ∉ [Gave.closed] := by decide
  exact ⟨⟨h2.trans hx, h6.trans he, rfl, fun hk' => absurd hk' hk⟩, rfl, hk⟩

/-- Clearing the fields of the protocol afterwards changes nothing of it. -/
theorem Gone.clear {x : Method} {a : Bytes} {t : State} (h : Gone x a t) (hk : .kept ∉ t.given) :
    Gone x a { t with reader := none, set := false } ∧ Gone x a { t with reader := none } :=
  ⟨⟨h.method, h.eof, h.proto, fun hx => absurd hx hk⟩, ⟨h.method, h.eof, h.proto, fun hx => absurd hx hk⟩⟩

theorem setException_reading {x : Method} {a : Bytes} {s : State} (h : Held x a s) {m : Msg} (hm : s.message = some m)
    (hu : m.upgraded = false) (hn : s.done = none) (hw : s.watched = true) (hs : s.set = true) :
    Gone x a (setException s) ∧ (setException s).closed = true ∧ .kept ∉ (setException s).given := by
  unfold setException
  rw [if_pos hs]
  have := finish_closed (x := x) (a := a) (s := { s with failed := true, set := false }) .exception (by decide) h.method h.eof h.proto h.given
    h.conn h.closed hm hu hn hw (.inr rfl)
  exact ⟨(this.1.clear this.2.2).2, this.2.1, this.2.2⟩

theorem setException_idle {s : State} (hs : s.set = false) : setException s = { s with failed := true } := by
  unfold setException; rw [hs]; rfl

/-- Fields of no concern to `Held`. -/
structure Alike (s t : State) : Prop where
  method : t.method = s.method
  eof : t.atEof = s.atEof
  proto : t.proto = s.proto
  given : t.given = s.given
  conn : t.conn = s.conn
  closed : t.closed = s.closed
  message : t.message = s.message
  reader : t.reader = s.reader
  set : t.set = s.set
  done : t.done = s.done
  watched : t.watched = s.watched
  has : t.has = s.has
  buffer : t.buffer = s.buffer

theorem Held.alike {x : Method} {a : Bytes} {s t : State} (h : Held x a s) (e : Alike s t) : Held x a t := by
  refine ⟨e.method.trans h.method, e.eof.trans h.eof, e.proto.trans h.proto, e.given.trans h.given, e.conn.trans h.conn,
    e.closed.trans h.closed, ?_⟩
  cases h.phase with
  | waiting hm hr hs hd hw hh hb =>
    exact .waiting (e.message.trans hm) (e.reader.trans hr) (e.set.trans hs) (e.done.trans hd) (e.watched.trans hw) (e.has.trans hh)
      (e.buffer.trans hb)
  | tunnel m hm hx hr hs hd hw hh hb =>
    exact .tunnel m (e.message.trans hm) (e.method.trans hx) (e.reader.trans hr) (e.set.trans hs) (e.done.trans hd) (e.watched.trans hw)
      (e.has.trans hh) (e.buffer.trans hb)
  | reading m hm hu hr hs hd hw =>
    exact .reading m (e.message.trans hm) hu (by rw [e.reader]; exact hr) (e.set.trans hs) (e.done.trans hd) (e.watched.trans hw)

theorem buffer_nil {s : State} (he : s.atEof = false) (h : shouldClose s = false) : s.buffer = [] := by
  unfold shouldClose at h
  split at h
  · cases h
  · split at h
    · cases h
    · split at h
      · cases h
      · rename_i hb
        rw [he] at hb
        simpa using hb

/-- The connection is given back with the exchange over, if it is to be kept. -/
theorem gone_of_give {x : Method} {a : Bytes} {s : State} (g : State) (hx : g.method = x) (he : g.atEof = false)
    (hp : g.proto = false) (hg : g.given = [decideGive s]) (hse : s.atEof = false) (hs : g.set = s.set) (hr : s.set = false → g.reader = none)
    (hw : s.set = false → s.buffer = [] → ∀ m, s.message = some m → g.message = some m ∧ Whole x m a) : Gone x a g := by
  refine ⟨hx, he, hp, ?_⟩
  intro hk
  rw [hg] at hk
  have hk := (List.mem_singleton.1 hk).symm
  obtain ⟨h1, h2⟩ := permits_of_kept hk
  have hset : s.set = false := by
    cases hq : s.set
    · rfl
    · rw [decideGive_set hq] at hk; cases hk
  have hb := buffer_nil hse h1
  cases hm : s.message with
  | none => rw [hm] at h2; cases h2
  | some m =>
    obtain ⟨h3, h4⟩ := hw hset hb m hm
    exact ⟨hs.trans hset, hr hset, m, h3, h4⟩

theorem responseEof_gone {x : Method} {a : Bytes} {s : State} (hx : s.method = x) (he : s.atEof = false)
    (hp : s.proto = true) (hg : s.given = []) (hc : s.conn = true) (hcl : s.closed = false) {m : Msg} (hm : s.message = some m)
    (hu : m.upgraded = false) (hr : s.reader = none) (hw : s.buffer = [] → Whole x m a) : Gone x a (responseEof s) := by
  rw [responseEof_eq hcl hc hp (not_upgraded hm hu)]
  refine gone_of_give (s := s) _ hx he rfl (by show s.given ++ _ = _; rw [hg]; rfl) he rfl (fun _ => hr) ?_
  intro _ hb m' hm'
  rw [hm] at hm'
  cases hm'
  exact ⟨hm, hw hb⟩

theorem received_next {x : Method} {a : Bytes} {s : State} (h : Held x a s) (bs : Bytes) : Next x (a ++ bs) (received s bs) := by
  cases h.phase with
  | waiting hm hr hs hd hw hh hb =>
    unfold received
    rw [hr]
    exact .inl ⟨h.method, h.eof, h.proto, h.given, h.conn, h.closed, .waiting hm rfl hs hd hw hh (by show s.buffer ++ bs = _; rw [hb])⟩
  | tunnel m hm hx hr hs hd hw hh hb =>
    unfold received
    rw [hr]
    exact .inl ⟨h.method, h.eof, h.proto, h.given, h.conn, h.closed, .tunnel m hm hx rfl hs hd hw hh (by show s.buffer ++ bs = _; rw [hb])⟩
  | reading m hm hu hr hs hd hw =>
    unfold received
    split
    · rename_i hq; rw [hq] at hr; cases hr
    · rename_i hq
      exact .inl ⟨h.method, h.eof, h.proto, h.given, h.conn, h.closed, .reading m hm hu hr hs hd hw⟩
    · rename_i n hq
      split
      · exact .inl ⟨h.method, h.eof, h.proto, h.given, h.conn, h.closed, .reading m hm hu rfl hs hd hw⟩
      · have := finish_closed (x := x) (a := a ++ bs) (s := { s with chunks := s.chunks ++ bs.take n, buffer := bs.drop n }) .success (by decide)
          h.method h.eof h.proto h.given h.conn h.closed hm hu hd hw (.inl hs)
        exact .inr (this.1.clear this.2.2).1

theorem broken_next {x : Method} {a : Bytes} {s : State} (h : Held x a s) : Next x a (broken s) := by
  unfold broken
  split
  · exact h.next
  · rename_i hq
    cases h.phase with
    | waiting hm hr => rw [hr] at hq; cases hq
    | tunnel m hm hx hr => rw [hr] at hq; cases hq
    | reading m hm hu hr hs hd hw =>
      have := finish_closed (x := x) (a := a) (s := s) .exception (by decide)
          h.method h.eof h.proto h.given h.conn h.closed hm hu hd hw (.inl hs)
      exact .inr (this.1.clear this.2.2).1

theorem setException_next {x : Method} {a : Bytes} {s : State} (h : Held x a s) : Next x a (setException s) := by
  cases h.phase with
  | waiting hm hr hs hd hw hh hb =>
    rw [setException_idle hs]
    exact .inl ⟨h.method, h.eof, h.proto, h.given, h.conn, h.closed, .waiting hm hr hs hd hw hh hb⟩
  | tunnel m hm hx hr hs hd hw hh hb =>
    rw [setException_idle hs]
    exact .inl ⟨h.method, h.eof, h.proto, h.given, h.conn, h.closed, .tunnel m hm hx hr hs hd hw hh hb⟩
  | reading m hm hu hr hs hd hw => exact .inr (setException_reading h hm hu hd hw hs).1

theorem watch_gone {x : Method} {a : Bytes} {m : Msg} (hu : m.upgraded = false) (t : State) (h1 : t.method = x) (h2 : t.atEof = false)
    (h3 : t.proto = true) (h4 : t.given = []) (h5 : t.conn = true) (h6 : t.closed = false) (h7 : t.message = some m) (h8 : t.reader = none)
    (h9 : t.done.isSome = true) (h10 : t.failed = false → t.buffer = [] → Whole x m a) : Gone x a { watch t with has := true } := by
  unfold watch
  rw [if_pos h9]
  have : Gone x a (responseEof t) := by
    by_cases hf : t.failed = true
    · rw [responseEof_eq h6 h5 h3 (not_upgraded h7 hu), decideGive_failed hf, h4]
      have hk : Gave.kept ∉ [Gave.closed] := by decide
      exact ⟨h1, h2, rfl, fun hk' => absurd hk' hk⟩
    · exact responseEof_gone h1 h2 h3 h4 h5 h6 h7 hu h8 (h10 (by simpa using hf))
  exact ⟨this.method, this.eof, this.proto, this.kept⟩

theorem watch_next {x : Method} {a : Bytes} {m : Msg} (hu : m.upgraded = false) (t : State) (h1 : t.method = x) (h2 : t.atEof = false)
    (h3 : t.proto = true) (h4 : t.given = []) (h5 : t.conn = true) (h6 : t.closed = false) (h7 : t.message = some m)
    (h8 : t.reader.isSome = true) (h9 : t.set = true) (h10 : t.done = none) : Next x a { watch t with has := true } := by
  unfold watch
  rw [if_neg (by rw [h10]; decide)]
  exact .inl ⟨h1, h2, h3, h4, h5, h6, .reading m h7 hu h8 h9 h10 rfl⟩

theorem setReader_next {x : Method} {a : Bytes} {s : State} {m : Msg} (b : Body) (hbd : m.body = b) (hne : b ≠ .empty)
    (hu : m.upgraded = false) (hm : s.message = some m)
    (hq : x = .other) (h1 : s.method = x) (h2 : s.atEof = false) (h3 : s.proto = true) (h4 : s.given = []) (h5 : s.conn = true)
    (h6 : s.closed = false) (hr : s.reader = none) (hd : s.done = none) (hb : s.buffer = a) :
    Next x a { watch (setReader s b) with has := true } := by
  unfold setReader
  by_cases hf : s.failed = true
  · rw [if_pos hf]
    refine .inr (watch_gone hu { s with done := some .exception } h1 h2 h3 h4 h5 h6 hm hr rfl ?_)
    intro hf'
    have hf' : s.failed = false := hf'
    rw [hf] at hf'; cases hf'
  · rw [if_neg hf]
    cases b with
    | empty => exact absurd rfl hne
    | exactly n =>
      dsimp only
      by_cases hn : n ≤ s.buffer.length
      · rw [if_pos hn]
        refine .inr (watch_gone hu { s with done := some .success, chunks := s.buffer.take n, buffer := s.buffer.drop n } h1 h2 h3 h4 h5 h6 hm
          hr rfl ?_)
        intro _ hbn
        have hbn : s.buffer.drop n = [] := hbn
        have hl := congrArg List.length hbn
        rw [List.length_drop, List.length_nil] at hl
        rw [hq]
        exact .exactly m n a hbd (by rw [← hb]; omega)
      · rw [if_neg hn, if_neg (by rw [h2]; decide)]
        exact watch_next hu { s with chunks := s.buffer, buffer := [], reader := some (.left (n - s.buffer.length)), set := true }
          h1 h2 h3 h4 h5 h6 hm rfl rfl hd
    | untilEof =>
      dsimp only
      rw [if_neg (by rw [h2]; decide)]
      exact watch_next hu { s with chunks := s.buffer, buffer := [], reader := some .eof, set := true } h1 h2 h3 h4 h5 h6 hm rfl rfl hd

theorem start_next {x : Method} {a : Bytes} {s : State} (h : Held x a s) (m : Msg) (hu : m.upgraded = false) : Next x a (start s m) := by
  cases h.phase with
  | tunnel m' hm => unfold start; rw [hm]; exact h.next
  | reading m' hm => unfold start; rw [hm]; exact h.next
  | waiting hm hr hs hd hw hh hb =>
    unfold start
    rw [hm]
    dsimp only
    have hx := h.method
    split
    · rename_i hq
      exact .inl ⟨h.method, h.eof, h.proto, h.given, h.conn, h.closed, .tunnel m rfl hq hr hs hd hw hh hb⟩
    · rename_i hq
      refine .inr (responseEof_gone (m := m) hx h.eof h.proto h.given h.conn h.closed rfl hu hr ?_)
      intro hbn
      have hbn : s.buffer = [] := hbn
      rw [← hx, hq, ← hb, hbn]
      exact .head m
    · rename_i hq
      cases hbd : m.body with
      | empty =>
        refine .inr (responseEof_gone (m := m) hx h.eof h.proto h.given h.conn h.closed rfl hu hr ?_)
        intro hbn
        have hbn : s.buffer = [] := hbn
        rw [← hx, hq, ← hb, hbn]
        exact .empty m hbd
      | exactly n =>
        exact setReader_next (s := { s with message := some m }) (.exactly n) hbd (by intro h; cases h) hu rfl (hx.symm.trans hq) hx h.eof h.proto
          h.given h.conn h.closed hr hd hb
      | untilEof =>
        exact setReader_next (s := { s with message := some m }) .untilEof hbd (by intro h; cases h) hu rfl (hx.symm.trans hq) hx h.eof h.proto
          h.given h.conn h.closed hr hd hb

/-- Closing leaves nothing to be kept. -/
theorem connClose_gone {x : Method} {a : Bytes} {s : State} (hx : s.method = x) (he : s.atEof = false) (hp : s.proto = true)
    (hg : s.given = []) (w : Writer) : Gone x a { connClose { s with closed := true, conn := false } with writer := w } := by
  unfold connClose
  rw [if_pos (show State.proto _ = true from hp)]
  refine ⟨hx, he, rfl, ?_⟩
  intro hk
  have hk : Gave.kept ∈ s.given ++ [Gave.closed] := hk
  rw [hg] at hk
  exact absurd hk (by decide)

theorem notify_next {x : Method} {a : Bytes} {s : State} (h : Held x a s) :
    Held x a (notify s) ∨ (Gone x a (notify s) ∧ (notify s).closed = true) := by
  unfold notify
  split
  · exact .inl h
  · split
    · rename_i hc
      cases h.phase with
      | waiting hm hr hs hd hw hh => rw [hh] at hc; simp at hc
      | tunnel m hm hx hr hs hd hw hh => rw [hh] at hc; simp at hc
      | reading m hm hu hr hs hd hw =>
        have := setException_reading h hm hu hd hw hs
        exact .inr ⟨⟨this.1.method, this.1.eof, this.1.proto, this.1.kept⟩, this.2.1⟩
    · exact .inl (h.alike ⟨rfl, rfl, rfl, rfl, rfl, rfl, rfl, rfl, rfl, rfl, rfl, rfl, rfl⟩)

theorem close_next {x : Method} {a : Bytes} {s : State} (h : Held x a s) : Next x a (close s) := by
  unfold close
  have hn := notify_next h
  generalize notify s = t at hn
  dsimp only
  rcases hn with hn | ⟨hn, hc⟩
  · rw [if_neg (by rw [hn.closed]; decide), if_pos hn.conn, cleanUp_eq]
    exact .inr (connClose_gone hn.method hn.eof hn.proto hn.given _)
  · rw [if_pos hc]; exact .inr hn

theorem releaseConn_gone {x : Method} {a : Bytes} {s : State} (h : Held x a s) (g : State)
    (hg : g = { s with conn := false, proto := false, given := s.given ++ [decideGive s], closed := g.closed, writer := g.writer }) : Gone x a g := by
  refine gone_of_give (s := s) g (by rw [hg]; exact h.method) (by rw [hg]; exact h.eof) (by rw [hg])
    (by rw [hg]; show s.given ++ _ = _; rw [h.given]; rfl) h.eof (by rw [hg]) ?_ ?_
  · intro hset
    have hgr : g.reader = s.reader := by rw [hg]
    rw [hgr]
    cases h.phase with
    | waiting hm hr => exact hr
    | tunnel m hm hx hr => exact hr
    | reading m hm hu hr hs => rw [hs] at hset; cases hset
  · intro hset hb m hm
    have hgm : g.message = s.message := by rw [hg]
    refine ⟨hgm.trans hm, ?_⟩
    cases h.phase with
    | waiting hm' => rw [hm'] at hm; cases hm
    | tunnel m' hm' hx hr hs hd hw hh hbuf =>
      rw [← h.method, hx, ← hbuf, hb]
      exact .connect m
    | reading m' hm' hu hr hs => rw [hs] at hset; cases hset

theorem release_next {x : Method} {a : Bytes} {s : State} (h : Held x a s) : Next x a (release s) := by
  unfold release
  have hn := notify_next h
  generalize notify s = t at hn
  dsimp only
  rcases hn with hn | ⟨hn, hc⟩
  · rw [if_neg (by rw [hn.closed]; decide), cleanUp_eq, releaseConn_eq (s := { t with closed := true }) hn.conn hn.proto]
    exact .inr (releaseConn_gone hn _ rfl)
  · rw [if_pos hc]; exact .inr hn

theorem del_next {x : Method} {a : Bytes} {s : State} (h : Held x a s) : Next x a (del s) := by
  unfold del
  rw [if_neg (by rw [h.closed]; decide), releaseConn_eq h.conn h.proto]
  exact .inr (releaseConn_gone h _ rfl)

theorem done_none {x : Method} {a : Bytes} {s : State} (h : Held x a s) : s.done = none := by
  cases h.phase <;> assumption

theorem read_next {x : Method} {a : Bytes} {s : State} (h : Held x a s) : Next x a (read s) := by
  unfold read
  split
  · exact h.next
  · split
    · rw [if_neg (by rw [done_none h]; decide)]
      exact Held.next (Held.alike h ⟨rfl, rfl, rfl, rfl, rfl, rfl, rfl, rfl, rfl, rfl, rfl, rfl, rfl⟩)
    · split <;> exact Held.next (Held.alike h ⟨rfl, rfl, rfl, rfl, rfl, rfl, rfl, rfl, rfl, rfl, rfl, rfl, rfl⟩)

theorem wake_next {x : Method} {a : Bytes} {s : State} (h : Held x a s) : Next x a (wake s) := by
  unfold wake
  rw [if_neg (by rw [done_none h]; simp)]
  exact h.next

theorem Next.writer {x : Method} {a : Bytes} {s : State} (h : Next x a s) (w : Writer) : Next x a { s with writer := w } := by
  rcases h with ⟨h1, h2, h3, h4, h5, h6, h7⟩ | h
  · exact Held.next (Held.alike (Held.mk h1 h2 h3 h4 h5 h6 h7) ⟨rfl, rfl, rfl, rfl, rfl, rfl, rfl, rfl, rfl, rfl, rfl, rfl, rfl⟩)
  · exact .inr ⟨h.method, h.eof, h.proto, h.kept⟩

theorem step_next {x : Method} {a : Bytes} {s : State} (h : Held x a s) {op : Op} (hc : Calm op) : Next x (a ++ bytesOf op) (step s op) := by
  cases hc with
  | receive bs => exact received_next h bs
  | broken => rw [show bytesOf .broken = [] from rfl, List.append_nil]; exact broken_next h
  | lost => rw [show bytesOf .lost = [] from rfl, List.append_nil]; exact setException_next h
  | start m hu => rw [show bytesOf (.start m) = [] from rfl, List.append_nil]; exact start_next h m hu
  | startFails =>
    rw [show bytesOf .startFails = [] from rfl, List.append_nil]
    show Next x a (match s.message with | none => close s | some _ => s)
    split
    · exact close_next h
    · exact h.next
  | read => rw [show bytesOf .read = [] from rfl, List.append_nil]; exact read_next h
  | wake => rw [show bytesOf .wake = [] from rfl, List.append_nil]; exact wake_next h
  | close => rw [show bytesOf .close = [] from rfl, List.append_nil]; exact close_next h
  | release => rw [show bytesOf .release = [] from rfl, List.append_nil]; exact release_next h
  | del => rw [show bytesOf .del = [] from rfl, List.append_nil]; exact del_next h
  | writerEnds =>
    rw [show bytesOf .writerEnds = [] from rfl, List.append_nil]
    show Next x a (writerEnds s)
    unfold writerEnds
    split
    · exact h.next.writer _
    · exact h.next
  | writerFails =>
    rw [show bytesOf .writerFails = [] from rfl, List.append_nil]
    show Next x a (writerFails s)
    unfold writerFails
    split
    · rw [if_pos h.proto]; exact (setException_next h).writer _
    · exact h.next
  | detach =>
    rw [show bytesOf .detach = [] from rfl, List.append_nil]
    show Next x a (detach s)
    unfold detach
    rw [if_pos (by rw [h.conn, h.proto]; rfl)]
    refine .inr ⟨h.method, h.eof, rfl, ?_⟩
    intro hk
    have hk : Gave.kept ∈ s.given ++ [Gave.detached] := hk
    rw [h.given] at hk
    exact absurd hk (by decide)

/-! ### After the connection was given back -/

/-- The protocol was given back as `g`. -/
def Back (g : List Gave) (s : State) : Prop := s.proto = false ∧ s.given = g

theorem Back.releaseConn {g : List Gave} {s : State} (h : Back g s) : Back g (releaseConn s) := by
  unfold Response.releaseConn Response.connRelease
  split
  · rw [if_neg (by show ¬ s.proto = true; rw [h.1]; decide)]; exact h
  · exact h

theorem Back.cleanUp {g : List Gave} {s : State} (h : Back g s) : Back g (cleanUp s) := by
  rw [cleanUp_eq]; exact h

theorem Back.responseEof {g : List Gave} {s : State} (h : Back g s) : Back g (responseEof s) := by
  unfold Response.responseEof
  split
  · exact h
  · split
    · split
      · exact h
      · exact Back.cleanUp (Back.releaseConn (s := { s with released := true }) h)
    · exact Back.cleanUp h

theorem Back.runCallbacks {g : List Gave} {s : State} (h : Back g s) : Back g (runCallbacks s) := by
  unfold Response.runCallbacks
  split
  · apply Back.responseEof
    split <;> exact h
  · exact h

theorem Back.finish {g : List Gave} {s : State} (h : Back g s) (d : Done) : Back g (finish s d) := by
  unfold Response.finish
  split
  · exact h
  · exact Back.runCallbacks h

theorem Back.setException {g : List Gave} {s : State} (h : Back g s) : Back g (setException s) := by
  unfold Response.setException
  split
  · exact Back.finish (s := { s with failed := true, set := false }) h .exception
  · exact h

theorem Back.notify {g : List Gave} {s : State} (h : Back g s) : Back g (notify s) := by
  unfold Response.notify
  split
  · exact h
  · split
    · exact h.setException
    · exact h

theorem Back.connClose {g : List Gave} {s : State} (h : Back g s) : Back g (connClose s) := by
  unfold Response.connClose
  rw [if_neg (by rw [h.1]; decide)]; exact h

theorem Back.close {g : List Gave} {s : State} (h : Back g s) : Back g (close s) := by
  have hn := h.notify
  unfold Response.close
  generalize Response.notify s = t at hn
  dsimp only
  split
  · exact hn
  · split
    · exact Back.cleanUp (Back.connClose (s := { t with closed := true, conn := false }) hn)
    · exact Back.cleanUp hn

theorem Back.release {g : List Gave} {s : State} (h : Back g s) : Back g (release s) := by
  have hn := h.notify
  unfold Response.release
  generalize Response.notify s = t at hn
  dsimp only
  split
  · exact hn
  · exact Back.cleanUp (Back.releaseConn (s := { t with closed := true }) hn)

theorem setReader_back {g : List Gave} {s : State} (h : Back g s) (b : Body) : Back g (setReader s b) := by
  unfold setReader
  split
  · exact h
  · split
    · exact h
    · split
      · exact h
      · split <;> exact h
    · split <;> exact h

theorem Back.watch {g : List Gave} {s : State} (h : Back g s) : Back g (watch s) := by
  unfold Response.watch
  split
  · exact h.responseEof
  · exact h

theorem Back.start {g : List Gave} {s : State} (h : Back g s) (m : Msg) : Back g (start s m) := by
  unfold Response.start
  split
  · exact h
  · split
    · exact h
    · exact Back.responseEof h
    · split
      · exact Back.responseEof h
      · exact Back.watch (setReader_back (s := { s with message := some m }) h _)

theorem readEnds_back {g : List Gave} {s : State} (h : Back g s) : Back g (readEnds s) := by
  unfold readEnds; split <;> exact h

theorem Back.step {g : List Gave} {s : State} (h : Back g s) (op : Op) : Back g (step s op) := by
  cases op with
  | receive bs =>
    show Back g (received s bs)
    unfold received
    split
    · exact h
    · exact h
    · rename_i n _
      split
      · exact h
      · exact Back.finish (s := { s with chunks := s.chunks ++ bs.take n, buffer := bs.drop n }) h .success
  | broken =>
    show Back g (broken s)
    unfold broken
    split
    · exact h
    · exact h.finish .exception
  | eof =>
    show Back g (eofReceived s)
    unfold eofReceived
    split
    · exact h
    · exact Back.finish (s := { s with atEof := true, reader := none, set := false }) h _
    · exact Back.finish (s := { s with atEof := true, reader := none, set := false }) h _
  | lost => exact h.setException
  | start m => exact h.start m
  | startFails =>
    show Back g (match s.message with | none => Response.close s | some _ => s)
    split
    · exact h.close
    · exact h
  | read =>
    show Back g (read s)
    unfold read
    split
    · exact h
    · split
      · split
        · exact readEnds_back h
        · exact h
      · split <;> exact h
  | wake =>
    show Back g (wake s)
    unfold wake
    split
    · exact readEnds_back h
    · exact h
  | cancelRead =>
    show Back g (cancelRead s)
    unfold cancelRead
    split
    · exact h.finish .aborted
    · exact h
  | close => exact h.close
  | release => exact h.release
  | del =>
    show Back g (del s)
    unfold del
    split
    · exact h
    · exact h.releaseConn
  | writerEnds =>
    show Back g (writerEnds s)
    unfold writerEnds
    split <;> exact h
  | writerFails =>
    show Back g (writerFails s)
    unfold writerFails
    split
    · split
      · exact h.setException
      · exact h
    · exact h
  | detach =>
    show Back g (detach s)
    unfold detach
    rw [if_neg (by rw [h.1]; simp)]; exact h

theorem Back.run {g : List Gave} {s : State} (h : Back g s) (ops : List Op) : Back g (run s ops) := by
  induction ops generalizing s with
  | nil => exact h
  | cons op ops ih => exact ih (h.step op)

/-- After the exchange was over and the connection kept. -/
structure Settled (m : Msg) (s : State) : Prop where
  eof : s.atEof = false
  proto : s.proto = false
  set : s.set = false
  reader : s.reader = none
  message : s.message = some m

theorem Settled.cleanUp {m : Msg} {s : State} (h : Settled m s) : Settled m (cleanUp s) := by
  rw [cleanUp_eq]; exact ⟨h.eof, h.proto, h.set, h.reader, h.message⟩

theorem Settled.setException {m : Msg} {s : State} (h : Settled m s) : Settled m (setException s) := by
  rw [setException_idle h.set]; exact ⟨h.eof, h.proto, h.set, h.reader, h.message⟩

theorem Settled.notify {m : Msg} {s : State} (h : Settled m s) : Settled m (notify s) := by
  unfold Response.notify
  split
  · exact h
  · rw [if_neg (by rw [h.proto]; simp)]
    exact ⟨h.eof, h.proto, h.set, h.reader, h.message⟩

theorem Settled.connRelease {m : Msg} {s : State} (h : Settled m s) : connRelease s = s ∧ connClose s = s := by
  unfold Response.connRelease Response.connClose
  rw [if_neg (by rw [h.proto]; decide), if_neg (by rw [h.proto]; decide)]
  exact ⟨rfl, rfl⟩

theorem Settled.releaseConn {m : Msg} {s : State} (h : Settled m s) : Settled m (releaseConn s) := by
  unfold Response.releaseConn
  split
  · have h' : Settled m { s with conn := false } := ⟨h.eof, h.proto, h.set, h.reader, h.message⟩
    rw [h'.connRelease.1]; exact h'
  · exact h

theorem readEnds_settled {m : Msg} {s : State} (h : Settled m s) : Settled m (readEnds s) := by
  unfold readEnds; split <;> exact ⟨h.eof, h.proto, h.set, h.reader, h.message⟩

theorem Settled.step {m : Msg} {s : State} (h : Settled m s) {op : Op} (hc : Calm op) : Settled m (step s op) := by
  cases hc with
  | receive bs =>
    show Settled m (received s bs)
    unfold received; rw [h.reader]; exact ⟨h.eof, h.proto, h.set, rfl, h.message⟩
  | broken =>
    show Settled m (broken s)
    unfold broken; rw [h.reader]; exact h
  | lost => exact h.setException
  | start m' hu =>
    show Settled m (start s m')
    unfold start; rw [h.message]; exact h
  | startFails =>
    show Settled m (match s.message with | none => close s | some _ => s)
    rw [h.message]; exact h
  | read =>
    show Settled m (read s)
    unfold read
    split
    · exact h
    · split
      · split
        · exact readEnds_settled h
        · exact ⟨h.eof, h.proto, h.set, h.reader, h.message⟩
      · split <;> exact ⟨h.eof, h.proto, h.set, h.reader, h.message⟩
  | wake =>
    show Settled m (wake s)
    unfold wake
    split
    · exact readEnds_settled h
    · exact h
  | close =>
    have hn := h.notify
    show Settled m (close s)
    unfold close
    generalize Response.notify s = t at hn
    dsimp only
    split
    · exact hn
    · have hn' : Settled m { t with closed := true, conn := false } := ⟨hn.eof, hn.proto, hn.set, hn.reader, hn.message⟩
      rw [hn'.connRelease.2]
      split
      · exact hn'.cleanUp
      · exact Settled.cleanUp ⟨hn.eof, hn.proto, hn.set, hn.reader, hn.message⟩
  | release =>
    have hn := h.notify
    show Settled m (release s)
    unfold release
    generalize Response.notify s = t at hn
    dsimp only
    split
    · exact hn
    · exact Settled.cleanUp (Settled.releaseConn ⟨hn.eof, hn.proto, hn.set, hn.reader, hn.message⟩)
  | del =>
    show Settled m (del s)
    unfold del
    split
    · exact h
    · exact h.releaseConn
  | writerEnds =>
    show Settled m (writerEnds s)
    unfold writerEnds
    split
    · exact ⟨h.eof, h.proto, h.set, h.reader, h.message⟩
    · exact h
  | writerFails =>
    show Settled m (writerFails s)
    unfold writerFails
    split
    · rw [if_neg (by rw [h.proto]; decide)]
      exact ⟨h.eof, h.proto, h.set, h.reader, h.message⟩
    · exact h
  | detach =>
    show Settled m (detach s)
    unfold detach
    rw [if_neg (by rw [h.proto]; simp)]; exact h

theorem Settled.run {m : Msg} {s : State} (h : Settled m s) (ops : List Op) (hc : ∀ op ∈ ops, Calm op) : Settled m (run s ops) := by
  induction ops generalizing s with
  | nil => exact h
  | cons op ops ih => exact ih (h.step (hc op List.mem_cons_self)) (fun o ho => hc o (List.mem_cons_of_mem _ ho))

theorem held_fresh (x : Method) (p : Nat) (f : Bool) : Held x [] (fresh x p f) :=
  ⟨rfl, rfl, rfl, rfl, rfl, rfl, .waiting rfl rfl rfl rfl rfl rfl rfl⟩

/-- Where a kept connection was given back. -/
theorem kept_at {x : Method} {a : Bytes} {s : State} (h : Held x a s) (ops : List Op) (hc : ∀ op ∈ ops, Calm op)
    (hk : .kept ∈ (run s ops).given) :
    ∃ pre post m, ops = pre ++ post ∧ .kept ∈ (run s pre).given ∧ Settled m (run s pre) ∧ Whole x m (a ++ arrived pre) := by
  induction ops generalizing s a with
  | nil => rw [show (run s []).given = s.given from rfl, h.given] at hk; cases hk
  | cons op ops ih =>
    have hn := step_next h (hc op List.mem_cons_self)
    have hrest : ∀ o ∈ ops, Calm o := fun o ho => hc o (List.mem_cons_of_mem _ ho)
    rcases hn with ⟨h1, h2, h3, h4, h5, h6, h7⟩ | hg
    · obtain ⟨pre, post, m, e1, e2, e3, e4⟩ := ih ⟨h1, h2, h3, h4, h5, h6, h7⟩ hrest hk
      refine ⟨op :: pre, post, m, by rw [e1]; rfl, e2, e3, ?_⟩
      rw [List.append_assoc] at e4
      exact e4
    · have hb : Back (step s op).given (step s op) := ⟨hg.proto, rfl⟩
      have := (hb.run ops).2
      have hk : .kept ∈ (run (step s op) ops).given := hk
      rw [this] at hk
      obtain ⟨e1, e2, m, e3, e4⟩ := hg.kept hk
      refine ⟨[op], ops, m, rfl, hk, ⟨hg.eof, hg.proto, e1, e2, e3⟩, ?_⟩
      rw [show arrived [op] = bytesOf op ++ [] from rfl, List.append_nil]
      exact e4

/-- C243: as long as the peer does not end the connection and no waiting read is cancelled, a connection is kept only at a moment when the
response has been received in whole, and not a byte more. -/
theorem C243_whole_partial (x : Method) (performed : Nat) (force : Bool) (ops : List Op) (hc : ∀ op ∈ ops, Calm op)
    (hk : .kept ∈ (run (fresh x performed force) ops).given) :
    ∃ pre post m, ops = pre ++ post ∧ .kept ∈ (run (fresh x performed force) pre).given ∧ headOf none pre = some m ∧
      Whole x m (arrived pre) := by
  obtain ⟨pre, post, m, e1, e2, e3, e4⟩ := kept_at (held_fresh x performed force) ops hc hk
  refine ⟨pre, post, m, e1, e2, ?_, e4⟩
  have := ((Ok.fresh x performed force).run pre).msg
  rw [← this]; exact e3.message

example : (run (fresh .other 0 false) [.receive [1, 2, 3], .start { body := .exactly 3 }, .close]).given = [.kept] := by decide
example : (run (fresh .other 0 false) [.receive [1, 2, 3], .start { body := .exactly 2 }]).given = [.closed] := by decide

/-- C246: as long as the peer does not end the connection and no waiting read is cancelled, a byte which arrives after the connection was kept
makes it one that must be closed, so that it is not given to another request. -/
theorem C246_late_partial (x : Method) (performed : Nat) (force : Bool) (ops : List Op) (hc : ∀ op ∈ ops, Calm op)
    (hk : .kept ∈ (run (fresh x performed force) ops).given) (bs : Bytes) (hb : bs ≠ []) :
    shouldClose (run (fresh x performed force) (ops ++ [.receive bs])) = true := by
  obtain ⟨pre, post, m, e1, e2, e3, e4⟩ := kept_at (held_fresh x performed force) ops hc hk
  have hs : Settled m (run (fresh x performed force) ops) := by
    rw [e1, run_append]
    exact e3.run post (fun o ho => hc o (by rw [e1]; exact List.mem_append_right _ ho))
  rw [run_append]
  generalize run (fresh x performed force) ops = s at hs
  show shouldClose (received s bs) = true
  unfold received shouldClose
  rw [hs.reader]
  dsimp only
  rw [hs.set, hs.eof]
  have : (s.buffer ++ bs).isEmpty = false := by
    cases bs with
    | nil => exact absurd rfl hb
    | cons b bs => cases s.buffer <;> rfl
  rw [this]
  split <;> first | rfl | (split <;> rfl)

example : shouldClose (run (fresh .other 0 false) ([.start {}] ++ [.receive [1]])) = true := by decide

end Verif.Response
