import Verif.Response.Model

/-! C242: a connection is given back exactly once. -/
namespace Verif.Response

/-- What is known of every reachable state; `b` says whether the protocol is known to have been given back. -/
structure Inv (b : Bool) (s : State) : Prop where
  back : b = true → s.proto = false
  /-- the protocol is with the connection or it was given back, once -/
  once : s.given.length + (if s.proto then 1 else 0) = 1
  /-- the response dropped its connection only when that was given back -/
  dropped : s.conn = false → s.proto = false
  /-- a closed response has no connection and no writer -/
  shut : s.closed = true → s.conn = false ∧ s.writer ≠ .running

theorem Inv.fresh (m : Method) (p : Nat) (f : Bool) : Inv false (fresh m p f) where
  back := by intro h; cases h
  once := rfl
  dropped := by intro h; cases h
  shut := by intro h; cases h

/-- The fields which `Inv` looks at. -/
structure Same (s t : State) : Prop where
  given : t.given = s.given
  proto : t.proto = s.proto
  conn : t.conn = s.conn
  closed : t.closed = s.closed
  writer : t.writer = s.writer

theorem Inv.same {b : Bool} {s t : State} (h : Inv b s) (e : Same s t) : Inv b t where
  back := by rw [e.proto]; exact h.back
  once := by rw [e.given, e.proto]; exact h.once
  dropped := by rw [e.conn, e.proto]; exact h.dropped
  shut := by rw [e.closed, e.conn, e.writer]; exact h.shut

theorem once_connRelease {s : State} (h : s.given.length + (if s.proto then 1 else 0) = 1) :
    (connRelease s).given.length = 1 ∧ (connRelease s).proto = false := by
  unfold connRelease
  cases hp : s.proto <;> simp_all

theorem once_connClose {s : State} (h : s.given.length + (if s.proto then 1 else 0) = 1) :
    (connClose s).given.length = 1 ∧ (connClose s).proto = false := by
  unfold connClose
  cases hp : s.proto <;> simp_all

theorem connRelease_rest (s : State) :
    (connRelease s).conn = s.conn ∧ (connRelease s).closed = s.closed ∧ (connRelease s).writer = s.writer := by
  unfold connRelease; split <;> simp

theorem connClose_rest (s : State) :
    (connClose s).conn = s.conn ∧ (connClose s).closed = s.closed ∧ (connClose s).writer = s.writer := by
  unfold connClose; split <;> simp

theorem releaseConn_inv {b : Bool} {s : State} (h : Inv b s) :
    (releaseConn s).given.length = 1 ∧ (releaseConn s).proto = false ∧ (releaseConn s).conn = false ∧
      (releaseConn s).closed = s.closed ∧ (releaseConn s).writer = s.writer := by
  unfold releaseConn
  cases hc : s.conn
  · have hp := h.dropped hc
    have ho := h.once
    rw [hp] at ho
    simp [hp, hc]
    simpa using ho
  · have hr := connRelease_rest { s with conn := false }
    have ho := once_connRelease (s := { s with conn := false }) h.once
    simp only [if_true]
    exact ⟨ho.1, ho.2, hr.1, hr.2.1, hr.2.2⟩

theorem cleanUp_rest (s : State) :
    (cleanUp s).given = s.given ∧ (cleanUp s).proto = s.proto ∧ (cleanUp s).conn = s.conn ∧ (cleanUp s).closed = s.closed ∧
      (cleanUp s).writer ≠ .running := by
  unfold cleanUp
  cases hw : s.writer <;> simp [hw]

theorem Inv.cleaned {b : Bool} {s : State} (h1 : s.given.length = 1) (h2 : s.proto = false) (h3 : s.conn = false) : Inv b (cleanUp s) := by
  obtain ⟨a, b', c, d, e⟩ := cleanUp_rest s
  refine ⟨?_, ?_, ?_, ?_⟩
  · intro _; rw [b']; exact h2
  · rw [a, b', h1, h2]; rfl
  · intro _; rw [b']; exact h2
  · intro _; rw [c]; exact ⟨h3, e⟩

theorem Inv.responseEof {b : Bool} {s : State} (h : Inv b s) : Inv b (responseEof s) := by
  unfold Response.responseEof
  split
  · exact h
  · split
    · split
      · exact h
      · have := releaseConn_inv (s := { s with released := true }) (h.same ⟨rfl, rfl, rfl, rfl, rfl⟩)
        exact Inv.cleaned this.1 this.2.1 this.2.2.1
    · rename_i _ hc
      have hc : s.conn = false := by simpa using hc
      have hp := h.dropped hc
      have ho := h.once
      rw [hp] at ho
      exact Inv.cleaned (by simpa using ho) hp hc

theorem Inv.runCallbacks {b : Bool} {s : State} (h : Inv b s) : Inv b (runCallbacks s) := by
  unfold Response.runCallbacks
  split
  · apply Inv.responseEof
    split
    · exact h.same ⟨rfl, rfl, rfl, rfl, rfl⟩
    · exact h.same ⟨rfl, rfl, rfl, rfl, rfl⟩
  · exact h

theorem Inv.finish {b : Bool} {s : State} (h : Inv b s) (d : Done) : Inv b (finish s d) := by
  unfold Response.finish
  split
  · exact h
  · exact Inv.runCallbacks (h.same ⟨rfl, rfl, rfl, rfl, rfl⟩)

theorem Inv.setException {b : Bool} {s : State} (h : Inv b s) : Inv b (setException s) := by
  unfold Response.setException
  split
  · exact (Inv.finish (s := { s with failed := true, set := false }) (h.same ⟨rfl, rfl, rfl, rfl, rfl⟩) .exception).same
      ⟨rfl, rfl, rfl, rfl, rfl⟩
  · exact h.same ⟨rfl, rfl, rfl, rfl, rfl⟩

theorem Inv.eofReceived {b : Bool} {s : State} (h : Inv b s) : Inv b (eofReceived s) := by
  unfold Response.eofReceived
  split
  · exact h.same ⟨rfl, rfl, rfl, rfl, rfl⟩
  · exact Inv.finish (s := { s with atEof := true, reader := none, set := false }) (h.same ⟨rfl, rfl, rfl, rfl, rfl⟩) _
  · exact Inv.finish (s := { s with atEof := true, reader := none, set := false }) (h.same ⟨rfl, rfl, rfl, rfl, rfl⟩) _

theorem Inv.received {b : Bool} {s : State} (h : Inv b s) (bs : Bytes) : Inv b (received s bs) := by
  unfold Response.received
  split
  · exact h.same ⟨rfl, rfl, rfl, rfl, rfl⟩
  · exact h.same ⟨rfl, rfl, rfl, rfl, rfl⟩
  · rename_i n _
    split
    · exact h.same ⟨rfl, rfl, rfl, rfl, rfl⟩
    · exact (Inv.finish (s := { s with chunks := s.chunks ++ bs.take n, buffer := bs.drop n })
        (h.same ⟨rfl, rfl, rfl, rfl, rfl⟩) .success).same ⟨rfl, rfl, rfl, rfl, rfl⟩

theorem Inv.broken {b : Bool} {s : State} (h : Inv b s) : Inv b (broken s) := by
  unfold Response.broken
  split
  · exact h
  · exact (Inv.finish h .exception).same ⟨rfl, rfl, rfl, rfl, rfl⟩

theorem setReader_same (s : State) (b : Body) : Same s (setReader s b) := by
  unfold setReader
  split
  · exact ⟨rfl, rfl, rfl, rfl, rfl⟩
  · split
    · exact ⟨rfl, rfl, rfl, rfl, rfl⟩
    · split
      · exact ⟨rfl, rfl, rfl, rfl, rfl⟩
      · split <;> exact ⟨rfl, rfl, rfl, rfl, rfl⟩
    · split <;> exact ⟨rfl, rfl, rfl, rfl, rfl⟩

theorem Inv.watch {b : Bool} {s : State} (h : Inv b s) : Inv b (watch s) := by
  unfold Response.watch
  split
  · exact h.responseEof
  · exact h.same ⟨rfl, rfl, rfl, rfl, rfl⟩

theorem Inv.start {b : Bool} {s : State} (h : Inv b s) (m : Msg) : Inv b (start s m) := by
  have h' : Inv b { s with message := some m } := h.same ⟨rfl, rfl, rfl, rfl, rfl⟩
  unfold Response.start
  split
  · exact h
  · split
    · exact h'
    · exact h'.responseEof
    · split
      · exact h'.responseEof
      · exact (Inv.watch (h'.same (setReader_same _ _))).same ⟨rfl, rfl, rfl, rfl, rfl⟩

theorem Inv.notify {b : Bool} {s : State} (h : Inv b s) : Inv b (notify s) := by
  unfold Response.notify
  split
  · exact h
  · split
    · exact h.setException.same ⟨rfl, rfl, rfl, rfl, rfl⟩
    · exact h.same ⟨rfl, rfl, rfl, rfl, rfl⟩

theorem Inv.close {b : Bool} {s : State} (h : Inv b s) : Inv b (close s) := by
  have hn := h.notify
  unfold Response.close
  generalize Response.notify s = t at hn
  dsimp only
  split
  · exact hn
  · split
    · have hr := connClose_rest { t with closed := true, conn := false }
      have ho := once_connClose (s := { t with closed := true, conn := false }) hn.once
      exact Inv.cleaned ho.1 ho.2 hr.1
    · rename_i _ hc
      have hc : t.conn = false := by simpa using hc
      have hp := hn.dropped hc
      have ho := hn.once
      rw [hp] at ho
      exact Inv.cleaned (by simpa using ho) hp hc

theorem releaseConn_closed {b : Bool} {s : State} (h : Inv b s) :
    (releaseConn { s with closed := true }).given.length = 1 ∧ (releaseConn { s with closed := true }).proto = false ∧
      (releaseConn { s with closed := true }).conn = false := by
  unfold releaseConn
  cases hc : s.conn
  · have hp := h.dropped hc
    have ho := h.once
    rw [hp] at ho
    simp [hp]
    simpa using ho
  · have hr := connRelease_rest { s with closed := true, conn := false }
    have ho := once_connRelease (s := { s with closed := true, conn := false }) h.once
    simp only [if_true]
    exact ⟨ho.1, ho.2, hr.1⟩

theorem Inv.release {b : Bool} {s : State} (h : Inv b s) : Inv b (release s) := by
  have hn := h.notify
  unfold Response.release
  generalize Response.notify s = t at hn
  dsimp only
  split
  · exact hn
  · have := releaseConn_closed hn
    exact Inv.cleaned this.1 this.2.1 this.2.2

theorem Inv.del {b : Bool} {s : State} (h : Inv b s) : Inv b (del s) := by
  unfold Response.del
  split
  · exact h
  · rename_i hc
    have hc : s.closed = false := by simpa using hc
    obtain ⟨a, b', c, d, e⟩ := releaseConn_inv h
    refine ⟨fun _ => b', ?_, ?_, ?_⟩
    · rw [a, b']; rfl
    · intro _; exact b'
    · intro hx; rw [d, hc] at hx; cases hx

theorem readEnds_same (s : State) : Same s (readEnds s) := by
  unfold readEnds; split <;> exact ⟨rfl, rfl, rfl, rfl, rfl⟩

theorem Inv.read {b : Bool} {s : State} (h : Inv b s) : Inv b (read s) := by
  unfold Response.read
  split
  · exact h
  · split
    · split
      · exact h.same (readEnds_same s)
      · exact h.same ⟨rfl, rfl, rfl, rfl, rfl⟩
    · split <;> exact h.same ⟨rfl, rfl, rfl, rfl, rfl⟩

theorem Inv.cancelRead {b : Bool} {s : State} (h : Inv b s) : Inv b (cancelRead s) := by
  unfold Response.cancelRead
  split
  · exact (Inv.finish h .aborted).same ⟨rfl, rfl, rfl, rfl, rfl⟩
  · exact h

/-- Setting the writer to something that does not run. -/
theorem Inv.stopped {b : Bool} {s : State} (h : Inv b s) (w : Writer) (hw : w ≠ .running) : Inv b { s with writer := w } where
  back := h.back
  once := h.once
  dropped := h.dropped
  shut := fun hc => ⟨(h.shut hc).1, hw⟩

theorem Inv.step {b : Bool} {s : State} (h : Inv b s) (op : Op) : Inv b (step s op) := by
  cases op with
  | receive bs => exact h.received bs
  | broken => exact h.broken
  | eof => exact h.eofReceived
  | lost => exact h.setException
  | start m => exact h.start m
  | startFails =>
    show Inv b (match s.message with | none => Response.close s | some _ => s)
    split
    · exact h.close
    · exact h
  | read => exact h.read
  | wake =>
    show Inv b (wake s)
    unfold wake
    split
    · exact h.same (readEnds_same s)
    · exact h
  | cancelRead => exact h.cancelRead
  | close => exact h.close
  | release => exact h.release
  | del => exact h.del
  | writerEnds =>
    show Inv b (writerEnds s)
    unfold writerEnds
    split
    · exact h.stopped _ (by decide)
    · exact h
  | writerFails =>
    show Inv b (writerFails s)
    unfold writerFails
    split
    · split
      · exact Inv.stopped h.setException _ (by decide)
      · exact h.stopped _ (by decide)
    · exact h
  | detach =>
    show Inv b (detach s)
    unfold detach
    split
    · rename_i hc
      have hc : s.conn = true ∧ s.proto = true := by simpa using hc
      have ho := h.once
      rw [hc.2] at ho
      refine ⟨fun _ => rfl, ?_, fun _ => rfl, h.shut⟩
      have : s.given.length = 0 := by simpa using ho
      simp [this]
    · exact h

theorem Inv.run {b : Bool} {s : State} (h : Inv b s) (ops : List Op) : Inv b (run s ops) := by
  induction ops generalizing s with
  | nil => exact h
  | cons op ops ih => exact ih (h.step op)

theorem run_append (s : State) (a b : List Op) : run s (a ++ b) = run (run s a) b := by
  unfold run; rw [List.foldl_append]

/-- C242: whatever happens to an exchange, the protocol of its connection is never given back twice. -/
theorem C242_at_most_once (m : Method) (performed : Nat) (force : Bool) (ops : List Op) :
    (run (fresh m performed force) ops).given.length ≤ 1 := by
  have := (Inv.run (Inv.fresh m performed force) ops).once
  omega

example : (run (fresh .other 0 false) [.start {}, .release, .close, .del]).given = [.kept] := by decide
example : (run (fresh .other 0 false) [.start { body := .exactly 3 }, .read, .cancelRead, .close, .eof, .del]).given.length = 1 := by decide

/-- What says that the user is through with the response. -/
inductive Ends : Op → Prop
  | close : Ends .close
  | release : Ends .release
  | del : Ends .del

theorem proto_of_shut {b : Bool} {s : State} (h : Inv b s) (hc : s.closed = true) : s.proto = false :=
  h.dropped (h.shut hc).1

theorem cleanUp_closed (s : State) : (cleanUp s).closed = s.closed := (cleanUp_rest s).2.2.2.1

theorem close_closed (s : State) : (close s).closed = true := by
  unfold Response.close
  generalize Response.notify s = t
  dsimp only
  split
  · assumption
  · rw [cleanUp_closed]
    split
    · exact (connClose_rest _).2.1
    · rfl

theorem release_closed (s : State) : (release s).closed = true := by
  unfold Response.release
  generalize Response.notify s = t
  dsimp only
  split
  · assumption
  · rw [cleanUp_closed]
    unfold releaseConn
    split
    · exact (connRelease_rest _).2.1
    · rfl

theorem back_of_ends {b : Bool} {s : State} (h : Inv b s) {op : Op} (he : Ends op) : (step s op).proto = false := by
  have hi := h.step op
  cases he with
  | close => exact proto_of_shut hi (close_closed s)
  | release => exact proto_of_shut hi (release_closed s)
  | del =>
    show (del s).proto = false
    unfold Response.del
    split
    · rename_i hc; exact proto_of_shut h hc
    · exact (releaseConn_inv h).2.1

/-- C242: and after the response is closed, released or destroyed it has been given back, whatever came before and comes later. -/
theorem C242_given_back (m : Method) (performed : Nat) (force : Bool) (before after : List Op) (op : Op) (h : Ends op) :
    (run (fresh m performed force) (before ++ op :: after)).given.length = 1 := by
  rw [run_append]
  have hi := Inv.run (Inv.fresh m performed force) before
  generalize run (fresh m performed force) before = s at hi
  have hs := hi.step op
  have ht : Inv true (step s op) := ⟨fun _ => back_of_ends hi h, hs.once, hs.dropped, hs.shut⟩
  have hr := Inv.run ht after
  have ho := hr.once
  rw [hr.back rfl] at ho
  exact ho

example : (run (fresh .connect 0 false) [.start {}, .read, .del, .lost]).given = [.kept] := by decide
example : (run (fresh .other 0 false) [.receive [1], .close, .release]).given = [.closed] := by decide

/-- C242: a closed response holds no connection, and writes nothing more of the request. -/
theorem C242_closed (m : Method) (performed : Nat) (force : Bool) (ops : List Op)
    (h : (run (fresh m performed force) ops).closed = true) :
    (run (fresh m performed force) ops).conn = false ∧ (run (fresh m performed force) ops).given.length = 1 ∧
      (run (fresh m performed force) ops).writer ≠ .running := by
  have hi := Inv.run (Inv.fresh m performed force) ops
  refine ⟨(hi.shut h).1, ?_, (hi.shut h).2⟩
  have ho := hi.once
  rw [proto_of_shut hi h] at ho
  exact ho

example : (run (fresh .other 0 false) [.start { body := .exactly 2 }, .receive [1, 2]]).closed = true := by decide

end Verif.Response
