import Verif.Response.Props

/-! C243, first part: what the message and the connector say is heeded; C247: connections which broke are not kept. -/
namespace Verif.Response

/-- The message allows one more request on a connection which performed so many. -/
inductive Permits : Option Msg → Nat → Bool → Prop
  | unlimited (m : Msg) (p : Nat) (h : m.keep = some ⟨none⟩) : Permits (some m) p false
  | limited (m : Msg) (p n : Nat) (h : m.keep = some ⟨some n⟩) (hn : p + 1 < n) : Permits (some m) p false

theorem permits_of_kept {s : State} (h : decideGive s = .kept) :
    shouldClose s = false ∧ Permits s.message s.performed s.forceClose := by
  unfold decideGive at h
  split at h
  · cases h
  · rename_i hs
    refine ⟨by simpa using hs, ?_⟩
    split at h
    · cases h
    · rename_i k hk
      split at h
      · cases h
      · rename_i hr
        split at h
        · cases h
        · rename_i hf
          have hf : s.forceClose = false := by simpa using hf
          rw [hf]
          obtain ⟨m, hm, hmk⟩ := Option.bind_eq_some_iff.1 hk
          rw [hm]
          obtain ⟨mx⟩ := k
          cases mx with
          | none => exact .unlimited m _ hmk
          | some n =>
            refine .limited m _ n hmk ?_
            simp [reached] at hr
            omega

theorem kept_of_permits {s : State} (h : shouldClose s = false) (hp : Permits s.message s.performed s.forceClose) :
    decideGive s = .kept := by
  unfold decideGive
  rw [h]
  generalize s.message = om at hp
  generalize s.performed = p at hp
  generalize s.forceClose = f at hp
  cases hp with
  | unlimited m _ h => simp [h, reached]
  | limited m _ n h hn =>
    have : ¬ n ≤ p + 1 := by omega
    simp [h, reached, this]

theorem not_failed_of_kept {s : State} (h : decideGive s = .kept) : s.failed = false := by
  have := (permits_of_kept h).1
  unfold shouldClose at this
  cases hf : s.failed
  · rfl
  · rw [hf] at this; simp at this

/-- `c` says whether the connection is known to have broken before it was given back. -/
structure Ok (c : Bool) (p : Nat) (f : Bool) (om : Option Msg) (s : State) : Prop where
  perf : s.performed = p
  force : s.forceClose = f
  msg : s.message = om
  kept : .kept ∈ s.given → Permits om p f
  bad : c = true → s.failed = true ∧ .kept ∉ s.given

variable {c : Bool} {p : Nat} {f : Bool} {om : Option Msg}

structure Still (s t : State) : Prop where
  perf : t.performed = s.performed
  force : t.forceClose = s.forceClose
  msg : t.message = s.message
  given : t.given = s.given
  failed : s.failed = true → t.failed = true

theorem Ok.still {s t : State} (h : Ok c p f om s) (e : Still s t) : Ok c p f om t where
  perf := e.perf.trans h.perf
  force := e.force.trans h.force
  msg := e.msg.trans h.msg
  kept := by rw [e.given]; exact h.kept
  bad := fun hc => ⟨e.failed (h.bad hc).1, by rw [e.given]; exact (h.bad hc).2⟩

theorem Ok.connRelease {s : State} (h : Ok c p f om s) : Ok c p f om (connRelease s) := by
  unfold Response.connRelease
  split
  · refine ⟨h.perf, h.force, h.msg, ?_, ?_⟩
    · intro hk
      rcases List.mem_append.1 hk with hk | hk
      · exact h.kept hk
      · have := (permits_of_kept (List.mem_singleton.1 hk).symm).2
        rw [h.perf, h.force, h.msg] at this
        exact this
    · intro hc
      refine ⟨(h.bad hc).1, ?_⟩
      intro hk
      rcases List.mem_append.1 hk with hk | hk
      · exact (h.bad hc).2 hk
      · have := not_failed_of_kept (List.mem_singleton.1 hk).symm
        rw [(h.bad hc).1] at this
        cases this
  · exact h

theorem Ok.connClose {s : State} (h : Ok c p f om s) : Ok c p f om (connClose s) := by
  unfold Response.connClose
  split
  · refine ⟨h.perf, h.force, h.msg, ?_, ?_⟩
    · intro hk
      rcases List.mem_append.1 hk with hk | hk
      · exact h.kept hk
      · cases List.mem_singleton.1 hk
    · intro hc
      refine ⟨(h.bad hc).1, ?_⟩
      intro hk
      rcases List.mem_append.1 hk with hk | hk
      · exact (h.bad hc).2 hk
      · cases List.mem_singleton.1 hk
  · exact h

theorem Ok.releaseConn {s : State} (h : Ok c p f om s) : Ok c p f om (releaseConn s) := by
  unfold Response.releaseConn
  split
  · exact Ok.connRelease (h.still ⟨rfl, rfl, rfl, rfl, id⟩)
  · exact h

theorem Ok.cleanUp {s : State} (h : Ok c p f om s) : Ok c p f om (cleanUp s) := by
  unfold Response.cleanUp
  split
  · exact h.still ⟨rfl, rfl, rfl, rfl, id⟩
  · exact h

theorem Ok.responseEof {s : State} (h : Ok c p f om s) : Ok c p f om (responseEof s) := by
  unfold Response.responseEof
  split
  · exact h
  · split
    · split
      · exact h
      · exact Ok.cleanUp ((Ok.releaseConn (s := { s with released := true }) (h.still ⟨rfl, rfl, rfl, rfl, id⟩)).still
          ⟨rfl, rfl, rfl, rfl, id⟩)
    · exact Ok.cleanUp (h.still ⟨rfl, rfl, rfl, rfl, id⟩)

theorem Ok.runCallbacks {s : State} (h : Ok c p f om s) : Ok c p f om (runCallbacks s) := by
  unfold Response.runCallbacks
  split
  · apply Ok.responseEof
    split <;> exact h.still ⟨rfl, rfl, rfl, rfl, id⟩
  · exact h

theorem Ok.finish {s : State} (h : Ok c p f om s) (d : Done) : Ok c p f om (finish s d) := by
  unfold Response.finish
  split
  · exact h
  · exact Ok.runCallbacks (h.still ⟨rfl, rfl, rfl, rfl, id⟩)

theorem Ok.setException {s : State} (h : Ok c p f om s) : Ok c p f om (setException s) := by
  unfold Response.setException
  split
  · exact (Ok.finish (s := { s with failed := true, set := false }) (h.still ⟨rfl, rfl, rfl, rfl, fun _ => rfl⟩) .exception).still
      ⟨rfl, rfl, rfl, rfl, id⟩
  · exact h.still ⟨rfl, rfl, rfl, rfl, fun _ => rfl⟩

theorem Ok.eofReceived {s : State} (h : Ok c p f om s) : Ok c p f om (eofReceived s) := by
  unfold Response.eofReceived
  split
  · exact h.still ⟨rfl, rfl, rfl, rfl, id⟩
  · exact Ok.finish (s := { s with atEof := true, reader := none, set := false }) (h.still ⟨rfl, rfl, rfl, rfl, id⟩) _
  · exact Ok.finish (s := { s with atEof := true, reader := none, set := false }) (h.still ⟨rfl, rfl, rfl, rfl, id⟩) _

theorem Ok.received {s : State} (h : Ok c p f om s) (bs : Bytes) : Ok c p f om (received s bs) := by
  unfold Response.received
  split
  · exact h.still ⟨rfl, rfl, rfl, rfl, id⟩
  · exact h.still ⟨rfl, rfl, rfl, rfl, id⟩
  · rename_i n _
    split
    · exact h.still ⟨rfl, rfl, rfl, rfl, id⟩
    · exact (Ok.finish (s := { s with chunks := s.chunks ++ bs.take n, buffer := bs.drop n })
        (h.still ⟨rfl, rfl, rfl, rfl, id⟩) .success).still ⟨rfl, rfl, rfl, rfl, id⟩

theorem Ok.broken {s : State} (h : Ok c p f om s) : Ok c p f om (broken s) := by
  unfold Response.broken
  split
  · exact h
  · exact (Ok.finish h .exception).still ⟨rfl, rfl, rfl, rfl, id⟩

theorem setReader_still (s : State) (b : Body) : Still s (setReader s b) := by
  unfold setReader
  split
  · exact ⟨rfl, rfl, rfl, rfl, id⟩
  · split
    · exact ⟨rfl, rfl, rfl, rfl, id⟩
    · split
      · exact ⟨rfl, rfl, rfl, rfl, id⟩
      · split <;> exact ⟨rfl, rfl, rfl, rfl, id⟩
    · split <;> exact ⟨rfl, rfl, rfl, rfl, id⟩

theorem Ok.watch {s : State} (h : Ok c p f om s) : Ok c p f om (watch s) := by
  unfold Response.watch
  split
  · exact h.responseEof
  · exact h.still ⟨rfl, rfl, rfl, rfl, id⟩

theorem Ok.start {s : State} (h : Ok c p f om s) (m : Msg) : Ok c p f (om.or (some m)) (start s m) := by
  unfold Response.start
  split
  · rename_i x hx
    have := h.msg
    rw [hx] at this
    subst this
    exact h
  · rename_i hx
    have := h.msg
    rw [hx] at this
    subst this
    have h' : Ok c p f (some m) { s with message := some m } := by
      refine ⟨h.perf, h.force, rfl, ?_, h.bad⟩
      intro hk
      cases h.kept hk
    show Ok c p f (some m) _
    split
    · exact h'
    · exact h'.responseEof
    · split
      · exact h'.responseEof
      · exact (Ok.watch (h'.still (setReader_still _ _))).still ⟨rfl, rfl, rfl, rfl, id⟩

theorem Ok.notify {s : State} (h : Ok c p f om s) : Ok c p f om (notify s) := by
  unfold Response.notify
  split
  · exact h
  · split
    · exact h.setException.still ⟨rfl, rfl, rfl, rfl, id⟩
    · exact h.still ⟨rfl, rfl, rfl, rfl, id⟩

theorem Ok.close {s : State} (h : Ok c p f om s) : Ok c p f om (close s) := by
  have hn := h.notify
  unfold Response.close
  generalize Response.notify s = t at hn
  dsimp only
  split
  · exact hn
  · split
    · exact Ok.cleanUp (Ok.connClose (hn.still ⟨rfl, rfl, rfl, rfl, id⟩))
    · exact Ok.cleanUp (hn.still ⟨rfl, rfl, rfl, rfl, id⟩)

theorem Ok.release {s : State} (h : Ok c p f om s) : Ok c p f om (release s) := by
  have hn := h.notify
  unfold Response.release
  generalize Response.notify s = t at hn
  dsimp only
  split
  · exact hn
  · exact Ok.cleanUp (Ok.releaseConn (hn.still ⟨rfl, rfl, rfl, rfl, id⟩))

theorem readEnds_still (s : State) : Still s (readEnds s) := by
  unfold readEnds; split <;> exact ⟨rfl, rfl, rfl, rfl, id⟩

/-- The first head which was read. -/
def headOf (om : Option Msg) : List Op → Option Msg
  | [] => om
  | .start m :: ops => headOf (om.or (some m)) ops
  | _ :: ops => headOf om ops

def headStep (om : Option Msg) : Op → Option Msg
  | .start m => om.or (some m)
  | _ => om

theorem headOf_cons (om : Option Msg) (op : Op) (ops : List Op) : headOf om (op :: ops) = headOf (headStep om op) ops := by
  cases op <;> rfl

theorem Ok.step {s : State} (h : Ok c p f om s) (op : Op) : Ok c p f (headStep om op) (step s op) := by
  cases op with
  | receive bs => exact h.received bs
  | broken => exact h.broken
  | eof => exact h.eofReceived
  | lost => exact h.setException
  | start m => exact h.start m
  | startFails =>
    show Ok c p f om (match s.message with | none => Response.close s | some _ => s)
    split
    · exact h.close
    · exact h
  | read =>
    show Ok c p f om (read s)
    unfold Response.read
    split
    · exact h
    · split
      · split
        · exact h.still (readEnds_still s)
        · exact h.still ⟨rfl, rfl, rfl, rfl, id⟩
      · split <;> exact h.still ⟨rfl, rfl, rfl, rfl, id⟩
  | wake =>
    show Ok c p f om (wake s)
    unfold wake
    split
    · exact h.still (readEnds_still s)
    · exact h
  | cancelRead =>
    show Ok c p f om (cancelRead s)
    unfold Response.cancelRead
    split
    · exact (Ok.finish h .aborted).still ⟨rfl, rfl, rfl, rfl, id⟩
    · exact h
  | close => exact h.close
  | release => exact h.release
  | del =>
    show Ok c p f om (del s)
    unfold Response.del
    split
    · exact h
    · exact h.releaseConn
  | writerEnds =>
    show Ok c p f om (writerEnds s)
    unfold writerEnds
    split
    · exact h.still ⟨rfl, rfl, rfl, rfl, id⟩
    · exact h
  | writerFails =>
    show Ok c p f om (writerFails s)
    unfold writerFails
    split
    · split
      · exact (h.setException).still ⟨rfl, rfl, rfl, rfl, id⟩
      · exact h.still ⟨rfl, rfl, rfl, rfl, id⟩
    · exact h
  | detach =>
    show Ok c p f om (detach s)
    unfold detach
    split
    · refine ⟨h.perf, h.force, h.msg, ?_, ?_⟩
      · intro hk
        rcases List.mem_append.1 hk with hk | hk
        · exact h.kept hk
        · cases List.mem_singleton.1 hk
      · intro hc
        refine ⟨(h.bad hc).1, ?_⟩
        intro hk
        rcases List.mem_append.1 hk with hk | hk
        · exact (h.bad hc).2 hk
        · cases List.mem_singleton.1 hk
    · exact h

theorem Ok.run {s : State} (h : Ok c p f om s) (ops : List Op) : Ok c p f (headOf om ops) (run s ops) := by
  induction ops generalizing s om with
  | nil => exact h
  | cons op ops ih => rw [headOf_cons]; exact ih (h.step op)

theorem Ok.fresh (m : Method) (p : Nat) (f : Bool) : Ok false p f none (fresh m p f) :=
  ⟨rfl, rfl, rfl, (by intro h; cases h), (by intro h; cases h)⟩

/-- C243: whatever happens, a connection is kept only when the head of the response was read, it said that the connection stays open, the
number of requests it allows is not reached, and the connector does not close by force. -/
theorem C243_permitted (m : Method) (performed : Nat) (force : Bool) (ops : List Op)
    (h : .kept ∈ (run (fresh m performed force) ops).given) : Permits (headOf none ops) performed force :=
  ((Ok.fresh m performed force).run ops).kept h

example : .kept ∈ (run (fresh .other 3 false) [.start { keep := some ⟨some 5⟩ }]).given := by decide
example : .kept ∉ (run (fresh .other 4 false) [.start { keep := some ⟨some 5⟩ }]).given := by decide

/-- C247: a connection which broke with an exception before it was given back is not kept, whatever happened before and comes later. -/
theorem C247_broken_partial (m : Method) (performed : Nat) (force : Bool) (before after : List Op)
    (h : (run (fresh m performed force) before).given = []) :
    .kept ∉ (run (fresh m performed force) (before ++ .lost :: after)).given := by
  rw [run_append]
  have hi := (Ok.fresh m performed force).run before
  generalize run (fresh m performed force) before = s at hi h
  generalize headOf none before = om at hi
  show _ ∉ (run (setException s) after).given
  have key : Ok true performed force om (setException s) := by
    unfold setException
    have h1 : Ok true performed force om { s with failed := true, set := false } :=
      ⟨hi.perf, hi.force, hi.msg, hi.kept, fun _ => ⟨rfl, by show _ ∉ s.given; rw [h]; exact List.not_mem_nil⟩⟩
    split
    · exact (h1.finish .exception).still ⟨rfl, rfl, rfl, rfl, id⟩
    · exact ⟨hi.perf, hi.force, hi.msg, hi.kept, fun _ => ⟨rfl, by show _ ∉ s.given; rw [h]; exact List.not_mem_nil⟩⟩
  exact ((key.run after).bad rfl).2

example : (run (fresh .other 0 false) ([.start { body := .exactly 3 }, .receive [1]] ++ .lost :: [.release])).given = [.closed] := by decide
example : (run (fresh .connect 0 false) ([.start {}] ++ .lost :: [.release])).given = [.closed] := by decide

end Verif.Response
