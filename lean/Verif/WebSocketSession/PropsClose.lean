import Verif.WebSocketSession.PropsControl

/-! Properties C116 (nothing behind a Close), with several tasks, and C117 (the end of a connection). -/
namespace Verif.WebSocketSession
open Verif.WebSocket

/-! ### C116 -/

/-- At most one Close, and nothing behind it. -/
def CloseIsLast (l : List (Byte × Bytes)) : Prop := ∀ before data after, l = before ++ (8, data) :: after → after = []

theorem CloseIsLast.snoc {l : List (Byte × Bytes)} (h : ∀ e ∈ l, e.1 ≠ 8) (e : Byte × Bytes) : CloseIsLast (l ++ [e]) := by
  intro b d a hx
  rcases List.eq_nil_or_concat a with ha | ⟨a', x, ha⟩
  · exact ha
  · exfalso
    subst ha
    have : l ++ [e] = (b ++ (8, d) :: a') ++ [x] := by rw [hx]; simp
    exact h (8, d) (by rw [List.append_inj_left' this rfl]; simp) rfl

theorem CloseIsLast.prefix {l m : List (Byte × Bytes)} (h : CloseIsLast (l ++ m)) : CloseIsLast l := by
  intro b d a hx
  have := h b d (a ++ m) (by rw [hx]; simp)
  exact (List.append_eq_nil_iff.1 this).1

/-- The connection is not failed while somebody waits to write. -/
def Quiet : Writer → List WriteOp → Prop
  | _, [] => True
  | w, op :: ops => (match op with
      | .fail _ => w.waiting = []
      | .write o _ => o ≠ 8
      | _ => True) ∧ Quiet (w.step op) ops

structure WriterGood (w : Writer) : Prop where
  opened : w.phase = .opened → ∀ e ∈ w.wire ++ w.waiting, e.1 ≠ 8
  last : CloseIsLast (w.wire ++ w.waiting)
  free : w.held = false → w.waiting = []

theorem put_all (w : Writer) (h : w.held = false → w.waiting = []) (f : Byte × Bytes) :
    (w.put f).wire ++ (w.put f).waiting = w.wire ++ w.waiting ++ [f] ∧ (w.put f).phase = w.phase ∧ (w.put f).held = true := by
  unfold Writer.put
  cases hh : w.held with
  | true => simp
  | false => simp [h hh]

theorem WriterGood.next {w : Writer} (h : WriterGood w) (op : WriteOp) (hq : match op with
      | .fail _ => w.waiting = []
      | .write o _ => o ≠ 8
      | _ => True) : WriterGood (w.step op) := by
  cases op with
  | write o d =>
    simp only [Writer.step]
    split
    · rename_i hp
      obtain ⟨h1, h2, h3⟩ := put_all w h.free (o, d)
      refine ⟨fun _ => ?_, ?_, fun hf => by rw [h3] at hf; cases hf⟩
      · rw [h1]
        intro e he
        rcases List.mem_append.1 he with he | he
        · exact h.opened hp e he
        · rw [List.mem_singleton.1 he]; exact hq
      · rw [h1]; exact CloseIsLast.snoc (h.opened hp) _
    · exact h
  | close d =>
    simp only [Writer.step]
    split
    · rename_i hp
      obtain ⟨h1, h2, h3⟩ := put_all { w with phase := .closing } h.free (8, d)
      refine ⟨fun hx => (by rw [h2] at hx; cases hx), ?_, fun hf => by rw [h3] at hf; cases hf⟩
      rw [h1]; exact CloseIsLast.snoc (h.opened hp) _
    · exact h
  | fail d =>
    simp only [Writer.step]
    split
    · rename_i hp
      have hw : w.waiting = [] := hq
      refine ⟨fun hx => (by cases hx), ?_, fun _ => hw⟩
      have := h.opened hp
      rw [hw, List.append_nil] at this
      show CloseIsLast (w.wire ++ [(8, d)] ++ w.waiting)
      rw [hw, List.append_nil]
      exact CloseIsLast.snoc this _
    · exact h
  | drained =>
    simp only [Writer.step]
    split
    · rename_i hw
      refine ⟨h.opened, h.last, fun _ => hw⟩
    · rename_i f fs hw
      split
      · rename_i hh
        have e : w.wire ++ [f] ++ fs = w.wire ++ w.waiting := by rw [hw]; simp
        refine ⟨fun hp => ?_, ?_, fun hf => ?_⟩
        · show ∀ x ∈ w.wire ++ [f] ++ fs, x.1 ≠ 8
          rw [e]; exact h.opened hp
        · show CloseIsLast (w.wire ++ [f] ++ fs)
          rw [e]; exact h.last
        · rw [show ({ w with waiting := fs, wire := w.wire ++ [f] } : Writer).held = w.held from rfl, hh] at hf
          cases hf
      · exact h

/-- C116, what holds for several tasks: if the connection is not failed while somebody waits to write (as if it is only closed with
`close`), nothing follows a Close. -/
theorem C116_writers_partial (ops : List WriteOp) (h : Quiet Writer.initial ops) : CloseIsLast (Writer.initial.run ops).wire := by
  have key : ∀ (ops : List WriteOp) (w : Writer), WriterGood w → Quiet w ops → WriterGood (w.run ops) := by
    intro ops
    induction ops with
    | nil => exact fun w h _ => h
    | cons op ops ih => intro w h hq; exact ih _ (h.next op hq.1) hq.2
  exact (key ops Writer.initial ⟨by simp [Writer.initial], by intro b d a h; simp [Writer.initial] at h, fun _ => rfl⟩ h).last.prefix

/-- C116: what several tasks write is written in the order in which they wrote. -/
theorem C116_order (ops : List WriteOp) (h : ∀ op ∈ ops, op = .drained ∨ ∃ o d, op = .write o d) :
    (Writer.initial.run ops).wire ++ (Writer.initial.run ops).waiting =
      ops.filterMap fun op => match op with
        | .write o d => some (o, d)
        | _ => none := by
  have key : ∀ (ops : List WriteOp) (w : Writer), (∀ op ∈ ops, op = .drained ∨ ∃ o d, op = .write o d) → w.phase = .opened →
      (w.held = false → w.waiting = []) →
      (w.run ops).wire ++ (w.run ops).waiting = w.wire ++ w.waiting ++ ops.filterMap fun op => match op with
        | .write o d => some (o, d)
        | _ => none := by
    intro ops
    induction ops with
    | nil => intro w _ _ _; simp [Writer.run]
    | cons op ops ih =>
      intro w h hp hf
      show ((w.step op).run ops).wire ++ ((w.step op).run ops).waiting = _
      rcases h op List.mem_cons_self with rfl | ⟨o, d, rfl⟩
      · simp only [Writer.step]
        split
        · rename_i hw
          rw [ih { w with held := false } (fun op h' => h op (List.mem_cons_of_mem _ h')) hp (fun _ => hw)]
          simp
        · rename_i f fs hw
          split
          · rename_i hh
            rw [ih { w with waiting := fs, wire := w.wire ++ [f] } (fun op h' => h op (List.mem_cons_of_mem _ h')) hp
              (fun hx => by simp [hh] at hx)]
            simp [hw]
          · rename_i hh
            exact absurd (hf (by simpa using hh)) (by rw [hw]; simp)
      · simp only [Writer.step]
        rw [if_pos hp]
        obtain ⟨h1, h2, h3⟩ := put_all w hf (o, d)
        rw [ih _ (fun op h' => h op (List.mem_cons_of_mem _ h')) (by rw [h2, hp]) (fun hx => by rw [h3] at hx; cases hx), h1]
        simp
  simpa [Writer.initial] using key ops Writer.initial h rfl (fun _ => rfl)

/-- C116 does not hold: `fail_connection` does not wait for those who write.  Who has waited before writes behind its Close. -/
theorem C116_fail_violated (first second close : Bytes) :
    (Writer.initial.run [.write 1 first, .write 1 second, .fail close, .drained]).wire = [(1, first), (8, close), (1, second)] := rfl

example : (Writer.initial.run [.write 1 [1], .write 1 [2], .close [3], .write 1 [4], .drained, .drained, .drained]).wire =
    [(1, [1]), (1, [2]), (8, [3])] := rfl

example : Quiet Writer.initial [.write 1 [1], .drained, .fail [3], .write 1 [4]] := by
  simp [Quiet, Writer.step, Writer.put, Writer.initial]

/-! ### C117 -/

/-- C117, what holds: if the connection is not lost, it is closed, except for a client without ssl which received a Close. -/
theorem C117_closed_partial (k : Closing) (closeFrame after : Bool) (ht : k.transport = true)
    (h : k.ssl = true ∨ k.client = false ∨ closeFrame = false) :
    .close ∈ closeConnection k (waiterDone k.client closeFrame false) after := by
  obtain ⟨client, ssl, canEof, transfer, transport⟩ := k
  cases ht
  revert h
  revert client ssl canEof transfer closeFrame after
  decide

/-- C117, what holds: the end of the writing side comes before the close. -/
theorem C117_eof_partial (k : Closing) (hc : k.client = false) (he : k.canEof = true) (ht : k.transport = true) (after : Bool) :
    closeConnection k false after = [.eof, .close] := by
  obtain ⟨client, ssl, canEof, transfer, transport⟩ := k
  cases hc; cases he; cases ht
  revert ssl transfer after
  decide

/-- C117 does not hold: a client without ssl which received a Close waits for the server, and never closes the connection. -/
theorem C117_client_violated (k : Closing) (hc : k.client = true) (hs : k.ssl = false) (after : Bool) :
    .close ∉ closeConnection k (waiterDone k.client true false) after ∧ .abort ∉ closeConnection k (waiterDone k.client true false) after := by
  obtain ⟨client, ssl, canEof, transfer, transport⟩ := k
  cases hc; cases hs
  revert canEof transfer transport after
  decide

/-- C117 does not hold: it is never aborted, if the end of the connection does not come within the `close_timeout`: it is not even waited
for, because of the test of `wait_for_connection_lost`, which is the wrong way round. -/
theorem C117_abort_violated (k : Closing) (lost after : Bool) :
    .abort ∉ closeConnection k lost after ∧ (lost = false → .wait ∉ closeConnection k lost after) := by
  obtain ⟨client, ssl, canEof, transfer, transport⟩ := k
  revert client ssl canEof transfer transport lost after
  decide

/-- C117 does not hold: `wait_for_connection_lost` says that the connection is lost, always. -/
theorem C117_wait_violated (lost after : Bool) : (waitForConnectionLost lost after).1 = true := by
  revert lost after
  decide

end Verif.WebSocketSession
