import Verif.WebSocketSession.Model
import Verif.WebSocket.Props

/-! Lemmas about sessions. -/
namespace Verif.WebSocketSession
open Verif.WebSocket

theorem head_split : ∀ b : Byte, b &&& 0b01110000 = 0 →
    b = ((if (b &&& 0b10000000 != 0) = true then 1 else 0 : Byte) <<< 7) ||| (b &&& 0b00001111) := by
  apply byte_all (P := fun b : Byte => b &&& 0b01110000 = 0 →
    b = ((if (b &&& 0b10000000 != 0) = true then 1 else 0 : Byte) <<< 7) ||| (b &&& 0b00001111))
  decide +kernel

theorem check_new {f : Frame} (h : f.check = .ok ()) : f = Frame.new f.final f.operationCode f.data := by
  obtain ⟨head, data⟩ := f
  have h0 : head &&& 0b01110000 = 0 := by
    unfold Frame.check at h
    split at h
    · cases h
    · rename_i h0; simpa using h0
  have := head_split head h0
  unfold Frame.new Frame.final Frame.operationCode
  simp only [Frame.mk.injEq, and_true]
  exact this

theorem check_control {f : Frame} (h : f.check = .ok ()) (ho : ¬ (f.operationCode = 0 ∨ f.operationCode = 1 ∨ f.operationCode = 2)) :
    (f.operationCode = 8 ∨ f.operationCode = 9 ∨ f.operationCode = 10) ∧ f.data.length ≤ 125 ∧ f.final = true := by
  unfold Frame.check at h
  unfold Frame.operationCode at ho ⊢
  split at h
  · cases h
  · dsimp only at h
    rw [if_neg ho] at h
    split at h
    · rename_i hc
      split at h
      · cases h
      · split at h
        · cases h
        · rename_i h1 h2
          exact ⟨hc, by omega, by unfold Frame.final; simpa using h2⟩
    · cases h

theorem new_op (final : Bool) (op : Byte) (hop : op.toNat < 16) (data : Bytes) : (Frame.new final op data).operationCode = op :=
  (C04_head_fields final op hop data).2.1

theorem new_final (final : Bool) (op : Byte) (hop : op.toNat < 16) (data : Bytes) : (Frame.new final op data).final = final :=
  (C04_head_fields final op hop data).1

theorem new_data (final : Bool) (op : Byte) (data : Bytes) : (Frame.new final op data).data = data := rfl

/-- What the end of `transfer_data` leaves. -/
theorem abort_ended (s : Session) (code : Nat) : (s.abort code).ended = some code := rfl

theorem fail_fields (s : Session) (code : Nat) :
    (s.fail code).messages = s.messages ∧ (s.fail code).parts = s.parts ∧ (s.fail code).room = s.room ∧ (s.fail code).pings = s.pings ∧
      (s.fail code).answered = s.answered ∧ (s.fail code).ended = s.ended ∧ (s.fail code).stuck = s.stuck := by
  unfold Session.fail
  split <;> exact ⟨rfl, rfl, rfl, rfl, rfl, rfl, rfl⟩

theorem abort_fields (s : Session) (code : Nat) :
    (s.abort code).messages = s.messages ∧ (s.abort code).parts = s.parts ∧ (s.abort code).room = s.room ∧
      (s.abort code).pings = s.pings ∧ (s.abort code).answered = s.answered := by
  obtain ⟨h1, h2, h3, h4, h5, -⟩ := fail_fields s code
  exact ⟨h1, h2, h3, h4, h5⟩

theorem writeClose_fields (s : Session) (data : Bytes) :
    (s.writeClose data).messages = s.messages ∧ (s.writeClose data).parts = s.parts ∧ (s.writeClose data).room = s.room ∧
      (s.writeClose data).pings = s.pings ∧ (s.writeClose data).answered = s.answered ∧ (s.writeClose data).ended = s.ended ∧
      (s.writeClose data).stuck = s.stuck ∧ (s.writeClose data).closeCode = s.closeCode ∧
      (s.writeClose data).closeReason = s.closeReason := by
  unfold Session.writeClose
  split <;> exact ⟨rfl, rfl, rfl, rfl, rfl, rfl, rfl, rfl, rfl⟩

theorem finish_ended (data : Bytes) (s : Session) : (Session.closeFrame.finish data s).ended ≠ none ∧
    (Session.closeFrame.finish data s).messages = s.messages ∧ (Session.closeFrame.finish data s).answered = s.answered := by
  unfold Session.closeFrame.finish
  dsimp only
  split
  · exact ⟨by simp, (writeClose_fields s data).1, (writeClose_fields s data).2.2.2.2.1⟩
  · refine ⟨by simp [abort_ended], ?_, ?_⟩
    · rw [(abort_fields _ _).1, (writeClose_fields s data).1]
    · rw [(abort_fields _ _).2.2.2.2, (writeClose_fields s data).2.2.2.2.1]

theorem closeFrame_ended (c : Config) (s : Session) (data : Bytes) : (s.closeFrame c data).ended ≠ none ∧
    (s.closeFrame c data).messages = s.messages ∧ (s.closeFrame c data).answered = s.answered := by
  unfold Session.closeFrame
  split
  · dsimp only
    split
    · split
      · exact ⟨by simp [abort_ended], (abort_fields _ _).1, (abort_fields _ _).2.2.2.2⟩
      · have := finish_ended data { s with closeCode := beNat (data.take 2), closeReason := some ‹Text› }
        exact this
    · exact ⟨by simp [abort_ended], (abort_fields _ _).1, (abort_fields _ _).2.2.2.2⟩
  · split
    · exact finish_ended data { s with closeCode := 1005 }
    · exact ⟨by simp [abort_ended], (abort_fields _ _).1, (abort_fields _ _).2.2.2.2⟩

/-- A data frame behind which it goes on. -/
theorem dataFrame_cases {c : Config} {s : Session} {f : Frame} (hop : f.operationCode = 0 ∨ f.operationCode = 1 ∨ f.operationCode = 2)
    (he : (s.dataFrame c f).ended = none) :
    (s.parts = none ∧ f.operationCode ≠ 0 ∧
      ((f.final = true ∧ ∃ m, s.dataFrame c f = { s with messages := s.messages ++ [m], parts := none, room := c.maxSize } ∧
          ((f.operationCode = 1 ∧ ∃ t, m = .text t ∧ c.codec.decode f.data = some t) ∨ (f.operationCode = 2 ∧ m = .binary f.data))) ∨
        (f.final = false ∧ s.dataFrame c f =
          { s with parts := some (decide (f.operationCode = 1), [f.data]), room := c.maxSize - f.data.length }))) ∨
    (∃ text datas, s.parts = some (text, datas) ∧ f.operationCode = 0 ∧
      ((f.final = true ∧ ∃ m, s.dataFrame c f = { s with messages := s.messages ++ [m], parts := none, room := c.maxSize } ∧
          ((text = true ∧ ∃ t, m = .text t ∧ c.codec.decode (datas ++ [f.data]).flatten = some t) ∨
            (text = false ∧ m = .binary (datas ++ [f.data]).flatten))) ∨
        (f.final = false ∧ s.dataFrame c f =
          { s with parts := some (text, datas ++ [f.data]), room := s.room - f.data.length }))) := by
  have del : ∀ text data, (s.deliver c text data).ended = none → ∃ m, s.deliver c text data =
      { s with messages := s.messages ++ [m], parts := none, room := c.maxSize } ∧
      ((text = true ∧ ∃ t, m = .text t ∧ c.codec.decode data = some t) ∨ (text = false ∧ m = .binary data)) := by
    intro text data h
    unfold Session.deliver at h ⊢
    cases text with
    | false => exact ⟨.binary data, by simp, Or.inr ⟨rfl, rfl⟩⟩
    | true =>
      simp only [if_true] at h ⊢
      split at h
      · simp [abort_ended] at h
      · rename_i t ht
        exact ⟨.text t, rfl, Or.inl ⟨trivial, t, rfl, ht⟩⟩
  unfold Session.dataFrame at he ⊢
  split at he
  · rename_i hp
    rw [hp]
    left
    refine ⟨rfl, ?_⟩
    split at he
    · simp [abort_ended] at he
    · rename_i h0
      refine ⟨h0, ?_⟩
      rw [if_neg h0]
      split at he
      · rename_i hf
        left
        refine ⟨hf, ?_⟩
        rw [if_pos hf]
        obtain ⟨m, h1, h2⟩ := del _ _ he
        refine ⟨m, h1, ?_⟩
        rcases h2 with ⟨h2, h3⟩ | ⟨h2, h3⟩
        · exact Or.inl ⟨of_decide_eq_true h2, h3⟩
        · have : f.operationCode ≠ 1 := of_decide_eq_false h2
          rcases hop with h | h | h
          · exact absurd h h0
          · exact absurd h this
          · exact Or.inr ⟨h, h3⟩
      · rename_i hf
        right
        exact ⟨by simpa using hf, by rw [if_neg hf]⟩
  · rename_i text datas hp
    rw [hp]
    right
    refine ⟨text, datas, rfl, ?_⟩
    split at he
    · simp [abort_ended] at he
    · rename_i h0
      have h0' : f.operationCode = 0 := by simpa using h0
      refine ⟨h0', ?_⟩
      rw [if_neg h0]
      split at he
      · rename_i hf
        left
        refine ⟨hf, ?_⟩
        rw [if_pos hf]
        exact del _ _ he
      · rename_i hf
        right
        exact ⟨by simpa using hf, by rw [if_neg hf]⟩

/-- A frame behind which it goes on: a data frame, a ping or a pong. -/
theorem frame_cases {c : Config} {s : Session} {f : Frame} (he : (s.frame c f).ended = none) :
    f.data.length ≤ s.room ∧ f.check = .ok () ∧
      (((f.operationCode = 0 ∨ f.operationCode = 1 ∨ f.operationCode = 2) ∧ s.frame c f = s.dataFrame c f) ∨
        (f.operationCode = 9 ∧ f.data.length ≤ 125 ∧ s.frame c f = s.pingFrame f.data) ∨
        (f.operationCode = 10 ∧ f.data.length ≤ 125 ∧ c.client = true ∧ s.pings.any (·.1 = f.data) = false ∧ s.frame c f = s)) := by
  unfold Session.frame at he ⊢
  split at he
  · simp [abort_ended] at he
  · rename_i hr
    rw [if_neg hr]
    refine ⟨by omega, ?_⟩
    split at he
    · simp [abort_ended] at he
    · rename_i hc
      refine ⟨hc, ?_⟩
      split at he
      · rename_i hd
        exact Or.inl ⟨hd, by rw [if_pos hd]⟩
      · rename_i hd
        obtain ⟨h1, h2, -⟩ := check_control hc hd
        rw [if_neg hd]
        split at he
        · exact absurd he (closeFrame_ended c s f.data).1
        · rename_i h8
          rw [if_neg h8]
          split at he
          · rename_i h9
            exact Or.inr (Or.inl ⟨h9, h2, by rw [if_pos h9]⟩)
          · rename_i h9
            rw [if_neg h9]
            right; right
            refine ⟨by rcases h1 with h | h | h <;> first | exact absurd h h8 | exact absurd h h9 | exact h, h2, ?_⟩
            unfold Session.pongFrame at he ⊢
            split at he
            · rename_i hcl
              rw [if_pos hcl]
              split at he
              · simp [abort_ended] at he
              · rename_i ha
                exact ⟨hcl, by simpa only [Bool.not_eq_true] using ha, by rw [if_neg ha]⟩
            · simp [abort_ended] at he

theorem run_append (c : Config) (s : Session) (a b : List Op) : s.run c (a ++ b) = (s.run c a).run c b := by
  unfold Session.run; rw [List.foldl_append]

theorem run_nil (c : Config) (s : Session) : s.run c [] = s := rfl
theorem run_cons (c : Config) (s : Session) (op : Op) (ops : List Op) : s.run c (op :: ops) = (s.step c op).1.run c ops := rfl

theorem step_frame {c : Config} {s : Session} (he : s.ended = none) (hs : s.stuck = false) (f : Frame) :
    (s.step c (.frame f)).1 = s.frame c f := by
  unfold Session.step
  dsimp only
  rw [if_pos ⟨he, hs⟩]

/-- Once it is over, it is over. -/
theorem step_ended {c : Config} {s : Session} (op : Op) {code : Nat} (he : s.ended = some code) : (s.step c op).1.ended = some code := by
  cases op <;> simp only [Session.step, Session.usable, he] <;> (try exact he) <;> (try simp [he])
  split
  · exact he
  · rw [(writeClose_fields s _).2.2.2.2.2.1, he]

theorem step_stuck {c : Config} {s : Session} (op : Op) (he : s.stuck = true) : (s.step c op).1.stuck = true := by
  cases op with
  | frame f => simp [Session.step, he]
  | eof => simp [Session.step, he]
  | send m => simp only [Session.step]; split <;> (try cases m) <;> exact he
  | ping d => simp only [Session.step]; split <;> exact he
  | pong d => simp only [Session.step]; split <;> exact he
  | close code reason =>
    simp only [Session.step]
    split
    · exact he
    · rw [(writeClose_fields s _).2.2.2.2.2.2.1, he]
  | lost => exact he
  | timeout =>
    simp only [Session.step]
    split
    · show (s.fail 1006).stuck = true
      rw [(fail_fields s 1006).2.2.2.2.2.2, he]
    · exact he

theorem run_ended {c : Config} {s : Session} (ops : List Op) {code : Nat} (he : s.ended = some code) : (s.run c ops).ended = some code := by
  induction ops generalizing s with
  | nil => exact he
  | cons op ops ih => rw [run_cons]; exact ih (step_ended op he)

theorem run_stuck {c : Config} {s : Session} (ops : List Op) (he : s.stuck = true) : (s.run c ops).stuck = true := by
  induction ops generalizing s with
  | nil => exact he
  | cons op ops ih => rw [run_cons]; exact ih (step_stuck op he)

/-- The operations of users do not matter to what is read. -/
theorem step_user {c : Config} {s : Session} (op : Op) (h1 : ∀ f, op ≠ .frame f) (h2 : op ≠ .eof) (h3 : op ≠ .timeout) :
    (s.step c op).1.messages = s.messages ∧ (s.step c op).1.parts = s.parts ∧ (s.step c op).1.room = s.room ∧
      (s.step c op).1.ended = s.ended ∧ (s.step c op).1.stuck = s.stuck ∧ (s.step c op).1.answered = s.answered := by
  cases op with
  | frame f => exact absurd rfl (h1 f)
  | eof => exact absurd rfl h2
  | send m => simp only [Session.step]; split <;> (try cases m) <;> exact ⟨rfl, rfl, rfl, rfl, rfl, rfl⟩
  | ping d => simp only [Session.step]; split <;> exact ⟨rfl, rfl, rfl, rfl, rfl, rfl⟩
  | pong d => simp only [Session.step]; split <;> exact ⟨rfl, rfl, rfl, rfl, rfl, rfl⟩
  | close code reason =>
    simp only [Session.step]
    split
    · exact ⟨rfl, rfl, rfl, rfl, rfl, rfl⟩
    · obtain ⟨a, b, d, -, e, f, g, -⟩ := writeClose_fields s ‹Bytes›
      exact ⟨a, b, d, f, g, e⟩
  | lost => exact ⟨rfl, rfl, rfl, rfl, rfl, rfl⟩
  | timeout => exact absurd rfl h3

theorem snocInduction {α : Type} {P : List α → Prop} (nil : P []) (snoc : ∀ l a, P l → P (l ++ [a])) (l : List α) : P l := by
  have : ∀ n (l : List α), l.length = n → P l := by
    intro n
    induction n with
    | zero => intro l h; rw [List.length_eq_zero_iff.1 h]; exact nil
    | succ n ih =>
      intro l h
      have hne : l ≠ [] := by intro e; rw [e] at h; simp at h
      rw [← List.dropLast_concat_getLast hne]
      exact snoc _ _ (ih _ (by simp [h]))
  exact this _ l rfl

end Verif.WebSocketSession
