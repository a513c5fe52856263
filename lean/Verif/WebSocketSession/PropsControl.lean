import Verif.WebSocketSession.Props

/-!
Properties C112 (pings are answered), C113 (pongs), C114 (close codes and reasons), C115 (control frames which are written) and the part
of C116 (nothing behind a Close) about a session.
-/
namespace Verif.WebSocketSession
open Verif.WebSocket

/-! ### What is written -/

/-- What an open connection writes for an operation, if it stays open. -/
def reaction (c : Config) : Op → List (Byte × Bytes)
  | .frame f => if f.operationCode = 9 then [(10, f.data)] else []
  | .send (.text t) => [(1, c.codec.encode t)]
  | .send (.binary data) => [(2, data)]
  | .ping data => [(9, data)]
  | .pong data => [(10, data)]
  | _ => []

/-- Codes which may be sent: RFC 6455, 7.4, and 1013 (https://www.iana.org/assignments/websocket). -/
def Sendable (code : Nat) : Prop :=
  code ∈ [1000, 1001, 1002, 1003, 1007, 1008, 1009, 1010, 1011, 1013] ∨ (3000 ≤ code ∧ code ≤ 4999)

theorem allowedCode_iff (code : Nat) : allowedCode code = true ↔ Sendable code := by
  unfold allowedCode Sendable
  simp only [Bool.or_eq_true, decide_eq_true_eq, Bool.and_eq_true, List.mem_cons, List.not_mem_nil, or_false]
  omega

theorem Sendable.lt {code : Nat} (h : Sendable code) : code < 65536 := by
  rcases h with h | h
  · simp only [List.mem_cons, List.not_mem_nil, or_false] at h; omega
  · omega

theorem beNat_two (code : Nat) (h : code < 65536) (rest : Bytes) :
    beNat ((beBytes 2 code ++ rest).take 2) = code ∧ (beBytes 2 code ++ rest).drop 2 = rest ∧
      (beBytes 2 code ++ rest).length = rest.length + 2 := by
  have hl : (beBytes 2 code).length = 2 := by simp [beBytes]
  refine ⟨?_, ?_, ?_⟩
  · rw [List.take_append_of_le_length (by omega), List.take_of_length_le (by omega)]
    rw [beNat_eq, bigEndian_beBytes 2 code (by simpa using h)]
  · rw [List.drop_append_of_le_length (by omega), List.drop_of_length_le (by omega), List.nil_append]
  · rw [List.length_append, hl]; omega

theorem beBytes_two (a b : Byte) : beBytes 2 (beNat [a, b]) = [a, b] := by
  have ha := a.toNat_lt
  have hb := b.toNat_lt
  simp only [beNat, List.foldl, beBytes, List.cons.injEq, and_true]
  refine ⟨?_, ?_⟩
  · rw [show ((0 * 256 + a.toNat) * 256 + b.toNat) / 256 ^ 1 = a.toNat by omega]
    exact UInt8.ofNat_toNat
  · rw [show ((0 * 256 + a.toNat) * 256 + b.toNat) % 256 ^ 1 / 256 ^ 0 = b.toNat by omega]
    exact UInt8.ofNat_toNat

/-- The payload of a close frame: nothing, or a code that may be sent and a reason. -/
def CloseData (data : Bytes) : Prop := data = [] ∨ ∃ code reason, Sendable code ∧ data = beBytes 2 code ++ reason

/-- How a step writes. -/
inductive Wrote (c : Config) (s s' : Session) (op : Op) : Prop
  | nothing (w : s'.wire = s.wire) (p : s'.phase = .opened → s.phase = .opened)
      (r : s'.phase = .opened → s'.ended = none → s.stuck = false → reaction c op = [])
  | frame (e : Byte × Bytes) (p : s.phase = .opened) (p' : s'.phase = .opened) (w : s'.wire = s.wire ++ [e]) (r : reaction c op = [e])
  | close (data : Bytes) (p : s.phase = .opened) (p' : s'.phase ≠ .opened) (w : s'.wire = s.wire ++ [(8, data)])
      (r : data.length ≤ 125 ∧ CloseData data ∨ ∃ code reason, op = .close code reason ∧ serializeClose c.codec code reason = some data)

theorem abort_wrote (c : Config) (s : Session) (op : Op) (code : Nat) (h : Sendable code ∨ code = 1006) : Wrote c s (s.abort code) op := by
  unfold Session.abort Session.fail
  split
  · rename_i hc
    refine .close (beBytes 2 code) hc.2 (by simp) rfl (Or.inl ⟨by simp [beBytes], Or.inr ⟨code, [], ?_, by simp⟩⟩)
    rcases h with h | h
    · exact h
    · exact absurd h hc.1
  · exact .nothing rfl (fun h => h) (fun _ h => by cases h)

theorem closeFrame_wrote (c : Config) (s : Session) (op : Op) (data : Bytes) (hd : data.length ≤ 125)
    (hl : data.length = 1 ∨ data.length = 0 ∨ 2 ≤ data.length) : Wrote c s (s.closeFrame c data) op := by
  have hfin : ∀ t : Session, t.phase = s.phase → t.wire = s.wire → t.parts = s.parts → CloseData data →
      Wrote c s (Session.closeFrame.finish data t) op := by
    intro t hp hw _ hcd
    unfold Session.closeFrame.finish Session.writeClose
    by_cases ho : t.phase = .opened
    · rw [if_pos ho]
      dsimp only
      split
      · exact .close data (hp ▸ ho) (by simp) (by simp [hw]) (Or.inl ⟨hd, hcd⟩)
      · refine .close data (hp ▸ ho) (by simp [Session.abort, Session.fail]) (by simp [Session.abort, Session.fail, hw]) (Or.inl ⟨hd, hcd⟩)
    · rw [if_neg ho]
      dsimp only
      split
      · exact .nothing (by simp [hw]) (fun h => hp ▸ h) (fun _ h => by simp at h)
      · refine .nothing (by simp [Session.abort, Session.fail, hw, ho]) (fun h => ?_) (fun _ h => by simp [abort_ended] at h)
        simp [Session.abort, Session.fail, ho] at h
  unfold Session.closeFrame
  split
  · rename_i h2
    dsimp only
    split
    · rename_i ha
      split
      · exact abort_wrote c s op 1007 (Or.inl (Or.inl (by simp)))
      · refine hfin _ rfl rfl rfl (Or.inr ⟨beNat (data.take 2), data.drop 2, (allowedCode_iff _).1 ha, ?_⟩)
        match data, h2 with
        | a :: b :: rest, _ => exact (congrArg (· ++ rest) (beBytes_two a b)).symm
    · exact abort_wrote c s op 1002 (Or.inl (Or.inl (by simp)))
  · split
    · rename_i h0
      exact hfin _ rfl rfl rfl (Or.inl (List.length_eq_zero_iff.1 h0))
    · exact abort_wrote c s op 1002 (Or.inl (Or.inl (by simp)))

theorem frame_wrote (c : Config) (s : Session) (f : Frame) :
    Wrote c s (s.frame c f) (.frame f) := by
  have ab : ∀ code, code = 1002 ∨ code = 1007 ∨ code = 1009 ∨ code = 1011 → ∀ t : Session, t.phase = s.phase → t.wire = s.wire →
      Wrote c s (t.abort code) (.frame f) := by
    intro code hc t hp hw
    have hsend : Sendable code := Or.inl (by rcases hc with h | h | h | h <;> simp [h])
    have := abort_wrote c t (.frame f) code (Or.inl hsend)
    cases this with
    | nothing w p r => exact .nothing (by rw [w, hw]) (fun h => hp ▸ p h) (fun _ h => by simp [abort_ended] at h)
    | frame e p p' w r => exact .frame e (hp ▸ p) p' (by rw [w, hw]) r
    | close d p p' w r => exact .close d (hp ▸ p) p' (by rw [w, hw]) r
  unfold Session.frame
  split
  · exact ab 1009 (by simp) s rfl rfl
  · split
    · exact ab 1002 (by simp) s rfl rfl
    · rename_i hck
      split
      · rename_i hop
        have h9 : f.operationCode ≠ 9 := by rcases hop with h | h | h <;> rw [h] <;> decide
        have hre : reaction c (.frame f) = [] := by simp [reaction, h9]
        have hdel : ∀ text data, Wrote c s (s.deliver c text data) (.frame f) := by
          intro text data
          unfold Session.deliver
          split
          · split
            · exact ab 1007 (by simp) s rfl rfl
            · exact .nothing rfl (fun h => h) (fun _ _ _ => hre)
          · exact .nothing rfl (fun h => h) (fun _ _ _ => hre)
        unfold Session.dataFrame
        split
        · split
          · exact ab 1002 (by simp) s rfl rfl
          · split
            · exact hdel _ _
            · exact .nothing rfl (fun h => h) (fun _ _ _ => hre)
        · split
          · exact ab 1002 (by simp) s rfl rfl
          · split
            · exact hdel _ _
            · exact .nothing rfl (fun h => h) (fun _ _ _ => hre)
      · rename_i hop
        obtain ⟨-, h125, -⟩ := check_control hck hop
        split
        · exact closeFrame_wrote c s _ f.data h125 (by omega)
        · split
          · rename_i h9
            unfold Session.pingFrame
            split
            · rename_i hp
              exact .frame (10, f.data) hp hp rfl (by simp [reaction, h9])
            · rename_i hp
              split
              · exact .nothing rfl (fun h => h) (fun h => by simp [hp] at h)
              · exact ab 1011 (by simp) s rfl rfl
            · exact ab 1011 (by simp) s rfl rfl
          · rename_i h9
            unfold Session.pongFrame
            split
            · split
              · exact ab 1011 (by simp) _ rfl rfl
              · exact .nothing rfl (fun h => h) (fun _ _ _ => by simp [reaction, h9])
            · exact ab 1011 (by simp) s rfl rfl

theorem step_wrote (c : Config) (s : Session) (op : Op) : Wrote c s (s.step c op).1 op := by
  have hu : ∀ r : List (Byte × Bytes), reaction c op = r → ¬ s.usable = true → (s.phase = .opened → s.ended = none → False) := by
    intro r _ h hp he
    simp [Session.usable, hp, he] at h
  have hp : s.usable = true → s.phase = .opened := by
    intro h
    simp [Session.usable] at h
    exact h.1
  cases op with
  | frame f =>
    simp only [Session.step]
    split
    · rename_i h; exact frame_wrote c s f
    · rename_i h
      refine .nothing rfl (fun h => h) (fun _ h1 h2 => absurd ⟨h1, h2⟩ h)
  | eof =>
    simp only [Session.step]
    split
    · exact abort_wrote c s _ 1006 (Or.inr rfl)
    · exact .nothing rfl (fun h => h) (fun _ _ _ => rfl)
  | send m =>
    simp only [Session.step]
    split
    · rename_i h
      cases m with
      | text t => exact .frame _ (hp h) (hp h) rfl rfl
      | binary d => exact .frame _ (hp h) (hp h) rfl rfl
    · rename_i h; exact .nothing rfl (fun h => h) (fun h1 h2 _ => (hu _ rfl h h1 h2).elim)
  | ping d =>
    simp only [Session.step]
    split
    · rename_i h; exact .frame (9, d) (hp h) (hp h) rfl rfl
    · rename_i h; exact .nothing rfl (fun h => h) (fun h1 h2 _ => (hu _ rfl h h1 h2).elim)
  | pong d =>
    simp only [Session.step]
    split
    · rename_i h; exact .frame (10, d) (hp h) (hp h) rfl rfl
    · rename_i h; exact .nothing rfl (fun h => h) (fun h1 h2 _ => (hu _ rfl h h1 h2).elim)
  | close code reason =>
    simp only [Session.step]
    split
    · exact .nothing rfl (fun h => h) (fun _ _ _ => rfl)
    · rename_i data hd
      unfold Session.writeClose
      split
      · rename_i h
        exact .close data h (by simp) rfl (Or.inr ⟨code, reason, rfl, hd⟩)
      · exact .nothing rfl (fun h => h) (fun _ _ _ => rfl)
  | lost => exact .nothing rfl (fun h => by simp [Session.step] at h) (fun h => by simp [Session.step] at h)
  | timeout =>
    simp only [Session.step]
    split
    · exact abort_wrote c s _ 1006 (Or.inr rfl)
    · exact .nothing rfl (fun h => h) (fun _ _ _ => rfl)

/-- Only a connection which is not open can be stuck. -/
theorem step_opened (c : Config) (s : Session) (op : Op) (h : (s.step c op).1.phase = .opened) : s.phase = .opened := by
  cases step_wrote c s op with
  | nothing _ p _ => exact p h
  | frame e p _ _ _ => exact p
  | close d p _ _ _ => exact p

theorem run_opened (c : Config) (s : Session) (ops : List Op) (h : (s.run c ops).phase = .opened) : s.phase = .opened := by
  induction ops generalizing s with
  | nil => exact h
  | cons op ops ih => exact step_opened c s op (ih _ h)

theorem step_stuck_phase (c : Config) (s : Session) (op : Op) (h : s.stuck = true → s.phase ≠ .opened) :
    (s.step c op).1.stuck = true → (s.step c op).1.phase ≠ .opened := by
  intro hst hop
  have hp := step_opened c s op hop
  have hs : s.stuck = false := by
    cases hx : s.stuck with
    | false => rfl
    | true => exact absurd hp (h hx)
  by_cases hu : (∀ f, op ≠ .frame f) ∧ op ≠ .eof ∧ op ≠ .timeout
  · rw [(step_user (c := c) (s := s) op hu.1 hu.2.1 hu.2.2).2.2.2.2.1, hs] at hst
    cases hst
  · cases op with
    | frame f =>
      have hab : ∀ (t : Session) code, t.stuck = false → (t.abort code).stuck = true → False := by
        intro t code h1 h2
        have : (t.fail code).stuck = true := h2
        rw [(fail_fields t code).2.2.2.2.2.2, h1] at this
        cases this
      have hdel : ∀ text data, (s.deliver c text data).stuck = true → False := by
        intro text data hx
        unfold Session.deliver at hx
        split at hx
        · split at hx
          · exact hab _ _ hs hx
          · exact absurd hx (by simp [hs])
        · exact absurd hx (by simp [hs])
      have hfin : ∀ (t : Session) data, t.stuck = false → (Session.closeFrame.finish data t).stuck = true → False := by
        intro t data h1 hx
        have h2 : (t.writeClose data).stuck = false := by rw [(writeClose_fields t data).2.2.2.2.2.2.1, h1]
        unfold Session.closeFrame.finish at hx
        dsimp only at hx
        split at hx
        · exact absurd hx (by simp [h2])
        · exact hab _ _ h2 hx
      simp only [Session.step] at hst
      split at hst
      · dsimp only at hst
        unfold Session.frame at hst
        split at hst
        · exact hab _ _ hs hst
        · split at hst
          · exact hab _ _ hs hst
          · split at hst
            · unfold Session.dataFrame at hst
              split at hst
              · split at hst
                · exact hab _ _ hs hst
                · split at hst
                  · exact hdel _ _ hst
                  · exact absurd hst (by simp [hs])
              · split at hst
                · exact hab _ _ hs hst
                · split at hst
                  · exact hdel _ _ hst
                  · exact absurd hst (by simp [hs])
            · split at hst
              · unfold Session.closeFrame at hst
                split at hst
                · dsimp only at hst
                  split at hst
                  · split at hst
                    · exact hab _ _ hs hst
                    · exact hfin _ _ (by exact hs) hst
                  · exact hab _ _ hs hst
                · split at hst
                  · exact hfin _ _ (by exact hs) hst
                  · exact hab _ _ hs hst
              · split at hst
                · unfold Session.pingFrame at hst
                  rw [hp] at hst
                  exact absurd hst (by simp [hs])
                · unfold Session.pongFrame at hst
                  split at hst
                  · split at hst
                    · exact hab _ _ (by exact hs) hst
                    · exact absurd hst (by simp [hs])
                  · exact hab _ _ hs hst
      · exact absurd hst (by simp [hs])
    | eof =>
      simp only [Session.step] at hst
      split at hst
      · have : (s.fail 1006).stuck = true := hst
        rw [(fail_fields s 1006).2.2.2.2.2.2, hs] at this
        cases this
      · exact absurd hst (by simp [hs])
    | timeout =>
      simp only [Session.step] at hst
      split at hst
      · have : (s.fail 1006).stuck = true := hst
        rw [(fail_fields s 1006).2.2.2.2.2.2, hs] at this
        cases this
      · exact absurd hst (by simp [hs])
    | _ => exact absurd ⟨by simp, by simp, by simp⟩ hu

theorem run_stuck_phase (c : Config) (ops : List Op) :
    ((Session.initial c).run c ops).stuck = true → ((Session.initial c).run c ops).phase ≠ .opened := by
  induction ops using snocInduction with
  | nil => intro h; cases h
  | snoc ops op ih => rw [run_append, run_cons, run_nil]; exact step_stuck_phase c _ op ih

/-! ### C112 -/

/-- C112, what holds: as long as the connection is open, exactly this is written: the messages, pings and pongs of the user, and for every
ping that is received a pong with its payload, all in the order in which it happens. -/
theorem C112_answered_partial (c : Config) (ops : List Op) (hp : ((Session.initial c).run c ops).phase = .opened)
    (he : ((Session.initial c).run c ops).ended = none) :
    ((Session.initial c).run c ops).wire = ops.flatMap (reaction c) := by
  induction ops using snocInduction with
  | nil => rfl
  | snoc ops op ih =>
    have hst := run_stuck_phase c ops
    rw [run_append, run_cons, run_nil] at hp he ⊢
    have hp0 := step_opened c _ op hp
    have hs0 : ((Session.initial c).run c ops).stuck = false := by
      cases h : ((Session.initial c).run c ops).stuck with
      | false => rfl
      | true => exact absurd hp0 (hst h)
    have he0 : ((Session.initial c).run c ops).ended = none := by
      cases h : ((Session.initial c).run c ops).ended with
      | none => rfl
      | some code => rw [step_ended op h] at he; cases he
    have ih := ih hp0 he0
    rw [List.flatMap_append, List.flatMap_cons, List.flatMap_nil, List.append_nil]
    cases step_wrote c ((Session.initial c).run c ops) op with
    | nothing w p r => rw [w, ih, r hp he hs0, List.append_nil]
    | frame e p p' w r => rw [w, ih, r]
    | close d p p' w r => exact absurd hp p'

/-- C112 does not hold: if a close was sent, and then a ping is received (it is on its way), then the task which reads frames waits for its
own end.  So whatever follows, the answer of the peer to the close is not read, and it ends with the timeout (1006). -/
theorem C112_closing_violated (c : Config) (code : Nat) (reason : Text) (hcode : Sendable code) (ping : Bytes) (hl : ping.length ≤ 125)
    (hmax : 125 ≤ c.maxSize) (more : List Op) :
    (((Session.initial c).run c ([.close code reason, .frame (Frame.new true 9 ping)] ++ more)).ended = none ∨
      ((Session.initial c).run c ([.close code reason, .frame (Frame.new true 9 ping)] ++ more)).ended = some 1006) ∧
    (((Session.initial c).run c ([.close code reason, .frame (Frame.new true 9 ping)] ++ more)).closeCode = 0 ∨
      ((Session.initial c).run c ([.close code reason, .frame (Frame.new true 9 ping)] ++ more)).closeCode = 1006) ∧
    ((Session.initial c).run c ([.close code reason, .frame (Frame.new true 9 ping)] ++ more)).wire =
      [(8, beBytes 2 code ++ c.codec.encode reason)] := by
  have hser : serializeClose c.codec code reason = some (beBytes 2 code ++ c.codec.encode reason) := by
    unfold serializeClose; rw [(allowedCode_iff code).2 hcode]; rfl
  have e1 : ((Session.initial c).step c (.close code reason)).1 =
      { Session.initial c with phase := .closing, wire := [(8, beBytes 2 code ++ c.codec.encode reason)] } := by
    simp only [Session.step]
    rw [hser]
    rfl
  have e2 : ({ Session.initial c with phase := .closing, wire := [(8, beBytes 2 code ++ c.codec.encode reason)] } : Session).frame c
      (Frame.new true 9 ping) =
      { Session.initial c with phase := .closing, wire := [(8, beBytes 2 code ++ c.codec.encode reason)], stuck := true } := by
    unfold Session.frame
    rw [C04_constructed_frame_valid true 9 ping (Or.inr ⟨by simp, rfl, hl⟩), new_op true 9 (by decide) ping, new_data,
      if_neg (by simp [Session.initial]; omega)]
    dsimp only
    rw [if_neg (by decide), if_neg (by decide), if_pos (by decide)]
    rfl
  rw [run_append, run_cons, e1, run_cons, step_frame rfl rfl, e2, run_nil]
  have key : ∀ (more : List Op) (s : Session), s.stuck = true → s.phase ≠ .opened → (s.ended = none ∨ s.ended = some 1006) →
      (s.closeCode = 0 ∨ s.closeCode = 1006) →
      ((s.run c more).ended = none ∨ (s.run c more).ended = some 1006) ∧
        ((s.run c more).closeCode = 0 ∨ (s.run c more).closeCode = 1006) ∧ (s.run c more).wire = s.wire := by
    intro more
    induction more with
    | nil => intro s _ _ h3 h4; exact ⟨h3, h4, rfl⟩
    | cons op more ih =>
      intro s h1 h2 h3 h4
      rw [run_cons]
      have hw : (s.step c op).1.wire = s.wire ∧ (s.step c op).1.phase ≠ .opened := by
        cases step_wrote c s op with
        | nothing w p r => exact ⟨w, fun h => h2 (p h)⟩
        | frame e p p' w r => exact absurd p h2
        | close d p p' w r => exact absurd p h2
      rw [← hw.1]
      have hus : s.usable = false := by simp [Session.usable, h2]
      apply ih _ (step_stuck op h1) hw.2
      · cases op with
        | timeout =>
          simp only [Session.step]
          split
          · exact Or.inr rfl
          · exact h3
        | frame f => simp [Session.step, h1]; exact h3
        | eof => simp [Session.step, h1]; exact h3
        | _ =>
          rw [(step_user (c := c) (s := s) _ (by simp) (by simp) (by simp)).2.2.2.1]; exact h3
      · cases op with
        | frame f => simp [Session.step, h1]; exact h4
        | eof => simp [Session.step, h1]; exact h4
        | send m => simp [Session.step, hus]; exact h4
        | ping d => simp [Session.step, hus]; exact h4
        | pong d => simp [Session.step, hus]; exact h4
        | close code reason =>
          simp only [Session.step]
          split
          · exact h4
          · rw [(writeClose_fields s _).2.2.2.2.2.2.2.1]; exact h4
        | lost =>
          simp only [Session.step]
          rcases h4 with h | h
          · right; rw [if_pos h]
          · right; rw [if_neg (by omega), h]
        | timeout =>
          simp only [Session.step]
          split
          · rename_i hx
            have : (s.abort 1006).closeCode = s.closeCode := by simp [Session.abort, Session.fail]
            rw [this]; exact h4
          · exact h4
  exact key more _ rfl (by simp) (Or.inl rfl) (Or.inl rfl)

example : ((Session.initial client).run client [.send (.text ['a']), .frame (Frame.new true 9 [1]), .ping [5], .frame (Frame.new true 9 [2])]).wire =
    [(1, [97]), (10, [1]), (9, [5]), (10, [2])] := by
  decide +kernel

example : ((Session.initial client).run client [.close 1000 [], .frame (Frame.new true 9 [1]), .frame (Frame.new true 8 [3, 232]), .timeout]).ended =
    some 1006 := by
  decide +kernel

/-! ### C113 -/

/-- C113 does not hold: whatever is received, no ping is ever answered. -/
theorem C113_violated (c : Config) (ops : List Op) : ((Session.initial c).run c ops).answered = [] := by
  induction ops using snocInduction with
  | nil => rfl
  | snoc ops op ih =>
    rw [run_append, run_cons, run_nil]
    rw [show (((Session.initial c).run c ops).step c op).1.answered = ((Session.initial c).run c ops).answered from ?_, ih]
    generalize (Session.initial c).run c ops = s
    have hab : ∀ (t : Session) code, (t.abort code).answered = t.answered := fun t code => (abort_fields t code).2.2.2.2
    by_cases hu : (∀ f, op ≠ .frame f) ∧ op ≠ .eof ∧ op ≠ .timeout
    · exact (step_user (c := c) (s := s) op hu.1 hu.2.1 hu.2.2).2.2.2.2.2
    · cases op with
      | frame f =>
        have hdel : ∀ text data, (s.deliver c text data).answered = s.answered := by
          intro text data
          unfold Session.deliver
          split
          · split
            · exact hab _ _
            · rfl
          · rfl
        simp only [Session.step]
        split
        · dsimp only
          unfold Session.frame
          split
          · exact hab _ _
          · split
            · exact hab _ _
            · split
              · unfold Session.dataFrame
                split
                · split
                  · exact hab _ _
                  · split
                    · exact hdel _ _
                    · rfl
                · split
                  · exact hab _ _
                  · split
                    · exact hdel _ _
                    · rfl
              · split
                · exact (closeFrame_ended c s f.data).2.2
                · split
                  · unfold Session.pingFrame
                    split
                    · rfl
                    · split
                      · rfl
                      · exact hab _ _
                    · exact hab _ _
                  · unfold Session.pongFrame
                    split
                    · split
                      · exact hab _ _
                      · rfl
                    · exact hab _ _
        · rfl
      | eof => simp only [Session.step]; split <;> first | exact hab _ _ | rfl
      | timeout => simp only [Session.step]; split <;> first | exact hab _ _ | rfl
      | _ => exact absurd ⟨by simp, by simp, by simp⟩ hu

/-- C113 does not hold: the right pong ends the connection of a client. -/
theorem C113_client_violated (c : Config) (hc : c.client = true) (ping : Bytes) (hl : ping.length ≤ 125) (hmax : 125 ≤ c.maxSize) :
    ((Session.initial c).run c [.ping ping, .frame (Frame.new true 10 ping)]).ended = some 1011 := by
  rw [run_cons, run_cons, run_nil]
  have e1 : ((Session.initial c).step c (.ping ping)).1 =
      { Session.initial c with pings := [(ping, 0)], next := 1, wire := [(9, ping)] } := rfl
  rw [e1, step_frame rfl rfl]
  unfold Session.frame
  rw [C04_constructed_frame_valid true 10 ping (Or.inr ⟨by simp, rfl, hl⟩), new_op true 10 (by decide) ping, new_data,
    if_neg (by simp [Session.initial]; omega)]
  dsimp only
  rw [if_neg (by decide), if_neg (by decide), if_neg (by decide)]
  unfold Session.pongFrame
  rw [if_pos hc, if_pos (by simp)]
  rfl

/-- C113 does not hold: any pong ends the connection of a server, which has to ignore those it did not ask for. -/
theorem C113_server_violated (c : Config) (hc : c.client = false) (data : Bytes) (hl : data.length ≤ 125) (hmax : 125 ≤ c.maxSize) :
    ((Session.initial c).run c [.frame (Frame.new true 10 data)]).ended = some 1011 := by
  rw [run_cons, run_nil, step_frame rfl rfl]
  unfold Session.frame
  rw [C04_constructed_frame_valid true 10 data (Or.inr ⟨by simp, rfl, hl⟩), new_op true 10 (by decide) data, new_data,
    if_neg (by simp [Session.initial]; omega)]
  dsimp only
  rw [if_neg (by decide), if_neg (by decide), if_neg (by decide)]
  unfold Session.pongFrame
  rw [if_neg (by simp [hc])]
  rfl

/-- C113, what holds: a client ignores a pong with a payload that it did not send. -/
theorem C113_unsolicited_partial (c : Config) (hc : c.client = true) (s : Session) (data : Bytes) (hl : data.length ≤ 125)
    (hroom : data.length ≤ s.room) (h : ∀ p ∈ s.pings, p.1 ≠ data) : (s.step c (.frame (Frame.new true 10 data))).1 = s := by
  simp only [Session.step]
  split
  · unfold Session.frame
    rw [C04_constructed_frame_valid true 10 data (Or.inr ⟨by simp, rfl, hl⟩), new_op true 10 (by decide) data, new_data, if_neg (by omega)]
    dsimp only
    rw [if_neg (by decide), if_neg (by decide), if_neg (by decide)]
    unfold Session.pongFrame
    rw [if_pos hc, if_neg (by simp only [List.any_eq_true, decide_eq_true_eq, not_exists, not_and]; exact h)]
  · rfl

example : ((Session.initial client).run client [.ping [1], .frame (Frame.new true 10 [2])]).pings = [([1], 0)] := by decide +kernel

/-! ### C114 -/

/-- C114, what holds: with a reason of at most 123 bytes, the close is received with its code and its reason and is sent back, and who began
it has the same code and reason then, and sends nothing more. -/
theorem C114_transferred_partial (c d : Config) (hcodec : d.codec = c.codec) (hrt : ∀ t, c.codec.decode (c.codec.encode t) = some t)
    (code : Nat) (hcode : Sendable code) (reason : Text) (hl : (c.codec.encode reason).length ≤ 123)
    (s r : Session) (hs : Calm s) (hr : Calm r) (hsp : s.parts = none) (hrp : r.parts = none) :
    ∃ data, (s.step c (.close code reason)).1.wire = s.wire ++ [(8, data)] ∧
      (r.step d (.frame (Frame.new true 8 data))).1.closeCode = code ∧
      (r.step d (.frame (Frame.new true 8 data))).1.closeReason = some reason ∧
      (r.step d (.frame (Frame.new true 8 data))).1.ended = some code ∧
      (r.step d (.frame (Frame.new true 8 data))).1.wire = r.wire ++ [(8, data)] ∧
      (s.run c [.close code reason, .frame (Frame.new true 8 data)]).closeCode = code ∧
      (s.run c [.close code reason, .frame (Frame.new true 8 data)]).closeReason = some reason ∧
      (s.run c [.close code reason, .frame (Frame.new true 8 data)]).ended = some code ∧
      (s.run c [.close code reason, .frame (Frame.new true 8 data)]).wire = s.wire ++ [(8, data)] := by
  have hpos : code ≠ 0 := by
    rintro rfl
    rcases hcode with h | h
    · simp at h
    · omega
  obtain ⟨b1, b2, b3⟩ := beNat_two code hcode.lt (c.codec.encode reason)
  have hser : serializeClose c.codec code reason = some (beBytes 2 code ++ c.codec.encode reason) := by
    unfold serializeClose; rw [(allowedCode_iff code).2 hcode]; rfl
  have e1 : (s.step c (.close code reason)).1 = { s with phase := .closing, wire := s.wire ++ [(8, beBytes 2 code ++ c.codec.encode reason)] } := by
    simp only [Session.step]
    rw [hser]
    dsimp only
    unfold Session.writeClose
    rw [if_pos hs.phase]
  have recv : ∀ (k : Config), k.codec = c.codec → ∀ t : Session, t.ended = none → t.stuck = false → 125 ≤ t.room → t.parts = none →
      (t.step k (.frame (Frame.new true 8 (beBytes 2 code ++ c.codec.encode reason)))).1 =
        { (if t.phase = .opened then { t with phase := .closing, wire := t.wire ++ [(8, beBytes 2 code ++ c.codec.encode reason)] } else t) with
          closeCode := code, closeReason := some reason, ended := some code } := by
    intro k hk t h1 h2 h3 h4
    rw [step_frame h1 h2]
    unfold Session.frame
    rw [C04_constructed_frame_valid true 8 _ (Or.inr ⟨by simp, rfl, by omega⟩), new_op true 8 (by decide), new_data, if_neg (by omega)]
    dsimp only
    rw [if_neg (by decide), if_pos (by decide)]
    unfold Session.closeFrame
    rw [if_pos (by omega)]
    dsimp only
    rw [b1, b2, (allowedCode_iff code).2 hcode, if_pos rfl, hk, hrt reason]
    dsimp only
    unfold Session.closeFrame.finish Session.writeClose
    by_cases hp : t.phase = .opened
    · simp [hp, h4, hpos]
    · simp [hp, h4, hpos]
  refine ⟨beBytes 2 code ++ c.codec.encode reason, by rw [e1], ?_, ?_, ?_, ?_, ?_, ?_, ?_, ?_⟩
  · rw [recv d hcodec r hr.ended hr.stuck hr.room hrp]
  · rw [recv d hcodec r hr.ended hr.stuck hr.room hrp]
  · rw [recv d hcodec r hr.ended hr.stuck hr.room hrp]
  · rw [recv d hcodec r hr.ended hr.stuck hr.room hrp, if_pos hr.phase]
  all_goals
    rw [run_cons, run_cons, run_nil, e1, recv c rfl
      { s with phase := .closing, wire := s.wire ++ [(8, beBytes 2 code ++ c.codec.encode reason)] } hs.ended hs.stuck hs.room hsp]
  rw [if_neg (by simp)]

/-- C114 does not hold: with a longer reason the close is sent all the same, and refused: the code is lost. -/
theorem C114_reason_violated (c d : Config) (code : Nat) (hcode : Sendable code) (reason : Text)
    (hl : 123 < (c.codec.encode reason).length) (hmax : (c.codec.encode reason).length + 2 ≤ d.maxSize) :
    ∃ data, ((Session.initial c).step c (.close code reason)).1.wire = [(8, data)] ∧
      ((Session.initial d).step d (.frame (Frame.new true 8 data))).1.ended = some 1002 ∧
      ((Session.initial d).step d (.frame (Frame.new true 8 data))).1.closeCode = 0 ∧
      ((Session.initial d).step d (.frame (Frame.new true 8 data))).1.closeReason = none := by
  obtain ⟨b1, b2, b3⟩ := beNat_two code hcode.lt (c.codec.encode reason)
  have hser : serializeClose c.codec code reason = some (beBytes 2 code ++ c.codec.encode reason) := by
    unfold serializeClose; rw [(allowedCode_iff code).2 hcode]; rfl
  refine ⟨beBytes 2 code ++ c.codec.encode reason, ?_, ?_⟩
  · simp only [Session.step]
    rw [hser]
    rfl
  · have hck : (Frame.new true 8 (beBytes 2 code ++ c.codec.encode reason)).check ≠ .ok () := by
      intro h
      have := (check_control h (by rw [new_op true 8 (by decide)]; decide)).2.1
      rw [new_data] at this
      omega
    have hroom : ¬ (Session.initial d).room < (Frame.new true 8 (beBytes 2 code ++ c.codec.encode reason)).data.length := by
      rw [new_data, b3]
      show ¬ d.maxSize < _
      omega
    have e : ((Session.initial d).step d (.frame (Frame.new true 8 (beBytes 2 code ++ c.codec.encode reason)))).1 =
        (Session.initial d).abort 1002 := by
      rw [step_frame rfl rfl]
      unfold Session.frame
      rw [if_neg hroom]
      split
      · rfl
      · rename_i h; exact absurd h hck
    rw [e]
    exact ⟨rfl, rfl, rfl⟩

/-- C114: no close frame has a code which must not be sent. -/
theorem C114_codes (c : Config) (ops : List Op) : ∀ data, (8, data) ∈ ((Session.initial c).run c ops).wire → CloseData data := by
  have key : ∀ (ops : List Op) (s : Session), (∀ data, (8, data) ∈ s.wire → CloseData data) →
      (∀ data, (8, data) ∈ (s.run c ops).wire → CloseData data) := by
    intro ops
    induction ops with
    | nil => exact fun s h => h
    | cons op ops ih =>
      intro s h
      rw [run_cons]
      apply ih
      intro data hd
      cases step_wrote c s op with
      | nothing w p r => rw [w] at hd; exact h data hd
      | frame e p p' w r =>
        rw [w] at hd
        rcases List.mem_append.1 hd with hd | hd
        · exact h data hd
        · rw [List.mem_singleton] at hd
          subst hd
          cases op with
          | frame f => simp only [reaction] at r; split at r <;> simp at r
          | send m => cases m <;> simp [reaction] at r
          | ping d => simp [reaction] at r
          | pong d => simp [reaction] at r
          | _ => simp [reaction] at r
      | close d p p' w r =>
        rw [w] at hd
        rcases List.mem_append.1 hd with hd | hd
        · exact h data hd
        · have hd : data = d := by simpa using hd
          subst hd
          rcases r with ⟨-, r⟩ | ⟨code, reason, -, r⟩
          · exact r
          · unfold serializeClose at r
            split at r
            · rename_i ha
              cases r
              exact Or.inr ⟨code, _, (allowedCode_iff code).1 ha, rfl⟩
            · cases r
  exact key ops _ (by simp [Session.initial])

/-- The codes which `close` says it takes (lines 371 and 378). -/
def documented (code : Nat) : Prop :=
  code ∈ [1000, 1001, 1002, 1003, 1007, 1008, 1009, 1010, 1011] ∨ (3000 ≤ code ∧ code < 5000)

/-- C114 does not hold: `close` takes one code which it says it would refuse, and no other. -/
theorem C114_documented_violated (c : Config) (s : Session) (code : Nat) (reason : Text) :
    (s.step c (.close code reason)).2 = .badCode ↔ ¬ (documented code ∨ code = 1013) := by
  have h : allowedCode code = true ↔ (documented code ∨ code = 1013) := by
    rw [allowedCode_iff]
    unfold Sendable documented
    simp only [List.mem_cons, List.not_mem_nil, or_false]
    omega
  simp only [Session.step, serializeClose]
  by_cases ha : allowedCode code = true
  · rw [if_pos ha]
    simp [h.1 ha]
  · rw [if_neg ha]
    simpa using fun hx => ha (h.2 hx)

example : ((Session.initial server).step server (.frame (Frame.new true 8 [3, 232, 111, 107]))).1.closeReason = some ['o', 'k'] := by
  decide +kernel

/-! ### C115 -/

/-- The user keeps the sizes of RFC 6455, 5.5. -/
def Modest (c : Config) : Op → Prop
  | .ping data => data.length ≤ 125
  | .pong data => data.length ≤ 125
  | .close _ reason => (c.codec.encode reason).length ≤ 123
  | _ => True

/-- A frame as RFC 6455, 5.2 and 5.5, allows it. -/
def Valid (e : Byte × Bytes) : Prop := e.1 = 1 ∨ e.1 = 2 ∨ ((e.1 = 8 ∨ e.1 = 9 ∨ e.1 = 10) ∧ e.2.length ≤ 125)

/-- C115, what holds: if the user keeps the sizes, all frames which are written are valid, and the peer's check accepts them. -/
theorem C115_valid_partial (c : Config) (ops : List Op) (h : ∀ op ∈ ops, Modest c op) :
    ∀ e ∈ ((Session.initial c).run c ops).wire, Valid e ∧ (Frame.new true e.1 e.2).check = .ok () := by
  have val : ∀ e, Valid e → (Frame.new true e.1 e.2).check = .ok () := by
    intro e he
    apply C04_constructed_frame_valid
    rcases he with he | he | ⟨he, hl⟩
    · exact Or.inl (by simp [he])
    · exact Or.inl (by simp [he])
    · exact Or.inr ⟨by simp [he], rfl, hl⟩
  have key : ∀ (ops : List Op), (∀ op ∈ ops, Modest c op) → ∀ s : Session, (∀ e ∈ s.wire, Valid e) → ∀ e ∈ (s.run c ops).wire, Valid e := by
    intro ops
    induction ops with
    | nil => exact fun _ s h => h
    | cons op ops ih =>
      intro hm s hs
      rw [run_cons]
      apply ih fun op h => hm op (List.mem_cons_of_mem _ h)
      intro e he
      have hmo := hm op List.mem_cons_self
      by_cases hin : e ∈ s.wire
      · exact hs e hin
      cases hw : step_wrote c s op with
      | nothing w p r => rw [w] at he; exact absurd he hin
      | frame e' p p' w r =>
        rw [w] at he
        have he' : e = e' := by
          rcases List.mem_append.1 he with he | he
          · exact absurd he hin
          · simpa using he
        subst he'
        cases op with
        | frame f =>
          by_cases h9 : f.operationCode = 9
          · simp only [reaction, if_pos h9, List.cons.injEq, and_true] at r
            subst r
            refine Or.inr (Or.inr ⟨by simp, ?_⟩)
            -- the connection is open behind the ping, so the frame was accepted
            by_cases hg : s.ended = none ∧ s.stuck = false
            · rw [step_frame hg.1 hg.2] at p' w
              cases hend : (s.frame c f).ended with
              | none =>
                obtain ⟨-, hck, -⟩ := frame_cases hend
                exact (check_control hck (by rw [h9]; decide)).2.1
              | some code =>
                exfalso
                unfold Session.frame at p' hend
                split at hend
                · rename_i hx; rw [if_pos hx] at p'; simp [Session.abort, Session.fail, p] at p'
                · rename_i hx
                  rw [if_neg hx] at p'
                  split at hend
                  · simp [Session.abort, Session.fail, *] at p'
                  · rename_i hck
                    simp only [hck] at p'
                    simp [h9, Session.pingFrame, p, hg.1] at hend
            · simp only [Session.step] at w
              rw [if_neg hg] at w
              simp at w
          · simp [reaction, h9] at r
        | send m => cases m <;> (simp only [reaction, List.cons.injEq, and_true] at r; subst r; simp [Valid])
        | ping d => simp only [reaction, List.cons.injEq, and_true] at r; subst r; exact Or.inr (Or.inr ⟨by simp, hmo⟩)
        | pong d => simp only [reaction, List.cons.injEq, and_true] at r; subst r; exact Or.inr (Or.inr ⟨by simp, hmo⟩)
        | _ => simp [reaction] at r
      | close d p p' w r =>
        rw [w] at he
        have he' : e = (8, d) := by
          rcases List.mem_append.1 he with he | he
          · exact absurd he hin
          · simpa using he
        subst he'
        refine Or.inr (Or.inr ⟨by simp, ?_⟩)
        rcases r with ⟨r, -⟩ | ⟨code, reason, rfl, r⟩
        · exact r
        · unfold serializeClose at r
          split at r
          · rename_i ha
            cases r
            have hmo : (c.codec.encode reason).length ≤ 123 := hmo
            simp only [List.length_append, beBytes]
            have := (beNat_two code ((allowedCode_iff code).1 ha).lt (c.codec.encode reason)).2.2
            rw [List.length_append] at this
            simp only [beBytes] at this
            omega
          · cases r
  intro e he
  have := key ops h (Session.initial c) (by simp [Session.initial]) e he
  exact ⟨this, val e this⟩

/-- C115 does not hold: a ping (as a pong) with a longer payload is written, although no peer accepts it. -/
theorem C115_violated (c : Config) (data : Bytes) (h : 125 < data.length) :
    ((Session.initial c).run c [.ping data]).wire = [(9, data)] ∧ ((Session.initial c).run c [.pong data]).wire = [(10, data)] ∧
      (Frame.new true 9 data).check ≠ .ok () ∧ (Frame.new true 10 data).check ≠ .ok () := by
  refine ⟨rfl, rfl, fun hc => ?_, fun hc => ?_⟩
  · have := (check_control hc (by rw [new_op true 9 (by decide)]; decide)).2.1
    rw [new_data] at this; omega
  · have := (check_control hc (by rw [new_op true 10 (by decide)]; decide)).2.1
    rw [new_data] at this; omega

example : Modest client (.ping [1, 2]) ∧ ¬ Modest client (.close 1000 (List.replicate 124 'a')) := by
  simp [Modest, client, ascii]

/-! ### C116 -/

/-- C116 for one task at a time: whatever is received and whatever the user does, nothing follows a Close, so there is at most one. -/
theorem C116_last (c : Config) (ops : List Op) (before after : List (Byte × Bytes)) (data : Bytes)
    (h : ((Session.initial c).run c ops).wire = before ++ (8, data) :: after) : after = [] := by
  have key : ∀ (ops : List Op) (s : Session), (s.phase = .opened → ∀ e ∈ s.wire, e.1 ≠ 8) →
      (∀ b d a, s.wire = b ++ (8, d) :: a → a = []) →
      ∀ b d a, (s.run c ops).wire = b ++ (8, d) :: a → a = [] := by
    intro ops
    induction ops with
    | nil => exact fun s _ h => h
    | cons op ops ih =>
      intro s h1 h2
      rw [run_cons]
      have snoc : ∀ e : Byte × Bytes, s.phase = .opened → ∀ b d a, s.wire ++ [e] = b ++ (8, d) :: a → a = [] := by
        intro e hp b d a hx
        rcases List.eq_nil_or_concat a with ha | ⟨a', x, ha⟩
        · exact ha
        · exfalso
          subst ha
          have : s.wire ++ [e] = (b ++ (8, d) :: a') ++ [x] := by rw [hx]; simp
          have h3 := List.append_inj_left' this rfl
          exact h1 hp (8, d) (by rw [h3]; simp) rfl
      cases step_wrote c s op with
      | nothing w p r =>
        refine ih _ (fun hp => ?_) ?_
        · rw [w]; exact h1 (p hp)
        · rw [w]; exact h2
      | frame e p p' w r =>
        have he8 : e.1 ≠ 8 := by
          cases op with
          | frame f => simp only [reaction] at r; split at r <;> simp at r; rw [← r]; simp
          | send m => cases m <;> (simp [reaction] at r; rw [← r]; simp)
          | ping d => simp [reaction] at r; rw [← r]; simp
          | pong d => simp [reaction] at r; rw [← r]; simp
          | _ => simp [reaction] at r
        refine ih _ (fun _ => ?_) ?_
        · rw [w]
          intro x hx
          rcases List.mem_append.1 hx with hx | hx
          · exact h1 p x hx
          · rw [List.mem_singleton.1 hx]; exact he8
        · rw [w]; exact snoc e p
      | close d p p' w r =>
        refine ih _ (fun hp => absurd hp p') ?_
        rw [w]; exact snoc _ p
  exact key ops (Session.initial c) (by simp [Session.initial]) (by simp [Session.initial]) before data after h

end Verif.WebSocketSession
