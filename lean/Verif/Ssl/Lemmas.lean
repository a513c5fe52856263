import Verif.Ssl.Model

/-! What the functions of the ssl layer leave alone. -/

namespace Verif.Ssl

variable {E : Engine}

/-- What handling ssl data leaves alone. -/
structure Frame (s s' : St E) : Prop where
  backlog : s'.backlog = s.backlog
  tr : s'.tr = s.tr
  closing : s'.closing = s.closing
  wire : s'.wire = s.wire
  sent : s'.sent = s.sent
  calls : s'.calls = s.calls
  fatal : s'.fatal = s.fatal
  aborted : s'.aborted = s.aborted
  hung : s'.hung = s.hung

theorem Frame.refl (s : St E) : Frame s s := ⟨rfl, rfl, rfl, rfl, rfl, rfl, rfl, rfl, rfl⟩

theorem Frame.trans {a b d : St E} (h : Frame a b) (k : Frame b d) : Frame a d :=
  ⟨k.1.trans h.1, k.2.trans h.2, k.3.trans h.3, k.4.trans h.4, k.5.trans h.5, k.6.trans h.6, k.7.trans h.7,
   k.8.trans h.8, k.9.trans h.9⟩

theorem frame_trClose (c : Cfg) (s : St E) : Frame s (trClose c s) := by
  unfold trClose; split <;> exact ⟨rfl, rfl, rfl, rfl, rfl, rfl, rfl, rfl, rfl⟩

theorem frame_wake (s : St E) (e : Option Err) : Frame s (wake s e) := by
  unfold wake; split <;> exact ⟨rfl, rfl, rfl, rfl, rfl, rfl, rfl, rfl, rfl⟩

theorem frame_hsOk (c : Cfg) (s : St E) : Frame s (hsOk c s) := by
  have h := frame_wake { s with inHs := false, app := if c.callMade then s.app ++ [.made] else s.app } none
  exact ⟨h.1, h.2, h.3, h.4, h.5, h.6, h.7, h.8, h.9⟩

theorem frame_hsErr (c : Cfg) (s : St E) (e : Err) : Frame s (hsErr c s e) := by
  have h := (frame_trClose c { s with inHs := false }).trans (frame_wake _ (some e))
  exact ⟨h.1, h.2, h.3, h.4, h.5, h.6, h.7, h.8, h.9⟩

theorem frame_finish (s : St E) (a : List Bytes) : Frame s (finish s a).1 := by
  unfold finish; split <;> exact ⟨rfl, rfl, rfl, rfl, rfl, rfl, rfl, rfl, rfl⟩

theorem frame_feedWrapped (c : Cfg) (s : St E) : Frame s (feedWrapped c s).1 := by
  unfold feedWrapped
  split
  · next g acc _ =>
      have h := frame_finish { s with eng := g, got := s.got ++ acc.flatten } acc
      exact ⟨h.1, h.2, h.3, h.4, h.5, h.6, h.7, h.8, h.9⟩
  · next g acc e _ =>
      split
      · have h := frame_finish { s with eng := g, got := s.got ++ acc.flatten, need := e == .wantRead } acc
        exact ⟨h.1, h.2, h.3, h.4, h.5, h.6, h.7, h.8, h.9⟩
      · exact ⟨rfl, rfl, rfl, rfl, rfl, rfl, rfl, rfl, rfl⟩
  · exact ⟨rfl, rfl, rfl, rfl, rfl, rfl, rfl, rfl, rfl⟩

theorem frame_feedHandshake (c : Cfg) (s : St E) (o : Bool) : Frame s (feedHandshake c s o).1 := by
  unfold feedHandshake
  split
  · next g _ _ =>
      have h0 : Frame s (hsOk c { s with eng := g, ps := .wrapped, shaken := s.shaken + 1 }) := by
        have h := frame_hsOk c { s with eng := g, ps := .wrapped, shaken := s.shaken + 1 }
        exact ⟨h.1, h.2, h.3, h.4, h.5, h.6, h.7, h.8, h.9⟩
      by_cases ho : o = true
      · simp only [ho, if_true]; exact h0
      · simp only [ho]; exact h0.trans (frame_feedWrapped c _)
  · next g e _ =>
      split
      · have h := frame_finish { s with eng := g, need := e == .wantRead } []
        exact ⟨h.1, h.2, h.3, h.4, h.5, h.6, h.7, h.8, h.9⟩
      · split
        · have h := frame_hsErr c { s with eng := g } e
          exact ⟨h.1, h.2, h.3, h.4, h.5, h.6, h.7, h.8, h.9⟩
        · exact ⟨rfl, rfl, rfl, rfl, rfl, rfl, rfl, rfl, rfl⟩

theorem frame_feedShutdown (c : Cfg) (s : St E) : Frame s (feedShutdown c s).1 := by
  unfold feedShutdown
  split
  · next g _ _ =>
      have h0 : Frame s { s with eng := g, ps := .unwrapped } := ⟨rfl, rfl, rfl, rfl, rfl, rfl, rfl, rfl, rfl⟩
      refine h0.trans (Frame.trans ?_ (frame_finish _ _))
      split
      · exact frame_trClose c _
      · exact Frame.refl _
  · next g e _ =>
      split
      · have h := frame_finish { s with eng := g, need := e == .wantRead } []
        exact ⟨h.1, h.2, h.3, h.4, h.5, h.6, h.7, h.8, h.9⟩
      · exact ⟨rfl, rfl, rfl, rfl, rfl, rfl, rfl, rfl, rfl⟩

theorem frame_feedIn (s : St E) (d : Bytes) : Frame s (feedIn s d) := ⟨rfl, rfl, rfl, rfl, rfl, rfl, rfl, rfl, rfl⟩

theorem frame_feedSsl (c : Cfg) (s : St E) (d : Bytes) (o : Bool) : Frame s (feedSsl c s d o).1 := by
  unfold feedSsl
  split
  · exact Frame.refl _
  · exact (frame_feedIn s d).trans (frame_feedHandshake c _ o)
  · exact (frame_feedIn s d).trans (frame_feedWrapped c _)
  · exact (frame_feedIn s d).trans (frame_feedShutdown c _)

/-! The state of the pipe. -/

theorem ps_trClose (c : Cfg) (s : St E) : (trClose c s).ps = s.ps := by unfold trClose; split <;> rfl
theorem ps_wake (s : St E) (e : Option Err) : (wake s e).ps = s.ps := by unfold wake; split <;> rfl
theorem ps_hsOk (c : Cfg) (s : St E) : (hsOk c s).ps = s.ps := by
  show (wake _ none).ps = _
  rw [ps_wake]
theorem ps_hsErr (c : Cfg) (s : St E) (e : Err) : (hsErr c s e).ps = s.ps := by
  unfold hsErr; rw [ps_wake, ps_trClose]
theorem ps_finish (s : St E) (a : List Bytes) : (finish s a).1.ps = s.ps := by unfold finish; split <;> rfl

theorem ps_feedWrapped (c : Cfg) (s : St E) : (feedWrapped c s).1.ps = s.ps := by
  unfold feedWrapped
  split
  · rw [ps_finish]
  · split
    · rw [ps_finish]
    · rfl
  · rfl

theorem ps_feedHandshake (c : Cfg) (s : St E) (o : Bool) (hs : s.ps = .handshake) :
    (feedHandshake c s o).1.ps = .handshake ∨ (feedHandshake c s o).1.ps = .wrapped := by
  unfold feedHandshake
  split
  · right
    by_cases ho : o = true
    · simp only [ho, if_true]; rw [ps_hsOk]
    · simp only [ho]
      show (feedWrapped c _).1.ps = _
      rw [ps_feedWrapped, ps_hsOk]
  · left
    split
    · rw [ps_finish]; exact hs
    · split
      · rw [ps_hsErr]; exact hs
      · exact hs

theorem ps_feedShutdown (c : Cfg) (s : St E) (hs : s.ps = .shutdown) :
    (feedShutdown c s).1.ps = .shutdown ∨ (feedShutdown c s).1.ps = .unwrapped := by
  unfold feedShutdown
  split
  · right
    rw [ps_finish]
    split
    · rw [ps_trClose]
    · rfl
  · left
    split
    · rw [ps_finish]; exact hs
    · exact hs

theorem feedSsl_unwrapped (c : Cfg) (s : St E) (d : Bytes) (o : Bool) (h : s.ps = .unwrapped) :
    feedSsl c s d o = (s, .ok ([], passThrough d)) := by unfold feedSsl; rw [h]
theorem feedSsl_handshake (c : Cfg) (s : St E) (d : Bytes) (o : Bool) (h : s.ps = .handshake) :
    feedSsl c s d o = feedHandshake c (feedIn s d) o := by unfold feedSsl; rw [h]
theorem feedSsl_wrapped (c : Cfg) (s : St E) (d : Bytes) (o : Bool) (h : s.ps = .wrapped) :
    feedSsl c s d o = feedWrapped c (feedIn s d) := by unfold feedSsl; rw [h]
theorem feedSsl_shutdown (c : Cfg) (s : St E) (d : Bytes) (o : Bool) (h : s.ps = .shutdown) :
    feedSsl c s d o = feedShutdown c (feedIn s d) := by unfold feedSsl; rw [h]

/-! How feeding ssl data moves the pipe. -/

theorem ps_feedSsl_unwrapped (c : Cfg) (s : St E) (d : Bytes) (o : Bool) (h : s.ps = .unwrapped) :
    (feedSsl c s d o).1.ps = .unwrapped := by rw [feedSsl_unwrapped c s d o h]; exact h
theorem ps_feedSsl_handshake (c : Cfg) (s : St E) (d : Bytes) (o : Bool) (h : s.ps = .handshake) :
    (feedSsl c s d o).1.ps = .handshake ∨ (feedSsl c s d o).1.ps = .wrapped := by
  rw [feedSsl_handshake c s d o h]; exact ps_feedHandshake c (feedIn s d) o h
theorem ps_feedSsl_wrapped (c : Cfg) (s : St E) (d : Bytes) (o : Bool) (h : s.ps = .wrapped) :
    (feedSsl c s d o).1.ps = .wrapped := by
  rw [feedSsl_wrapped c s d o h, ps_feedWrapped]; exact h
theorem ps_feedSsl_shutdown (c : Cfg) (s : St E) (d : Bytes) (o : Bool) (h : s.ps = .shutdown) :
    (feedSsl c s d o).1.ps = .shutdown ∨ (feedSsl c s d o).1.ps = .unwrapped := by
  rw [feedSsl_shutdown c s d o h]; exact ps_feedShutdown c (feedIn s d) h

/-! Only records come out of the pipe when ssl data is fed. -/

/-- A list of records. -/
def Records (l : List Wire) : Prop := ∀ w ∈ l, ∃ b, w = .record b

theorem records_finish (s : St E) (a : List Bytes) {w : List Wire} {b : List Bytes}
    (h : (finish s a).2 = .ok (w, b)) : Records w := by
  unfold finish at h
  split at h
  · cases h; intro w hw; cases hw
  · cases h
    intro w hw
    rw [List.mem_singleton] at hw
    exact ⟨_, hw⟩

theorem records_feedWrapped (c : Cfg) (s : St E) {w : List Wire} {b : List Bytes}
    (h : (feedWrapped c s).2 = .ok (w, b)) : Records w := by
  unfold feedWrapped at h
  split at h
  · exact records_finish _ _ h
  · split at h
    · exact records_finish _ _ h
    · cases h
  · cases h

theorem records_feedSsl (c : Cfg) (s : St E) (d : Bytes) (o : Bool) {w : List Wire} {b : List Bytes}
    (h : (feedSsl c s d o).2 = .ok (w, b)) : Records w := by
  unfold feedSsl at h
  split at h
  · cases h; intro w hw; cases hw
  · unfold feedHandshake at h
    split at h
    · by_cases ho : o = true
      · simp only [ho, if_true] at h
        cases h; intro w hw; cases hw
      · simp only [ho] at h
        exact records_feedWrapped c _ h
    · split at h
      · exact records_finish _ _ h
      · split at h <;> cases h
  · exact records_feedWrapped c _ h
  · unfold feedShutdown at h
    split at h
    · exact records_finish _ _ h
    · split at h
      · exact records_finish _ _ h
      · cases h

/-! Writing to the underlying transport. -/

/-- What writing to the underlying transport leaves alone. -/
structure FrameW (s s' : St E) : Prop where
  backlog : s'.backlog = s.backlog
  tr : s'.tr = s.tr
  closing : s'.closing = s.closing
  ps : s'.ps = s.ps
  need : s'.need = s.need
  eng : s'.eng = s.eng
  trClosing : s'.trClosing = s.trClosing
  trLost : s'.trLost = s.trLost
  inHs : s'.inHs = s.inHs
  est : s'.est = s.est
  waiter : s'.waiter = s.waiter
  settled : s'.settled = s.settled
  sched : s'.sched = s.sched
  app : s'.app = s.app
  sent : s'.sent = s.sent
  got : s'.got = s.got
  calls : s'.calls = s.calls
  shaken : s'.shaken = s.shaken
  fatal : s'.fatal = s.fatal
  aborted : s'.aborted = s.aborted
  hung : s'.hung = s.hung

theorem frameW_trWrites (l : List Wire) : ∀ s : St E, FrameW s (trWrites s l) := by
  induction l with
  | nil => intro s; constructor <;> rfl
  | cons w ws ih =>
    intro s
    have h := ih (trWrite s w)
    have hw : FrameW s (trWrite s w) := by
      unfold trWrite; split <;> constructor <;> rfl
    constructor
    · exact h.backlog.trans hw.backlog
    · exact h.tr.trans hw.tr
    · exact h.closing.trans hw.closing
    · exact h.ps.trans hw.ps
    · exact h.need.trans hw.need
    · exact h.eng.trans hw.eng
    · exact h.trClosing.trans hw.trClosing
    · exact h.trLost.trans hw.trLost
    · exact h.inHs.trans hw.inHs
    · exact h.est.trans hw.est
    · exact h.waiter.trans hw.waiter
    · exact h.settled.trans hw.settled
    · exact h.sched.trans hw.sched
    · exact h.app.trans hw.app
    · exact h.sent.trans hw.sent
    · exact h.got.trans hw.got
    · exact h.calls.trans hw.calls
    · exact h.shaken.trans hw.shaken
    · exact h.fatal.trans hw.fatal
    · exact h.aborted.trans hw.aborted
    · exact h.hung.trans hw.hung

theorem wire_trWrites (l : List Wire) : ∀ s : St E, ∀ w ∈ (trWrites s l).wire, w ∈ s.wire ∨ w ∈ l := by
  induction l with
  | nil => intro s w hw; exact Or.inl hw
  | cons x xs ih =>
    intro s w hw
    rcases ih (trWrite s x) w hw with h | h
    · unfold trWrite at h
      split at h
      · exact Or.inl h
      · rcases List.mem_append.1 h with h | h
        · exact Or.inl h
        · rw [List.mem_singleton] at h; rw [h]; exact Or.inr (List.mem_cons_self ..)
    · exact Or.inr (List.mem_cons_of_mem _ h)

theorem records_trWrites {l : List Wire} {s : St E} (hl : Records l) (hs : Records s.wire) :
    Records (trWrites s l).wire := by
  intro w hw
  rcases wire_trWrites l s w hw with h | h
  · exact hs w h
  · exact hl w h

/-! Feeding application data. -/

/-- What feeding application data leaves alone. -/
structure FrameA (s s' : St E) : Prop where
  backlog : s'.backlog = s.backlog
  tr : s'.tr = s.tr
  closing : s'.closing = s.closing
  wire : s'.wire = s.wire
  ps : s'.ps = s.ps
  trClosing : s'.trClosing = s.trClosing
  inHs : s'.inHs = s.inHs
  est : s'.est = s.est
  waiter : s'.waiter = s.waiter
  settled : s'.settled = s.settled
  app : s'.app = s.app
  got : s'.got = s.got
  shaken : s'.shaken = s.shaken
  fatal : s'.fatal = s.fatal
  aborted : s'.aborted = s.aborted
  hung : s'.hung = s.hung

theorem FrameA.refl (s : St E) : FrameA s s := by constructor <;> rfl

theorem FrameA.trans {a b d : St E} (h : FrameA a b) (k : FrameA b d) : FrameA a d :=
  ⟨k.1.trans h.1, k.2.trans h.2, k.3.trans h.3, k.4.trans h.4, k.5.trans h.5, k.6.trans h.6, k.7.trans h.7,
   k.8.trans h.8, k.9.trans h.9, k.10.trans h.10, k.11.trans h.11, k.12.trans h.12, k.13.trans h.13, k.14.trans h.14,
   k.15.trans h.15, k.16.trans h.16⟩

theorem frameA_drainW (s : St E) : FrameA s (drainW s).1 := by
  unfold drainW; split <;> constructor <;> rfl

theorem records_drainW (s : St E) : Records (drainW s).2 := by
  unfold drainW
  split
  · intro w hw; cases hw
  · intro w hw; rw [List.mem_singleton] at hw; exact ⟨_, hw⟩

theorem frameA_appWrite (s : St E) (d : Bytes) (o : Nat) : FrameA s (appWrite s d o).1 := by
  unfold appWrite
  split
  · split
    · constructor <;> rfl
    · split <;> constructor <;> rfl
  · constructor <;> rfl

theorem frameA_appLoop (f : Nat) : ∀ (s : St E) (d : Bytes) (o : Nat) (acc : List Wire),
    FrameA s (appLoop f s d o acc).1 := by
  induction f with
  | zero => intro s d o acc; exact FrameA.refl _
  | succ f ih =>
    intro s d o acc
    unfold appLoop
    have h := frameA_appWrite s d o
    split
    · next s1 e he => rw [he] at h; exact h
    · next s1 he => rw [he] at h; exact h
    · next s1 off1 he =>
      rw [he] at h
      have h2 := h.trans (frameA_drainW s1)
      by_cases hc : off1 = d.length ∨ (drainW s1).1.need = true
      · simp only [hc, if_true]; exact h2
      · simp only [hc, if_false]; exact h2.trans (ih _ _ _ _)

theorem records_appLoop (f : Nat) : ∀ (s : St E) (d : Bytes) (o : Nat) (acc : List Wire) {w : List Wire} {k : Nat},
    Records acc → (appLoop f s d o acc).2 = .ok (w, k) → Records w := by
  induction f with
  | zero => intro s d o acc w k _ h; cases h
  | succ f ih =>
    intro s d o acc w k ha h
    unfold appLoop at h
    split at h
    · cases h
    · cases h
    · next s1 off1 he =>
      have hr : Records (acc ++ (drainW s1).2) := by
        intro x hx
        rcases List.mem_append.1 hx with hx | hx
        · exact ha x hx
        · exact records_drainW s1 x hx
      by_cases hc : off1 = d.length ∨ (drainW s1).1.need = true
      · simp only [hc, if_true] at h; cases h; exact hr
      · simp only [hc, if_false] at h; exact ih _ _ _ _ hr h

/-! The pipe's `do_handshake` and `shutdown`. -/

/-- `do_handshake` from the unwrapped state. -/
theorem doHandshake_spec (c : Cfg) (s : St E) (h : s.ps = .unwrapped) :
    Frame { s with calls := [] } (doHandshake c s).1 ∧ ((doHandshake c s).1.ps = .handshake ∨ (doHandshake c s).1.ps = .wrapped) ∧
    ∀ w, (doHandshake c s).2 = .ok w → Records w := by
  have hf := frame_feedSsl c { s with eng := E.wrap s.eng, ps := .handshake, calls := [] } [] true
  have hp := ps_feedSsl_handshake c { s with eng := E.wrap s.eng, ps := .handshake, calls := [] } [] true rfl
  have hr := @records_feedSsl E c { s with eng := E.wrap s.eng, ps := .handshake, calls := [] } [] true
  have h0 : Frame { s with calls := [] } { s with eng := E.wrap s.eng, ps := .handshake, calls := [] } := ⟨rfl, rfl, rfl, rfl, rfl, rfl, rfl, rfl, rfl⟩
  unfold doHandshake
  rw [if_pos h]
  split
  · next s1 ssl a he =>
      rw [he] at hf hp
      refine ⟨h0.trans hf, hp, fun w hw => ?_⟩
      cases hw
      exact hr (by rw [he])
  · next s1 e he => rw [he] at hf hp; exact ⟨h0.trans hf, hp, fun w hw => by cases hw⟩
  · next s1 he => rw [he] at hf hp; exact ⟨h0.trans hf, hp, fun w hw => by cases hw⟩

theorem doHandshake_not (c : Cfg) (s : St E) (h : s.ps ≠ .unwrapped) :
    doHandshake c s = (s, .raised .runtime) := by
  unfold doHandshake; rw [if_neg h]

theorem pipeShutdown_not (c : Cfg) (s : St E) (h : s.ps = .unwrapped ∨ s.ps = .shutdown) :
    pipeShutdown c s = (s, .raised .runtime) := by
  unfold pipeShutdown; rw [if_pos h]

/-- `shutdown` from the handshake or the wrapped state. -/
theorem pipeShutdown_spec (c : Cfg) (s : St E) (h : ¬(s.ps = .unwrapped ∨ s.ps = .shutdown)) :
    Frame s (pipeShutdown c s).1 ∧ ((pipeShutdown c s).1.ps = .shutdown ∨ (pipeShutdown c s).1.ps = .unwrapped) ∧
    ∀ w, (pipeShutdown c s).2 = .ok w → Records w := by
  have hf := frame_feedSsl c { s with ps := .shutdown } [] false
  have hp := ps_feedSsl_shutdown c { s with ps := .shutdown } [] false rfl
  have hr := @records_feedSsl E c { s with ps := .shutdown } [] false
  have h0 : Frame s { s with ps := .shutdown } := ⟨rfl, rfl, rfl, rfl, rfl, rfl, rfl, rfl, rfl⟩
  unfold pipeShutdown
  rw [if_neg h]
  split
  · next s1 ssl a he =>
      rw [he] at hf hp
      refine ⟨h0.trans hf, hp, fun w hw => ?_⟩
      cases hw
      exact hr (by rw [he])
  · next s1 e he => rw [he] at hf hp; exact ⟨h0.trans hf, hp, fun w hw => by cases hw⟩
  · next s1 he => rw [he] at hf hp; exact ⟨h0.trans hf, hp, fun w hw => by cases hw⟩

theorem markRes_fst (p : St E × Res (List Wire)) : (markRes p).1 = p.1 := by
  obtain ⟨s, r⟩ := p; cases r <;> rfl

theorem markRes_ok (p : St E × Res (List Wire)) {w : List Wire} {k : Nat} (h : (markRes p).2 = .ok (w, k)) :
    p.2 = .ok w := by
  obtain ⟨s, r⟩ := p
  cases r with
  | ok a => cases h; rfl
  | raised e => cases h
  | hang => cases h

end Verif.Ssl
