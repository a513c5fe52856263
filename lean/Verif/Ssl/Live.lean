import Verif.Ssl.Lemmas

/-! In calm runs ssl data only arrives when the pipe is not unwrapped: the invariant. -/

namespace Verif.Ssl

variable {E : Engine}

/-- The pipe is not unwrapped, or the underlying transport is closing. -/
def Up (s : St E) : Prop := s.ps ≠ .unwrapped ∨ s.trClosing = true

/-- The mark for the handshake is in the backlog. -/
def Marked (l : List (Bytes × Nat)) : Prop := ∃ k, ([], k + 1) ∈ l

theorem trClosing_trClose (c : Cfg) (s : St E) : (trClose c s).trClosing = true := by
  unfold trClose; split
  · assumption
  · rfl

theorem trClosing_wake (s : St E) (e : Option Err) : (wake s e).trClosing = s.trClosing := by
  unfold wake; split <;> rfl

theorem trClosing_hsOk (c : Cfg) (s : St E) : (hsOk c s).trClosing = s.trClosing := by
  show (wake _ none).trClosing = _; rw [trClosing_wake]

theorem trClosing_hsErr (c : Cfg) (s : St E) (e : Err) : (hsErr c s e).trClosing = true := by
  unfold hsErr; rw [trClosing_wake, trClosing_trClose]

theorem trClosing_finish (s : St E) (a : List Bytes) : (finish s a).1.trClosing = s.trClosing := by
  unfold finish; split <;> rfl

theorem trClosing_feedWrapped (c : Cfg) (s : St E) : (feedWrapped c s).1.trClosing = s.trClosing := by
  unfold feedWrapped
  split
  · rw [trClosing_finish]
  · split
    · rw [trClosing_finish]
    · rfl
  · rfl

/-- Feeding ssl data does not reopen the underlying transport. -/
theorem trClosing_feedSsl (c : Cfg) (s : St E) (d : Bytes) (o : Bool) (h : s.trClosing = true) :
    (feedSsl c s d o).1.trClosing = true := by
  unfold feedSsl
  split
  · exact h
  · unfold feedHandshake
    split
    · by_cases ho : o = true
      · simp only [ho, if_true]; rw [trClosing_hsOk]; exact h
      · simp only [ho]
        show (feedWrapped c _).1.trClosing = _
        rw [trClosing_feedWrapped, trClosing_hsOk]; exact h
    · split
      · rw [trClosing_finish]; exact h
      · split
        · exact trClosing_hsErr _ _ _
        · exact h
  · rw [trClosing_feedWrapped]; exact h
  · unfold feedShutdown
    split
    · rw [trClosing_finish]
      split
      · exact trClosing_trClose _ _
      · exact h
    · split
      · rw [trClosing_finish]; exact h
      · exact h

/-- When the shutdown is complete the underlying transport is closed. -/
theorem up_feedSsl (c : Cfg) (s : St E) (d : Bytes) (o : Bool) (ht : s.tr = true) (h : Up s) :
    Up (feedSsl c s d o).1 := by
  rcases h with h | h
  · cases hp : s.ps with
    | unwrapped => exact absurd hp h
    | handshake => left; rcases ps_feedSsl_handshake c s d o hp with k | k <;> rw [k] <;> nofun
    | wrapped => left; rw [ps_feedSsl_wrapped c s d o hp]; nofun
    | shutdown =>
      rw [feedSsl_shutdown c s d o hp]
      unfold feedShutdown
      split
      · right
        have : (feedIn s d).tr = true := ht
        rw [trClosing_finish]
        simp only [this, if_true]
        exact trClosing_trClose _ _
      · left
        split
        · rw [ps_finish]; show s.ps ≠ _; rw [hp]; nofun
        · show s.ps ≠ _; rw [hp]; nofun
  · exact Or.inr (trClosing_feedSsl c s d o h)

theorem up_pipeShutdown (c : Cfg) (s : St E) (ht : s.tr = true) (h : Up s) : Up (pipeShutdown c s).1 := by
  unfold pipeShutdown
  split
  · exact h
  · have hu := up_feedSsl c { s with ps := .shutdown } [] false ht (Or.inl (by nofun))
    split <;> (next hq => rw [hq] at hu; exact hu)

theorem up_doHandshake (c : Cfg) (s : St E) : Up (doHandshake c s).1 := by
  by_cases hu : s.ps = .unwrapped
  · left
    rcases (doHandshake_spec c s hu).2.1 with k | k <;> rw [k] <;> nofun
  · rw [doHandshake_not c s hu]; exact Or.inl hu

theorem frameA_feedApp (c : Cfg) (s : St E) (d : Bytes) (o : Nat) : FrameA s (feedApp c s d o).1 := by
  unfold feedApp
  split
  · constructor <;> rfl
  · exact frameA_appLoop _ _ _ _ _

theorem up_congr {s s' : St E} (hp : s'.ps = s.ps) (ht : s'.trClosing = s.trClosing) (h : Up s) : Up s' := by
  unfold Up; rw [hp, ht]; exact h

theorem up_entry (c : Cfg) (s : St E) (d : Bytes) (o : Nat) (ht : s.tr = true) (h : Up s) : Up (entry c s d o).1 := by
  cases d with
  | cons x xs =>
    have f := frameA_feedApp c s (x :: xs) o
    exact up_congr f.ps f.trClosing h
  | nil =>
    show Up (markRes _).1
    rw [markRes_fst]
    split
    · exact up_doHandshake c s
    · exact up_pipeShutdown c s ht h

theorem tr_entry (c : Cfg) (s : St E) (d : Bytes) (o : Nat) : (entry c s d o).1.tr = s.tr := by
  cases d with
  | cons x xs => exact (frameA_feedApp c s (x :: xs) o).tr
  | nil =>
    show (markRes _).1.tr = _
    rw [markRes_fst]
    split
    · by_cases hu : s.ps = .unwrapped
      · exact (doHandshake_spec c s hu).1.tr
      · rw [doHandshake_not c s hu]
    · by_cases hu : s.ps = .unwrapped ∨ s.ps = .shutdown
      · rw [pipeShutdown_not c s hu]
      · exact (pipeShutdown_spec c s hu).1.tr

theorem backlog_entry (c : Cfg) (s : St E) (d : Bytes) (o : Nat) : (entry c s d o).1.backlog = s.backlog := by
  cases d with
  | cons x xs => exact (frameA_feedApp c s (x :: xs) o).backlog
  | nil =>
    show (markRes _).1.backlog = _
    rw [markRes_fst]
    split
    · by_cases hu : s.ps = .unwrapped
      · exact (doHandshake_spec c s hu).1.backlog
      · rw [doHandshake_not c s hu]
    · by_cases hu : s.ps = .unwrapped ∨ s.ps = .shutdown
      · rw [pipeShutdown_not c s hu]
      · exact (pipeShutdown_spec c s hu).1.backlog

theorem hung_entry (c : Cfg) (s : St E) (d : Bytes) (o : Nat) : (entry c s d o).1.hung = s.hung := by
  cases d with
  | cons x xs => exact (frameA_feedApp c s (x :: xs) o).hung
  | nil =>
    show (markRes _).1.hung = _
    rw [markRes_fst]
    split
    · by_cases hu : s.ps = .unwrapped
      · exact (doHandshake_spec c s hu).1.hung
      · rw [doHandshake_not c s hu]
    · by_cases hu : s.ps = .unwrapped ∨ s.ps = .shutdown
      · rw [pipeShutdown_not c s hu]
      · exact (pipeShutdown_spec c s hu).1.hung

theorem tr_procLoop (c : Cfg) (n : Nat) : ∀ s : St E, (procLoop c n s).1.tr = s.tr := by
  induction n with
  | zero => intro s; rfl
  | succ n ih =>
    intro s
    unfold procLoop
    split
    · rfl
    · next data off rest hb =>
      have ht := tr_entry c s data off
      split
      · next hq => rw [hq] at ht; exact ht
      · next hq => rw [hq] at ht; exact ht
      · next s1 ssl off1 hq =>
        rw [hq] at ht
        have f := frameW_trWrites ssl s1
        by_cases hlt : off1 < data.length
        · simp only [hlt, if_true]
          split
          · exact f.tr.trans ht
          · exact f.tr.trans ht
        · simp only [hlt, if_false]
          rw [ih]
          exact f.tr.trans ht

/-- Going through the whole backlog runs the handshake, unless an exception or a hang ends it before. -/
theorem up_procLoop (c : Cfg) (n : Nat) : ∀ s : St E, s.backlog.length = n → s.tr = true →
    Up s ∨ (Marked s.backlog ∧ s.inHs = true) →
    Up (procLoop c n s).1 ∨ (∃ e, (procLoop c n s).2 = .raised e ∧ (procLoop c n s).1.inHs = true) ∨
      (procLoop c n s).2 = .hang := by
  induction n with
  | zero =>
    intro s hn _ h
    rcases h with h | ⟨⟨k, hk⟩, _⟩
    · exact Or.inl h
    · rw [List.length_eq_zero_iff.1 hn] at hk; cases hk
  | succ n ih =>
    intro s hn ht h
    unfold procLoop
    split
    · next hb => rw [hb] at hn; cases hn
    · next data off rest hb =>
      have hrl : rest.length = n := by rw [hb] at hn; exact Nat.succ.inj hn
      -- after the entry: up, or nothing but data was passed through
      have key : Up (entry c s data off).1 ∨
          (s.ps = .unwrapped ∧ s.inHs = true ∧ ((∃ e, (entry c s data off).2 = .raised e ∧ (entry c s data off).1.inHs = true) ∨
            (Marked rest ∧ (entry c s data off).1.inHs = true ∧ data ≠ [] ∧
              ∃ v, (entry c s data off).2 = .ok (v, data.length)))) := by
        by_cases hup : Up s
        · exact Or.inl (up_entry c s data off ht hup)
        · have hu : s.ps = .unwrapped := Classical.byContradiction fun hx => hup (Or.inl hx)
          rcases h with h | ⟨⟨k, hk⟩, hin⟩
          · exact absurd h hup
          · cases data with
            | cons x xs =>
              right
              refine ⟨hu, hin, Or.inr ⟨⟨k, ?_⟩, ?_, nofun, ?_⟩⟩
              · rw [hb] at hk
                rcases List.mem_cons.1 hk with hk | hk
                · cases hk
                · exact hk
              · exact ((frameA_feedApp c s (x :: xs) off).inHs).trans hin
              · show ∃ v, (feedApp c s (x :: xs) off).2 = _
                unfold feedApp; rw [if_pos hu]; exact ⟨_, rfl⟩
            | nil =>
              cases off with
              | zero =>
                right
                refine ⟨hu, hin, Or.inl ⟨.runtime, ?_⟩⟩
                show (markRes (pipeShutdown c s)).2 = _ ∧ (markRes (pipeShutdown c s)).1.inHs = _
                rw [pipeShutdown_not c s (Or.inl hu)]
                exact ⟨rfl, hin⟩
              | succ k0 =>
                left
                show Up (markRes (doHandshake c s)).1
                rw [markRes_fst]
                exact up_doHandshake c s
      have htr := tr_entry c s data off
      split
      · next s1 e hq =>
        rw [hq] at key
        rcases key with key | ⟨_, _, ⟨e', he, hi⟩ | ⟨_, _, _, v, hv⟩⟩
        · exact Or.inl key
        · exact Or.inr (Or.inl ⟨e, rfl, hi⟩)
        · cases hv
      · exact Or.inr (Or.inr rfl)
      · next s1 ssl off1 hq =>
        rw [hq] at key htr
        have f := frameW_trWrites ssl s1
        by_cases hlt : off1 < data.length
        · simp only [hlt, if_true]
          rcases key with key | ⟨_, _, ⟨e', he, hi⟩ | ⟨_, _, _, v, hv⟩⟩
          · have hup : Up { trWrites s1 ssl with backlog := (data, off1) :: rest } := up_congr f.ps f.trClosing key
            split
            · exact Or.inl hup
            · exact Or.inl hup
          · cases he
          · cases hv; exact absurd hlt (Nat.lt_irrefl _)
        · simp only [hlt, if_false]
          refine ih { trWrites s1 ssl with backlog := rest } hrl (f.tr.trans (htr.trans ht)) ?_
          rcases key with key | ⟨_, _, ⟨e', he, hi⟩ | ⟨hm, hi, _⟩⟩
          · exact Or.inl (up_congr f.ps f.trClosing key)
          · cases he
          · exact Or.inr ⟨hm, f.inHs.trans hi⟩

theorem hung_trForce (s : St E) : (trForce s).hung = s.hung := by unfold trForce; split <;> rfl

theorem up_trForce (s : St E) (h : Up s) : Up (trForce s) := by
  unfold trForce; split
  · exact h
  · exact Or.inr rfl

/-- After the backlog was processed: up, or hanging. -/
theorem up_process (c : Cfg) (s : St E) (ht : s.tr = true) (h : Up s ∨ (Marked s.backlog ∧ s.inHs = true)) :
    (process c s).1.hung = true ∨ Up (process c s).1 := by
  unfold process
  rw [if_pos ht]
  have hu := up_procLoop c _ s rfl ht h
  unfold procEnd
  split
  · next s1 u hq =>
    rw [hq] at hu
    rcases hu with hu | ⟨e, he, _⟩ | he
    · exact Or.inr hu
    · cases he
    · cases he
  · exact Or.inl rfl
  · next s1 e hq =>
    rw [hq] at hu
    split
    · exact Or.inr (Or.inr (trClosing_hsErr c s1 e))
    · next hi =>
      right
      rcases hu with hu | ⟨e, _, he⟩ | he
      · unfold fatalError
        show Up (if s1.tr = true then trForce { s1 with fatal := true } else { s1 with fatal := true })
        split
        · exact up_trForce _ hu
        · exact hu
      · exact absurd he hi
      · cases he

theorem tr_process (c : Cfg) (s : St E) : (process c s).1.tr = s.tr := by
  unfold process
  split
  · have ht := tr_procLoop c s.backlog.length s
    unfold procEnd
    split
    · next hq => rw [hq] at ht; exact ht
    · next hq => rw [hq] at ht; exact ht
    · next s1 e hq =>
      rw [hq] at ht
      split
      · exact (frame_hsErr c s1 e).tr.trans ht
      · show (if s1.tr = true then trForce { s1 with fatal := true } else { s1 with fatal := true } : St E).tr = _
        split
        · unfold trForce; split <;> exact ht
        · exact ht
  · rfl

end Verif.Ssl
