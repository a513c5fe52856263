import Verif.Ssl.Live

/-! What the engine decrypts is what the protocol gets: the invariant. -/

namespace Verif.Ssl

variable {E : Engine}

/-- The bytes the protocol was given. -/
def delivered (l : List App) : Bytes :=
  (l.map fun a => match a with | .data b => b | _ => []).flatten

theorem delivered_append (a b : List App) : delivered (a ++ b) = delivered a ++ delivered b := by
  simp [delivered]

/-- What everything except reading keeps. -/
structure Keep (s s' : St E) : Prop where
  got : s'.got = s.got
  app : delivered s'.app = delivered s.app
  aborted : s'.aborted = s.aborted
  closing : s.trClosing = true → s'.trClosing = true

theorem Keep.refl (s : St E) : Keep s s := ⟨rfl, rfl, rfl, id⟩
theorem Keep.trans {a b d : St E} (h : Keep a b) (k : Keep b d) : Keep a d :=
  ⟨k.1.trans h.1, k.2.trans h.2, k.3.trans h.3, fun x => k.4 (h.4 x)⟩

theorem keep_trClose (c : Cfg) (s : St E) : Keep s (trClose c s) := by
  unfold trClose; split
  · exact Keep.refl s
  · exact ⟨rfl, rfl, rfl, fun _ => rfl⟩

theorem keep_wake (s : St E) (e : Option Err) : Keep s (wake s e) := by
  unfold wake; split
  · exact ⟨rfl, rfl, rfl, id⟩
  · exact Keep.refl s

theorem keep_hsOk (c : Cfg) (s : St E) : Keep s (hsOk c s) := by
  have h := keep_wake { s with inHs := false, app := if c.callMade then s.app ++ [.made] else s.app } none
  have h0 : delivered (if c.callMade then s.app ++ [.made] else s.app) = delivered s.app := by
    split
    · rw [delivered_append]; exact List.append_nil _
    · rfl
  exact ⟨h.1, h.2.trans h0, h.3, h.4⟩

theorem keep_hsErr (c : Cfg) (s : St E) (e : Err) : Keep s (hsErr c s e) := by
  have h := (keep_trClose c { s with inHs := false }).trans (keep_wake _ (some e))
  exact ⟨h.1, h.2, h.3, h.4⟩

theorem keep_finish (s : St E) (a : List Bytes) : Keep s (finish s a).1 := by
  unfold finish; split <;> exact ⟨rfl, rfl, rfl, id⟩

theorem keep_feedHandshake_only (c : Cfg) (s : St E) : Keep s (feedHandshake c s true).1 := by
  unfold feedHandshake
  split
  · next g _ _ =>
    have h := keep_hsOk c { s with eng := g, ps := .wrapped, shaken := s.shaken + 1 }
    exact ⟨h.1, h.2, h.3, h.4⟩
  · next g e _ =>
    split
    · have h := keep_finish { s with eng := g, need := e == .wantRead } []
      exact ⟨h.1, h.2, h.3, h.4⟩
    · split
      · have h := keep_hsErr c { s with eng := g } e
        exact ⟨h.1, h.2, h.3, h.4⟩
      · exact ⟨rfl, rfl, rfl, id⟩

theorem keep_feedShutdown (c : Cfg) (s : St E) : Keep s (feedShutdown c s).1 := by
  unfold feedShutdown
  split
  · next g _ _ =>
    have h0 : Keep s { s with eng := g, ps := .unwrapped } := ⟨rfl, rfl, rfl, id⟩
    refine h0.trans (Keep.trans ?_ (keep_finish _ _))
    split
    · exact keep_trClose c _
    · exact Keep.refl _
  · next g e _ =>
    split
    · have h := keep_finish { s with eng := g, need := e == .wantRead } []
      exact ⟨h.1, h.2, h.3, h.4⟩
    · exact ⟨rfl, rfl, rfl, id⟩

theorem keep_doHandshake (c : Cfg) (s : St E) : Keep s (doHandshake c s).1 := by
  by_cases hu : s.ps = .unwrapped
  · have h := keep_feedHandshake_only c (feedIn { s with eng := E.wrap s.eng, ps := .handshake, calls := [] } [])
    have h1 : Keep s (feedSsl c { s with eng := E.wrap s.eng, ps := .handshake, calls := [] } [] true).1 :=
      ⟨h.1, h.2, h.3, h.4⟩
    unfold doHandshake
    rw [if_pos hu]
    split <;> (next hq => rw [hq] at h1; exact h1)
  · rw [doHandshake_not c s hu]; exact Keep.refl _

theorem keep_pipeShutdown (c : Cfg) (s : St E) : Keep s (pipeShutdown c s).1 := by
  by_cases hu : s.ps = .unwrapped ∨ s.ps = .shutdown
  · rw [pipeShutdown_not c s hu]; exact Keep.refl _
  · have h := keep_feedShutdown c (feedIn { s with ps := .shutdown } [])
    have h1 : Keep s (feedSsl c { s with ps := .shutdown } [] false).1 := ⟨h.1, h.2, h.3, h.4⟩
    unfold pipeShutdown
    rw [if_neg hu]
    split <;> (next hq => rw [hq] at h1; exact h1)

theorem keep_entry (c : Cfg) (s : St E) (d : Bytes) (o : Nat) : Keep s (entry c s d o).1 := by
  cases d with
  | cons x xs =>
    have f := frameA_feedApp c s (x :: xs) o
    exact ⟨f.got, congrArg delivered f.app, f.aborted, fun h => f.trClosing.trans h⟩
  | nil =>
    show Keep s (markRes _).1
    rw [markRes_fst]
    split
    · exact keep_doHandshake c s
    · exact keep_pipeShutdown c s

theorem keep_procLoop (c : Cfg) (n : Nat) : ∀ s : St E, Keep s (procLoop c n s).1 := by
  induction n with
  | zero => intro s; exact Keep.refl s
  | succ n ih =>
    intro s
    unfold procLoop
    split
    · exact Keep.refl s
    · next data off rest hb =>
      have hk := keep_entry c s data off
      split
      · next hq => rw [hq] at hk; exact hk
      · next hq => rw [hq] at hk; exact hk
      · next s1 ssl off1 hq =>
        rw [hq] at hk
        have f := frameW_trWrites ssl s1
        have h1 : ∀ b, Keep s { trWrites s1 ssl with backlog := b } := fun b =>
          hk.trans ⟨f.got, congrArg delivered f.app, f.aborted, fun h => f.trClosing.trans h⟩
        by_cases hlt : off1 < data.length
        · simp only [hlt, if_true]
          split
          · exact h1 _
          · exact h1 _
        · simp only [hlt, if_false]
          exact (h1 rest).trans (ih _)

theorem keep_trForce (s : St E) : Keep s (trForce s) := by
  unfold trForce; split
  · exact Keep.refl s
  · exact ⟨rfl, rfl, rfl, fun _ => rfl⟩

theorem keep_process (c : Cfg) (s : St E) : Keep s (process c s).1 := by
  unfold process
  split
  · have hk := keep_procLoop c s.backlog.length s
    unfold procEnd
    split
    · next hq => rw [hq] at hk; exact hk
    · next hq => rw [hq] at hk; exact ⟨hk.1, hk.2, hk.3, hk.4⟩
    · next s1 e hq =>
      rw [hq] at hk
      split
      · exact hk.trans (keep_hsErr c s1 e)
      · have h1 : Keep s { s1 with fatal := true } := ⟨hk.1, hk.2, hk.3, hk.4⟩
        show Keep s (if s1.tr = true then trForce { s1 with fatal := true } else { s1 with fatal := true })
        split
        · exact h1.trans (keep_trForce _)
        · exact h1
  · exact Keep.refl s

theorem keep_close (c : Cfg) (s : St E) : Keep s (close c s).1 := by
  unfold close
  split
  · exact Keep.refl s
  · have h := keep_process c { s with closing := true, backlog := s.backlog ++ [([], 0)] }
    exact ⟨h.1, h.2, h.3, h.4⟩

/-- Chunks of which only the last may be empty. -/
def Clean : List Bytes → Prop
  | [] => True
  | [] :: rest => rest = []
  | (_ :: _) :: rest => Clean rest

theorem clean_nonempty : ∀ l : List Bytes, (∀ b ∈ l, b ≠ []) → Clean l := by
  intro l
  induction l with
  | nil => intro _; trivial
  | cons x xs ih =>
    intro h
    cases x with
    | nil => exact absurd rfl (h [] (List.mem_cons_self ..))
    | cons b bs => exact ih fun b hb => h b (List.mem_cons_of_mem _ hb)

theorem clean_snoc : ∀ l : List Bytes, (∀ b ∈ l, b ≠ []) → Clean (l ++ [[]]) := by
  intro l
  induction l with
  | nil => intro _; exact rfl
  | cons x xs ih =>
    intro h
    cases x with
    | nil => exact absurd rfl (h [] (List.mem_cons_self ..))
    | cons b bs => exact ih fun b hb => h b (List.mem_cons_of_mem _ hb)

/-- The reads of one call collect chunks of which only the last may be empty. -/
theorem readLoop_clean (E : Engine) (f : Nat) : ∀ (g : E.σ) (acc : List Bytes), (∀ b ∈ acc, b ≠ []) →
    Clean (readLoop E f g acc).2.1 := by
  induction f with
  | zero => intro g acc h; exact clean_nonempty _ h
  | succ f ih =>
    intro g acc h
    unfold readLoop
    split
    · exact clean_nonempty _ h
    · exact clean_snoc _ h
    · next g1 b bs _ =>
      refine ih g1 _ fun x hx => ?_
      rcases List.mem_append.1 hx with hx | hx
      · exact h x hx
      · rw [List.mem_singleton.1 hx]; nofun

theorem readLoop_err (E : Engine) (f : Nat) : ∀ (g : E.σ) (acc : List Bytes) (e : Err),
    (readLoop E f g acc).2.2 = .err e → ∃ g0 g1, E.read g0 = (g1, .error e) := by
  induction f with
  | zero => intro g acc e h; cases h
  | succ f ih =>
    intro g acc e h
    unfold readLoop at h
    split at h
    · next g1 e1 he => cases h; exact ⟨g, g1, he⟩
    · cases h
    · exact ih _ _ _ h

/-- What `read` of an `SSLObject` raises is an `SSLError`. -/
def SslReads (E : Engine) : Prop := ∀ g g' e, E.read g = (g', .error e) → e.isSsl = true

/-- What a call that reads gives. -/
structure Reads (s s' : St E) (r : Res (List Wire × List Bytes)) : Prop where
  app : delivered s'.app = delivered s.app
  aborted : s'.aborted = s.aborted
  got : ∃ a, s'.got = s.got ++ a ∧ ∀ w l, r = .ok (w, l) → a = l.flatten ∧ Clean l
  rais : SslReads E → ∀ e, r = .raised e → e.isSsl = true ∨ s'.got = s.got

theorem finish_ok (s : St E) (a : List Bytes) {w : List Wire} {l : List Bytes} (h : (finish s a).2 = .ok (w, l)) :
    l = a := by
  unfold finish at h
  split at h <;> cases h <;> rfl

theorem finish_not_raised (s : St E) (a : List Bytes) (e : Err) : (finish s a).2 ≠ .raised e := by
  unfold finish; split <;> nofun

theorem reads_feedWrapped (c : Cfg) (s : St E) : Reads s (feedWrapped c s).1 (feedWrapped c s).2 := by
  have hc := readLoop_clean E c.fuel s.eng [] (fun _ h => nomatch h)
  unfold feedWrapped
  split
  · next g acc hq =>
    rw [hq] at hc
    have k := keep_finish { s with eng := g, got := s.got ++ acc.flatten } acc
    exact ⟨k.app, k.aborted, ⟨acc.flatten, k.got, fun w l h => by rw [finish_ok _ _ h]; exact ⟨rfl, hc⟩⟩,
      fun _ e h => absurd h (finish_not_raised _ _ e)⟩
  · next g acc e hq =>
    rw [hq] at hc
    split
    · have k := keep_finish { s with eng := g, got := s.got ++ acc.flatten, need := e == .wantRead } acc
      exact ⟨k.app, k.aborted, ⟨acc.flatten, k.got, fun w l h => by rw [finish_ok _ _ h]; exact ⟨rfl, hc⟩⟩,
        fun _ e h => absurd h (finish_not_raised _ _ e)⟩
    · refine ⟨rfl, rfl, ⟨acc.flatten, rfl, fun w l h => by cases h⟩, fun hE e1 h => ?_⟩
      cases h
      obtain ⟨g0, g1, h1⟩ := readLoop_err E c.fuel s.eng [] e (by rw [hq])
      exact Or.inl (hE _ _ _ h1)
  · next g acc hq =>
    exact ⟨rfl, rfl, ⟨acc.flatten, rfl, fun w l h => by cases h⟩, fun _ e h => by cases h⟩

theorem reads_keep {s s' : St E} {r : Res (List Wire × List Bytes)} (k : Keep s s')
    (h : ∀ w l, r = .ok (w, l) → l = []) : Reads s s' r :=
  ⟨k.app, k.aborted, ⟨[], by rw [k.got, List.append_nil], fun w l hr => by rw [h w l hr]; exact ⟨rfl, trivial⟩⟩,
    fun _ _ _ => Or.inr k.got⟩

/-- Feeding ssl data into a pipe that is not unwrapped. -/
theorem reads_feedSsl (c : Cfg) (s : St E) (d : Bytes) (hu : s.ps ≠ .unwrapped) :
    Reads s (feedSsl c s d false).1 (feedSsl c s d false).2 := by
  cases hp : s.ps with
  | unwrapped => exact absurd hp hu
  | handshake =>
    rw [feedSsl_handshake c s d false hp]
    unfold feedHandshake
    split
    · next g _ _ =>
      have k := keep_hsOk c { feedIn s d with eng := g, ps := .wrapped, shaken := (feedIn s d).shaken + 1 }
      have r := reads_feedWrapped c (hsOk c { feedIn s d with eng := g, ps := .wrapped, shaken := (feedIn s d).shaken + 1 })
      simp only [Bool.false_eq_true, if_false]
      obtain ⟨a, ha, hl⟩ := r.got
      exact ⟨r.app.trans k.app, r.aborted.trans k.aborted, ⟨a, ha.trans (congrArg (· ++ a) k.got), hl⟩,
        fun hE e h => (r.rais hE e h).imp id fun hx => hx.trans k.got⟩
    · next g e _ =>
      split
      · have k := keep_finish { feedIn s d with eng := g, need := e == .wantRead } []
        exact reads_keep ⟨k.1, k.2, k.3, k.4⟩ fun w l h => finish_ok _ _ h
      · split
        · have k := keep_hsErr c { feedIn s d with eng := g } e
          exact reads_keep ⟨k.1, k.2, k.3, k.4⟩ fun w l h => by cases h
        · exact reads_keep ⟨rfl, rfl, rfl, id⟩ fun w l h => by cases h
  | wrapped =>
    rw [feedSsl_wrapped c s d false hp]
    have r := reads_feedWrapped c (feedIn s d)
    exact ⟨r.1, r.2, r.3, r.4⟩
  | shutdown =>
    rw [feedSsl_shutdown c s d false hp]
    have k := keep_feedShutdown c (feedIn s d)
    refine reads_keep ⟨k.1, k.2, k.3, k.4⟩ fun w l h => ?_
    unfold feedShutdown at h
    split at h
    · exact finish_ok _ _ h
    · split at h
      · exact finish_ok _ _ h
      · cases h

/-- Delivering chunks of which only the last may be empty gives all their bytes. -/
theorem deliver_keep (c : Cfg) (l : List Bytes) : ∀ s : St E, Clean l →
    (deliver c s l).1.got = s.got ∧ delivered (deliver c s l).1.app = delivered s.app ++ l.flatten ∧
    (deliver c s l).1.aborted = s.aborted := by
  induction l with
  | nil => intro s _; exact ⟨rfl, (List.append_nil _).symm, rfl⟩
  | cons x xs ih =>
    intro s h
    cases x with
    | nil =>
      cases h
      have k := keep_close c s
      exact ⟨k.got, k.app.trans (List.append_nil _).symm, k.aborted⟩
    | cons b bs =>
      obtain ⟨h1, h2, h3⟩ := ih { s with app := s.app ++ [.data (b :: bs)] } h
      refine ⟨h1, h2.trans ?_, h3⟩
      show delivered (s.app ++ [.data (b :: bs)]) ++ _ = _
      simp [delivered]

end Verif.Ssl
