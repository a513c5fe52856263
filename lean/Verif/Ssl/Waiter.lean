import Verif.Ssl.Steps

/-! The waiter of the ssl layer. -/

namespace Verif.Ssl

variable {E : Engine}

/-- What everything but the loss of the connection does to the waiter. -/
structure Wr (s s' : St E) : Prop where
  set : (s'.waiter = s.waiter ∧ s'.settled = s.settled) ∨
    (s.waiter = true ∧ s'.waiter = false ∧ ∃ e, s'.settled = s.settled ++ [e] ∧ (e = none → 0 < s'.shaken))
  mono : s.shaken ≤ s'.shaken
  new : s.shaken < s'.shaken → s'.waiter = false
  tr : s'.tr = s.tr

theorem Wr.same {s s' : St E} (hw : s'.waiter = s.waiter) (hs : s'.settled = s.settled) (hk : s'.shaken = s.shaken)
    (ht : s'.tr = s.tr) : Wr s s' :=
  ⟨Or.inl ⟨hw, hs⟩, Nat.le_of_eq hk.symm, fun h => by omega, ht⟩

theorem Wr.refl (s : St E) : Wr s s := Wr.same rfl rfl rfl rfl

theorem Wr.trans {a b d : St E} (h : Wr a b) (k : Wr b d) : Wr a d := by
  constructor
  · rcases h.set with ⟨h1, h2⟩ | ⟨h1, h2, e, h3, h4⟩
    · rcases k.set with ⟨k1, k2⟩ | ⟨k1, k2, e, k3, k4⟩
      · exact Or.inl ⟨k1.trans h1, k2.trans h2⟩
      · exact Or.inr ⟨h1.symm.trans k1, k2, e, by rw [k3, h2], k4⟩
    · rcases k.set with ⟨k1, k2⟩ | ⟨k1, _, _, _, _⟩
      · exact Or.inr ⟨h1, k1.trans h2, e, k2.trans h3, fun he => Nat.lt_of_lt_of_le (h4 he) k.mono⟩
      · rw [h2] at k1; cases k1
  · exact Nat.le_trans h.mono k.mono
  · intro hx
    by_cases hy : b.shaken < d.shaken
    · exact k.new hy
    · have hb := h.new (by have := k.mono; omega)
      rcases k.set with ⟨k1, _⟩ | ⟨_, k2, _⟩
      · exact k1.trans hb
      · exact k2
  · exact k.tr.trans h.tr

theorem wr_wake (s : St E) (e : Option Err) (he : e = none → 0 < s.shaken) : Wr s (wake s e) := by
  unfold wake
  split
  · next hw => exact ⟨Or.inr ⟨hw, rfl, e, rfl, he⟩, Nat.le_refl _, fun _ => rfl, rfl⟩
  · exact Wr.refl s

theorem wr_trClose (c : Cfg) (s : St E) : Wr s (trClose c s) := by
  unfold trClose; split <;> exact Wr.same rfl rfl rfl rfl

theorem wr_trForce (s : St E) : Wr s (trForce s) := by
  unfold trForce; split <;> exact Wr.same rfl rfl rfl rfl

theorem waiter_wake (s : St E) (e : Option Err) : (wake s e).waiter = false := by
  unfold wake
  split
  · rfl
  · next h => simpa using h

theorem wr_hsErr (c : Cfg) (s : St E) (e : Err) : Wr s (hsErr c s e) := by
  unfold hsErr
  have h0 : Wr s { s with inHs := false } := Wr.same rfl rfl rfl rfl
  exact (h0.trans (wr_trClose c _)).trans (wr_wake _ _ nofun)

theorem wr_finish (s : St E) (a : List Bytes) : Wr s (finish s a).1 := by
  unfold finish; split <;> exact Wr.same rfl rfl rfl rfl

theorem wr_feedWrapped (c : Cfg) (s : St E) : Wr s (feedWrapped c s).1 := by
  unfold feedWrapped
  split
  · next g acc _ =>
    have h0 : Wr s { s with eng := g, got := s.got ++ acc.flatten } := Wr.same rfl rfl rfl rfl
    exact h0.trans (wr_finish _ _)
  · next g acc e _ =>
    split
    · have h0 : Wr s { s with eng := g, got := s.got ++ acc.flatten, need := e == .wantRead } := Wr.same rfl rfl rfl rfl
      exact h0.trans (wr_finish _ _)
    · exact Wr.same rfl rfl rfl rfl
  · exact Wr.same rfl rfl rfl rfl

theorem wr_feedHandshake (c : Cfg) (s : St E) (o : Bool) : Wr s (feedHandshake c s o).1 := by
  unfold feedHandshake
  split
  · next g _ _ =>
    have h0 : Wr s (hsOk c { s with eng := g, ps := .wrapped, shaken := s.shaken + 1 }) := by
      unfold hsOk wake
      by_cases hw : s.waiter = true
      · simp only [hw, if_true]
        exact ⟨Or.inr ⟨hw, rfl, none, rfl, fun _ => Nat.succ_pos _⟩, Nat.le_succ _, fun _ => rfl, rfl⟩
      · have hw' : s.waiter = false := by simpa using hw
        simp only [hw', Bool.false_eq_true, if_false]
        exact ⟨Or.inl ⟨hw'.symm, rfl⟩, Nat.le_succ _, fun _ => rfl, rfl⟩
    split
    · exact h0
    · exact h0.trans (wr_feedWrapped c _)
  · next g e _ =>
    split
    · have h0 : Wr s { s with eng := g, need := e == .wantRead } := Wr.same rfl rfl rfl rfl
      exact h0.trans (wr_finish _ _)
    · have h0 : Wr s { s with eng := g } := Wr.same rfl rfl rfl rfl
      split
      · exact h0.trans (wr_hsErr c _ e)
      · exact h0

theorem wr_feedShutdown (c : Cfg) (s : St E) : Wr s (feedShutdown c s).1 := by
  unfold feedShutdown
  split
  · next g _ _ =>
    have h0 : Wr s { s with eng := g, ps := .unwrapped } := Wr.same rfl rfl rfl rfl
    refine Wr.trans ?_ (wr_finish _ _)
    by_cases ht : s.tr = true
    · rw [if_pos (by exact ht)]; exact h0.trans (wr_trClose c _)
    · rw [if_neg (by exact ht)]; exact h0
  · next g e _ =>
    split
    · have h0 : Wr s { s with eng := g, need := e == .wantRead } := Wr.same rfl rfl rfl rfl
      exact h0.trans (wr_finish _ _)
    · exact Wr.same rfl rfl rfl rfl

theorem wr_feedSsl (c : Cfg) (s : St E) (d : Bytes) (o : Bool) : Wr s (feedSsl c s d o).1 := by
  have h0 : Wr s (feedIn s d) := Wr.same rfl rfl rfl rfl
  cases hp : s.ps with
  | unwrapped => rw [feedSsl_unwrapped c s d o hp]; exact Wr.refl s
  | handshake => rw [feedSsl_handshake c s d o hp]; exact h0.trans (wr_feedHandshake c _ o)
  | wrapped => rw [feedSsl_wrapped c s d o hp]; exact h0.trans (wr_feedWrapped c _)
  | shutdown => rw [feedSsl_shutdown c s d o hp]; exact h0.trans (wr_feedShutdown c _)

theorem wr_doHandshake (c : Cfg) (s : St E) : Wr s (doHandshake c s).1 := by
  unfold doHandshake
  split
  · have h0 : Wr s { s with eng := E.wrap s.eng, ps := .handshake, calls := [] } := Wr.same rfl rfl rfl rfl
    have h1 := h0.trans (wr_feedSsl c { s with eng := E.wrap s.eng, ps := .handshake, calls := [] } [] true)
    split <;> (next hq => rw [hq] at h1; exact h1)
  · exact Wr.refl s

theorem wr_pipeShutdown (c : Cfg) (s : St E) : Wr s (pipeShutdown c s).1 := by
  unfold pipeShutdown
  split
  · exact Wr.refl s
  · have h0 : Wr s { s with ps := .shutdown } := Wr.same rfl rfl rfl rfl
    have h1 := h0.trans (wr_feedSsl c { s with ps := .shutdown } [] false)
    split <;> (next hq => rw [hq] at h1; exact h1)

theorem wr_entry (c : Cfg) (s : St E) (d : Bytes) (o : Nat) : Wr s (entry c s d o).1 := by
  cases d with
  | cons x xs =>
    have f := frameA_feedApp c s (x :: xs) o
    exact Wr.same f.waiter f.settled f.shaken f.tr
  | nil =>
    show Wr s (markRes _).1
    rw [markRes_fst]
    split
    · exact wr_doHandshake c s
    · exact wr_pipeShutdown c s

theorem wr_procLoop (c : Cfg) (n : Nat) : ∀ s : St E, Wr s (procLoop c n s).1 := by
  induction n with
  | zero => intro s; exact Wr.refl s
  | succ n ih =>
    intro s
    unfold procLoop
    split
    · exact Wr.refl s
    · next data off rest hb =>
      have hk := wr_entry c s data off
      split
      · next hq => rw [hq] at hk; exact hk
      · next hq => rw [hq] at hk; exact hk
      · next s1 ssl off1 hq =>
        rw [hq] at hk
        have f := frameW_trWrites ssl s1
        have h1 : ∀ b, Wr s { trWrites s1 ssl with backlog := b } := fun b =>
          hk.trans (Wr.same f.waiter f.settled f.shaken f.tr)
        by_cases hlt : off1 < data.length
        · simp only [hlt, if_true]
          split
          · exact h1 _
          · exact h1 _
        · simp only [hlt, if_false]
          exact (h1 rest).trans (ih _)

theorem wr_process (c : Cfg) (s : St E) : Wr s (process c s).1 := by
  unfold process
  split
  · have hk := wr_procLoop c s.backlog.length s
    unfold procEnd
    split
    · next hq => rw [hq] at hk; exact hk
    · next s1 hq =>
      rw [hq] at hk
      have h0 : Wr s1 { s1 with hung := true } := Wr.same rfl rfl rfl rfl
      exact hk.trans h0
    · next s1 e hq =>
      rw [hq] at hk
      split
      · exact hk.trans (wr_hsErr c s1 e)
      · have h0 : Wr s1 { s1 with fatal := true } := Wr.same rfl rfl rfl rfl
        show Wr s (if s1.tr = true then trForce { s1 with fatal := true } else { s1 with fatal := true })
        split
        · exact (hk.trans h0).trans (wr_trForce _)
        · exact hk.trans h0
  · exact Wr.refl s

theorem wr_writeApp (c : Cfg) (s : St E) (d : Bytes) : Wr s (writeApp c s d).1 := by
  have h0 : Wr s { s with backlog := s.backlog ++ [(d, 0)] } := Wr.same rfl rfl rfl rfl
  exact h0.trans (wr_process c _)

theorem wr_close (c : Cfg) (s : St E) : Wr s (close c s).1 := by
  unfold close
  split
  · exact Wr.refl s
  · have h0 : Wr s { s with closing := true } := Wr.same rfl rfl rfl rfl
    exact h0.trans (wr_writeApp c _ _)

theorem wr_abort (c : Cfg) (s : St E) : Wr s (abort c s) := by
  unfold abort
  split
  · have h0 : Wr s { s with aborted := true } := Wr.same rfl rfl rfl rfl
    exact (h0.trans (wr_trForce _)).trans (wr_trClose c _)
  · exact Wr.refl s

theorem wr_deliver (c : Cfg) (l : List Bytes) : ∀ s : St E, Wr s (deliver c s l).1 := by
  induction l with
  | nil => intro s; exact Wr.refl s
  | cons x xs ih =>
    intro s
    cases x with
    | nil => exact wr_close c s
    | cons b bs =>
      have h0 : Wr s { s with app := s.app ++ [.data (b :: bs)] } := Wr.same rfl rfl rfl rfl
      exact h0.trans (ih _)

theorem wr_dataReceived (c : Cfg) (s : St E) (d : Bytes) : Wr s (dataReceived c s d).1 := by
  have hk := wr_feedSsl c s d false
  unfold dataReceived
  split
  · next s1 ssl l hq =>
    rw [hq] at hk
    have f := frameW_trWrites ssl s1
    have h0 : Wr s1 (trWrites s1 ssl) := Wr.same f.waiter f.settled f.shaken f.tr
    exact (hk.trans h0).trans (wr_deliver c l _)
  · next s1 e hq =>
    rw [hq] at hk
    split
    · exact hk.trans (wr_abort c s1)
    · exact hk
  · next s1 hq =>
    rw [hq] at hk
    have h0 : Wr s1 { s1 with hung := true } := Wr.same rfl rfl rfl rfl
    exact hk.trans h0

theorem wr_eof (c : Cfg) (s : St E) : Wr s (eofReceived c s) := by
  unfold eofReceived
  refine ((wr_wake s (some .reset) nofun).trans ?_).trans (wr_trClose c _)
  show Wr _ (if (wake s (some .reset)).inHs = true then wake s (some .reset) else _)
  split
  · exact Wr.refl _
  · exact Wr.same rfl rfl rfl rfl

/-- The invariant of the waiter; `L` are the losses so far, `m` tells whether the connection was made. -/
structure WInv (L : List (Option Err)) (m : Bool) (s : St E) : Prop where
  open_ : s.waiter = true → s.settled = []
  once : s.waiter = false → s.settled.length = 1
  hs : 0 < s.shaken → s.waiter = false
  good : s.settled = [none] → 0 < s.shaken ∨ none ∈ L
  gone : m = true → s.tr = false → s.waiter = false

theorem WInv.wr {L : List (Option Err)} {m : Bool} {s s' : St E} (h : WInv L m s) (k : Wr s s') : WInv L m s' := by
  constructor
  · intro hw
    rcases k.set with ⟨k1, k2⟩ | ⟨_, k1, _⟩
    · rw [k2]; exact h.open_ (k1.symm.trans hw)
    · rw [k1] at hw; cases hw
  · intro hw
    rcases k.set with ⟨k1, k2⟩ | ⟨k0, _, e, k2, _⟩
    · rw [k2]; exact h.once (k1.symm.trans hw)
    · rw [k2, h.open_ k0]; rfl
  · intro hs
    by_cases hx : s.shaken < s'.shaken
    · exact k.new hx
    · have hw := h.hs (by have := k.mono; omega)
      rcases k.set with ⟨k1, _⟩ | ⟨_, k1, _⟩
      · exact k1.trans hw
      · exact k1
  · intro hset
    rcases k.set with ⟨_, k2⟩ | ⟨k0, _, e, k2, k3⟩
    · rcases h.good (k2.symm.trans hset) with hx | hx
      · exact Or.inl (Nat.lt_of_lt_of_le hx k.mono)
      · exact Or.inr hx
    · rw [h.open_ k0] at k2
      rw [k2] at hset
      cases hset
      exact Or.inl (k3 rfl)
  · intro hm ht
    have hw := h.gone hm (k.tr.symm.trans ht)
    rcases k.set with ⟨k1, _⟩ | ⟨_, k1, _⟩
    · exact k1.trans hw
    · exact k1

theorem WInv.lost {L : List (Option Err)} {m : Bool} {s : St E} (h : WInv L m s) (e : Option Err) :
    WInv (L ++ [e]) m (connectionLost s e) := by
  unfold connectionLost wake
  by_cases hw : s.waiter = true
  · have hs : ¬0 < s.shaken := fun hx => by rw [h.hs hx] at hw; cases hw
    have key : ∀ (x : St E), x.waiter = true → x.settled = s.settled → x.shaken = s.shaken →
        WInv (L ++ [e]) m (if x.waiter = true then { x with waiter := false, settled := x.settled ++ [e] } else x) := by
      intro x x1 x2 x3
      rw [if_pos x1]
      refine ⟨(fun hx => nomatch hx), fun _ => ?_, fun _ => rfl, fun hset => Or.inr ?_, fun _ _ => rfl⟩
      · show (x.settled ++ [e]).length = 1
        rw [x2, h.open_ hw]; rfl
      · have hset' : x.settled ++ [e] = [none] := hset
        rw [x2, h.open_ hw] at hset'
        cases hset'
        exact List.mem_append_right _ (List.mem_singleton.2 rfl)
    by_cases he : s.est = true
    · rw [if_pos he]; exact key _ hw rfl rfl
    · rw [if_neg he]; exact key _ hw rfl rfl
  · have hw' : s.waiter = false := by simpa using hw
    have key : ∀ (x : St E), x.waiter = false → x.settled = s.settled → x.shaken = s.shaken →
        WInv (L ++ [e]) m (if x.waiter = true then { x with waiter := false, settled := x.settled ++ [e] } else x) := by
      intro x x1 x2 x3
      rw [if_neg (by rw [x1]; nofun)]
      refine ⟨fun hx => absurd (x1.symm.trans hx) nofun, fun _ => (congrArg List.length x2).trans (h.once hw'), fun _ => x1,
        fun hset => ?_, fun _ _ => x1⟩
      rw [x2] at hset
      rw [x3]
      exact (h.good hset).imp id (List.mem_append_left _)
    by_cases he : s.est = true
    · rw [if_pos he]; exact key _ hw' rfl rfl
    · rw [if_neg he]; exact key _ hw' rfl rfl

theorem losses_cons (op : Op) (ops : List Op) : losses (op :: ops) = losses [op] ++ losses ops := by
  cases op <;> simp [losses]

theorem WInv.more {L : List (Option Err)} {m : Bool} {s : St E} (h : WInv L m s) (K : List (Option Err)) :
    WInv (L ++ K) m s :=
  ⟨h.open_, h.once, h.hs, fun hs => (h.good hs).imp id (List.mem_append_left _), h.gone⟩

theorem winv_step (c : Cfg) {L : List (Option Err)} {m : Bool} {s : St E} (h : WInv L m s) (hh : s.hung = false)
    (op : Op) : WInv (L ++ losses [op]) (m || op == Op.made) (step c s op).1 := by
  unfold step
  rw [if_neg (by rw [hh]; nofun)]
  cases op with
  | made =>
    refine WInv.more ?_ _
    refine ⟨h.open_, h.once, h.hs, h.good, fun _ ht => ?_⟩
    cases ht
  | tick =>
    rw [flag_keep m .tick nofun]
    refine WInv.more ?_ _
    show WInv L m (if s.sched = 0 then (s, Res.ok ()) else process c { s with sched := s.sched - 1 }).1
    split
    · exact h
    · have h0 : Wr s { s with sched := s.sched - 1 } := Wr.same rfl rfl rfl rfl
      exact h.wr (h0.trans (wr_process c _))
  | data b =>
    rw [flag_keep m (.data b) nofun]
    refine WInv.more ?_ _
    show WInv L m (if s.tr = true then dataReceived c s b else (s, Res.ok ())).1
    split
    · exact h.wr (wr_dataReceived c s b)
    · exact h
  | eof =>
    rw [flag_keep m .eof nofun]
    refine WInv.more ?_ _
    show WInv L m (if s.tr = true then (eofReceived c s, Res.ok ()) else (s, Res.ok ())).1
    split
    · exact h.wr (wr_eof c s)
    · exact h
  | lost e =>
    rw [flag_keep m (.lost e) nofun]
    show WInv (L ++ [e]) m (if s.tr = true then (connectionLost s e, Res.ok ()) else (s, Res.ok ())).1
    split
    · exact h.lost e
    · exact h.more _
  | write b =>
    rw [flag_keep m (.write b) nofun]
    refine WInv.more ?_ _
    cases b with
    | nil => exact h
    | cons x xs => exact h.wr (wr_writeApp c s (x :: xs))
  | close =>
    rw [flag_keep m .close nofun]
    exact WInv.more (h.wr (wr_close c s)) _
  | abort =>
    rw [flag_keep m .abort nofun]
    exact WInv.more (h.wr (wr_abort c s)) _

theorem winv_run (c : Cfg) (ops : List Op) : ∀ (L : List (Option Err)) (m : Bool) (s : St E), WInv L m s →
    ∃ m', WInv (L ++ losses ops) m' (run c s ops) ∧ (m = true → m' = true) ∧
      ((run c s ops).hung = false → Op.made ∈ ops → m' = true) := by
  induction ops with
  | nil => intro L m s h; exact ⟨m, h.more _, id, fun _ hx => nomatch hx⟩
  | cons op ops ih =>
    intro L m s h
    by_cases hh : s.hung = true
    · rw [hung_run c _ s hh]; exact ⟨m, h.more _, id, fun hx => by rw [hh] at hx; cases hx⟩
    · obtain ⟨m', h1, h2, h3⟩ := ih _ _ _ (winv_step c h (by simpa using hh) op)
      rw [losses_cons, ← List.append_assoc]
      refine ⟨m', h1, fun hm => h2 (by rw [hm]; rfl), fun hn hx => ?_⟩
      rcases List.mem_cons.1 hx with hx | hx
      · exact h2 (by rw [← hx]; simp)
      · exact h3 hn hx

theorem winv_init : WInv [] false (init E) :=
  ⟨fun _ => rfl, (fun hx => nomatch hx), (fun hx => nomatch hx), (fun hx => nomatch hx), (fun hx => nomatch hx)⟩

end Verif.Ssl
