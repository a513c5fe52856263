import Verif.Ssl.Spec

/-! The invariants along whole runs. -/

namespace Verif.Ssl

variable {E : Engine}

theorem flag_keep (m : Bool) (op : Op) (h : op ≠ Op.made) : (m || op == Op.made) = m := by
  have : (op == Op.made) = false := by simp [h]
  rw [this, Bool.or_false]

theorem tick_keep (m t : Bool) (op : Op) (h : op ≠ Op.tick) : (t || (m && op == Op.tick)) = t := by
  have : (op == Op.tick) = false := by simp [h]
  rw [this, Bool.and_false, Bool.or_false]

theorem conf_step (c : Cfg) {m : Bool} {s : St E} (h : Conf m s) (hh : s.hung = false) (op : Op)
    (hp : match op with | .write _ => m = true ∧ s.closing = false | .made => m = false | _ => True) :
    Conf (m || op == Op.made) (step c s op).1 := by
  have tr_m : s.tr = true → m = true := by
    intro ht
    cases m with
    | true => rfl
    | false => rw [(h.early rfl).1] at ht; cases ht
  unfold step
  rw [if_neg (by rw [hh]; nofun)]
  cases op with
  | made => cases hp; exact h.made
  | tick =>
    rw [flag_keep m (Op.tick) nofun]
    show Conf m (if s.sched = 0 then (s, Res.ok ()) else process c { s with sched := s.sched - 1 }).1
    split
    · exact h
    · exact Conf.process (s := { s with sched := s.sched - 1 }) (h.congr rfl rfl rfl rfl rfl) c
  | data b =>
    rw [flag_keep m (Op.data b) nofun]
    show Conf m (if s.tr = true then dataReceived c s b else (s, Res.ok ())).1
    split
    · next ht => cases tr_m ht; exact h.dataReceived c b
    · exact h
  | eof =>
    rw [flag_keep m (Op.eof) nofun]
    show Conf m (if s.tr = true then (eofReceived c s, Res.ok ()) else (s, Res.ok ())).1
    split
    · exact h.eof c
    · exact h
  | lost e =>
    rw [flag_keep m (Op.lost e) nofun]
    show Conf m (if s.tr = true then (connectionLost s e, Res.ok ()) else (s, Res.ok ())).1
    split
    · next ht => cases tr_m ht; exact h.lost e
    · exact h
  | write b =>
    rw [flag_keep m (Op.write b) nofun]
    cases b with
    | nil => exact h
    | cons x xs =>
      obtain ⟨h1, h2⟩ := hp
      cases h1
      rcases h.write c h2 (x :: xs) with hw | hw
      · exact hw
      · cases hw
  | close => rw [flag_keep m (Op.close) nofun]; exact h.close c
  | abort => rw [flag_keep m (Op.abort) nofun]; exact h.abort c

theorem conf_run (c : Cfg) (ops : List Op) : ∀ (m : Bool) (s : St E), Conf m s → Polite c m s ops →
    Records (run c s ops).wire := by
  induction ops with
  | nil => intro m s h _; exact h.plain
  | cons op ops ih =>
    intro m s h hp
    by_cases hh : s.hung = true
    · rw [hung_run c _ s hh]; exact h.plain
    · exact ih _ _ (conf_step c h (by simpa using hh) op hp.1) hp.2

theorem out_step (hE : FullWrites E) (c : Cfg) {w : Bytes} {s : St E} (h : OutInv w s) (hh : s.hung = false) (op : Op) :
    OutInv (w ++ written [op]) (step c s op).1 := by
  unfold step
  rw [if_neg (by rw [hh]; nofun)]
  have e0 : ∀ {s' : St E}, OutInv w s' → OutInv (w ++ []) s' := by intro s' h'; rw [List.append_nil]; exact h'
  cases op with
  | made => exact e0 h.made
  | tick =>
    refine e0 ?_
    show OutInv w (if s.sched = 0 then (s, Res.ok ()) else process c { s with sched := s.sched - 1 }).1
    split
    · exact h
    · exact OutInv.process hE (s := { s with sched := s.sched - 1 }) (h.congr rfl rfl rfl id) c
  | data b =>
    refine e0 ?_
    show OutInv w (if s.tr = true then dataReceived c s b else (s, Res.ok ())).1
    split
    · exact h.dataReceived hE c b
    · exact h
  | eof =>
    refine e0 ?_
    show OutInv w (if s.tr = true then (eofReceived c s, Res.ok ()) else (s, Res.ok ())).1
    split
    · exact h.eof c
    · exact h
  | lost e =>
    refine e0 ?_
    show OutInv w (if s.tr = true then (connectionLost s e, Res.ok ()) else (s, Res.ok ())).1
    split
    · exact h.lost e
    · exact h
  | write b =>
    show OutInv (w ++ (b ++ [])) _
    rw [List.append_nil]
    cases b with
    | nil => exact e0 h
    | cons x xs => exact OutInv.process hE (Outb.snoc h (x :: xs) 0 (fun _ => rfl)) c
  | close => exact e0 (h.close hE c)
  | abort => exact e0 (h.abort c)

theorem written_cons (op : Op) (ops : List Op) : written (op :: ops) = written [op] ++ written ops := by
  cases op <;> simp [written]

theorem out_run (hE : FullWrites E) (c : Cfg) (ops : List Op) : ∀ (w : Bytes) (s : St E), OutInv w s →
    (run c s ops).hung = false → OutInv (w ++ written ops) (run c s ops) := by
  induction ops with
  | nil => intro w s h _; show OutInv (w ++ []) s; rw [List.append_nil]; exact h
  | cons op ops ih =>
    intro w s h hn
    by_cases hh : s.hung = true
    · rw [hung_run c _ s hh, hh] at hn; cases hn
    · rw [written_cons, ← List.append_assoc]
      exact ih _ _ (out_step hE c h (by simpa using hh) op) hn

/-- Hanging or not, refused writes are repeated. -/
theorem retried_run (hE : FullWrites E) (c : Cfg) (ops : List Op) : ∀ (w : Bytes) (s : St E), OutInv w s →
    Retried (run c s ops).calls := by
  induction ops with
  | nil => intro w s h; exact h.1.retried
  | cons op ops ih =>
    intro w s h
    by_cases hh : s.hung = true
    · rw [hung_run c _ s hh]; exact h.1.retried
    · exact ih _ _ (out_step hE c h (by simpa using hh) op)

/-- The invariant for what comes in. -/
structure Inb (m t : Bool) (s : St E) : Prop where
  early : m = false → s.tr = false ∧ t = false
  live : m = true → s.tr = true → s.hung = true ∨ Up s ∨
    (Marked s.backlog ∧ s.inHs = true ∧ 1 ≤ s.sched ∧ t = false)
  pre : delivered s.app <+: s.got
  eq : s.aborted = false → s.hung = false → delivered s.app = s.got
  ab : s.aborted = true → s.trClosing = true

theorem Inb.keep {m t m' t' : Bool} {s s' : St E} (h : Inb m t s) (hh : s.hung = false) (k : Keep s s')
    (he : m' = false → s'.tr = false ∧ t' = false)
    (hl : m' = true → s'.tr = true → s'.hung = true ∨ Up s' ∨
      (Marked s'.backlog ∧ s'.inHs = true ∧ 1 ≤ s'.sched ∧ t' = false)) : Inb m' t' s' := by
  constructor
  · exact he
  · exact hl
  · rw [k.app, k.got]; exact h.pre
  · intro ha _; rw [k.app, k.got]; exact h.eq (k.aborted.symm.trans ha) hh
  · intro ha; exact k.closing (h.ab (k.aborted.symm.trans ha))

theorem up_close (c : Cfg) (s : St E) (ht : s.tr = true) (h : Up s ∨ (Marked s.backlog ∧ s.inHs = true)) :
    (close c s).1.hung = true ∨ Up (close c s).1 ∨ (s = (close c s).1) := by
  unfold close
  split
  · exact Or.inr (Or.inr rfl)
  · have hu := up_process c { s with closing := true, backlog := s.backlog ++ [([], 0)] } ht (by
      rcases h with h | ⟨⟨k, hk⟩, hi⟩
      · exact Or.inl h
      · exact Or.inr ⟨⟨k, List.mem_append_left _ hk⟩, hi⟩)
    rcases hu with hu | hu
    · exact Or.inl hu
    · exact Or.inr (Or.inl hu)

theorem tr_close (c : Cfg) (s : St E) : (close c s).1.tr = s.tr := by
  unfold close
  split
  · rfl
  · exact tr_process c _

theorem up_deliver (c : Cfg) (l : List Bytes) : ∀ s : St E, s.tr = true → Up s →
    (deliver c s l).1.hung = true ∨ Up (deliver c s l).1 := by
  induction l with
  | nil => intro s _ h; exact Or.inr h
  | cons x xs ih =>
    intro s ht h
    cases x with
    | nil =>
      rcases up_close c s ht (Or.inl h) with hu | hu | hu
      · exact Or.inl hu
      · exact Or.inr hu
      · right; show Up (close c s).1; rw [← hu]; exact h
    | cons b bs => exact ih { s with app := s.app ++ [.data (b :: bs)] } ht h

theorem tr_deliver (c : Cfg) (l : List Bytes) : ∀ s : St E, (deliver c s l).1.tr = s.tr := by
  induction l with
  | nil => intro s; rfl
  | cons x xs ih =>
    intro s
    cases x with
    | nil => exact tr_close c s
    | cons b bs => exact ih { s with app := s.app ++ [.data (b :: bs)] }

theorem trClosing_abort (c : Cfg) (s : St E) (ht : s.tr = true) :
    (abort c s).trClosing = true ∧ (abort c s).aborted = true := by
  unfold abort
  rw [if_pos ht]
  refine ⟨trClosing_trClose _ _, ?_⟩
  rw [(frame_trClose c _).aborted, (frame_trForce _).aborted]

theorem abort_keeps (c : Cfg) (s : St E) :
    (abort c s).got = s.got ∧ (abort c s).app = s.app ∧ (abort c s).tr = s.tr ∧ (abort c s).hung = s.hung := by
  unfold abort
  split
  · have k1 := keep_trForce { s with aborted := true }
    have k2 := keep_trClose c (trForce { s with aborted := true })
    have a1 := calls_trForce { s with aborted := true }
    have a2 := calls_trClose c (trForce { s with aborted := true })
    have f1 := frame_trForce { s with aborted := true }
    have f2 := frame_trClose c (trForce { s with aborted := true })
    exact ⟨k2.got.trans k1.got, a2.app.trans a1.app, f2.tr.trans f1.tr, f2.hung.trans f1.hung⟩
  · exact ⟨rfl, rfl, rfl, rfl⟩

/-- Ssl data for a layer that is up. -/
theorem inb_data (hE : SslReads E) (c : Cfg) {t : Bool} {s : St E} (h : Inb true t s) (hh : s.hung = false)
    (ht : s.tr = true) (hu : s.ps ≠ .unwrapped) (hc : s.trClosing = false) (b : Bytes) :
    Inb true t (dataReceived c s b).1 := by
  have hab : s.aborted = false := by
    cases ha : s.aborted with
    | false => rfl
    | true => rw [h.ab ha] at hc; cases hc
  have heq := h.eq hab hh
  have f := frame_feedSsl c s b false
  have up := up_feedSsl c s b false ht (Or.inl hu)
  have r := reads_feedSsl c s b hu
  have hpre : delivered (feedSsl c s b false).1.app <+: (feedSsl c s b false).1.got := by
    obtain ⟨a, ha, _⟩ := r.got
    rw [r.app, heq, ha]; exact List.prefix_append _ _
  unfold dataReceived
  split
  · next s1 ssl l hq =>
    rw [hq] at f up r
    obtain ⟨a, ha, hl⟩ := r.got
    obtain ⟨hal, hcl⟩ := hl ssl l rfl
    have fw := frameW_trWrites ssl s1
    obtain ⟨d1, d2, d3⟩ := deliver_keep c l (trWrites s1 ssl) hcl
    have happ : delivered (deliver c (trWrites s1 ssl) l).1.app = (deliver c (trWrites s1 ssl) l).1.got := by
      rw [d1, d2, fw.app, fw.got, r.app, heq, ha, hal]
    constructor
    · intro hx; cases hx
    · intro _ _
      rcases up_deliver c l (trWrites s1 ssl) (fw.tr.trans (f.tr.trans ht)) (up_congr fw.ps fw.trClosing up) with hx | hx
      · exact Or.inl hx
      · exact Or.inr (Or.inl hx)
    · rw [happ]; exact List.prefix_refl _
    · intro _ _; exact happ
    · intro ha'
      rw [d3, fw.aborted, f.aborted, hab] at ha'; cases ha'
  · next s1 e hq =>
    rw [hq] at f up r hpre
    split
    · obtain ⟨a1, a2, a3, a4⟩ := abort_keeps c s1
      obtain ⟨a5, a6⟩ := trClosing_abort c s1 (f.tr.trans ht)
      constructor
      · intro hx; cases hx
      · intro _ _; exact Or.inr (Or.inl (Or.inr a5))
      · show delivered (abort c s1).app <+: (abort c s1).got
        rw [a1, a2]; exact hpre
      · intro hx; exact absurd (a6.symm.trans hx) nofun
      · intro _; exact a5
    · next hne =>
      have hg : s1.got = s.got := by
        rcases r.rais hE e rfl with hx | hx
        · exact absurd hx hne
        · exact hx
      constructor
      · intro hx; cases hx
      · intro _ _; exact Or.inr (Or.inl up)
      · exact hpre
      · intro _ _; exact r.app.trans (heq.trans hg.symm)
      · intro hx; rw [f.aborted, hab] at hx; cases hx
  · next s1 hq =>
    rw [hq] at f up r hpre
    constructor
    · intro hx; cases hx
    · intro _ _; exact Or.inl rfl
    · exact hpre
    · intro _ hx; cases hx
    · intro hx; rw [show ({ s1 with hung := true } : St E).aborted = s.aborted from f.aborted, hab] at hx; cases hx

theorem keep_eof (c : Cfg) (s : St E) : Keep s (eofReceived c s) ∧ (eofReceived c s).trClosing = true ∧
    (eofReceived c s).tr = s.tr := by
  have k1 := keep_wake s (some .reset)
  have f1 := frame_wake s (some .reset)
  unfold eofReceived
  refine ⟨k1.trans (Keep.trans ?_ (keep_trClose c _)), trClosing_trClose _ _, ?_⟩
  · show Keep _ (if (wake s (some .reset)).inHs = true then _ else _)
    split
    · exact Keep.refl _
    · refine ⟨rfl, ?_, rfl, id⟩
      rw [delivered_append]; exact List.append_nil _
  · rw [(frame_trClose c _).tr]
    show (if (wake s (some .reset)).inHs = true then wake s (some .reset) else _ : St E).tr = _
    split
    · exact f1.tr
    · exact f1.tr

theorem keep_lost (s : St E) (e : Option Err) : Keep s (connectionLost s e) ∧ (connectionLost s e).tr = false := by
  unfold connectionLost
  refine ⟨Keep.trans ?_ (keep_wake _ e), ?_⟩
  · by_cases he : s.est = true
    · simp only [he, if_true]
      refine ⟨rfl, ?_, rfl, id⟩
      rw [delivered_append]; exact List.append_nil _
    · simp only [he]
      exact ⟨rfl, rfl, rfl, id⟩
  · rw [(frame_wake _ e).tr]

theorem inb_step (hE : SslReads E) (c : Cfg) {m t : Bool} {s : St E} (h : Inb m t s) (hh : s.hung = false) (op : Op)
    (hp : match op with
      | .made => m = false
      | .data _ => t = true ∧ s.trClosing = false
      | .eof => t = true ∧ s.trClosing = false
      | _ => True) :
    Inb (m || op == Op.made) (t || (m && op == Op.tick)) (step c s op).1 := by
  have hlive : m = true → s.tr = true → Up s ∨ (Marked s.backlog ∧ s.inHs = true) := by
    intro hm ht
    rcases h.live hm ht with hx | hx | ⟨a, b, _⟩
    · rw [hh] at hx; cases hx
    · exact Or.inl hx
    · exact Or.inr ⟨a, b⟩
  unfold step
  rw [if_neg (by rw [hh]; nofun)]
  cases op with
  | made =>
    cases hp
    rw [tick_keep false t (Op.made) nofun, (h.early rfl).2]
    refine h.keep hh ⟨rfl, rfl, rfl, id⟩ (fun hx => nomatch hx) fun _ _ => Or.inr (Or.inr ?_)
    exact ⟨⟨0, List.mem_append_right _ (List.mem_singleton.2 rfl)⟩, rfl, Nat.succ_le_succ (Nat.zero_le _), rfl⟩
  | tick =>
    rw [flag_keep m (Op.tick) nofun]
    show Inb m (t || (m && true)) (if s.sched = 0 then (s, Res.ok ()) else process c { s with sched := s.sched - 1 }).1
    cases m with
    | false =>
      have hx := h.early rfl
      rw [hx.2]
      split
      · exact h.keep hh (Keep.refl _) (fun _ => ⟨hx.1, rfl⟩) (fun hx => nomatch hx)
      · have hpr : process c { s with sched := s.sched - 1 } = ({ s with sched := s.sched - 1 }, .ok ()) := by
          unfold process
          rw [if_neg (by show ¬(s.tr = true); rw [hx.1]; nofun)]
        rw [hpr]
        exact h.keep hh ⟨rfl, rfl, rfl, id⟩ (fun _ => ⟨hx.1, rfl⟩) (fun hx => nomatch hx)
    | true =>
      split
      · next hs =>
        refine h.keep hh (Keep.refl _) (fun hx => nomatch hx) fun _ ht => ?_
        rcases h.live rfl ht with hx | hx | ⟨_, _, hx, _⟩
        · exact Or.inl hx
        · exact Or.inr (Or.inl hx)
        · show s.hung = true ∨ _; rw [hs] at hx; cases hx
      · have k := keep_process c { s with sched := s.sched - 1 }
        refine h.keep hh ⟨k.1, k.2, k.3, k.4⟩ (fun hx => nomatch hx) fun _ ht => ?_
        have ht' : s.tr = true := (tr_process c { s with sched := s.sched - 1 }).symm.trans ht
        rcases up_process c { s with sched := s.sched - 1 } ht' (hlive rfl ht') with hx | hx
        · exact Or.inl hx
        · exact Or.inr (Or.inl hx)
  | data b =>
    rw [flag_keep m (Op.data b) nofun, tick_keep m t (Op.data b) nofun]
    show Inb m t (if s.tr = true then dataReceived c s b else (s, Res.ok ())).1
    split
    · next ht =>
      have hm : m = true := by
        cases m with
        | true => rfl
        | false => rw [(h.early rfl).1] at ht; cases ht
      subst hm
      have hu : s.ps ≠ .unwrapped := by
        rcases h.live rfl ht with hx | (hx | hx) | ⟨_, _, _, hx⟩
        · rw [hh] at hx; cases hx
        · exact hx
        · rw [hp.2] at hx; cases hx
        · rw [hp.1] at hx; cases hx
      exact inb_data hE c h hh ht hu hp.2 b
    · exact h
  | eof =>
    rw [flag_keep m (Op.eof) nofun, tick_keep m t (Op.eof) nofun]
    show Inb m t (if s.tr = true then (eofReceived c s, Res.ok ()) else (s, Res.ok ())).1
    split
    · next ht =>
      obtain ⟨k1, k2, k3⟩ := keep_eof c s
      exact h.keep hh k1 (fun hm => ⟨k3.trans (h.early hm).1, (h.early hm).2⟩) fun _ _ => Or.inr (Or.inl (Or.inr k2))
    · exact h
  | lost e =>
    rw [flag_keep m (Op.lost e) nofun, tick_keep m t (Op.lost e) nofun]
    show Inb m t (if s.tr = true then (connectionLost s e, Res.ok ()) else (s, Res.ok ())).1
    split
    · obtain ⟨k1, k2⟩ := keep_lost s e
      exact h.keep hh k1 (fun hm => ⟨k2, (h.early hm).2⟩) fun _ ht => absurd (k2.symm.trans ht) nofun
    · exact h
  | write b =>
    rw [flag_keep m (Op.write b) nofun, tick_keep m t (Op.write b) nofun]
    cases b with
    | nil => exact h
    | cons x xs =>
      show Inb m t (process c { s with backlog := s.backlog ++ [(x :: xs, 0)] }).1
      have k := keep_process c { s with backlog := s.backlog ++ [(x :: xs, 0)] }
      have htr := tr_process c { s with backlog := s.backlog ++ [(x :: xs, 0)] }
      refine h.keep hh ⟨k.1, k.2, k.3, k.4⟩ (fun hm => ⟨htr.trans (h.early hm).1, (h.early hm).2⟩) fun hm ht => ?_
      have ht' : s.tr = true := htr.symm.trans ht
      rcases up_process c { s with backlog := s.backlog ++ [(x :: xs, 0)] } ht' (by
        rcases hlive hm ht' with hx | ⟨⟨k0, hk⟩, hi⟩
        · exact Or.inl hx
        · exact Or.inr ⟨⟨k0, List.mem_append_left _ hk⟩, hi⟩) with hx | hx
      · exact Or.inl hx
      · exact Or.inr (Or.inl hx)
  | close =>
    rw [flag_keep m (Op.close) nofun, tick_keep m t (Op.close) nofun]
    show Inb m t (close c s).1
    have htr := tr_close c s
    refine h.keep hh (keep_close c s) (fun hm => ⟨htr.trans (h.early hm).1, (h.early hm).2⟩) fun hm ht => ?_
    have ht' : s.tr = true := htr.symm.trans ht
    rcases up_close c s ht' (hlive hm ht') with hx | hx | hx
    · exact Or.inl hx
    · exact Or.inr (Or.inl hx)
    · rw [← hx]; exact h.live hm ht'
  | abort =>
    rw [flag_keep m (Op.abort) nofun, tick_keep m t (Op.abort) nofun]
    show Inb m t (abort c s)
    obtain ⟨a1, a2, a3, a4⟩ := abort_keeps c s
    by_cases ht : s.tr = true
    · obtain ⟨a5, a6⟩ := trClosing_abort c s ht
      constructor
      · intro hm; exact ⟨a3.trans (h.early hm).1, (h.early hm).2⟩
      · intro _ _; exact Or.inr (Or.inl (Or.inr a5))
      · rw [a1, a2]; exact h.pre
      · intro hx; exact absurd (a6.symm.trans hx) nofun
      · intro _; exact a5
    · have : abort c s = s := by unfold abort; rw [if_neg ht]
      rw [this]; exact h

theorem inb_run (hE : SslReads E) (c : Cfg) (ops : List Op) : ∀ (m t : Bool) (s : St E), Inb m t s →
    Calm c m t s ops → ∃ m' t', Inb m' t' (run c s ops) := by
  induction ops with
  | nil => intro m t s h _; exact ⟨m, t, h⟩
  | cons op ops ih =>
    intro m t s h hp
    by_cases hh : s.hung = true
    · rw [hung_run c _ s hh]; exact ⟨m, t, h⟩
    · exact ih _ _ _ (inb_step hE c h (by simpa using hh) op hp.1) hp.2

theorem inb_init : Inb false false (init E) :=
  ⟨fun _ => ⟨rfl, rfl⟩, (fun hx => nomatch hx), List.prefix_refl _, fun _ _ => rfl, (fun hx => nomatch hx)⟩

/-- The invariant for what the protocol is told. -/
structure Told (m t : Bool) (s : St E) : Prop where
  inb : Inb m t s
  life : Life s
  norest : s.hung = true ∨ NoRest s
  first : m = false → s.ps = .unwrapped ∧ Fresh s ∧ ¬Marked s.backlog
  gone : m = true → s.tr = false → Ended s.app

theorem app_process_off (c : Cfg) (s : St E) (ht : s.tr = false) : process c s = (s, .ok ()) := by
  unfold process; rw [if_neg (by rw [ht]; nofun)]

theorem life_lost {s : St E} (h : Life s) (ht : s.tr = true) (e : Option Err) :
    Life (connectionLost s e) ∧ Ended (connectionLost s e).app := by
  have key : Life { (if s.est = true then { s with est := false, app := s.app ++ [App.lost] } else s : St E)
      with tr := false } ∧
      Ended ({ (if s.est = true then { s with est := false, app := s.app ++ [App.lost] } else s : St E)
      with tr := false }).app := by
    by_cases he : s.est = true
    · rw [if_pos he]
      obtain ⟨mid, hmid, ha⟩ := h.op he
      have nf : ¬Fresh s := fun hf => by rw [hf.2] at he; cases he
      have happ : s.app ++ [App.lost] = .made :: (mid ++ [.lost]) := by rw [ha]; rfl
      refine ⟨?_, Or.inr ⟨mid, hmid, happ⟩⟩
      constructor
      · exact h.one
      · intro hq; exact absurd (h.fh hq) nf
      · intro hq; exact absurd (h.fm hq) nf
      · intro hx; cases hx
      · intro hx; cases hx
      · intro hx; cases hx
      · exact Or.inr ⟨mid, hmid, Or.inr happ⟩
      · intro hx; cases hx
      · exact h.mi
    · rw [if_neg he]
      have hfr : Fresh s := (h.un ht).resolve_left he
      refine ⟨?_, Or.inl hfr.1⟩
      exact ⟨h.one, h.fh, h.fm, (fun hx => nomatch hx), (fun hx => nomatch hx), h.op, h.wf, (fun hx => nomatch hx), h.mi⟩
  have k := calls_wake { (if s.est = true then { s with est := false, app := s.app ++ [App.lost] } else s : St E)
      with tr := false } e
  have f := frame_wake { (if s.est = true then { s with est := false, app := s.app ++ [App.lost] } else s : St E)
      with tr := false } e
  refine ⟨key.1.closes f k (ps_wake _ _), ?_⟩
  rw [show (connectionLost s e).app = _ from k.app]; exact key.2

theorem told_step (hE : SslReads E) (c : Cfg) (hc : c.callMade = true) {m t : Bool} {s : St E} (h : Told m t s)
    (hh : s.hung = false) (op : Op)
    (hp : match op with
      | .made => m = false
      | .data _ => t = true ∧ s.trClosing = false
      | .eof => t = true ∧ s.trClosing = false
      | _ => True) :
    Told (m || op == Op.made) (t || (m && op == Op.tick)) (step c s op).1 := by
  have hinb := inb_step hE c h.inb hh op hp
  have hnr : NoRest s := h.norest.resolve_left (by rw [hh]; nofun)
  unfold step at hinb ⊢
  rw [if_neg (by rw [hh]; nofun)] at hinb ⊢
  -- operations that keep everything but the backlog when there is no transport
  have off : ∀ b, (Marked b → Marked s.backlog) → m = false →
      s.ps = .unwrapped ∧ Fresh s ∧ ¬Marked b := by
    intro b hb hm
    obtain ⟨a1, a2, a3⟩ := h.first hm
    exact ⟨a1, a2, fun hx => a3 (hb hx)⟩
  cases op with
  | made =>
    cases hp
    obtain ⟨a1, a2, a3⟩ := h.first rfl
    refine ⟨hinb, ?_, Or.inr ?_, (fun hx => nomatch hx), fun _ hx => absurd hx nofun⟩
    · constructor
      · exact one_snoc_mark _ a3
      · intro hx; cases hx
      · intro _; exact a2
      · intro _; exact Or.inr a2
      · intro _ hx; cases hx
      · exact h.life.op
      · exact h.life.wf
      · intro _; exact Or.inl rfl
      · intro _; exact Or.inl rfl
    · intro hx; exact absurd rfl hx
  | tick =>
    rw [flag_keep m (Op.tick) nofun] at hinb ⊢
    have hst : stepLive c s Op.tick = if s.sched = 0 then (s, Res.ok ()) else process c { s with sched := s.sched - 1 } := rfl
    rw [hst] at hinb ⊢
    by_cases hs : s.sched = 0
    · rw [if_pos hs] at hinb ⊢
      exact ⟨hinb, h.life, h.norest, h.first, h.gone⟩
    · rw [if_neg hs] at hinb ⊢
      have h1 : Life { s with sched := s.sched - 1 } :=
        h.life.mono h.life.one id rfl ⟨rfl, rfl, rfl, id⟩ (Or.inl rfl)
      have hl := life_process c hc h1 hnr
      refine ⟨hinb, hl.1, hl.2, fun hm => ?_, fun hm ht => ?_⟩
      · rw [app_process_off c { s with sched := s.sched - 1 } (h.inb.early hm).1]; exact h.first hm
      · have ht' : s.tr = false := (tr_process c { s with sched := s.sched - 1 }).symm.trans ht
        rw [app_process_off c { s with sched := s.sched - 1 } ht']; exact h.gone hm ht'
  | data b =>
    rw [flag_keep m (Op.data b) nofun, tick_keep m t (Op.data b) nofun] at hinb ⊢
    have hst : stepLive c s (Op.data b) = if s.tr = true then dataReceived c s b else (s, Res.ok ()) := rfl
    rw [hst] at hinb ⊢
    by_cases ht : s.tr = true
    · rw [if_pos ht] at hinb ⊢
      have hm : m = true := by
        cases m with
        | true => rfl
        | false => rw [(h.inb.early rfl).1] at ht; cases ht
      subst hm
      have hu : s.ps ≠ .unwrapped := by
        rcases h.inb.live rfl ht with hx | (hx | hx) | ⟨_, _, _, hx⟩
        · rw [hh] at hx; cases hx
        · exact hx
        · rw [hp.2] at hx; cases hx
        · rw [hp.1] at hx; cases hx
      have hmk : ¬Marked s.backlog := fun hx => by
        rw [hnr hu hx] at hp; cases hp.2
      obtain ⟨l1, l2, l3⟩ := life_feedSsl c hc h.life ht hu hmk b
      have htr := (frame_feedSsl c s b false).tr
      have key : Life (dataReceived c s b).1 ∧ ((dataReceived c s b).1.hung = true ∨ NoRest (dataReceived c s b).1) ∧
          (dataReceived c s b).1.tr = true := by
        unfold dataReceived
        split
        · next s1 ssl l hq =>
          rw [hq] at l1 l2 l3 htr
          have fw := frameW_trWrites ssl s1
          have l1' : Life (trWrites s1 ssl) := l1.mono (by rw [fw.backlog]; exact l1.one) (by rw [fw.backlog]; exact id)
            fw.tr ⟨fw.app, fw.est, fw.inHs, fun hx => fw.trClosing.trans hx⟩ (Or.inl fw.ps)
          have l2' : NoRest (trWrites s1 ssl) := by
            intro hx hy
            rw [fw.ps] at hx; rw [fw.backlog] at hy
            exact fw.trClosing.trans (l2 hx hy)
          have hd := life_deliver c hc l l1' l2' (fun hl => fw.est.trans (l3 ssl l rfl hl))
          exact ⟨hd.1, hd.2, (tr_deliver c l _).trans (fw.tr.trans (htr.trans ht))⟩
        · next s1 e hq =>
          rw [hq] at l1 l2 htr
          split
          · have ht1 : s1.tr = true := htr.trans ht
            have a5 := (trClosing_abort c s1 ht1).1
            refine ⟨?_, Or.inr fun _ _ => a5, (abort_keeps c s1).2.2.1.trans ht1⟩
            show Life (abort c s1)
            unfold abort
            rw [if_pos ht1]
            have g1 : Life { s1 with aborted := true } := l1.mono l1.one id rfl ⟨rfl, rfl, rfl, id⟩ (Or.inl rfl)
            exact (g1.closes (frame_trForce _) (calls_trForce _) (ps_trForce _)).closes (frame_trClose c _)
              (calls_trClose c _) (ps_trClose c _)
          · exact ⟨l1, Or.inr l2, htr.trans ht⟩
        · next s1 hq =>
          rw [hq] at l1 l2 htr
          exact ⟨l1.mono l1.one id rfl ⟨rfl, rfl, rfl, id⟩ (Or.inl rfl), Or.inl rfl, htr.trans ht⟩
      exact ⟨hinb, key.1, key.2.1, (fun hx => nomatch hx), fun _ hx => absurd (key.2.2.symm.trans hx) nofun⟩
    · rw [if_neg ht] at hinb ⊢
      exact ⟨hinb, h.life, h.norest, h.first, h.gone⟩
  | eof =>
    rw [flag_keep m (Op.eof) nofun, tick_keep m t (Op.eof) nofun] at hinb ⊢
    have hst : stepLive c s Op.eof = if s.tr = true then (eofReceived c s, Res.ok ()) else (s, Res.ok ()) := rfl
    rw [hst] at hinb ⊢
    by_cases ht : s.tr = true
    · rw [if_pos ht] at hinb ⊢
      have hm : m = true := by
        cases m with
        | true => rfl
        | false => rw [(h.inb.early rfl).1] at ht; cases ht
      subst hm
      obtain ⟨_, k2, k3⟩ := keep_eof c s
      refine ⟨hinb, ?_, Or.inr fun _ _ => k2, (fun hx => nomatch hx), fun _ hx => absurd (k3.symm.trans (hx : (eofReceived c s).tr = false)) (by rw [ht]; nofun)⟩
      have f1 := frame_wake s (some .reset)
      have k1 := calls_wake s (some .reset)
      have g1 : Life (wake s (some .reset)) := h.life.closes f1 k1 (ps_wake _ _)
      show Life (trClose c (if (wake s (some .reset)).inHs = true then wake s (some .reset) else _))
      refine Life.closes ?_ (frame_trClose c _) (calls_trClose c _) (ps_trClose c _)
      split
      · exact g1
      · next hi =>
        refine life_eof _ g1 ?_
        rcases h.life.ih ht with hx | hx | hx
        · exact absurd (k1.inHs.trans hx) hi
        · exact k1.est.trans hx
        · rw [hp.2] at hx; cases hx
    · rw [if_neg ht] at hinb ⊢
      exact ⟨hinb, h.life, h.norest, h.first, h.gone⟩
  | lost e =>
    rw [flag_keep m (Op.lost e) nofun, tick_keep m t (Op.lost e) nofun] at hinb ⊢
    have hst : stepLive c s (Op.lost e) = if s.tr = true then (connectionLost s e, Res.ok ()) else (s, Res.ok ()) := rfl
    rw [hst] at hinb ⊢
    by_cases ht : s.tr = true
    · rw [if_pos ht] at hinb ⊢
      have hm : m = true := by
        cases m with
        | true => rfl
        | false => rw [(h.inb.early rfl).1] at ht; cases ht
      subst hm
      obtain ⟨l1, l2⟩ := life_lost h.life ht e
      refine ⟨hinb, l1, Or.inr ?_, (fun hx => nomatch hx), fun _ _ => l2⟩
      intro hx hy
      have hps : (connectionLost s e).ps = s.ps := by
        unfold connectionLost; rw [ps_wake]; split <;> rfl
      have hbl : (connectionLost s e).backlog = s.backlog := by
        unfold connectionLost; rw [(frame_wake _ e).backlog]; split <;> rfl
      have hx' : s.ps ≠ .unwrapped := fun hz => hx (hps.trans hz)
      have hy' : Marked s.backlog := by
        rw [← hbl]; exact hy
      exact (keep_lost s e).1.closing (hnr hx' hy')
    · rw [if_neg ht] at hinb ⊢
      exact ⟨hinb, h.life, h.norest, h.first, h.gone⟩
  | write b =>
    rw [flag_keep m (Op.write b) nofun, tick_keep m t (Op.write b) nofun] at hinb ⊢
    cases b with
    | nil => exact ⟨hinb, h.life, h.norest, h.first, h.gone⟩
    | cons x xs =>
      have hl := life_writeApp c hc h.life hnr (x :: xs)
      refine ⟨hinb, hl.1, hl.2, fun hm => ?_, fun hm ht => ?_⟩
      · show (process c { s with backlog := s.backlog ++ [(x :: xs, 0)] }).1.ps = _ ∧
          Fresh (process c { s with backlog := s.backlog ++ [(x :: xs, 0)] }).1 ∧
          ¬Marked (process c { s with backlog := s.backlog ++ [(x :: xs, 0)] }).1.backlog
        rw [app_process_off c { s with backlog := s.backlog ++ [(x :: xs, 0)] } (h.inb.early hm).1]
        exact off _ (marked_snoc (Or.inr rfl)) hm
      · have ht' : s.tr = false := (tr_process c { s with backlog := s.backlog ++ [(x :: xs, 0)] }).symm.trans ht
        show Ended (process c { s with backlog := s.backlog ++ [(x :: xs, 0)] }).1.app
        rw [app_process_off c { s with backlog := s.backlog ++ [(x :: xs, 0)] } ht']; exact h.gone hm ht'
  | close =>
    rw [flag_keep m (Op.close) nofun, tick_keep m t (Op.close) nofun] at hinb ⊢
    have hl := life_close c hc h.life hnr
    refine ⟨hinb, hl.1, hl.2, fun hm => ?_, fun hm ht => ?_⟩
    · show (close c s).1.ps = _ ∧ Fresh (close c s).1 ∧ ¬Marked (close c s).1.backlog
      unfold close
      split
      · exact h.first hm
      · unfold writeApp
        rw [app_process_off c { s with closing := true, backlog := s.backlog ++ [([], 0)] } (h.inb.early hm).1]
        exact off _ (marked_snoc (Or.inr rfl)) hm
    · have ht' : s.tr = false := (tr_close c s).symm.trans ht
      show Ended (close c s).1.app
      unfold close
      split
      · exact h.gone hm ht'
      · unfold writeApp
        rw [app_process_off c { s with closing := true, backlog := s.backlog ++ [([], 0)] } ht']; exact h.gone hm ht'
  | abort =>
    rw [flag_keep m (Op.abort) nofun, tick_keep m t (Op.abort) nofun] at hinb ⊢
    show Told m t (abort c s)
    by_cases ht : s.tr = true
    · have a5 := (trClosing_abort c s ht).1
      have a3 := (abort_keeps c s).2.2.1
      have hm : m = true := by
        cases m with
        | true => rfl
        | false => rw [(h.inb.early rfl).1] at ht; cases ht
      subst hm
      refine ⟨hinb, ?_, Or.inr fun _ _ => a5, (fun hx => nomatch hx), fun _ hx => absurd (a3.symm.trans hx) (by rw [ht]; nofun)⟩
      unfold abort
      rw [if_pos ht]
      have g1 : Life { s with aborted := true } := h.life.mono h.life.one id rfl ⟨rfl, rfl, rfl, id⟩ (Or.inl rfl)
      exact (g1.closes (frame_trForce _) (calls_trForce _) (ps_trForce _)).closes (frame_trClose c _)
        (calls_trClose c _) (ps_trClose c _)
    · have : abort c s = s := by unfold abort; rw [if_neg ht]
      rw [this]; exact h

theorem told_run (hE : SslReads E) (c : Cfg) (hc : c.callMade = true) (ops : List Op) : ∀ (m t : Bool) (s : St E),
    Told m t s → Calm c m t s ops → ∃ m' t', Told m' t' (run c s ops) ∧ (m = true → m' = true) ∧
      ((run c s ops).hung = false → Op.made ∈ ops → m' = true) := by
  induction ops with
  | nil => intro m t s h _; exact ⟨m, t, h, id, fun _ hx => nomatch hx⟩
  | cons op ops ih =>
    intro m t s h hp
    by_cases hh : s.hung = true
    · rw [hung_run c _ s hh]; exact ⟨m, t, h, id, fun hx => by rw [hh] at hx; cases hx⟩
    · obtain ⟨m', t', h1, h2, h3⟩ := ih _ _ _ (told_step hE c hc h (by simpa using hh) op hp.1) hp.2
      refine ⟨m', t', h1, fun hm => h2 (by rw [hm]; rfl), fun hn hx => ?_⟩
      rcases List.mem_cons.1 hx with hx | hx
      · exact h2 (by rw [← hx]; simp)
      · exact h3 hn hx

theorem told_init : Told false false (init E) := by
  refine ⟨inb_init, ?_, Or.inr (fun hx => absurd rfl hx), fun _ => ⟨rfl, ⟨rfl, rfl⟩, (fun ⟨_, hx⟩ => nomatch hx)⟩,
    (fun hx => nomatch hx)⟩
  exact ⟨trivial, (fun hx => nomatch hx), (fun ⟨_, hx⟩ => nomatch hx), (fun hx => nomatch hx), (fun hx => nomatch hx),
    (fun hx => nomatch hx), Or.inl rfl, (fun hx => nomatch hx), (fun ⟨_, hx⟩ => nomatch hx)⟩

end Verif.Ssl
