import Verif.Ssl.In

/-! What the protocol is told, in which order: the invariant. -/

namespace Verif.Ssl

variable {E : Engine}

/-- Data and eof. -/
def Mid (l : List App) : Prop := ∀ a ∈ l, a = .eof ∨ ∃ b, a = .data b

/-- Nothing; or the connection is made, then data and eofs, then maybe the connection is lost. -/
def Lifecycle (l : List App) : Prop :=
  l = [] ∨ ∃ mid, Mid mid ∧ (l = .made :: mid ∨ l = .made :: (mid ++ [.lost]))

/-- Nothing, or everything up to the loss. -/
def Ended (l : List App) : Prop := l = [] ∨ ∃ mid, Mid mid ∧ l = .made :: (mid ++ [.lost])

/-- The protocol knows of nothing. -/
def Fresh (s : St E) : Prop := s.app = [] ∧ s.est = false

/-- At most one mark for the handshake. -/
def One : List (Bytes × Nat) → Prop
  | [] => True
  | (b, k) :: rest => (b = [] → k ≠ 0 → ¬Marked rest) ∧ One rest

theorem marked_cons {x : Bytes × Nat} {l : List (Bytes × Nat)} (h : Marked l) : Marked (x :: l) := by
  obtain ⟨k, hk⟩ := h; exact ⟨k, List.mem_cons_of_mem _ hk⟩

theorem marked_snoc {d : Bytes} {o : Nat} {l : List (Bytes × Nat)} (hd : d ≠ [] ∨ o = 0) (h : Marked (l ++ [(d, o)])) :
    Marked l := by
  obtain ⟨k, hk⟩ := h
  rcases List.mem_append.1 hk with hk | hk
  · exact ⟨k, hk⟩
  · cases List.mem_singleton.1 hk
    rcases hd with hd | hd
    · exact absurd rfl hd
    · cases hd

theorem marked_data {x : Nat} {xs : Bytes} {o : Nat} {l : List (Bytes × Nat)} (h : Marked ((x :: xs, o) :: l)) :
    Marked l := by
  obtain ⟨k, hk⟩ := h
  rcases List.mem_cons.1 hk with hk | hk
  · cases hk
  · exact ⟨k, hk⟩

theorem marked_shut {l : List (Bytes × Nat)} (h : Marked (([], 0) :: l)) : Marked l := by
  obtain ⟨k, hk⟩ := h
  rcases List.mem_cons.1 hk with hk | hk
  · cases hk
  · exact ⟨k, hk⟩

theorem one_snoc {d : Bytes} {o : Nat} (hd : d ≠ [] ∨ o = 0) : ∀ l : List (Bytes × Nat), One l → One (l ++ [(d, o)]) := by
  intro l
  induction l with
  | nil => intro _; exact ⟨(fun _ _ ⟨_, h⟩ => nomatch h), trivial⟩
  | cons x xs ih =>
    intro h
    exact ⟨fun a b hm => h.1 a b (marked_snoc hd hm), ih h.2⟩

theorem one_snoc_mark {k : Nat} : ∀ l : List (Bytes × Nat), ¬Marked l → One (l ++ [([], k + 1)]) := by
  intro l
  induction l with
  | nil => intro _; exact ⟨(fun _ _ ⟨_, h⟩ => nomatch h), trivial⟩
  | cons x xs ih =>
    intro h
    obtain ⟨b, o⟩ := x
    refine ⟨fun hb ho _ => h ?_, ih fun hm => h (marked_cons hm)⟩
    subst hb
    cases o with
    | zero => exact absurd rfl ho
    | succ o => exact ⟨o, List.mem_cons_self ..⟩

/-- The part of the invariant that holds inside a call, too. -/
structure Life (s : St E) : Prop where
  one : One s.backlog
  fh : s.ps = .handshake → Fresh s
  fm : Marked s.backlog → Fresh s
  un : s.tr = true → s.est = true ∨ Fresh s
  wr : s.tr = true → s.ps = .wrapped → s.est = true
  op : s.est = true → ∃ mid, Mid mid ∧ s.app = .made :: mid
  wf : Lifecycle s.app
  ih : s.tr = true → s.inHs = true ∨ s.est = true ∨ s.trClosing = true
  mi : Marked s.backlog → s.inHs = true ∨ s.trClosing = true

/-- A mark for the handshake is not left behind. -/
def NoRest (s : St E) : Prop := s.ps ≠ .unwrapped → Marked s.backlog → s.trClosing = true

/-- What handling data, and the shutdown, leave alone. -/
structure Calls (s s' : St E) : Prop where
  app : s'.app = s.app
  est : s'.est = s.est
  inHs : s'.inHs = s.inHs
  closing : s.trClosing = true → s'.trClosing = true

theorem Calls.refl (s : St E) : Calls s s := ⟨rfl, rfl, rfl, id⟩
theorem Calls.trans {a b d : St E} (h : Calls a b) (k : Calls b d) : Calls a d :=
  ⟨k.1.trans h.1, k.2.trans h.2, k.3.trans h.3, fun x => k.4 (h.4 x)⟩

theorem calls_finish (s : St E) (a : List Bytes) : Calls s (finish s a).1 := by
  unfold finish; split <;> exact ⟨rfl, rfl, rfl, id⟩

theorem calls_trClose (c : Cfg) (s : St E) : Calls s (trClose c s) := by
  unfold trClose; split
  · exact ⟨rfl, rfl, rfl, id⟩
  · exact ⟨rfl, rfl, rfl, fun _ => rfl⟩

theorem calls_wake (s : St E) (e : Option Err) : Calls s (wake s e) := by
  unfold wake; split <;> exact ⟨rfl, rfl, rfl, id⟩

theorem calls_feedWrapped (c : Cfg) (s : St E) : Calls s (feedWrapped c s).1 := by
  unfold feedWrapped
  split
  · next g acc _ =>
    have h := calls_finish { s with eng := g, got := s.got ++ acc.flatten } acc
    exact ⟨h.1, h.2, h.3, h.4⟩
  · next g acc e _ =>
    split
    · have h := calls_finish { s with eng := g, got := s.got ++ acc.flatten, need := e == .wantRead } acc
      exact ⟨h.1, h.2, h.3, h.4⟩
    · exact ⟨rfl, rfl, rfl, id⟩
  · exact ⟨rfl, rfl, rfl, id⟩

theorem calls_feedShutdown (c : Cfg) (s : St E) : Calls s (feedShutdown c s).1 := by
  unfold feedShutdown
  split
  · next g _ _ =>
    have h0 : Calls s { s with eng := g, ps := .unwrapped } := ⟨rfl, rfl, rfl, id⟩
    refine h0.trans (Calls.trans ?_ (calls_finish _ _))
    split
    · exact calls_trClose c _
    · exact Calls.refl _
  · next g e _ =>
    split
    · have h := calls_finish { s with eng := g, need := e == .wantRead } []
      exact ⟨h.1, h.2, h.3, h.4⟩
    · exact ⟨rfl, rfl, rfl, id⟩

/-- A successful handshake. -/
theorem hsOk_calls (c : Cfg) (hc : c.callMade = true) (s : St E) :
    (hsOk c s).app = s.app ++ [.made] ∧ (hsOk c s).est = true ∧ (hsOk c s).inHs = false := by
  have h := calls_wake { s with inHs := false, app := if c.callMade then s.app ++ [.made] else s.app } none
  refine ⟨h.app.trans ?_, rfl, h.inHs⟩
  show (if c.callMade = true then s.app ++ [.made] else s.app) = _
  rw [if_pos hc]

theorem hsErr_calls (c : Cfg) (s : St E) (e : Err) :
    (hsErr c s e).app = s.app ∧ (hsErr c s e).est = s.est ∧ (hsErr c s e).inHs = false := by
  have h1 := calls_trClose c { s with inHs := false }
  have h2 := calls_wake (trClose c { s with inHs := false }) (some e)
  exact ⟨h2.app.trans h1.app, h2.est.trans h1.est, h2.inHs.trans h1.inHs⟩

/-- `do_handshake` from the unwrapped state: it is over with success, or the protocol knows nothing of it. -/
theorem doHandshake_life (c : Cfg) (hc : c.callMade = true) (s : St E) (hu : s.ps = .unwrapped) :
    (∃ w, (doHandshake c s).2 = .ok w ∧ (doHandshake c s).1.ps = .wrapped ∧
      (doHandshake c s).1.app = s.app ++ [.made] ∧ (doHandshake c s).1.est = true) ∨
    ((doHandshake c s).1.ps = .handshake ∧ (doHandshake c s).1.app = s.app ∧ (doHandshake c s).1.est = s.est ∧
      (s.trClosing = true → (doHandshake c s).1.trClosing = true) ∧
      ((doHandshake c s).1.inHs = s.inHs ∨ (doHandshake c s).1.trClosing = true)) := by
  unfold doHandshake
  rw [if_pos hu]
  rw [show feedSsl c { s with eng := E.wrap s.eng, ps := .handshake, calls := [] } [] true =
    feedHandshake c (feedIn { s with eng := E.wrap s.eng, ps := .handshake, calls := [] } []) true from rfl]
  unfold feedHandshake
  split
  · next s1 ssl a hq =>
    split at hq
    · next g _ _ =>
      simp only [if_true] at hq
      have h := hsOk_calls c hc { feedIn { s with eng := E.wrap s.eng, ps := .handshake, calls := [] } [] with
        eng := g, ps := .wrapped, shaken := s.shaken + 1 }
      have hp := ps_hsOk c { feedIn { s with eng := E.wrap s.eng, ps := .handshake, calls := [] } [] with
        eng := g, ps := .wrapped, shaken := s.shaken + 1 }
      cases hq
      exact Or.inl ⟨_, rfl, hp, h.1, h.2.1⟩
    · next g e _ =>
      split at hq
      · have h := calls_finish { feedIn { s with eng := E.wrap s.eng, ps := .handshake, calls := [] } [] with
          eng := g, need := e == .wantRead } []
        have hp := ps_finish { feedIn { s with eng := E.wrap s.eng, ps := .handshake, calls := [] } [] with
          eng := g, need := e == .wantRead } []
        rw [hq] at h hp
        exact Or.inr ⟨hp, h.app, h.est, h.closing, Or.inl h.inHs⟩
      · split at hq <;> cases hq
  · next s1 e hq =>
    split at hq
    · simp only [if_true] at hq; cases hq
    · next g e _ =>
      split at hq
      · unfold finish at hq; split at hq <;> cases hq
      · split at hq
        · have h := hsErr_calls c { feedIn { s with eng := E.wrap s.eng, ps := .handshake, calls := [] } [] with
            eng := g } e
          have hp := ps_hsErr c { feedIn { s with eng := E.wrap s.eng, ps := .handshake, calls := [] } [] with
            eng := g } e
          have ht := trClosing_hsErr c { feedIn { s with eng := E.wrap s.eng, ps := .handshake, calls := [] } [] with
            eng := g } e
          cases hq
          exact Or.inr ⟨hp, h.1, h.2.1, fun _ => ht, Or.inr ht⟩
        · cases hq
          exact Or.inr ⟨rfl, rfl, rfl, id, Or.inl rfl⟩
  · next s1 hq =>
    split at hq
    · simp only [if_true] at hq; cases hq
    · split at hq
      · unfold finish at hq; split at hq <;> cases hq
      · split at hq <;> cases hq

theorem calls_pipeShutdown (c : Cfg) (s : St E) : Calls s (pipeShutdown c s).1 := by
  by_cases hu : s.ps = .unwrapped ∨ s.ps = .shutdown
  · rw [pipeShutdown_not c s hu]; exact ⟨rfl, rfl, rfl, id⟩
  · have h := calls_feedShutdown c (feedIn { s with ps := .shutdown } [])
    have h1 : Calls s (feedSsl c { s with ps := .shutdown } [] false).1 := ⟨h.1, h.2, h.3, h.4⟩
    unfold pipeShutdown
    rw [if_neg hu]
    split <;> (next hq => rw [hq] at h1; exact h1)

/-- The invariant when only the backlog shrinks or the pipe leaves the handshake. -/
theorem Life.mono {s s' : St E} (h : Life s) (hb : One s'.backlog) (hm : Marked s'.backlog → Marked s.backlog)
    (ht : s'.tr = s.tr) (k : Calls s s') (hp : s'.ps = s.ps ∨ s'.ps = .shutdown ∨ s'.ps = .unwrapped) : Life s' := by
  have hfr : Fresh s → Fresh s' := fun hf => ⟨k.app.trans hf.1, k.est.trans hf.2⟩
  constructor
  · exact hb
  · intro hq
    rcases hp with hp | hp | hp
    · exact hfr (h.fh (hp.symm.trans hq))
    · rw [hp] at hq; cases hq
    · rw [hp] at hq; cases hq
  · intro hq; exact hfr (h.fm (hm hq))
  · intro hq
    rcases h.un (ht.symm.trans hq) with hu | hu
    · exact Or.inl (k.est.trans hu)
    · exact Or.inr (hfr hu)
  · intro hq hw
    rcases hp with hp | hp | hp
    · exact k.est.trans (h.wr (ht.symm.trans hq) (hp.symm.trans hw))
    · rw [hp] at hw; cases hw
    · rw [hp] at hw; cases hw
  · intro hq
    obtain ⟨mid, a, b⟩ := h.op (k.est.symm.trans hq)
    exact ⟨mid, a, k.app.trans b⟩
  · rw [k.app]; exact h.wf
  · intro hq
    rcases h.ih (ht.symm.trans hq) with hu | hu | hu
    · exact Or.inl (k.inHs.trans hu)
    · exact Or.inr (Or.inl (k.est.trans hu))
    · exact Or.inr (Or.inr (k.closing hu))
  · intro hq
    rcases h.mi (hm hq) with hu | hu
    · exact Or.inl (k.inHs.trans hu)
    · exact Or.inr (k.closing hu)

theorem mid_nil : Mid [] := fun _ h => nomatch h

theorem life_entry (c : Cfg) (hc : c.callMade = true) {s : St E} (h : Life s) (hn : NoRest s)
    {data : Bytes} {off : Nat} {rest : List (Bytes × Nat)} (hb : s.backlog = (data, off) :: rest) :
    ((∀ v, (entry c s data off).2 ≠ .ok v) → Life (entry c s data off).1) ∧
    ∀ w k, (entry c s data off).2 = .ok (w, k) →
      (Life { (entry c s data off).1 with backlog := rest } ∧ NoRest { (entry c s data off).1 with backlog := rest }) ∧
      (data ≠ [] → ∀ k', Life { (entry c s data off).1 with backlog := (data, k') :: rest } ∧
        NoRest { (entry c s data off).1 with backlog := (data, k') :: rest }) := by
  have ho := h.one
  rw [hb] at ho
  have hmr : Marked rest → Marked s.backlog := fun hm => by rw [hb]; exact marked_cons hm
  cases data with
  | cons x xs =>
    have f := frameA_feedApp c s (x :: xs) off
    have k : Calls s (feedApp c s (x :: xs) off).1 := ⟨f.app, f.est, f.inHs, fun hx => f.trClosing.trans hx⟩
    have hl : ∀ b, One b → (Marked b → Marked s.backlog) →
        Life { (feedApp c s (x :: xs) off).1 with backlog := b } ∧
        NoRest { (feedApp c s (x :: xs) off).1 with backlog := b } := by
      intro b hb1 hb2
      refine ⟨h.mono hb1 hb2 f.tr ⟨k.1, k.2, k.3, k.4⟩ (Or.inl f.ps), fun hp hm => ?_⟩
      exact k.closing (hn (fun hx => hp (f.ps.trans hx)) (hb2 hm))
    refine ⟨fun _ => ?_, fun w k1 _ => ⟨hl rest ho.2 hmr, fun _ k' => hl _ ⟨(fun hx => nomatch hx), ho.2⟩
      fun hm => hmr (marked_data hm)⟩⟩
    exact h.mono (by rw [backlog_entry]; exact h.one) (by rw [backlog_entry]; exact id) f.tr k (Or.inl f.ps)
  | nil =>
    cases off with
    | succ k0 =>
      by_cases hu : s.ps = .unwrapped
      · have hfr := h.fm (by rw [hb]; exact ⟨k0, List.mem_cons_self ..⟩)
        have hnr : ¬Marked rest := ho.1 rfl (Nat.succ_ne_zero _)
        obtain ⟨fr, _, _⟩ := doHandshake_spec c s hu
        have hbl := fr.backlog
        show ((∀ v, (markRes (doHandshake c s)).2 ≠ .ok v) → Life (markRes (doHandshake c s)).1) ∧
          ∀ w k, (markRes (doHandshake c s)).2 = .ok (w, k) →
            (Life { (markRes (doHandshake c s)).1 with backlog := rest } ∧
              NoRest { (markRes (doHandshake c s)).1 with backlog := rest }) ∧ _
        rw [markRes_fst]
        rcases doHandshake_life c hc s hu with ⟨w0, hok, hp, ha, he⟩ | ⟨hp, ha, he, hcl, hi⟩
        · refine ⟨fun hno => ?_, fun w k hk => ⟨⟨?_, fun _ hm => absurd hm hnr⟩, fun hx => absurd rfl hx⟩⟩
          · exfalso
            cases hq : doHandshake c s with
            | mk s1 r =>
              rw [hq] at hok hno
              cases hok
              exact hno _ rfl
          · have ha' : (doHandshake c s).1.app = [.made] := by rw [ha, hfr.1]; rfl
            constructor
            · exact ho.2
            · intro hq; exact absurd (hp.symm.trans hq) nofun
            · intro hm; exact absurd hm hnr
            · intro _; exact Or.inl he
            · intro _ _; exact he
            · intro _; exact ⟨[], mid_nil, ha'⟩
            · exact Or.inr ⟨[], mid_nil, Or.inl ha'⟩
            · intro _; exact Or.inr (Or.inl he)
            · intro hm; exact absurd hm hnr
        · have hfr' : Fresh (doHandshake c s).1 := ⟨ha.trans hfr.1, he.trans hfr.2⟩
          have hin : s.inHs = true ∨ s.trClosing = true := h.mi (by rw [hb]; exact ⟨k0, List.mem_cons_self ..⟩)
          have hin' : (doHandshake c s).1.inHs = true ∨ (doHandshake c s).1.trClosing = true := by
            rcases hi with hi | hi
            · rcases hin with hin | hin
              · exact Or.inl (hi.trans hin)
              · exact Or.inr (hcl hin)
            · exact Or.inr hi
          have hl : ∀ b, One b → Life { (doHandshake c s).1 with backlog := b } := by
            intro b hb1
            constructor
            · exact hb1
            · intro _; exact hfr'
            · intro _; exact hfr'
            · intro _; exact Or.inr hfr'
            · intro _ hq; exact absurd (hp.symm.trans hq) nofun
            · intro hq; exact absurd (hfr'.2.symm.trans hq) nofun
            · exact Or.inl hfr'.1
            · intro _; rcases hin' with hx | hx
              · exact Or.inl hx
              · exact Or.inr (Or.inr hx)
            · intro _; exact hin'
          refine ⟨fun _ => hl (doHandshake c s).1.backlog (by rw [hbl]; exact h.one), fun w k hk => ⟨⟨hl rest ho.2, fun _ hm => absurd hm hnr⟩, fun hx => absurd rfl hx⟩⟩
      · have he : entry c s [] (k0 + 1) = (s, .raised .runtime) := by
          show markRes (doHandshake c s) = _
          rw [doHandshake_not c s hu]; rfl
        rw [he]
        exact ⟨fun _ => h, fun w k hk => by cases hk⟩
    | zero =>
      by_cases hu : s.ps = .unwrapped ∨ s.ps = .shutdown
      · have he : entry c s [] 0 = (s, .raised .runtime) := by
          show markRes (pipeShutdown c s) = _
          rw [pipeShutdown_not c s hu]; rfl
        rw [he]
        exact ⟨fun _ => h, fun w k hk => by cases hk⟩
      · obtain ⟨fr, hp, _⟩ := pipeShutdown_spec c s hu
        have k := calls_pipeShutdown c s
        show ((∀ v, (markRes (pipeShutdown c s)).2 ≠ .ok v) → Life (markRes (pipeShutdown c s)).1) ∧
          ∀ w k, (markRes (pipeShutdown c s)).2 = .ok (w, k) →
            (Life { (markRes (pipeShutdown c s)).1 with backlog := rest } ∧
              NoRest { (markRes (pipeShutdown c s)).1 with backlog := rest }) ∧ _
        rw [markRes_fst]
        refine ⟨fun _ => ?_, fun w k1 _ => ⟨⟨?_, fun _ hm => ?_⟩, fun hx => absurd rfl hx⟩⟩
        · exact h.mono (by rw [fr.backlog]; exact h.one) (by rw [fr.backlog]; exact id) fr.tr k (Or.inr hp)
        · exact h.mono ho.2 hmr fr.tr ⟨k.1, k.2, k.3, k.4⟩ (Or.inr hp)
        · exact k.closing (hn (fun hx => hu (Or.inl hx)) (hmr hm))

theorem life_procLoop (c : Cfg) (hc : c.callMade = true) (n : Nat) : ∀ s : St E, Life s → NoRest s →
    Life (procLoop c n s).1 ∧ ((procLoop c n s).2 = .ok () → NoRest (procLoop c n s).1) := by
  induction n with
  | zero => intro s h hn; exact ⟨h, fun _ => hn⟩
  | succ n ih =>
    intro s h hn
    unfold procLoop
    split
    · exact ⟨h, fun _ => hn⟩
    · next data off rest hb =>
      have he := life_entry c hc h hn hb
      split
      · next s1 e hq => rw [hq] at he; exact ⟨he.1 (fun v => nofun), fun hx => by cases hx⟩
      · next s1 hq => rw [hq] at he; exact ⟨he.1 (fun v => nofun), fun hx => by cases hx⟩
      · next s1 ssl off1 hq =>
        rw [hq] at he
        obtain ⟨hdone, hmore⟩ := he.2 ssl off1 rfl
        have f := frameW_trWrites ssl s1
        have keep : ∀ b, Life { s1 with backlog := b } ∧ NoRest { s1 with backlog := b } →
            Life { trWrites s1 ssl with backlog := b } ∧ NoRest { trWrites s1 ssl with backlog := b } := by
          intro b hl
          refine ⟨hl.1.mono hl.1.one id f.tr ⟨f.app, f.est, f.inHs, fun hx => f.trClosing.trans hx⟩ (Or.inl f.ps), ?_⟩
          intro hp hm
          exact f.trClosing.trans (hl.2 (fun hx => hp (f.ps.trans hx)) hm)
        by_cases hlt : off1 < data.length
        · have hne : data ≠ [] := by intro hx; rw [hx] at hlt; exact absurd hlt (Nat.not_lt_zero _)
          have hk := keep _ (hmore hne off1)
          simp only [hlt, if_true]
          split
          · exact ⟨hk.1, fun _ => hk.2⟩
          · exact ⟨hk.1, fun _ => hk.2⟩
        · simp only [hlt, if_false]
          have hk := keep _ hdone
          exact ih _ hk.1 hk.2

theorem life_hsErr (c : Cfg) {s : St E} (h : Life s) (e : Err) : Life (hsErr c s e) ∧ NoRest (hsErr c s e) := by
  have hk := hsErr_calls c s e
  have ht := trClosing_hsErr c s e
  have f := frame_hsErr c s e
  have hp := ps_hsErr c s e
  have hfr : Fresh s → Fresh (hsErr c s e) := fun hf => ⟨hk.1.trans hf.1, hk.2.1.trans hf.2⟩
  refine ⟨?_, fun _ _ => ht⟩
  constructor
  · rw [f.backlog]; exact h.one
  · intro hq; exact hfr (h.fh (hp.symm.trans hq))
  · rw [f.backlog]; intro hm; exact hfr (h.fm hm)
  · intro hq
    rcases h.un (f.tr.symm.trans hq) with hu | hu
    · exact Or.inl (hk.2.1.trans hu)
    · exact Or.inr (hfr hu)
  · intro hq hw; exact hk.2.1.trans (h.wr (f.tr.symm.trans hq) (hp.symm.trans hw))
  · intro hq
    obtain ⟨mid, a, b⟩ := h.op (hk.2.1.symm.trans hq)
    exact ⟨mid, a, hk.1.trans b⟩
  · rw [hk.1]; exact h.wf
  · intro _; exact Or.inr (Or.inr ht)
  · intro _; exact Or.inr ht

theorem calls_trForce (s : St E) : Calls s (trForce s) := by
  unfold trForce; split
  · exact ⟨rfl, rfl, rfl, id⟩
  · exact ⟨rfl, rfl, rfl, fun _ => rfl⟩

theorem frame_trForce (s : St E) : Frame s (trForce s) := by
  unfold trForce; split <;> exact ⟨rfl, rfl, rfl, rfl, rfl, rfl, rfl, rfl, rfl⟩

theorem ps_trForce (s : St E) : (trForce s).ps = s.ps := by unfold trForce; split <;> rfl

/-- Things that only close the underlying transport. -/
theorem Life.closes {s s' : St E} (h : Life s) (f : Frame s s') (k : Calls s s') (hp : s'.ps = s.ps) : Life s' :=
  h.mono (by rw [f.backlog]; exact h.one) (by rw [f.backlog]; exact id) f.tr k (Or.inl hp)

theorem life_process (c : Cfg) (hc : c.callMade = true) {s : St E} (h : Life s) (hn : NoRest s) :
    Life (process c s).1 ∧ ((process c s).1.hung = true ∨ NoRest (process c s).1) := by
  unfold process
  split
  · have hl := life_procLoop c hc s.backlog.length s h hn
    unfold procEnd
    split
    · next s1 u hq => rw [hq] at hl; exact ⟨hl.1, Or.inr (hl.2 rfl)⟩
    · next s1 hq =>
      rw [hq] at hl
      exact ⟨hl.1.mono hl.1.one id rfl ⟨rfl, rfl, rfl, id⟩ (Or.inl rfl), Or.inl rfl⟩
    · next s1 e hq =>
      rw [hq] at hl
      split
      · exact ⟨(life_hsErr c hl.1 e).1, Or.inr (life_hsErr c hl.1 e).2⟩
      · next hi =>
        have hno : NoRest s1 := fun _ hm => by
          rcases hl.1.mi hm with hx | hx
          · exact absurd hx hi
          · exact hx
        have h1 : Life { s1 with fatal := true } := hl.1.mono hl.1.one id rfl ⟨rfl, rfl, rfl, id⟩ (Or.inl rfl)
        show Life (if s1.tr = true then trForce { s1 with fatal := true } else { s1 with fatal := true }) ∧
          (_ ∨ NoRest (if s1.tr = true then trForce { s1 with fatal := true } else { s1 with fatal := true }))
        split
        · refine ⟨h1.closes (frame_trForce _) (calls_trForce _) (ps_trForce _), Or.inr fun hp hm => ?_⟩
          rw [ps_trForce] at hp
          rw [(frame_trForce _).backlog] at hm
          exact (calls_trForce _).closing (hno hp hm)
        · exact ⟨h1, Or.inr hno⟩
  · exact ⟨h, Or.inr hn⟩

theorem life_writeApp (c : Cfg) (hc : c.callMade = true) {s : St E} (h : Life s) (hn : NoRest s) (d : Bytes) :
    Life (writeApp c s d).1 ∧ ((writeApp c s d).1.hung = true ∨ NoRest (writeApp c s d).1) := by
  unfold writeApp
  refine life_process c hc ?_ ?_
  · exact h.mono (one_snoc (Or.inr rfl) _ h.one) (marked_snoc (Or.inr rfl)) rfl ⟨rfl, rfl, rfl, id⟩ (Or.inl rfl)
  · intro hp hm; exact hn hp (marked_snoc (Or.inr rfl) hm)

theorem life_close (c : Cfg) (hc : c.callMade = true) {s : St E} (h : Life s) (hn : NoRest s) :
    Life (close c s).1 ∧ ((close c s).1.hung = true ∨ NoRest (close c s).1) := by
  unfold close
  split
  · exact ⟨h, Or.inr hn⟩
  · exact life_writeApp c hc (s := { s with closing := true }) (h.mono h.one id rfl ⟨rfl, rfl, rfl, id⟩ (Or.inl rfl)) hn []

/-- Data for a protocol that is connected. -/
theorem life_data (s : St E) (h : Life s) (he : s.est = true) (b : Bytes) :
    Life { s with app := s.app ++ [.data b] } := by
  obtain ⟨mid, hmid, ha⟩ := h.op he
  have hmid' : Mid (mid ++ [.data b]) := by
    intro a ha
    rcases List.mem_append.1 ha with ha | ha
    · exact hmid a ha
    · rw [List.mem_singleton.1 ha]; exact Or.inr ⟨b, rfl⟩
  have happ : s.app ++ [.data b] = .made :: (mid ++ [.data b]) := by rw [ha]; rfl
  have nf : ¬Fresh s := fun hf => by rw [hf.2] at he; cases he
  constructor
  · exact h.one
  · intro hq; exact absurd (h.fh hq) nf
  · intro hq; exact absurd (h.fm hq) nf
  · intro _; exact Or.inl he
  · intro _ _; exact he
  · intro _; exact ⟨_, hmid', happ⟩
  · exact Or.inr ⟨_, hmid', Or.inl happ⟩
  · exact h.ih
  · exact h.mi

theorem life_eof (s : St E) (h : Life s) (he : s.est = true) : Life { s with app := s.app ++ [.eof] } := by
  obtain ⟨mid, hmid, ha⟩ := h.op he
  have hmid' : Mid (mid ++ [.eof]) := by
    intro a ha
    rcases List.mem_append.1 ha with ha | ha
    · exact hmid a ha
    · rw [List.mem_singleton.1 ha]; exact Or.inl rfl
  have happ : s.app ++ [.eof] = .made :: (mid ++ [.eof]) := by rw [ha]; rfl
  have nf : ¬Fresh s := fun hf => by rw [hf.2] at he; cases he
  constructor
  · exact h.one
  · intro hq; exact absurd (h.fh hq) nf
  · intro hq; exact absurd (h.fm hq) nf
  · intro _; exact Or.inl he
  · intro _ _; exact he
  · intro _; exact ⟨_, hmid', happ⟩
  · exact Or.inr ⟨_, hmid', Or.inl happ⟩
  · exact h.ih
  · exact h.mi

theorem life_deliver (c : Cfg) (hc : c.callMade = true) (l : List Bytes) : ∀ {s : St E}, Life s → NoRest s →
    (l ≠ [] → s.est = true) →
    Life (deliver c s l).1 ∧ ((deliver c s l).1.hung = true ∨ NoRest (deliver c s l).1) := by
  induction l with
  | nil => intro s h hn _; exact ⟨h, Or.inr hn⟩
  | cons x xs ih =>
    intro s h hn he
    cases x with
    | nil => exact life_close c hc h hn
    | cons b bs =>
      exact ih (s := { s with app := s.app ++ [.data (b :: bs)] }) (life_data s h (he nofun) _) hn (fun _ => he nofun)

theorem trClosing_deliver (c : Cfg) (l : List Bytes) : ∀ s : St E, s.trClosing = true → (deliver c s l).1.trClosing = true := by
  induction l with
  | nil => intro s h; exact h
  | cons x xs ih =>
    intro s h
    cases x with
    | nil => exact (keep_close c s).closing h
    | cons b bs => exact ih { s with app := s.app ++ [.data (b :: bs)] } h

/-- Feeding ssl data when no mark for the handshake is left: what the protocol gets, it gets while connected. -/
theorem life_feedSsl (c : Cfg) (hc : c.callMade = true) {s : St E} (h : Life s) (ht : s.tr = true)
    (hu : s.ps ≠ .unwrapped) (hm : ¬Marked s.backlog) (d : Bytes) :
    Life (feedSsl c s d false).1 ∧ NoRest (feedSsl c s d false).1 ∧
    ∀ w l, (feedSsl c s d false).2 = .ok (w, l) → l ≠ [] → (feedSsl c s d false).1.est = true := by
  have f := frame_feedSsl c s d false
  have hm' : ¬Marked (feedSsl c s d false).1.backlog := by rw [f.backlog]; exact hm
  refine ⟨?_, fun _ hx => absurd hx hm', ?_⟩
  · cases hp : s.ps with
    | unwrapped => exact absurd hp hu
    | handshake =>
      have hfr := h.fh hp
      have hps := ps_feedSsl_handshake c s d false hp
      rw [feedSsl_handshake c s d false hp] at f hps hm' ⊢
      unfold feedHandshake at f hps hm' ⊢
      split
      · next g u hq =>
        rw [hq] at f hps hm'
        simp only [Bool.false_eq_true, if_false] at f hps hm' ⊢
        have k1 := hsOk_calls c hc { feedIn s d with eng := g, ps := .wrapped, shaken := (feedIn s d).shaken + 1 }
        have hp1 := ps_hsOk c { feedIn s d with eng := g, ps := .wrapped, shaken := (feedIn s d).shaken + 1 }
        have k2 := calls_feedWrapped c (hsOk c { feedIn s d with eng := g, ps := .wrapped, shaken := (feedIn s d).shaken + 1 })
        have hp2 := ps_feedWrapped c (hsOk c { feedIn s d with eng := g, ps := .wrapped, shaken := (feedIn s d).shaken + 1 })
        have he := k2.est.trans k1.2.1
        have ha : (feedWrapped c (hsOk c { feedIn s d with eng := g, ps := .wrapped, shaken := (feedIn s d).shaken + 1 })).1.app
            = [.made] := k2.app.trans (k1.1.trans (by show s.app ++ [.made] = _; rw [hfr.1]; rfl))
        constructor
        · rw [f.backlog]; exact h.one
        · intro hq; rw [hp2, hp1] at hq; cases hq
        · intro hx; exact absurd hx hm'
        · intro _; exact Or.inl he
        · intro _ _; exact he
        · intro _; exact ⟨[], mid_nil, ha⟩
        · exact Or.inr ⟨[], mid_nil, Or.inl ha⟩
        · intro _; exact Or.inr (Or.inl he)
        · intro hx; exact absurd hx hm'
      · next g e hq =>
        split
        · have k := calls_finish { feedIn s d with eng := g, need := e == .wantRead } []
          have fr := frame_finish { feedIn s d with eng := g, need := e == .wantRead } []
          have hpp := ps_finish { feedIn s d with eng := g, need := e == .wantRead } []
          exact h.closes ⟨fr.1, fr.2, fr.3, fr.4, fr.5, fr.6, fr.7, fr.8, fr.9⟩ ⟨k.1, k.2, k.3, k.4⟩ hpp
        · split
          · exact (life_hsErr c (s := { feedIn s d with eng := g })
              (h.closes ⟨rfl, rfl, rfl, rfl, rfl, rfl, rfl, rfl, rfl⟩ ⟨rfl, rfl, rfl, id⟩ rfl) e).1
          · exact h.closes ⟨rfl, rfl, rfl, rfl, rfl, rfl, rfl, rfl, rfl⟩ ⟨rfl, rfl, rfl, id⟩ rfl
    | wrapped =>
      rw [feedSsl_wrapped c s d false hp] at f ⊢
      have k := calls_feedWrapped c (feedIn s d)
      exact h.closes f ⟨k.1, k.2, k.3, k.4⟩ (ps_feedWrapped c (feedIn s d))
    | shutdown =>
      have hps := ps_feedSsl_shutdown c s d false hp
      rw [feedSsl_shutdown c s d false hp] at f hps ⊢
      have k := calls_feedShutdown c (feedIn s d)
      exact h.mono (by rw [f.backlog]; exact h.one) (by rw [f.backlog]; exact id) f.tr ⟨k.1, k.2, k.3, k.4⟩ (Or.inr hps)
  · intro w l hok hl
    cases hp : s.ps with
    | unwrapped => exact absurd hp hu
    | handshake =>
      rw [feedSsl_handshake c s d false hp] at hok ⊢
      unfold feedHandshake at hok ⊢
      split
      · next g u hq =>
        simp only [Bool.false_eq_true, if_false]
        have k1 := hsOk_calls c hc { feedIn s d with eng := g, ps := .wrapped, shaken := (feedIn s d).shaken + 1 }
        have k2 := calls_feedWrapped c (hsOk c { feedIn s d with eng := g, ps := .wrapped, shaken := (feedIn s d).shaken + 1 })
        exact k2.est.trans k1.2.1
      · next g e hq =>
        rw [hq] at hok
        simp only at hok
        split at hok
        · exact absurd (finish_ok _ _ hok) hl
        · split at hok <;> cases hok
    | wrapped =>
      rw [feedSsl_wrapped c s d false hp]
      exact (calls_feedWrapped c (feedIn s d)).est.trans (h.wr ht hp)
    | shutdown =>
      rw [feedSsl_shutdown c s d false hp] at hok
      exfalso
      unfold feedShutdown at hok
      split at hok
      · exact hl (finish_ok _ _ hok)
      · split at hok
        · exact hl (finish_ok _ _ hok)
        · cases hok

end Verif.Ssl
