import Verif.Ssl.Lemmas

/-! No plaintext reaches the underlying transport in polite runs: the invariant. -/

namespace Verif.Ssl

variable {E : Engine}

/-- No data behind a mark for the shutdown. -/
def Tidy : List (Bytes × Nat) → Prop
  | [] => True
  | (b, k) :: rest => (b = [] → k = 0 → ∀ e ∈ rest, e.1 = []) ∧ Tidy rest

theorem tidy_of_empty : ∀ l : List (Bytes × Nat), (∀ e ∈ l, e.1 = []) → Tidy l := by
  intro l
  induction l with
  | nil => intro _; trivial
  | cons x xs ih =>
    intro h
    exact ⟨fun _ _ e he => h e (List.mem_cons_of_mem _ he), ih fun e he => h e (List.mem_cons_of_mem _ he)⟩

theorem tidy_append_empty {x : Bytes × Nat} (hx : x.1 = []) : ∀ l : List (Bytes × Nat), Tidy l → Tidy (l ++ [x]) := by
  intro l
  induction l with
  | nil => intro _; exact ⟨(fun _ _ _ he => nomatch he), trivial⟩
  | cons y ys ih =>
    intro h
    refine ⟨fun a b e he => ?_, ih h.2⟩
    rcases List.mem_append.1 he with he | he
    · exact h.1 a b e he
    · rw [List.mem_singleton] at he; rw [he]; exact hx

theorem tidy_append_nomark {x : Bytes × Nat} : ∀ l : List (Bytes × Nat), Tidy l → (∀ e ∈ l, e ≠ ([], 0)) →
    Tidy (l ++ [x]) := by
  intro l
  induction l with
  | nil => intro _ _; exact ⟨(fun _ _ _ he => nomatch he), trivial⟩
  | cons y ys ih =>
    intro h hm
    obtain ⟨b, k⟩ := y
    refine ⟨fun hb hk e he => ?_, ih h.2 fun e he => hm e (List.mem_cons_of_mem _ he)⟩
    subst hb hk
    exact absurd rfl (hm ([], 0) (List.mem_cons_self ..))

/-- The invariant; `m` tells whether `connection_made` was called. -/
structure Conf (m : Bool) (s : St E) : Prop where
  plain : Records s.wire
  early : m = false → s.tr = false ∧ s.ps = .unwrapped ∧ ∀ e ∈ s.backlog, e = ([], 0)
  mark : s.closing = false → ∀ e ∈ s.backlog, e ≠ ([], 0)
  u : s.ps = .unwrapped → ((∀ e ∈ s.backlog, e.1 = []) ∧ (s.closing = true ∨ m = false)) ∨
      ∃ k rest, s.backlog = ([], k + 1) :: rest ∧ Tidy rest
  w : s.ps = .handshake ∨ s.ps = .wrapped → Tidy s.backlog
  d : s.ps = .shutdown → s.closing = true ∧ ∀ e ∈ s.backlog, e.1 = []

/-- The invariant only looks at some fields. -/
theorem Conf.congr {m : Bool} {s s' : St E} (h : Conf m s) (hw : s'.wire = s.wire) (ht : s'.tr = s.tr)
    (hp : s'.ps = s.ps) (hb : s'.backlog = s.backlog) (hc : s'.closing = s.closing) : Conf m s' := by
  constructor
  · rw [hw]; exact h.plain
  · rw [ht, hp, hb]; exact h.early
  · rw [hb, hc]; exact h.mark
  · rw [hb, hc, hp]; exact h.u
  · rw [hb, hp]; exact h.w
  · rw [hb, hc, hp]; exact h.d

/-- Feeding ssl data keeps the invariant. -/
theorem Conf.feedSsl {s : St E} (h : Conf true s) (c : Cfg) (d : Bytes) (o : Bool) :
    Conf true (feedSsl c s d o).1 := by
  have f := frame_feedSsl c s d o
  constructor
  · rw [f.wire]; exact h.plain
  · intro hm; cases hm
  · rw [f.closing, f.backlog]; exact h.mark
  · intro hu
    rw [f.backlog, f.closing]
    cases hp : s.ps with
    | unwrapped => exact h.u hp
    | handshake => rcases ps_feedSsl_handshake c s d o hp with k | k <;> rw [k] at hu <;> cases hu
    | wrapped => rw [ps_feedSsl_wrapped c s d o hp] at hu; cases hu
    | shutdown => exact Or.inl ⟨(h.d hp).2, Or.inl (h.d hp).1⟩
  · intro hu
    rw [f.backlog]
    cases hp : s.ps with
    | unwrapped => rw [ps_feedSsl_unwrapped c s d o hp] at hu; rcases hu with hu | hu <;> cases hu
    | handshake => exact h.w (Or.inl hp)
    | wrapped => exact h.w (Or.inr hp)
    | shutdown =>
      rcases ps_feedSsl_shutdown c s d o hp with k | k <;> rw [k] at hu <;> rcases hu with hu | hu <;> cases hu
  · intro hu
    rw [f.backlog, f.closing]
    cases hp : s.ps with
    | unwrapped => rw [ps_feedSsl_unwrapped c s d o hp] at hu; cases hu
    | handshake => rcases ps_feedSsl_handshake c s d o hp with k | k <;> rw [k] at hu <;> cases hu
    | wrapped => rw [ps_feedSsl_wrapped c s d o hp] at hu; cases hu
    | shutdown => exact h.d hp

/-- What one entry of the backlog does to the invariant: nothing bad as long as it stays, and it can be removed. -/
theorem Conf.entry {s : St E} (h : Conf true s) (c : Cfg) {data : Bytes} {off : Nat} {rest : List (Bytes × Nat)}
    (hb : s.backlog = (data, off) :: rest) :
    Conf true (entry c s data off).1 ∧
    ∀ w k, (entry c s data off).2 = .ok (w, k) →
      Records w ∧ (data.length ≤ k → Conf true { (Ssl.entry c s data off).1 with backlog := rest }) ∧
      (data ≠ [] → ∀ k', Conf true { (Ssl.entry c s data off).1 with backlog := (data, k') :: rest }) := by
  have hmr : s.closing = false → ∀ e ∈ rest, e ≠ ([], 0) := fun hc e he =>
    h.mark hc e (by rw [hb]; exact List.mem_cons_of_mem _ he)
  cases data with
  | cons x xs =>
    -- data: the pipe is not unwrapped
    have hu : s.ps ≠ .unwrapped := by
      intro hp
      rcases h.u hp with ⟨he, _⟩ | ⟨k, r, he, _⟩
      · have := he (x :: xs, off) (by rw [hb]; exact List.mem_cons_self ..)
        cases this
      · rw [hb] at he; cases he
    have hd : s.ps ≠ .shutdown := by
      intro hp
      have := (h.d hp).2 (x :: xs, off) (by rw [hb]; exact List.mem_cons_self ..)
      cases this
    have hw : s.ps = .handshake ∨ s.ps = .wrapped := by
      cases hp : s.ps with
      | unwrapped => exact absurd hp hu
      | handshake => exact Or.inl rfl
      | wrapped => exact Or.inr rfl
      | shutdown => exact absurd hp hd
    have ht := h.w hw
    rw [hb] at ht
    have he : Ssl.entry c s (x :: xs) off = appLoop c.fuel s (x :: xs) off [] := by
      show feedApp c s (x :: xs) off = _
      unfold feedApp; rw [if_neg hu]
    have f := frameA_appLoop c.fuel s (x :: xs) off []
    have hr := fun w k => @records_appLoop E c.fuel s (x :: xs) off [] w k (fun _ hx => by cases hx)
    rw [he]
    refine ⟨h.congr f.wire f.tr f.ps f.backlog f.closing, fun w k hk => ⟨hr w k hk, fun _ => ?_, fun _ k' => ?_⟩⟩
    · constructor
      · show Records (appLoop c.fuel s (x :: xs) off []).1.wire; rw [f.wire]; exact h.plain
      · intro hm; cases hm
      · show (appLoop c.fuel s (x :: xs) off []).1.closing = false → _; rw [f.closing]; exact hmr
      · intro hp; exact absurd (f.ps.symm.trans hp) hu
      · intro _; exact ht.2
      · intro hp; exact absurd (f.ps.symm.trans hp) hd
    · constructor
      · show Records (appLoop c.fuel s (x :: xs) off []).1.wire; rw [f.wire]; exact h.plain
      · intro hm; cases hm
      · show (appLoop c.fuel s (x :: xs) off []).1.closing = false → _; rw [f.closing]
        intro hc e hme
        rcases List.mem_cons.1 hme with hme | hme
        · rw [hme]; intro hx; cases hx
        · exact hmr hc e hme
      · intro hp; exact absurd (f.ps.symm.trans hp) hu
      · intro _; exact ⟨(fun hx => nomatch hx), ht.2⟩
      · intro hp; exact absurd (f.ps.symm.trans hp) hd
  | nil =>
    cases off with
    | succ k0 =>
      -- the mark for the handshake
      by_cases hu : s.ps = .unwrapped
      · have hrest : Tidy rest := by
          rcases h.u hu with ⟨he, _⟩ | ⟨k, r, he, hr⟩
          · exact tidy_of_empty _ fun e hm => he e (by rw [hb]; exact List.mem_cons_of_mem _ hm)
          · rw [hb] at he; cases he; exact hr
        obtain ⟨f, hp, hr⟩ := doHandshake_spec c s hu
        have he1 : (Ssl.entry c s [] (k0 + 1)).1 = (doHandshake c s).1 := by
          exact markRes_fst _
        have he2 : ∀ w k, (Ssl.entry c s [] (k0 + 1)).2 = .ok (w, k) → (doHandshake c s).2 = .ok w := by
          intro w k hk
          exact markRes_ok _ hk
        have hn : ∀ {q : PS}, (q = .handshake ∨ q = .wrapped) → q ≠ .unwrapped ∧ q ≠ .shutdown := by
          intro q hq; rcases hq with hq | hq <;> rw [hq] <;> exact ⟨nofun, nofun⟩
        refine ⟨?_, fun w k hk => ⟨hr w (he2 w k hk), fun _ => ?_, fun hx => absurd rfl hx⟩⟩
        · rw [he1]
          constructor
          · rw [f.wire]; exact h.plain
          · intro hm; cases hm
          · rw [f.closing, f.backlog]; exact h.mark
          · intro hq; exact absurd hq (hn hp).1
          · intro _; rw [f.backlog, hb]; exact ⟨(fun _ hx => nomatch hx), hrest⟩
          · intro hq; exact absurd hq (hn hp).2
        · rw [he1]
          constructor
          · show Records (doHandshake c s).1.wire; rw [f.wire]; exact h.plain
          · intro hm; cases hm
          · show (doHandshake c s).1.closing = false → _; rw [f.closing]; exact hmr
          · intro hq; exact absurd hq (hn hp).1
          · intro _; exact hrest
          · intro hq; exact absurd hq (hn hp).2
      · have he : Ssl.entry c s [] (k0 + 1) = (s, .raised .runtime) := by
          show markRes (doHandshake c s) = _
          rw [doHandshake_not c s hu]; rfl
        rw [he]
        exact ⟨h, fun w k hk => by cases hk⟩
    | zero =>
      by_cases hu : s.ps = .unwrapped ∨ s.ps = .shutdown
      · have he : Ssl.entry c s [] 0 = (s, .raised .runtime) := by
          show markRes (pipeShutdown c s) = _
          rw [pipeShutdown_not c s hu]; rfl
        rw [he]
        exact ⟨h, fun w k hk => by cases hk⟩
      · obtain ⟨f, hp, hr⟩ := pipeShutdown_spec c s hu
        have hcl : s.closing = true := by
          cases hc : s.closing with
          | true => rfl
          | false => exact absurd rfl (h.mark hc ([], 0) (by rw [hb]; exact List.mem_cons_self ..))
        have hw : s.ps = .handshake ∨ s.ps = .wrapped := by
          cases hp : s.ps with
          | unwrapped => exact absurd (Or.inl hp) hu
          | handshake => exact Or.inl rfl
          | wrapped => exact Or.inr rfl
          | shutdown => exact absurd (Or.inr hp) hu
        have ht := h.w hw
        rw [hb] at ht
        have hrest : ∀ e ∈ rest, e.1 = [] := ht.1 rfl rfl
        have he1 : (Ssl.entry c s [] 0).1 = (pipeShutdown c s).1 := by
          exact markRes_fst _
        have he2 : ∀ w k, (Ssl.entry c s [] 0).2 = .ok (w, k) → (pipeShutdown c s).2 = .ok w := by
          intro w k hk
          exact markRes_ok _ hk
        have hn : ∀ {q : PS}, (q = .shutdown ∨ q = .unwrapped) → ¬(q = .handshake ∨ q = .wrapped) := by
          intro q hq; rcases hq with hq | hq <;> rw [hq] <;> (intro h; rcases h with h | h <;> cases h)
        refine ⟨?_, fun w k hk => ⟨hr w (he2 w k hk), fun _ => ?_, fun hx => absurd rfl hx⟩⟩
        · rw [he1]
          have hall : ∀ e ∈ s.backlog, e.1 = [] := by
            intro e he
            rw [hb] at he
            rcases List.mem_cons.1 he with he | he
            · rw [he]
            · exact hrest e he
          constructor
          · rw [f.wire]; exact h.plain
          · intro hm; cases hm
          · rw [f.closing, f.backlog]; exact h.mark
          · intro _; rw [f.backlog, f.closing]; exact Or.inl ⟨hall, Or.inl hcl⟩
          · intro hq; exact absurd hq (hn hp)
          · intro _; rw [f.backlog, f.closing]; exact ⟨hcl, hall⟩
        · rw [he1]
          constructor
          · show Records (pipeShutdown c s).1.wire; rw [f.wire]; exact h.plain
          · intro hm; cases hm
          · show (pipeShutdown c s).1.closing = false → _; rw [f.closing]; exact hmr
          · intro _
            exact Or.inl ⟨hrest, Or.inl (f.closing.trans hcl)⟩
          · intro hq; exact absurd hq (hn hp)
          · intro _; exact ⟨f.closing.trans hcl, hrest⟩

theorem Conf.procLoop (c : Cfg) (n : Nat) : ∀ {s : St E}, Conf true s → Conf true (procLoop c n s).1 := by
  induction n with
  | zero => intro s h; exact h
  | succ n ih =>
    intro s h
    unfold Ssl.procLoop
    split
    · exact h
    · next data off rest hb =>
      have he := h.entry c hb
      split
      · next s1 e hq => rw [hq] at he; exact he.1
      · next s1 hq => rw [hq] at he; exact he.1
      · next s1 ssl off1 hq =>
        rw [hq] at he
        obtain ⟨hr, hdone, hmore⟩ := he.2 ssl off1 rfl
        have f := frameW_trWrites ssl s1
        have keep : ∀ b, Conf true { s1 with backlog := b } → Conf true { trWrites s1 ssl with backlog := b } := by
          intro b hc
          have hw : Records (trWrites s1 ssl).wire := records_trWrites hr he.1.plain
          constructor
          · exact hw
          · intro hm; cases hm
          · show (trWrites s1 ssl).closing = false → _; rw [f.closing]; exact hc.mark
          · show (trWrites s1 ssl).ps = _ → _; rw [f.ps]
            show _ → (_ ∧ ((trWrites s1 ssl).closing = true ∨ _)) ∨ _
            rw [f.closing]; exact hc.u
          · show (trWrites s1 ssl).ps = _ ∨ _ → _; rw [f.ps]; exact hc.w
          · show (trWrites s1 ssl).ps = _ → (trWrites s1 ssl).closing = true ∧ _; rw [f.ps, f.closing]; exact hc.d
        by_cases hlt : off1 < data.length
        · have hne : data ≠ [] := by intro hx; rw [hx] at hlt; exact absurd hlt (Nat.not_lt_zero _)
          have hcc := keep _ (hmore hne off1)
          simp only [hlt, if_true]
          split <;> exact hcc
        · simp only [hlt, if_false]
          exact ih (keep _ (hdone (Nat.le_of_not_lt hlt)))

theorem Conf.trForce {m : Bool} {s : St E} (h : Conf m s) : Conf m (trForce s) := by
  unfold Ssl.trForce; split
  · exact h
  · exact h.congr rfl rfl rfl rfl rfl

theorem Conf.trClose {m : Bool} {s : St E} (h : Conf m s) (c : Cfg) : Conf m (trClose c s) :=
  h.congr (frame_trClose c s).wire (frame_trClose c s).tr (ps_trClose c s) (frame_trClose c s).backlog
    (frame_trClose c s).closing

theorem Conf.process {m : Bool} {s : St E} (h : Conf m s) (c : Cfg) : Conf m (process c s).1 := by
  unfold Ssl.process
  by_cases ht : s.tr = true
  · have hm : m = true := by
      cases m with
      | true => rfl
      | false => rw [(h.early rfl).1] at ht; cases ht
    subst hm
    rw [if_pos ht]
    have hp := h.procLoop c s.backlog.length
    unfold procEnd
    split
    · next hq => rw [hq] at hp; exact hp
    · next hq => rw [hq] at hp; exact hp.congr rfl rfl rfl rfl rfl
    · next s1 e hq =>
      rw [hq] at hp
      split
      · have f := frame_hsErr c s1 e
        exact hp.congr f.wire f.tr (ps_hsErr c s1 e) f.backlog f.closing
      · unfold fatalError
        have h1 : Conf true { s1 with fatal := true } := hp.congr rfl rfl rfl rfl rfl
        show Conf true (if s1.tr = true then Ssl.trForce { s1 with fatal := true } else { s1 with fatal := true })
        split
        · exact h1.trForce
        · exact h1
  · rw [if_neg ht]; exact h

/-- Closing keeps the invariant. -/
theorem Conf.close {m : Bool} {s : St E} (h : Conf m s) (c : Cfg) : Conf m (close c s).1 := by
  unfold Ssl.close
  split
  · exact h
  · unfold writeApp
    refine Conf.process ?_ c
    constructor
    · exact h.plain
    · intro hm
      obtain ⟨a, b, d⟩ := h.early hm
      refine ⟨a, b, fun e he => ?_⟩
      rcases List.mem_append.1 he with he | he
      · exact d e he
      · exact List.mem_singleton.1 he
    · intro hc; cases hc
    · intro hp
      rcases h.u hp with ⟨he, _⟩ | ⟨k, rest, hb, hr⟩
      · refine Or.inl ⟨fun e hm => ?_, Or.inl rfl⟩
        rcases List.mem_append.1 hm with hm | hm
        · exact he e hm
        · rw [List.mem_singleton.1 hm]
      · refine Or.inr ⟨k, rest ++ [([], 0)], ?_, tidy_append_empty rfl _ hr⟩
        show s.backlog ++ [([], 0)] = _
        rw [hb]; rfl
    · intro hp; exact tidy_append_empty rfl _ (h.w hp)
    · intro hp
      refine ⟨rfl, fun e hm => ?_⟩
      rcases List.mem_append.1 hm with hm | hm
      · exact (h.d hp).2 e hm
      · rw [List.mem_singleton.1 hm]

/-- Writing when the layer is not closing and `connection_made` was called keeps the invariant. -/
theorem Conf.write {s : St E} (h : Conf true s) (c : Cfg) (hc : s.closing = false) (d : Bytes) :
    Conf true (writeApp c s d).1 ∨ d = [] := by
  cases d with
  | nil => exact Or.inr rfl
  | cons x xs =>
  left
  unfold writeApp
  refine Conf.process ?_ c
  constructor
  · exact h.plain
  · intro hm; cases hm
  · intro hcc e hm
    rcases List.mem_append.1 hm with hm | hm
    · exact h.mark hc e hm
    · rw [List.mem_singleton.1 hm]; intro hx; cases hx
  · intro hp
    rcases h.u hp with ⟨_, hx⟩ | ⟨k, rest, hb, hr⟩
    · rw [hc] at hx; rcases hx with hx | hx <;> cases hx
    · refine Or.inr ⟨k, rest ++ [(x :: xs, 0)], ?_, tidy_append_nomark _ hr fun e he => ?_⟩
      · show s.backlog ++ _ = _; rw [hb]; rfl
      · exact h.mark hc e (by rw [hb]; exact List.mem_cons_of_mem _ he)
  · intro hp; exact tidy_append_nomark _ (h.w hp) (h.mark hc)
  · intro hp; rw [(h.d hp).1] at hc; cases hc

theorem Conf.deliver {m : Bool} (c : Cfg) (l : List Bytes) : ∀ {s : St E}, Conf m s → Conf m (deliver c s l).1 := by
  induction l with
  | nil => intro s h; exact h
  | cons x xs ih =>
    intro s h
    cases x with
    | nil => exact h.close c
    | cons b bs => exact ih (s := { s with app := s.app ++ [.data (b :: bs)] }) (h.congr rfl rfl rfl rfl rfl)

theorem Conf.abort {m : Bool} {s : St E} (h : Conf m s) (c : Cfg) : Conf m (abort c s) := by
  unfold Ssl.abort
  split
  · exact Conf.trClose (Conf.trForce (s := { s with aborted := true }) (h.congr rfl rfl rfl rfl rfl)) c
  · exact h

theorem Conf.dataReceived {s : St E} (h : Conf true s) (c : Cfg) (b : Bytes) : Conf true (dataReceived c s b).1 := by
  have hf := h.feedSsl c b false
  have hr := @records_feedSsl E c s b false
  unfold Ssl.dataReceived
  split
  · next s1 ssl a hq =>
    rw [hq] at hf
    have f := frameW_trWrites ssl s1
    refine Conf.deliver c a ?_
    have hw : Records (trWrites s1 ssl).wire := records_trWrites (hr (by rw [hq])) hf.plain
    constructor
    · exact hw
    · intro hm; cases hm
    · rw [f.closing, f.backlog]; exact hf.mark
    · rw [f.closing, f.backlog, f.ps]; exact hf.u
    · rw [f.backlog, f.ps]; exact hf.w
    · rw [f.closing, f.backlog, f.ps]; exact hf.d
  · next s1 e hq =>
    rw [hq] at hf
    split
    · exact hf.abort c
    · exact hf
  · next s1 hq => rw [hq] at hf; exact hf.congr rfl rfl rfl rfl rfl

theorem Conf.eof {m : Bool} {s : St E} (h : Conf m s) (c : Cfg) : Conf m (eofReceived c s) := by
  have f := frame_wake s (some .reset)
  have h1 : Conf m (wake s (some .reset)) := h.congr f.wire f.tr (ps_wake _ _) f.backlog f.closing
  unfold eofReceived
  refine Conf.trClose ?_ c
  show Conf m (if (wake s (some .reset)).inHs = true then _ else _)
  split
  · exact h1
  · exact h1.congr rfl rfl rfl rfl rfl

theorem Conf.lost {s : St E} (h : Conf true s) (e : Option Err) : Conf true (connectionLost s e) := by
  have h1 : Conf true { (if s.est = true then { s with est := false, app := s.app ++ [App.lost] } else s : St E)
      with tr := false } := by
    split
    · exact ⟨h.plain, (fun hm => by cases hm), h.mark, h.u, h.w, h.d⟩
    · exact ⟨h.plain, (fun hm => by cases hm), h.mark, h.u, h.w, h.d⟩
  have f := frame_wake { (if s.est = true then { s with est := false, app := s.app ++ [App.lost] } else s : St E)
      with tr := false } e
  exact h1.congr f.wire f.tr (ps_wake _ _) f.backlog f.closing

theorem Conf.made {s : St E} (h : Conf false s) : Conf true (connectionMade s) := by
  obtain ⟨_, _, he⟩ := h.early rfl
  constructor
  · exact h.plain
  · intro hm; cases hm
  · intro hc e hm
    rcases List.mem_append.1 hm with hm | hm
    · exact h.mark hc e hm
    · rw [List.mem_singleton.1 hm]; intro hx; cases hx
  · intro _
    cases hb : s.backlog with
    | nil => exact Or.inr ⟨0, [], by show s.backlog ++ _ = _; rw [hb]; rfl, trivial⟩
    | cons x xs =>
      refine Or.inl ⟨fun e hm => ?_, Or.inl ?_⟩
      · rcases List.mem_append.1 hm with hm | hm
        · rw [he e hm]
        · rw [List.mem_singleton.1 hm]
      · show s.closing = true
        cases hc : s.closing with
        | true => rfl
        | false => exact absurd (he x (by rw [hb]; exact List.mem_cons_self ..)) (h.mark hc x (by rw [hb]; exact List.mem_cons_self ..))
  · intro hp; rcases hp with hp | hp <;> cases hp
  · intro hp; cases hp

theorem Conf.init : Conf false (init E) := by
  constructor
  · intro w hw; cases hw
  · intro _; exact ⟨rfl, rfl, fun e he => by cases he⟩
  · intro _ e he; cases he
  · intro _; exact Or.inl ⟨(fun _ he => nomatch he), Or.inr rfl⟩
  · intro hp; rcases hp with hp | hp <;> cases hp
  · intro hp; cases hp

end Verif.Ssl
