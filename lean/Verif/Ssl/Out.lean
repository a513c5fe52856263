import Verif.Ssl.Lemmas

/-! What is written leaves the backlog in order and once, and a write that was refused is repeated: the invariant. -/

namespace Verif.Ssl

variable {E : Engine}

/-- What `_ssl` promises, as the docstring of `feed_application_data` says: a write takes everything or raises. -/
def FullWrites (E : Engine) : Prop := ∀ g b g' n, E.write g b = (g', .ok n) → n = b.length

/-- The bytes waiting in the backlog. -/
def pending (l : List (Bytes × Nat)) : Bytes := (l.map fun e => e.1.drop e.2).flatten

/-- After a buffer that was not taken, the next one is the same. -/
def Retried : List (Bytes × Bool) → Prop
  | [] => True
  | (b, k) :: rest => (k = false → ∀ x, rest.head? = some x → x.1 = b) ∧ Retried rest

/-- The buffer that has to be repeated. -/
def openWrite (l : List (Bytes × Bool)) : Option Bytes :=
  match l.getLast? with
  | some (b, false) => some b
  | _ => none

theorem openWrite_snoc_true (l : List (Bytes × Bool)) (b : Bytes) : openWrite (l ++ [(b, true)]) = none := by
  simp [openWrite]

theorem openWrite_snoc_false (l : List (Bytes × Bool)) (b : Bytes) : openWrite (l ++ [(b, false)]) = some b := by
  simp [openWrite]

theorem openWrite_cons (x y : Bytes × Bool) (l : List (Bytes × Bool)) : openWrite (x :: y :: l) = openWrite (y :: l) := by
  simp [openWrite, List.getLast?_cons_cons]

theorem retried_snoc (b : Bytes) (k : Bool) : ∀ l : List (Bytes × Bool), Retried l →
    (∀ b', openWrite l = some b' → b = b') → Retried (l ++ [(b, k)]) := by
  intro l
  induction l with
  | nil => intro _ _; exact ⟨(fun _ _ h => nomatch h), trivial⟩
  | cons x xs ih =>
    intro h ho
    cases xs with
    | nil =>
      refine ⟨fun hk y hy => ?_, (fun _ _ h => nomatch h), trivial⟩
      cases hy
      obtain ⟨xb, xk⟩ := x
      cases hk
      exact ho xb rfl
    | cons y ys =>
      refine ⟨fun hk z hz => h.1 hk z hz, ih h.2 fun b' hb => ho b' ?_⟩
      rw [openWrite_cons]; exact hb

/-- The invariant; `w` is what was written so far. -/
structure Outb (w : Bytes) (s : St E) : Prop where
  sum : s.sent ++ pending s.backlog = w
  retried : Retried s.calls
  head : ∀ b, openWrite s.calls = some b → s.ps ≠ .unwrapped →
    ∃ data off rest, s.backlog = (data, off) :: rest ∧ off < data.length ∧ data.drop off = b

theorem Outb.congr {w : Bytes} {s s' : St E} (h : Outb w s) (hs : s'.sent = s.sent) (hb : s'.backlog = s.backlog)
    (hc : s'.calls = s.calls) (hp : s'.ps ≠ .unwrapped → s.ps ≠ .unwrapped) : Outb w s' := by
  constructor
  · rw [hs, hb]; exact h.sum
  · rw [hc]; exact h.retried
  · rw [hc, hb]; intro b hob hu; exact h.head b hob (hp hu)

theorem Outb.feedSsl {w : Bytes} {s : St E} (h : Outb w s) (c : Cfg) (d : Bytes) (o : Bool) :
    Outb w (feedSsl c s d o).1 := by
  have f := frame_feedSsl c s d o
  exact h.congr f.sent f.backlog f.calls fun hu hp => hu (ps_feedSsl_unwrapped c s d o hp)

theorem sent_drainW (s : St E) : (drainW s).1.sent = s.sent := by unfold drainW; split <;> rfl
theorem calls_drainW (s : St E) : (drainW s).1.calls = s.calls := by unfold drainW; split <;> rfl
theorem need_drainW (s : St E) : (drainW s).1.need = s.need := by unfold drainW; split <;> rfl

/-- The loop over one entry with an engine that takes everything or nothing: either everything was taken, or nothing
was and the same buffer has to be repeated. -/
theorem appLoop_full (hE : FullWrites E) (f : Nat) : ∀ (s : St E) (d : Bytes) (o : Nat) (acc : List Wire),
    o < d.length → Retried s.calls → (∀ b, openWrite s.calls = some b → d.drop o = b) →
    Retried (appLoop f s d o acc).1.calls ∧
    (((∃ v, (appLoop f s d o acc).2 = .ok (v, d.length)) ∧ (appLoop f s d o acc).1.sent = s.sent ++ d.drop o ∧
        openWrite (appLoop f s d o acc).1.calls = none) ∨
     ((∀ v k, (appLoop f s d o acc).2 = .ok (v, k) → k = o ∧ (appLoop f s d o acc).1.need = true) ∧
        (appLoop f s d o acc).1.sent = s.sent ∧
        ∀ b, openWrite (appLoop f s d o acc).1.calls = some b → d.drop o = b)) := by
  induction f with
  | zero => intro s d o acc _ hr ho; exact ⟨hr, Or.inr ⟨(fun _ _ hk => nomatch hk), rfl, ho⟩⟩
  | succ f ih =>
    intro s d o acc hlt hr ho
    have hr' : ∀ k, Retried (s.calls ++ [(d.drop o, k)]) := fun k => retried_snoc _ k _ hr ho
    unfold appLoop appWrite
    rw [if_pos hlt]
    split
    · next s1 e hq =>
      split at hq
      · cases hq
      · split at hq
        · cases hq
        · cases hq
          refine ⟨hr' false, Or.inr ⟨(fun _ _ hk => nomatch hk), rfl, fun b hb => ?_⟩⟩
          rw [openWrite_snoc_false] at hb
          exact Option.some.inj hb
    · next s1 hq =>
      split at hq
      · cases hq
      · split at hq <;> cases hq
    · next s1 off1 hq =>
      split at hq
      · next g n he =>
        cases hq
        have hn := hE _ _ _ _ he
        rw [List.length_drop] at hn
        have hl : o + n = d.length := by omega
        simp only [hl, true_or, if_true, sent_drainW, calls_drainW]
        refine ⟨hr' true, Or.inl ⟨⟨_, rfl⟩, ?_, openWrite_snoc_true _ _⟩⟩
        rw [List.take_of_length_le]
        rw [List.length_drop]; omega
      · next g e he =>
        split at hq
        · next b hbn =>
          cases hq
          have hne : ¬ o = d.length := by omega
          cases b with
          | true =>
            simp only [need_drainW, hne, false_or, if_true]
            refine ⟨by rw [calls_drainW]; exact hr' false, Or.inr ⟨fun v k hk => ?_, sent_drainW _, fun b hb => ?_⟩⟩
            · cases hk; exact ⟨rfl, trivial⟩
            · rw [calls_drainW, openWrite_snoc_false] at hb
              exact Option.some.inj hb
          | false =>
            simp only [need_drainW, hne, false_or, Bool.false_eq_true, if_false]
            have h2 := ih (drainW { s with eng := g, need := false, calls := s.calls ++ [(d.drop o, false)] }).1 d o
              (acc ++ (drainW { s with eng := g, need := false, calls := s.calls ++ [(d.drop o, false)] }).2) hlt
              (by rw [calls_drainW]; exact hr' false)
              (by rw [calls_drainW]; intro b hb; rw [openWrite_snoc_false] at hb; exact Option.some.inj hb)
            rw [sent_drainW] at h2
            exact h2
        · cases hq

/-- An entry of data whose offset is at its end would be dropped at the next round; it does not happen. -/
def Offs (l : List (Bytes × Nat)) : Prop := ∀ e ∈ l, e.1 ≠ [] → e.2 < e.1.length

theorem pending_cons (d : Bytes) (o : Nat) (l : List (Bytes × Nat)) : pending ((d, o) :: l) = d.drop o ++ pending l := rfl

theorem pending_append (a b : List (Bytes × Nat)) : pending (a ++ b) = pending a ++ pending b := by
  simp [pending]

/-- One entry of the backlog. -/
theorem Outb.entry {w : Bytes} {s : St E} (hE : FullWrites E) (h : Outb w s) (c : Cfg) {data : Bytes} {off : Nat}
    {rest : List (Bytes × Nat)} (hb : s.backlog = (data, off) :: rest) (hoff : data ≠ [] → off < data.length) :
    (Ssl.entry c s data off).1.backlog = s.backlog ∧
    match (Ssl.entry c s data off).2 with
    | .ok (_, k) => (data.length ≤ k ∧ Outb w { (Ssl.entry c s data off).1 with backlog := rest }) ∨
        (k = off ∧ data ≠ [] ∧ Outb w (Ssl.entry c s data off).1)
    | _ => Outb w (Ssl.entry c s data off).1 := by
  have hsum := h.sum
  rw [hb, pending_cons] at hsum
  cases data with
  | cons x xs =>
    have hlt : off < (x :: xs).length := hoff nofun
    show (feedApp c s (x :: xs) off).1.backlog = _ ∧ match (feedApp c s (x :: xs) off).2 with
      | .ok (_, k) => ((x :: xs).length ≤ k ∧ Outb w { (feedApp c s (x :: xs) off).1 with backlog := rest }) ∨
          (k = off ∧ (x :: xs) ≠ [] ∧ Outb w (feedApp c s (x :: xs) off).1)
      | _ => Outb w (feedApp c s (x :: xs) off).1
    by_cases hu : s.ps = .unwrapped
    · unfold feedApp
      rw [if_pos hu]
      refine ⟨rfl, Or.inl ⟨Nat.le_refl _, ?_, h.retried, fun b _ hp => absurd hu hp⟩⟩
      show (s.sent ++ (x :: xs).drop off) ++ pending rest = w
      rw [List.append_assoc]; exact hsum
    · unfold feedApp
      rw [if_neg hu]
      have f := frameA_appLoop c.fuel s (x :: xs) off []
      have ho : ∀ b, openWrite s.calls = some b → (x :: xs).drop off = b := by
        intro b hob
        obtain ⟨d', o', r', he, _, hd⟩ := h.head b hob hu
        rw [hb] at he; cases he; exact hd
      obtain ⟨hr, hcase⟩ := appLoop_full hE c.fuel s (x :: xs) off [] hlt h.retried ho
      refine ⟨f.backlog, ?_⟩
      rcases hcase with ⟨⟨v, hv⟩, hs, hop⟩ | ⟨hk, hs, hop⟩
      · rw [hv]
        refine Or.inl ⟨Nat.le_refl _, ?_, hr, fun b hob _ => ?_⟩
        · show (appLoop c.fuel s (x :: xs) off []).1.sent ++ pending rest = w
          rw [hs, List.append_assoc]; exact hsum
        · rw [hop] at hob; cases hob
      · have hout : Outb w (appLoop c.fuel s (x :: xs) off []).1 := by
          refine ⟨?_, hr, fun b hob _ => ⟨x :: xs, off, rest, f.backlog.trans hb, hlt, hop b hob⟩⟩
          rw [hs, f.backlog]; exact h.sum
        split
        · next k hq => exact Or.inr ⟨(hk _ _ hq).1, nofun, hout⟩
        · exact hout
  | nil =>
    have hsum' : s.sent ++ pending rest = w := by
      rw [List.drop_nil, List.nil_append] at hsum; exact hsum
    have hno : s.ps ≠ .unwrapped → openWrite s.calls = none := by
      intro hu
      cases ho : openWrite s.calls with
      | none => rfl
      | some b =>
        obtain ⟨d', o', r', he, hl, _⟩ := h.head b ho hu
        rw [hb] at he; cases he; exact absurd hl (Nat.not_lt_zero _)
    cases off with
    | succ k0 =>
      have key : Frame { s with calls := [] } (doHandshake c s).1 ∨ (doHandshake c s) = (s, .raised .runtime) := by
        by_cases hu : s.ps = .unwrapped
        · exact Or.inl (doHandshake_spec c s hu).1
        · exact Or.inr (doHandshake_not c s hu)
      show (markRes (doHandshake c s)).1.backlog = _ ∧ match (markRes (doHandshake c s)).2 with
        | Res.ok (_, k) => (([] : Bytes).length ≤ k ∧ Outb w { (markRes (doHandshake c s)).1 with backlog := rest }) ∨
            (k = _ ∧ ([] : Bytes) ≠ [] ∧ Outb w (markRes (doHandshake c s)).1)
        | _ => Outb w (markRes (doHandshake c s)).1
      rw [markRes_fst]
      rcases key with f | he
      · have hout : Outb w (doHandshake c s).1 := by
          refine ⟨?_, ?_, ?_⟩
          · rw [f.sent, f.backlog]; exact h.sum
          · rw [f.calls]; trivial
          · intro b hob; rw [f.calls] at hob; cases hob
        cases hq : doHandshake c s with
        | mk s1 r =>
        rw [hq] at f hout
        cases r with
        | ok ssl =>
          refine ⟨f.backlog, Or.inl ⟨Nat.zero_le _, ?_, hout.retried, fun b hob => ?_⟩⟩
          · show s1.sent ++ pending rest = w; rw [f.sent]; exact hsum'
          · rw [show ({ s1 with backlog := rest } : St E).calls = [] from f.calls] at hob; cases hob
        | raised e => exact ⟨f.backlog, hout⟩
        | hang => exact ⟨f.backlog, hout⟩
      · rw [he]; exact ⟨rfl, h⟩
    | zero =>
      have key : (Frame s (pipeShutdown c s).1 ∧ s.ps ≠ .unwrapped) ∨ (pipeShutdown c s) = (s, .raised .runtime) := by
        by_cases hu : s.ps = .unwrapped ∨ s.ps = .shutdown
        · exact Or.inr (pipeShutdown_not c s hu)
        · exact Or.inl ⟨(pipeShutdown_spec c s hu).1, fun hp => hu (Or.inl hp)⟩
      show (markRes (pipeShutdown c s)).1.backlog = _ ∧ match (markRes (pipeShutdown c s)).2 with
        | Res.ok (_, k) => (([] : Bytes).length ≤ k ∧ Outb w { (markRes (pipeShutdown c s)).1 with backlog := rest }) ∨
            (k = _ ∧ ([] : Bytes) ≠ [] ∧ Outb w (markRes (pipeShutdown c s)).1)
        | _ => Outb w (markRes (pipeShutdown c s)).1
      rw [markRes_fst]
      rcases key with ⟨f, hu⟩ | he
      · have hout : Outb w (pipeShutdown c s).1 := h.congr f.sent f.backlog f.calls fun _ => hu
        cases hq : pipeShutdown c s with
        | mk s1 r =>
        rw [hq] at f hout
        cases r with
        | ok ssl =>
          refine ⟨f.backlog, Or.inl ⟨Nat.zero_le _, ?_, hout.retried, fun b hob => ?_⟩⟩
          · show s1.sent ++ pending rest = w; rw [f.sent]; exact hsum'
          · rw [show ({ s1 with backlog := rest } : St E).calls = s.calls from f.calls, hno hu] at hob; cases hob
        | raised e => exact ⟨f.backlog, hout⟩
        | hang => exact ⟨f.backlog, hout⟩
      · rw [he]; exact ⟨rfl, h⟩

theorem Outb.procLoop (hE : FullWrites E) (c : Cfg) (w : Bytes) (n : Nat) : ∀ {s : St E}, Outb w s → Offs s.backlog →
    Outb w (procLoop c n s).1 ∧ Offs (procLoop c n s).1.backlog := by
  induction n with
  | zero => intro s h ho; exact ⟨h, ho⟩
  | succ n ih =>
    intro s h ho
    unfold Ssl.procLoop
    split
    · exact ⟨h, ho⟩
    · next data off rest hb =>
      have hrest : Offs rest := fun e he => ho e (by rw [hb]; exact List.mem_cons_of_mem _ he)
      obtain ⟨hbl, hcase⟩ := Outb.entry hE h c hb
        (fun hne => ho (data, off) (by rw [hb]; exact List.mem_cons_self ..) hne)
      split
      · next s1 e hq => rw [hq] at hcase hbl; exact ⟨hcase, by rw [hbl]; exact ho⟩
      · next s1 hq => rw [hq] at hcase hbl; exact ⟨hcase, by rw [hbl]; exact ho⟩
      · next s1 ssl off1 hq =>
        rw [hq] at hcase hbl
        have f := frameW_trWrites ssl s1
        rcases hcase with ⟨hle, hd⟩ | ⟨hk, hne, hd⟩
        · have hnl : ¬ off1 < data.length := Nat.not_lt.2 hle
          simp only [hnl, if_false]
          refine ih ?_ hrest
          exact hd.congr f.sent rfl f.calls (fun hu hp => hu (f.ps.trans hp))
        · have hlt : off1 < data.length := by
            rw [hk]; exact ho (data, off) (by rw [hb]; exact List.mem_cons_self ..) hne
          have hd2 : Outb w { trWrites s1 ssl with backlog := (data, off1) :: rest } :=
            hd.congr f.sent (by rw [hk]; exact (hbl.trans hb).symm) f.calls (fun hu hp => hu (f.ps.trans hp))
          have ho2 : Offs ((data, off1) :: rest) := by rw [hk, ← hb]; exact ho
          simp only [hlt, if_true]
          split
          · exact ⟨hd2, ho2⟩
          · exact ⟨hd2, ho2⟩

/-- The invariant together with the offsets. -/
def OutInv (w : Bytes) (s : St E) : Prop := Outb w s ∧ Offs s.backlog

theorem OutInv.congr {w : Bytes} {s s' : St E} (h : OutInv w s) (hs : s'.sent = s.sent) (hb : s'.backlog = s.backlog)
    (hc : s'.calls = s.calls) (hp : s'.ps ≠ .unwrapped → s.ps ≠ .unwrapped) : OutInv w s' :=
  ⟨h.1.congr hs hb hc hp, by rw [hb]; exact h.2⟩

theorem OutInv.frame {w : Bytes} {s s' : St E} (h : OutInv w s) (f : Frame s s') (hp : s'.ps = s.ps) : OutInv w s' :=
  h.congr f.sent f.backlog f.calls (fun hu => by rw [← hp]; exact hu)

theorem OutInv.trForce {w : Bytes} {s : St E} (h : OutInv w s) : OutInv w (trForce s) := by
  unfold Ssl.trForce; split
  · exact h
  · exact h.congr rfl rfl rfl id

theorem OutInv.trClose {w : Bytes} {s : St E} (h : OutInv w s) (c : Cfg) : OutInv w (trClose c s) :=
  h.frame (frame_trClose c s) (ps_trClose c s)

theorem OutInv.process {w : Bytes} {s : St E} (hE : FullWrites E) (h : OutInv w s) (c : Cfg) :
    OutInv w (process c s).1 := by
  unfold Ssl.process
  split
  · have hp : OutInv w (Ssl.procLoop c s.backlog.length s).1 := h.1.procLoop hE c w _ h.2
    unfold procEnd
    split
    · next hq => rw [hq] at hp; exact hp
    · next hq => rw [hq] at hp; exact hp.congr rfl rfl rfl id
    · next s1 e hq =>
      rw [hq] at hp
      split
      · exact hp.frame (frame_hsErr c s1 e) (ps_hsErr c s1 e)
      · have h1 : OutInv w { s1 with fatal := true } := hp.congr rfl rfl rfl id
        show OutInv w (if s1.tr = true then Ssl.trForce { s1 with fatal := true } else { s1 with fatal := true })
        split
        · exact h1.trForce
        · exact h1
  · exact h

theorem Outb.snoc {w : Bytes} {s : St E} (h : OutInv w s) (d : Bytes) (k : Nat) (hk : d ≠ [] → k = 0) :
    OutInv (w ++ d) { s with backlog := s.backlog ++ [(d, k)] } := by
  constructor
  · constructor
    · show s.sent ++ pending (s.backlog ++ [(d, k)]) = w ++ d
      rw [pending_append, ← List.append_assoc, h.1.sum]
      show w ++ (d.drop k ++ []) = _
      cases d with
      | nil => simp
      | cons x xs => rw [hk nofun]; simp
    · exact h.1.retried
    · intro b hob hu
      obtain ⟨data, off, rest, he, hl, hd⟩ := h.1.head b hob hu
      refine ⟨data, off, rest ++ [(d, k)], ?_, hl, hd⟩
      show s.backlog ++ _ = _; rw [he]; rfl
  · intro e he hne
    rcases List.mem_append.1 he with he | he
    · exact h.2 e he hne
    · rw [List.mem_singleton.1 he] at hne ⊢
      rw [hk hne]
      exact List.length_pos_iff.2 hne

theorem OutInv.close {w : Bytes} {s : St E} (hE : FullWrites E) (h : OutInv w s) (c : Cfg) : OutInv w (close c s).1 := by
  unfold Ssl.close
  split
  · exact h
  · unfold writeApp
    refine OutInv.process hE ?_ c
    have := Outb.snoc (s := { s with closing := true }) (h.congr rfl rfl rfl id) [] 0 (fun _ => rfl)
    rw [List.append_nil] at this
    exact this

theorem OutInv.deliver {w : Bytes} (hE : FullWrites E) (c : Cfg) (l : List Bytes) : ∀ {s : St E}, OutInv w s →
    OutInv w (deliver c s l).1 := by
  induction l with
  | nil => intro s h; exact h
  | cons x xs ih =>
    intro s h
    cases x with
    | nil => exact h.close hE c
    | cons b bs => exact ih (s := { s with app := s.app ++ [.data (b :: bs)] }) (h.congr rfl rfl rfl id)

theorem OutInv.abort {w : Bytes} {s : St E} (h : OutInv w s) (c : Cfg) : OutInv w (abort c s) := by
  unfold Ssl.abort
  split
  · exact OutInv.trClose (OutInv.trForce (s := { s with aborted := true }) (h.congr rfl rfl rfl id)) c
  · exact h

theorem OutInv.dataReceived {w : Bytes} {s : St E} (hE : FullWrites E) (h : OutInv w s) (c : Cfg) (b : Bytes) :
    OutInv w (dataReceived c s b).1 := by
  have hf : OutInv w (Ssl.feedSsl c s b false).1 :=
    ⟨h.1.feedSsl c b false, by rw [(frame_feedSsl c s b false).backlog]; exact h.2⟩
  unfold Ssl.dataReceived
  split
  · next s1 ssl a hq =>
    rw [hq] at hf
    have f := frameW_trWrites ssl s1
    exact OutInv.deliver hE c a (hf.congr f.sent f.backlog f.calls (fun hu hp => hu (f.ps.trans hp)))
  · next s1 e hq =>
    rw [hq] at hf
    split
    · exact hf.abort c
    · exact hf
  · next s1 hq => rw [hq] at hf; exact hf.congr rfl rfl rfl id

theorem OutInv.eof {w : Bytes} {s : St E} (h : OutInv w s) (c : Cfg) : OutInv w (eofReceived c s) := by
  have h1 : OutInv w (wake s (some .reset)) := h.frame (frame_wake _ _) (ps_wake _ _)
  unfold eofReceived
  refine OutInv.trClose ?_ c
  show OutInv w (if (wake s (some .reset)).inHs = true then _ else _)
  split
  · exact h1
  · exact h1.congr rfl rfl rfl id

theorem OutInv.lost {w : Bytes} {s : St E} (h : OutInv w s) (e : Option Err) : OutInv w (connectionLost s e) := by
  have h1 : OutInv w { (if s.est = true then { s with est := false, app := s.app ++ [App.lost] } else s : St E)
      with tr := false } := by
    split <;> exact h.congr rfl rfl rfl id
  exact h1.frame (frame_wake _ e) (ps_wake _ _)

theorem OutInv.made {w : Bytes} {s : St E} (h : OutInv w s) : OutInv w (connectionMade s) := by
  have h1 := Outb.snoc h [] 1 (fun hx => absurd rfl hx)
  rw [List.append_nil] at h1
  exact h1.congr rfl rfl rfl (fun hu => absurd rfl hu)

theorem OutInv.init : OutInv [] (init E) :=
  ⟨⟨rfl, trivial, (fun _ h => nomatch h)⟩, (fun _ h => nomatch h)⟩

end Verif.Ssl
