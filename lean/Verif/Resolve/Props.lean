import Verif.Resolve.Model

/-!
# C285–C288: asking name servers
-/

namespace Verif.Resolve

/-! ## C285: transports -/

/-- Over what a server may be asked: what the preference says; with TLS preferred no server known
not to support it; by itself TLS, unless the server is known not to support it or refused it. -/
inductive Allowed (W : World) (pref : Pref) (level : Nat → Level) : Ask → Prop
  | udp (i qs) : pref = .udp → Allowed W pref level ⟨i, .udp, qs⟩
  | tcp (i qs) : pref = .tcp → Allowed W pref level ⟨i, .tcp, qs⟩
  | tls (i qs) : pref = .tls → level i ≠ .no → Allowed W pref level ⟨i, .tls, qs⟩
  | autoTls (i qs) : pref = .auto → level i ≠ .no → Allowed W pref level ⟨i, .tls, qs⟩
  | autoNo (i qs) : pref = .auto → level i = .no → Allowed W pref level ⟨i, .tcp, qs⟩
  | autoRefused (i qs ps) : pref = .auto → level i = .maybe → W i .tls ps = .refused →
      Allowed W pref level ⟨i, .tcp, qs⟩

/-- The executors that fit a server. -/
def Fits (W : World) (pref : Pref) (level : Nat → Level) (s : S) (i : Nat) : Executor → Prop
  | .udp => pref = .udp
  | .tcp => pref = .tcp ∨ (pref = .auto ∧ s.level i = .no ∧
      (level i = .no ∨ (level i = .maybe ∧ ∃ ps, W i .tls ps = .refused)))
  | .tls => (pref = .tls ∧ level i ≠ .no) ∨ (pref = .auto ∧ level i = .yes)
  | .tlsThenTcp => pref = .auto ∧ level i = .maybe

structure Inv (W : World) (pref : Pref) (level : Nat → Level) (s : S) : Prop where
  levels : ∀ i, s.level i = level i ∨ (level i = .maybe ∧ s.level i = .no ∧ ∃ ps, W i .tls ps = .refused)
  asks : ∀ a ∈ s.log, Allowed W pref level a
  remembered : ∀ a ∈ s.log, a.via = .tcp → pref = .auto → s.level a.server = .no

theorem fits_choose (W : World) (pref : Pref) (level : Nat → Level) (s : S) (i : Nat) (e : Executor)
    (h : Inv W pref level s) (hc : choose pref (s.level i) = some (some e)) : Fits W pref level s i e := by
  have hl := h.levels i
  unfold choose at hc
  cases pref <;> cases hs : s.level i <;> rw [hs] at hc <;> simp at hc <;> subst hc <;> unfold Fits <;> grind

theorem inv_ask (W : World) (pref : Pref) (level : Nat → Level) (s : S) (i : Nat) (qs : List Question)
    (e : Executor) (h : Inv W pref level s) (hf : Fits W pref level s i e) :
    Inv W pref level (ask W i qs s e).2 ∧ Fits W pref level (ask W i qs s e).2 i e := by
  obtain ⟨h1, h2, h3⟩ := h
  cases e
  · refine ⟨⟨h1, ?_, ?_⟩, hf⟩
    · intro a ha
      rcases List.mem_append.1 ha with ha | ha
      · exact h2 a ha
      · rw [List.mem_singleton.1 ha]; exact .udp i qs hf
    · intro a ha
      rcases List.mem_append.1 ha with ha | ha
      · exact h3 a ha
      · rw [List.mem_singleton.1 ha]; intro hv; cases hv
  · refine ⟨⟨h1, ?_, ?_⟩, hf⟩
    · intro a ha
      rcases List.mem_append.1 ha with ha | ha
      · exact h2 a ha
      · rw [List.mem_singleton.1 ha]
        rcases hf with hf | ⟨hf, _, hl | ⟨hl, ps, hp⟩⟩
        · exact .tcp i qs hf
        · exact .autoNo i qs hf hl
        · exact .autoRefused i qs ps hf hl hp
    · intro a ha
      rcases List.mem_append.1 ha with ha | ha
      · exact h3 a ha
      · rw [List.mem_singleton.1 ha]
        intro _ hp
        rcases hf with hf | ⟨_, hl, _⟩
        · rw [hf] at hp; cases hp
        · exact hl
  · refine ⟨⟨h1, ?_, ?_⟩, hf⟩
    · intro a ha
      rcases List.mem_append.1 ha with ha | ha
      · exact h2 a ha
      · rw [List.mem_singleton.1 ha]
        rcases hf with ⟨hf, hl⟩ | ⟨hf, hl⟩
        · exact .tls i qs hf hl
        · exact .autoTls i qs hf (by rw [hl]; decide)
    · intro a ha
      rcases List.mem_append.1 ha with ha | ha
      · exact h3 a ha
      · rw [List.mem_singleton.1 ha]; intro hv; cases hv
  · unfold ask
    dsimp only
    split
    · rename_i hr
      refine ⟨⟨?_, ?_, ?_⟩, hf⟩
      · intro j
        dsimp only [put]
        split
        · rename_i e; subst e; exact Or.inr ⟨hf.2, rfl, qs, hr⟩
        · exact h1 j
      · intro a ha
        rcases List.mem_append.1 ha with ha | ha
        · exact h2 a ha
        · rcases List.mem_cons.1 ha with ha | ha
          · rw [ha]; exact .autoTls i qs hf.1 (by rw [hf.2]; decide)
          · rw [List.mem_singleton.1 ha]; exact .autoRefused i qs qs hf.1 hf.2 hr
      · intro a ha hv hp
        dsimp only [put]
        split
        · rfl
        · rename_i hne
          rcases List.mem_append.1 ha with ha | ha
          · exact h3 a ha hv hp
          · rcases List.mem_cons.1 ha with ha | ha
            · rw [ha] at hv; cases hv
            · rw [List.mem_singleton.1 ha] at hne; exact absurd rfl hne
    · refine ⟨⟨h1, ?_, ?_⟩, hf⟩
      · intro a ha
        rcases List.mem_append.1 ha with ha | ha
        · exact h2 a ha
        · rw [List.mem_singleton.1 ha]; exact .autoTls i qs hf.1 (by rw [hf.2]; decide)
      · intro a ha
        rcases List.mem_append.1 ha with ha | ha
        · exact h3 a ha
        · rw [List.mem_singleton.1 ha]; intro hv; cases hv

/-- Judging changes neither levels nor what was asked. -/
theorem judge_keeps (pref : Pref) (w i : Nat) (qs : List Question) (o : Out) (s : S) :
    (judge pref w i qs o s).2.level = s.level ∧ (judge pref w i qs o s).2.log = s.log := by
  unfold judge
  cases o <;> dsimp only <;> (repeat' split) <;> exact ⟨rfl, rfl⟩

theorem inv_judge (W : World) (pref : Pref) (level : Nat → Level) (s : S) (w i : Nat) (qs : List Question)
    (o : Out) (h : Inv W pref level s) : Inv W pref level (judge pref w i qs o s).2 := by
  have hk := judge_keeps pref w i qs o s
  exact ⟨by rw [hk.1]; exact h.levels, by rw [hk.2]; exact h.asks, by rw [hk.1, hk.2]; exact h.remembered⟩

theorem fits_judge (W : World) (pref : Pref) (level : Nat → Level) (s : S) (w i : Nat) (qs : List Question)
    (o : Out) (e : Executor) (h : Fits W pref level s i e) :
    Fits W pref level (judge pref w i qs o s).2 i e := by
  have hk := (judge_keeps pref w i qs o s).1
  unfold Fits at h ⊢
  rw [hk]
  exact h

theorem inv_askEach (W : World) (pref : Pref) (level : Nat → Level) (i : Nat) (e : Executor) :
    ∀ (qs : List Question) (any : Bool) (s : S), Inv W pref level s → Fits W pref level s i e →
      Inv W pref level (askEach W pref i e qs any s).2
  | [], any, s, h, _ => h
  | q :: qs, any, s, h, hf => by
    obtain ⟨ha, hfa⟩ := inv_ask W pref level s i [q] e h hf
    have hj := inv_judge W pref level _ 1 i [q] (ask W i [q] s e).1 ha
    have hfj := fits_judge W pref level _ 1 i [q] (ask W i [q] s e).1 e hfa
    unfold askEach
    split
    · rename_i heq; rw [heq] at hj hfj; exact inv_askEach W pref level i e qs _ _ hj hfj
    · rename_i heq; rw [heq] at hj hfj; exact inv_askEach W pref level i e qs _ _ hj hfj
    · rename_i heq; rw [heq] at hj; exact hj

theorem inv_loop (W : World) (c : Config) (level : Nat → Level) (qs : List Question) :
    ∀ (is : List Nat) (s : S), Inv W c.pref level s → Inv W c.pref level (loop W c qs is s).2
  | [], s, h => h
  | i :: is, s, h => by
    unfold loop
    split
    · exact h
    · exact inv_loop W c level qs is _ ⟨h.levels, h.asks, h.remembered⟩
    · rename_i e hc
      have hf := fits_choose W c.pref level s i e h hc
      split
      · have hj := inv_judge W c.pref level _ qs.length i qs (ask W i qs s e).1
          (inv_ask W c.pref level s i qs e h hf).1
        split
        · rename_i heq; rw [heq] at hj; exact hj
        · rename_i heq; rw [heq] at hj; exact inv_loop W c level qs is _ hj
        · rename_i heq; rw [heq] at hj; exact hj
      · have hj := inv_askEach W c.pref level i e qs false s h hf
        split
        · rename_i heq; rw [heq] at hj; exact hj
        · rename_i heq; rw [heq] at hj; exact inv_loop W c level qs is _ hj
        · rename_i heq; rw [heq] at hj; exact hj

theorem inv_execute (W : World) (c : Config) (start : Nat) (qs : List Question) (level : Nat → Level) :
    Inv W c.pref level (execute W c start qs level).2 := by
  have h0 : Inv W c.pref level { level := level } :=
    ⟨fun i => Or.inl rfl, (by intro a ha; cases ha), (by intro a ha; cases ha)⟩
  unfold execute
  split
  · exact h0
  · exact inv_loop W c level qs _ _ h0

/-- **C285.** Whatever the servers do, each is asked only over what is allowed. -/
theorem C285_transports (W : World) (c : Config) (start : Nat) (qs : List Question) (level : Nat → Level)
    (a : Ask) (ha : a ∈ (execute W c start qs level).2.log) : Allowed W c.pref level a :=
  (inv_execute W c start qs level).asks a ha

/-- **C285.** When TLS is preferred, nothing is asked in the clear. -/
theorem C285_tls_only (W : World) (c : Config) (start : Nat) (qs : List Question) (level : Nat → Level)
    (hp : c.pref = .tls) (a : Ask) (ha : a ∈ (execute W c start qs level).2.log) : a.via = .tls := by
  have := C285_transports W c start qs level a ha
  rw [hp] at this
  cases this with
  | udp _ _ h => cases h
  | tcp _ _ h => cases h
  | tls => rfl
  | autoTls => rfl
  | autoNo _ _ h => cases h
  | autoRefused _ _ _ h => cases h

/-- **C285.** A server which is asked in the clear by itself is known not to support TLS afterwards, so
that the next query does not try TLS; of no other server anything is learnt. -/
theorem C285_remembered (W : World) (c : Config) (start : Nat) (qs : List Question) (level : Nat → Level)
    (hp : c.pref = .auto) (i : Nat) :
    ((∃ ps, ⟨i, .tcp, ps⟩ ∈ (execute W c start qs level).2.log) →
      (execute W c start qs level).2.level i = .no ∧ choose .auto ((execute W c start qs level).2.level i) = some (some .tcp)) ∧
    ((execute W c start qs level).2.level i = level i ∨
      (level i = .maybe ∧ (execute W c start qs level).2.level i = .no ∧ ∃ ps, W i .tls ps = .refused)) := by
  have h := inv_execute W c start qs level
  refine ⟨?_, h.levels i⟩
  rintro ⟨ps, hm⟩
  have := h.remembered _ hm rfl hp
  exact ⟨this, by rw [this]; rfl⟩

example :
    let W : World := fun i v _ => if v = .tls then .refused else if i = 1 then .result [] else .timeout
    let r := execute W ⟨.auto, 2, 2, fun _ => true⟩ 0 [⟨7, .v4⟩] (fun _ => .maybe)
    r.1 = .returned ∧ r.2.log = [⟨0, .tls, [⟨7, .v4⟩]⟩, ⟨0, .tcp, [⟨7, .v4⟩]⟩, ⟨1, .tls, [⟨7, .v4⟩]⟩, ⟨1, .tcp, [⟨7, .v4⟩]⟩] ∧
      r.2.level 0 = .no ∧ r.2.level 2 = .maybe := by decide

/-! ## C286: the next server -/

/-- What asking a server with all questions at once gives, under a preference and a level. -/
inductive Gives (W : World) (pref : Pref) (level : Nat → Level) (qs : List Question) (i : Nat) : Out → Prop
  | udp : pref = .udp → Gives W pref level qs i (W i .udp qs)
  | tcp : pref = .tcp → Gives W pref level qs i (W i .tcp qs)
  | tls : pref = .tls → level i ≠ .no → Gives W pref level qs i (W i .tls qs)
  | autoNo : pref = .auto → level i = .no → Gives W pref level qs i (W i .tcp qs)
  | autoTls : pref = .auto → level i ≠ .no → ¬ (level i = .maybe ∧ W i .tls qs = .refused) →
      Gives W pref level qs i (W i .tls qs)
  | autoRefused : pref = .auto → level i = .maybe → W i .tls qs = .refused →
      Gives W pref level qs i (W i .tcp qs)

/-- A server that gives nothing, and does not fail: it does not support TLS although it is preferred,
it does not answer in time, it answers nothing, or it refuses TLS when that is preferred. -/
inductive Quiet (W : World) (pref : Pref) (level : Nat → Level) (qs : List Question) (i : Nat) : Prop
  | skipped : pref = .tls → level i = .no → Quiet W pref level qs i
  | timeout : Gives W pref level qs i .timeout → Quiet W pref level qs i
  | nothing : Gives W pref level qs i .nothing → Quiet W pref level qs i
  | refused : pref = .tls → Gives W pref level qs i .refused → Quiet W pref level qs i

/-- How levels change when all questions are asked at once. -/
def Levels (W : World) (pref : Pref) (level : Nat → Level) (qs : List Question) (s : S) : Prop :=
  ∀ i, s.level i = level i ∨ (pref = .auto ∧ level i = .maybe ∧ s.level i = .no ∧ W i .tls qs = .refused)

theorem levels_ask (W : World) (pref : Pref) (level : Nat → Level) (s : S) (i : Nat) (qs : List Question)
    (e : Executor) (h : Levels W pref level qs s) (hc : choose pref (s.level i) = some (some e)) :
    Levels W pref level qs (ask W i qs s e).2 := by
  cases e
  · exact h
  · exact h
  · exact h
  · have hs : pref = .auto ∧ s.level i = .maybe := by
      unfold choose at hc
      cases pref <;> cases hs : s.level i <;> rw [hs] at hc <;> simp at hc
      exact ⟨rfl, rfl⟩
    have hi := h i
    have hi : level i = .maybe := by grind
    unfold ask
    dsimp only
    split
    · rename_i hr
      intro j
      dsimp only [put]
      split
      · rename_i e; subst e; exact Or.inr ⟨hs.1, hi, rfl, hr⟩
      · exact h j
    · exact h

theorem gives_ask (W : World) (pref : Pref) (level : Nat → Level) (s : S) (i : Nat) (qs : List Question)
    (h : Levels W pref level qs s) (o : Out) (hg : Gives W pref level qs i o) :
    ∃ e, choose pref (s.level i) = some (some e) ∧ (ask W i qs s e).1 = o := by
  have hi := h i
  cases hg with
  | udp hp => exact ⟨.udp, by rw [hp]; rfl, rfl⟩
  | tcp hp => exact ⟨.tcp, by rw [hp]; rfl, rfl⟩
  | tls hp hl =>
    have hm : s.level i ≠ .no := by grind
    exact ⟨.tls, by rw [hp]; simp [choose, hm], rfl⟩
  | autoNo hp hl =>
    have : s.level i = .no := by grind
    exact ⟨.tcp, by rw [hp, this]; rfl, rfl⟩
  | autoTls hp hl hn =>
    have : s.level i = level i := by grind
    cases hl' : level i with
    | no => exact absurd hl' hl
    | yes => exact ⟨.tls, by rw [hp, this, hl']; rfl, rfl⟩
    | maybe =>
      refine ⟨.tlsThenTcp, by rw [hp, this, hl']; rfl, ?_⟩
      unfold ask
      dsimp only
      rw [if_neg (fun hr => hn ⟨hl', hr⟩)]
  | autoRefused hp hl hr =>
    rcases hi with hs | ⟨_, _, hs, _⟩
    · refine ⟨.tlsThenTcp, by rw [hp, hs, hl]; rfl, ?_⟩
      unfold ask
      dsimp only
      rw [if_pos hr]
    · exact ⟨.tcp, by rw [hp, hs]; rfl, rfl⟩

/-- The outcome decides what is done with a server. -/
theorem quiet_goes_on (W : World) (c : Config) (level : Nat → Level) (qs : List Question) (i : Nat)
    (is : List Nat) (s : S) (hm : c.multiple i = true ∨ qs.length = 1) (h : Levels W c.pref level qs s)
    (hg : s.got = []) (hq : Quiet W c.pref level qs i) :
    ∃ s', loop W c qs (i :: is) s = loop W c qs is s' ∧ Levels W c.pref level qs s' ∧ s'.got = [] := by
  have go : ∀ o, Gives W c.pref level qs i o → (o = .timeout ∨ o = .nothing ∨ (o = .refused ∧ c.pref = .tls)) →
      ∃ s', loop W c qs (i :: is) s = loop W c qs is s' ∧ Levels W c.pref level qs s' ∧ s'.got = [] := by
    intro o ho hcase
    obtain ⟨e, he, hao⟩ := gives_ask W c.pref level s i qs h o ho
    have hl := levels_ask W c.pref level s i qs e h he
    have hgot : (ask W i qs s e).2.got = [] := by
      cases e <;> unfold ask <;> dsimp only <;> (try split) <;> exact hg
    refine ⟨(judge c.pref qs.length i qs o (ask W i qs s e).2).2, ?_, ?_, ?_⟩
    · rw [loop.eq_def]
      dsimp only
      rw [he]
      dsimp only
      rw [if_pos hm, hao]
      rcases hcase with rfl | rfl | ⟨rfl, hp⟩
      · rfl
      · rfl
      · unfold judge; dsimp only; rw [if_pos hp]
    · intro j
      rw [(judge_keeps c.pref qs.length i qs o (ask W i qs s e).2).1]
      exact hl j
    · rcases hcase with rfl | rfl | ⟨rfl, hp⟩
      · exact hgot
      · exact hgot
      · unfold judge; dsimp only; rw [if_pos hp]; exact hgot
  cases hq with
  | skipped hp hl =>
    refine ⟨{ s with skipped := s.skipped + qs.length }, ?_, h, hg⟩
    have hsl : s.level i = .no := by have := h i; grind
    rw [loop.eq_def]
    dsimp only
    have : choose c.pref (s.level i) = some none := by rw [hp, hsl]; rfl
    rw [this]
  | timeout hx => exact go _ hx (Or.inl rfl)
  | nothing hx => exact go _ hx (Or.inr (Or.inl rfl))
  | refused hp hx => exact go _ hx (Or.inr (Or.inr ⟨rfl, hp⟩))

/-- **C286, part.** A query that is not taken apart ends with the answer of the first server that gives
one, if those before it only give nothing. -/
theorem C286_first_answer_partial (W : World) (c : Config) (start : Nat) (qs : List Question)
    (level : Nat → Level) (hc : c.count ≠ 0) (hm : ∀ i, c.multiple i = true ∨ qs.length = 1)
    (pre post : List Nat) (j : Nat) (rs : List Record) (ho : order c start = pre ++ j :: post)
    (hq : ∀ i ∈ pre, Quiet W c.pref level qs i) (hj : Gives W c.pref level qs j (.result rs)) :
    (execute W c start qs level).1 = .returned ∧ (execute W c start qs level).2.got = [(j, qs, rs)] := by
  have key : ∀ (pre : List Nat) (s : S), (∀ i ∈ pre, Quiet W c.pref level qs i) →
      Levels W c.pref level qs s → s.got = [] →
      (loop W c qs (pre ++ j :: post) s).1 = .returned ∧
        (loop W c qs (pre ++ j :: post) s).2.got = [(j, qs, rs)] := by
    intro pre
    induction pre with
    | nil =>
      intro s _ h hg
      obtain ⟨e, he, hao⟩ := gives_ask W c.pref level s j qs h _ hj
      have hgot : (ask W j qs s e).2.got = [] := by
        cases e <;> unfold ask <;> dsimp only <;> (try split) <;> exact hg
      rw [List.nil_append, loop.eq_def]
      dsimp only
      rw [he]
      dsimp only
      rw [if_pos (hm j), hao]
      unfold judge
      dsimp only
      rw [hgot]
      exact ⟨rfl, rfl⟩
    | cons i pre ih =>
      intro s hq h hg
      obtain ⟨s', he, h', hg'⟩ := quiet_goes_on W c level qs i (pre ++ j :: post) s (hm i) h hg
        (hq i List.mem_cons_self)
      rw [List.cons_append, he]
      exact ih s' (fun x hx => hq x (List.mem_cons_of_mem _ hx)) h' hg'
  unfold execute
  rw [if_neg hc, ho]
  exact key pre { level := level } hq (fun i => Or.inl rfl) rfl

/-- **C286, violated.** When TLS is not preferred and the first server refuses the connection, the query
fails at once: whatever the other servers would answer, they are not asked. -/
theorem C286_refusing_server_fails_query_violated (W : World) (c : Config) (q : Question)
    (level : Nat → Level) (hc : 2 ≤ c.count) (ha : 2 ≤ c.attempts) (hp : c.pref = .tcp)
    (hr : W 0 .tcp [q] = .refused) :
    (execute W c 0 [q] level).1 = .osError ∧ (execute W c 0 [q] level).2.log = [⟨0, .tcp, [q]⟩] := by
  have ho : ∃ is, order c 0 = 0 :: is := by
    unfold order
    obtain ⟨n, hn⟩ : ∃ n, min c.attempts c.count = n + 1 := ⟨min c.attempts c.count - 1, by omega⟩
    rw [hn, List.range_succ_eq_map, List.map_cons]
    exact ⟨_, by rw [Nat.zero_add, Nat.zero_mod]⟩
  obtain ⟨is, ho⟩ := ho
  unfold execute
  rw [if_neg (by omega), ho, loop.eq_def]
  simp [hp, choose, ask, hr, judge]

example :
    let W : World := fun i _ _ => if i = 0 then .timeout else .result [⟨7, .v4, some 5, none⟩]
    let r := execute W ⟨.udp, 3, 3, fun _ => false⟩ 2 [⟨7, .v4⟩] (fun _ => .maybe)
    r.1 = .returned ∧ r.2.got = [(2, [⟨7, .v4⟩], [⟨7, .v4, some 5, none⟩])] ∧ order ⟨.udp, 3, 3, fun _ => false⟩ 2 = [2, 0, 1] := by
  decide

/-! ## C287: all questions -/

/-- An answer a server gave to what it was asked. -/
def Given (W : World) (qs : List Question) (x : Nat × List Question × List Record) : Prop :=
  (x.2.1 = qs ∨ ∃ q ∈ qs, x.2.1 = [q]) ∧ ∃ v, W x.1 v x.2.1 = .result x.2.2

theorem ask_got (W : World) (i : Nat) (qs : List Question) (s : S) (e : Executor) :
    (ask W i qs s e).2.got = s.got ∧ ∃ v, (ask W i qs s e).1 = W i v qs := by
  cases e <;> unfold ask <;> dsimp only
  · exact ⟨rfl, _, rfl⟩
  · exact ⟨rfl, _, rfl⟩
  · exact ⟨rfl, _, rfl⟩
  · split
    · exact ⟨rfl, _, rfl⟩
    · exact ⟨rfl, _, rfl⟩

theorem judge_got (pref : Pref) (w i : Nat) (qs : List Question) (o : Out) (s : S) :
    ((judge pref w i qs o s).1 = .got ∧ ∃ rs, o = .result rs ∧ (judge pref w i qs o s).2.got = s.got ++ [(i, qs, rs)]) ∨
      ((judge pref w i qs o s).1 ≠ .got ∧ (judge pref w i qs o s).2.got = s.got) := by
  unfold judge
  cases o <;> dsimp only <;> (repeat' split) <;> simp

theorem askEach_got (W : World) (pref : Pref) (i : Nat) (e : Executor) :
    ∀ (qs : List Question) (any : Bool) (s : S), ∃ g,
      (askEach W pref i e qs any s).2.got = s.got ++ g ∧
      (∀ x ∈ g, x.1 = i ∧ (∃ q ∈ qs, x.2.1 = [q]) ∧ ∃ v, W x.1 v x.2.1 = .result x.2.2) ∧
      (∀ b, (askEach W pref i e qs any s).1 = some b → b = (any || !g.isEmpty))
  | [], any, s => ⟨[], by simp [askEach], (by intro x hx; cases hx), (by intro b hb; simp [askEach] at hb; simp [hb])⟩
  | q :: qs, any, s => by
    have ha := ask_got W i [q] s e
    have hj := judge_got pref 1 i [q] (ask W i [q] s e).1 (ask W i [q] s e).2
    rw [ha.1] at hj
    unfold askEach
    split
    · rename_i s' heq
      rw [heq] at hj
      obtain ⟨g, h1, h2, h3⟩ := askEach_got W pref i e qs true s'
      rcases hj with ⟨_, rs, hrs, hg⟩ | ⟨hne, _⟩
      · refine ⟨(i, [q], rs) :: g, ?_, ?_, ?_⟩
        · rw [h1]
          show s'.got ++ g = _
          have : s'.got = s.got ++ [(i, [q], rs)] := hg
          rw [this, List.append_assoc]
          rfl
        · intro x hx
          rcases List.mem_cons.1 hx with rfl | hx
          · obtain ⟨v, hv⟩ := ha.2
            exact ⟨rfl, ⟨q, List.mem_cons_self, rfl⟩, v, by rw [← hv]; exact hrs⟩
          · obtain ⟨a, ⟨q', hq', hb⟩, hc⟩ := h2 x hx
            exact ⟨a, ⟨q', List.mem_cons_of_mem _ hq', hb⟩, hc⟩
        · intro b hb
          rw [h3 b hb]
          simp
      · exact absurd rfl hne
    · rename_i s' heq
      rw [heq] at hj
      obtain ⟨g, h1, h2, h3⟩ := askEach_got W pref i e qs any s'
      rcases hj with ⟨hne, _⟩ | ⟨_, hg⟩
      · cases hne
      · refine ⟨g, ?_, ?_, h3⟩
        · rw [h1]
          show s'.got ++ g = _
          have : s'.got = s.got := hg
          rw [this]
        · intro x hx
          obtain ⟨a, ⟨q', hq', hb⟩, hc⟩ := h2 x hx
          exact ⟨a, ⟨q', List.mem_cons_of_mem _ hq', hb⟩, hc⟩
    · rename_i s' heq
      rw [heq] at hj
      rcases hj with ⟨hne, _⟩ | ⟨_, hg⟩
      · cases hne
      · refine ⟨[], ?_, (by intro x hx; cases hx), (by intro b hb; cases hb)⟩
        have : s'.got = s.got := hg
        simp [this]

theorem loop_got (W : World) (c : Config) (qs : List Question) :
    ∀ (is : List Nat) (s : S), s.got = [] →
      (∀ x ∈ (loop W c qs is s).2.got, x.1 ∈ is ∧ Given W qs x) ∧
      (∀ x ∈ (loop W c qs is s).2.got, ∀ y ∈ (loop W c qs is s).2.got, x.1 = y.1) ∧
      ((loop W c qs is s).1 = .returned → (loop W c qs is s).2.got ≠ []) ∧
      ((∃ p, (loop W c qs is s).1 = .failure p) → (loop W c qs is s).2.got = [])
  | [], s, h => by
    refine ⟨?_, ?_, ?_, fun _ => h⟩
    · intro x hx
      have : x ∈ s.got := hx
      rw [h] at this; cases this
    · intro x hx
      have : x ∈ s.got := hx
      rw [h] at this; cases this
    · intro hx; cases hx
  | i :: is, s, h => by
    have widen : ∀ (r : End × S), ((∀ x ∈ r.2.got, x.1 ∈ is ∧ Given W qs x) ∧
        (∀ x ∈ r.2.got, ∀ y ∈ r.2.got, x.1 = y.1) ∧ (r.1 = .returned → r.2.got ≠ []) ∧
        ((∃ p, r.1 = .failure p) → r.2.got = [])) →
        ((∀ x ∈ r.2.got, x.1 ∈ i :: is ∧ Given W qs x) ∧
        (∀ x ∈ r.2.got, ∀ y ∈ r.2.got, x.1 = y.1) ∧ (r.1 = .returned → r.2.got ≠ []) ∧
        ((∃ p, r.1 = .failure p) → r.2.got = [])) :=
      fun r hr => ⟨fun x hx => ⟨List.mem_cons_of_mem _ (hr.1 x hx).1, (hr.1 x hx).2⟩, hr.2⟩
    rw [loop.eq_def]
    dsimp only
    split
    · refine ⟨?_, ?_, (by intro hx; cases hx), (by rintro ⟨p, hp⟩; cases hp)⟩
      · intro x hx
        have : x ∈ s.got := hx
        rw [h] at this; cases this
      · intro x hx
        have : x ∈ s.got := hx
        rw [h] at this; cases this
    · exact widen _ (loop_got W c qs is _ h)
    · rename_i e hc
      split
      · have ha := ask_got W i qs s e
        have hj := judge_got c.pref qs.length i qs (ask W i qs s e).1 (ask W i qs s e).2
        rw [ha.1, h] at hj
        split
        · rename_i s' heq
          rw [heq] at hj
          rcases hj with ⟨_, rs, hrs, hg⟩ | ⟨hne, _⟩
          · have hg : s'.got = [(i, qs, rs)] := hg
            obtain ⟨v, hv⟩ := ha.2
            dsimp only
            rw [hg]
            refine ⟨?_, ?_, (by intro _ hx; cases hx), (by rintro ⟨p, hp⟩; cases hp)⟩
            · intro x hx
              rw [List.mem_singleton.1 hx]
              exact ⟨List.mem_cons_self, Or.inl rfl, v, by rw [← hv]; exact hrs⟩
            · intro x hx y hy
              rw [List.mem_singleton.1 hx, List.mem_singleton.1 hy]
          · exact absurd rfl hne
        · rename_i s' heq
          rw [heq] at hj
          rcases hj with ⟨hne, _⟩ | ⟨_, hg⟩
          · cases hne
          · exact widen _ (loop_got W c qs is s' hg)
        · rename_i s' heq
          rw [heq] at hj
          rcases hj with ⟨hne, _⟩ | ⟨_, hg⟩
          · cases hne
          · have hg : s'.got = [] := hg
            dsimp only
            rw [hg]
            exact ⟨(by intro x hx; cases hx), (by intro x hx; cases hx), (by intro hx; cases hx), fun _ => rfl⟩
      · obtain ⟨g, h1, h2, h3⟩ := askEach_got W c.pref i e qs false s
        rw [h, List.nil_append] at h1
        have hmem : ∀ x ∈ g, x.1 ∈ i :: is ∧ Given W qs x := by
          intro x hx
          obtain ⟨a, b, d⟩ := h2 x hx
          exact ⟨by rw [a]; exact List.mem_cons_self, Or.inr b, d⟩
        have hsame : ∀ x ∈ g, ∀ y ∈ g, x.1 = y.1 := by
          intro x hx y hy
          rw [(h2 x hx).1, (h2 y hy).1]
        split
        · rename_i s' heq
          rw [heq] at h1 h3
          have h1 : s'.got = g := h1
          have hb := h3 true rfl
          dsimp only
          rw [h1]
          refine ⟨hmem, hsame, ?_, (by rintro ⟨p, hp⟩; cases hp)⟩
          intro _ hg
          rw [hg] at hb
          cases hb
        · rename_i s' heq
          rw [heq] at h1 h3
          have h1 : s'.got = g := h1
          have hb := h3 false rfl
          have hg : g = [] := by
            cases g with
            | nil => rfl
            | cons x xs => simp at hb
          exact widen _ (loop_got W c qs is s' (by rw [h1, hg]))
        · rename_i s' heq
          rw [heq] at h1
          have h1 : s'.got = g := h1
          dsimp only
          rw [h1]
          exact ⟨hmem, hsame, (by intro hx; cases hx), (by rintro ⟨p, hp⟩; cases hp)⟩

/-- **C287, part.** What a query yields are answers of one server to its questions; a query that returns
yields some, one that fails for want of answers yields none. -/
theorem C287_answers_of_one_server_partial (W : World) (c : Config) (start : Nat) (qs : List Question)
    (level : Nat → Level) (hc : c.count ≠ 0) :
    (∀ x ∈ (execute W c start qs level).2.got, Given W qs x) ∧
      (∀ x ∈ (execute W c start qs level).2.got, ∀ y ∈ (execute W c start qs level).2.got, x.1 = y.1) ∧
      ((execute W c start qs level).1 = .returned → (execute W c start qs level).2.got ≠ []) ∧
      ((∃ p, (execute W c start qs level).1 = .failure p) → (execute W c start qs level).2.got = []) := by
  unfold execute
  rw [if_neg hc]
  have h := loop_got W c qs (order c start) { level := level } rfl
  exact ⟨fun x hx => (h.1 x hx).2, h.2.1, h.2.2.1, h.2.2.2⟩

/-- **C287, violated.** A server that is asked one question after the other answers the first and not the
second: the query is done, the second question is put to no other server. -/
theorem C287_question_dropped_violated (W : World) (c : Config) (p q : Question) (level : Nat → Level)
    (rs : List Record) (hc : 2 ≤ c.count) (ha : 2 ≤ c.attempts) (hp : c.pref = .tcp)
    (hm : c.multiple 0 = false) (h1 : W 0 .tcp [p] = .result rs) (h2 : W 0 .tcp [q] = .timeout) :
    (execute W c 0 [p, q] level).1 = .returned ∧
      (execute W c 0 [p, q] level).2.got = [(0, [p], rs)] ∧
      (execute W c 0 [p, q] level).2.log = [⟨0, .tcp, [p]⟩, ⟨0, .tcp, [q]⟩] := by
  have ho : ∃ is, order c 0 = 0 :: is := by
    unfold order
    obtain ⟨n, hn⟩ : ∃ n, min c.attempts c.count = n + 1 := ⟨min c.attempts c.count - 1, by omega⟩
    rw [hn, List.range_succ_eq_map, List.map_cons]
    exact ⟨_, by rw [Nat.zero_add, Nat.zero_mod]⟩
  obtain ⟨is, ho⟩ := ho
  unfold execute
  rw [if_neg (by omega), ho, loop.eq_def]
  simp [hp, choose, ask, judge, hm, askEach, h1, h2]

example :
    let W : World := fun i _ qs => if i = 0 then .nothing else .result (qs.map (fun q => ⟨q.name, q.kind, some 1, none⟩))
    let r := execute W ⟨.tcp, 2, 2, fun _ => false⟩ 0 [⟨7, .v6⟩, ⟨7, .v4⟩] (fun _ => .maybe)
    r.1 = .returned ∧ r.2.got.map (fun x => (x.1, x.2.1)) = [(1, [⟨7, .v6⟩]), (1, [⟨7, .v4⟩])] := by decide

/-! ## C288: permanent failures -/

/-- A server without TLS: known as such, or refusing it. -/
def NoTls (W : World) (c : Config) (level : Nat → Level) (qs : List Question) (i : Nat) : Prop :=
  level i = .no ∨ (if c.multiple i = true ∨ qs.length = 1 then W i .tls qs = .refused
    else ∀ q ∈ qs, W i .tls [q] = .refused)

theorem ask_tls (W : World) (i : Nat) (qs : List Question) (s : S) :
    (ask W i qs s .tls).1 = W i .tls qs ∧ (ask W i qs s .tls).2.level = s.level ∧
      (ask W i qs s .tls).2.skipped = s.skipped := ⟨rfl, rfl, rfl⟩

theorem judge_skipped (w i : Nat) (qs : List Question) (o : Out) (s : S) :
    (o = .refused ∧ (judge .tls w i qs o s).1 = .not ∧ (judge .tls w i qs o s).2.skipped = s.skipped + w) ∨
      (o ≠ .refused ∧ (judge .tls w i qs o s).2.skipped = s.skipped) := by
  cases o <;> simp [judge]

theorem askEach_skipped (W : World) (i : Nat) : ∀ (qs : List Question) (any : Bool) (s : S),
    (askEach W .tls i .tls qs any s).2.level = s.level ∧
    ∃ d, (askEach W .tls i .tls qs any s).2.skipped = s.skipped + d ∧ d ≤ qs.length ∧
      ((askEach W .tls i .tls qs any s).1 = some false → any = false) ∧
      (d = qs.length → ∀ q ∈ qs, W i .tls [q] = .refused) ∧
      ((∀ q ∈ qs, W i .tls [q] = .refused) → d = qs.length ∧ (askEach W .tls i .tls qs any s).1 = some any)
  | [], any, s => ⟨rfl, 0, rfl, Nat.le_refl _, by intro h; simpa [askEach] using h,
      (by intro _ q hq; cases hq), fun _ => ⟨rfl, rfl⟩⟩
  | q :: qs, any, s => by
    have hj := judge_skipped 1 i [q] (ask W i [q] s .tls).1 (ask W i [q] s .tls).2
    have hk := judge_keeps .tls 1 i [q] (ask W i [q] s .tls).1 (ask W i [q] s .tls).2
    rw [(ask_tls W i [q] s).2.2] at hj
    rw [(ask_tls W i [q] s).2.1] at hk
    have hr : ¬ W i .tls [q] = .refused → ¬ ∀ p ∈ q :: qs, W i .tls [p] = .refused :=
      fun h hall => h (hall q List.mem_cons_self)
    unfold askEach
    split
    · rename_i s' heq
      rw [heq] at hj hk
      obtain ⟨hl, d, h1, h2, h3, h4, h5⟩ := askEach_skipped W i qs true s'
      rcases hj with ⟨_, hx, _⟩ | ⟨hne, hs⟩
      · cases hx
      · have hs : s'.skipped = s.skipped := hs
        refine ⟨by rw [hl]; exact hk.1, d, by rw [h1, hs], by simp only [List.length_cons]; omega, ?_, ?_, ?_⟩
        · intro h; have := h3 h; cases this
        · intro h; simp only [List.length_cons] at h; omega
        · intro h; exact absurd h (hr hne)
    · rename_i s' heq
      rw [heq] at hj hk
      obtain ⟨hl, d, h1, h2, h3, h4, h5⟩ := askEach_skipped W i qs any s'
      rcases hj with ⟨he, _, hs⟩ | ⟨hne, hs⟩
      · have hs : s'.skipped = s.skipped + 1 := hs
        refine ⟨by rw [hl]; exact hk.1, d + 1, by rw [h1, hs]; omega, by simp only [List.length_cons]; omega,
          h3, ?_, ?_⟩
        · intro h p hp
          rcases List.mem_cons.1 hp with rfl | hp
          · exact he
          · exact h4 (by simp only [List.length_cons] at h; omega) p hp
        · intro h
          have := h5 (fun p hp => h p (List.mem_cons_of_mem _ hp))
          exact ⟨by simp only [List.length_cons]; omega, this.2⟩
      · have hs : s'.skipped = s.skipped := hs
        refine ⟨by rw [hl]; exact hk.1, d, by rw [h1, hs], by simp only [List.length_cons]; omega, h3, ?_, ?_⟩
        · intro h; simp only [List.length_cons] at h; omega
        · intro h; exact absurd h (hr hne)
    · rename_i s' heq
      rw [heq] at hj hk
      rcases hj with ⟨_, hx, _⟩ | ⟨hne, hs⟩
      · cases hx
      · have hs : s'.skipped = s.skipped := hs
        refine ⟨hk.1, 0, by rw [hs]; rfl, by omega, (by intro h; cases h), ?_, ?_⟩
        · intro h; simp only [List.length_cons] at h; omega
        · intro h; exact absurd h (hr hne)

theorem loop_skipped (W : World) (c : Config) (level : Nat → Level) (qs : List Question)
    (hp : c.pref = .tls) (hq : qs ≠ []) :
    ∀ (is : List Nat) (s : S), s.level = level →
      (∀ b, (loop W c qs is s).1 = .failure b → ∃ d, d ≤ is.length * qs.length ∧
        b = (s.skipped + d == c.count * qs.length) ∧
        (d = is.length * qs.length → ∀ i ∈ is, NoTls W c level qs i)) ∧
      ((∀ i ∈ is, NoTls W c level qs i) →
        (loop W c qs is s).1 = .failure (s.skipped + is.length * qs.length == c.count * qs.length))
  | [], s, _ => by
    refine ⟨?_, ?_⟩
    · intro b hb
      refine ⟨0, by omega, ?_, (by intro _ i hi; cases hi)⟩
      have : End.failure (s.skipped == c.count * qs.length) = .failure b := hb
      cases this
      rfl
    · intro _
      show End.failure (s.skipped == c.count * qs.length) = _
      simp
  | i :: is, s, hl => by
    have hpos : 0 < qs.length := List.length_pos_iff.2 hq
    have hmul : (i :: is).length * qs.length = is.length * qs.length + qs.length := by
      rw [List.length_cons, Nat.succ_mul]
    -- one server adds `d ≤ qs.length`, and all of it exactly if it has no TLS
    have go : ∀ (s' : S) (d : Nat), s'.level = level → s'.skipped = s.skipped + d → d ≤ qs.length →
        (d = qs.length → NoTls W c level qs i) → (NoTls W c level qs i → d = qs.length) →
        (∀ b, (loop W c qs is s').1 = .failure b → ∃ d, d ≤ (i :: is).length * qs.length ∧
          b = (s.skipped + d == c.count * qs.length) ∧
          (d = (i :: is).length * qs.length → ∀ j ∈ i :: is, NoTls W c level qs j)) ∧
        ((∀ j ∈ i :: is, NoTls W c level qs j) →
          (loop W c qs is s').1 = .failure (s.skipped + (i :: is).length * qs.length == c.count * qs.length)) := by
      intro s' d hl' hs' hd h1 h2
      obtain ⟨a1, a2⟩ := loop_skipped W c level qs hp hq is s' hl'
      rw [hmul]
      refine ⟨?_, ?_⟩
      · intro b hb
        obtain ⟨d', b1, b2, b3⟩ := a1 b hb
        refine ⟨d + d', by omega, by rw [b2, hs', Nat.add_assoc], ?_⟩
        intro he j hj
        rcases List.mem_cons.1 hj with rfl | hj
        · exact h1 (by omega)
        · exact b3 (by omega) j hj
      · intro h
        rw [a2 (fun j hj => h j (List.mem_cons_of_mem _ hj)), hs', h2 (h i List.mem_cons_self)]
        have : s.skipped + qs.length + is.length * qs.length = s.skipped + (is.length * qs.length + qs.length) := by
          omega
        rw [this]
    rw [loop.eq_def]
    dsimp only
    rw [hp, hl]
    by_cases hno : level i = .no
    · have : choose .tls (level i) = some none := by rw [hno]; rfl
      rw [this]
      exact go _ qs.length rfl rfl (Nat.le_refl _) (fun _ => Or.inl hno) (fun _ => rfl)
    · have : choose .tls (level i) = some (some .tls) := by unfold choose; dsimp only; rw [if_neg hno]
      rw [this]
      dsimp only
      split
      · rename_i hm
        have hnt : NoTls W c level qs i ↔ W i .tls qs = .refused := by
          unfold NoTls; rw [if_pos hm]; simp [hno]
        have hj := judge_skipped qs.length i qs (ask W i qs s .tls).1 (ask W i qs s .tls).2
        have hk := judge_keeps .tls qs.length i qs (ask W i qs s .tls).1 (ask W i qs s .tls).2
        rw [(ask_tls W i qs s).2.2] at hj
        rw [(ask_tls W i qs s).2.1, hl] at hk
        split
        · rename_i s' heq
          rw [heq] at hj
          refine ⟨(by intro b hb; cases hb), ?_⟩
          intro h
          have := hnt.1 (h i List.mem_cons_self)
          rcases hj with ⟨_, hx, _⟩ | ⟨hne, _⟩
          · cases hx
          · exact absurd this hne
        · rename_i s' heq
          rw [heq] at hj hk
          rcases hj with ⟨he, _, hs⟩ | ⟨hne, hs⟩
          · exact go s' qs.length hk.1 hs (Nat.le_refl _) (fun _ => hnt.2 he) (fun _ => rfl)
          · exact go s' 0 hk.1 hs (by omega) (by omega) (fun h => absurd (hnt.1 h) hne)
        · rename_i s' heq
          rw [heq] at hj
          refine ⟨(by intro b hb; cases hb), ?_⟩
          intro h
          have := hnt.1 (h i List.mem_cons_self)
          rcases hj with ⟨_, hx, _⟩ | ⟨hne, _⟩
          · cases hx
          · exact absurd this hne
      · rename_i hm
        have hnt : NoTls W c level qs i ↔ ∀ q ∈ qs, W i .tls [q] = .refused := by
          unfold NoTls; rw [if_neg hm]; simp [hno]
        obtain ⟨hlv, d, h1, h2, h3, h4, h5⟩ := askEach_skipped W i qs false s
        rw [hl] at hlv
        split
        · rename_i s' heq
          rw [heq] at h5
          refine ⟨(by intro b hb; cases hb), ?_⟩
          intro h
          have := (h5 (hnt.1 (h i List.mem_cons_self))).2
          cases this
        · rename_i s' heq
          rw [heq] at hlv h1
          exact go s' d hlv h1 h2 (fun h => hnt.2 (h4 h)) (fun h => (h5 (hnt.1 h)).1)
        · rename_i s' heq
          rw [heq] at h5
          refine ⟨(by intro b hb; cases hb), ?_⟩
          intro h
          have := (h5 (hnt.1 (h i List.mem_cons_self))).2
          cases this

theorem order_length (c : Config) (start : Nat) : (order c start).length = min c.attempts c.count := by
  simp [order]

/-- **C288, part.** With TLS preferred a failure is called permanent only if as many servers as there are
were tried, and none of them has TLS. -/
theorem C288_permanent_is_permanent_partial (W : World) (c : Config) (start : Nat) (qs : List Question)
    (level : Nat → Level) (hc : c.count ≠ 0) (hp : c.pref = .tls) (hq : qs ≠ [])
    (h : (execute W c start qs level).1 = .failure true) :
    c.count ≤ c.attempts ∧ ∀ i ∈ order c start, NoTls W c level qs i := by
  unfold execute at h
  rw [if_neg hc] at h
  obtain ⟨d, h1, h2, h3⟩ := (loop_skipped W c level qs hp hq (order c start) { level := level } rfl).1 true h
  have h2 : d = c.count * qs.length := by
    have := h2.symm
    simpa using this
  have hpos : 0 < qs.length := List.length_pos_iff.2 hq
  rw [order_length] at h1 h3
  have hle : c.count ≤ min c.attempts c.count := by
    rw [h2] at h1
    exact Nat.le_of_mul_le_mul_right h1 hpos
  refine ⟨by omega, h3 ?_⟩
  rw [h2]
  congr 1
  omega

/-- **C288, part.** If all servers are tried and none of them has TLS, the failure is called permanent. -/
theorem C288_no_tls_is_permanent_partial (W : World) (c : Config) (start : Nat) (qs : List Question)
    (level : Nat → Level) (hc : c.count ≠ 0) (hp : c.pref = .tls) (hq : qs ≠ []) (ha : c.count ≤ c.attempts)
    (h : ∀ i ∈ order c start, NoTls W c level qs i) :
    (execute W c start qs level).1 = .failure true := by
  unfold execute
  rw [if_neg hc, (loop_skipped W c level qs hp hq (order c start) { level := level } rfl).2 h, order_length]
  have : min c.attempts c.count = c.count := by omega
  rw [this]
  simp

/-- **C288, violated.** With fewer attempts than servers a failure is called temporary although no server
at all has TLS. -/
theorem C288_no_tls_called_temporary_violated (W : World) (c : Config) (start : Nat) (qs : List Question)
    (level : Nat → Level) (hp : c.pref = .tls) (hq : qs ≠ []) (ha : c.attempts < c.count)
    (h : ∀ i, NoTls W c level qs i) : (execute W c start qs level).1 = .failure false := by
  unfold execute
  rw [if_neg (by omega), (loop_skipped W c level qs hp hq (order c start) { level := level } rfl).2 (fun i _ => h i),
    order_length]
  have hpos : 0 < qs.length := List.length_pos_iff.2 hq
  have h1 : min c.attempts c.count = c.attempts := by omega
  have h2 : c.attempts * qs.length < c.count * qs.length := Nat.mul_lt_mul_of_pos_right ha hpos
  rw [h1]
  have h3 : (0 + c.attempts * qs.length == c.count * qs.length) = false := by
    rw [Nat.zero_add]
    simp only [beq_eq_false_iff_ne, ne_eq]
    omega
  show End.failure (0 + c.attempts * qs.length == c.count * qs.length) = _
  rw [h3]

theorem judge_skipped_other (pref : Pref) (w i : Nat) (qs : List Question) (o : Out) (s : S)
    (hp : pref ≠ .tls) : (judge pref w i qs o s).2.skipped = s.skipped := by
  cases o <;> simp [judge, hp]

theorem ask_skipped (W : World) (i : Nat) (qs : List Question) (s : S) (e : Executor) :
    (ask W i qs s e).2.skipped = s.skipped := by
  cases e <;> unfold ask <;> dsimp only
  split <;> rfl

theorem askEach_skipped_other (W : World) (pref : Pref) (hp : pref ≠ .tls) (i : Nat) (e : Executor) :
    ∀ (qs : List Question) (any : Bool) (s : S), (askEach W pref i e qs any s).2.skipped = s.skipped
  | [], any, s => rfl
  | q :: qs, any, s => by
    have hj := judge_skipped_other pref 1 i [q] (ask W i [q] s e).1 (ask W i [q] s e).2 hp
    rw [ask_skipped] at hj
    unfold askEach
    split
    · rename_i heq; rw [heq] at hj; rw [askEach_skipped_other W pref hp i e qs]; exact hj
    · rename_i heq; rw [heq] at hj; rw [askEach_skipped_other W pref hp i e qs]; exact hj
    · rename_i heq; rw [heq] at hj; exact hj

theorem loop_skipped_other (W : World) (c : Config) (qs : List Question) (hp : c.pref ≠ .tls) :
    ∀ (is : List Nat) (s : S), (loop W c qs is s).2.skipped = s.skipped ∧
      ∀ b, (loop W c qs is s).1 = .failure b → b = (s.skipped == c.count * qs.length)
  | [], s => by
    refine ⟨rfl, ?_⟩
    intro b hb
    have : End.failure (s.skipped == c.count * qs.length) = .failure b := hb
    cases this
    rfl
  | i :: is, s => by
    rw [loop.eq_def]
    dsimp only
    split
    · exact ⟨rfl, by intro b hb; cases hb⟩
    · rename_i hc
      exfalso
      unfold choose at hc
      cases hpp : c.pref <;> rw [hpp] at hc hp <;> cases hl : s.level i <;> simp [hl] at hc hp
    · rename_i e hc
      split
      · have hj := judge_skipped_other c.pref qs.length i qs (ask W i qs s e).1 (ask W i qs s e).2 hp
        rw [ask_skipped] at hj
        split
        · rename_i heq; rw [heq] at hj; exact ⟨hj, by intro b hb; cases hb⟩
        · rename_i s' heq
          rw [heq] at hj
          have hj : s'.skipped = s.skipped := hj
          have := loop_skipped_other W c qs hp is s'
          rw [hj] at this
          exact this
        · rename_i heq; rw [heq] at hj; exact ⟨hj, by intro b hb; cases hb⟩
      · have hj := askEach_skipped_other W c.pref hp i e qs false s
        split
        · rename_i heq; rw [heq] at hj; exact ⟨hj, by intro b hb; cases hb⟩
        · rename_i s' heq
          rw [heq] at hj
          have hj : s'.skipped = s.skipped := hj
          have := loop_skipped_other W c qs hp is s'
          rw [hj] at this
          exact this
        · rename_i heq; rw [heq] at hj; exact ⟨hj, by intro b hb; cases hb⟩

/-- **C288, part.** When TLS is not preferred, no failure is called permanent. -/
theorem C288_not_permanent_partial (W : World) (c : Config) (start : Nat) (qs : List Question)
    (level : Nat → Level) (hp : c.pref ≠ .tls) (hq : qs ≠ []) :
    (execute W c start qs level).1 ≠ .failure true := by
  unfold execute
  split
  · intro h; cases h
  · rename_i hc
    intro h
    have := (loop_skipped_other W c qs hp (order c start) { level := level }).2 true h
    have hpos : 0 < c.count * qs.length := Nat.mul_pos (by omega) (List.length_pos_iff.2 hq)
    have h0 : 0 = c.count * qs.length := by simpa using this.symm
    omega

example :
    let W : World := fun i v _ => if v = .tls ∧ i = 1 then .refused else .timeout
    (execute W ⟨.tls, 2, 2, fun _ => true⟩ 0 [⟨7, .v4⟩] (fun i => if i = 0 then .no else .maybe)).1 = .failure true ∧
    (execute W ⟨.tls, 2, 3, fun _ => true⟩ 0 [⟨7, .v4⟩] (fun i => if i = 0 then .no else .maybe)).1 = .failure false := by
  decide

end Verif.Resolve
