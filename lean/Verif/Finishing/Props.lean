import Verif.Finishing.Model

/-
Properties of how the loss of the pipes of a process is told: C418 and C419.
-/

namespace Verif.Finishing

/-- The first loss of a pipe in the history: whether telling it failed. -/
def first (fd : Fin 3) (l : List Op) : Option Bool :=
  l.findSome? fun o => match o with
    | .lost k f => if k = fd then some f else none
    | _ => none

/-- At some time the code got known while no pipe was disconnected yet. -/
def Early (l : List Op) : Prop :=
  ∃ before after, l = before ++ Op.exited :: after ∧ ∀ fd, first fd before ≠ some false

theorem first_concat (fd : Fin 3) (l : List Op) (o : Op) :
    first fd (l ++ [o]) = (first fd l).or (first fd [o]) := by
  simp only [first, List.findSome?_append]

theorem first_lost (fd k : Fin 3) (f : Bool) : first fd [.lost k f] = if k = fd then some f else none := by
  unfold first; by_cases h : k = fd <;> simp [h]
theorem first_exited (fd : Fin 3) : first fd [.exited] = none := rfl
theorem first_data (fd k : Fin 3) (d : Nat) : first fd [.data k d] = none := rfl

theorem early_concat (l : List Op) (o : Op) :
    Early (l ++ [o]) ↔ Early l ∨ (o = .exited ∧ ∀ fd, first fd l ≠ some false) := by
  constructor
  · rintro ⟨b, a, h, hb⟩
    rcases List.eq_nil_or_concat a with rfl | ⟨a', x, rfl⟩
    · have := List.append_inj' h rfl
      obtain ⟨h1, h2⟩ := this
      exact .inr ⟨by simpa using h2, by rw [h1]; exact hb⟩
    · rw [List.concat_eq_append, show b ++ Op.exited :: (a' ++ [x]) = (b ++ Op.exited :: a') ++ [x] by simp] at h
      exact .inl ⟨b, a', (List.append_inj' h rfl).1, hb⟩
  · rintro (⟨b, a, h, hb⟩ | ⟨rfl, h⟩)
    · exact ⟨b, a ++ [o], by rw [h]; simp, hb⟩
    · exact ⟨l, [], rfl, h⟩

/-- What the state is, by the history. -/
structure Inv (has : Fin 3 → Bool) (l : List Op) (s : S) : Prop where
  same : s.has = has
  proc : ∀ fd, has fd = true → (s.proc fd = true ↔ first fd l = none)
  disc : ∀ fd, has fd = true → (s.disc fd = true ↔ first fd l = some false)
  code : s.code = true ↔ Op.exited ∈ l
  lost : s.lost = true ↔ (has 0 = true ∧ first 0 l ≠ none) ∨ ((∀ fd, has fd = true) ∧ Early l)
  told : ∀ fd, s.told.count fd = if has fd = true ∧ first fd l ≠ none then 1 else 0

theorem tryFinish_lost (s : S) :
    s.tryFinish.lost = true ↔ s.lost = true ∨ (s.code = true ∧ ∀ fd, s.has fd = true ∧ s.disc fd = false) := by
  have e : (∀ fd, s.has fd = true ∧ s.disc fd = false) ↔
      s.leaves 0 = false ∧ s.leaves 1 = false ∧ s.leaves 2 = false := by
    constructor
    · intro h; refine ⟨?_, ?_, ?_⟩ <;> simp [S.leaves, (h _).1, (h _).2]
    · rintro ⟨h0, h1, h2⟩ fd
      have : s.leaves fd = false := by
        match fd with
        | 0 => exact h0
        | 1 => exact h1
        | 2 => exact h2
      simpa [S.leaves] using this
  rw [e]; unfold S.tryFinish
  cases s.code <;> cases s.leaves 0 <;> cases s.leaves 1 <;> cases s.leaves 2 <;> simp

theorem tryFinish_rest (s : S) : s.tryFinish.has = s.has ∧ s.tryFinish.proc = s.proc ∧ s.tryFinish.disc = s.disc ∧
    s.tryFinish.code = s.code ∧ s.tryFinish.told = s.told ∧ s.tryFinish.got = s.got ∧ s.tryFinish.raised = s.raised := by
  unfold S.tryFinish; repeat' split
  all_goals exact ⟨rfl, rfl, rfl, rfl, rfl, rfl, rfl⟩

theorem doLost_lost (s : S) (fd : Fin 3) : (s.doLost fd).lost = true ↔ s.lost = true ∨ fd = 0 := by
  unfold S.doLost; split <;> simp_all

theorem doLost_rest (s : S) (fd : Fin 3) : (s.doLost fd).has = s.has ∧ (s.doLost fd).proc = s.proc ∧
    (s.doLost fd).disc = s.disc ∧ (s.doLost fd).code = s.code ∧ (s.doLost fd).told = s.told ∧
    (s.doLost fd).got = s.got ∧ (s.doLost fd).raised = s.raised := by
  unfold S.doLost; split <;> exact ⟨rfl, rfl, rfl, rfl, rfl, rfl, rfl⟩

/-- An event which changes nothing, and of which the history says nothing new. -/
theorem inv_same {has : Fin 3 → Bool} {l : List Op} {s t : S} (h : Inv has l s) (o : Op) (ho : o ≠ .exited)
    (hf : ∀ fd, has fd = true → first fd (l ++ [o]) = first fd l)
    (e1 : t.has = s.has) (e2 : t.proc = s.proc) (e3 : t.disc = s.disc) (e4 : t.code = s.code)
    (e5 : t.lost = s.lost) (e6 : t.told = s.told) : Inv has (l ++ [o]) t where
  same := e1.trans h.same
  proc fd hh := by rw [e2, hf fd hh]; exact h.proc fd hh
  disc fd hh := by rw [e3, hf fd hh]; exact h.disc fd hh
  code := by rw [e4, h.code]; simp [Ne.symm ho]
  lost := by
    rw [e5, h.lost, early_concat]
    constructor
    · rintro (⟨a, b⟩ | ⟨a, b⟩)
      · exact .inl ⟨a, by rw [hf 0 a]; exact b⟩
      · exact .inr ⟨a, .inl b⟩
    · rintro (⟨a, b⟩ | ⟨a, b | b⟩)
      · exact .inl ⟨a, by rw [hf 0 a] at b; exact b⟩
      · exact .inr ⟨a, b⟩
      · exact absurd b.1 ho
  told fd := by
    rw [e6, h.told fd]
    by_cases hh : has fd = true
    · rw [hf fd hh]
    · simp [hh]

/-- If the code is known and nothing is disconnected, it got known so. -/
theorem early_of {l : List Op} (h : Op.exited ∈ l) (hn : ∀ fd, first fd l ≠ some false) : Early l := by
  obtain ⟨b, a, rfl⟩ := List.append_of_mem h
  refine ⟨b, a, rfl, fun fd hb => hn fd ?_⟩
  simp only [first, List.findSome?_append] at hb ⊢
  rw [hb]; rfl

theorem inv_step {has : Fin 3 → Bool} {l : List Op} {s : S} (h : Inv has l s) (o : Op) :
    Inv has (l ++ [o]) (step s o) := by
  match o with
  | .exited =>
    have hf : ∀ fd, first fd (l ++ [.exited]) = first fd l := fun fd => by
      rw [first_concat, first_exited]; simp
    show Inv has _ (S.tryFinish { s with code := true })
    obtain ⟨r1, r2, r3, r4, r5, -, -⟩ := tryFinish_rest { s with code := true }
    refine ⟨r1.trans h.same, ?_, ?_, ?_, ?_, ?_⟩
    · intro fd hh; rw [r2, hf]; exact h.proc fd hh
    · intro fd hh; rw [r3, hf]; exact h.disc fd hh
    · rw [r4]; simp
    · rw [tryFinish_lost, early_concat, hf]
      dsimp only
      rw [h.lost, h.same]
      constructor
      · rintro ((a | a) | ⟨-, a⟩)
        · exact .inl a
        · exact .inr ⟨a.1, .inl a.2⟩
        · refine .inr ⟨fun fd => (a fd).1, .inr ⟨rfl, fun fd hfd => ?_⟩⟩
          have := (a fd).2
          rw [(h.disc fd (a fd).1).2 hfd] at this; exact absurd this (by decide)
      · rintro (a | ⟨a, b | ⟨-, b⟩⟩)
        · exact .inl (.inl a)
        · exact .inl (.inr ⟨a, b⟩)
        · refine .inr ⟨rfl, fun fd => ⟨a fd, ?_⟩⟩
          rw [← Bool.not_eq_true, h.disc fd (a fd)]; exact b fd
    · intro fd; rw [r5, hf]; exact h.told fd
  | .data k d =>
    have hf : ∀ fd, has fd = true → first fd (l ++ [.data k d]) = first fd l := fun fd _ => by
      rw [first_concat, first_data]; simp
    simp only [step]
    split
    · exact inv_same h _ (by simp) hf rfl rfl rfl rfl rfl rfl
    · split
      · exact inv_same h _ (by simp) hf rfl rfl rfl rfl rfl rfl
      · split
        · exact inv_same h _ (by simp) hf rfl rfl rfl rfl rfl rfl
        · exact inv_same h _ (by simp) hf rfl rfl rfl rfl rfl rfl
  | .lost k f =>
    have hf : ∀ fd, first fd (l ++ [.lost k f]) = (first fd l).or (if k = fd then some f else none) := fun fd => by
      rw [first_concat, first_lost]
    by_cases hk : has k = true
    · by_cases hp : s.proc k = true
      · -- it is told
        have hn := (h.proc k hk).1 hp
        have hfk : ∀ fd, first fd (l ++ [.lost k f]) = if k = fd then some f else first fd l := fun fd => by
          rw [hf]; by_cases e : k = fd
          · subst e; simp [hn]
          · simp [e]
        have hproc : ∀ fd, has fd = true →
            ((if fd = k then false else s.proc fd) = true ↔ first fd (l ++ [.lost k f]) = none) := fun fd hh => by
          rw [hfk]; by_cases e : k = fd
          · simp [e]
          · simp [e, Ne.symm e, h.proc fd hh]
        have hlost : ((s.lost = true ∨ k = 0) ↔ (has 0 = true ∧ first 0 (l ++ [.lost k f]) ≠ none) ∨
            ((∀ fd, has fd = true) ∧ Early (l ++ [.lost k f]))) := by
          rw [h.lost, early_concat, hfk]
          by_cases e : k = 0
          · subst e; simp [hk]
          · simp [e]
        have htold : ∀ fd, (s.told ++ [k]).count fd =
            if has fd = true ∧ first fd (l ++ [.lost k f]) ≠ none then 1 else 0 := fun fd => by
          rw [List.count_append, h.told, hfk]
          by_cases e : k = fd
          · subst e; simp [hn, hk]
          · simp [e]
        have hcode : s.code = true ↔ Op.exited ∈ l ++ [Op.lost k f] := by rw [h.code]; simp
        simp only [step, h.same, hk, hp, Bool.not_true, Bool.false_eq_true, if_false]
        obtain ⟨q1, q2, q3, q4, q5, -, -⟩ := doLost_rest
          { s with proc := fun j => if j = k then false else s.proc j, told := s.told ++ [k] } k
        have q0 := doLost_lost
          { s with proc := fun j => if j = k then false else s.proc j, told := s.told ++ [k] } k
        rw [h.same] at q0 q1 q2 q3 q4 q5
        generalize hu : S.doLost _ k = u at q0 q1 q2 q3 q4 q5 ⊢
        cases f with
        | true =>
          refine ⟨q1, ?_, ?_, ?_, ?_, ?_⟩
          · intro fd hh; exact (by rw [← hproc fd hh]; show u.proc fd = true ↔ _; rw [q2])
          · intro fd hh; show u.disc fd = true ↔ _
            rw [q3, hfk, h.disc fd hh]
            by_cases e : k = fd
            · subst e; simp [hn]
            · simp [e]
          · show u.code = true ↔ _; rw [q4]; exact hcode
          · show u.lost = true ↔ _; rw [q0]; exact hlost
          · intro fd; show u.told.count fd = _; rw [q5]; exact htold fd
        | false =>
          obtain ⟨r1, r2, r3, r4, r5, -, -⟩ := tryFinish_rest u
          refine ⟨r1.trans q1, ?_, ?_, ?_, ?_, ?_⟩
          · intro fd hh; exact (by rw [← hproc fd hh]; show u.tryFinish.proc fd = true ↔ _; rw [r2, q2])
          · intro fd hh; show (if fd = k then true else u.tryFinish.disc fd) = true ↔ _
            rw [r3, q3, hfk]
            by_cases e : k = fd
            · simp [e]
            · simp [e, Ne.symm e, h.disc fd hh]
          · show u.tryFinish.code = true ↔ _; rw [r4, q4]; exact hcode
          · show u.tryFinish.lost = true ↔ _
            rw [tryFinish_lost, q0, q1, q3, q4, ← hlost]
            constructor
            · rintro (a | ⟨a, b⟩)
              · exact a
              · refine .inl (h.lost.2 (.inr ⟨fun fd => (b fd).1, early_of (h.code.1 a) fun fd hfd => ?_⟩))
                have := (b fd).2
                have t : s.disc fd = true := (h.disc fd (b fd).1).2 hfd
                have : s.disc fd = false := this
                rw [t] at this; exact absurd this (by decide)
            · exact .inl
          · intro fd; show u.tryFinish.told.count fd = _; rw [r5, q5]; exact htold fd
      · have hn : first k l ≠ none := fun e => hp ((h.proc k hk).2 e)
        have hg : ∀ fd, has fd = true → first fd (l ++ [.lost k f]) = first fd l := fun fd _ => by
          rw [hf]; by_cases e : k = fd
          · subst e
            rcases Option.ne_none_iff_exists'.1 hn with ⟨x, hx⟩
            rw [hx]; rfl
          · simp [e]
        simp only [step, h.same, hk, hp, Bool.not_true, Bool.not_false, Bool.false_eq_true, if_false, if_true]
        exact inv_same h _ (by simp) hg rfl rfl rfl rfl rfl rfl
    · have hg : ∀ fd, has fd = true → first fd (l ++ [.lost k f]) = first fd l := fun fd hh => by
        rw [hf]; have e : k ≠ fd := fun e => hk (e ▸ hh)
        simp [e]
      have hk' : has k = false := by simpa using hk
      simp only [step, h.same, hk', Bool.not_false, if_true]
      exact inv_same h _ (by simp) hg rfl rfl rfl rfl rfl rfl

theorem inv_run (has : Fin 3 → Bool) (l : List Op) : Inv has l (run (S.new has) l) := by
  have go : ∀ n (l : List Op), l.length = n → Inv has l (run (S.new has) l) := by
    intro n
    induction n with
    | zero =>
      intro l hl
      obtain rfl := List.length_eq_zero_iff.1 hl
      refine ⟨rfl, fun _ _ => by simp [run, S.new, first], fun _ _ => by simp [run, S.new, first], by simp [run, S.new], ?_, ?_⟩
      · simp [run, S.new, first, Early]
      · intro fd; simp [run, S.new, first]
    | succ n ih =>
      intro l hl
      rcases List.eq_nil_or_concat l with rfl | ⟨l', o, rfl⟩
      · simp at hl
      · rw [List.concat_eq_append] at hl ⊢
        have : run (S.new has) (l' ++ [o]) = step (run (S.new has) l') o := by simp [run]
        rw [this]
        exact inv_step (ih l' (by simpa using hl)) o
  exact go _ l rfl

/-! ### C418 -/

/-- C418, what holds: a process counts as lost exactly if the pipe of its input was lost, or
all three pipes exist and its code got known before any of them was disconnected. -/
theorem C418_lost_exactly_partial (has : Fin 3 → Bool) (l : List Op) :
    (run (S.new has) l).lost = true ↔
      (has 0 = true ∧ ∃ f, Op.lost 0 f ∈ l) ∨ ((∀ fd, has fd = true) ∧ Early l) := by
  rw [(inv_run has l).lost]
  have : first 0 l ≠ none ↔ ∃ f, Op.lost 0 f ∈ l := by
    unfold first
    rw [Ne, List.findSome?_eq_none_iff]
    constructor
    · intro h
      refine Classical.byContradiction fun hc => h fun o ho => ?_
      match o with
      | .exited => rfl
      | .data _ _ => rfl
      | .lost k f => by_cases e : k = 0
                     · subst e; exact absurd ⟨f, ho⟩ hc
                     · simp [e]
    · rintro ⟨f, hf⟩ h
      simpa using h _ hf
  rw [this]

/-- C418 is violated: a process without the pipe of the input never counts as lost, whatever
happens; also if it ended and all the pipes it has are lost. -/
theorem C418_never_violated (has : Fin 3 → Bool) (h0 : has 0 = false) (l : List Op) :
    (run (S.new has) (l ++ [.exited, .lost 1 false, .lost 2 false])).lost = false := by
  rw [← Bool.not_eq_true, C418_lost_exactly_partial]
  rintro (⟨h, -⟩ | ⟨h, -⟩)
  · rw [h0] at h; exact absurd h (by decide)
  · have := h 0; rw [h0] at this; exact absurd this (by decide)

/-- C418 is violated: a process with all three pipes counts as lost though none of them is,
if its code is known before they are lost. -/
theorem C418_early_violated (l : List Op) (hl : ∀ fd f, Op.lost fd f ∉ l) :
    (run (S.new fun _ => true) (l ++ [.exited])).lost = true ∧
    ∀ fd, (run (S.new fun _ => true) (l ++ [.exited])).disc fd = false := by
  have hn : ∀ fd, first fd l = none := fun fd => by
    unfold first; rw [List.findSome?_eq_none_iff]
    intro o ho
    match o with
    | .exited => rfl
    | .data _ _ => rfl
    | .lost k f => exact absurd ho (hl k f)
  refine ⟨(C418_lost_exactly_partial _ _).2 (.inr ⟨fun _ => rfl, l, [], rfl, fun fd => by rw [hn]; simp⟩), fun fd => ?_⟩
  rw [← Bool.not_eq_true, (inv_run _ _).disc fd rfl, first_concat, hn, first_exited]; simp

example : (run (S.new fun fd => fd ≠ 0) [.data 1 5, .lost 1 false, .exited, .lost 2 false]).lost = false := by decide
example : (run (S.new fun _ => true) [.data 1 5, .exited]).lost = true := by decide
example : (run (S.new fun _ => true) [.lost 1 false, .exited, .lost 2 false]).lost = false := by decide
example : (run (S.new fun _ => true) [.lost 1 false, .exited, .lost 0 false]).lost = true := by decide

/-! ### C419 -/

/-- C419: the process is told once of every pipe which is lost, and of no other. -/
theorem C419_told_once (has : Fin 3 → Bool) (l : List Op) (fd : Fin 3) :
    (run (S.new has) l).told.count fd = if has fd = true ∧ ∃ f, Op.lost fd f ∈ l then 1 else 0 := by
  rw [(inv_run has l).told]
  have : first fd l ≠ none ↔ ∃ f, Op.lost fd f ∈ l := by
    unfold first
    rw [Ne, List.findSome?_eq_none_iff]
    constructor
    · intro h
      refine Classical.byContradiction fun hc => h fun o ho => ?_
      match o with
      | .exited => rfl
      | .data _ _ => rfl
      | .lost k f => by_cases e : k = fd
                     · subst e; exact absurd ⟨f, ho⟩ hc
                     · simp [e]
    · rintro ⟨f, hf⟩ h
      simpa using h _ hf
  simp only [this]

/-- The data of a pipe before it was lost. -/
inductive Gives (fd : Fin 3) : List Op → List Nat → Prop where
  | nil : Gives fd [] []
  | lost (f l) : Gives fd (.lost fd f :: l) []
  | data (d l r) : Gives fd l r → Gives fd (.data fd d :: l) (d :: r)
  | other (o l r) : (∀ f, o ≠ .lost fd f) → (∀ d, o ≠ .data fd d) → Gives fd l r → Gives fd (o :: l) r

/-- What the process got of a pipe. -/
def gotOf (fd : Fin 3) (s : S) : List Nat := s.got.filterMap fun x => if x.1 = fd then some x.2 else none

theorem step_got (s : S) (o : Op) : (step s o).has = s.has ∧
    (∀ fd, (∀ f, o ≠ .lost fd f) → (step s o).proc fd = s.proc fd) ∧
    (∀ fd, s.proc fd = false → (step s o).proc fd = false ∧ gotOf fd (step s o) = gotOf fd s) ∧
    (∀ fd, (∀ d, o ≠ .data fd d) → gotOf fd (step s o) = gotOf fd s) := by
  match o with
  | .exited =>
    obtain ⟨r1, r2, -, -, -, r6, -⟩ := tryFinish_rest { s with code := true }
    simp only [step, gotOf, r1, r2, r6]; simp
  | .data k d =>
    have same : (s.has = s.has) ∧ (∀ fd, (∀ f, Op.data k d ≠ .lost fd f) → s.proc fd = s.proc fd) ∧
        (∀ fd, s.proc fd = false → s.proc fd = false ∧ gotOf fd s = gotOf fd s) ∧
        (∀ fd, (∀ e, Op.data k d ≠ .data fd e) → gotOf fd s = gotOf fd s) :=
      ⟨rfl, fun _ _ => rfl, fun fd hf => ⟨hf, rfl⟩, fun fd _ => rfl⟩
    by_cases hh : s.has k = true
    · by_cases hz : k = 0
      · have e0 : step s (.data k d) = s := by
          subst hz
          simp only [step, hh, Bool.not_true, Bool.false_eq_true, if_false, if_true]
        rw [e0]; exact same
      · by_cases hp : s.proc k = true
        · have e0 : step s (.data k d) = { s with got := s.got ++ [(k, d)] } := by
            simp only [step, hh, hp, hz, Bool.not_true, Bool.false_eq_true, if_false, if_true]
          rw [e0]
          refine ⟨rfl, fun _ _ => rfl, fun fd hf => ⟨hf, ?_⟩, fun fd hd => ?_⟩
          · have e : k ≠ fd := fun e => by rw [e, hf] at hp; exact absurd hp (by decide)
            simp [gotOf, e]
          · have e : k ≠ fd := fun e => hd d (by rw [e])
            simp [gotOf, e]
        · have e0 : step s (.data k d) = { s with raised := s.raised + 1 } := by
            simp only [step, hh, hp, hz, Bool.not_true, Bool.false_eq_true, if_false]
          rw [e0]
          exact ⟨rfl, fun _ _ => rfl, fun fd hf => ⟨hf, rfl⟩, fun fd _ => rfl⟩
    · have e0 : step s (.data k d) = s := by
        have : s.has k = false := by simpa using hh
        simp only [step, this, Bool.not_false, if_true]
      rw [e0]; exact same
  | .lost k f =>
    simp only [step]
    split
    · exact ⟨rfl, fun _ _ => rfl, fun fd hf => ⟨hf, rfl⟩, fun fd _ => rfl⟩
    · split
      · exact ⟨rfl, fun _ _ => rfl, fun fd hf => ⟨hf, rfl⟩, fun fd _ => rfl⟩
      · obtain ⟨q1, q2, q3, q4, q5, q6, -⟩ := doLost_rest
          { s with proc := fun j => if j = k then false else s.proc j, told := s.told ++ [k] } k
        generalize S.doLost _ k = u at q1 q2 q3 q4 q5 q6 ⊢
        have key : ∀ t : S, t.has = u.has → t.proc = u.proc → t.got = u.got →
            t.has = s.has ∧ (∀ fd, (∀ f', Op.lost k f ≠ .lost fd f') → t.proc fd = s.proc fd) ∧
            (∀ fd, s.proc fd = false → t.proc fd = false ∧ gotOf fd t = gotOf fd s) ∧
            (∀ fd, (∀ d, Op.lost k f ≠ .data fd d) → gotOf fd t = gotOf fd s) := by
          intro t e1 e2 e3
          refine ⟨e1.trans q1, fun fd hd => ?_, fun fd hf => ⟨?_, ?_⟩, fun fd _ => ?_⟩
          · have e : fd ≠ k := fun e => hd f (by rw [e])
            rw [e2, q2]; simp [e]
          · rw [e2, q2]; simp [hf]
          · simp only [gotOf, e3, q6]
          · simp only [gotOf, e3, q6]
        obtain ⟨r1, r2, -, -, -, r6, -⟩ := tryFinish_rest u
        split
        · exact key _ rfl rfl rfl
        · exact key _ r1 r2 r6

theorem run_gone (l : List Op) : ∀ (s : S) (fd : Fin 3), s.proc fd = false → gotOf fd (run s l) = gotOf fd s := by
  induction l with
  | nil => intro s fd _; rfl
  | cons o l ih =>
    intro s fd h
    have := (step_got s o).2.2.1 fd h
    show gotOf fd (run (step s o) l) = _
    rw [ih _ fd this.1, this.2]

theorem lost_gone (s : S) (fd : Fin 3) (f : Bool) (hh : s.has fd = true) : (step s (.lost fd f)).proc fd = false := by
  simp only [step, hh, Bool.not_true, Bool.false_eq_true, if_false]
  by_cases hp : s.proc fd = true
  · simp only [hp, Bool.not_true, Bool.false_eq_true, if_false]
    obtain ⟨-, q2, -⟩ := doLost_rest
      { s with proc := fun j => if j = fd then false else s.proc j, told := s.told ++ [fd] } fd
    generalize S.doLost _ fd = u at q2 ⊢
    split
    · show u.proc fd = false; rw [q2]; simp
    · show u.tryFinish.proc fd = false; rw [(tryFinish_rest u).2.1, q2]; simp
  · have : s.proc fd = false := by simpa using hp
    simp only [this, Bool.not_false, if_true]

theorem gives_run (fd : Fin 3) (hz : fd ≠ 0) (l : List Op) (r : List Nat) (g : Gives fd l r) :
    ∀ s : S, s.has fd = true → s.proc fd = true → gotOf fd (run s l) = gotOf fd s ++ r := by
  induction g with
  | nil => intro s _ _; simp [run]
  | lost f l =>
    intro s hh hp
    show gotOf fd (run (step s (.lost fd f)) l) = _
    rw [run_gone l _ fd (lost_gone s fd f hh), (step_got s (.lost fd f)).2.2.2 fd (by simp)]; simp
  | data d l r g ih =>
    intro s hh hp
    show gotOf fd (run (step s (.data fd d)) l) = _
    have e : step s (.data fd d) = { s with got := s.got ++ [(fd, d)] } := by
      simp only [step, hh, hp, hz, Bool.not_true, Bool.false_eq_true, if_false, if_true]
    rw [e, ih { s with got := s.got ++ [(fd, d)] } hh hp]; simp [gotOf]
  | other o l r h1 h2 g ih =>
    intro s hh hp
    show gotOf fd (run (step s o) l) = _
    have := step_got s o
    rw [ih _ (by rw [this.1]; exact hh) (by rw [this.2.1 fd h1]; exact hp), this.2.2.2 fd h2]

/-- C419: the process gets the data of its outputs until they are lost, in order. -/
theorem C419_data (has : Fin 3 → Bool) (l : List Op) (fd : Fin 3) (hz : fd ≠ 0) (hh : has fd = true) (r : List Nat)
    (g : Gives fd l r) : gotOf fd (run (S.new has) l) = r := by
  rw [gives_run fd hz l r g (S.new has) hh rfl]; rfl

/-- C419: a pipe is disconnected exactly if it was lost and telling that did not raise. -/
theorem C419_disconnected_partial (has : Fin 3 → Bool) (l : List Op) (fd : Fin 3) (hh : has fd = true)
    (hl : ∀ f, Op.lost fd f ∈ l → f = false) :
    (run (S.new has) l).disc fd = true ↔ Op.lost fd false ∈ l := by
  rw [(inv_run has l).disc fd hh]
  constructor
  · intro h
    obtain ⟨o, ho, e⟩ := List.exists_of_findSome?_eq_some h
    match o, e with
    | .lost k f, e =>
      by_cases hk : k = fd
      · subst hk; simp at e; subst e; exact ho
      · simp [hk] at e
  · intro h
    rcases hx : first fd l with _ | b
    · have := List.findSome?_eq_none_iff.1 hx _ h
      simp at this
    · obtain ⟨o, ho, e⟩ := List.exists_of_findSome?_eq_some hx
      match o, e with
      | .lost k f, e =>
        by_cases hk : k = fd
        · subst hk; simp at e; subst e; rw [hl _ ho]
        · simp [hk] at e

/-- C419 is violated: if telling the loss raised, the pipe never counts as disconnected,
whatever happens then. -/
theorem C419_connected_violated (has : Fin 3 → Bool) (l : List Op) (fd : Fin 3) (hh : has fd = true) :
    (run (S.new has) (.lost fd true :: l)).disc fd = false := by
  rw [← Bool.not_eq_true, (inv_run _ _).disc fd hh]
  simp [first]

/-- C419 is violated: data of a lost pipe raises. -/
theorem C419_raises_violated (has : Fin 3 → Bool) (l : List Op) (fd : Fin 3) (hz : fd ≠ 0) (hh : has fd = true) (f : Bool)
    (hl : Op.lost fd f ∈ l) (d : Nat) :
    (step (run (S.new has) l) (.data fd d)).raised = (run (S.new has) l).raised + 1 := by
  have h := inv_run has l
  have hp : (run (S.new has) l).proc fd = false := by
    rw [← Bool.not_eq_true, h.proc fd hh]
    intro hn
    have := List.findSome?_eq_none_iff.1 hn _ hl
    simp at this
  simp only [step, h.same, hh, hp, hz, Bool.not_true, Bool.false_eq_true, if_false]

example : gotOf 1 (run (S.new fun _ => true) [.data 1 5, .data 2 6, .data 1 7, .lost 1 false, .data 1 8]) = [5, 7] := by decide
example : (run (S.new fun _ => true) [.lost 1 false, .lost 1 true, .lost 2 false]).told = [1, 2] := by decide
example : (run (S.new fun _ => true) [.lost 0 true, .lost 0 false]).disc 0 = false := by decide

end Verif.Finishing
