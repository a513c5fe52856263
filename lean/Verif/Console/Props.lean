import Verif.Console.Model

/-!
# The interactive console: properties
-/

namespace Verif.Console

/-! ## C407: results of code -/

/-- What running of code gives which is run alone: its value, that of its task, or nothing if it raised, which is written. -/
inductive Gives : Code → Interrupt → Out → List Exc → List Nat → Prop
  | value (v : Nat) (i : Interrupt) : Gives (.value v) i (.value v) [] []
  | raises (e : Exc) (i : Interrupt) : Gives (.raises e) i .none_ [e] []
  | result (id v : Nat) : Gives (.awaits id (.ok v)) .never (.value v) [] []
  | exit (id : Nat) : Gives (.awaits id (.error .systemExit)) .never .exit [] []
  | error (id : Nat) (e : Exc) : e ≠ .systemExit → Gives (.awaits id (.error e)) .never .none_ [e] []
  | cancelled (id : Nat) (e : Except Exc Nat) : Gives (.awaits id e) .waiting .none_ [.interrupt] [id]

/-- No callback waits and no task is there. -/
def Clean (s : St) : Prop := s.task = none ∧ s.left = []

theorem clean_caught (s : St) (e : Exc) (h : s.left = []) : Clean (caught s e).1 := by
  cases e <;> exact ⟨rfl, h⟩

theorem clean_await (s : St) (i : Interrupt) (v : Option Nat) (h : s.left = []) : Clean (await s i v).1 := by
  unfold await
  split
  · exact ⟨rfl, h⟩
  · split
    · exact clean_caught _ _ h
    · split
      · exact ⟨rfl, h⟩
      · exact clean_caught _ _ h

theorem clean_run (s : St) (c : Code) (i : Interrupt) (hi : i = .before → False) : Clean (runCode s c i).1 := by
  cases i with
  | before => exact (hi rfl).elim
  | never =>
    cases c with
    | raises e => exact ⟨rfl, rfl⟩
    | value v => exact clean_await _ _ _ rfl
    | awaits id e => exact clean_await _ _ _ rfl
  | waiting =>
    cases c with
    | raises e => exact ⟨rfl, rfl⟩
    | value v => exact clean_await _ _ _ rfl
    | awaits id e => exact clean_await _ _ _ rfl

theorem clean_all : ∀ (l : List (Code × Interrupt)) (s : St), Clean s → (∀ e ∈ l, e.2 ≠ .before) → Clean (runAll s l)
  | [], _, hs, _ => hs
  | (c, i) :: l, s, _, h => by
    rw [runAll]
    exact clean_all l _ (clean_run s c i fun hi => h (c, i) (List.mem_cons_self ..) hi) fun e he =>
      h e (List.mem_cons_of_mem _ he)

/-- C407: Unless an interrupt came before the event loop got to the code of some input, every input gives its own value or
writes its own exception, and a task whose awaiting is interrupted is cancelled. Missing: early interrupts. -/
theorem C407_own_partial (l : List (Code × Interrupt)) (hl : ∀ e ∈ l, e.2 ≠ .before) (c : Code) (i : Interrupt)
    (hi : i ≠ .before) : ∃ out es ids, Gives c i out es ids ∧ (runCode (runAll {} l) c i).2 = out ∧
      (runCode (runAll {} l) c i).1.written = (runAll {} l).written ++ es ∧
      (runCode (runAll {} l) c i).1.cancelled = (runAll {} l).cancelled ++ ids ∧
      Clean (runCode (runAll {} l) c i).1 := by
  have hs := clean_all l {} ⟨rfl, rfl⟩ hl
  generalize runAll {} l = s at hs
  obtain ⟨t, lf, w, cs⟩ := s
  obtain ⟨h1, h2⟩ := hs
  dsimp only at h1 h2
  subst h1 h2
  have hc := clean_run ⟨none, [], w, cs⟩ c i fun h => hi h
  cases c with
  | raises e =>
    refine ⟨_, _, _, .raises e i, ?_⟩
    cases i with
    | before => exact absurd rfl hi
    | never => exact ⟨rfl, rfl, (List.append_nil _).symm, hc⟩
    | waiting => exact ⟨rfl, rfl, (List.append_nil _).symm, hc⟩
  | value v =>
    refine ⟨_, _, _, .value v i, ?_⟩
    cases i with
    | before => exact absurd rfl hi
    | never => exact ⟨rfl, (List.append_nil _).symm, (List.append_nil _).symm, hc⟩
    | waiting => exact ⟨rfl, (List.append_nil _).symm, (List.append_nil _).symm, hc⟩
  | awaits id e =>
    cases i with
    | before => exact absurd rfl hi
    | waiting => exact ⟨_, _, _, .cancelled id e, rfl, rfl, rfl, hc⟩
    | never =>
      cases e with
      | ok v => exact ⟨_, _, _, .result id v, rfl, (List.append_nil _).symm, (List.append_nil _).symm, hc⟩
      | error e =>
        cases e with
        | systemExit => exact ⟨_, _, _, .exit id, rfl, (List.append_nil _).symm, (List.append_nil _).symm, hc⟩
        | interrupt => exact ⟨_, _, _, .error id _ (by simp), rfl, rfl, (List.append_nil _).symm, hc⟩
        | other => exact ⟨_, _, _, .error id _ (by simp), rfl, rfl, (List.append_nil _).symm, hc⟩

/-- C407: After code which awaits was interrupted before the event loop got to it, it runs nevertheless, and the next input
gives the result of it instead of its own value. -/
theorem C407_stale_violated (id v w : Nat) :
    (runCode (runAll {} [(.awaits id (.ok v), .before)]) (.value w) .never).2 = .value v := rfl

example : (runCode {} (.awaits 1 (.error .other)) .never).1.written = [.other] := rfl

/-! ## C408: exiting by code -/

/-- C408: Code which raises SystemExit in its task ends the console. Missing: code which awaits nothing. -/
theorem C408_task_partial (s : St) (id : Nat) : (runCode s (.awaits id (.error .systemExit)) .never).2 = .exit := rfl

/-- C408: Code which awaits nothing and raises SystemExit does not: it is written like any exception. -/
theorem C408_direct_violated (s : St) (i : Interrupt) (hi : i ≠ .before) :
    (runCode s (.raises .systemExit) i).2 = .none_ ∧ .systemExit ∈ (runCode s (.raises .systemExit) i).1.written := by
  cases i with
  | before => exact absurd rfl hi
  | never => exact ⟨rfl, by simp [runCode]⟩
  | waiting => exact ⟨rfl, by simp [runCode]⟩

/-! ## C409: file names -/

/-- What holds of a name given to an input of a console. -/
def Named (c input : Nat) (n : Name) : Prop := n.input = input ∧ (n.id = none ∨ n.id = some (c + 1))

/-- What holds always: names are right, and the last given to a console is kept. -/
structure Inv (w : World) : Prop where
  log : ∀ c i n, (c, i, n) ∈ w.log → Named c i n
  cached : ∀ c n, (w.consoles c).cached = some n → Named c (w.consoles c).input n
  past : ∀ c i n, (c, i, n) ∈ w.log → i ≤ (w.consoles c).input
  kept : ∀ c i n, (c, i, n) ∈ w.log → i = (w.consoles c).input → (w.consoles c).cached = some n
  once : ∀ c i n m, (c, i, n) ∈ w.log → (c, i, m) ∈ w.log → n = m

theorem created (w : World) (c : Nat) : Named c (w.consoles c).input (create w c) := by
  refine ⟨rfl, ?_⟩
  rw [create]
  split
  · exact .inr rfl
  · exact .inl rfl

theorem inv_named (w : World) (c : Nat) (n : Name) (cs : Nat → Con) (hw : Inv w)
    (hn : Named c (w.consoles c).input n)
    (hc : (w.consoles c).cached = some n ∨ (w.consoles c).cached = none)
    (hcs : cs = fun k => if k = c then { w.consoles c with cached := some n } else w.consoles k) :
    Inv { w with consoles := cs, log := w.log ++ [(c, (w.consoles c).input, n)] } := by
  have hin : ∀ k, (cs k).input = (w.consoles k).input := by
    intro k; rw [hcs]; dsimp only; split
    · rename_i h; rw [h]
    · rfl
  have hother : ∀ k, k ≠ c → cs k = w.consoles k := by
    intro k hk; rw [hcs]; dsimp only; rw [if_neg hk]
  have hself : (cs c).cached = some n := by rw [hcs]; dsimp only; rw [if_pos rfl]
  have hmem : ∀ x, x ∈ w.log ++ [(c, (w.consoles c).input, n)] → x ∈ w.log ∨ x = (c, (w.consoles c).input, n) := by
    intro x hx; simpa using hx
  have hsame : ∀ m, (c, (w.consoles c).input, m) ∈ w.log → m = n := by
    intro m hm
    have := hw.kept c _ m hm rfl
    rcases hc with h | h
    · rw [h] at this; cases this; rfl
    · rw [h] at this; cases this
  refine ⟨?_, ?_, ?_, ?_, ?_⟩
  · intro k i m h
    rcases hmem _ h with h | h
    · exact hw.log k i m h
    · cases h; exact hn
  · intro k m h
    dsimp only at h ⊢
    rw [hin]
    by_cases hk : k = c
    · subst hk; rw [hself] at h; cases h; exact hn
    · rw [hother k hk] at h; exact hw.cached k m h
  · intro k i m h
    dsimp only
    rw [hin]
    rcases hmem _ h with h | h
    · exact hw.past k i m h
    · cases h; exact Nat.le_refl _
  · intro k i m h hi
    dsimp only at hi ⊢
    rw [hin] at hi
    rcases hmem _ h with h | h
    · by_cases hk : k = c
      · subst hk; subst hi; rw [hself, hsame m (by assumption)]
      · rw [hother k hk]; exact hw.kept k i m h hi
    · cases h; exact hself
  · intro k i m m' h h'
    rcases hmem _ h with h | h <;> rcases hmem _ h' with h' | h'
    · exact hw.once k i m m' h h'
    · cases h'; exact hsame m h
    · cases h; exact (hsame m' h').symm
    · cases h; cases h'; rfl

theorem inv_step (w : World) (op : Op) (hw : Inv w) : Inv (w.step op) := by
  cases op with
  | new => exact ⟨hw.log, hw.cached, hw.past, hw.kept, hw.once⟩
  | name c =>
    rw [World.step]
    split
    · rename_i n hn
      have := inv_named w c n w.consoles hw (hw.cached c n hn) (.inl hn) (by
        funext k
        split
        · rename_i hk; subst hk; rw [← hn]
        · rfl)
      exact this
    · rename_i hn
      exact inv_named w c (create w c) _ hw (created w c) (.inr hn) rfl
  | next c =>
    rw [World.step, World.set]
    refine ⟨hw.log, ?_, ?_, ?_, hw.once⟩
    · intro k n h
      dsimp only at h ⊢
      by_cases hk : k = c
      · rw [if_pos hk] at h; cases h
      · rw [if_neg hk] at h ⊢; exact hw.cached k n h
    · intro k i n h
      have := hw.past k i n h
      dsimp only
      by_cases hk : k = c
      · subst hk; rw [if_pos rfl]; exact Nat.le_succ_of_le this
      · rw [if_neg hk]; exact this
    · intro k i n h hi
      dsimp only at hi ⊢
      by_cases hk : k = c
      · subst hk
        rw [if_pos rfl] at hi
        have := hw.past k i n h
        dsimp only at hi
        omega
      · rw [if_neg hk] at hi ⊢; exact hw.kept k i n h hi

theorem inv_run (ops : List Op) : ∀ w, Inv w → Inv (w.run ops) := by
  induction ops with
  | nil => exact fun w h => h
  | cons o ops ih => exact fun w h => ih _ (inv_step w o h)

theorem inv_all (ops : List Op) : Inv (World.run {} ops) :=
  inv_run ops {} ⟨fun _ _ _ h => (by cases h), fun _ _ h => (by cases h), fun _ _ _ h => (by cases h), fun _ _ _ h => (by cases h),
    fun _ _ _ _ h => (by cases h)⟩

/-- C409: In every history an input has always the same name, and two inputs with the same name have the same number and
either are the same, or one of them was named without the identifier of its console. Missing: those. -/
theorem C409_distinct_partial (ops : List Op) (c c' i i' : Nat) (n n' : Name) (h : (c, i, n) ∈ (World.run {} ops).log)
    (h' : (c', i', n') ∈ (World.run {} ops).log) :
    (c = c' → i = i' → n = n') ∧ (n = n' → i = i' ∧ (c = c' ∨ n.id = none)) := by
  have hw := inv_all ops
  refine ⟨?_, ?_⟩
  · rintro rfl rfl; exact hw.once c i n n' h h'
  · rintro rfl
    obtain ⟨h1, h2⟩ := hw.log _ _ _ h
    obtain ⟨h3, h4⟩ := hw.log _ _ _ h'
    refine ⟨by rw [← h1, h3], ?_⟩
    rcases h2 with h2 | h2
    · exact .inr h2
    · rcases h4 with h4 | h4
      · exact .inr h4
      · rw [h2] at h4
        simp only [Option.some.injEq] at h4
        exact .inl (by omega)

/-- C409: The identifier is missing while the console is the newest: the first inputs of a console and of one made after it
have the same name, so that the code of the one is shown for the other. -/
theorem C409_same_violated : (World.run {} [.new, .name 0, .new, .name 1]).log = [(0, 0, ⟨none, 0⟩), (1, 0, ⟨none, 0⟩)] := rfl

/-! ## C410: rounds -/

/-- The lines entered in a round. -/
inductive Entered : Round → List Nat → Prop
  | unmade : Entered .unmade []
  | nothing (b : List Nat) : Entered (.nothing b) b
  | code (b : List Nat) (e : Bool) : Entered (.code b e) b
  | syntax_ (b : List Nat) : Entered (.syntax_ b) b
  | interrupt (b : List Nat) : Entered (.interrupt b) b
  | exit (b : List Nat) : Entered (.exit b) b
  | other (b : List Nat) : Entered (.other b) b

/-- Rounds which end the console. -/
inductive Ends (stop : Bool) : Round → End → Prop
  | unmade : stop = true → Ends stop .unmade .systemExit
  | code (b : List Nat) : Ends stop (.code b true) .systemExit
  | interrupt : stop = true → Ends stop (.interrupt []) .systemExit
  | exit (b : List Nat) : Ends stop (.exit b) .systemExit
  | other (b : List Nat) : Ends stop (.other b) .exception

theorem round_not (stop : Bool) (s : Inter) (r : Round) (hs : s.ended = none) (hr : ∀ e, ¬ Ends stop r e) :
    (Inter.round stop s r).ended = none ∧ (Inter.round stop s r).input = s.input + 1 ∧
      ∀ b, Entered r b → (Inter.round stop s r).history = if b = [] then s.history else s.history ++ [(s.input, b)] := by
  unfold Inter.round
  rw [hs, if_neg (by simp)]
  have hh : ∀ b : List Nat, (if b.isEmpty then s.history else s.history ++ [(s.input, b)]) =
      if b = [] then s.history else s.history ++ [(s.input, b)] := by
    intro b; cases b <;> rfl
  cases r with
  | unmade =>
    cases stop with
    | true => exact absurd (.unmade rfl) (hr _)
    | false => exact ⟨hs, rfl, fun b hb => by cases hb; rfl⟩
  | nothing b => exact ⟨hs, rfl, fun b hb => by cases hb; exact hh _⟩
  | code b e =>
    cases e with
    | true => exact absurd (.code b) (hr _)
    | false => exact ⟨hs, rfl, fun b hb => by cases hb; exact hh _⟩
  | syntax_ b => exact ⟨hs, rfl, fun b hb => by cases hb; exact hh _⟩
  | interrupt b =>
    cases stop with
    | false => exact ⟨hs, rfl, fun b hb => by cases hb; exact hh _⟩
    | true =>
      cases b with
      | nil => exact absurd (.interrupt rfl) (hr _)
      | cons x b => exact ⟨hs, rfl, fun b hb => by cases hb; rfl⟩
  | exit b => exact absurd (.exit b) (hr _)
  | other b => exact absurd (.other b) (hr _)

theorem round_ends (stop : Bool) (s : Inter) (r : Round) (e : End) (hs : s.ended = none) (hr : Ends stop r e) :
    (Inter.round stop s r).ended = some e := by
  unfold Inter.round
  rw [hs, if_neg (by simp)]
  cases hr with
  | unmade h => subst h; rfl
  | code b => rfl
  | interrupt h => subst h; rfl
  | exit b => rfl
  | other b => rfl

theorem rounds_ended (stop : Bool) (rs : List Round) : ∀ s : Inter, s.ended.isSome → rs.foldl (Inter.round stop) s = s := by
  induction rs with
  | nil => exact fun s _ => rfl
  | cons r rs ih =>
    intro s hs
    have : Inter.round stop s r = s := by unfold Inter.round; rw [if_pos hs]
    rw [List.foldl_cons, this, ih s hs]

theorem rounds_on (stop : Bool) (rs : List Round) : ∀ s : Inter, s.ended = none → (∀ r ∈ rs, ∀ e, ¬ Ends stop r e) →
    (rs.foldl (Inter.round stop) s).ended = none ∧ (rs.foldl (Inter.round stop) s).input = s.input + rs.length ∧
      ∀ k b, (k, b) ∈ (rs.foldl (Inter.round stop) s).history ↔
        (k, b) ∈ s.history ∨ (b ≠ [] ∧ s.input ≤ k ∧ ∃ r, rs[k - s.input]? = some r ∧ Entered r b) := by
  induction rs with
  | nil => intro s hs _; exact ⟨hs, rfl, fun k b => by simp⟩
  | cons r rs ih =>
    intro s hs hr
    obtain ⟨h1, h2, h3⟩ := round_not stop s r hs (hr r (List.mem_cons_self ..))
    obtain ⟨g1, g2, g3⟩ := ih _ h1 fun x hx => hr x (List.mem_cons_of_mem _ hx)
    rw [List.foldl_cons]
    refine ⟨g1, by rw [g2, h2, List.length_cons]; omega, fun k b => ?_⟩
    rw [g3, h2]
    have he : ∃ c, Entered r c := by
      cases r with
      | unmade => exact ⟨_, .unmade⟩
      | nothing b => exact ⟨_, .nothing b⟩
      | code b e => exact ⟨_, .code b e⟩
      | syntax_ b => exact ⟨_, .syntax_ b⟩
      | interrupt b => exact ⟨_, .interrupt b⟩
      | exit b => exact ⟨_, .exit b⟩
      | other b => exact ⟨_, .other b⟩
    obtain ⟨c, hc⟩ := he
    have huniq : ∀ d, Entered r d → d = c := by
      intro d hd; cases hc <;> cases hd <;> rfl
    rw [h3 c hc]
    by_cases hk : k = s.input
    · subst hk
      simp only [Nat.sub_self, List.getElem?_cons_zero, Option.some.injEq]
      constructor
      · rintro (h | ⟨_, h, _⟩)
        · split at h
          · exact .inl h
          · rcases List.mem_append.1 h with h | h
            · exact .inl h
            · simp only [List.mem_singleton, Prod.mk.injEq, true_and] at h
              subst h
              rename_i hne
              exact .inr ⟨hne, Nat.le_refl _, r, rfl, hc⟩
        · omega
      · rintro (h | ⟨hne, _, x, rfl, hx⟩)
        · left
          split
          · exact h
          · exact List.mem_append_left _ h
        · have := huniq b hx
          subst this
          left
          rw [if_neg hne]
          simp
    · have hidx : s.input ≤ k → (r :: rs)[k - s.input]? = rs[k - (s.input + 1)]? := by
        intro hle
        have : k - s.input = (k - (s.input + 1)) + 1 := by omega
        rw [this, List.getElem?_cons_succ]
      constructor
      · rintro (h | ⟨hne, hle, x, hx, hb⟩)
        · left
          split at h
          · exact h
          · rcases List.mem_append.1 h with h | h
            · exact h
            · simp only [List.mem_singleton, Prod.mk.injEq] at h
              exact absurd h.1 hk
        · exact .inr ⟨hne, by omega, x, by rw [hidx (by omega)]; exact hx, hb⟩
      · rintro (h | ⟨hne, hle, x, hx, hb⟩)
        · left
          split
          · exact h
          · exact List.mem_append_left _ h
        · exact .inr ⟨hne, by omega, x, by rw [← hidx hle]; exact hx, hb⟩

/-- C410: As long as the console did not end, inputs are numbered one after the other, and what was entered in each is in the
history under its number, also of those interrupted or wrong; nothing else is. -/
theorem C410_history (stop : Bool) (rs : List Round) (hr : ∀ r ∈ rs, ∀ e, ¬ Ends stop r e) :
    (interact stop rs).ended = none ∧ (interact stop rs).input = rs.length ∧
      ∀ k b, (k, b) ∈ (interact stop rs).history ↔ b ≠ [] ∧ ∃ r, rs[k]? = some r ∧ Entered r b := by
  obtain ⟨h1, h2, h3⟩ := rounds_on stop rs {} rfl hr
  refine ⟨h1, by rw [interact, h2]; simp, fun k b => ?_⟩
  rw [interact, h3]
  simp

example : (interact true [.syntax_ [1], .interrupt [2], .nothing []]).history = [(0, [1]), (1, [2])] := by decide

/-! ## C411: ending -/

/-- C411: The console ends with the first round which exits, or, if it stops on interruptions, is interrupted while nothing is
entered; later rounds do not matter. -/
theorem C411_ends (stop : Bool) (rs after : List Round) (r : Round) (e : End) (hr : ∀ r ∈ rs, ∀ e, ¬ Ends stop r e)
    (he : Ends stop r e) : (interact stop (rs ++ r :: after)).ended = some e := by
  obtain ⟨h1, _, _⟩ := rounds_on stop rs {} rfl hr
  rw [interact, List.foldl_append, List.foldl_cons]
  have := round_ends stop _ r e h1 he
  rw [rounds_ended stop after _ (by rw [this]; rfl), this]

/-- C411: Interrupting twice ends it whatever was entered before, if it stops on interruptions and nothing is entered between. -/
theorem C411_twice (rs after : List Round) (b : List Nat) :
    (interact true (rs ++ .interrupt b :: .interrupt [] :: after)).ended ≠ none := by
  rw [interact, List.foldl_append, List.foldl_cons, List.foldl_cons]
  generalize rs.foldl (Inter.round true) {} = s
  have key : ∀ s : Inter, (Inter.round true s (.interrupt [])).ended.isSome := by
    intro s
    unfold Inter.round
    split
    · assumption
    · rfl
  intro h
  have h2 := key (Inter.round true s (.interrupt b))
  rw [rounds_ended true after _ h2] at h
  rw [h] at h2
  cases h2

/-! ## C412: messages -/

theorem round_written (stop : Bool) (s : Inter) (r : Round) :
    ∃ l, (Inter.round stop s r).written = s.written ++ l ∧ .exitMessage ∉ l ∧ .banner ∉ l := by
  unfold Inter.round
  split
  · exact ⟨[], by simp⟩
  · cases r with
    | unmade =>
      cases stop with
      | true => exact ⟨[], by simp [Inter.next], by simp, by simp⟩
      | false => exact ⟨[.interrupted], rfl, by simp, by simp⟩
    | nothing b => exact ⟨[], by simp [Inter.next], by simp, by simp⟩
    | code b e =>
      cases e with
      | true => exact ⟨[], by simp, by simp, by simp⟩
      | false => exact ⟨[], by simp [Inter.next], by simp, by simp⟩
    | syntax_ b => exact ⟨[.syntaxError], rfl, by simp, by simp⟩
    | interrupt b =>
      cases stop with
      | false => exact ⟨[.interrupted], rfl, by simp, by simp⟩
      | true =>
        cases b with
        | nil => exact ⟨[], by simp [Inter.next], by simp, by simp⟩
        | cons x b => exact ⟨[.again], rfl, by simp, by simp⟩
    | exit b => exact ⟨[], by simp, by simp, by simp⟩
    | other b => exact ⟨[], by simp, by simp, by simp⟩

theorem rounds_written (stop : Bool) (rs : List Round) : ∀ s : Inter,
    ∃ l, (rs.foldl (Inter.round stop) s).written = s.written ++ l ∧ .exitMessage ∉ l ∧ .banner ∉ l := by
  induction rs with
  | nil => exact fun s => ⟨[], by simp⟩
  | cons r rs ih =>
    intro s
    obtain ⟨l, h1, h2, h3⟩ := round_written stop s r
    obtain ⟨m, g1, g2, g3⟩ := ih (Inter.round stop s r)
    refine ⟨l ++ m, by rw [List.foldl_cons, g1, h1, List.append_assoc], ?_, ?_⟩
    · simp [h2, g2]
    · simp [h3, g3]

/-- C412: The banner is written first and once. Missing: the exit message. -/
theorem C412_banner_partial (stop : Bool) (rs : List Round) :
    ∃ l, (interact stop rs).written = .banner :: l ∧ .banner ∉ l := by
  obtain ⟨l, h1, _, h3⟩ := rounds_written stop rs {}
  exact ⟨l, h1, h3⟩

/-- C412: The exit message is never written, however the console ends. -/
theorem C412_exit_violated (stop : Bool) (rs : List Round) : .exitMessage ∉ (interact stop rs).written := by
  obtain ⟨l, h1, h2, _⟩ := rounds_written stop rs {}
  rw [interact, h1]
  simp [h2]

/-! ## C413: the simple editor -/

theorem edit_more (compile : List (List Char) → Comp) (after : List In) : ∀ (ls buffer : List (List Char)), buffer ≠ [] →
    (∀ j, 0 < j → j ≤ ls.length → compile (buffer ++ ls.take j) = .more) →
    edit compile buffer (ls.map .line ++ after) = edit compile (buffer ++ ls) after
  | [], buffer, _, _ => by simp
  | l :: ls, buffer, hb, hm => by
    have he : buffer.isEmpty = false := by cases buffer with
      | nil => exact absurd rfl hb
      | cons x b => rfl
    rw [List.map_cons, List.cons_append, edit]
    simp only [he, Bool.false_eq_true, if_false, Bool.false_and]
    have h1 := hm 1 (by omega) (by simp)
    rw [List.take_succ_cons, List.take_zero] at h1
    rw [h1]
    dsimp only
    rw [edit_more compile after ls (buffer ++ [l]) (by simp), List.append_assoc, List.singleton_append]
    intro j hj hjl
    have := hm (j + 1) (by omega) (by simpa using hjl)
    rwa [List.take_succ_cons, ← List.singleton_append, ← List.append_assoc] at this

theorem edit_blank (compile : List (List Char) → Comp) (after : List In) : ∀ (blanks : List (List Char)),
    (∀ l ∈ blanks, rstrip l = []) → edit compile [] (blanks.map .line ++ after) = edit compile [] after
  | [], _ => rfl
  | l :: blanks, h => by
    rw [List.map_cons, List.cons_append, edit]
    simp only [List.isEmpty_nil, if_true, h l (List.mem_cons_self ..), Bool.and_self]
    exact edit_blank compile after blanks fun x hx => h x (List.mem_cons_of_mem _ hx)

/-- C413: The editor leaves out blank lines before the first other one and asks for lines until those entered so far compile
or are wrong, and gives just that; only the first is stripped. -/
theorem C413_first (compile : List (List Char) → Comp) (blanks ls : List (List Char)) (first last : List Char)
    (after : List In) (hb : ∀ l ∈ blanks, rstrip l = []) (h0 : rstrip first ≠ [])
    (hm : ∀ j, j ≤ ls.length → compile (rstrip first :: ls.take j) = .more)
    (hc : compile (rstrip first :: (ls ++ [last])) ≠ .more) :
    edit compile [] (blanks.map .line ++ (.line first :: (ls.map .line ++ .line last :: after))) =
      (match compile (rstrip first :: (ls ++ [last])) with
        | .code c => .code c
        | _ => .error, rstrip first :: (ls ++ [last])) := by
  rw [edit_blank compile _ blanks hb, edit]
  have h1 : (rstrip first).isEmpty = false := by
    cases hf : rstrip first with
    | nil => exact absurd hf h0
    | cons x l => rfl
  simp only [List.isEmpty_nil, if_true, h1, Bool.and_false, Bool.false_eq_true, if_false, List.nil_append]
  have h2 := hm 0 (Nat.zero_le _)
  rw [List.take_zero] at h2
  rw [h2]
  dsimp only
  rw [edit_more compile _ ls [rstrip first] (by simp) (fun j _ hj => hm j hj), edit]
  simp only [List.isEmpty_cons, Bool.false_eq_true, if_false, Bool.false_and, List.cons_append, List.nil_append]
  cases hcc : compile (rstrip first :: (ls ++ [last])) with
  | code c => rfl
  | more => exact absurd hcc hc
  | error => rfl

/-- C413: The end of the input exits, with whatever entered before. -/
theorem C413_exit (compile : List (List Char) → Comp) (blanks ls : List (List Char)) (first : List Char)
    (after : List In) (hb : ∀ l ∈ blanks, rstrip l = []) (h0 : rstrip first ≠ [])
    (hm : ∀ j, j ≤ ls.length → compile (rstrip first :: ls.take j) = .more) :
    (edit compile [] (blanks.map .line ++ .eof :: after)).1 = .exit ∧
    (edit compile [] (blanks.map .line ++ (.line first :: (ls.map .line ++ .eof :: after)))).1 = .exit := by
  refine ⟨by rw [edit_blank compile _ blanks hb]; rfl, ?_⟩
  rw [edit_blank compile _ blanks hb, edit]
  have h1 : (rstrip first).isEmpty = false := by
    cases hf : rstrip first with
    | nil => exact absurd hf h0
    | cons x l => rfl
  simp only [List.isEmpty_nil, if_true, h1, Bool.and_false, Bool.false_eq_true, if_false, List.nil_append]
  have h2 := hm 0 (Nat.zero_le _)
  rw [List.take_zero] at h2
  rw [h2]
  dsimp only
  rw [edit_more compile _ ls [rstrip first] (by simp) (fun j _ hj => hm j hj)]
  rfl

example : (edit (fun b => if b.length = 2 then .code 7 else .more) [] [.line [' '], .line ['a', ' '], .line ['b', ' ']]) =
    (.code 7, [['a'], ['b', ' ']]) := by decide

end Verif.Console
