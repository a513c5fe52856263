import Verif.Contexts.Model

/-!
# Context managers, catching of exceptions, titles and variables of the console: theorems
-/

namespace Verif.Contexts

/-! ## Context managers -/

theorem steps_append (m : Manager) (a b : List Op) :
    steps m (a ++ b) = ((steps (steps m a).1 b).1, (steps m a).2 ++ (steps (steps m a).1 b).2) := by
  induction a generalizing m with
  | nil => rfl
  | cons op a ih => simp only [List.cons_append, steps, ih, List.cons_append]

/-- Whether an operation is leaving. -/
def isExit : Op → Bool
  | .exit => true
  | _ => false

theorem steps_exits (k : Nat) : (steps {} (List.replicate k .exit)).1 = {} := by
  induction k with
  | zero => rfl
  | succ k ih => rw [List.replicate_succ]; simp only [steps, step]; exact ih

/-- After the request was made. -/
theorem steps_left (m : Manager) (hc : m.coroutine = none) (hr : m.response = none) (ops : List Op) :
    (steps m ops).1 = m ∧ ∀ o ∈ (steps m ops).2, o = .response none ∨ o = .left := by
  induction ops with
  | nil => exact ⟨rfl, by simp [steps]⟩
  | cons op ops ih =>
    cases op with
    | enter x =>
      have : step m (.enter x) = (m, .response none) := by simp [step, hc, hr]
      simp only [steps, this]
      refine ⟨ih.1, fun o ho => ?_⟩
      rcases List.mem_cons.1 ho with rfl | ho
      · exact .inl rfl
      · exact ih.2 o ho
    | exit =>
      have : step m .exit = (m, .left) := by simp [step, hr]
      simp only [steps, this]
      refine ⟨ih.1, fun o ho => ?_⟩
      rcases List.mem_cons.1 ho with rfl | ho
      · exact .inr rfl
      · exact ih.2 o ho

theorem steps_got (m : Manager) (r : Nat) (hc : m.coroutine = none) (hr : m.response = some r) (ops : List Op) :
    (steps m ops).1.released = m.released ++ (if ops.any isExit then [r] else []) ∧ (steps m ops).1.requests = m.requests ∧
      (ops.any isExit = false → ∀ o ∈ (steps m ops).2, o = .response (some r)) := by
  induction ops with
  | nil => simp [steps]
  | cons op ops ih =>
    cases op with
    | enter x =>
      have : step m (.enter x) = (m, .response (some r)) := by simp [step, hc, hr]
      simp only [steps, this, List.any_cons, isExit, Bool.false_or]
      refine ⟨ih.1, ih.2.1, fun h o ho => ?_⟩
      rcases List.mem_cons.1 ho with rfl | ho
      · rfl
      · exact ih.2.2 h o ho
    | exit =>
      have : step m .exit = ({ m with response := none, released := m.released ++ [r] }, .left) := by simp [step, hr]
      simp only [steps, this]
      rw [(steps_left { m with response := none, released := m.released ++ [r] } hc rfl ops).1]
      simp [isExit]

/-- C348: a response which was got is released exactly once, when the context is left first after it, and never before;
the request is made once. -/
theorem C348_released (k r : Nat) (ops : List Op) :
    (steps {} (List.replicate k .exit ++ .enter (.ok r) :: ops)).1.released = (if ops.any isExit then [r] else []) ∧
      (steps {} (List.replicate k .exit ++ .enter (.ok r) :: ops)).1.requests = 1 := by
  rw [steps_append, steps_exits]
  have h := steps_got { coroutine := none, response := some r, requests := 1 } r rfl rfl ops
  simp only [steps, step]
  refine ⟨?_, h.2.1⟩
  have := h.1
  simpa using this

/-- C348: whatever is done, the request is made at most once and at most one response is released. -/
theorem C348_once (ops : List Op) : (steps {} ops).1.requests ≤ 1 ∧ (steps {} ops).1.released.length ≤ 1 := by
  have key : ∀ (ops : List Op) (m : Manager),
      m.requests + (if m.coroutine = some .fresh then 1 else 0) ≤ 1 →
      m.released.length + (if m.response.isSome then 1 else 0) + (if m.coroutine = some .fresh then 1 else 0) ≤ 1 →
      (steps m ops).1.requests ≤ 1 ∧ (steps m ops).1.released.length ≤ 1 := by
    intro ops
    induction ops with
    | nil => intro m h1 h2; exact ⟨by simp only [steps]; omega, by simp only [steps]; omega⟩
    | cons op ops ih =>
      intro m h1 h2
      simp only [steps]
      refine ih _ ?_ ?_ <;>
      · obtain ⟨co, resp, req, rel⟩ := m
        cases op with
        | enter x =>
          cases x <;> rcases co with _ | (_ | _) <;> cases resp <;> simp [step, -List.length_eq_zero_iff] at h1 h2 ⊢ <;> omega
        | exit => rcases co with _ | (_ | _) <;> cases resp <;> simp [step, -List.length_eq_zero_iff] at h1 h2 ⊢ <;> omega
  exact key ops {} (by decide) (by decide)

/-- C349: until the context is left, entering or awaiting it again gives the same response. -/
theorem C349_again_partial (r : Nat) (ops : List Op) (h : ops.any isExit = false) :
    ∀ o ∈ (steps {} (.enter (.ok r) :: ops)).2, o = .response (some r) := by
  have hs := (steps_got { coroutine := none, response := some r, requests := 1 } r rfl rfl ops).2.2 h
  intro o ho
  simp only [steps, step] at ho
  rcases List.mem_cons.1 ho with rfl | ho
  · rfl
  · exact hs o ho

/-- C349: but afterwards it gives nothing, without an error. -/
theorem C349_left_violated (r : Nat) (result : Except Nat Nat) :
    (steps {} [.enter (.ok r), .exit, .enter result]).2 = [.response (some r), .left, .response none] := by
  simp [steps, step]

/-- C350: if the request failed, awaiting it again does not tell how. -/
theorem C350_failed_violated (e : Nat) (result : Except Nat Nat) :
    (steps {} [.enter (.error e), .enter result]).2 = [.raised e, .reused] := by
  simp [steps, step]

/-- C350: the failure is told once, and there is nothing which would be released ever. -/
theorem C350_failed_partial (e : Nat) (ops : List Op) :
    (steps {} (.enter (.error e) :: ops)).2.head? = some (.raised e) ∧ (steps {} (.enter (.error e) :: ops)).1.released = [] ∧
      ∀ o ∈ (steps {} (.enter (.error e) :: ops)).2.tail, o = .reused ∨ o = .left := by
  have key : ∀ (ops : List Op) (m : Manager), m.coroutine = some .ended → m.response = none →
      (steps m ops).1 = m ∧ ∀ o ∈ (steps m ops).2, o = .reused ∨ o = .left := by
    intro ops
    induction ops with
    | nil => intro m _ _; exact ⟨rfl, by simp [steps]⟩
    | cons op ops ih =>
      intro m h1 h2
      have hs : step m op = (m, .reused) ∨ step m op = (m, .left) := by
        cases op with
        | enter x => left; simp [step, h1]
        | exit => right; simp [step, h2]
      rcases hs with hs | hs <;>
      · simp only [steps, hs]
        refine ⟨(ih m h1 h2).1, fun o ho => ?_⟩
        rcases List.mem_cons.1 ho with rfl | ho
        · simp
        · exact (ih m h1 h2).2 o ho
  have h := key ops { coroutine := some .ended, requests := 1 } rfl rfl
  simp only [steps, step]
  refine ⟨rfl, ?_, h.2⟩
  have := h.1
  simp only [Nat.zero_add]
  rw [this]

example : (steps {} [.exit, .enter (.ok 5), .enter (.ok 6), .exit, .exit]).1.released = [5] := by decide

/-! ## Catching -/

/-- C351: an exception is caught exactly if there is one, it is not excluded, it is included, and it does not close the
running task. -/
theorem C351_caught (generatorExit : Nat → Bool) (c : Catcher) (exception : Option Nat) (asynchronous inTask : Bool) :
    shouldCapture generatorExit c exception asynchronous inTask = true ↔
      ∃ e, exception = some e ∧ ¬ (generatorExit e = true ∧ (asynchronous = true ∨ inTask = true)) ∧
        (∀ f, c.exclude = some f → f e = false) ∧ ∀ g, c.include_ = some g → g e = true := by
  obtain ⟨inc, exc⟩ := c
  cases exception with
  | none => simp [shouldCapture]
  | some e =>
    cases asynchronous <;> cases inTask <;> cases hg : generatorExit e <;> cases inc <;> cases exc <;>
      simp [shouldCapture, hg]

/-- C352: but a task which is cancelled is not ended: its cancellation is caught by default. -/
theorem C352_cancelled_violated (generatorExit : Nat → Bool) (cancelled : Nat) (h : generatorExit cancelled = false) :
    shouldCapture generatorExit {} (some cancelled) true true = true ∧ shouldCapture generatorExit {} (some cancelled) false true = true := by
  simp [shouldCapture, h]

/-- C352: the closing of a task is never caught in it. -/
theorem C352_closed_partial (generatorExit : Nat → Bool) (c : Catcher) (e : Nat) (h : generatorExit e = true) (asynchronous : Bool) :
    shouldCapture generatorExit c (some e) asynchronous true = false := by
  cases asynchronous <;> simp [shouldCapture, h]

/-- C353: a title tells the location given, else the task, else the first frame outside of the module, else none. -/
theorem C353_location (given task : Option Nat) (own : Nat) (frames : List Frame) :
    (∀ n, given = some n → location given task own frames = .given n) ∧
      (∀ n, given = none → task = some n → location given task own frames = .task n) ∧
      (∀ a f b, given = none → task = none → frames = a ++ f :: b → (∀ x ∈ a, x.file = own) → f.file ≠ own →
        location given task own frames = .frame f.name) ∧
      (given = none → task = none → (∀ x ∈ frames, x.file = own) → location given task own frames = .nowhere) := by
  have h1 : ∀ a f b, (∀ x ∈ a, x.file = own) → f.file ≠ own → trace own (a ++ f :: b) = some f.name := by
    intro a f b ha hf
    induction a with
    | nil => simp [trace, hf]
    | cons x a ih =>
      rw [List.cons_append, trace, if_neg (by simp [ha x List.mem_cons_self])]
      exact ih fun y hy => ha y (List.mem_cons_of_mem _ hy)
  have h2 : (∀ x ∈ frames, x.file = own) → trace own frames = none := by
    intro h
    induction frames with
    | nil => rfl
    | cons x a ih =>
      rw [trace, if_neg (by simp [h x List.mem_cons_self])]
      exact ih fun y hy => h y (List.mem_cons_of_mem _ hy)
  refine ⟨?_, ?_, ?_, ?_⟩
  · rintro n rfl; rfl
  · rintro n rfl rfl; rfl
  · rintro a f b rfl rfl rfl ha hf
    simp only [location, h1 a f b ha hf]
  · rintro rfl rfl h
    simp only [location, h2 h]

/-! ## Titles -/

/-- A text with every line break as LF. -/
inductive Plain (brk : Nat → Bool) : List Nat → List Nat → Prop
  | nil : Plain brk [] []
  | crlf (t u : List Nat) : Plain brk t u → Plain brk (13 :: 10 :: t) (10 :: u)
  | cr (t u : List Nat) : t.head? ≠ some 10 → Plain brk t u → Plain brk (13 :: t) (10 :: u)
  | brk (c : Nat) (t u : List Nat) : c ≠ 13 → c = 10 ∨ brk c = true → Plain brk t u → Plain brk (c :: t) (10 :: u)
  | char (c : Nat) (t u : List Nat) : c ≠ 13 → c ≠ 10 → brk c = false → Plain brk t u → Plain brk (c :: t) (c :: u)

/-- Lines with LF between. -/
def joined : List (List Nat) → List Nat
  | [] => []
  | [l] => l
  | l :: m :: ls => l ++ 10 :: joined (m :: ls)

/-- Lines with LF behind each. -/
def ended (ls : List (List Nat)) : List Nat := ls.flatMap fun l => l ++ [10]

theorem ended_joined (ls : List (List Nat)) (h : ls ≠ []) : ended ls = joined ls ++ [10] := by
  induction ls with
  | nil => exact absurd rfl h
  | cons l ls ih =>
    cases ls with
    | nil => simp [ended, joined]
    | cons m ls =>
      have := ih (by simp)
      simp only [ended, List.flatMap_cons] at this ⊢
      rw [this]
      simp [joined]

theorem plain_total (brk : Nat → Bool) (t : List Nat) : ∃ u, Plain brk t u := by
  have : ∀ n (t : List Nat), t.length ≤ n → ∃ u, Plain brk t u := by
    intro n
    induction n with
    | zero => intro t h; cases t with
      | nil => exact ⟨[], .nil⟩
      | cons => simp at h
    | succ n ih =>
      intro t h
      cases t with
      | nil => exact ⟨[], .nil⟩
      | cons c t =>
        simp at h
        obtain ⟨u, hu⟩ := ih t h
        by_cases h13 : c = 13
        · subst h13
          by_cases ht : t.head? = some 10
          · cases t with
            | nil => simp at ht
            | cons d t =>
              simp at ht
              subst ht
              simp at h
              obtain ⟨u, hu⟩ := ih t (by omega)
              exact ⟨_, .crlf t u hu⟩
          · exact ⟨_, .cr t u ht hu⟩
        · by_cases hb : c = 10 ∨ brk c = true
          · exact ⟨_, .brk c t u h13 hb hu⟩
          · exact ⟨_, .char c t u h13 (fun h => hb (.inl h)) (by cases hh : brk c <;> simp_all) hu⟩
  exact this t.length t (Nat.le_refl _)

theorem splitlines_break (brk : Nat → Bool) (line : List Nat) (c : Nat) (t : List Nat) (h : c = 13 ∨ c = 10 ∨ brk c = true)
    (ht : c = 13 → t.head? ≠ some 10) : splitlines brk line (c :: t) = line.reverse :: splitlines brk [] t := by
  rw [splitlines]
  · rw [if_pos h]
  · rintro cs rfl rfl
    simp at ht

theorem splitlines_char (brk : Nat → Bool) (line : List Nat) (c : Nat) (t : List Nat) (h13 : c ≠ 13) (h10 : c ≠ 10) (hb : brk c = false) :
    splitlines brk line (c :: t) = splitlines brk (c :: line) t := by
  rw [splitlines]
  · rw [if_neg (by simp [h13, h10, hb])]
  · rintro cs rfl
    exact absurd rfl h13

theorem splitlines_plain (brk : Nat → Bool) (t u : List Nat) (h : Plain brk t u) (line : List Nat) :
    (ended (splitlines brk line t) = line.reverse ++ u ∨ ended (splitlines brk line t) = line.reverse ++ u ++ [10]) ∧
      ((∀ c ∈ line, c ≠ 13 ∧ c ≠ 10 ∧ brk c = false) → ∀ l ∈ splitlines brk line t, ∀ c ∈ l, c ≠ 13 ∧ c ≠ 10 ∧ brk c = false) := by
  have hbreak : ∀ (line t u : List Nat),
      ((ended (splitlines brk [] t) = u ∨ ended (splitlines brk [] t) = u ++ [10]) ∧
        ∀ l ∈ splitlines brk [] t, ∀ c ∈ l, c ≠ 13 ∧ c ≠ 10 ∧ brk c = false) →
      (ended (line.reverse :: splitlines brk [] t) = line.reverse ++ 10 :: u ∨
          ended (line.reverse :: splitlines brk [] t) = line.reverse ++ 10 :: u ++ [10]) ∧
        ((∀ c ∈ line, c ≠ 13 ∧ c ≠ 10 ∧ brk c = false) → ∀ l ∈ line.reverse :: splitlines brk [] t, ∀ c ∈ l, c ≠ 13 ∧ c ≠ 10 ∧ brk c = false) := by
    rintro line t u ⟨h1, h2⟩
    constructor
    · rcases h1 with h1 | h1
      · left; simp only [ended, List.flatMap_cons] at h1 ⊢; rw [h1]; simp
      · right; simp only [ended, List.flatMap_cons] at h1 ⊢; rw [h1]; simp
    · intro hl l hm
      rcases List.mem_cons.1 hm with rfl | hm
      · intro c hc; exact hl c (List.mem_reverse.1 hc)
      · exact h2 l hm
  induction h generalizing line with
  | nil =>
    rw [splitlines]
    by_cases hl : line = []
    · rw [if_pos hl]; subst hl; exact ⟨.inl rfl, by simp⟩
    · rw [if_neg hl]
      refine ⟨.inr (by simp [ended]), ?_⟩
      intro h l hm
      simp at hm
      subst hm
      intro c hc
      exact h c (by simpa using hc)
  | crlf t u _ ih =>
    rw [splitlines]
    have := ih []
    simp only [List.reverse_nil, List.nil_append] at this
    exact hbreak line t u ⟨this.1, this.2 (by simp)⟩
  | cr t u ht _ ih =>
    rw [splitlines_break brk line 13 t (.inl rfl) (fun _ => ht)]
    have := ih []
    simp only [List.reverse_nil, List.nil_append] at this
    exact hbreak line t u ⟨this.1, this.2 (by simp)⟩
  | brk c t u h13 hb _ ih =>
    rw [splitlines_break brk line c t (.inr hb) (fun h => absurd h h13)]
    have := ih []
    simp only [List.reverse_nil, List.nil_append] at this
    exact hbreak line t u ⟨this.1, this.2 (by simp)⟩
  | char c t u h13 h10 hb _ ih =>
    rw [splitlines_char brk line c t h13 h10 hb]
    have := ih (c :: line)
    simp only [List.reverse_cons, List.append_assoc, List.singleton_append] at this ⊢
    refine ⟨this.1, fun hl => this.2 ?_⟩
    intro d hd
    rcases List.mem_cons.1 hd with rfl | hd
    · exact ⟨h13, h10, hb⟩
    · exact hl d hd

theorem ended_append (a b : List (List Nat)) : ended (a ++ b) = ended a ++ ended b := by simp [ended]

theorem dropEmpty_spec (ls : List (List Nat)) :
    ∃ n, ended ls.reverse = ended (dropEmpty ls).reverse ++ List.replicate n 10 ∧ (dropEmpty ls).head? ≠ some [] ∧ ∀ l ∈ dropEmpty ls, l ∈ ls := by
  induction ls with
  | nil => exact ⟨0, by simp [dropEmpty], by simp [dropEmpty], by simp [dropEmpty]⟩
  | cons l ls ih =>
    rw [dropEmpty]
    by_cases hl : l ≠ []
    · rw [if_pos hl]
      exact ⟨0, by simp, by simpa using hl, fun _ h => h⟩
    · rw [if_neg hl]
      obtain ⟨n, h1, h2, h3⟩ := ih
      refine ⟨n + 1, ?_, h2, fun x hx => List.mem_cons_of_mem _ (h3 x hx)⟩
      have : l = [] := by simpa using hl
      subst this
      rw [List.reverse_cons, ended_append, h1, List.append_assoc]
      congr 1
      simp only [ended, List.flatMap_cons, List.flatMap_nil, List.append_nil, List.nil_append]
      exact List.replicate_append_replicate (n := n) (m := 1) (a := 10)

/-- C354: the lines shown as a title are the text without the line breaks at its end: there is no break in a line and the
last line is not empty; nothing is shown exactly if there are breaks only. -/
theorem C354_titles (brk : Nat → Bool) (t u : List Nat) (h : Plain brk t u) :
    match titleLines brk t with
    | none => ∃ n, u = List.replicate n 10
    | some ls => (∃ n, u = joined ls ++ List.replicate n 10) ∧ ls ≠ [] ∧ ls.getLast? ≠ some [] ∧
        ∀ l ∈ ls, ∀ c ∈ l, c ≠ 13 ∧ c ≠ 10 ∧ brk c = false := by
  unfold titleLines
  by_cases ht : t = []
  · subst ht
    rw [if_pos rfl]
    cases h
    exact ⟨0, rfl⟩
  · rw [if_neg ht]
    obtain ⟨h1, h2⟩ := splitlines_plain brk t u h []
    have h2 := h2 (by simp)
    simp only [List.reverse_nil, List.nil_append] at h1
    obtain ⟨n, h3, h4, h5⟩ := dropEmpty_spec (splitlines brk [] t).reverse
    rw [List.reverse_reverse] at h3
    cases hd : dropEmpty (splitlines brk [] t).reverse with
    | nil =>
      rw [hd] at h3
      simp only [List.reverse_nil, ended, List.flatMap_nil, List.nil_append] at h3
      change ended _ = _ at h3
      dsimp only
      rcases h1 with h1 | h1
      · exact ⟨n, by rw [← h1, h3]⟩
      · rw [h3] at h1
        cases n with
        | zero => simp at h1
        | succ n =>
          rw [List.replicate_succ'] at h1
          exact ⟨n, (List.append_inj' h1 rfl).1.symm⟩
    | cons l ls =>
      rw [hd] at h3 h4 h5
      dsimp only
      have hne : (l :: ls).reverse ≠ [] := by simp
      rw [ended_joined _ hne] at h3
      refine ⟨?_, hne, ?_, ?_⟩
      · rcases h1 with h1 | h1
        · exact ⟨n + 1, by rw [← h1, h3, List.replicate_succ]; simp⟩
        · rw [h3] at h1
          refine ⟨n, ?_⟩
          have : joined (l :: ls).reverse ++ List.replicate n 10 ++ [10] = u ++ [10] := by
            rw [← h1, List.append_assoc, List.append_assoc]
            congr 1
            rw [List.singleton_append, ← List.replicate_succ, List.replicate_succ']
          exact (List.append_inj' this rfl).1.symm
      · rw [List.getLast?_reverse]; exact h4
      · intro x hx
        exact h2 x (List.mem_reverse.1 (h5 x (List.mem_reverse.1 hx)))

/-- C354: a title given as a list is the title of its elements after each other. -/
theorem C354_lists (brk : Nat → Bool) (parts : List (List Nat)) : titleLinesList brk parts = titleLines brk parts.flatten := by
  have hf : ∀ ps : List (List Nat), (ps.filter fun p => p ≠ []).flatten = ps.flatten := by
    intro ps
    induction ps with
    | nil => rfl
    | cons p ps ih =>
      by_cases hp : p = []
      · subst hp
        rw [List.filter_cons_of_neg (by simp), ih]; rfl
      · rw [List.filter_cons_of_pos (by simpa using hp), List.flatten_cons, List.flatten_cons, ih]
  unfold titleLinesList
  have h := hf parts
  cases hp : parts.filter fun p => p ≠ [] with
  | nil => rw [hp] at h; rw [← h]; rfl
  | cons p ps => rw [hp] at h; rw [← h]

example : titleLines (fun _ => false) [104, 105, 13, 10, 10, 33, 10, 10] = some [[104, 105], [], [33]] := by decide

/-! ## Variables -/

theorem copy_apply (m : Module) (ks : List String) (d : Dict) (k : String) :
    copy m ks d k = if k ∈ ks ∧ (m.variables k).isSome then m.variables k else d k := by
  induction ks generalizing d with
  | nil => simp [copy]
  | cons x ks ih =>
    rw [copy]
    cases hx : m.variables x with
    | none =>
      dsimp only
      rw [ih]
      by_cases hk : k = x
      · subst hk; simp [hx]
      · simp [hk]
    | some v =>
      dsimp only
      rw [ih]
      by_cases hk : k = x
      · subst hk
        simp [hx, Dict.set]
      · simp [hk, Dict.set]

theorem copyAll_apply (m : Module) (ks : List String) (d : Dict) :
    (∀ d', copyAll m ks d = some d' → (∀ k ∈ ks, (m.variables k).isSome) ∧ ∀ k, d' k = if k ∈ ks then m.variables k else d k) ∧
      (copyAll m ks d = none → ∃ k ∈ ks, m.variables k = none) := by
  induction ks generalizing d with
  | nil =>
    constructor
    · intro d' h; cases h; simp
    · intro h; cases h
  | cons x ks ih =>
    rw [copyAll]
    cases hx : m.variables x with
    | none => exact ⟨fun d' h => (by cases h), fun _ => ⟨x, List.mem_cons_self, hx⟩⟩
    | some v =>
      dsimp only
      obtain ⟨h1, h2⟩ := ih (d.set x v)
      constructor
      · intro d' h
        obtain ⟨h3, h4⟩ := h1 d' h
        refine ⟨?_, ?_⟩
        · intro k hk
          rcases List.mem_cons.1 hk with rfl | hk
          · simp [hx]
          · exact h3 k hk
        · intro k
          rw [h4 k]
          by_cases hk : k = x
          · subst hk
            simp [Dict.set, hx]
          · simp [hk, Dict.set]
      · intro h
        obtain ⟨k, hk, hn⟩ := h2 h
        exact ⟨k, List.mem_cons_of_mem _ hk, hn⟩

/-- C355: of a module which is in no package all variables are there. -/
theorem C355_all_partial (m : Module) (self : Nat) (h : m.package = none) :
    ∃ d, collect m self = some d ∧ ∀ k, d k = m.variables k := by
  simp only [collect, h]
  refine ⟨_, rfl, fun k => ?_⟩
  cases hk : m.variables k with
  | some v => rfl
  | none =>
    rw [copy_apply]
    simp [hk]

/-- C355: of a package the public variables, the special ones and the package itself are there and nothing else; it is
refused exactly if a public variable is missing. -/
theorem C355_public_partial (m : Module) (self : Nat) (p : String) (h : m.package = some p) :
    (∀ d, collect m self = some d → (∀ k ∈ m.all.getD [], (m.variables k).isSome) ∧ ∀ k, d k =
      if k ∈ m.all.getD [] then m.variables k
      else if k ∈ ["__name__", "__package__", "__loader__", "__spec__", "__builtins__", "__file__"] ∧ (m.variables k).isSome then m.variables k
      else if k = p then some self else none) ∧
      (collect m self = none → ∃ k ∈ m.all.getD [], m.variables k = none) := by
  simp only [collect, h]
  obtain ⟨h1, h2⟩ := copyAll_apply m (m.all.getD []) (copy m specials (Dict.set (fun _ => none) p self))
  refine ⟨fun d hd => ?_, h2⟩
  obtain ⟨h3, h4⟩ := h1 d hd
  refine ⟨h3, fun k => ?_⟩
  rw [h4 k, copy_apply]
  rfl

/-- C355: but a module at the top, whose package is told as the empty text, is taken for a package: without `__all__`
none of its own variables is there. -/
theorem C355_top_violated (m : Module) (self : Nat) (h : m.package = some "") (ha : m.all = none) (k : String)
    (hk : k ∉ ["__name__", "__package__", "__loader__", "__spec__", "__builtins__", "__file__"]) (hne : k ≠ "") :
    ∃ d, collect m self = some d ∧ d k = none ∧ d "" = some self := by
  have hp := C355_public_partial m self "" h
  cases hc : collect m self with
  | none =>
    obtain ⟨x, hx, _⟩ := hp.2 hc
    rw [ha] at hx
    cases hx
  | some d =>
    obtain ⟨_, h2⟩ := hp.1 d hc
    refine ⟨d, rfl, ?_, ?_⟩
    · rw [h2 k, ha, if_neg (by simp), if_neg (fun hh => hk hh.1), if_neg hne]
    · rw [h2 "", ha]
      simp

end Verif.Contexts
