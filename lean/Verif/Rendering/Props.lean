import Verif.Rendering.Model

/-!
# Rendering of exceptions: theorems
-/

namespace Verif.Rendering

/-! ## What is to be shown -/

/-- What is shown before an exception, or for the members of a cause group. -/
inductive Job
  | before (e : Nat)
  /-- `n`: number of all members; `index`: of the first one. -/
  | members (n index : Nat) (cs : List Nat)

/-- What a reader is to see for a job. -/
inductive Shows (h : Heap) : Job → List Part → Prop
  /-- Nothing led to the exception. -/
  | nothing (e : Nat) : (h e).cause = none → (h e).suppress = true ∨ (h e).context = none → Shows h (.before e) []
  /-- It was raised from another one. -/
  | cause (e c : Nat) (ps : List Part) : (h e).cause = some c → (h c).group = none → Shows h (.before c) ps →
      Shows h (.before e) (ps ++ [.traceback c, .break_, .causeTitle])
  /-- It was raised while another one was handled. -/
  | context (e c : Nat) (ps : List Part) : (h e).cause = none → (h e).suppress = false → (h e).context = some c →
      Shows h (.before c) ps → Shows h (.before e) (ps ++ [.traceback c, .break_, .contextTitle])
  /-- It was raised from many. -/
  | group (e c : Nat) (cs : List Nat) (ps qs : List Part) : (h e).cause = some c → (h c).group = some cs → Shows h (.before c) ps →
      Shows h (.members cs.length 1 cs) qs →
      Shows h (.before e) (ps ++ .groupTitle cs.length :: qs ++ [.break_, .groupEnd cs.length])
  | noMembers (n index : Nat) : Shows h (.members n index []) []
  /-- Each of the many with all which led to it. -/
  | member (n index c : Nat) (cs : List Nat) (ps qs : List Part) : Shows h (.before c) ps → Shows h (.members n (index + 1) cs) qs →
      Shows h (.members n index (c :: cs))
        (.member index :: ps ++ .traceback c :: (if index = n then [] else [.break_]) ++ qs)

/-! ## Items -/

/-- What items come to. -/
inductive Runs (h : Heap) : List Item → List Part → Prop
  | nil : Runs h [] []
  | part (p : Part) (is : List Item) (ps : List Part) : Runs h is ps → Runs h (.part p :: is) (p :: ps)
  | sub (e k : Nat) (l : List (Nat × Reason)) (is : List Item) (ps qs : List Part) : collect h k e .none = some l →
      Runs h (script h l.reverse) ps → Runs h is qs → Runs h (.sub e :: is) (ps ++ qs)

theorem collect_succ (h : Heap) (k e : Nat) (r : Reason) (l : List (Nat × Reason)) (hc : collect h k e r = some l) :
    collect h (k + 1) e r = some l := by
  induction k generalizing e r l with
  | zero => cases hc
  | succ k ih =>
    rw [collect] at hc ⊢
    cases hn : next h e with
    | none => rw [hn] at hc; exact hc
    | some x =>
      obtain ⟨e', r'⟩ := x
      rw [hn] at hc
      dsimp only at hc ⊢
      cases hk : collect h k e' r' with
      | none => rw [hk] at hc; cases hc
      | some l' =>
        rw [hk] at hc
        rw [ih e' r' l' hk]
        exact hc

theorem collect_le (h : Heap) (k m e : Nat) (r : Reason) (l : List (Nat × Reason)) (hc : collect h k e r = some l) (hkm : k ≤ m) :
    collect h m e r = some l := by
  induction hkm with
  | refl => exact hc
  | step _ ih => exact collect_succ h _ e r l ih

theorem runs_run (h : Heap) (is : List Item) (ps : List Part) (hr : Runs h is ps) :
    ∃ k, ∀ fuel queue out, run h fuel queue = some out → ∀ m, k + fuel ≤ m → run h m (is :: queue) = some (ps ++ out) := by
  have mono : ∀ (k : Nat) (queue : List (List Item)) (out : List Part), run h k queue = some out → run h (k + 1) queue = some out := by
    intro k
    induction k with
    | zero =>
      intro queue out hq
      cases queue with
      | nil => rw [run] at hq ⊢; exact hq
      | cons a q => cases a <;> simp [run] at hq
    | succ k ih =>
      intro queue out hq
      cases queue with
      | nil => rw [run] at hq ⊢; exact hq
      | cons a q =>
        cases a with
        | nil => rw [run] at hq ⊢; exact ih _ _ hq
        | cons i is =>
          cases i with
          | part p =>
            rw [run] at hq ⊢
            cases hk : run h k (is :: q) with
            | none => rw [hk] at hq; cases hq
            | some o => rw [hk] at hq; rw [ih _ _ hk]; exact hq
          | sub e =>
            rw [run] at hq ⊢
            cases hk : collect h k e .none with
            | none => rw [hk] at hq; cases hq
            | some l => rw [hk] at hq; rw [collect_succ h k e _ l hk]; exact ih _ _ hq
  have monoLe : ∀ (k m : Nat) (queue : List (List Item)) (out : List Part), run h k queue = some out → k ≤ m → run h m queue = some out := by
    intro k m queue out hq hkm
    induction hkm with
    | refl => exact hq
    | step _ ih => exact mono _ _ _ ih
  induction hr with
  | nil =>
    refine ⟨1, fun fuel queue out hq m hm => ?_⟩
    obtain ⟨j, rfl⟩ : ∃ j, m = j + 1 := ⟨m - 1, by omega⟩
    rw [run]
    exact monoLe fuel j queue out hq (by omega)
  | part p is ps _ ih =>
    obtain ⟨k, ih⟩ := ih
    refine ⟨k + 1, fun fuel queue out hq m hm => ?_⟩
    obtain ⟨j, rfl⟩ : ∃ j, m = j + 1 := ⟨m - 1, by omega⟩
    rw [run, ih fuel queue out hq j (by omega)]
    rfl
  | sub e n l is ps qs hc _ _ ih1 ih2 =>
    obtain ⟨k1, ih1⟩ := ih1
    obtain ⟨k2, ih2⟩ := ih2
    refine ⟨k1 + k2 + n + 1, fun fuel queue out hq m hm => ?_⟩
    obtain ⟨j, rfl⟩ : ∃ j, m = j + 1 := ⟨m - 1, by omega⟩
    rw [run, collect_le h n j e .none l hc (by omega)]
    dsimp only
    rw [ih1 (k2 + fuel) (is :: queue) (qs ++ out) (ih2 fuel queue out hq _ (Nat.le_refl _)) j (by omega), List.append_assoc]

theorem run_runs (h : Heap) (k : Nat) : ∀ (is : List Item) (queue : List (List Item)) (out : List Part), run h k (is :: queue) = some out →
    ∃ ps rest j, j < k ∧ Runs h is ps ∧ run h j queue = some rest ∧ out = ps ++ rest := by
  induction k using Nat.strongRecOn with
  | _ k ih =>
    intro is queue out hr
    cases k with
    | zero => cases is <;> simp [run] at hr
    | succ k =>
      cases is with
      | nil =>
        rw [run] at hr
        exact ⟨[], out, k, Nat.lt_succ_self k, .nil, hr, rfl⟩
      | cons i is =>
        cases i with
        | part p =>
          rw [run] at hr
          cases hk : run h k (is :: queue) with
          | none => rw [hk] at hr; cases hr
          | some o =>
            rw [hk] at hr
            cases hr
            obtain ⟨ps, rest, j, hj, h1, h2, rfl⟩ := ih k (Nat.lt_succ_self k) is queue o hk
            exact ⟨p :: ps, rest, j, by omega, .part p is ps h1, h2, rfl⟩
        | sub e =>
          rw [run] at hr
          cases hk : collect h k e .none with
          | none => rw [hk] at hr; cases hr
          | some l =>
            rw [hk] at hr
            dsimp only at hr
            obtain ⟨ps, rest, j, hj, h1, h2, rfl⟩ := ih k (Nat.lt_succ_self k) _ _ _ hr
            obtain ⟨qs, rest', j', hj', h3, h4, rfl⟩ := ih j (by omega) _ _ _ h2
            exact ⟨ps ++ qs, rest', j', by omega, .sub e k l is ps qs hk h1 h3, h4, by rw [List.append_assoc]⟩

theorem runs_append (h : Heap) (is js : List Item) (ps qs : List Part) (h1 : Runs h is ps) (h2 : Runs h js qs) : Runs h (is ++ js) (ps ++ qs) := by
  induction h1 with
  | nil => exact h2
  | part p is ps _ ih => exact .part p _ _ ih
  | sub e k l is ps qs' hc h3 _ _ ih => rw [List.append_assoc]; exact .sub e k l _ ps _ hc h3 ih

theorem runs_append_inv (h : Heap) (is js : List Item) (out : List Part) (hr : Runs h (is ++ js) out) :
    ∃ ps qs, Runs h is ps ∧ Runs h js qs ∧ out = ps ++ qs := by
  induction is generalizing out with
  | nil => exact ⟨[], out, .nil, hr, rfl⟩
  | cons i is ih =>
    cases hr with
    | part p _ ps hr =>
      obtain ⟨a, b, h1, h2, rfl⟩ := ih ps hr
      exact ⟨p :: a, b, .part p is a h1, h2, rfl⟩
    | sub e k l _ ps qs hc h3 h4 =>
      obtain ⟨a, b, h1, h2, rfl⟩ := ih qs h4
      exact ⟨ps ++ a, b, .sub e k l is ps a hc h3 h1, h2, by rw [List.append_assoc]⟩

/-! ## Chains -/

/-- The part of the script for an exception which is not the last one. -/
def piece (h : Heap) (e : Nat) (r : Reason) : List Item :=
  if r = .group then
    [.part (.groupTitle ((h e).group.getD []).length)] ++ members ((h e).group.getD []).length 1 ((h e).group.getD []) ++ [.part .break_] ++
      title ((h e).group.getD []).length r
  else [.part (.traceback e), .part .break_] ++ title ((h e).group.getD []).length r

theorem script_cons (h : Heap) (e : Nat) (r : Reason) (l : List (Nat × Reason)) (hr : r ≠ .none) :
    script h ((e, r) :: l) = piece h e r ++ script h l := by
  simp only [script, piece]
  by_cases hg : r = .group
  · simp [hg]
  · simp [hg, hr]

/-- The script of a chain, written from its end. -/
theorem script_append (h : Heap) (l : List (Nat × Reason)) (hl : ∀ x ∈ l, x.2 ≠ .none) (l' : List (Nat × Reason)) :
    script h (l ++ l') = (l.flatMap fun x => piece h x.1 x.2) ++ script h l' := by
  induction l with
  | nil => rfl
  | cons x l ih =>
    obtain ⟨e, r⟩ := x
    rw [List.cons_append, script_cons h e r _ (hl _ List.mem_cons_self), ih fun y hy => hl y (List.mem_cons_of_mem _ hy), List.flatMap_cons,
      List.append_assoc]

/-- What is collected behind the first exception. -/
theorem collect_tail (h : Heap) (k e : Nat) (r : Reason) (l : List (Nat × Reason)) (hc : collect h k e r = some l) :
    ∃ t, l = (e, r) :: t ∧ (∀ x ∈ t, x.2 ≠ .none) ∧ ∀ r', collect h k e r' = some ((e, r') :: t) := by
  induction k generalizing e r l with
  | zero => cases hc
  | succ k ih =>
    rw [collect] at hc
    cases hn : next h e with
    | none =>
      rw [hn] at hc
      cases hc
      exact ⟨[], rfl, by simp, fun r' => by rw [collect, hn]⟩
    | some x =>
      obtain ⟨e', r'⟩ := x
      rw [hn] at hc
      dsimp only at hc
      cases hk : collect h k e' r' with
      | none => rw [hk] at hc; cases hc
      | some l' =>
        rw [hk] at hc
        cases hc
        obtain ⟨t, rfl, ht, _⟩ := ih e' r' l' hk
        refine ⟨_, rfl, ?_, fun r'' => by rw [collect, hn]; dsimp only; rw [hk]⟩
        intro x hx
        rcases List.mem_cons.1 hx with rfl | hx
        · dsimp only
          unfold next at hn
          split at hn
          · cases hn; split <;> simp
          · split at hn
            · split at hn
              · cases hn; simp
              · cases hn
            · cases hn
        · exact ht x hx

/-- What a chain comes to without its first exception. -/
def prelude (h : Heap) (t : List (Nat × Reason)) : List Item := t.reverse.flatMap fun x => piece h x.1 x.2

theorem script_chain (h : Heap) (k e : Nat) (l : List (Nat × Reason)) (hc : collect h k e .none = some l) :
    ∃ t, l = (e, .none) :: t ∧ script h l.reverse = prelude h t ++ [.part (.traceback e)] := by
  obtain ⟨t, rfl, ht, _⟩ := collect_tail h k e .none l hc
  refine ⟨t, rfl, ?_⟩
  rw [List.reverse_cons, script_append h t.reverse (fun x hx => ht x (List.mem_reverse.1 hx))]
  simp [prelude, script]

theorem runs_part (h : Heap) (p : Part) (out : List Part) : Runs h [.part p] out ↔ out = [p] := by
  constructor
  · intro hr
    cases hr with
    | part _ _ ps hr => cases hr; rfl
  · rintro rfl
    exact .part p [] [] .nil

/-- A sub-exception shows what led to it, and itself. -/
theorem runs_sub (h : Heap) (e : Nat) (is : List Item) (out : List Part) :
    Runs h (.sub e :: is) out ↔
      ∃ k t ps qs, collect h k e .none = some ((e, .none) :: t) ∧ Runs h (prelude h t) ps ∧ Runs h is qs ∧ out = ps ++ .traceback e :: qs := by
  constructor
  · intro hr
    cases hr with
    | sub _ k l _ ps qs hc h1 h2 =>
      obtain ⟨t, rfl, hs⟩ := script_chain h k e l hc
      rw [hs] at h1
      obtain ⟨a, b, h3, h4, rfl⟩ := runs_append_inv h _ _ _ h1
      rw [runs_part] at h4
      subst h4
      exact ⟨k, t, a, qs, hc, h3, h2, by simp⟩
  · rintro ⟨k, t, ps, qs, hc, h1, h2, rfl⟩
    obtain ⟨t', ht, hs⟩ := script_chain h k e _ hc
    cases ht
    have := Runs.sub (h := h) e k _ is (ps ++ [.traceback e]) qs hc (by rw [hs]; exact runs_append h _ _ _ _ h1 ((runs_part h _ _).2 rfl)) h2
    simpa using this

/-- What a job is done with. -/
def Done (h : Heap) : Job → List Part → Prop
  | .before e, ps => ∃ k t, collect h k e .none = some ((e, .none) :: t) ∧ Runs h (prelude h t) ps
  | .members n index cs, ps => Runs h (members n index cs) ps

theorem prelude_cons (h : Heap) (x : Nat × Reason) (t : List (Nat × Reason)) : prelude h (x :: t) = prelude h t ++ piece h x.1 x.2 := by
  simp [prelude]

theorem collect_next (h : Heap) (k e c : Nat) (r : Reason) (t : List (Nat × Reason)) (hn : next h e = some (c, r))
    (hc : collect h k c .none = some ((c, .none) :: t)) : collect h (k + 1) e .none = some ((e, .none) :: (c, r) :: t) := by
  obtain ⟨t', ht, _, hall⟩ := collect_tail h k c .none _ hc
  cases ht
  rw [collect, hn]
  dsimp only
  rw [hall r]

theorem shows_done (h : Heap) (j : Job) (ps : List Part) (hs : Shows h j ps) : Done h j ps := by
  induction hs with
  | nothing e h1 h2 =>
    refine ⟨1, [], ?_, .nil⟩
    have : next h e = none := by
      unfold next
      rw [h1]
      rcases h2 with h2 | h2 <;> simp [h2]
    rw [collect, this]
  | cause e c ps h1 h2 _ ih =>
    obtain ⟨k, t, hc, hr⟩ := ih
    refine ⟨k + 1, (c, .cause) :: t, collect_next h k e c .cause t (by simp [next, h1, h2]) hc, ?_⟩
    rw [prelude_cons]
    exact runs_append h _ _ _ _ hr (.part _ _ _ (.part _ _ _ (.part _ _ _ .nil)))
  | context e c ps h1 h2 h3 _ ih =>
    obtain ⟨k, t, hc, hr⟩ := ih
    refine ⟨k + 1, (c, .context) :: t, collect_next h k e c .context t (by simp [next, h1, h2, h3]) hc, ?_⟩
    rw [prelude_cons]
    exact runs_append h _ _ _ _ hr (.part _ _ _ (.part _ _ _ (.part _ _ _ .nil)))
  | group e c cs ps qs h1 h2 _ _ ih1 ih2 =>
    obtain ⟨k, t, hc, hr⟩ := ih1
    refine ⟨k + 1, (c, .group) :: t, collect_next h k e c .group t (by simp [next, h1, h2]) hc, ?_⟩
    rw [prelude_cons]
    have h3 : Runs h (piece h c .group) (.groupTitle cs.length :: (qs ++ [.break_, .groupEnd cs.length])) := by
      simp only [piece, h2, Option.getD_some, if_pos, title, List.append_assoc, List.cons_append, List.nil_append]
      exact .part _ _ _ (runs_append h _ _ _ _ ih2 (.part _ _ _ (.part _ _ _ .nil)))
    have := runs_append h _ _ _ _ hr h3
    simpa using this
  | noMembers n index => exact .nil
  | member n index c cs ps qs _ _ ih1 ih2 =>
    obtain ⟨k, t, hc, hr⟩ := ih1
    change Runs h (members n index (c :: cs)) _
    simp only [members, List.cons_append, List.nil_append]
    refine .part _ _ _ ((runs_sub h c _ _).2 ⟨k, t, ps, (if index = n then [] else [.break_]) ++ qs, hc, hr, ?_, by simp⟩)
    refine runs_append h _ _ _ _ ?_ ih2
    by_cases hi : index = n
    · simp [hi]; exact .nil
    · simp [hi]; exact .part _ _ _ .nil

theorem next_cause (h : Heap) (e c : Nat) (hn : next h e = some (c, .cause)) : (h e).cause = some c ∧ (h c).group = none := by
  unfold next at hn
  split at hn
  · rename_i c' hc
    rw [Option.some.injEq, Prod.mk.injEq] at hn
    obtain ⟨rfl, h2⟩ := hn
    refine ⟨hc, ?_⟩
    cases hg : (h c').group with
    | none => rfl
    | some cs => rw [hg] at h2; simp at h2
  · split at hn
    · split at hn <;> simp at hn
    · cases hn

theorem next_group (h : Heap) (e c : Nat) (hn : next h e = some (c, .group)) : (h e).cause = some c ∧ ∃ cs, (h c).group = some cs := by
  unfold next at hn
  split at hn
  · rename_i c' hc
    rw [Option.some.injEq, Prod.mk.injEq] at hn
    obtain ⟨rfl, h2⟩ := hn
    refine ⟨hc, ?_⟩
    cases hg : (h c').group with
    | none => rw [hg] at h2; simp at h2
    | some cs => exact ⟨cs, rfl⟩
  · split at hn
    · split at hn <;> simp at hn
    · cases hn

theorem next_context (h : Heap) (e c : Nat) (hn : next h e = some (c, .context)) :
    (h e).cause = none ∧ (h e).suppress = false ∧ (h e).context = some c := by
  unfold next at hn
  split at hn
  · rw [Option.some.injEq, Prod.mk.injEq] at hn
    obtain ⟨_, h2⟩ := hn
    split at h2 <;> cases h2
  · rename_i hc
    split at hn
    · rename_i hs
      split at hn
      · rename_i c' hx
        cases hn
        exact ⟨hc, by simpa using hs, hx⟩
      · cases hn
    · cases hn

theorem next_none (h : Heap) (e : Nat) (hn : next h e = none) : (h e).cause = none ∧ ((h e).suppress = true ∨ (h e).context = none) := by
  unfold next at hn
  split at hn
  · cases hn
  · rename_i hc
    refine ⟨hc, ?_⟩
    split at hn
    · split at hn
      · cases hn
      · rename_i hx; exact .inr hx
    · rename_i hs; exact .inl (by simpa using hs)

/-- How long items take to come to parts. -/
inductive Takes (h : Heap) : Nat → List Item → List Part → Prop
  | nil : Takes h 0 [] []
  | part (n : Nat) (p : Part) (is : List Item) (ps : List Part) : Takes h n is ps → Takes h (n + 1) (.part p :: is) (p :: ps)
  | sub (n m e k : Nat) (t : List (Nat × Reason)) (is : List Item) (ps qs : List Part) : collect h k e .none = some ((e, .none) :: t) →
      Takes h n (prelude h t) ps → Takes h m is qs → Takes h (n + m + 1) (.sub e :: is) (ps ++ .traceback e :: qs)

theorem takes_append_inv (h : Heap) (n : Nat) (is js : List Item) (out : List Part) (hr : Takes h n (is ++ js) out) :
    ∃ a b ps qs, Takes h a is ps ∧ Takes h b js qs ∧ out = ps ++ qs ∧ n = a + b := by
  induction is generalizing n out with
  | nil => exact ⟨0, n, [], out, .nil, hr, rfl, by simp⟩
  | cons i is ih =>
    cases hr with
    | part n p _ ps hr =>
      obtain ⟨a, b, ps', qs', h1, h2, rfl, rfl⟩ := ih n ps hr
      exact ⟨a + 1, b, p :: ps', qs', .part a p is ps' h1, h2, rfl, by omega⟩
    | sub n m e k t _ ps qs hc h3 h4 =>
      obtain ⟨a, b, ps', qs', h1, h2, rfl, rfl⟩ := ih m qs h4
      exact ⟨n + a + 1, b, _, qs', .sub n a e k t is ps ps' hc h3 h1, h2, by simp, by omega⟩

theorem takes_append (h : Heap) (a b : Nat) (is js : List Item) (ps qs : List Part) (h1 : Takes h a is ps) (h2 : Takes h b js qs) :
    Takes h (a + b) (is ++ js) (ps ++ qs) := by
  induction h1 with
  | nil => simpa using h2
  | part n p is ps _ ih => rw [Nat.add_right_comm]; exact .part _ p _ _ ih
  | sub n m e k t is ps qs' hc h3 _ _ ih =>
    have := Takes.sub (h := h) n (m + b) e k t (is ++ js) ps (qs' ++ qs) hc h3 ih
    have hn : n + m + 1 + b = n + (m + b) + 1 := by omega
    rw [hn]
    simpa using this

theorem runs_takes (h : Heap) (is : List Item) (ps : List Part) (hr : Runs h is ps) : ∃ n, Takes h n is ps := by
  induction hr with
  | nil => exact ⟨0, .nil⟩
  | part p is ps _ ih => obtain ⟨n, ih⟩ := ih; exact ⟨n + 1, .part n p is ps ih⟩
  | sub e k l is ps qs hc _ _ ih1 ih2 =>
    obtain ⟨n, ih1⟩ := ih1
    obtain ⟨m, ih2⟩ := ih2
    obtain ⟨t, rfl, hs⟩ := script_chain h k e l hc
    rw [hs] at ih1
    obtain ⟨a, b, ps', qs', h1, h2, rfl, _⟩ := takes_append_inv h n _ _ _ ih1
    cases h2 with
    | part b p _ ps'' h2 =>
      cases h2
      have := Takes.sub (h := h) a m e k t is ps' qs hc h1 ih2
      exact ⟨_, by simpa using this⟩

theorem takes_part_cons (h : Heap) (n : Nat) (p : Part) (is : List Item) (out : List Part) (hr : Takes h n (.part p :: is) out) :
    ∃ m ps, Takes h m is ps ∧ out = p :: ps ∧ n = m + 1 := by
  cases hr with
  | part m _ _ ps hr => exact ⟨m, ps, hr, rfl, rfl⟩

theorem takes_shows (h : Heap) (n : Nat) :
    (∀ (k e : Nat) (t : List (Nat × Reason)) (ps : List Part), collect h k e .none = some ((e, .none) :: t) → Takes h n (prelude h t) ps →
      Shows h (.before e) ps) ∧
      ∀ (m index : Nat) (cs : List Nat) (ps : List Part), Takes h n (members m index cs) ps → Shows h (.members m index cs) ps := by
  induction n using Nat.strongRecOn with
  | _ n ih =>
    constructor
    · intro k
      induction k generalizing n with
      | zero => intro e t ps hc; cases hc
      | succ k ihk =>
        intro e t ps hc hr
        rw [collect] at hc
        cases hn : next h e with
        | none =>
          rw [hn] at hc
          cases hc
          cases hr
          exact .nothing e (next_none h e hn).1 (next_none h e hn).2
        | some x =>
          obtain ⟨c, r⟩ := x
          rw [hn] at hc
          dsimp only at hc
          cases hk : collect h k c r with
          | none => rw [hk] at hc; cases hc
          | some l =>
            rw [hk] at hc
            obtain ⟨t', rfl, ht, hall⟩ := collect_tail h k c r l hk
            cases hc
            rw [prelude_cons] at hr
            obtain ⟨a, b, ps1, ps2, h1, h2, rfl, rfl⟩ := takes_append_inv h n _ _ _ hr
            have hbefore : Shows h (.before c) ps1 := ihk a (fun m hm => ih m (by omega)) c t' ps1 (hall .none) h1
            cases r with
            | none =>
              unfold next at hn
              split at hn
              · rw [Option.some.injEq, Prod.mk.injEq] at hn
                obtain ⟨_, h2⟩ := hn
                split at h2 <;> cases h2
              · split at hn
                · split at hn <;> simp at hn
                · cases hn
            | cause =>
              obtain ⟨m1, q1, h3, rfl, rfl⟩ := takes_part_cons h _ _ _ _ h2
              obtain ⟨m2, q2, h4, rfl, rfl⟩ := takes_part_cons h _ _ _ _ h3
              obtain ⟨m3, q3, h5, rfl, rfl⟩ := takes_part_cons h _ _ _ _ h4
              cases h5
              exact .cause e c ps1 (next_cause h e c hn).1 (next_cause h e c hn).2 hbefore
            | context =>
              obtain ⟨m1, q1, h3, rfl, rfl⟩ := takes_part_cons h _ _ _ _ h2
              obtain ⟨m2, q2, h4, rfl, rfl⟩ := takes_part_cons h _ _ _ _ h3
              obtain ⟨m3, q3, h5, rfl, rfl⟩ := takes_part_cons h _ _ _ _ h4
              cases h5
              obtain ⟨x1, x2, x3⟩ := next_context h e c hn
              exact .context e c ps1 x1 x2 x3 hbefore
            | group =>
              obtain ⟨x1, cs, x2⟩ := next_group h e c hn
              simp only [piece, x2, Option.getD_some, if_pos, title, List.append_assoc, List.cons_append, List.nil_append] at h2
              obtain ⟨m1, q1, h3, rfl, rfl⟩ := takes_part_cons h _ _ _ _ h2
              obtain ⟨a', b', q2, q3, h4, h5, rfl, rfl⟩ := takes_append_inv h _ _ _ _ h3
              obtain ⟨m2, q4, h6, rfl, rfl⟩ := takes_part_cons h _ _ _ _ h5
              obtain ⟨m3, q5, h7, rfl, rfl⟩ := takes_part_cons h _ _ _ _ h6
              cases h7
              have hm := (ih a' (by omega)).2 _ _ _ _ h4
              have := Shows.group e c cs ps1 q2 x1 x2 hbefore hm
              simpa using this
    · intro m index cs ps hr
      cases cs with
      | nil => cases hr; exact .noMembers m index
      | cons c cs =>
        simp only [members, List.cons_append, List.nil_append] at hr
        obtain ⟨m1, q1, h3, rfl, rfl⟩ := takes_part_cons h _ _ _ _ hr
        cases h3 with
        | sub a b _ k t _ ps qs hc h1 h2 =>
          obtain ⟨a', b', q2, q3, h4, h5, rfl, rfl⟩ := takes_append_inv h _ _ _ _ h2
          have hb := (ih a (by omega)).1 k c t ps hc h1
          have hrest := (ih b' (by omega)).2 _ _ _ _ h5
          have hsep : q2 = if index = m then [] else [.break_] := by
            by_cases hi : index = m
            · simp [hi] at h4 ⊢
              cases h4
              rfl
            · simp [hi] at h4 ⊢
              cases h4 with
              | part _ _ _ _ h4 => cases h4; rfl
          subst hsep
          have := Shows.member m index c cs ps q3 hb hrest
          simpa using this

/-- C342: what is rendered is the exception, and in front of it all which led to it, the earliest first. -/
theorem C342_rendered (h : Heap) (e : Nat) (out : List Part) :
    (∃ k, render h k e = some out) ↔ ∃ ps, Shows h (.before e) ps ∧ out = ps ++ [.traceback e] := by
  constructor
  · rintro ⟨k, hr⟩
    obtain ⟨ps, rest, j, _, h1, h2, rfl⟩ := run_runs h k _ _ _ hr
    rw [run] at h2
    cases h2
    obtain ⟨k', t, ps', qs, hc, h3, h4, rfl⟩ := (runs_sub h e [] ps).1 h1
    cases h4
    obtain ⟨n, h5⟩ := runs_takes h _ _ h3
    exact ⟨ps', (takes_shows h n).1 k' e t ps' hc h5, by simp⟩
  · rintro ⟨ps, hs, rfl⟩
    obtain ⟨k, t, hc, hr⟩ := shows_done h _ _ hs
    obtain ⟨n, hn⟩ := runs_run h [.sub e] (ps ++ [.traceback e]) ((runs_sub h e [] _).2 ⟨k, t, ps, [], hc, hr, .nil, rfl⟩)
    refine ⟨n + 0, ?_⟩
    have := hn 0 [] [] rfl (n + 0) (Nat.le_refl _)
    rw [render, this, List.append_nil]

example : render (fun
    | 0 => { cause := some 1 }
    | 1 => { group := some [2, 3] }
    | 2 => { context := some 4 }
    | _ => {}) 40 0 =
    some [.groupTitle 2, .member 1, .traceback 4, .break_, .contextTitle, .traceback 2, .break_, .member 2, .traceback 3, .break_,
      .groupEnd 2, .traceback 0] := by decide

/-- Of each exception the causes and contexts which are followed are in the set too. -/
def Closed (h : Heap) (s : Nat → Prop) : Prop := ∀ e, s e → ∃ c r, next h e = some (c, r) ∧ s c

theorem collect_closed (h : Heap) (s : Nat → Prop) (hs : Closed h s) (k e : Nat) (r : Reason) (he : s e) : collect h k e r = none := by
  induction k generalizing e r with
  | zero => rfl
  | succ k ih =>
    obtain ⟨c, r', hn, hc⟩ := hs e he
    rw [collect, hn]
    dsimp only
    rw [ih c r' hc]

/-- C343: an exception raised from itself, or one which is its own cause through others, is never rendered: the chain
is followed without end. -/
theorem C343_cycle_violated (h : Heap) (s : Nat → Prop) (hs : Closed h s) (e : Nat) (he : s e) (k : Nat) : render h k e = none := by
  rw [render]
  cases k with
  | zero => rfl
  | succ k => rw [run, collect_closed h s hs k e .none he]

example (k : Nat) : render (fun _ => { cause := some 0 }) k 0 = none :=
  C343_cycle_violated _ (fun e => e = 0) (fun e he => by subst he; exact ⟨0, .cause, rfl, rfl⟩) 0 rfl k

/-- An exception the other one refers to. -/
inductive Refers (h : Heap) : Nat → Nat → Prop
  | cause (c e : Nat) : (h e).cause = some c → Refers h c e
  | context (c e : Nat) : (h e).context = some c → Refers h c e
  | group (c e : Nat) (cs : List Nat) : (h e).group = some cs → c ∈ cs → Refers h c e

/-- C343: exceptions which are not their own causes are rendered. -/
theorem C343_acyclic_partial (h : Heap) (e : Nat) (hd : Acc (Refers h) e) : ∃ k out, render h k e = some out := by
  have key : ∀ e, Acc (Refers h) e → (∃ ps, Shows h (.before e) ps) ∧ ∀ c, Refers h c e → ∃ ps, Shows h (.before c) ps := by
    intro e hd
    induction hd with
    | intro e _ ih =>
      refine ⟨?_, fun c hc => (ih c hc).1⟩
      · have step : ∀ c, ((h e).cause = some c ∨ (h e).context = some c) → ∃ ps, Shows h (.before c) ps := by
          intro c hc
          rcases hc with hc | hc
          · exact (ih c (.cause c e hc)).1
          · exact (ih c (.context c e hc)).1
        cases hc : (h e).cause with
        | some c =>
          obtain ⟨ps, hps⟩ := step c (.inl hc)
          cases hg : (h c).group with
          | none => exact ⟨_, .cause e c ps hc hg hps⟩
          | some cs =>
            · have hall : ∀ x ∈ cs, ∃ ps, Shows h (.before x) ps := by
                intro x hx
                exact (ih c (.cause c e hc)).2 x (.group x c cs hg hx)
              have hmem : ∀ (l : List Nat) (n index : Nat), (∀ x ∈ l, ∃ ps, Shows h (.before x) ps) → ∃ qs, Shows h (.members n index l) qs := by
                intro l
                induction l with
                | nil => intro n index _; exact ⟨_, .noMembers n index⟩
                | cons x l ihl =>
                  intro n index hl
                  obtain ⟨ps, hps⟩ := hl x List.mem_cons_self
                  obtain ⟨qs, hqs⟩ := ihl n (index + 1) fun y hy => hl y (List.mem_cons_of_mem _ hy)
                  exact ⟨_, .member n index x l ps qs hps hqs⟩
              obtain ⟨qs, hqs⟩ := hmem cs cs.length 1 hall
              exact ⟨_, .group e c cs ps qs hc hg hps hqs⟩
        | none =>
          cases hs : (h e).suppress with
          | true => exact ⟨_, .nothing e hc (.inl hs)⟩
          | false =>
            cases hx : (h e).context with
            | none => exact ⟨_, .nothing e hc (.inr hx)⟩
            | some c =>
              obtain ⟨ps, hps⟩ := step c (.inr hx)
              exact ⟨_, .context e c ps hc hs hx hps⟩
  obtain ⟨⟨ps, hps⟩, _⟩ := key e hd
  obtain ⟨k, hk⟩ := (C342_rendered h e _).2 ⟨ps, hps, rfl⟩
  exact ⟨k, _, hk⟩

/-- C344: every cause of a group an exception is raised from is shown. -/
theorem C344_groups_partial (h : Heap) (e c : Nat) (cs : List Nat) (k : Nat) (out : List Part) (hc : (h e).cause = some c) (hg : (h c).group = some cs)
    (hr : render h k e = some out) : ∀ x ∈ cs, .traceback x ∈ out := by
  obtain ⟨ps, hs, rfl⟩ := (C342_rendered h e out).1 ⟨k, hr⟩
  have hmem : ∀ (l : List Nat) (n index : Nat) (qs : List Part), Shows h (.members n index l) qs → ∀ x ∈ l, .traceback x ∈ qs := by
    intro l
    induction l with
    | nil => intro n index qs _ x hx; cases hx
    | cons y l ih =>
      intro n index qs hq x hx
      cases hq with
      | member _ _ _ _ ps qs h1 h2 =>
        rcases List.mem_cons.1 hx with rfl | hx
        · simp
        · have := ih _ _ _ h2 x hx
          simp [this]
  intro x hx
  cases hs with
  | nothing _ h1 _ => rw [hc] at h1; cases h1
  | cause _ c' _ h1 h2 _ => rw [hc] at h1; cases h1; rw [hg] at h2; cases h2
  | context _ _ _ h1 _ _ _ => rw [hc] at h1; cases h1
  | group _ c' cs' ps qs h1 h2 h3 h4 =>
    rw [hc] at h1; cases h1
    rw [hg] at h2; cases h2
    have := hmem _ _ _ _ h4 x hx
    simp [this]

/-- C344: but the causes of a group which is rendered itself, was being handled, or is in another group, are not shown. -/
theorem C344_groups_violated :
    render (fun | 0 => { group := some [1] } | _ => {}) 9 0 = some [.traceback 0] ∧
      render (fun | 0 => { context := some 1 } | 1 => { group := some [2] } | _ => {}) 9 0 =
        some [.traceback 1, .break_, .contextTitle, .traceback 0] ∧
      render (fun | 0 => { cause := some 1 } | 1 => { group := some [2] } | 2 => { group := some [3] } | _ => {}) 19 0 =
        some [.groupTitle 1, .member 1, .traceback 2, .break_, .groupEnd 1, .traceback 0] := by
  decide

/-! ## Frames -/

/-- How a reader understands what is shown: frames, each as often as told. -/
inductive Reads : List FramePart → List Nat → Prop
  | nil : Reads [] []
  | frame (n : Nat) (ps : List FramePart) (fs : List Nat) : Reads ps fs → Reads (.frame n :: ps) (n :: fs)
  | repeated (times : Nat) (block : List Nat) (ps : List FramePart) (fs : List Nat) : Reads ps fs →
      Reads (.repeated block.length times :: (block.map .frame ++ .stop :: ps)) ((List.replicate times block).flatten ++ fs)

/-- C345: what is shown of groups of frames is read back as all frames in order, each as often as it is repeated. -/
theorem C345_frames (gs : List Group) (hg : ∀ g ∈ gs, 1 ≤ g.times) :
    Reads (produceGroups gs) (gs.flatMap fun g => (List.replicate g.times g.frames).flatten) := by
  induction gs with
  | nil => exact .nil
  | cons g gs ih =>
    have ih := ih fun x hx => hg x (List.mem_cons_of_mem _ hx)
    rw [produceGroups, List.flatMap_cons, produceGroup]
    have h1 := hg g List.mem_cons_self
    split
    · have := Reads.repeated g.times g.frames _ _ ih
      simpa using this
    · have ht : g.times = 1 := by omega
      rw [ht]
      have : ∀ l : List Nat, Reads (l.map .frame ++ produceGroups gs) (l ++ gs.flatMap fun g => (List.replicate g.times g.frames).flatten) := by
        intro l
        induction l with
        | nil => exact ih
        | cons a l ihl => exact .frame a _ _ ihl
      simpa using this g.frames

/-- C345: and as nothing else. -/
theorem C345_unique (ps : List FramePart) (fs fs' : List Nat) (h : Reads ps fs) (h' : Reads ps fs') : fs = fs' := by
  have split : ∀ (a b : List Nat) (xs ys : List FramePart), a.map FramePart.frame ++ .stop :: xs = b.map FramePart.frame ++ .stop :: ys →
      a = b ∧ xs = ys := by
    intro a
    induction a with
    | nil =>
      intro b xs ys he
      cases b with
      | nil => simpa using he
      | cons y b => simp at he
    | cons x a ih =>
      intro b xs ys he
      cases b with
      | nil => simp at he
      | cons y b =>
        simp at he
        obtain ⟨rfl, he⟩ := he
        obtain ⟨rfl, rfl⟩ := ih b xs ys (by simpa using he)
        exact ⟨rfl, rfl⟩
  induction h generalizing fs' with
  | nil => cases h'; rfl
  | frame n ps fs _ ih => cases h' with | frame _ _ fs2 h' => rw [ih fs2 h']
  | repeated times block ps fs _ ih =>
    generalize hx : FramePart.repeated block.length times :: (block.map FramePart.frame ++ .stop :: ps) = x at h'
    cases h' with
    | nil => cases hx
    | frame => cases hx
    | repeated times' block' ps' fs'' h' =>
      simp only [List.cons.injEq, FramePart.repeated.injEq] at hx
      obtain ⟨⟨_, rfl⟩, hx⟩ := hx
      obtain ⟨rfl, rfl⟩ := split _ _ _ _ hx
      rw [ih _ h']

/-! ## Ignored frames -/

theorem linesOf_addLine (key key' : Nat × Nat) (line : Nat) (d : Ignored) :
    linesOf key' (addLine key line d) =
      if key' = key then (linesOf key d).map fun ls => if line ∈ ls then ls else line :: ls else linesOf key' d := by
  induction d with
  | nil => simp [addLine, linesOf]
  | cons x d ih =>
    obtain ⟨k, ls⟩ := x
    rw [addLine]
    by_cases hk : k = key
    · subst hk
      rw [if_pos rfl]
      by_cases hk' : key' = k
      · subst hk'; simp [linesOf]
      · simp [linesOf, hk', Ne.symm hk']
    · rw [if_neg hk, linesOf, ih]
      by_cases hk' : key' = key
      · subst hk'; simp [linesOf, hk]
      · simp [hk', linesOf]

theorem linesOf_new (key key' : Nat × Nat) (d : Ignored) (hd : linesOf key d = none) :
    linesOf key' (d ++ [(key, [])]) = if key' = key then some [] else linesOf key' d := by
  induction d with
  | nil =>
    by_cases h : key' = key
    · simp [linesOf, h]
    · simp [linesOf, h, Ne.symm h]
  | cons x d ih =>
    obtain ⟨k, ls⟩ := x
    rw [linesOf] at hd
    by_cases hk : k = key
    · rw [if_pos hk] at hd; cases hd
    · rw [if_neg hk] at hd
      rw [List.cons_append, linesOf, ih hd, linesOf]
      by_cases hk' : key' = key
      · subst hk'; simp [hk]
      · simp [hk']

/-- Whether a place is ignored in the dictionary. -/
def Has (d : Ignored) (p : Place) : Prop := ∃ ls, linesOf (p.file, p.name) d = some ls ∧ p.line ∈ ls

theorem has_ignore (d : Ignored) (p q : Place) : Has (ignore d p) q ↔ q = p ∨ Has d q := by
  obtain ⟨pf, pn, pl⟩ := p
  obtain ⟨qf, qn, ql⟩ := q
  unfold ignore Has
  dsimp only
  cases hl : linesOf (pf, pn) d with
  | none =>
    dsimp only
    rw [linesOf_addLine, linesOf_new (pf, pn) (pf, pn) d hl, linesOf_new (pf, pn) (qf, qn) d hl, if_pos rfl]
    by_cases hk : ((qf, qn) : Nat × Nat) = (pf, pn)
    · rw [if_pos hk]
      cases hk
      simp [hl]
    · rw [if_neg hk, if_neg hk]
      have : ¬ (qf = pf ∧ qn = pn ∧ ql = pl) := fun h => hk (by rw [h.1, h.2.1])
      simp [this]
  | some ls =>
    dsimp only
    rw [linesOf_addLine, hl]
    by_cases hk : ((qf, qn) : Nat × Nat) = (pf, pn)
    · rw [if_pos hk]
      cases hk
      by_cases hin : pl ∈ ls
      · simp [hl, hin]
        intro h; rw [h]; exact hin
      · simp [hl, hin]
    · rw [if_neg hk]
      have : ¬ (qf = pf ∧ qn = pn ∧ ql = pl) := fun h => hk (by rw [h.1, h.2.1])
      simp [this]

/-- C346: a frame is shown exactly if it was never told to be ignored and the filter lets it through. -/
theorem C346_kept (told : List Place) (filter : Option (Place → Bool)) (p : Place) :
    keep true (told.foldl ignore []) filter p = true ↔ p ∉ told ∧ ∀ f, filter = some f → f p = true := by
  have hhas : ∀ (told : List Place) (d : Ignored), Has (told.foldl ignore d) p ↔ p ∈ told ∨ Has d p := by
    intro told
    induction told with
    | nil => intro d; simp
    | cons q told ih => intro d; rw [List.foldl_cons, ih, has_ignore, List.mem_cons]; grind
  have h := hhas told []
  have h0 : ¬ Has [] p := by rintro ⟨ls, h, _⟩; cases h
  have hd : keepDefault true (told.foldl ignore []) p = true ↔ p ∉ told := by
    have hn : keepDefault true (told.foldl ignore []) p = true ↔ ¬ Has (told.foldl ignore []) p := by
      unfold keepDefault Has
      cases linesOf (p.file, p.name) (told.foldl ignore []) with
      | none => simp
      | some ls => by_cases hin : p.line ∈ ls <;> simp [hin]
    rw [hn, h]
    simp [h0]
  unfold keep
  cases hk : keepDefault true (told.foldl ignore []) p with
  | false =>
    have : ¬ p ∉ told := fun hh => by rw [hd.2 hh] at hk; cases hk
    simp [this]
  | true =>
    have := hd.1 hk
    cases filter with
    | none => simp [this]
    | some f => cases hf : f p <;> simp [this, hf]

/-- C346: if ignoring is turned off, only the filter decides. -/
theorem C346_disabled (d : Ignored) (filter : Option (Place → Bool)) (p : Place) :
    keep false d filter p = true ↔ ∀ f, filter = some f → f p = true := by
  unfold keep
  cases filter with
  | none => simp [keepDefault]
  | some f => cases hf : f p <;> simp [keepDefault, hf]

example : keep true ([⟨1, 2, 3⟩, ⟨1, 2, 4⟩].foldl ignore []) none ⟨1, 2, 4⟩ = false ∧
    keep true ([⟨1, 2, 3⟩, ⟨1, 2, 4⟩].foldl ignore []) none ⟨1, 2, 5⟩ = true := by decide

/-! ## Populating -/

/-- The last info given for a key. -/
inductive LastInfo (k : Nat) : List Frame → Option Nat → Prop
  | nil : LastInfo k [] none
  | given (fs : List Frame) (i : Nat) : LastInfo k (fs ++ [⟨k, some i⟩]) (some i)
  | bare (fs : List Frame) (k' : Nat) (o : Option Nat) : LastInfo k fs o → LastInfo k (fs ++ [⟨k', none⟩]) o
  | other (fs : List Frame) (f : Frame) (o : Option Nat) : f.key ≠ k → LastInfo k fs o → LastInfo k (fs ++ [f]) o

theorem known_append (fs : List Frame) (f : Frame) (d : Nat → Option (Option Nat)) (k : Nat) :
    known (fs ++ [f]) d k = known [f] (known fs d) k := by
  induction fs generalizing d with
  | nil => rfl
  | cons g fs ih =>
    rw [List.cons_append, known]
    conv => rhs; rw [known.eq_def (g :: fs)]
    dsimp only
    cases g.info with
    | none => exact ih _
    | some i => exact ih _

theorem known_last (k : Nat) (fs : List Frame) (o : Option Nat) (h : LastInfo k fs o) :
    (known fs (fun _ => none) k).getD none = o := by
  induction h with
  | nil => rfl
  | given fs i => rw [known_append]; simp [known]
  | bare fs k' o _ ih =>
    rw [known_append]
    simp only [known]
    by_cases hk : k = k'
    · rw [if_pos hk]
      cases hx : known fs (fun _ => none) k with
      | none => rw [hx] at ih; simpa using ih
      | some v => rw [hx] at ih; simpa using ih
    · rw [if_neg hk]; exact ih
  | other fs f o hf _ ih =>
    rw [known_append]
    rw [known]
    cases f.info with
    | none => simp only [known]; rw [if_neg (Ne.symm hf)]; exact ih
    | some i => simp only [known]; rw [if_neg (Ne.symm hf)]; exact ih

/-- C347: every frame gets the info given last by a frame at the same place, or else the one looked up. -/
theorem C347_populated (get : Nat → Nat) (fs : List Frame) :
    (populate get fs).map (·.key) = fs.map (·.key) ∧
      ∀ f ∈ populate get fs, ∀ o, LastInfo f.key fs o → f.info = some (o.getD (get f.key)) := by
  constructor
  · simp [populate]
  · intro f hf o ho
    simp only [populate, List.mem_map] at hf
    obtain ⟨g, hg, rfl⟩ := hf
    dsimp only at ho ⊢
    have := known_last g.key fs o ho
    cases hk : known fs (fun _ => none) g.key with
    | none => rw [hk] at this; cases this; rfl
    | some v =>
      rw [hk] at this
      simp at this
      subst this
      cases v <;> rfl

/-- C347: there is a last info for every key, so the theorem above says it of every frame. -/
theorem C347_total (k : Nat) (fs : List Frame) : ∃ o, LastInfo k fs o := by
  have : ∀ l : List Frame, ∃ o, LastInfo k l.reverse o := by
    intro l
    induction l with
    | nil => exact ⟨none, .nil⟩
    | cons f l ih =>
      obtain ⟨o, ih⟩ := ih
      rw [List.reverse_cons]
      obtain ⟨k', i⟩ := f
      cases i with
      | none => exact ⟨o, .bare _ k' o ih⟩
      | some i =>
        by_cases hk : k' = k
        · subst hk; exact ⟨some i, .given _ i⟩
        · exact ⟨o, .other _ _ o hk ih⟩
  have h := this fs.reverse
  rwa [List.reverse_reverse] at h

example : populate (fun k => k + 100) [⟨1, none⟩, ⟨2, none⟩, ⟨1, some 7⟩] = [⟨1, some 7⟩, ⟨2, some 102⟩, ⟨1, some 7⟩] := by decide

end Verif.Rendering
