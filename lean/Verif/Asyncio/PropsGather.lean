/-
Properties C202, C203: `gather` and `wait` of the asyncio extension.
-/
import Verif.Asyncio.Gather
import Mathlib.Data.List.Perm.Subperm

namespace Verif.Asyncio.Gather

theorem mem_distinct (l : List Nat) (x : Nat) : x ∈ distinct l ↔ x ∈ l := by
  induction l with
  | nil => exact Iff.rfl
  | cons y l ih =>
    simp only [distinct, List.mem_cons, List.mem_filter, ih, decide_eq_true_eq]
    by_cases h : x = y <;> simp [h]

theorem nodup_distinct (l : List Nat) : (distinct l).Nodup := by
  induction l with
  | nil => exact List.nodup_nil
  | cons y l ih =>
    refine List.nodup_cons.2 ⟨?_, ih.sublist List.filter_sublist⟩
    intro h
    simpa using (List.mem_filter.1 h).2

/-! ### C202: gathering -/

/-- The results are not in the order of the arguments: the set of the done futures may be iterated in
another order. -/
theorem C202_order_violated : (run (gather [0, 1] false) [.finish 0 (.value 10), .finish 1 (.value 11), .callback [1, 0]]).res
    = some (.values [.value 11, .value 10]) := by decide

/-- A future given twice has one result. -/
theorem C202_twice_violated : (run (gather [0, 0] false) [.finish 0 (.value 10), .callback [0]]).res
    = some (.values [.value 10]) := by decide

/-- The exception which is propagated is not the one which was raised first. -/
theorem C202_first_exception_violated :
    (run (gather [0, 1] false) [.finish 0 (.error 10), .finish 1 (.error 11), .callback [1, 0]]).res
    = some (.failed (.error 11)) := by decide

/-- How a future finished: the first time counts. -/
def given : List Op → Nat → Option Outcome
  | [], _ => none
  | .finish i o :: l, j => if i = j then some o else given l j
  | _ :: l, j => given l j

structure Inv (g : G) (l : List Op) : Prop where
  done : ∀ i ∈ g.args, (g.done.find? (fun p => p.1 == i)).map (·.2) = given l i
  sub : ∀ p ∈ g.done, p.1 ∈ g.args
  nodup : (g.done.map (·.1)).Nodup
  wait : g.waiter = (decide (g.done ≠ []) && g.satisfied)

theorem given_snoc (l : List Op) (o : Op) (j : Nat) : given (l ++ [o]) j = (given l j).or (given [o] j) := by
  induction l with
  | nil => simp [given]
  | cons p l ih =>
    cases p with
    | finish i u =>
      simp only [List.cons_append, given]
      split
      · rfl
      · exact ih
    | callback u => exact ih
    | cancel => exact ih

theorem isDone_iff (g : G) (i : Nat) : g.isDone i = true ↔ ((g.done.find? (fun p => p.1 == i)).map (·.2)).isSome := by
  unfold G.isDone
  rw [Option.isSome_map, List.find?_isSome, List.any_eq_true]

theorem satisfied_mono (g : G) (i : Nat) (o : Outcome) (h : g.satisfied = true) :
    ({ g with done := g.done ++ [(i, o)] } : G).satisfied = true := by
  have hd : ∀ j, g.isDone j = true → ({ g with done := g.done ++ [(i, o)] } : G).isDone j = true := by
    intro j hj
    unfold G.isDone at hj ⊢
    rw [List.any_append, hj]; rfl
  unfold G.satisfied at h ⊢
  rw [Bool.or_eq_true] at h ⊢
  rcases h with h | h
  · exact .inl (List.all_eq_true.2 (fun x hx => hd x (List.all_eq_true.1 h x hx)))
  · right
    rw [Bool.and_eq_true] at h ⊢
    exact ⟨h.1, by rw [List.any_append, h.2]; rfl⟩

theorem Inv.step {g : G} {l : List Op} (h : Inv g l) (o : Op) : Inv (step g o) (l ++ [o]) := by
  have keep : ∀ t : G, t.args = g.args → t.done = g.done → t.waiter = g.waiter → t.every = g.every →
      (∀ j ∈ g.args, (given l j).or (given [o] j) = given l j) → Inv t (l ++ [o]) := by
    intro t e1 e2 e3 e4 e5
    have es : t.satisfied = g.satisfied := by
      have hd : t.isDone = g.isDone := by funext j; unfold G.isDone; rw [e2]
      simp only [G.satisfied, hd, e1, e2, e4]
    refine ⟨?_, ?_, ?_, ?_⟩
    · rw [e1, e2]
      intro i hi
      rw [given_snoc, e5 i hi]
      exact h.done i hi
    · rw [e1, e2]; exact h.sub
    · rw [e2]; exact h.nodup
    · rw [e3, e2, es]; exact h.wait
  cases o with
  | finish i o =>
    show Inv (g.finish i o) _
    unfold G.finish
    split
    · next hc =>
      have hnone : given l i = none := by
        have := mt (isDone_iff g i).2 (by rw [hc.2]; exact nofun)
        rw [h.done i hc.1] at this
        simpa using this
      refine ⟨?_, ?_, ?_, ?_⟩
      · intro j hj
        show ((g.done ++ [(i, o)]).find? (fun p => p.1 == j)).map (·.2) = _
        rw [given_snoc, List.find?_append, ← h.done j hj]
        cases hf : g.done.find? (fun p => p.1 == j) with
        | some p => rfl
        | none =>
          by_cases hij : i = j
          · subst hij; simp [given]
          · simp [given, hij]
      · intro p hp
        rcases List.mem_append.1 hp with hp | hp
        · exact h.sub p hp
        · simp only [List.mem_singleton] at hp
          subst hp; exact hc.1
      · show ((g.done ++ [(i, o)]).map (·.1)).Nodup
        rw [List.map_append]
        refine List.nodup_append.2 ⟨h.nodup, by simp, ?_⟩
        intro x hx y hy e
        simp at hy
        subst hy; subst e
        obtain ⟨p, hp, e⟩ := List.mem_map.1 hx
        have : g.isDone x = true := by
          unfold G.isDone
          exact List.any_eq_true.2 ⟨p, hp, by simp [e]⟩
        rw [hc.2] at this
        exact absurd this nofun
      · show (g.waiter || ({ g with done := g.done ++ [(i, o)] } : G).satisfied) =
          (decide (g.done ++ [(i, o)] ≠ []) && ({ g with done := g.done ++ [(i, o)] } : G).satisfied)
        have e : decide (g.done ++ [(i, o)] ≠ []) = true := by simp
        rw [e, Bool.true_and]
        cases hw : g.waiter with
        | false => rfl
        | true =>
          have hx := h.wait
          rw [hw] at hx
          have hm := satisfied_mono g i o (Bool.and_eq_true _ _ ▸ hx.symm).2
          rw [hw] at hm
          rw [hm]; rfl
    · next hc =>
      refine keep g rfl rfl rfl rfl ?_
      intro j hj
      cases hg : given l j with
      | some u => rfl
      | none =>
        have hnd : g.isDone j = false := by
          have := mt (isDone_iff g j).1 (by rw [h.done j hj, hg]; exact nofun)
          simpa using this
        by_cases hij : i = j
        · subst hij
          exact absurd ⟨hj, hnd⟩ hc
        · simp [given, hij]
  | callback order =>
    simp only [Gather.step]
    split
    · exact keep _ rfl rfl rfl rfl (fun j _ => by simp [given])
    · exact keep _ rfl rfl rfl rfl (fun j _ => by simp [given])
  | cancel =>
    simp only [Gather.step]
    split
    · exact keep _ rfl rfl rfl rfl (fun j _ => by simp [given])
    · exact keep _ rfl rfl rfl rfl (fun j _ => by simp [given])

theorem Inv.new (args : List Nat) (every : Bool) : Inv (gather args every) [] := ⟨fun _ _ => rfl, nofun, List.nodup_nil, rfl⟩

theorem step_args (g : G) (o : Op) : (step g o).args = g.args ∧ (step g o).every = g.every := by
  cases o with
  | finish i u =>
    show (g.finish i u).args = _ ∧ (g.finish i u).every = _
    unfold G.finish; split <;> exact ⟨rfl, rfl⟩
  | callback _ => simp only [Gather.step]; split <;> exact ⟨rfl, rfl⟩
  | cancel => simp only [Gather.step]; split <;> exact ⟨rfl, rfl⟩

/-- What is said of a result, when these futures finished like this. -/
def Right (args : List Nat) (every : Bool) (f : Nat → Option Outcome) : Option Res → Prop
  | none => True
  | some .cancelled => True
  | some (.values os) => ∃ order : List Nat, order.Perm args ∧ os.map some = order.map f ∧ (every = true ∨ ∀ o ∈ os, o.ok = true)
  | some (.failed o) => every = false ∧ o.ok = false ∧ ∃ i ∈ args, f i = some o

theorem Right.later {args : List Nat} {every : Bool} {f f' : Nat → Option Outcome} (hf : ∀ i o, f i = some o → f' i = some o) {r : Option Res}
    (h : Right args every f r) : Right args every f' r := by
  match r with
  | none => trivial
  | some .cancelled => trivial
  | some (.values os) =>
    obtain ⟨order, h1, h2, h3⟩ := h
    refine ⟨order, h1, ?_, h3⟩
    rw [h2]
    refine List.map_congr_left (fun i hi => ?_)
    have : f i ∈ os.map some := by rw [h2]; exact List.mem_map_of_mem hi
    obtain ⟨o, _, e⟩ := List.mem_map.1 this
    rw [← e, hf i o e.symm]
  | some (.failed o) =>
    obtain ⟨h1, h2, i, h3, h4⟩ := h
    exact ⟨h1, h2, i, h3, hf i o h4⟩

/-- If the gathering has results, all the different futures finished and these are their results in some order; exceptions
are among them only if they are asked for. If it has an exception, it is the one of a future which failed. -/
theorem C202_results_partial (args : List Nat) (every : Bool) (l : List Op) :
    Right (distinct args) every (given l) (run (gather args every) l).res := by
  have key : ∀ (m l : List Op) (g : G), Inv g l → g.args.Nodup → Right g.args g.every (given l) g.res →
      Right g.args g.every (given (l ++ m)) (run g m).res := by
    intro m
    induction m with
    | nil => intro l g _ _ h; rw [List.append_nil]; exact h
    | cons o m ih =>
      intro l g hi hn h
      have := ih (l ++ [o]) (step g o) (hi.step o) (by rw [(step_args g o).1]; exact hn) ?_
      · rw [(step_args g o).1, (step_args g o).2, List.append_assoc] at this
        exact this
      · rw [(step_args g o).1, (step_args g o).2]
        have hlater : ∀ i u, given l i = some u → given (l ++ [o]) i = some u := by
          intro i u hu; rw [given_snoc, hu]; rfl
        have hkeep : (step g o).res = g.res → Right g.args g.every (given (l ++ [o])) (step g o).res := by
          intro e; rw [e]; exact h.later hlater
        cases o with
        | finish i u =>
          refine hkeep ?_
          show (g.finish i u).res = _
          unfold G.finish; split <;> rfl
        | callback order =>
          by_cases hc : g.waiter = true ∧ g.res = none ∧ g.isOrder order = true
          · obtain ⟨hw, hr, ho⟩ := hc
            simp only [Gather.step, if_pos (⟨hw, hr, ho⟩ : g.waiter = true ∧ g.res = none ∧ g.isOrder order = true)]
            simp only [G.isOrder, Bool.and_eq_true, decide_eq_true_eq, List.all_eq_true] at ho
            obtain ⟨⟨on, od⟩, ol⟩ := ho
            have hmem : ∀ i ∈ order, i ∈ g.args := by
              intro i hi'
              have := od i hi'
              unfold G.isDone at this
              obtain ⟨p, hp, e⟩ := List.any_eq_true.1 this
              have := hi.sub p hp
              rw [beq_iff_eq.1 e] at this; exact this
            have hout : ∀ i ∈ order, given l i = some (g.outcome i) := by
              intro i hi'
              have hs := (isDone_iff g i).1 (od i hi')
              rw [← hi.done i (hmem i hi')]
              unfold G.outcome
              obtain ⟨u, hu⟩ := Option.isSome_iff_exists.1 hs
              rw [hu]; rfl
            have hsome : (order.map g.outcome).map some = order.map (given (l ++ [.callback order])) := by
              rw [List.map_map]
              refine List.map_congr_left (fun i hi' => ?_)
              exact (hlater i _ (hout i hi')).symm
            have hsat : g.satisfied = true := by
              have := hi.wait
              rw [hw] at this
              exact (Bool.and_eq_true _ _ ▸ this.symm).2
            have hperm : (∀ o ∈ order.map g.outcome, g.every = true ∨ o.ok = true) → order.Perm g.args := by
              intro hall
              have hd : g.args.all g.isDone = true := by
                unfold G.satisfied at hsat
                rw [Bool.or_eq_true] at hsat
                rcases hsat with h | h
                · exact h
                · exfalso
                  rw [Bool.and_eq_true] at h
                  obtain ⟨h1, h2⟩ := h
                  obtain ⟨p, hp, hpo⟩ := List.any_eq_true.1 h2
                  -- the failed one is in the order
                  have hpin : p.1 ∈ order := by
                    have hsubset : order ⊆ g.done.map (·.1) := by
                      intro i hi'
                      have := od i hi'
                      unfold G.isDone at this
                      obtain ⟨q, hq, e⟩ := List.any_eq_true.1 this
                      exact List.mem_map.2 ⟨q, hq, beq_iff_eq.1 e⟩
                    have := (List.subperm_of_subset on hsubset).perm_of_length_le (by rw [List.length_map]; omega)
                    exact this.mem_iff.2 (List.mem_map_of_mem hp)
                  have hfind : g.outcome p.1 = p.2 := by
                    have : ∀ (d : List (Nat × Outcome)), (d.map (·.1)).Nodup → p ∈ d → d.find? (fun q => q.1 == p.1) = some p := by
                      intro d
                      induction d with
                      | nil => intro _ h; exact absurd h nofun
                      | cons q d ihd =>
                        intro hn hp
                        rw [List.map_cons, List.nodup_cons] at hn
                        rcases List.mem_cons.1 hp with rfl | hp
                        · simp
                        · have hne : q.1 ≠ p.1 := fun e => hn.1 (e ▸ List.mem_map_of_mem hp)
                          rw [List.find?_cons_of_neg (by simpa using hne)]
                          exact ihd hn.2 hp
                    unfold G.outcome
                    rw [this g.done hi.nodup hp]; rfl
                  have := hall p.2 (hfind ▸ List.mem_map_of_mem hpin)
                  rcases this with h | h
                  · rw [h] at h1; exact absurd h1 nofun
                  · rw [h] at hpo; exact absurd hpo nofun
              have hsub : g.args ⊆ g.done.map (·.1) := by
                intro i hi'
                have := List.all_eq_true.1 hd i hi'
                unfold G.isDone at this
                obtain ⟨q, hq, e⟩ := List.any_eq_true.1 this
                exact List.mem_map.2 ⟨q, hq, beq_iff_eq.1 e⟩
              have hle : g.args.length ≤ order.length := by
                have := (List.subperm_of_subset hn hsub).length_le
                rw [List.length_map] at this
                omega
              exact (List.subperm_of_subset on hmem).perm_of_length_le hle
            show Right g.args g.every _ (some (g.answer order))
            unfold G.answer
            simp only
            split
            · next he => exact ⟨order, hperm (fun _ _ => .inl he), hsome, .inl he⟩
            · next he =>
              split
              · next u hu =>
                have hm := List.mem_of_find?_eq_some hu
                have hk := List.find?_some hu
                obtain ⟨i, hi', e⟩ := List.mem_map.1 hm
                exact ⟨by simpa using he, by simpa using hk, i, hmem i hi', e ▸ hlater i _ (hout i hi')⟩
              · next hu =>
                have hall : ∀ o ∈ order.map g.outcome, o.ok = true := by
                  intro o ho
                  have := List.find?_eq_none.1 hu o ho
                  simpa using this
                exact ⟨order, hperm (fun o ho => .inr (hall o ho)), hsome, .inr hall⟩
          · refine hkeep ?_
            simp only [Gather.step, if_neg hc]
        | cancel =>
          simp only [Gather.step]
          split
          · trivial
          · exact h.later hlater
  have := key l [] (gather args every) (Inv.new args every) (nodup_distinct args) (by
    show Right (distinct args) every (given []) (if distinct args = [] then some (.values []) else none)
    split
    · next e => exact ⟨[], by rw [e], rfl, .inr nofun⟩
    · trivial)
  exact this

/-! ### C203: waiting -/

/-- Waiting for the first exception ends when the first future is done, though it has no exception. -/
theorem C203_first_exception_violated :
    (wrun (waitFor [0, 1] .firstException) [.finish 0 (.value 10), .resume]).ret = some ([0], [1]) := by decide

structure WInv (w : W) : Prop where
  sub : ∀ p ∈ w.done, p.1 ∈ w.args
  nodup : (w.done.map (·.1)).Nodup
  args : w.args.Nodup
  wait : w.waiter = true → w.satisfied = true
  ret : ∀ d p, w.ret = some (d, p) → (d ++ p).Perm w.args ∧ (w.kind = .allCompleted → p = []) ∧ (w.args ≠ [] → d ≠ []) ∧
    ∀ i ∈ d, w.isDone i = true

theorem wisDone_iff (w : W) (i : Nat) : w.isDone i = true ↔ i ∈ w.done.map (·.1) := by
  unfold W.isDone
  rw [List.any_eq_true, List.mem_map]
  constructor
  · rintro ⟨p, hp, e⟩; exact ⟨p, hp, beq_iff_eq.1 e⟩
  · rintro ⟨p, hp, e⟩; exact ⟨p, hp, beq_iff_eq.2 e⟩

theorem wsat_mono (w : W) (i : Nat) (o : Outcome) (h : w.satisfied = true) :
    ({ w with done := w.done ++ [(i, o)] } : W).satisfied = true := by
  unfold W.satisfied at h ⊢
  cases hk : w.kind with
  | firstCompleted => simp
  | firstException => simp
  | allCompleted =>
    rw [hk] at h
    refine List.all_eq_true.2 (fun x hx => ?_)
    have := List.all_eq_true.1 h x hx
    rw [wisDone_iff] at this ⊢
    simp only [List.map_append, List.mem_append]
    exact .inl this

theorem WInv.step {w : W} (h : WInv w) (o : WOp) : WInv (wstep w o) := by
  cases o with
  | finish i o =>
    show WInv (w.finish i o)
    unfold W.finish
    split
    · next hc =>
      have hni : i ∉ w.done.map (·.1) := by
        rw [← wisDone_iff, hc.2]; exact nofun
      refine ⟨?_, ?_, h.args, ?_, ?_⟩
      · intro p hp
        rcases List.mem_append.1 hp with hp | hp
        · exact h.sub p hp
        · simp only [List.mem_singleton] at hp
          subst hp; exact hc.1
      · show ((w.done ++ [(i, o)]).map (·.1)).Nodup
        rw [List.map_append]
        refine List.nodup_append.2 ⟨h.nodup, by simp, ?_⟩
        intro x hx y hy e
        simp at hy
        subst hy; subst e
        exact hni hx
      · show (w.waiter || ({ w with done := w.done ++ [(i, o)] } : W).satisfied) = true →
          ({ w with done := w.done ++ [(i, o)] } : W).satisfied = true
        intro hw
        rw [Bool.or_eq_true] at hw
        rcases hw with hw | hw
        · exact wsat_mono w i o (h.wait hw)
        · exact hw
      · intro d p e
        obtain ⟨h1, h2, h3, h4⟩ := h.ret d p e
        refine ⟨h1, h2, h3, fun j hj => ?_⟩
        have := h4 j hj
        rw [wisDone_iff] at this ⊢
        simp only [List.map_append, List.mem_append]
        exact .inl this
    · exact h
  | resume =>
    simp only [wstep]
    split
    · next hc =>
      refine ⟨h.sub, h.nodup, h.args, h.wait, ?_⟩
      intro d p e
      have e : some (w.done.map (·.1), w.args.filter (fun i => !w.isDone i)) = some (d, p) := e
      obtain ⟨rfl, rfl⟩ := Prod.mk.inj (Option.some.inj e)
      have hsat := h.wait hc.1
      refine ⟨?_, ?_, ?_, ?_⟩
      · show (w.done.map (·.1) ++ w.args.filter (fun i => !w.isDone i)).Perm w.args
        have h1 : (w.done.map (·.1)).Perm (w.args.filter w.isDone) := by
          refine (List.perm_ext_iff_of_nodup h.nodup (h.args.sublist List.filter_sublist)).2 (fun x => ?_)
          rw [List.mem_filter, wisDone_iff]
          refine ⟨fun hx => ⟨?_, hx⟩, fun hx => hx.2⟩
          obtain ⟨q, hq, e⟩ := List.mem_map.1 hx
          exact e ▸ h.sub q hq
        exact (h1.append_right _).trans (List.filter_append_perm _ _)
      · intro hk
        unfold W.satisfied at hsat
        have hk : w.kind = .allCompleted := hk
        rw [hk] at hsat
        refine List.filter_eq_nil_iff.2 (fun x hx => ?_)
        rw [List.all_eq_true.1 hsat x hx]; exact nofun
      · intro hne
        have hne : w.args ≠ [] := hne
        unfold W.satisfied at hsat
        cases hk : w.kind with
        | allCompleted =>
          rw [hk] at hsat
          obtain ⟨x, hx⟩ := List.exists_mem_of_ne_nil _ hne
          have := (wisDone_iff w x).1 (List.all_eq_true.1 hsat x hx)
          intro e; rw [e] at this; exact absurd this nofun
        | firstCompleted => rw [hk] at hsat; simpa using hsat
        | firstException => rw [hk] at hsat; simpa using hsat
      · intro i hi
        exact (wisDone_iff w i).2 hi
    · exact h

theorem wstep_args (w : W) (o : WOp) : (wstep w o).args = w.args ∧ (wstep w o).kind = w.kind := by
  cases o with
  | finish i u =>
    show (w.finish i u).args = _ ∧ (w.finish i u).kind = _
    unfold W.finish; split <;> exact ⟨rfl, rfl⟩
  | resume => simp only [wstep]; split <;> exact ⟨rfl, rfl⟩

theorem wrun_args (l : List WOp) (w : W) : (wrun w l).args = w.args ∧ (wrun w l).kind = w.kind := by
  induction l generalizing w with
  | nil => exact ⟨rfl, rfl⟩
  | cons o l ih =>
    obtain ⟨h1, h2⟩ := ih (wstep w o)
    obtain ⟨h3, h4⟩ := wstep_args w o
    exact ⟨h1.trans h3, h2.trans h4⟩

/-- What `wait` returns is every given future, once, in one of the two sets; the first one has a future, and it has all
if all are waited for. -/
theorem C203_sets_partial (args : List Nat) (hne : args ≠ []) (kind : When) (l : List WOp) (d p : List Nat)
    (h : (wrun (waitFor args kind) l).ret = some (d, p)) :
    (d ++ p).Nodup ∧ (∀ i, i ∈ d ++ p ↔ i ∈ args) ∧ d ≠ [] ∧ (kind = .allCompleted → p = []) ∧
      ∀ i ∈ d, (wrun (waitFor args kind) l).isDone i = true := by
  have key : ∀ (l : List WOp) (w : W), WInv w → WInv (wrun w l) := by
    intro l
    induction l with
    | nil => intro w h; exact h
    | cons o l ih => intro w h; exact ih _ (h.step o)
  have hi := key l (waitFor args kind) ⟨nofun, List.nodup_nil, nodup_distinct args, nofun, nofun⟩
  obtain ⟨h1, h2, h3, h4⟩ := hi.ret d p h
  obtain ⟨e1, e2⟩ := wrun_args l (waitFor args kind)
  rw [e1] at h1 h3
  rw [e2] at h2
  refine ⟨h1.nodup_iff.2 (nodup_distinct args), fun i => (h1.mem_iff).trans (mem_distinct args i), h3 ?_, h2, h4⟩
  intro e
  have e : distinct args = [] := e
  obtain ⟨x, hx⟩ := List.exists_mem_of_ne_nil _ hne
  have := (mem_distinct args x).2 hx
  rw [e] at this
  exact absurd this nofun

theorem finish_done (w : W) (i : Nat) (o : Outcome) (h : i ∈ w.args) : (w.finish i o).isDone i = true := by
  unfold W.finish
  split
  · show (w.done ++ [(i, o)]).any (fun p => p.1 == i) = true
    rw [List.any_append]
    simp
  · next hc =>
    cases hd : w.isDone i with
    | true => rfl
    | false => exact absurd ⟨h, hd⟩ hc

theorem wstep_done (w : W) (o : WOp) (i : Nat) (h : w.isDone i = true) : (wstep w o).isDone i = true := by
  cases o with
  | finish j u =>
    show (w.finish j u).isDone i = true
    unfold W.finish
    split
    · show (w.done ++ [(j, u)]).any (fun p => p.1 == i) = true
      rw [List.any_append]
      have h : w.done.any (fun p => p.1 == i) = true := h
      rw [h]; rfl
    · exact h
  | resume => simp only [wstep]; split <;> exact h

/-- The waiter is done as soon as it may be. -/
theorem wait_full (l : List WOp) (w : W) (h : w.done ≠ [] → w.satisfied = true → w.waiter = true) :
    (wrun w l).done ≠ [] → (wrun w l).satisfied = true → (wrun w l).waiter = true := by
  induction l generalizing w with
  | nil => exact h
  | cons o l ih =>
    refine ih (wstep w o) ?_
    cases o with
    | finish i u =>
      show (w.finish i u).done ≠ [] → (w.finish i u).satisfied = true → (w.finish i u).waiter = true
      unfold W.finish
      split
      · intro _ hs
        show (w.waiter || ({ w with done := w.done ++ [(i, u)] } : W).satisfied) = true
        have hs : ({ w with done := w.done ++ [(i, u)] } : W).satisfied = true := hs
        rw [hs, Bool.or_true]
      · exact h
    | resume => simp only [wstep]; split <;> exact h

/-- Waiting ends: when all the futures are done the task which waits goes on; when it waits for the first of
them, one is enough. -/
theorem C203_returns (args : List Nat) (hne : args ≠ []) (kind : When) (l : List WOp)
    (h : if kind = .firstCompleted then ∃ i ∈ args, ∃ o, .finish i o ∈ l else ∀ i ∈ args, ∃ o, .finish i o ∈ l) :
    (wstep (wrun (waitFor args kind) l) .resume).ret.isSome = true := by
  have hdone : ∀ (l : List WOp) (w : W) i o, i ∈ w.args → .finish i o ∈ l → (wrun w l).isDone i = true := by
    intro l
    induction l with
    | nil => intro w i o _ h; exact absurd h nofun
    | cons p l ih =>
      intro w i o hi hm
      rcases List.mem_cons.1 hm with rfl | hm
      · have : ∀ (l : List WOp) (w : W), w.isDone i = true → (wrun w l).isDone i = true := by
          intro l
          induction l with
          | nil => intro w h; exact h
          | cons q l ih2 => intro w h; exact ih2 _ (wstep_done w q i h)
        exact this l _ (finish_done w i o hi)
      · exact ih (wstep w p) i o (by rw [(wstep_args w p).1]; exact hi) hm
  obtain ⟨e1, e2⟩ := wrun_args l (waitFor args kind)
  have hw : (wrun (waitFor args kind) l).waiter = true := by
    have hfull := wait_full l (waitFor args kind) (fun hx => absurd rfl hx)
    have hd : ∀ i ∈ args, (∃ o, .finish i o ∈ l) → (wrun (waitFor args kind) l).isDone i = true := by
      rintro i hi ⟨o, ho⟩
      exact hdone l _ i o ((mem_distinct args i).2 hi) ho
    have hone : ∃ i ∈ args, ∃ o, WOp.finish i o ∈ l := by
      split at h
      · exact h
      · obtain ⟨x, hx⟩ := List.exists_mem_of_ne_nil _ hne
        exact ⟨x, hx, h x hx⟩
    have hnn : (wrun (waitFor args kind) l).done ≠ [] := by
      obtain ⟨i, hi, ho⟩ := hone
      have := hd i hi ho
      intro e
      unfold W.isDone at this
      rw [e] at this
      exact absurd this nofun
    refine hfull hnn ?_
    have hall : kind = .allCompleted → ∀ i ∈ distinct args, (wrun (waitFor args kind) l).isDone i = true := by
      intro hk i hi
      rw [if_neg (by rw [hk]; exact nofun)] at h
      have hi := (mem_distinct args i).1 hi
      exact hd i hi (h i hi)
    have e1 : (wrun (waitFor args kind) l).args = distinct args := e1
    have e2 : (wrun (waitFor args kind) l).kind = kind := e2
    generalize wrun (waitFor args kind) l = w at *
    unfold W.satisfied
    rw [e2, e1]
    cases hk : kind with
    | firstCompleted => simpa using hnn
    | firstException => simpa using hnn
    | allCompleted => exact List.all_eq_true.2 (hall hk)
  generalize wrun (waitFor args kind) l = w at *
  simp only [wstep]
  split
  · rfl
  · next hc =>
    cases e : w.ret with
    | some _ => rfl
    | none => exact absurd ⟨hw, e⟩ hc

/-! ### Examples -/

-- C202
example : (run (gather [3, 1, 2] true) [.finish 1 (.value 10), .finish 2 (.error 7), .finish 3 .cancelled, .callback [1, 2, 3]]).res
    = some (.values [.value 10, .error 7, .cancelled]) := by decide

example : (run (gather [3, 1, 2] false) [.finish 1 (.value 10), .finish 2 (.error 7), .callback [1, 2]]).res
    = some (.failed (.error 7)) := by decide

-- C203
example : (wrun (waitFor [3, 1, 3] .allCompleted) [.finish 1 (.value 10), .resume, .finish 3 (.error 7), .resume]).ret
    = some ([1, 3], []) := by decide

end Verif.Asyncio.Gather
