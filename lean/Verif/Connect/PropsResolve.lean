import Verif.Connect.Resolve

/-!
# C236: whoever waits for the lookup of a host gets its result
-/

namespace Verif.Connect

/-- The hosts which were asked for, the `w`-th waiter is of the `w`-th of them. -/
def asked (ops : List Op) : List Key := ops.filterMap fun
  | .ask k => some k
  | _ => none

/-- What holds between the operations, if the hosts in `keys` were asked for. -/
structure Inv (s : State) (keys : List Key) : Prop where
  made : s.made = keys.length
  mine : ∀ k j, s.jobs k = some j → ∀ w ∈ j.waiters, keys[w]? = some k
  waits : ∀ w k, keys[w]? = some k → s.status w = .pending → ∃ j, s.jobs k = some j ∧ w ∈ j.waiters
  fresh : ∀ w, keys.length ≤ w → s.status w = .pending

theorem inv_init : Inv {} [] := ⟨rfl, by simp, by simp, by simp⟩

theorem asked_cons (op : Op) (ops : List Op) : asked (op :: ops) = asked [op] ++ asked ops := by
  cases op <;> simp [asked]

theorem asked_append (a b : List Op) : asked (a ++ b) = asked a ++ asked b := by simp [asked]

theorem inv_ask {s : State} {keys : List Key} (h : Inv s keys) (k : Key) : Inv (ask s k).1 (keys ++ [k]) := by
  have key : ∀ (st : Stage) (ws : List Nat), (∀ w ∈ ws, keys[w]? = some k) → (∀ j, s.jobs k = some j → ws = j.waiters) →
      Inv { s with jobs := put s.jobs k (some ⟨st, ws ++ [s.made]⟩), made := s.made + 1 } (keys ++ [k]) := by
    intro st ws hws hj
    refine ⟨by simp [h.made], ?_, ?_, ?_⟩
    · intro k' j hk w hw
      simp only [put] at hk
      split at hk
      · next e =>
        cases hk
        subst e
        rcases List.mem_append.1 hw with hw | hw
        · rw [List.getElem?_append_left]
          · exact hws w hw
          · exact (List.getElem?_eq_some_iff.1 (hws w hw)).1
        · rw [List.mem_singleton.1 hw, h.made]
          simp
      · have := h.mine k' j hk w hw
        rw [List.getElem?_append_left]
        · exact this
        · exact (List.getElem?_eq_some_iff.1 this).1
    · intro w k' hk hp
      by_cases hw : w < keys.length
      · rw [List.getElem?_append_left hw] at hk
        obtain ⟨j, e, hm⟩ := h.waits w k' hk hp
        by_cases ek : k' = k
        · subst ek
          exact ⟨⟨st, ws ++ [s.made]⟩, by simp [put], by rw [hj j e]; simp [hm]⟩
        · exact ⟨j, by simp [put, ek, e], hm⟩
      · have hl := (List.getElem?_eq_some_iff.1 hk).1
        have hw' : w = keys.length := by simp at hl; omega
        subst hw'
        simp at hk
        subst hk
        exact ⟨⟨st, ws ++ [s.made]⟩, by simp [put], by simp [h.made]⟩
    · intro w hw
      exact h.fresh w (by simp at hw; omega)
  unfold ask
  cases e : s.jobs k with
  | some j => exact key j.stage j.waiters (h.mine k j e) (fun j' ej => by cases (e.symm.trans ej); rfl)
  | none => exact key .made [] (by simp) (fun j' ej => by cases (e.symm.trans ej))

/-- Changing the stage of a task alone. -/
theorem inv_stage {s : State} {keys : List Key} (h : Inv s keys) (f : Key → Job → Job) (hf : ∀ k j, (f k j).waiters = j.waiters) :
    Inv { s with jobs := fun k => (s.jobs k).map (f k) } keys := by
  refine ⟨h.made, ?_, ?_, h.fresh⟩
  · intro k j hk w hw
    obtain ⟨j', e, rfl⟩ := Option.map_eq_some_iff.1 hk
    rw [hf] at hw
    exact h.mine k j' e w hw
  · intro w k hk hp
    obtain ⟨j, e, hm⟩ := h.waits w k hk hp
    refine ⟨f k j, ?_, by rw [hf]; exact hm⟩
    show (s.jobs k).map (f k) = _
    rw [e]
    rfl

theorem put_stage {s : State} {k : Key} {j : Job} (e : s.jobs k = some j) (st : Stage) :
    put s.jobs k (some ⟨st, j.waiters⟩) = fun k' => (s.jobs k').map fun j' => if k' = k then ⟨st, j'.waiters⟩ else j' := by
  funext k'
  by_cases h : k' = k
  · subst h
    simp [put, e]
  · simp [put, h]

theorem inv_first {s : State} {keys : List Key} (h : Inv s keys) (k : Key) : Inv (first s k) keys := by
  unfold first
  split
  · next ws e =>
    have := put_stage e .running
    rw [this]
    exact inv_stage h (fun k' j' => if k' = k then ⟨.running, j'.waiters⟩ else j') (by intro k' j; split <;> rfl)
  · next ws e =>
    have := put_stage e .dead
    rw [this]
    exact inv_stage h (fun k' j' => if k' = k then ⟨.dead, j'.waiters⟩ else j') (by intro k' j; split <;> rfl)
  · exact h

theorem inv_close {s : State} {keys : List Key} (h : Inv s keys) : Inv (close s) keys :=
  inv_stage h (fun _ => Job.cancel) (by intro _ j; unfold Job.cancel; split <;> rfl)

theorem inv_finish {s : State} {keys : List Key} (h : Inv s keys) (k : Key) (o : Outcome) : Inv (finish s k o).1 keys := by
  unfold finish
  split
  · next ws e =>
    refine ⟨h.made, ?_, ?_, ?_⟩
    · intro k' j hk w hw
      dsimp only [put] at hk
      split at hk
      · cases hk
      · exact h.mine k' j hk w hw
    · intro w k' hk hp
      dsimp only [answer] at hp
      split at hp
      · cases hp
      · next hn =>
        obtain ⟨j, ej, hm⟩ := h.waits w k' hk hp
        by_cases ek : k' = k
        · subst ek
          rw [e] at ej
          cases ej
          exact absurd ⟨hm, hp⟩ hn
        · exact ⟨j, by simp [put, ek, ej], hm⟩
    · intro w hw
      dsimp only [answer]
      rw [if_neg]
      · exact h.fresh w hw
      · rintro ⟨hm, -⟩
        have := (List.getElem?_eq_some_iff.1 (h.mine k _ e w hm)).1
        omega
  · exact h

theorem inv_drop {s : State} {keys : List Key} (h : Inv s keys) (w : Nat) : Inv (drop s w) keys := by
  unfold drop
  split
  · next hw =>
    refine ⟨h.made, h.mine, ?_, ?_⟩
    · intro w' k hk hp
      dsimp only [put] at hp
      split at hp
      · cases hp
      · exact h.waits w' k hk hp
    · intro w' hw'
      dsimp only [put]
      rw [if_neg]
      · exact h.fresh w' hw'
      · have := h.made
        omega
  · exact h

theorem inv_step {s : State} {keys : List Key} (h : Inv s keys) (op : Op) : Inv (step s op).1 (keys ++ asked [op]) := by
  cases op with
  | ask k => exact inv_ask h k
  | step k => rw [show asked [_] = [] from rfl, List.append_nil]; exact inv_first h k
  | finish k o => rw [show asked [_] = [] from rfl, List.append_nil]; exact inv_finish h k o
  | drop w => rw [show asked [_] = [] from rfl, List.append_nil]; exact inv_drop h w
  | close => rw [show asked [_] = [] from rfl, List.append_nil]; exact inv_close h

theorem inv_run {s : State} {keys : List Key} (h : Inv s keys) (ops : List Op) : Inv (run s ops) (keys ++ asked ops) := by
  induction ops generalizing s keys with
  | nil => rw [show asked [] = [] from rfl, List.append_nil]; exact h
  | cons op ops ih =>
    rw [asked_cons, ← List.append_assoc]
    exact ih (inv_step h op)

theorem run_append (s : State) (a b : List Op) : run s (a ++ b) = run (run s a) b := by
  induction a generalizing s with
  | nil => rfl
  | cons op a ih => exact ih _

/-- C236: whoever waits for a host is known to a lookup of that host. -/
theorem C236_waiting (ops : List Op) {w : Nat} {k : Key} (hw : (asked ops)[w]? = some k) (hp : (run {} ops).status w = .pending) :
    ∃ j, (run {} ops).jobs k = some j ∧ w ∈ j.waiters := by
  have := inv_run inv_init ops
  exact this.waits w k (by simpa using hw) hp

/-! ### One lookup for all -/

def busy : Option Job → Nat
  | some _ => 1
  | none => 0

theorem busy_put (d : Key → Option Job) (k k' : Key) (v : Option Job) : busy (put d k' v k) = if k = k' then busy v else busy (d k) := by
  unfold put
  split <;> rfl

theorem began_count (k k' : Key) : [Out.began k'].count (.began k) = if k = k' then 1 else 0 := by
  by_cases h : k = k'
  · subst h; simp
  · have h' : ¬ k' = k := fun x => h x.symm
    simp [h, h']

theorem ended_count (k k' : Key) : [Out.ended k'].count (.ended k) = if k = k' then 1 else 0 := by
  by_cases h : k = k'
  · subst h; simp
  · have h' : ¬ k' = k := fun x => h x.symm
    simp [h, h']

theorem outs_step (s : State) (op : Op) (k : Key) :
    [(step s op).2].count (.began k) + busy (s.jobs k) = [(step s op).2].count (.ended k) + busy ((step s op).1.jobs k) := by
  cases op with
  | ask k' =>
    show [(ask s k').2].count _ + _ = [(ask s k').2].count _ + busy ((ask s k').1.jobs k)
    unfold ask
    split
    · next j e =>
      rw [busy_put]
      split
      · next h => subst h; rw [e]; simp [busy]
      · simp
    · next e =>
      rw [busy_put, began_count]
      split
      · next h => subst h; rw [e]; simp [busy]
      · simp
  | step k' =>
    show [Out.nothing].count _ + _ = [Out.nothing].count _ + busy ((first s k').jobs k)
    unfold first
    split
    · next ws e =>
      rw [busy_put]
      split
      · next h => subst h; rw [e]; simp [busy]
      · simp
    · next ws e =>
      rw [busy_put]
      split
      · next h => subst h; rw [e]; simp [busy]
      · simp
    · simp
  | finish k' o =>
    show [(finish s k' o).2].count _ + _ = [(finish s k' o).2].count _ + busy ((finish s k' o).1.jobs k)
    unfold finish
    split
    · next ws e =>
      rw [busy_put, ended_count]
      by_cases h : k = k'
      · subst h
        rw [e]
        simp [busy]
      · simp [h]
    · simp
  | drop w =>
    show [Out.nothing].count _ + _ = [Out.nothing].count _ + busy ((drop s w).jobs k)
    unfold drop
    split <;> simp
  | close =>
    show [Out.nothing].count _ + _ = [Out.nothing].count _ + busy ((s.jobs k).map Job.cancel)
    cases s.jobs k <;> simp [busy]

/-- C236: of a host there is one lookup at a time: before the next one begins, the one before has ended. -/
theorem C236_one_lookup (ops : List Op) (k : Key) : (outs {} ops).count (.began k) ≤ (outs {} ops).count (.ended k) + 1 := by
  have key : ∀ (s : State), (outs s ops).count (.began k) + busy (s.jobs k) =
      (outs s ops).count (.ended k) + busy ((run s ops).jobs k) := by
    induction ops with
    | nil => intro s; rfl
    | cons op ops ih =>
      intro s
      have h1 := outs_step s op k
      have h2 := ih (step s op).1
      simp only [outs, run]
      rw [List.count_cons, List.count_cons]
      rw [List.count_singleton, List.count_singleton] at h1
      omega
  have := key {}
  have h0 : busy (({} : State).jobs k) = 0 := rfl
  have h1 : busy ((run {} ops).jobs k) ≤ 1 := by
    cases (run {} ops).jobs k <;> simp [busy]
  omega

/-- The lists of addresses found for a host, of the lookups which ended. -/
def foundOf (k : Key) (l : List (Op × Out)) : List (List Nat) := l.filterMap fun
  | (.finish k' (.found infos), .ended _) => if k' = k then some infos else none
  | _ => none

theorem foundOf_cons (k : Key) (x : Op × Out) (l : List (Op × Out)) : foundOf k (x :: l) = foundOf k [x] ++ foundOf k l := by
  simp only [foundOf, List.filterMap_cons, List.filterMap_nil]
  split <;> simp

/-- C236: what is remembered of a host is what was found for it the last time. -/
theorem C236_remembered (ops : List Op) (k : Key) : (run {} ops).cache k = (foundOf k (ops.zip (outs {} ops))).getLast? := by
  have key : ∀ (s : State), (run s ops).cache k = ((foundOf k (ops.zip (outs s ops))).getLast?).or (s.cache k) := by
    induction ops with
    | nil => intro s; simp [outs, run, foundOf]
    | cons op ops ih =>
      intro s
      simp only [outs, run, List.zip_cons_cons]
      rw [ih, foundOf_cons, List.getLast?_append, Option.or_assoc]
      congr 1
      cases op with
      | ask k' => simp only [step, ask, foundOf]; cases s.jobs k' <;> simp
      | step k' => simp only [step, first, foundOf]; split <;> simp
      | finish k' o =>
        simp only [step, finish, foundOf]
        split
        · cases o with
          | found infos =>
            simp only [List.filterMap_cons, List.filterMap_nil, put]
            by_cases h : k = k'
            · subst h
              simp
            · have h' : ¬ k' = k := fun x => h x.symm
              simp [h, h']
          | failed e => simp
          | cancelled => simp
        · cases o <;> simp
      | drop w => simp only [step, drop, foundOf]; split <;> simp
      | close => simp [step, close, foundOf]
  rw [key]
  cases (foundOf k (ops.zip (outs {} ops))).getLast? <;> rfl

/-! ### Answers -/

/-- No task was cancelled before its first step. -/
def Fit (s : State) : Prop := ∀ k j, s.jobs k = some j → j.stage = .made ∨ j.stage = .running

theorem fit_step {s : State} (h : Fit s) {op : Op} (hop : op ≠ .close) : Fit (step s op).1 := by
  intro k j hj
  cases op with
  | ask k' =>
    simp only [step, ask] at hj
    split at hj
    · next j' e =>
      dsimp only [put] at hj
      split at hj
      · cases hj
        exact h k' j' e
      · exact h k j hj
    · dsimp only [put] at hj
      split at hj
      · cases hj
        exact .inl rfl
      · exact h k j hj
  | step k' =>
    simp only [step, first] at hj
    split at hj
    · dsimp only [put] at hj
      split at hj
      · cases hj
        exact .inr rfl
      · exact h k j hj
    · next e =>
      rcases h k' _ e with x | x <;> cases x
    · exact h k j hj
  | finish k' o =>
    simp only [step, finish] at hj
    split at hj
    · dsimp only [put] at hj
      split at hj
      · cases hj
      · exact h k j hj
    · exact h k j hj
  | drop w =>
    simp only [step, drop] at hj
    split at hj <;> exact h k j hj
  | close => exact absurd rfl hop

theorem fit_run {s : State} (h : Fit s) {ops : List Op} (hop : Op.close ∉ ops) : Fit (run s ops) := by
  induction ops generalizing s with
  | nil => exact h
  | cons op ops ih =>
    simp only [List.mem_cons, not_or] at hop
    exact ih (fit_step h fun e => hop.1 e.symm) hop.2

/-- What one operation does to a waiter. -/
theorem status_step {s : State} {keys : List Key} (h : Inv s keys) {w : Nat} {k : Key} (hk : keys[w]? = some k) (op : Op)
    (hd : op ≠ .drop w) : (step s op).1.status w = s.status w ∨
      ∃ o, op = .finish k o ∧ (step s op).1.status w = .done o ∧ ∃ ws, s.jobs k = some ⟨.running, ws⟩ := by
  cases op with
  | ask k' => left; simp only [step, ask]; split <;> rfl
  | step k' => left; simp only [step, first]; split <;> rfl
  | finish k' o =>
    simp only [step, finish]
    split
    · next ws e =>
      dsimp only [answer]
      split
      · next hc =>
        have : some k = some k' := hk.symm.trans (h.mine k' _ e w hc.1)
        cases this
        exact .inr ⟨o, rfl, rfl, ws, e⟩
      · exact .inl rfl
    · exact .inl rfl
  | drop w' =>
    left
    have hne : w ≠ w' := fun e => hd (by rw [e])
    simp only [step, drop]
    split
    · simp [put, hne]
    · rfl
  | close => exact .inl rfl

theorem status_run {s : State} {keys : List Key} (h : Inv s keys) {w : Nat} {k : Key} (hk : keys[w]? = some k) (ops : List Op)
    (hd : Op.drop w ∉ ops) : (run s ops).status w = s.status w ∨ ∃ o, (run s ops).status w = .done o ∧ Op.finish k o ∈ ops := by
  induction ops generalizing s keys with
  | nil => exact .inl rfl
  | cons op ops ih =>
    simp only [List.mem_cons, not_or] at hd
    have hk' : (keys ++ asked [op])[w]? = some k := by
      rw [List.getElem?_append_left (List.getElem?_eq_some_iff.1 hk).1]
      exact hk
    have h1 := status_step h hk op fun e => hd.1 e.symm
    have h2 := ih (inv_step h op) hk' hd.2
    simp only [run]
    rcases h2 with h2 | ⟨o, h2, hm⟩
    · rw [h2]
      rcases h1 with h1 | ⟨o, rfl, h1, -⟩
      · exact .inl h1
      · exact .inr ⟨o, h1, by simp⟩
    · exact .inr ⟨o, h2, by simp [hm]⟩

/-- C236, if the connector is not closed: whoever asks for a host gets the result of the lookup which ends first. -/
theorem C236_answered_partial (before after : List Op) (k : Key) (o : Outcome) (hb : Op.close ∉ before) (ha : Op.close ∉ after)
    (hd : Op.drop (asked before).length ∉ after) :
    ∃ r, (run {} (before ++ .ask k :: after ++ [.step k, .finish k o])).status (asked before).length = .done r ∧
      (r = o ∨ Op.finish k r ∈ after) := by
  have i1 := inv_run inv_init before
  rw [List.nil_append] at i1
  have i2 := inv_step i1 (.ask k)
  have i3 := inv_run i2 after
  have f : Fit (run {} (before ++ .ask k :: after)) := by
    refine fit_run (by intro k j h; cases h) ?_
    simp [hb, ha]
  rw [run_append] at f ⊢
  simp only [run_append, run] at f ⊢
  have hk : (asked before ++ asked [.ask k])[(asked before).length]? = some k := by simp [asked]
  have h0 : (step (run {} before) (.ask k)).1.status (asked before).length = .pending := by
    have : (run {} before).status (asked before).length = .pending := i1.fresh _ (Nat.le_refl _)
    rcases status_step (w := (asked before).length) (k := k) (keys := asked before ++ [k]) (s := (step (run {} before) (.ask k)).1)
      (by simpa [asked] using i2) (by simp) (.step k) (by simp) with h | ⟨o, h, -⟩
    · simp only [step, ask]
      split <;> exact this
    · cases h
  have hk3 : (asked before ++ asked [.ask k] ++ asked after)[(asked before).length]? = some k := by
    rw [List.getElem?_append_left (List.getElem?_eq_some_iff.1 hk).1]
    exact hk
  have h3 := status_run i2 hk after hd
  generalize hs : run (step (run {} before) (.ask k)).1 after = s3 at *
  rcases h3 with h3 | ⟨r, h3, hm⟩
  · rw [h0] at h3
    obtain ⟨j, ej, hw⟩ := i3.waits _ k hk3 h3
    refine ⟨o, ?_, .inl rfl⟩
    obtain ⟨st, ws⟩ := j
    have hrun : (step s3 (.step k)).1.jobs k = some ⟨.running, ws⟩ ∧ (step s3 (.step k)).1.status = s3.status := by
      rcases f k _ ej with e | e <;> cases e
      · simp [step, first, ej, put]
      · simp [step, first, ej]
    generalize (step s3 (.step k)).1 = s4 at *
    show (finish s4 k o).1.status _ = _
    unfold finish
    rw [hrun.1]
    dsimp only [answer]
    rw [if_pos ⟨hw, by rw [hrun.2]; exact h3⟩]
  · refine ⟨r, ?_, .inr hm⟩
    have h4 := status_step i3 hk3 (.step k) (by simp)
    have i4 := inv_step i3 (.step k)
    have h5 := status_step i4 (by rw [show asked [Op.step k] = [] from rfl, List.append_nil]; exact hk3) (.finish k o) (by simp)
    have hs4 : (step s3 (.step k)).1.status (asked before).length = .done r := by
      rcases h4 with h4 | ⟨_, h4, -⟩
      · rw [h4, h3]
      · cases h4
    generalize (step s3 (.step k)).1 = s4 at *
    show (finish s4 k o).1.status _ = _
    unfold finish
    split
    · dsimp only [answer]
      rw [if_neg (by rw [hs4]; simp), hs4]
    · exact hs4

/-! ### Closing -/

theorem dead_step {s : State} {k : Key} {ws : List Nat} (h : s.jobs k = some ⟨.dead, ws⟩) (op : Op) :
    ∃ ws', (step s op).1.jobs k = some ⟨.dead, ws'⟩ := by
  cases op with
  | ask k' =>
    show ∃ ws', (ask s k').1.jobs k = _
    unfold ask
    split
    · next j e =>
      dsimp only [put]
      split
      · next h' => subst h'; rw [h] at e; cases e; exact ⟨_, rfl⟩
      · exact ⟨_, h⟩
    · next e =>
      dsimp only [put]
      split
      · next h' => subst h'; rw [h] at e; cases e
      · exact ⟨_, h⟩
  | step k' =>
    show ∃ ws', (first s k').jobs k = _
    unfold first
    split
    · next e =>
      dsimp only [put]
      split
      · next h' => subst h'; rw [h] at e; cases e
      · exact ⟨_, h⟩
    · next e =>
      dsimp only [put]
      split
      · next h' => subst h'; rw [h] at e; cases e
      · exact ⟨_, h⟩
    · exact ⟨_, h⟩
  | finish k' o =>
    show ∃ ws', (finish s k' o).1.jobs k = _
    unfold finish
    split
    · next e =>
      dsimp only [put]
      split
      · next h' => subst h'; rw [h] at e; cases e
      · exact ⟨_, h⟩
    · exact ⟨_, h⟩
  | drop w =>
    show ∃ ws', (drop s w).jobs k = _
    unfold drop
    split <;> exact ⟨_, h⟩
  | close =>
    show ∃ ws', (s.jobs k).map Job.cancel = _
    rw [h]
    exact ⟨_, rfl⟩

/-- Whoever waits for a task which never ran waits forever. -/
theorem dead_run {s : State} {keys : List Key} (i : Inv s keys) {k : Key} {ws : List Nat} (h : s.jobs k = some ⟨.dead, ws⟩)
    (hp : ∀ w : Nat, keys[w]? = some k → s.status w = .pending) (ops : List Op) {w : Nat} (hk : (keys ++ asked ops)[w]? = some k)
    (hd : Op.drop w ∉ ops) : (run s ops).status w = .pending := by
  suffices H : ∀ (ops : List Op) (s : State) (keys : List Key) (ws : List Nat), Inv s keys → s.jobs k = some ⟨.dead, ws⟩ →
      (keys[w]? = some k → s.status w = .pending) → (keys ++ asked ops)[w]? = some k → Op.drop w ∉ ops →
      (run s ops).status w = .pending from H ops s keys ws i h (hp w) hk hd
  clear i h hp hk hd ops s keys ws
  intro ops
  induction ops with
  | nil =>
    intro s keys ws i h hp hk hd
    rw [show asked [] = [] from rfl, List.append_nil] at hk
    exact hp hk
  | cons op ops ih =>
    intro s keys ws i h hp hk hd
    simp only [List.mem_cons, not_or] at hd
    obtain ⟨ws', h'⟩ := dead_step h op
    rw [asked_cons, ← List.append_assoc] at hk
    refine ih (step s op).1 _ ws' (inv_step i op) h' ?_ hk hd.2
    intro hk'
    by_cases hw : w < keys.length
    · rw [List.getElem?_append_left hw] at hk'
      rcases status_step i hk' op (fun e => hd.1 e.symm) with e | ⟨_, _, _, _, e⟩
      · rw [e]
        exact hp hk'
      · rw [h] at e
        cases e
    · have hf := i.fresh w (by omega)
      cases op with
      | ask k' =>
        show (ask s k').1.status w = _
        unfold ask
        split <;> exact hf
      | step k' => rw [show asked [Op.step k'] = [] from rfl, List.append_nil] at hk'; exact absurd (List.getElem?_eq_some_iff.1 hk').1 hw
      | finish k' o => rw [show asked [Op.finish k' o] = [] from rfl, List.append_nil] at hk'; exact absurd (List.getElem?_eq_some_iff.1 hk').1 hw
      | drop w' => rw [show asked [Op.drop w'] = [] from rfl, List.append_nil] at hk'; exact absurd (List.getElem?_eq_some_iff.1 hk').1 hw
      | close => rw [show asked [Op.close] = [] from rfl, List.append_nil] at hk'; exact absurd (List.getElem?_eq_some_iff.1 hk').1 hw

/-- C236 is violated: if the connector is closed before the task of a lookup is stepped, the waiters are never answered: not the one for
which it was made, and none of those who ask for the host after that. -/
theorem C236_closed_violated (k : Key) (ops : List Op) (w : Nat) (hk : (k :: asked ops)[w]? = some k) (hd : Op.drop w ∉ ops) :
    (run {} (.ask k :: .close :: .step k :: ops)).status w = .pending := by
  have i := inv_run inv_init [.ask k, .close, .step k]
  refine dead_run (keys := [k]) (ws := [0]) i ?_ ?_ ops hk hd
  · simp [run, step, ask, close, first, put, Job.cancel]
  · intro w _
    simp [run, step, ask, close, first, put, Job.cancel]

/-- Two requests share a lookup, a third of them is answered by the next one. -/
example : (run {} [.ask 7, .step 7, .ask 7, .finish 7 (.found [1, 2]), .ask 7, .step 7, .finish 7 (.failed 5)]).status 1 = .done (.found [1, 2]) ∧
    (run {} [.ask 7, .step 7, .ask 7, .finish 7 (.found [1, 2]), .ask 7, .step 7, .finish 7 (.failed 5)]).status 2 = .done (.failed 5) ∧
    (run {} [.ask 7, .step 7, .ask 7, .finish 7 (.found [1, 2]), .ask 7, .step 7, .finish 7 (.failed 5)]).cache 7 = some [1, 2] := by
  refine ⟨by decide, by decide, by decide⟩

/-- Closed in between, a running lookup still answers. -/
example : (run {} [.ask 7, .step 7, .close, .finish 7 .cancelled]).status 0 = .done .cancelled := by
  decide

end Verif.Connect
