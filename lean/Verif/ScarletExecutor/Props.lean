import Verif.ScarletExecutor.Model

/-! C24 and C25: the limit of a `ScarletExecutor`, and the reporting of failures. -/
namespace Verif.ScarletExecutor

/-! ### specification, in terms of what was done and seen -/

/-- The tasks whose addition began. -/
def addedIn (tr : List (Op × Out)) : List Nat :=
  tr.filterMap fun
    | (.add x, o) => if o = .none then none else some x
    | _ => none

/-- The tasks that completed. -/
def completedIn (ops : List Op) : List Nat := ops.filterMap fun | .complete x _ => some x | _ => none

/-- The tasks added and not completed. -/
def unfinished (s : State) (ops : List Op) : List Nat := (addedIn (trace s ops)).filter (· ∉ completedIn ops)

/-- The outcome of a task: the first completion. -/
def outcomeIn (ops : List Op) (x : Nat) : Option Outcome :=
  ops.findSome? fun | .complete y o => if y = x then some o else none | _ => none

/-- Whether an operation begins after `add` has raised: the adder ignores the exception and adds more. -/
def Disciplined (s : State) (ops : List Op) : Prop :=
  ∀ (i j x : Nat), (trace s ops)[i]?.map (fun e => e.2) = some .addRaised → i < j → ops[j]? ≠ some (Op.add x)

/-! ### the limit -/

structure Inv (s : State) : Prop where
  nd : s.active.Nodup
  sub : ∀ x ∈ s.active, x ∈ s.added
  /-- a task added and not called back is active, unless the block was left -/
  unc : s.adder ≠ .out → ∀ x, x ∈ s.uncalled → x ∈ s.active
  acu : ∀ x ∈ s.active, x ∈ s.uncalled
  und : s.uncalled.Nodup
  usub : ∀ x ∈ s.uncalled, x ∈ s.added
  /-- a task without outcome was not called back -/
  open_ : ∀ x ∈ s.added, s.outcome x = none → x ∈ s.uncalled

theorem inv_init (n : Nat) : Inv (.init n) := by constructor <;> simp [State.init]

theorem leave_inv (s : State) (h : Inv s) (o : Out) : Inv (s.leave o).1 :=
  ⟨by simp [State.leave], by simp [State.leave], by simp [State.leave], by simp [State.leave], h.und, h.usub, h.open_⟩

theorem inv_congr (s t : State) (h : Inv s) (e1 : t.active = s.active) (e2 : t.added = s.added) (e3 : t.uncalled = s.uncalled)
    (e4 : t.outcome = s.outcome) (e5 : t.adder ≠ .out → s.adder ≠ .out) : Inv t :=
  ⟨by rw [e1]; exact h.nd, by rw [e1, e2]; exact h.sub, by rw [e1, e3]; exact fun a => h.unc (e5 a), by rw [e1, e3]; exact h.acu,
    by rw [e3]; exact h.und, by rw [e2, e3]; exact h.usub, by rw [e2, e3, e4]; exact h.open_⟩

theorem exitLoop_inv (s : State) (h : Inv s) (ha : s.adder ≠ .out) : Inv s.exitLoop.1 := by
  unfold State.exitLoop
  split
  · exact leave_inv s h _
  · exact inv_congr s _ h rfl rfl rfl rfl (fun _ => ha)

theorem step_inv (s : State) (h : Inv s) (op : Op) : Inv (s.step op).1 := by
  cases op with
  | add x =>
    simp only [State.step]
    split
    · rename_i hx
      have base : Inv { s with added := s.added ++ [x], uncalled := s.uncalled ++ [x], active := s.active ++ [x] } := by
        refine ⟨?_, ?_, ?_, ?_, ?_, ?_, ?_⟩ <;> simp only
        · rw [List.nodup_append]
          refine ⟨h.nd, by simp, ?_⟩
          intro a ha b hb; simp at hb; subst hb
          exact fun e => hx.2 (e ▸ h.sub a ha)
        · intro y hy
          rcases List.mem_append.mp hy with hy | hy
          · exact List.mem_append_left _ (h.sub y hy)
          · exact List.mem_append_right _ hy
        · intro ha y hy
          rcases List.mem_append.mp hy with hy | hy
          · exact List.mem_append_left _ (h.unc ha y hy)
          · exact List.mem_append_right _ hy
        · intro y hy
          rcases List.mem_append.mp hy with hy | hy
          · exact List.mem_append_left _ (h.acu y hy)
          · exact List.mem_append_right _ hy
        · rw [List.nodup_append]
          refine ⟨h.und, by simp, ?_⟩
          intro a ha b hb; simp at hb; subst hb
          exact fun e => hx.2 (e ▸ h.usub a ha)
        · intro y hy
          rcases List.mem_append.mp hy with hy | hy
          · exact List.mem_append_left _ (h.usub y hy)
          · exact List.mem_append_right _ hy
        · intro y hy ho
          rcases List.mem_append.mp hy with hy | hy
          · exact List.mem_append_left _ (h.open_ y hy ho)
          · exact List.mem_append_right _ hy
      unfold State.add
      simp only
      split
      · split
        · exact inv_congr _ _ base rfl rfl rfl rfl (by simp [hx.1])
        · exact inv_congr _ _ base rfl rfl rfl rfl (fun a => a)
      · exact base
    · exact h
  | complete x o =>
    simp only [State.step]
    split
    · refine ⟨h.nd, h.sub, h.unc, h.acu, h.und, h.usub, ?_⟩
      intro y hy ho
      simp only at ho
      split at ho
      · cases ho
      · exact h.open_ y hy ho
    · exact h
  | callback x =>
    simp only [State.step]
    split
    · rename_i hx
      refine ⟨h.nd.filter _, ?_, ?_, ?_, h.und.erase _, ?_, ?_⟩ <;> simp only [State.callback]
      · intro y hy; exact h.sub y (List.mem_filter.mp hy).1
      · intro ha y hy
        rw [h.und.mem_erase_iff] at hy
        exact List.mem_filter.mpr ⟨h.unc ha y hy.2, by simpa using hy.1⟩
      · intro y hy
        rw [List.mem_filter] at hy
        rw [h.und.mem_erase_iff]
        exact ⟨by simpa using hy.2, h.acu y hy.1⟩
      · intro y hy; exact h.usub y (List.mem_of_mem_erase hy)
      · intro y hy ho
        rw [h.und.mem_erase_iff]
        refine ⟨?_, h.open_ y hy ho⟩
        rintro rfl
        exact hx.1 ho
    · exact h
  | resume =>
    simp only [State.step]
    split
    · split
      · split
        · exact inv_congr s _ h rfl rfl rfl rfl (by simp_all)
        · exact inv_congr s _ h rfl rfl rfl rfl (by simp_all)
      · rename_i he
        split
        · exact inv_congr s _ h rfl rfl rfl rfl (by simp_all)
        · split
          · exact exitLoop_inv _ (inv_congr s _ h rfl rfl rfl rfl (fun a => a)) (by simp [he])
          · exact leave_inv s h _
      · exact h
    · exact h
  | cancelAdder =>
    simp only [State.step]
    split
    · exact inv_congr s _ h rfl rfl rfl rfl (fun a => a)
    · exact h
  | exit b =>
    simp only [State.step]
    split
    · rename_i hb
      split
      · exact exitLoop_inv s h (by simp [hb])
      · split <;> exact leave_inv s h _
      · exact leave_inv s h _
    · exact h

/-- The counting invariant: `raised` says whether an `add` raised. -/
structure Cap (raised : Bool) (s : State) : Prop where
  pos : 0 < s.limit
  le : s.active.length ≤ s.limit
  body : s.adder = .body → raised = false → s.active.length < s.limit
  /-- woken in `add`: something finished, unless the waiter was cancelled -/
  woken : s.adder = .add → s.waiter = .result → s.active.length < s.limit
  some_ : s.adder ≠ .out → s.waiter ≠ .none
  /-- nothing is being added after an `add` raised -/
  nadd : raised = true → s.adder ≠ .add

theorem filter_ne_length (l : List Nat) (x : Nat) (h : x ∈ l) : (l.filter (· ≠ x)).length < l.length := by
  induction l with
  | nil => simp at h
  | cons a l ih =>
    simp only [List.filter_cons]
    by_cases ha : a = x
    · subst ha
      simp only [ne_eq, not_true_eq_false, decide_false, Bool.false_eq_true, if_false, List.length_cons]
      have := List.length_filter_le (fun b => decide (b ≠ a)) l
      simp only [ne_eq] at this
      omega
    · have : x ∈ l := by
        rcases List.mem_cons.mp h with h | h
        · exact absurd h.symm ha
        · exact h
      simp only [ha, ne_eq, not_false_eq_true, decide_true, if_true, List.length_cons]
      have := ih this
      simp only [ne_eq] at this
      omega

theorem leave_cap (s : State) (b c : Bool) (h : Cap b s) (o : Out) : Cap c (s.leave o).1 :=
  ⟨h.pos, by simp [State.leave], by simp [State.leave], by simp [State.leave], by simp [State.leave], by simp [State.leave]⟩

theorem step_cap (s : State) (r : Bool) (h : Cap r s) (hi : Inv s) (op : Op) (hr : r = true → ∀ x, op ≠ .add x) :
    Cap (r || decide ((s.step op).2 = .addRaised)) (s.step op).1 := by
  cases op with
  | add x =>
    have hr : r = false := by
      cases r with
      | false => rfl
      | true => exact absurd rfl (hr rfl x)
    subst hr
    simp only [State.step]
    split
    · rename_i hx
      have hb := h.body hx.1 rfl
      unfold State.add
      simp only [List.length_append, List.length_singleton, ge_iff_le]
      split
      · split
        · exact ⟨h.pos, by simp; omega, by simp, by simp, by simp, by simp⟩
        · exact ⟨h.pos, by simp; omega, by simp; omega, by simp, by simp, by simp⟩
      · exact ⟨h.pos, by simp; omega, by simp, by simp [hx.1], h.some_, by simp [hx.1]⟩
    · simpa using h
  | complete x o =>
    simp only [State.step]
    split
    · simpa using ⟨h.pos, h.le, h.body, h.woken, h.some_, h.nadd⟩
    · simpa using h
  | callback x =>
    simp only [State.step]
    split
    · rename_i hx
      by_cases ho : s.adder = .out
      · refine ⟨h.pos, ?_, ?_, ?_, ?_, ?_⟩ <;> simp [State.callback, ho]
        exact Nat.le_trans (List.length_filter_le _ _) h.le
      · have hlt := filter_ne_length s.active x (hi.unc ho x hx.2)
        have hle := h.le
        have hlt' : (s.callback x).active.length < s.limit := by
          show (s.active.filter (· ≠ x)).length < s.limit
          omega
        refine ⟨h.pos, Nat.le_of_lt hlt', fun _ _ => hlt', fun _ _ => hlt', ?_, by simpa [State.callback] using h.nadd⟩
        intro ha
        simp only [State.callback]
        split
        · simp
        · exact h.some_ ho
    · simpa using h
  | resume =>
    simp only [State.step]
    split
    · rename_i hw
      split
      · rename_i ha
        split
        · refine ⟨h.pos, h.le, by simp, by simp, ?_, by simp⟩
          intro _; simp only
          rcases hw with hw | hw <;> simp [hw]
        · rename_i hn
          have hw' : s.waiter = .result := by
            rcases hw with hw | hw
            · exact hw
            · exact absurd (Or.inl hw) hn
          exact ⟨h.pos, h.le, fun _ _ => h.woken ha hw', by simp, by simp, by simp⟩
      · rename_i ha
        split
        · exact ⟨h.pos, h.le, by simp, by simp, by simp, by simp⟩
        · split
          · unfold State.exitLoop
            split
            · exact leave_cap s r _ h _
            · exact ⟨h.pos, h.le, by simp, by simp, by simp, by simp⟩
          · exact leave_cap s r _ h _
      · simpa using h
    · simpa using h
  | cancelAdder =>
    simp only [State.step]
    split
    · rename_i hc
      refine ⟨h.pos, h.le, ?_, by simp, by simp, by simpa using h.nadd⟩
      intro hb
      simp only at hb
      rcases hc.2 with h' | h' <;> rw [h'] at hb <;> cases hb
    · simpa using h
  | exit b =>
    simp only [State.step]
    split
    · rename_i hb
      split
      · unfold State.exitLoop
        split
        · exact leave_cap s r _ h _
        · exact ⟨h.pos, h.le, by simp, by simp, fun _ => h.some_ (by simp [hb]), by simp⟩
      · split <;> exact leave_cap s r _ h _
      · exact leave_cap s r _ h _
    · simpa using h

theorem disciplined_cons (s : State) (op : Op) (ops : List Op) (h : Disciplined s (op :: ops)) :
    Disciplined (s.step op).1 ops := by
  intro i j x hi hj
  have := h (i + 1) (j + 1) x (by simpa [trace] using hi) (by omega)
  simpa using this

theorem runAll_cap (ops : List Op) : ∀ (s : State) (r : Bool), Cap r s → Inv s → Disciplined s ops →
    (r = true → ∀ (j x : Nat), ops[j]? ≠ some (Op.add x)) → ∃ r', Cap r' (s.runAll ops) ∧ Inv (s.runAll ops) ∧
      (r' = true → r = true ∨ ∃ i : Nat, i < ops.length ∧ (trace s ops)[i]?.map (fun e => e.2) = some .addRaised) := by
  induction ops with
  | nil => intro s r h hi _ _; exact ⟨r, h, hi, Or.inl⟩
  | cons op ops ih =>
    intro s r h hi hd hr
    obtain ⟨r', hc, hi', hr'⟩ := ih (s.step op).1 _ (step_cap s r h hi op (by
        intro hrt x e
        exact hr hrt 0 x (by simp [e]))) (step_inv s hi op) (disciplined_cons s op ops hd) (by
      intro hrt j x
      rcases (Bool.or_eq_true _ _).mp hrt with hrt | hrt
      · have := hr hrt (j + 1) x
        simpa using this
      · have := hd 0 (j + 1) x (by simpa [trace] using hrt) (by omega)
        simpa using this)
    refine ⟨r', hc, hi', ?_⟩
    intro hrt
    rcases hr' hrt with hh | ⟨i, hi1, hi2⟩
    · rcases (Bool.or_eq_true _ _).mp hh with hh | hh
      · exact Or.inl hh
      · exact Or.inr ⟨0, by simp, by simpa [trace] using hh⟩
    · exact Or.inr ⟨i + 1, by simpa using hi1, by simpa [trace] using hi2⟩

theorem cap_init (n : Nat) (h : 0 < n) : Cap false (.init n) := by constructor <;> simp [State.init, h]

/-- The added tasks recorded by the model are the ones seen in the trace. -/
theorem step_added (s : State) (op : Op) : (s.step op).1.added = s.added ++ addedIn [(op, (s.step op).2)] := by
  cases op with
  | add x =>
    simp only [State.step]
    split
    · unfold State.add
      simp only
      split
      · split <;> simp [addedIn]
      · simp [addedIn]
    · simp [addedIn]
  | complete x o => simp only [State.step]; split <;> simp [addedIn]
  | callback x => simp only [State.step]; split <;> simp [addedIn, State.callback]
  | resume =>
    simp only [State.step]
    split
    · split
      · split <;> simp [addedIn]
      · split
        · simp [addedIn]
        · split
          · unfold State.exitLoop; split <;> simp [addedIn, State.leave]
          · simp [addedIn, State.leave]
      · simp [addedIn]
    · simp [addedIn]
  | cancelAdder => simp only [State.step]; split <;> simp [addedIn]
  | exit b =>
    simp only [State.step]
    split
    · split
      · unfold State.exitLoop; split <;> simp [addedIn, State.leave]
      · split <;> simp [addedIn, State.leave]
      · simp [addedIn, State.leave]
    · simp [addedIn]

theorem addedIn_append (a b : List (Op × Out)) : addedIn (a ++ b) = addedIn a ++ addedIn b := by simp [addedIn]

theorem runAll_added (ops : List Op) : ∀ s : State, (s.runAll ops).added = s.added ++ addedIn (trace s ops) := by
  induction ops with
  | nil => intro s; simp [State.runAll, trace, addedIn]
  | cons op ops ih =>
    intro s
    show ((s.step op).1.runAll ops).added = _
    rw [ih, step_added, List.append_assoc, ← addedIn_append]; rfl

theorem step_outcome (s : State) (op : Op) (x : Nat) :
    (s.step op).1.outcome x = (s.outcome x).or (outcomeIn [op] x) := by
  cases op with
  | add y =>
    simp only [State.step]
    split
    · unfold State.add
      simp only
      split
      · split <;> simp [outcomeIn]
      · simp [outcomeIn]
    · simp [outcomeIn]
  | complete y o =>
    simp only [State.step, outcomeIn, List.findSome?_cons, List.findSome?_nil]
    split
    · rename_i hy
      simp only
      by_cases hxy : x = y
      · subst hxy; simp [hy]
      · have : ¬ y = x := fun e => hxy e.symm
        simp [hxy, this]
    · rename_i hy
      by_cases hxy : y = x
      · subst hxy
        cases h : s.outcome y with
        | none => exact absurd h hy
        | some v => simp
      · simp [hxy]
  | callback y => simp only [State.step]; split <;> simp [outcomeIn, State.callback]
  | resume =>
    simp only [State.step]
    split
    · split
      · split <;> simp [outcomeIn]
      · split
        · simp [outcomeIn]
        · split
          · unfold State.exitLoop; split <;> simp [outcomeIn, State.leave]
          · simp [outcomeIn, State.leave]
      · simp [outcomeIn]
    · simp [outcomeIn]
  | cancelAdder => simp only [State.step]; split <;> simp [outcomeIn]
  | exit b =>
    simp only [State.step]
    split
    · split
      · unfold State.exitLoop; split <;> simp [outcomeIn, State.leave]
      · split <;> simp [outcomeIn, State.leave]
      · simp [outcomeIn, State.leave]
    · simp [outcomeIn]

theorem outcomeIn_cons (op : Op) (ops : List Op) (x : Nat) : outcomeIn (op :: ops) x = (outcomeIn [op] x).or (outcomeIn ops x) := by
  simp only [outcomeIn, List.findSome?_cons, List.findSome?_nil]
  split <;> simp_all

theorem runAll_outcome (ops : List Op) (x : Nat) : ∀ s : State, (s.runAll ops).outcome x = (s.outcome x).or (outcomeIn ops x) := by
  induction ops with
  | nil => intro s; simp [State.runAll, outcomeIn]
  | cons op ops ih =>
    intro s
    show ((s.step op).1.runAll ops).outcome x = _
    rw [ih, step_outcome, Option.or_assoc, ← outcomeIn_cons]

theorem outcomeIn_none (ops : List Op) (x : Nat) : outcomeIn ops x = none ↔ x ∉ completedIn ops := by
  unfold outcomeIn completedIn
  rw [List.findSome?_eq_none_iff]
  constructor
  · intro h hx
    obtain ⟨op, hop, he⟩ := List.mem_filterMap.mp hx
    have := h op hop
    cases op <;> simp_all
  · intro h op hop
    cases op with
    | complete y o =>
      simp only
      split
      · rename_i e
        exact absurd (List.mem_filterMap.mpr ⟨_, hop, by simp [e]⟩) h
      · rfl
    | _ => rfl

theorem out_adder (s : State) (op : Op) (h : s.adder = .out) : (s.step op).1.adder = .out := by
  cases op <;> simp only [State.step, h] <;> (try split) <;> simp_all [State.callback]

theorem nodup_added (ops : List Op) : ∀ s : State, s.added.Nodup → (s.runAll ops).added.Nodup := by
  induction ops with
  | nil => intro s h; exact h
  | cons op ops ih =>
    intro s h
    refine ih _ ?_
    rw [step_added]
    cases op with
    | add x =>
      simp only [State.step]
      split
      · rename_i hx
        simp only [addedIn, List.filterMap_cons, List.filterMap_nil]
        split
        · simpa using h
        · rename_i y hy
          split at hy
          · cases hy
          · simp only [Option.some.injEq] at hy
            subst hy
            rw [List.nodup_append]
            refine ⟨h, by simp, ?_⟩
            intro a ha b hb; simp at hb; subst hb
            exact fun e => hx.2 (e ▸ ha)
      · simpa [addedIn] using h
    | _ => simpa [addedIn] using h

theorem step_limit (s : State) (op : Op) : (s.step op).1.limit = s.limit := by
  cases op <;> simp only [State.step]
  case add => split <;> (try unfold State.add; simp only; split <;> (try split)) <;> rfl
  case complete => split <;> rfl
  case callback => split <;> rfl
  case resume =>
    split
    · split
      · split <;> rfl
      · split
        · rfl
        · split
          · unfold State.exitLoop; split <;> rfl
          · rfl
      · rfl
    · rfl
  case cancelAdder => split <;> rfl
  case exit b =>
    split
    · cases b <;> simp only
      · unfold State.exitLoop; split <;> rfl
      · split <;> rfl
      · rfl
    · rfl

theorem runAll_limit (ops : List Op) : ∀ s : State, (s.runAll ops).limit = s.limit := by
  induction ops with
  | nil => intro s; rfl
  | cons op ops ih =>
    intro s
    show ((s.step op).1.runAll ops).limit = _
    rw [ih, step_limit]

theorem runAll_inv (ops : List Op) : ∀ s : State, Inv s → Inv (s.runAll ops) := by
  induction ops with
  | nil => intro s h; exact h
  | cons op ops ih => intro s h; exact ih _ (step_inv s h op)

theorem runAll_snoc (s : State) (ops : List Op) (op : Op) : s.runAll (ops ++ [op]) = ((s.runAll ops).step op).1 := by
  simp [State.runAll]

theorem trace_append (s : State) (a b : List Op) : trace s (a ++ b) = trace s a ++ trace (s.runAll a) b := by
  induction a generalizing s with
  | nil => rfl
  | cons op a ih => simp [trace, State.runAll, ih]

theorem trace_length (s : State) (ops : List Op) : (trace s ops).length = ops.length := by
  induction ops generalizing s with
  | nil => rfl
  | cons op ops ih => simp [trace, ih]

theorem length_le_of_subset (l : List Nat) : ∀ l' : List Nat, l.Nodup → (∀ x ∈ l, x ∈ l') → l.length ≤ l'.length := by
  induction l with
  | nil => intro l' _ _; simp
  | cons a l ih =>
    intro l' hnd hs
    have ha : a ∈ l' := hs a (by simp)
    obtain ⟨hal, hnd⟩ := List.nodup_cons.mp hnd
    have := ih (l'.erase a) hnd (fun x hx => by
      refine (List.mem_erase_of_ne ?_).mpr (hs x (List.mem_cons_of_mem _ hx))
      rintro rfl; exact hal hx)
    rw [List.length_erase_of_mem ha] at this
    have := List.length_pos_of_mem ha
    simp only [List.length_cons]
    omega

theorem unfinished_le_active (limit : Nat) (ops : List Op) (hin : ((State.init limit).runAll ops).adder ≠ .out) :
    (unfinished (.init limit) ops).length ≤ ((State.init limit).runAll ops).active.length := by
  have hi := runAll_inv ops _ (inv_init limit)
  have hnd : (unfinished (.init limit) ops).Nodup := by
    have := nodup_added ops (.init limit) (by simp [State.init])
    rw [runAll_added] at this
    exact (by simpa [State.init] using this : (addedIn (trace (.init limit) ops)).Nodup).filter _
  refine length_le_of_subset _ _ hnd ?_
  intro x hx
  obtain ⟨hx1, hx2⟩ := List.mem_filter.mp hx
  have ha : x ∈ ((State.init limit).runAll ops).added := by rw [runAll_added]; simpa [State.init] using hx1
  have ho : ((State.init limit).runAll ops).outcome x = none := by
    rw [runAll_outcome, (outcomeIn_none ops x).mpr (by simpa using hx2)]; rfl
  exact hi.unc hin x (hi.open_ x ha ho)

/-- C24, for an adder that does not go on adding after an `add` that raised: while the block is not left, the number of tasks
added and not finished never exceeds the limit. -/
theorem C24_at_most_limit_partial (limit : Nat) (hl : 0 < limit) (ops : List Op) (hd : Disciplined (.init limit) ops)
    (hin : ((State.init limit).runAll ops).adder ≠ .out) : (unfinished (.init limit) ops).length ≤ limit := by
  obtain ⟨r, hc, _, _⟩ := runAll_cap ops (.init limit) false (cap_init limit hl) (inv_init limit) hd (by simp)
  have hle := hc.le
  rw [runAll_limit] at hle
  exact Nat.le_trans (unfinished_le_active limit ops hin) hle

/-- C24, under the same condition: when `add` returns, the number is below the limit. -/
theorem C24_below_limit_on_return_partial (limit : Nat) (hl : 0 < limit) (ops : List Op) (op : Op)
    (hd : Disciplined (.init limit) (ops ++ [op])) (hret : (((State.init limit).runAll ops).step op).2 = .returned) :
    (unfinished (.init limit) (ops ++ [op])).length < limit := by
  have hd' : Disciplined (.init limit) ops := by
    intro i j x h1 h2 h3
    have hj := (List.getElem?_eq_some_iff.mp h3).1
    refine hd i j x ?_ h2 (by rw [List.getElem?_append_left hj]; exact h3)
    rw [trace_append, List.getElem?_append_left (by rw [trace_length]; omega)]
    exact h1
  obtain ⟨r, hc, hi, hr⟩ := runAll_cap ops (.init limit) false (cap_init limit hl) (inv_init limit) hd' (by simp)
  have hadd : r = true → ∀ x, op ≠ .add x := by
    intro hrt x e
    rcases hr hrt with h | ⟨i, h1, h2⟩
    · cases h
    · refine hd i ops.length x ?_ h1 (by simp [e])
      rw [trace_append, List.getElem?_append_left (by rw [trace_length]; omega)]
      exact h2
  have hc' := step_cap _ r hc hi op hadd
  have hlim : (((State.init limit).runAll ops).step op).1.limit = limit := by rw [step_limit, runAll_limit]; rfl
  rw [hret] at hc'
  simp only [reduceCtorEq, decide_false, Bool.or_false] at hc'
  have hb : (((State.init limit).runAll ops).step op).1.adder = .body ∧ r = false := by
    generalize hs : (State.init limit).runAll ops = s at *
    cases op with
    | add x =>
      have hrf : r = false := by
        cases r with
        | false => rfl
        | true => exact absurd rfl (hadd rfl x)
      refine ⟨?_, hrf⟩
      simp only [State.step] at hret ⊢
      split at hret
      · rename_i hx
        rw [if_pos hx]
        unfold State.add at hret ⊢
        simp only at hret ⊢
        split at hret
        · rename_i hw
          rw [if_pos hw]
          split at hret
          · cases hret
          · rename_i hg; rw [if_neg hg]; exact hx.1
        · cases hret
      · cases hret
    | complete x o => simp only [State.step] at hret; split at hret <;> cases hret
    | callback x => simp only [State.step] at hret; split at hret <;> cases hret
    | resume =>
      simp only [State.step] at hret ⊢
      split at hret
      · rename_i hw
        rw [if_pos hw]
        split at hret
        · rename_i ha
          split at hret
          · cases hret
          · rename_i hn
            rw [if_neg hn]
            refine ⟨rfl, ?_⟩
            cases r with
            | false => rfl
            | true => exact absurd ha (hc.nadd rfl)
        · split at hret
          · cases hret
          · split at hret
            · unfold State.exitLoop State.leave at hret; split at hret <;> cases hret
            · simp [State.leave] at hret
        · cases hret
      · cases hret
    | cancelAdder => simp only [State.step] at hret; split at hret <;> cases hret
    | exit b =>
      simp only [State.step] at hret
      split at hret
      · split at hret
        · unfold State.exitLoop State.leave at hret; split at hret <;> cases hret
        · split at hret <;> simp [State.leave] at hret
        · simp [State.leave] at hret
      · cases hret
  have hlt := hc'.body hb.1 hb.2
  rw [hlim] at hlt
  refine Nat.lt_of_le_of_lt ?_ hlt
  have := unfinished_le_active limit (ops ++ [op]) (by rw [runAll_snoc, hb.1]; simp)
  rwa [runAll_snoc] at this

/-- Instance: the third `add` waits until the first task finished. -/
example : (trace (.init 2) [.add 0, .add 1, .complete 0 .result, .callback 0, .resume, .add 2]).map (·.2) =
    [.returned, .waits, .none, .none, .returned, .waits] := by decide

/-- C24 does not hold for an adder that is cancelled in `add`, or gets `CancelledError` because a task failed, and goes on
adding: two tasks run with a limit of one. -/
theorem C24_violated :
    let ops : List Op := [.add 0, .cancelAdder, .resume, .add 1]
    (trace (.init 1) ops).map (·.2) = [.waits, .none, .addRaised, .waits] ∧ unfinished (.init 1) ops = [0, 1] := by decide

structure Live (s : State) : Prop where
  add : s.adder = .add → s.waiter = .pending → s.limit ≤ s.active.length
  exit : s.adder = .exit → s.waiter = .pending → s.active ≠ []
  some_ : s.adder ≠ .out → s.waiter ≠ .none

theorem step_live (s : State) (h : Live s) (op : Op) : Live (s.step op).1 := by
  have hl : ∀ (t : State) (o : Out), Live (t.leave o).1 := fun t o => ⟨by simp [State.leave], by simp [State.leave], by simp [State.leave]⟩
  cases op with
  | add x =>
    simp only [State.step]
    split
    · rename_i hx
      unfold State.add
      simp only
      split
      · split
        · rename_i hg; exact ⟨fun _ _ => hg, by simp, by simp⟩
        · exact ⟨by simp [hx.1], by simp [hx.1], by simp⟩
      · exact ⟨by simp [hx.1], by simp [hx.1], h.some_⟩
    · exact h
  | complete x o =>
    simp only [State.step]
    split
    · exact ⟨h.add, h.exit, h.some_⟩
    · exact h
  | callback x =>
    simp only [State.step]
    split
    · have hnp : (s.callback x).waiter ≠ .pending := by
        simp only [State.callback]; split
        · simp
        · assumption
      refine ⟨fun _ h => absurd h hnp, fun _ h => absurd h hnp, ?_⟩
      intro ha
      have := h.some_ ha
      simp only [State.callback]; split
      · simp
      · exact this
    · exact h
  | resume =>
    simp only [State.step]
    split
    · rename_i hw
      have hne : s.waiter ≠ .none := by rcases hw with h | h <;> simp [h]
      split
      · split
        · exact ⟨by simp, by simp, fun _ => hne⟩
        · exact ⟨by simp, by simp, by simp⟩
      · split
        · exact ⟨by simp, by simp, by simp⟩
        · split
          · unfold State.exitLoop
            split
            · exact hl _ _
            · rename_i ha; exact ⟨by simp, fun _ _ => ha, by simp⟩
          · exact hl _ _
      · exact h
    · exact h
  | cancelAdder =>
    simp only [State.step]
    split
    · exact ⟨by simp, by simp, by simp⟩
    · exact h
  | exit b =>
    simp only [State.step]
    split
    · rename_i hb
      split
      · unfold State.exitLoop
        split
        · exact hl _ _
        · rename_i ha; exact ⟨by simp, fun _ _ => ha, fun _ => h.some_ (by simp [hb])⟩
      · split <;> exact hl _ _
      · exact hl _ _
    · exact h

/-- C24. `add` does not wait needlessly and leaving does not hang: while the adder waits for the executor, either it can go on, or
at least `limit` (on leaving: some) tasks have not been called back. No condition on the adder. -/
theorem C24_not_stuck (limit : Nat) (ops : List Op) :
    let s := (State.init limit).runAll ops
    (s.adder = .add → (s.step .resume).2 ≠ .none ∨ limit ≤ s.active.length) ∧
    (s.adder = .exit → (s.step .resume).2 ≠ .none ∨ s.active ≠ []) := by
  have h : ∀ (ops : List Op) (s : State), Live s → Live (s.runAll ops) := by
    intro ops
    induction ops with
    | nil => intro s h; exact h
    | cons op ops ih => intro s h; exact ih _ (step_live s h op)
  have hl := h ops (.init limit) ⟨by simp [State.init], by simp [State.init], by simp [State.init]⟩
  have hlim := runAll_limit ops (.init limit)
  generalize hs : (State.init limit).runAll ops = s at *
  constructor
  · intro ha
    cases hw : s.waiter with
    | none => exact absurd hw (hl.some_ (by simp [ha]))
    | pending => right; have := hl.add ha hw; rw [hlim] at this; exact this
    | result => left; simp only [State.step, hw, ha]; simp only [true_or, if_true]; split <;> simp
    | cancelled => left; simp [State.step, hw, ha]
  · intro ha
    cases hw : s.waiter with
    | none => exact absurd hw (hl.some_ (by simp [ha]))
    | pending => right; exact hl.exit ha hw
    | result =>
      left; simp only [State.step, hw, ha]; simp only [true_or, if_true, reduceCtorEq, if_false]
      split
      · unfold State.exitLoop State.leave; split <;> simp
      · simp [State.leave]
    | cancelled => left; simp [State.step, hw, ha]

/-! ### C25 -/

/-- A failed task whose failure was processed left its mark. -/
def Marked (s : State) : Prop :=
  s.adder ≠ .out → s.exception = none → ∀ x ∈ s.added, s.outcome x = some .raised → x ∈ s.uncalled

theorem step_marked (s : State) (h : Marked s) (hi : Inv s) (op : Op) : Marked (s.step op).1 := by
  have hl : ∀ (t : State) (o : Out), Marked (t.leave o).1 := fun t o hh => absurd rfl hh
  cases op with
  | add x =>
    simp only [State.step]
    split
    · rename_i hx
      have base : Marked { s with added := s.added ++ [x], uncalled := s.uncalled ++ [x], active := s.active ++ [x] } := by
        intro ha he y hy ho
        simp only at ha he hy ho ⊢
        rcases List.mem_append.mp hy with hy | hy
        · exact List.mem_append_left _ (h ha he y hy ho)
        · exact List.mem_append_right _ hy
      unfold State.add
      simp only
      split
      · split
        · exact fun _ he => base (by simp [hx.1]) he
        · exact base
      · exact base
    · exact h
  | complete x o =>
    simp only [State.step]
    split
    · rename_i ho
      intro ha he y hy hr
      simp only at ha he hy hr ⊢
      split at hr
      · rename_i e; subst e; exact hi.open_ y hy ho
      · exact h ha he y hy hr
    · exact h
  | callback x =>
    simp only [State.step]
    split
    · intro ha he y hy hr
      simp only [State.callback] at ha he hy hr ⊢
      split at he
      · cases he
      · rename_i hn
        rw [hi.und.mem_erase_iff]
        refine ⟨?_, h ha he y hy hr⟩
        rintro rfl
        exact hn ⟨hr, he⟩
    · exact h
  | resume =>
    simp only [State.step]
    split
    · split
      · rename_i ha
        split
        · exact fun _ he => h (by simp [ha]) he
        · exact fun _ he => h (by simp [ha]) he
      · rename_i ha
        split
        · exact fun hh => absurd rfl hh
        · split
          · unfold State.exitLoop
            split
            · exact hl _ _
            · exact fun _ he => h (by simp [ha]) he
          · exact hl _ _
      · exact h
    · exact h
  | cancelAdder =>
    simp only [State.step]
    split
    · exact h
    · exact h
  | exit b =>
    simp only [State.step]
    split
    · rename_i hb
      split
      · unfold State.exitLoop
        split
        · exact hl _ _
        · exact fun _ he => h (by simp [hb]) he
      · split <;> exact hl _ _
      · exact hl _ _
    · exact h

/-- C25, except for failures processed before a normal end of the body with nothing left to wait for, and for failures not yet
processed when the body ends by `CancelledError`. If the block is left without an exception then
either leaving waited, and no added task failed; or the body ended normally when every added task had been called back; or the body
was cancelled and no failure of an added task had been processed. -/
theorem C25_failure_reported_partial (limit : Nat) (ops : List Op) (op : Op)
    (h : (((State.init limit).runAll ops).step op).2 = .leftNormally) :
    (op = .resume ∧ ∀ x ∈ addedIn (trace (.init limit) ops), outcomeIn ops x ≠ some .raised) ∨
    (op = .exit .normal ∧ ∀ x ∈ addedIn (trace (.init limit) ops), .callback x ∈ ops) ∨
    (op = .exit .cancelled ∧ ∀ x ∈ addedIn (trace (.init limit) ops), outcomeIn ops x = some .raised →
      x ∈ ((State.init limit).runAll ops).uncalled) := by
  have hm : ∀ (ops : List Op) (s : State), Inv s → Marked s → Marked (s.runAll ops) := by
    intro ops
    induction ops with
    | nil => intro s _ h; exact h
    | cons op ops ih => intro s hi h; exact ih _ (step_inv s hi op) (step_marked s h hi op)
  have hi := runAll_inv ops _ (inv_init limit)
  have hm := hm ops (.init limit) (inv_init limit) (by intro _ _ x hx; simp [State.init] at hx)
  have hadd := runAll_added ops (.init limit)
  have hout := fun x => runAll_outcome ops x (.init limit)
  have huc : ∀ (ops : List Op) (s : State), ∀ x, x ∈ (s.runAll ops).added → x ∉ (s.runAll ops).uncalled →
      (x ∈ s.added ∧ x ∉ s.uncalled) ∨ .callback x ∈ ops := by
    intro ops
    induction ops with
    | nil => intro s x h1 h2; exact Or.inl ⟨h1, h2⟩
    | cons op ops ih =>
      intro s x h1 h2
      rcases ih (s.step op).1 x h1 h2 with ⟨h1, h2⟩ | h
      · by_cases e : op = .callback x
        · exact Or.inr (by simp [e])
        · left
          have hs : x ∈ s.uncalled → x ∈ (s.step op).1.uncalled := by
            intro hx
            cases op with
            | add y =>
              simp only [State.step]
              split
              · unfold State.add; simp only
                split
                · split <;> exact List.mem_append_left _ hx
                · exact List.mem_append_left _ hx
              · exact hx
            | complete y o => simp only [State.step]; split <;> exact hx
            | callback y =>
              simp only [State.step]; split
              · simp only [State.callback]
                refine (List.mem_erase_of_ne ?_).mpr hx
                rintro rfl; exact e rfl
              · exact hx
            | resume =>
              simp only [State.step]
              split
              · split
                · split <;> exact hx
                · split
                  · exact hx
                  · split
                    · unfold State.exitLoop; split <;> exact hx
                    · exact hx
                · exact hx
              · exact hx
            | cancelAdder => simp only [State.step]; split <;> exact hx
            | exit b =>
              simp only [State.step]
              split
              · split
                · unfold State.exitLoop; split <;> exact hx
                · split <;> exact hx
                · exact hx
              · exact hx
          refine ⟨?_, fun hx => h2 (hs hx)⟩
          rw [step_added] at h1
          rcases List.mem_append.mp h1 with h1 | h1
          · exact h1
          · exfalso
            cases op with
            | add y =>
              simp only [State.step] at h1 h2
              split at h1
              · rename_i hy
                rw [if_pos hy] at h2
                have : x = y := by
                  simp only [addedIn, List.filterMap_cons, List.filterMap_nil] at h1
                  split at h1
                  · simp at h1
                  · rename_i z hz
                    split at hz
                    · cases hz
                    · simp only [Option.some.injEq] at hz; subst hz; simpa using h1
                subst this
                apply h2
                unfold State.add; simp only
                split
                · split <;> simp
                · simp
              · simp [addedIn] at h1
            | _ => simp [addedIn] at h1
      · exact Or.inr (List.mem_cons_of_mem _ h)
  have huc := huc ops (.init limit)
  generalize hs : (State.init limit).runAll ops = s at *
  have hadd' : s.added = addedIn (trace (.init limit) ops) := by simpa [State.init] using hadd
  have hout' : ∀ x, s.outcome x = outcomeIn ops x := fun x => by simpa [State.init] using hout x
  rw [← hadd']
  simp only [← hout']
  cases op with
  | add x =>
    simp only [State.step] at h
    split at h
    · unfold State.add at h; simp only at h
      split at h
      · split at h <;> cases h
      · cases h
    · cases h
  | complete x o => simp only [State.step] at h; split at h <;> cases h
  | callback x => simp only [State.step] at h; split at h <;> cases h
  | resume =>
    left
    refine ⟨rfl, ?_⟩
    simp only [State.step] at h
    split at h
    · split at h
      · split at h <;> cases h
      · rename_i ha
        split at h
        · cases h
        · split at h
          · rename_i he
            unfold State.exitLoop at h
            split at h
            · rename_i hact
              intro x hx hr
              have h1 := hm (by simp [ha]) he x hx hr
              have h2 := hi.unc (by simp [ha]) x h1
              simp only at hact
              rw [hact] at h2; simp at h2
            · cases h
          · simp [State.leave] at h
      · cases h
    · cases h
  | cancelAdder => simp only [State.step] at h; split at h <;> cases h
  | exit b =>
    right
    simp only [State.step] at h
    split at h
    · rename_i hb
      split at h
      · left
        refine ⟨rfl, ?_⟩
        unfold State.exitLoop at h
        split at h
        · rename_i hact
          intro x hx
          have : x ∉ s.uncalled := by
            intro h1
            have h2 := hi.unc (by simp [hb]) x h1
            rw [hact] at h2; simp at h2
          rcases huc x hx this with h | h
          · simp [State.init] at h
          · exact h
        · cases h
      · right
        split at h
        · rename_i he
          exact ⟨rfl, fun x hx hr => hm (by simp [hb]) he x hx hr⟩
        · simp [State.leave] at h
      · simp [State.leave] at h
    · cases h

/-- Instance: a failure after the end of the body is raised. -/
example : (trace (.init 3) [.add 0, .add 1, .exit .normal, .complete 1 .raised, .callback 1, .resume]).map (·.2) =
    [.returned, .returned, .waits, .none, .none, .leftRaising] := by decide

/-- C25 does not hold: the only task fails while the body still runs; leaving the block raises nothing. -/
theorem C25_dropped_violated :
    let ops : List Op := [.add 0, .complete 0 .raised, .callback 0, .exit .normal]
    (trace (.init 2) ops).map (·.2) = [.returned, .none, .none, .leftNormally] ∧ outcomeIn ops 0 = some .raised := by decide

/-- C25 does not hold: a task failed and the body is cancelled before the failure was processed. -/
theorem C25_body_cancelled_violated :
    let ops : List Op := [.add 0, .complete 0 .raised, .exit .cancelled]
    (trace (.init 2) ops).map (·.2) = [.returned, .none, .leftNormally] ∧ outcomeIn ops 0 = some .raised := by decide

end Verif.ScarletExecutor
